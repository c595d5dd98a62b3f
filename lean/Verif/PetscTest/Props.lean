import Verif.PetscTest.Model
import Verif.PetscIO.OptProps
import Mathlib.Algebra.Order.Group.Unbundled.Abs
import Mathlib.Algebra.BigOperators.Ring.Finset
import Mathlib.Algebra.Order.BigOperators.Group.List
import Mathlib.Tactic.Linarith
import Mathlib.Tactic.FieldSimp
import Mathlib.Tactic.Ring
import Mathlib.Tactic.NormNum

/-!
# C104: what the comparison with a solver of PETSc accepts
-/

namespace Blasted

open Finset

section
variable {K : Type} [Field K] [LinearOrder K] [IsStrictOrderedRing K]

/-! ### Specification -/

/-- A run that the program does not object to. -/
def RunOk (eps : K) (r : KspResult K) (t : RunTimes K) : Prop := 0 < r.reason ∧ eps < t.factorwall ∧ eps < t.applywall ∧ 0 ≤ t.factorcpu ∧ 0 ≤ t.applycpu

/-- Acceptable information about a preconditioner. -/
def NumbersOk (nthreads : Nat) (p : PrecNumbers K) : Prop :=
  0 < p.remInitial ∧ p.rem < p.remInitial ∧ (nthreads = 1 → p.rem < 1 / 10 ^ 11) ∧ p.upperAvg < 1 ∧ p.upperMin ≤ 1 ∧ p.lowerAvg < 1 ∧ p.lowerMin ≤ 1

/-- One entry more than there are runs, all of them acceptable, if the information was asked for; no list at all otherwise. -/
def InfoOk (nthreads N : Nat) (test : Bool) (pilist : Option (List (PrecNumbers K))) : Prop :=
  (test = true → ∃ l, pilist = some l ∧ l.length = N + 1 ∧ ∀ p ∈ l, NumbersOk nthreads p) ∧ (test = false → pilist = none)

/-- The value of an integer option with a default, which counts if the option is absent or has no value. -/
def IntOption (P : PetscSys K) (name : String) (dflt v : Int) : Prop := ((P.db name = none ∨ P.db name = some none) ∧ v = dflt) ∨ ∃ s, P.db name = some (some s) ∧ P.toInt s = .ok v

/-- The value of a real option with a default, which counts if the option is absent or has no value. -/
def RealOption (P : PetscSys K) (name : String) (dflt v : K) : Prop := ((P.db name = none ∨ P.db name = some none) ∧ v = dflt) ∨ ∃ s, P.db name = some (some s) ∧ P.toReal s = .ok v

/-- The value of a switch: false if it is absent, true if it has no value. -/
def Switch (P : PetscSys K) (name : String) (v : Bool) : Prop :=
  (P.db name = none ∧ v = false) ∨ (P.db name = some none ∧ v = true) ∨ ∃ s, P.db name = some (some s) ∧ P.toBool s = .ok v

/-! ### Lemmas -/

theorem bind_ok_iff {α β : Type} {m : C α} {f : α → C β} {r : β} : (m >>= f) = .ok r ↔ ∃ a, m = .ok a ∧ f a = .ok r := by
  cases m with
  | error e => simp [error_bind]
  | ok a => simp [ok_bind]

theorem cassert_ok_iff {b : Bool} {u : Unit} : cassert b = .ok u ↔ b = true := by
  cases u
  unfold cassert
  cases b <;> simp

omit [Field K] [LinearOrder K] [IsStrictOrderedRing K] in
theorem tail_unit {p : Prop} : (∃ _ : Unit, p) ↔ p := ⟨fun ⟨_, h⟩ => h, fun h => ⟨(), h⟩⟩

theorem assertQuotient_ok {a b tol : K} (hb : 0 ≤ b) {u : Unit} : assertQuotient a b tol = .ok u ↔ b ≠ 0 ∧ a ≤ tol * b := by
  unfold assertQuotient
  by_cases h : b = 0
  · simp [h]
  · rw [if_neg h, cassert_ok_iff, decide_eq_true_iff, div_le_iff₀ (lt_of_le_of_ne hb (Ne.symm h))]
    exact ⟨fun g => ⟨h, g⟩, fun g => g.2⟩

omit [IsStrictOrderedRing K] in
theorem comparisonRun_ok {eps : K} {r : KspResult K} {t : RunTimes K} {st st' : Int × List K} :
    comparisonRun eps r t st = .ok st' ↔ RunOk eps r t ∧ st' = (st.1 + r.iters, List.zipWith (fun a b => a + 1 * b) st.2 r.sol) := by
  unfold comparisonRun RunOk
  simp only [bind_ok_iff, cassert_ok_iff, decide_eq_true_iff, tail_unit, Except.ok.injEq, and_assoc, eq_comm (a := st')]

omit [IsStrictOrderedRing K] in
theorem comparisonRuns_ok {eps : K} {n : Nat} {run : Nat → KspResult K} {times : Nat → RunTimes K} (hn : ∀ i, (run i).sol.length = n) (N : Nat) {st : Int × List K} :
    forRange 0 N (fun i st => comparisonRun eps (run i) (times i) st) (0, List.replicate n 0) = .ok st ↔
      (∀ i < N, RunOk eps (run i) (times i)) ∧ st = (∑ i ∈ range N, (run i).iters, (List.range n).map fun a => ∑ i ∈ range N, (run i).sol⟦a⟧) := by
  induction N generalizing st with
  | zero =>
    rw [forRange_self, Except.ok.injEq]
    have : List.replicate n (0 : K) = (List.range n).map fun a => ∑ i ∈ range 0, (run i).sol⟦a⟧ := by simp [List.map_const']
    rw [this]
    exact ⟨fun h => ⟨fun i hi => absurd hi (Nat.not_lt_zero i), h.symm⟩, fun h => h.2.symm⟩
  | succ N ih =>
    rw [forRange_succ_right (Nat.zero_le _), bind_ok_iff]
    have hz : List.zipWith (fun a b => a + 1 * b) ((List.range n).map fun a => ∑ i ∈ range N, (run i).sol⟦a⟧) (run N).sol =
        (List.range n).map fun a => ∑ i ∈ range (N + 1), (run i).sol⟦a⟧ := by
      refine List.ext_getElem (by simp [hn N]) fun a h1 h2 => ?_
      have ha : a < n := by simpa using h2
      rw [List.getElem_zipWith, List.getElem_map, List.getElem_range, List.getElem_map, List.getElem_range, sum_range_succ, one_mul, get0_eq_getElem (a := (run N).sol) (by rw [hn N]; exact ha)]
    constructor
    · rintro ⟨a, h1, h2⟩
      obtain ⟨g1, rfl⟩ := ih.mp h1
      obtain ⟨g2, rfl⟩ := comparisonRun_ok.mp h2
      refine ⟨fun i hi => ?_, ?_⟩
      · rcases Nat.lt_succ_iff_lt_or_eq.mp hi with h | rfl
        · exact g1 i h
        · exact g2
      · dsimp only
        rw [hz, sum_range_succ]
    · rintro ⟨g, rfl⟩
      refine ⟨_, ih.mpr ⟨fun i hi => g i (by omega), rfl⟩, comparisonRun_ok.mpr ⟨g N (by omega), ?_⟩⟩
      dsimp only
      rw [hz, sum_range_succ]

omit [IsStrictOrderedRing K] in
theorem checkPrecNumbers_ok {nthreads : Nat} {p : PrecNumbers K} {u : Unit} : checkPrecNumbers nthreads p = .ok u ↔ NumbersOk nthreads p := by
  unfold checkPrecNumbers NumbersOk
  by_cases h : nthreads = 1
  · simp only [bind_ok_iff, cassert_ok_iff, decide_eq_true_iff, tail_unit, h, if_true, true_imp_iff]
  · simp only [bind_ok_iff, cassert_ok_iff, decide_eq_true_iff, tail_unit, h, if_false, false_imp_iff, true_and, ok_bind]

omit [IsStrictOrderedRing K] in
theorem checkInfoList_ok {nthreads N : Nat} {test : Bool} {pilist : Option (List (PrecNumbers K))} {u : Unit} :
    checkInfoList nthreads N test pilist = .ok u ↔ InfoOk nthreads N test pilist := by
  unfold checkInfoList InfoOk
  have hf : ∀ (l : List (PrecNumbers K)) (v w : Unit), l.foldlM (fun _ p => checkPrecNumbers nthreads p) v = .ok w ↔ ∀ p ∈ l, NumbersOk nthreads p := by
    intro l
    induction l with
    | nil => intro v w; simp [pure, Except.pure]
    | cons a l ih =>
      intro v w
      rw [List.foldlM_cons, bind_ok_iff]
      simp only [checkPrecNumbers_ok, ih, List.forall_mem_cons, tail_unit]
  cases test with
  | false =>
    rw [if_neg (by decide), cassert_ok_iff, Option.isNone_iff_eq_none]
    simp
  | true =>
    rw [if_pos rfl]
    cases pilist with
    | none => simp
    | some l =>
      simp only [bind_ok_iff, cassert_ok_iff, decide_eq_true_iff, hf, tail_unit, Option.some.injEq, exists_eq_left', true_imp_iff, Bool.true_eq_false, false_imp_iff, and_true]
      constructor
      · rintro ⟨h1, h2⟩
        exact ⟨by exact_mod_cast h1, h2⟩
      · rintro ⟨h1, h2⟩
        exact ⟨by exact_mod_cast h1, h2⟩

omit [IsStrictOrderedRing K] in
omit [Field K] [LinearOrder K] in
theorem testPrecInfo_eq {P : PetscSys K} {v : Bool} (h : Switch P "-blasted_compute_preconditioner_info" v) : testPrecInfo P = .ok v := by
  unfold testPrecInfo parsePetscCmdBool optGetBool
  rcases h with ⟨h, rfl⟩ | ⟨h, rfl⟩ | ⟨s, h, h'⟩
  · simp [h, petscThrow_zero, ok_bind, notGiven]
  · simp [h, petscThrow_zero, ok_bind]
  · simp [h, h', outOf, petscThrow_zero, ok_bind]

omit [IsStrictOrderedRing K] in
omit [LinearOrder K] in
theorem realOption_eq {P : PetscSys K} {name : String} {dflt v : K} (h : RealOption P name dflt v) : parseOptionalPetscCmdReal P 0 name dflt = .ok v := by
  unfold parseOptionalPetscCmdReal optGetReal
  rcases h with ⟨h | h, rfl⟩ | ⟨s, h, h'⟩
  · simp [h, petscThrow_zero, ok_bind]
  · simp [h, petscThrow_zero, ok_bind]
  · simp [h, h', outOf, petscThrow_zero, ok_bind]

omit [IsStrictOrderedRing K] in
omit [Field K] [LinearOrder K] in
theorem intOption_eq {P : PetscSys K} {name : String} {dflt v : Int} (h : IntOption P name dflt v) :
    (optGetInt P name 0).1 = 0 ∧ (if (optGetInt P name 0).2.2 then (optGetInt P name 0).2.1 else dflt) = v := by
  unfold optGetInt
  rcases h with ⟨h | h, rfl⟩ | ⟨s, h, h'⟩
  · simp [h]
  · simp [h]
  · simp [h, h', outOf]

/-- The difference of two vectors. -/
def vecDiff (n : Nat) (x : List K) (y : Nat → K) : List K := (List.range n).map fun a => x⟦a⟧ - y a

theorem compareSolverWithRef_ok {P : PetscSys K} {eps tol : K} {nrm : List K → K} {tt : List Char} (htt : P.db "-test_type" = some (some tt)) (h0 : '\x00' ∉ tt)
    (htol : RealOption P "-error_tolerance" (2 * eps) tol) (hnrm : ∀ x, 0 ≤ nrm x) {ref avg : Int} (href : 0 ≤ ref) {uref u : List K} {v : Unit} :
    compareSolverWithRef P eps nrm ref avg uref u = .ok v ↔
      ((tt.take 29 = "compare_its".toList ∨ tt.take 29 = "issame".toList) → ref ≠ 0 ∧ |(ref : K) - avg| ≤ tol * ref) ∧
      (tt.take 29 = "upper_bound_its".toList → avg < ref) ∧
      ((tt.take 29 = "compare_error".toList ∨ tt.take 29 = "issame".toList) → nrm uref ≠ 0 ∧ nrm (List.zipWith (fun a b => -1 * a + b) u uref) ≤ tol * nrm uref) := by
  unfold compareSolverWithRef
  rw [(parse_string_correct P "-test_type" (show 0 < 30 by decide)).1 tt htt h0, ok_bind, realOption_eq htol, ok_bind, bind_ok_iff]
  have hr : (0 : K) ≤ (ref : K) := by exact_mod_cast href
  have hr0 : (ref : K) ≠ 0 ↔ ref ≠ 0 := by exact_mod_cast Iff.rfl
  simp only [Nat.reduceSub]
  generalize tt.take 29 = s
  have e1 : ∀ w : Unit, (if s = "compare_its".toList ∨ s = "issame".toList then assertQuotient (|(ref : K) - (avg : K)|) (ref : K) tol
      else if s = "upper_bound_its".toList then cassert (decide (avg < ref)) else .ok ()) = .ok w ↔
      ((s = "compare_its".toList ∨ s = "issame".toList) → ref ≠ 0 ∧ |(ref : K) - avg| ≤ tol * ref) ∧ (s = "upper_bound_its".toList → avg < ref) := by
    intro w
    by_cases g1 : s = "compare_its".toList ∨ s = "issame".toList
    · rw [if_pos g1, assertQuotient_ok hr, hr0]
      refine ⟨fun h => ⟨fun _ => h, fun g2 => ?_⟩, fun h => h.1 g1⟩
      subst g2
      exact absurd g1 (by decide)
    · rw [if_neg g1]
      by_cases g2 : s = "upper_bound_its".toList
      · rw [if_pos g2, cassert_ok_iff, decide_eq_true_iff]
        exact ⟨fun h => ⟨fun g => absurd g g1, fun _ => h⟩, fun h => h.2 g2⟩
      · rw [if_neg g2]
        exact ⟨fun _ => ⟨fun g => absurd g g1, fun g => absurd g g2⟩, fun _ => rfl⟩
  have e2 : ∀ w : Unit, (if s = "compare_error".toList ∨ s = "issame".toList then assertQuotient (nrm (List.zipWith (fun a b => -1 * a + b) u uref)) (nrm uref) tol else .ok ()) = .ok w ↔
      ((s = "compare_error".toList ∨ s = "issame".toList) → nrm uref ≠ 0 ∧ nrm (List.zipWith (fun a b => -1 * a + b) u uref) ≤ tol * nrm uref) := by
    intro w
    by_cases g1 : s = "compare_error".toList ∨ s = "issame".toList
    · rw [if_pos g1, assertQuotient_ok (hnrm _)]
      exact ⟨fun h _ => h, fun h => h g1⟩
    · rw [if_neg g1]
      exact ⟨fun _ g => absurd g g1, fun _ => rfl⟩
  simp only [e1, e2, tail_unit, and_assoc]

/-! ### Theorems -/

/-- **C104** The program that compares a BLASTed solver with one of PETSc ends normally, with error code 0, exactly if the reference and all runs converged, the times are positive, the
information about the preconditioners is there if and only if it was asked for and is acceptable, and, depending on the first 29 characters of the type of the test, the quotient rounded
towards zero of the sum of the iterations by the number of runs is near that of the reference or below it, and the mean of the solutions is near that of the reference. -/
theorem comparison_passes_iff {P : PetscSys K} {eps tol : K} {nrm : List K → K} {nthreads n N : Nat} {ref : KspResult K} {run : Nat → KspResult K} {times : Nat → RunTimes K}
    {pilist : Option (List (PrecNumbers K))} {tt : List Char} {test : Bool}
    (htt : P.db "-test_type" = some (some tt)) (h0 : '\x00' ∉ tt) (htol : RealOption P "-error_tolerance" (2 * eps) tol) (hN : IntOption P "-num_runs" 1 N) (hN1 : 1 ≤ N)
    (htest : Switch P "-blasted_compute_preconditioner_info" test) (hnrm : ∀ x, 0 ≤ nrm x) (href : 0 ≤ ref.iters) (hrl : ref.sol.length = n) (hn : ∀ i, (run i).sol.length = n) :
    runComparison P eps nrm nthreads n ref run times pilist = .ok 0 ↔
      0 < ref.reason ∧ (∀ i < N, RunOk eps (run i) (times i)) ∧ InfoOk nthreads N test pilist ∧
      ((tt.take 29 = "compare_its".toList ∨ tt.take 29 = "issame".toList) →
        ref.iters ≠ 0 ∧ |(ref.iters : K) - ((∑ i ∈ range N, (run i).iters).tdiv N : Int)| ≤ tol * ref.iters) ∧
      (tt.take 29 = "upper_bound_its".toList → (∑ i ∈ range N, (run i).iters).tdiv N < ref.iters) ∧
      ((tt.take 29 = "compare_error".toList ∨ tt.take 29 = "issame".toList) →
        nrm ref.sol ≠ 0 ∧ nrm (vecDiff n ref.sol fun a => (∑ i ∈ range N, (run i).sol⟦a⟧) / N) ≤ tol * nrm ref.sol) := by
  obtain ⟨o1, o2⟩ := intOption_eq hN
  have hdiff : List.zipWith (fun a b => -1 * a + b) (((List.range n).map fun a => ∑ i ∈ range N, (run i).sol⟦a⟧).map fun v => (1 / ((N : Int) : K)) * v) ref.sol =
      vecDiff n ref.sol fun a => (∑ i ∈ range N, (run i).sol⟦a⟧) / N := by
    unfold vecDiff
    refine List.ext_getElem (by simp [hrl]) fun a h1 h2 => ?_
    have ha : a < n := by simpa using h2
    rw [List.getElem_zipWith, List.getElem_map, List.getElem_map, List.getElem_range, List.getElem_map, List.getElem_range, get0_eq_getElem (a := ref.sol) (by rw [hrl]; exact ha)]
    push_cast
    ring
  unfold runComparison
  dsimp only
  rw [if_neg (by rw [o1]; decide), o2, testPrecInfo_eq htest, Int.toNat_natCast]
  have hN0 : ((N : Int) = 0) = False := eq_false (by omega)
  simp only [hN0, if_false]
  simp only [bind_ok_iff, cassert_ok_iff, decide_eq_true_iff, comparisonRuns_ok hn, checkInfoList_ok, compareSolverWithRef_ok htt h0 htol hnrm href, Except.ok.injEq, tail_unit, and_true]
  constructor
  · rintro ⟨h1, st, ⟨h2, rfl⟩, t, rfl, h3, h4⟩
    rw [hdiff] at h4
    exact ⟨h1, h2, h3, h4⟩
  · rintro ⟨h1, h2, h3, h4⟩
    refine ⟨h1, _, ⟨h2, rfl⟩, test, rfl, h3, ?_⟩
    rw [hdiff]
    exact h4

omit [IsStrictOrderedRing K] in
/-- **C104**, negative: the program announces that without a type it tests `issame`, but then it ends with an exception however good the runs are. -/
theorem comparison_needs_type {P : PetscSys K} {eps : K} {nrm : List K → K} {nthreads n N : Nat} {ref : KspResult K} {run : Nat → KspResult K} {times : Nat → RunTimes K}
    {pilist : Option (List (PrecNumbers K))} {test : Bool} (htt : P.db "-test_type" = none) (hN : IntOption P "-num_runs" 1 N) (hN1 : 1 ≤ N)
    (htest : Switch P "-blasted_compute_preconditioner_info" test) (hn : ∀ i, (run i).sol.length = n)
    (hr : 0 < ref.reason) (hruns : ∀ i < N, RunOk eps (run i) (times i)) (hinf : InfoOk nthreads N test pilist) :
    ∃ e, runComparison P eps nrm nthreads n ref run times pilist = .error e ∧ IsNotGiven "String" "-test_type" e := by
  obtain ⟨o1, o2⟩ := intOption_eq hN
  obtain ⟨e, e1, e2⟩ := (parse_string_correct P "-test_type" (show 0 < 30 by decide)).2.2 htt
  refine ⟨e, ?_, e2⟩
  unfold runComparison
  dsimp only
  rw [if_neg (by rw [o1]; decide), o2, testPrecInfo_eq htest, Int.toNat_natCast, (cassert_ok_iff (u := ())).mpr (by simpa using hr), ok_bind,
    (comparisonRuns_ok hn N).mpr ⟨hruns, rfl⟩, ok_bind, ok_bind, (checkInfoList_ok (u := ())).mpr hinf, ok_bind, if_neg (by omega)]
  unfold compareSolverWithRef
  rw [e1, error_bind, error_bind]

omit [IsStrictOrderedRing K] in
/-- **C104**, negative: without any run the program divides by zero and converts the result to an integer, which is undefined. -/
theorem comparison_without_runs {P : PetscSys K} {eps : K} {nrm : List K → K} {nthreads n : Nat} {ref : KspResult K} {run : Nat → KspResult K} {times : Nat → RunTimes K}
    {pilist : Option (List (PrecNumbers K))} {test : Bool} (hN : IntOption P "-num_runs" 1 (0 : Nat)) (htest : Switch P "-blasted_compute_preconditioner_info" test)
    (hr : 0 < ref.reason) (hinf : InfoOk nthreads 0 test pilist) : runComparison P eps nrm nthreads n ref run times pilist = .error .ub := by
  obtain ⟨o1, o2⟩ := intOption_eq hN
  unfold runComparison
  dsimp only
  rw [if_neg (by rw [o1]; decide), o2, testPrecInfo_eq htest, Int.toNat_natCast, (cassert_ok_iff (u := ())).mpr (by simpa using hr), ok_bind, forRange_self, ok_bind, ok_bind,
    (checkInfoList_ok (u := ())).mpr hinf, ok_bind]
  exact if_pos Nat.cast_zero

end

/-- **C104** When the function that sets the numbers of sweeps returns, whatever PETSc makes of the text, the numbers read by the library are those, and no other option has changed. -/
theorem set_sweeps_sound {Real : Type} {P P' : PetscSys Real} (hP : P.Sound) {g : List Int} {nb na : Int} (h : setBlastedSweeps P g nb na = .ok P') :
    parsePetscCmdIntArray P' "-blasted_async_sweeps" 2 = .ok [nb, na] ∧ ∀ name ≠ "-blasted_async_sweeps", P'.db name = P.db name := by
  have hdb : (setOption P "-blasted_async_sweeps" (sweepsText nb na)).db "-blasted_async_sweeps" = some (some (sweepsText nb na)) := by simp [setOption]
  have hsound : (setOption P "-blasted_async_sweeps" (sweepsText nb na)).Sound := ⟨hP.1, hP.2, hP.3, hP.4, hP.5, hP.6, hP.7, hP.8⟩
  unfold setBlastedSweeps at h
  dsimp only at h
  cases hv : P.toInts (sweepsText nb na) 2 with
  | error c =>
    have hc := hP.ints_code _ _ _ hv
    have hr : (optGetIntArray (setOption P "-blasted_async_sweeps" (sweepsText nb na)) "-blasted_async_sweeps" g 2).1 = c := by
      unfold optGetIntArray
      rw [hdb]
      simp only [setOption, hv]
    obtain ⟨ty, msg, e⟩ := (petsc_throw_zero_iff (setOption P "-blasted_async_sweeps" (sweepsText nb na)) c).2 (by have := hP.min_nonneg; omega)
    rw [hr, e, error_bind] at h
    exact absurd h (by simp)
  | ok vs =>
    have hr : optGetIntArray (setOption P "-blasted_async_sweeps" (sweepsText nb na)) "-blasted_async_sweeps" g 2 = (0, vs ++ g.drop vs.length, vs.length, true) := by
      unfold optGetIntArray
      rw [hdb]
      simp only [setOption, hv]
    have hl := hP.ints_room _ _ _ hv
    rw [hr, petscThrow_zero, ok_bind] at h
    dsimp only at h
    match vs, hl with
    | [], _ => simp at h
    | [a], _ =>
      by_cases ha : a = nb <;> simp [ha] at h
    | [a, b], _ =>
      by_cases ha : a = nb
      · by_cases hb : b = na
        · subst ha hb
          simp at h
          subst h
          refine ⟨((parse_int_array_correct hsound "-blasted_async_sweeps" (maxlen := 2) (by decide)).1 _ _ hdb hv).1, fun name hne => ?_⟩
          simp [setOption, hne]
        · simp [ha, hb] at h
      · simp [ha] at h
    | a :: b :: c :: l, hl => simp at hl

/-- **C104** It returns if PETSc reads the two numbers separated by a comma. -/
theorem set_sweeps_returns {Real : Type} {P : PetscSys Real} {g : List Int} {nb na : Int} (h : P.toInts (sweepsText nb na) 2 = .ok [nb, na]) :
    ∃ P', setBlastedSweeps P g nb na = .ok P' := by
  unfold setBlastedSweeps
  simp [optGetIntArray, setOption, h, petscThrow_zero, ok_bind]

/-- **C104** The size of the blocks is one for the types of matrices without blocks, whatever PETSc says about blocks, that of the matrix for those with blocks; for other types there is an
exception, and so for every error of PETSc. -/
theorem block_size_correct {Real : Type} (P : PetscSys Real) (e1 e2 bs : Int) (t : String) :
    (e1 = 0 → e2 = 0 → t ∈ ["seqaij", "seqaijmkl", "mpiaij", "mpiaijmkl"] → getBlockSize P (e1, bs) (e2, t) = .ok 1) ∧
    (e1 = 0 → e2 = 0 → t ∈ ["seqbaij", "seqbaijmkl", "mpibaij", "mpibaijmkl"] → getBlockSize P (e1, bs) (e2, t) = .ok bs) ∧
    ((e1 ≠ 0 ∨ e2 ≠ 0 ∨ t ∉ ["seqaij", "seqaijmkl", "mpiaij", "mpiaijmkl", "seqbaij", "seqbaijmkl", "mpibaij", "mpibaijmkl"]) →
      ∃ ty msg, getBlockSize P (e1, bs) (e2, t) = .error (.throw ty msg)) := by
  unfold getBlockSize
  refine ⟨?_, ?_, ?_⟩
  · rintro rfl rfl ht
    rw [petscThrow_zero, ok_bind, ok_bind, if_pos (by simpa using ht)]
  · rintro rfl rfl ht
    rw [petscThrow_zero, ok_bind, ok_bind, if_neg, if_pos (by simpa using ht)]
    simp only [List.mem_cons, List.not_mem_nil, or_false] at ht
    rcases ht with rfl | rfl | rfl | rfl <;> decide
  · intro h
    by_cases h1 : e1 = 0
    · subst h1
      rw [petscThrow_zero, ok_bind]
      by_cases h2 : e2 = 0
      · subst h2
        rw [petscThrow_zero, ok_bind]
        simp only [ne_eq, not_true_eq_false, false_or, List.mem_cons, List.not_mem_nil, or_false, not_or] at h
        rw [if_neg (by tauto), if_neg (by tauto)]
        exact ⟨_, _, rfl⟩
      · obtain ⟨ty, msg, e⟩ := (petsc_throw_zero_iff P e2).2 h2
        exact ⟨ty, msg, by rw [e, error_bind]⟩
    · obtain ⟨ty, msg, e⟩ := (petsc_throw_zero_iff P e1).2 h1
      exact ⟨ty, msg, by rw [e, error_bind]⟩

/-! ### Examples -/

/-- Options for a test of type `issame` with two runs and tolerance zero. -/
def exCmpSys : PetscSys ℚ where
  db name := if name = "-test_type" then some (some "issame".toList) else if name = "-num_runs" then some (some ['2']) else if name = "-error_tolerance" then some (some ['0']) else none
  toInt s := if s = ['2'] then .ok 2 else .error 83
  toReal s := if s = ['0'] then .ok 0 else .error 83
  toBool s := if s = ['1'] then .ok true else .error 83
  toInts s k := if s = ['3', ',', '5'] then .ok (([3, 5] : List Int).take k) else .error 83
  errMin := 54
  errMax := 99
  message c := (0, some "Invalid argument", if c = 83 then some "Integer value not known" else none)

/-- The sum of the absolute values in the place of a norm. -/
def exCmpNorm (x : List ℚ) : ℚ := (x.map fun v => |v|).sum

/-- Two runs with 10 and 11 iterations. -/
def exCmpRun (i : Nat) : KspResult ℚ := ⟨2, if i = 0 then 10 else 11, if i = 0 then [1, 2] else [3, 2]⟩

/-- **C104**, negative: the mean of the numbers of iterations is rounded towards zero before the comparison: a test that asks for the same number of iterations with tolerance zero is passed by
runs of 10 and 11 iterations against a reference with 10. -/
theorem comparison_rounds_mean :
    runComparison exCmpSys (1 / 2 ^ 52) exCmpNorm 4 2 ⟨2, 10, [2, 2]⟩ exCmpRun (fun _ => ⟨1, 1, 0, 0⟩) none = .ok 0 ∧ ((exCmpRun 0).iters + (exCmpRun 1).iters : ℚ) / 2 ≠ 10 := by
  decide +kernel

-- the hypotheses of `comparison_passes_iff` hold for these runs
example : exCmpSys.db "-test_type" = some (some "issame".toList) ∧ RealOption exCmpSys "-error_tolerance" (2 * (1 / 2 ^ 52)) 0 ∧ IntOption exCmpSys "-num_runs" 1 (2 : Nat) ∧
    Switch exCmpSys "-blasted_compute_preconditioner_info" false ∧ (∀ x, 0 ≤ exCmpNorm x) ∧ ∀ i, (exCmpRun i).sol.length = 2 := by
  refine ⟨by decide +kernel, Or.inr ⟨['0'], by decide +kernel⟩, Or.inr ⟨['2'], by decide +kernel⟩, Or.inl (by decide +kernel), fun x => ?_, fun i => ?_⟩
  · exact List.sum_nonneg fun y hy => by
      obtain ⟨v, -, rfl⟩ := List.mem_map.mp hy
      exact abs_nonneg v
  · unfold exCmpRun
    by_cases h : i = 0 <;> simp [h]

-- one iteration more in the reference or another mean of the solutions and the test fails; 0 iterations of the reference are never accepted
example : runComparison exCmpSys (1 / 2 ^ 52) exCmpNorm 4 2 ⟨2, 11, [2, 2]⟩ exCmpRun (fun _ => ⟨1, 1, 0, 0⟩) none = .error .abort ∧
    runComparison exCmpSys (1 / 2 ^ 52) exCmpNorm 4 2 ⟨2, 10, [1, 2]⟩ exCmpRun (fun _ => ⟨1, 1, 0, 0⟩) none = .error .abort ∧
    runComparison exCmpSys (1 / 2 ^ 52) exCmpNorm 4 2 ⟨2, 0, [2, 2]⟩ exCmpRun (fun _ => ⟨1, 1, 0, 0⟩) none = .error .abort := by
  decide +kernel

-- without a type, the same runs end with the exception
example : ∃ e, runComparison { exCmpSys with db := fun name => if name = "-num_runs" then some (some ['2']) else none } (1 / 2 ^ 52) exCmpNorm 4 2 ⟨2, 10, [2, 2]⟩ exCmpRun (fun _ => ⟨1, 1, 0, 0⟩) none = .error e ∧
    IsNotGiven "String" "-test_type" e :=
  comparison_needs_type (N := 2) (test := false) (by decide +kernel) (Or.inr ⟨['2'], by decide +kernel⟩) (by decide) (Or.inl (by decide +kernel))
    (fun i => by unfold exCmpRun; by_cases h : i = 0 <;> simp [h]) (by decide) (fun i _ => ⟨by simp [exCmpRun], by norm_num⟩) ⟨by simp, by simp⟩

-- no run at all
example : runComparison { exCmpSys with db := fun name => if name = "-num_runs" then some (some ['2']) else none, toInt := fun _ => .ok 0 } (1 / 2 ^ 52) exCmpNorm 4 2 ⟨2, 10, [2, 2]⟩ exCmpRun
    (fun _ => ⟨1, 1, 0, 0⟩) none = .error .ub :=
  comparison_without_runs (test := false) (Or.inr ⟨['2'], by decide +kernel⟩) (Or.inl (by decide +kernel)) (by decide) ⟨by simp, by simp⟩

theorem exCmpSys_sound : exCmpSys.Sound where
  min_nonneg := by decide
  int_code s c h := by
    simp only [exCmpSys] at h ⊢
    split at h <;> simp_all
    omega
  real_code s c h := by
    simp only [exCmpSys] at h ⊢
    split at h <;> simp_all
    omega
  bool_code s c h := by
    simp only [exCmpSys] at h ⊢
    split at h <;> simp_all
    omega
  ints_code s k c h := by
    simp only [exCmpSys] at h ⊢
    split at h <;> simp_all
    omega
  null_code := by decide
  has_text c _ _ := ⟨rfl, _, rfl⟩
  ints_room s k vs h := by
    simp only [exCmpSys] at h
    split at h <;> simp_all
    rw [← h]
    simp

-- 3 and 5 sweeps are set
example : ∃ P', setBlastedSweeps exCmpSys [] 3 5 = .ok P' ∧ parsePetscCmdIntArray P' "-blasted_async_sweeps" 2 = .ok [3, 5] := by
  obtain ⟨P', h⟩ := set_sweeps_returns (P := exCmpSys) (g := []) (nb := 3) (na := 5) (by decide +kernel)
  exact ⟨P', h, (set_sweeps_sound exCmpSys_sound h).1⟩

-- if PETSc does not read the numbers back, there is an exception
example : ∃ e, setBlastedSweeps exCmpSys [] 3 4 = .error e := ⟨.throw "Petsc_exception" "PETSc error: Invalid argument Integer value not known", by
  unfold setBlastedSweeps
  have : (optGetIntArray (setOption exCmpSys "-blasted_async_sweeps" (sweepsText 3 4)) "-blasted_async_sweeps" [] 2).1 = 83 := by decide +kernel
  dsimp only
  rw [this]
  rfl⟩

example : getBlockSize exCmpSys (0, 4) (0, "seqbaij") = .ok 4 ∧ getBlockSize exCmpSys (0, 4) (0, "seqaij") = .ok 1 ∧
    getBlockSize exCmpSys (0, 4) (0, "seqdense") = .error (.throw "std::runtime_error" "Unsupported matrix type seqdense") := by
  decide +kernel

end Blasted
