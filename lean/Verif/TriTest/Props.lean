import Verif.TriTest.Lemmas
import Verif.ConvTest.Props
import Verif.Race.SeqExec

/-!
# C95: the convergence test of the asynchronous triangular solves

Exactly when the test passes; for which schedules it must pass; that it also fails without any fault of the solves.
-/

namespace Blasted

open Finset

section
variable {K : Type} [Field K] [LinearOrder K] [IsStrictOrderedRing K]
variable {tiny lowest tol : K} {parts : List Nat → List (List Nat)} {A : SR K} {pos : ILUPos} {ord : List Nat} {isq : K → K} {us : Bool} {u yl yu : List K} {M : Int}
variable {runL runU : Nat → List K → List K} {fuel L : Nat} {initialization : String}

/-- The right hand side of the test. -/
abbrev rhs11 (A : SR K) : List K := List.replicate A.nbrows (11 / 10)

omit [IsStrictOrderedRing K] in
/-- **C95** The two exact solutions exist, are unique, and are what the sequential passes of the program compute. -/
theorem triangular_test_solutions (hA : A.Full) (hS : A.Sorted) (hD : A.HasDiag) (hu : u.length = A.browptr⟦A.nbrows⟧) (hp : PivotsOk A u) :
    (∃ yl, LowerSolved A u yl ∧ getExactLowerSolve A u (rhs11 A) = .ok yl ∧ ∀ y, LowerSolved A u y → y = yl) ∧
    (∃ yu, UpperSolved A u yu ∧ getExactUpperSolve A u (rhs11 A) = .ok yu ∧ ∀ y, UpperSolved A u y → y = yu) := by
  obtain ⟨dinv, hd⟩ := exists_dinv hA hS hD hu hp
  have hl := rowUpd_unitLower (M := K) hA hS hD hu (rhs := rhs11 A) (by simp)
  have hup := rowUpd_upper (M := K) hA hS hD hu hd (rhs := rhs11 A) (by simp)
  constructor
  · obtain ⟨y, h1, h2⟩ := hl.fwd (fun _ _ h => h.2) (le_refl 1) (x := List.replicate A.nbrows 0) (by simp)
    rw [← lowerSolved_iff hA hS hD hu] at h2
    refine ⟨y, h2, ?_, fun y' h' => ?_⟩
    · rw [← h1]
      unfold getExactLowerSolve fwdSweeps
      rw [show (forRange 0 1 _ _ : C (List K)) = _ from forList_cons 0 [] _ _]
      cases forRange 0 A.nbrows (updRow (unitLowerRow A u (rhs11 A))) (List.replicate A.nbrows 0) <;> rfl
    · have h3 := (lowerSolved_iff hA hS hD hu).mp h'
      have h4 := (lowerSolved_iff hA hS hD hu).mp h2
      exact list_ext0 (by rw [h3.1, h4.1]) fun i hi => hl.unique (rank := fun i => i) (fun _ _ _ _ h => h.2) h3.2 h4.2 i (by rw [← h3.1]; exact hi)
  · obtain ⟨y, h1, h2⟩ := hup.bwd (fun _ _ h => h.2) (le_refl 1) (x := List.replicate A.nbrows 0) (by simp)
    rw [← upperSolved_iff hA hS hD hu hd] at h2
    refine ⟨y, h2, ?_, fun y' h' => ?_⟩
    · rw [← h1]
      unfold getExactUpperSolve bwdSweeps
      rw [show (forRange 0 1 _ _ : C (List K)) = _ from forList_cons 0 [] _ _]
      cases forDown 0 A.nbrows (updRow (upperRow A u (rhs11 A))) (List.replicate A.nbrows 0) <;> rfl
    · have h3 := (upperSolved_iff hA hS hD hu hd).mp h'
      have h4 := (upperSolved_iff hA hS hD hu hd).mp h2
      exact list_ext0 (by rw [h3.1, h4.1]) fun i hi => hup.unique (rank := fun i => A.nbrows - i) (fun i hi j hj h => by have := h.2; show A.nbrows - j < A.nbrows - i; omega) h3.2 h4.2 i
        (by rw [← h3.1]; exact hi)

variable (hs : ConvSetting A pos ord) (hN : NormSetting tiny lowest parts) (hu : u.length = A.browptr⟦A.nbrows⟧) (he : ExactILU A (scaledEntry isq us A) u) (hp : PivotsOk A u)
  (hyl : LowerSolved A u yl) (hyu : UpperSolved A u yu)
include hs hN hu he hp hyl hyu

omit [IsStrictOrderedRing K] in
/-- The whole test is the two runs. -/
theorem testAsyncTriangular_eq : testAsyncTriangular tiny lowest parts isq us A pos ord initialization tol M runL runU fuel = (do
    let _ ← runFullyAsyncTest tiny lowest parts A ord yl initialization tol M runL fuel
    let _ ← runFullyAsyncTest tiny lowest parts A ord yu initialization tol M runU fuel
    .ok ()) := by
  obtain ⟨sc, h1, h2⟩ := testScale_ok hs isq us
  obtain ⟨⟨yl', g1, g2, g3⟩, ⟨yu', g4, g5, g6⟩⟩ := triangular_test_solutions hs.full hs.sorted hs.diag hu hp
  obtain rfl := g3 yl hyl
  obtain rfl := g6 yu hyu
  have hup : UsedPivotsOk A u := fun i hi p hpr _ => hp _ (hs.full.col_lt p (hs.full.lt_nnz hi hpr.2))
  unfold testAsyncTriangular
  rw [h1, ok_bind, getExactILU_complete hs h2 hu he hup, ok_bind]
  dsimp only
  rw [g2, ok_bind, g5, ok_bind, maxnorm_eq hN.tiny_pos hN.lowest_le hN.parts_ok, ok_bind, maxnorm_eq hN.tiny_pos hN.lowest_le hN.parts_ok, ok_bind]

omit [IsStrictOrderedRing K] in
/-- **C95** Begun with zero the test passes if and only if both sequences of errors settle: the first number of sweeps with an error below the tolerance is at most the maximum, and the errors of the two
runs after it are below the tolerance too. Otherwise an assertion fails. -/
theorem triangular_test_outcome (hrunL : ∀ s, (runL s (List.replicate A.nbrows 0)).length = A.nbrows) (hrunU : ∀ s, (runU s (List.replicate A.nbrows 0)).length = A.nbrows)
    (hf : M + 2 ≤ fuel) :
    (Settles tol M (fun s => solveError tiny "zero" yl (runL s (List.replicate A.nbrows 0))) ∧ Settles tol M (fun s => solveError tiny "zero" yu (runU s (List.replicate A.nbrows 0))) →
      testAsyncTriangular tiny lowest parts isq us A pos ord "zero" tol M runL runU fuel = .ok ()) ∧
    (¬ (Settles tol M (fun s => solveError tiny "zero" yl (runL s (List.replicate A.nbrows 0))) ∧ Settles tol M (fun s => solveError tiny "zero" yu (runU s (List.replicate A.nbrows 0)))) →
      testAsyncTriangular tiny lowest parts isq us A pos ord "zero" tol M runL runU fuel = .error .abort) := by
  rw [testAsyncTriangular_eq hs hN hu he hp hyl hyu]
  obtain ⟨h1, h2⟩ := runFullyAsyncTest_zero (tol := tol) hN hs.ord_perm hyl.1 hrunL hf
  obtain ⟨h3, h4⟩ := runFullyAsyncTest_zero (tol := tol) hN hs.ord_perm hyu.1 hrunU hf
  constructor
  · rintro ⟨g1, g2⟩
    obtain ⟨st, e1, -⟩ := h1 g1
    obtain ⟨st', e2, -⟩ := h3 g2
    rw [e1, ok_bind, e2, ok_bind]
  · intro g
    by_cases g1 : Settles tol M (fun s => solveError tiny "zero" yl (runL s (List.replicate A.nbrows 0)))
    · obtain ⟨st, e1, -⟩ := h1 g1
      rw [e1, ok_bind, h4 fun g2 => g ⟨g1, g2⟩, error_bind]
    · rw [h2 g1, error_bind]

omit [IsStrictOrderedRing K] in
/-- **C95** Begun with the solutions the test passes if and only if all errors are below the tolerance. -/
theorem triangular_test_outcome_exact (hrunL : ∀ s, (runL s yl).length = A.nbrows) (hrunU : ∀ s, (runU s yu).length = A.nbrows) (hf : M ≤ fuel) :
    ((∀ s : Nat, (s : Int) < M → solveError tiny "exact" yl (runL s yl) < tol ∧ solveError tiny "exact" yu (runU s yu) < tol) →
      testAsyncTriangular tiny lowest parts isq us A pos ord "exact" tol M runL runU fuel = .ok ()) ∧
    ((∃ s : Nat, (s : Int) < M ∧ (tol ≤ solveError tiny "exact" yl (runL s yl) ∨ tol ≤ solveError tiny "exact" yu (runU s yu))) →
      testAsyncTriangular tiny lowest parts isq us A pos ord "exact" tol M runL runU fuel = .error .abort) := by
  rw [testAsyncTriangular_eq hs hN hu he hp hyl hyu]
  obtain ⟨h1, h2⟩ := runFullyAsyncTest_exact (tol := tol) hN hs.ord_perm hyl.1 hrunL hf
  obtain ⟨h3, h4⟩ := runFullyAsyncTest_exact (tol := tol) hN hs.ord_perm hyu.1 hrunU hf
  constructor
  · intro g
    obtain ⟨r, e1⟩ := h1 fun s h => (g s h).1
    obtain ⟨r', e2⟩ := h3 fun s h => (g s h).2
    rw [e1, ok_bind, e2, ok_bind]
  · rintro ⟨s, g1, g2⟩
    by_cases g3 : ∃ s : Nat, (s : Int) < M ∧ tol ≤ solveError tiny "exact" yl (runL s yl)
    · rw [h2 g3, error_bind]
    · have g4 : tol ≤ solveError tiny "exact" yu (runU s yu) := g2.resolve_left fun h => g3 ⟨s, g1, h⟩
      push Not at g3
      obtain ⟨r, e1⟩ := h1 g3
      rw [e1, ok_bind, h4 ⟨s, g1, g4⟩, error_bind]

omit [IsStrictOrderedRing K] in
/-- **C95** Any other name of an initial guess is refused with an exception. -/
theorem triangular_test_bad_name (h1 : initialization ≠ "exact") (h2 : initialization ≠ "zero") :
    testAsyncTriangular tiny lowest parts isq us A pos ord initialization tol M runL runU fuel = .error (.throw "std::runtime_error" "Invalid initialization!") := by
  rw [testAsyncTriangular_eq hs hN hu he hp hyl hyu, runFullyAsyncTest_other h1 h2, error_bind]

omit [IsStrictOrderedRing K] in
omit hN he hyu hp in
omit [LinearOrder K] in
/-- The runs of the lower solve are exact as soon as the sweeps suffice. -/
theorem lower_runs_exact {x0 x : List K} (hx0 : x0.length = A.nbrows) (hL : 1 ≤ L) {s : Nat} (hsw : A.nbrows * (2 * L - 1) ≤ s)
    (h : AsyncExec (Lag A.nbrows L) A.nbrows (s * A.nbrows) (unitLowerP A u (rhs11 A)) x0 x) : x = yl := by
  have hl := rowUpd_unitLower (M := K) hs.full hs.sorted hs.diag hu (rhs := rhs11 A) (by simp)
  obtain ⟨log, last, h1, rfl⟩ := h.rounds (upd := unitLowerRow A u (rhs11 A)) ⟨evals_unitLowerP A u _, fun i hi => once_unitLowerP hs.sorted hs.diag u _ hi⟩ hx0 (k := A.nbrows + (1 - A.nbrows)) hL (by omega)
    (fun hne => by rw [show 1 - A.nbrows = 0 by omega]; exact hsw)
  obtain ⟨h2, h3⟩ := hl.rounds mixOk_whole (rank := fun i => i) (fun _ _ _ _ h => h.2) (fun i hi => by omega) ((lowerSolved_iff hs.full hs.sorted hs.diag hu).mp hyl).2 hx0 h1
  exact list_ext0 (by rw [h2, hyl.1]) fun i hi => h3 i (by rw [← h2]; exact hi)

omit [IsStrictOrderedRing K] in
omit hN he hyl in
/-- The runs of the upper solve are exact as soon as the sweeps suffice. -/
theorem upper_runs_exact {x0 x : List K} (hx0 : x0.length = A.nbrows) (hL : 1 ≤ L) {s : Nat} (hsw : A.nbrows * (2 * L - 1) ≤ s)
    (h : AsyncExec (Lag A.nbrows L) A.nbrows (s * A.nbrows) (upperP A u (rhs11 A)) x0 x) : x = yu := by
  obtain ⟨dinv, hd⟩ := exists_dinv hs.full hs.sorted hs.diag hu hp
  have hl := rowUpd_upper (M := K) hs.full hs.sorted hs.diag hu hd (rhs := rhs11 A) (by simp)
  obtain ⟨log, last, h1, rfl⟩ := h.rounds (upd := upperRow A u (rhs11 A)) ⟨evals_upperP A u _, fun i hi => once_upperP hs.sorted hs.diag u _ hi⟩ hx0 (k := A.nbrows + (1 - A.nbrows)) hL (by omega)
    (fun hne => by rw [show 1 - A.nbrows = 0 by omega]; exact hsw)
  obtain ⟨h2, h3⟩ := hl.rounds mixOk_whole (rank := fun i => A.nbrows - 1 - i) (fun i hi j hj h => by have := h.2; show A.nbrows - 1 - j < A.nbrows - 1 - i; omega) (fun i hi => by omega)
    ((upperSolved_iff hs.full hs.sorted hs.diag hu hd).mp hyu).2 hx0 h1
  exact list_ext0 (by rw [h2, hyu.1]) fun i hi => h3 i (by rw [← h2]; exact hi)

end

section
variable {K : Type} [Field K] [LinearOrder K] [IsStrictOrderedRing K]
variable {tiny tol : K} {y : List K} {M : Int}

theorem solveError_self (initialization : String) : solveError tiny initialization y y = 0 := by
  unfold solveError
  rw [maxDiff_self, zero_div, ite_self]

/-- A sequence of errors settles if it is zero in the end and an error below the tolerance is followed by such errors. -/
theorem settles_of_exact {x : Nat → List K} (ht : 0 < tol) {N : Nat} (hN : (N : Int) < M) (hex : ∀ s, N ≤ s → x s = y)
    (hstay : ∀ s, solveError tiny "zero" y (x s) < tol → solveError tiny "zero" y (x (s + 1)) < tol) : Settles tol M (fun s => solveError tiny "zero" y (x s)) := by
  classical
  have hN' : solveError tiny "zero" y (x N) < tol := by rw [hex N le_rfl, solveError_self]; exact ht
  have hfind : ∃ s, solveError tiny "zero" y (x s) < tol := ⟨N, hN'⟩
  refine ⟨Nat.find hfind, ?_, fun t h => not_lt.mp (Nat.find_min hfind h), Nat.find_spec hfind, hstay _ (Nat.find_spec hfind), hstay _ (hstay _ (Nat.find_spec hfind))⟩
  have := Nat.find_min' hfind hN'
  omega

end

section
variable {K : Type} [Field K] [LinearOrder K] [IsStrictOrderedRing K]
variable {tiny lowest tol : K} {parts : List Nat → List (List Nat)} {A : SR K} {pos : ILUPos} {ord : List Nat} {isq : K → K} {us : Bool} {u yl yu : List K} {M : Int}
variable {runL runU : Nat → List K → List K} {fuel L : Nat}

/-- **C95** If the run-time system lets no thread be `L` sweeps ahead of another (`L = 1`: a barrier), all runs with at least `n (2 L - 1)` sweeps have error zero. So the test passes with such a maximum of
sweeps, provided that an error below the tolerance is not followed by a larger one in a run with one more sweep. -/
theorem triangular_test_passes (hs : ConvSetting A pos ord) (hN : NormSetting tiny lowest parts) (hu : u.length = A.browptr⟦A.nbrows⟧) (he : ExactILU A (scaledEntry isq us A) u)
    (hp : PivotsOk A u) (hyl : LowerSolved A u yl) (hyu : UpperSolved A u yu) (ht : 0 < tol) (hL : 1 ≤ L)
    (hrunL : ∀ s, AsyncExec (Lag A.nbrows L) A.nbrows ((s + 1) * A.nbrows) (unitLowerP A u (rhs11 A)) (List.replicate A.nbrows 0) (runL s (List.replicate A.nbrows 0)))
    (hrunU : ∀ s, AsyncExec (Lag A.nbrows L) A.nbrows ((s + 1) * A.nbrows) (upperP A u (rhs11 A)) (List.replicate A.nbrows 0) (runU s (List.replicate A.nbrows 0)))
    (hM : ((A.nbrows * (2 * L - 1) : Nat) : Int) ≤ M) (hM1 : 1 ≤ M) (hf : M + 2 ≤ fuel) :
    (∀ s, A.nbrows * (2 * L - 1) ≤ s + 1 → runL s (List.replicate A.nbrows 0) = yl ∧ runU s (List.replicate A.nbrows 0) = yu) ∧
    ((∀ s, solveError tiny "zero" yl (runL s (List.replicate A.nbrows 0)) < tol → solveError tiny "zero" yl (runL (s + 1) (List.replicate A.nbrows 0)) < tol) →
      (∀ s, solveError tiny "zero" yu (runU s (List.replicate A.nbrows 0)) < tol → solveError tiny "zero" yu (runU (s + 1) (List.replicate A.nbrows 0)) < tol) →
      testAsyncTriangular tiny lowest parts isq us A pos ord "zero" tol M runL runU fuel = .ok ()) := by
  have hlen : ∀ {p : Nat → Prog K K} {s : Nat} {x : List K}, AsyncExec (Lag A.nbrows L) A.nbrows (s * A.nbrows) p (List.replicate A.nbrows 0) x → x.length = A.nbrows := by
    rintro p s x ⟨k, log, ps, -, -, rfl⟩
    rw [applyLog_length]
    simp
  have h1 : ∀ s, A.nbrows * (2 * L - 1) ≤ s + 1 → runL s (List.replicate A.nbrows 0) = yl := fun s h => lower_runs_exact hs hu hyl (by simp) hL h (hrunL s)
  have h2 : ∀ s, A.nbrows * (2 * L - 1) ≤ s + 1 → runU s (List.replicate A.nbrows 0) = yu := fun s h => upper_runs_exact hs hu hp hyu (by simp) hL h (hrunU s)
  refine ⟨fun s h => ⟨h1 s h, h2 s h⟩, fun h3 h4 => ?_⟩
  generalize A.nbrows * (2 * L - 1) = N at h1 h2 hM
  exact (triangular_test_outcome hs hN hu he hp hyl hyu (fun s => hlen (hrunL s)) (fun s => hlen (hrunU s)) hf).1
    ⟨settles_of_exact (N := N - 1) ht (by omega) (fun s h => h1 s (by omega)) h3, settles_of_exact (N := N - 1) ht (by omega) (fun s h => h2 s (by omega)) h4⟩

/-- **C95** Begun with the solutions the test passes, however the threads are scheduled. -/
theorem triangular_test_passes_exact (hs : ConvSetting A pos ord) (hN : NormSetting tiny lowest parts) (hu : u.length = A.browptr⟦A.nbrows⟧) (he : ExactILU A (scaledEntry isq us A) u)
    (hp : PivotsOk A u) (hyl : LowerSolved A u yl) (hyu : UpperSolved A u yu) (ht : 0 < tol) {G : Nat → Nat → Prop}
    (hrunL : ∀ s, AsyncExec G A.nbrows ((s + 1) * A.nbrows) (unitLowerP A u (rhs11 A)) yl (runL s yl))
    (hrunU : ∀ s, AsyncExec G A.nbrows ((s + 1) * A.nbrows) (upperP A u (rhs11 A)) yu (runU s yu)) (hf : M ≤ fuel) :
    testAsyncTriangular tiny lowest parts isq us A pos ord "exact" tol M runL runU fuel = .ok () := by
  obtain ⟨dinv, hd⟩ := exists_dinv hs.full hs.sorted hs.diag hu hp
  have h1 : ∀ s, runL s yl = yl := fun s => by
    obtain ⟨log, h1, -, h2⟩ := async_exec_nowait (upd := unitLowerRow A u (rhs11 A)) ⟨evals_unitLowerP A u _, fun i hi => once_unitLowerP hs.sorted hs.diag u _ hi⟩ hyl.1 (hrunL s)
    rw [h2]
    exact (rowUpd_unitLower (M := K) hs.full hs.sorted hs.diag hu (rhs := rhs11 A) (by simp)).fixed mixOk_whole ((lowerSolved_iff hs.full hs.sorted hs.diag hu).mp hyl).2 (hyl.1 ▸ h1)
  have h2 : ∀ s, runU s yu = yu := fun s => by
    obtain ⟨log, h1, -, h2⟩ := async_exec_nowait (upd := upperRow A u (rhs11 A)) ⟨evals_upperP A u _, fun i hi => once_upperP hs.sorted hs.diag u _ hi⟩ hyu.1 (hrunU s)
    rw [h2]
    exact (rowUpd_upper (M := K) hs.full hs.sorted hs.diag hu hd (rhs := rhs11 A) (by simp)).fixed mixOk_whole ((upperSolved_iff hs.full hs.sorted hs.diag hu hd).mp hyu).2 (hyu.1 ▸ h1)
  refine (triangular_test_outcome_exact hs hN hu he hp hyl hyu (fun s => by rw [h1]; exact hyl.1) (fun s => by rw [h2]; exact hyu.1) hf).1 fun s _ => ?_
  rw [h1, h2, solveError_self, solveError_self]
  exact ⟨ht, ht⟩

end

/-! ### Instances -/

/-- The factors of `exA2`. -/
abbrev exU2 : List ℚ := [2, 1, 1/2, 1/2]

theorem exNorm : NormSetting (1/1000 : ℚ) (-1000) (fun l => [l]) := ⟨by norm_num, by norm_num, fun l => by simp⟩

theorem exA2_pivots : PivotsOk exA2 exU2 := by
  intro i hi
  have hi : i < 2 := hi
  rw [isUnit_iff_ne_zero]
  interval_cases i <;> decide +kernel

theorem exA2_yl : LowerSolved exA2 exU2 [11/10, 11/20] := ⟨rfl, by decide +kernel⟩

theorem exA2_yu : UpperSolved exA2 exU2 [-11/20, 11/5] := ⟨rfl, by decide +kernel⟩

theorem exA2_low_runs (s : Nat) : fwdSweeps (unitLowerRow exA2 exU2 (rhs11 exA2)) 2 (s + 1) [0, 0] = .ok [11/10, 11/20] := by
  unfold fwdSweeps
  induction s with
  | zero => decide +kernel
  | succ s ih => rw [forRange_succ_right (Nat.zero_le _), ih, ok_bind]; decide +kernel

theorem exA2_up_runs (s : Nat) : fwdSweeps (upperRow exA2 exU2 (rhs11 exA2)) 2 (s + 1) [0, 0] = .ok (if s = 0 then [11/20, 11/5] else [-11/20, 11/5]) := by
  unfold fwdSweeps
  induction s with
  | zero => decide +kernel
  | succ s ih =>
    rw [forRange_succ_right (Nat.zero_le _), ih, ok_bind, if_neg (Nat.succ_ne_zero s)]
    cases s with
    | zero => decide +kernel
    | succ s => rw [if_neg (Nat.succ_ne_zero s)]; decide +kernel

/-- Non-vacuity of `triangular_test_passes`, `triangular_test_outcome`: the forward sweeps of one thread, with which the lower solve is exact at once and the upper solve after two sweeps. With a maximum of two
sweeps the test passes. -/
example : ∃ runL runU : Nat → List ℚ → List ℚ,
    (∀ s, AsyncExec (Lag 2 1) 2 ((s + 1) * 2) (unitLowerP exA2 exU2 (rhs11 exA2)) [0, 0] (runL s [0, 0])) ∧
    (∀ s, AsyncExec (Lag 2 1) 2 ((s + 1) * 2) (upperP exA2 exU2 (rhs11 exA2)) [0, 0] (runU s [0, 0])) ∧ runU 0 [0, 0] ≠ [-11/20, 11/5] ∧
    testAsyncTriangular (1/1000) (-1000) (fun l => [l]) (fun x => x) false exA2 ⟨[2], [1], [0, 0, 0, 0, 1]⟩ [1, 0] "zero" (1/1000) 2 runL runU 4 = .ok () := by
  have hL : ∀ s, AsyncExec (Lag 2 1) 2 ((s + 1) * 2) (unitLowerP exA2 exU2 (rhs11 exA2)) [0, 0] ([11/10, 11/20] : List ℚ) := fun s =>
    async_exec_sequential (evals_unitLowerP _ _ _) rfl (lag_lt (by decide)) (exA2_low_runs s)
  have hU : ∀ s, AsyncExec (Lag 2 1) 2 ((s + 1) * 2) (upperP exA2 exU2 (rhs11 exA2)) [0, 0] (if s = 0 then [11/20, 11/5] else [-11/20, 11/5] : List ℚ) := fun s =>
    async_exec_sequential (evals_upperP _ _ _) rfl (lag_lt (by decide)) (exA2_up_runs s)
  refine ⟨fun _ _ => [11/10, 11/20], fun s _ => if s = 0 then [11/20, 11/5] else [-11/20, 11/5], hL, hU, by decide +kernel, ?_⟩
  refine (triangular_test_passes (tol := 1/1000) (L := 1) (M := 2) (fuel := 4) (runL := fun _ _ => [11/10, 11/20]) (runU := fun s _ => if s = 0 then [11/20, 11/5] else [-11/20, 11/5]) exA2_conv exNorm (isq := fun x : ℚ => x) (us := false) (u := exU2) rfl exA2_factors.1 exA2_pivots exA2_yl exA2_yu
    (by norm_num) (by decide) hL hU (by decide) (by decide) (by decide)).2 (fun _ h => h) fun s _ => ?_
  rw [if_neg (Nat.succ_ne_zero s), solveError_self]
  norm_num

/-- Non-vacuity of `triangular_test_passes_exact`, `triangular_test_outcome_exact`. -/
example : ∃ runL runU : Nat → List ℚ → List ℚ,
    (∀ s, AsyncExec NoWait 2 ((s + 1) * 2) (unitLowerP exA2 exU2 (rhs11 exA2)) [11/10, 11/20] (runL s [11/10, 11/20])) ∧
    (∀ s, AsyncExec NoWait 2 ((s + 1) * 2) (upperP exA2 exU2 (rhs11 exA2)) [-11/20, 11/5] (runU s [-11/20, 11/5])) ∧
    testAsyncTriangular (1/1000) (-1000) (fun l => [l]) (fun x => x) false exA2 ⟨[2], [1], [0, 0, 0, 0, 1]⟩ [1, 0] "exact" (1/1000) 2 runL runU 4 = .ok () := by
  have hL : ∀ s, AsyncExec NoWait 2 ((s + 1) * 2) (unitLowerP exA2 exU2 (rhs11 exA2)) [11/10, 11/20] ([11/10, 11/20] : List ℚ) := fun s =>
    async_exec_initial (n := 2) (evals_unitLowerP _ _ _) rfl rfl (Nat.succ_pos _) (by decide +kernel) fun _ _ _ h => h
  have hU : ∀ s, AsyncExec NoWait 2 ((s + 1) * 2) (upperP exA2 exU2 (rhs11 exA2)) [-11/20, 11/5] ([-11/20, 11/5] : List ℚ) := fun s =>
    async_exec_initial (n := 2) (evals_upperP _ _ _) rfl rfl (Nat.succ_pos _) (by decide +kernel) fun _ _ _ h => h
  refine ⟨fun _ x => x, fun _ x => x, hL, hU, ?_⟩
  exact triangular_test_passes_exact (tol := 1/1000) (M := 2) (fuel := 4) exA2_conv exNorm (isq := fun x : ℚ => x) (us := false) (u := exU2) rfl exA2_factors.1 exA2_pivots exA2_yl exA2_yu
    (by norm_num) hL hU (by decide)

/-- **C95**, negative: the runs with different numbers of sweeps are independent executions, but once one of them has an error below the tolerance the program asserts that the next two have it too. Threads that
may be one sweep apart (`L = 2`) suffice to fail the test, whatever the maximum of sweeps and with any tolerance up to 1/2: the run with one sweep goes row by row and is exact, the run with two sweeps
reads nothing but initial values. All runs with six sweeps or more are exact. -/
theorem triangular_test_may_fail : ∃ runL runU : Nat → List ℚ → List ℚ,
    (∀ s, AsyncExec (Lag 2 2) 2 ((s + 1) * 2) (unitLowerP exA2 exU2 (rhs11 exA2)) [0, 0] (runL s [0, 0])) ∧
    (∀ s, AsyncExec (Lag 2 2) 2 ((s + 1) * 2) (upperP exA2 exU2 (rhs11 exA2)) [0, 0] (runU s [0, 0])) ∧
    (∀ s, 5 ≤ s → runL s [0, 0] = [11/10, 11/20] ∧ runU s [0, 0] = [-11/20, 11/5]) ∧
    ∀ (tol : ℚ) (M : Int) (fuel : Nat), tol ≤ 1/2 → M + 2 ≤ fuel →
      testAsyncTriangular (1/1000) (-1000) (fun l => [l]) (fun x => x) false exA2 ⟨[2], [1], [0, 0, 0, 0, 1]⟩ [1, 0] "zero" tol M runL runU fuel = .error .abort := by
  have hL : ∀ s, AsyncExec (Lag 2 2) 2 ((s + 1) * 2) (unitLowerP exA2 exU2 (rhs11 exA2)) [0, 0] (if s = 1 then [11/10, 11/10] else [11/10, 11/20] : List ℚ) := by
    intro s
    by_cases h : s = 1
    · rw [if_pos h]
      subst h
      refine async_exec_initial (n := 2) (evals_unitLowerP _ _ _) rfl rfl (by decide) (by decide +kernel) fun q hq q' h => ?_
      unfold Lag at h
      omega
    · rw [if_neg h]
      exact async_exec_sequential (evals_unitLowerP _ _ _) rfl (lag_lt (by decide)) (exA2_low_runs s)
  have hU : ∀ s, AsyncExec (Lag 2 2) 2 ((s + 1) * 2) (upperP exA2 exU2 (rhs11 exA2)) [0, 0] (if s = 0 then [11/20, 11/5] else [-11/20, 11/5] : List ℚ) := fun s =>
    async_exec_sequential (evals_upperP _ _ _) rfl (lag_lt (by decide)) (exA2_up_runs s)
  refine ⟨fun s _ => if s = 1 then [11/10, 11/10] else [11/10, 11/20], fun s _ => if s = 0 then [11/20, 11/5] else [-11/20, 11/5], hL, hU, fun s h => ⟨if_neg (by omega), if_neg (by omega)⟩, ?_⟩
  intro tol M fuel ht hf
  refine (triangular_test_outcome exA2_conv exNorm (isq := fun x : ℚ => x) (us := false) (u := exU2) rfl exA2_factors.1 exA2_pivots exA2_yl exA2_yu
    (fun s => by split <;> rfl) (fun s => by split <;> rfl) hf).2 ?_
  rintro ⟨⟨s, -, h2, h3, h4, -⟩, -⟩
  have e1 : solveError (1/1000 : ℚ) "zero" [11/10, 11/20] [11/10, 11/10] = 1/2 := by decide +kernel
  by_cases hs : s = 0
  · subst hs
    dsimp only at h4
    rw [if_pos (Nat.zero_add 1), e1] at h4
    exact absurd h4 (not_lt.mpr ht)
  · have h5 := h2 0 (by omega)
    dsimp only at h5 h3
    rw [if_neg (by decide), solveError_self] at h5
    by_cases hs1 : s = 1
    · rw [if_pos hs1, e1] at h3
      exact absurd h3 (not_lt.mpr ht)
    · rw [if_neg hs1, solveError_self] at h3
      exact absurd h3 (not_lt.mpr h5)

end Blasted
