import Verif.PetscTest.SweepModel
import Verif.PetscTest.Props

/-!
# C106: what the C programs of the tests accept and report
-/

namespace Blasted

open Finset

section
variable {K : Type} [Field K] [LinearOrder K]

/-! ### Specification -/

/-- A run that converged and whose times are acceptable. -/
def SettingOk (eps : K) (s : PerfSolve K) : Prop := 0 < s.reason ∧ eps < s.times.factorwall ∧ eps < s.times.applywall ∧ 0 ≤ s.times.factorcpu ∧ 0 ≤ s.times.applycpu

/-- The deviation of the numbers of iterations of the first `m` runs from `mean`, relative to it. -/
def IsDeviation (sqrt : K → K) (s : Nat → PerfSolve K) (m : Nat) (mean : K) (dev : Option K) : Prop :=
  (mean ≠ 0 → dev = some (sqrt ((∑ i ∈ range m, (((s i).iters : K) - mean) ^ 2) / m) / mean)) ∧ (mean = 0 → dev = none)

/-- The options with which the runs are made. -/
def sweepSys (P : PetscSys K) (b a : Int) : PetscSys K := setOption P "-blasted_async_sweeps" (sweepsText b a)

/-! ### Lemmas -/

theorem sweepRuns_prefix (eps : K) (s : Nat → PerfSolve K) {n : Nat} (k : Nat) (hk : k ≤ n) (h : ∀ i < k, SettingOk eps (s i)) :
    sweepRuns eps s n 0 0 [] = sweepRuns eps s (n - k) k (∑ i ∈ range k, ((s i).iters : K)) ((List.range k).map fun i => (s i).iters) := by
  induction k with
  | zero => rw [sum_range_zero, List.range_zero, List.map_nil, Nat.sub_zero]
  | succ k ih =>
    rw [ih (by omega) fun i hi => h i (by omega)]
    obtain ⟨m, hm⟩ : ∃ m, n - k = m + 1 := ⟨n - k - 1, by omega⟩
    have hm' : n - (k + 1) = m := by omega
    obtain ⟨h1, h2, h3, h4, h5⟩ := h k (by omega)
    rw [hm, hm', sweepRuns]
    rw [if_neg (by unfold kspDivergedIts; omega), if_neg (by omega), (cassert_ok_iff (u := ())).mpr (decide_eq_true h2), ok_bind, (cassert_ok_iff (u := ())).mpr (decide_eq_true h3), ok_bind,
      (cassert_ok_iff (u := ())).mpr (decide_eq_true h4), ok_bind, (cassert_ok_iff (u := ())).mpr (decide_eq_true h5), ok_bind, sum_range_succ, List.range_succ, List.map_append]
    rfl

omit [LinearOrder K] in
theorem iters_deviation (f : Nat → Int) (avg : K) (m : Nat) :
    forRange 0 m (fun i s => do
      let v ← rd ((List.range m).map f) i
      (.ok (s + ((v : K) - avg) * ((v : K) - avg)) : C K)) 0 = .ok (∑ i ∈ range m, ((f i : K) - avg) ^ 2) := by
  have key : ∀ k ≤ m, forRange 0 k (fun i s => do
      let v ← rd ((List.range m).map f) i
      (.ok (s + ((v : K) - avg) * ((v : K) - avg)) : C K)) 0 = .ok (∑ i ∈ range k, ((f i : K) - avg) ^ 2) := by
    intro k hk
    induction k with
    | zero => rw [forRange_self, sum_range_zero]
    | succ k ih =>
      have hl : k < ((List.range m).map f).length := by rw [List.length_map, List.length_range]; omega
      rw [forRange_succ_right (Nat.zero_le _), ih (by omega), ok_bind, rd_eq hl, ok_bind, sum_range_succ, get0_eq_getElem hl, List.getElem_map, List.getElem_range, pow_two]
  exact key m (le_refl _)

theorem runPetsc_general {eps : K} {sqrt : K → K} {rnd : K → Int} {solve : PetscSys K → Nat → PerfSolve K} {g : List Int} {P : PetscSys K} {N m : Nat} {b a : Int}
    (hN1 : 1 ≤ N) (hset : P.toInts (sweepsText b a) 2 = .ok [b, a]) {S : K} {fl : Bool}
    (hr : sweepRuns eps (solve (sweepSys P b a)) N 0 0 [] = .ok (m, S, (List.range m).map (fun i => (solve (sweepSys P b a) i).iters), fl)) (hfl : fl = false → m = N) :
    ∃ dev, runPetsc eps sqrt rnd solve g P N b a = .ok ((rnd (S / m), dev), sweepSys P b a) ∧ IsDeviation sqrt (solve (sweepSys P b a)) m (S / m) dev := by
  have hs : setBlastedSweeps P g b a = .ok (sweepSys P b a) := by
    unfold setBlastedSweeps sweepSys
    simp [optGetIntArray, setOption, hset, petscThrow_zero, ok_bind]
  refine ⟨perfQuot (sqrt ((∑ i ∈ range m, (((solve (sweepSys P b a) i).iters : K) - S / m) ^ 2) / m)) (S / m), ?_, ?_⟩
  · unfold runPetsc
    rw [hs, ok_bind, if_neg (by omega), Int.toNat_natCast, hr, ok_bind]
    dsimp only
    have hc : (if fl = false then cassert (decide ((m : Int) = (N : Int))) else .ok ()) = .ok () := by
      cases fl with
      | true => rfl
      | false => rw [if_pos rfl, hfl rfl]; exact cassert_ok_iff.mpr (decide_eq_true rfl)
    rw [hc, ok_bind, iters_deviation, ok_bind]
  · unfold IsDeviation perfQuot
    exact ⟨fun h => if_neg h, fun h => if_pos h⟩

/-! ### Theorems -/

/-- **C106** If all runs of a setting converge, the table has the mean number of iterations, rounded, and the relative deviation from it. -/
theorem sweep_setting_correct {eps : K} {sqrt : K → K} {rnd : K → Int} {solve : PetscSys K → Nat → PerfSolve K} {g : List Int} {P : PetscSys K} {N : Nat} {b a : Int}
    (hN1 : 1 ≤ N) (hset : P.toInts (sweepsText b a) 2 = .ok [b, a]) (hok : ∀ i < N, SettingOk eps (solve (sweepSys P b a) i)) :
    ∃ dev, runPetsc eps sqrt rnd solve g P N b a = .ok ((rnd ((∑ i ∈ range N, ((solve (sweepSys P b a) i).iters : K)) / N), dev), sweepSys P b a) ∧
      IsDeviation sqrt (solve (sweepSys P b a)) N ((∑ i ∈ range N, ((solve (sweepSys P b a) i).iters : K)) / N) dev :=
  runPetsc_general hN1 hset (by rw [sweepRuns_prefix eps _ N (le_refl _) hok, Nat.sub_self, sweepRuns]) fun _ => rfl

/-- **C106** If a run reaches the largest number of iterations, the runs so far, this one included, are averaged, and the table does not show that it did not converge. -/
theorem sweep_setting_limit {eps : K} {sqrt : K → K} {rnd : K → Int} {solve : PetscSys K → Nat → PerfSolve K} {g : List Int} {P : PetscSys K} {N k : Nat} {b a : Int}
    (hkN : k < N) (hset : P.toInts (sweepsText b a) 2 = .ok [b, a]) (hok : ∀ i < k, SettingOk eps (solve (sweepSys P b a) i)) (hfail : (solve (sweepSys P b a) k).reason = -3) :
    ∃ dev, runPetsc eps sqrt rnd solve g P N b a = .ok ((rnd ((∑ i ∈ range (k + 1), ((solve (sweepSys P b a) i).iters : K)) / ((k + 1 : Nat) : K)), dev), sweepSys P b a) ∧
      IsDeviation sqrt (solve (sweepSys P b a)) (k + 1) ((∑ i ∈ range (k + 1), ((solve (sweepSys P b a) i).iters : K)) / ((k + 1 : Nat) : K)) dev := by
  refine runPetsc_general (by omega) hset (fl := true) ?_ (fun h => absurd h (by decide))
  obtain ⟨m, hm⟩ : ∃ m, N - k = m + 1 := ⟨N - k - 1, by omega⟩
  rw [sweepRuns_prefix eps _ k (by omega) hok, hm, sweepRuns]
  rw [if_pos (show _ = kspDivergedIts from hfail), sum_range_succ, List.range_succ, List.map_append]
  rfl

/-- **C106**, negative: if run number `k` fails in another way, the table has the negative number `-10^9` divided by the number of runs so far, not always the same mark. -/
theorem sweep_setting_failed {eps : K} {sqrt : K → K} {rnd : K → Int} {solve : PetscSys K → Nat → PerfSolve K} {g : List Int} {P : PetscSys K} {N k : Nat} {b a : Int}
    (hkN : k < N) (hset : P.toInts (sweepsText b a) 2 = .ok [b, a]) (hok : ∀ i < k, SettingOk eps (solve (sweepSys P b a) i))
    (hfail : (solve (sweepSys P b a) k).reason ≤ 0) (hfail' : (solve (sweepSys P b a) k).reason ≠ -3) :
    ∃ dev, runPetsc eps sqrt rnd solve g P N b a = .ok ((rnd (-10 ^ 9 / ((k + 1 : Nat) : K)), dev), sweepSys P b a) ∧
      IsDeviation sqrt (solve (sweepSys P b a)) (k + 1) (-10 ^ 9 / ((k + 1 : Nat) : K)) dev := by
  refine runPetsc_general (by omega) hset (fl := true) ?_ (fun h => absurd h (by decide))
  obtain ⟨m, hm⟩ : ∃ m, N - k = m + 1 := ⟨N - k - 1, by omega⟩
  rw [sweepRuns_prefix eps _ k (by omega) hok, hm, sweepRuns]
  rw [if_neg (show ¬ _ = kspDivergedIts from hfail'), if_pos hfail, List.range_succ, List.map_append]
  rfl

/-- **C106**, negative: without runs the behaviour is undefined. -/
theorem sweep_setting_without_runs {eps : K} {sqrt : K → K} {rnd : K → Int} {solve : PetscSys K → Nat → PerfSolve K} {g : List Int} {P : PetscSys K} {nruns : Int} {b a : Int}
    (hn : nruns ≤ 0) (hset : P.toInts (sweepsText b a) 2 = .ok [b, a]) : runPetsc eps sqrt rnd solve g P nruns b a = .error .ub := by
  obtain ⟨P', hs⟩ := set_sweeps_returns (g := g) hset
  unfold runPetsc
  rw [hs, ok_bind, if_pos hn]

theorem setOption_twice {Real : Type} (P : PetscSys Real) (o : String) (v w : List Char) : setOption (setOption P o v) o w = setOption P o w := by
  unfold setOption
  congr 1
  funext s
  by_cases hs : s = o <;> simp [hs]

omit [Field K] [LinearOrder K] in
theorem setBlastedSweeps_shape {P Q : PetscSys K} {g : List Int} {b a : Int} (h : setBlastedSweeps P g b a = .ok Q) : Q = sweepSys P b a := by
  unfold setBlastedSweeps at h
  rw [bind_ok_iff] at h
  obtain ⟨u, -, h⟩ := h
  split_ifs at h
  exact (Except.ok.inj h).symm

omit [Field K] [LinearOrder K] in
theorem setBlastedSweeps_again {P : PetscSys K} {g : List Int} {b a b' a' : Int} : setBlastedSweeps (sweepSys P b' a') g b a = setBlastedSweeps P g b a := by
  unfold setBlastedSweeps sweepSys
  rw [setOption_twice]

theorem runPetsc_again {eps : K} {sqrt : K → K} {rnd : K → Int} {solve : PetscSys K → Nat → PerfSolve K} {g : List Int} {P : PetscSys K} {nruns b a b' a' : Int} :
    runPetsc eps sqrt rnd solve g (sweepSys P b' a') nruns b a = runPetsc eps sqrt rnd solve g P nruns b a := by
  unfold runPetsc
  rw [setBlastedSweeps_again]

theorem runPetsc_shape {eps : K} {sqrt : K → K} {rnd : K → Int} {solve : PetscSys K → Nat → PerfSolve K} {g : List Int} {P : PetscSys K} {nruns b a : Int}
    {r : (Int × Option K) × PetscSys K} (h : runPetsc eps sqrt rnd solve g P nruns b a = .ok r) : r.2 = sweepSys P b a := by
  unfold runPetsc at h
  rw [bind_ok_iff] at h
  obtain ⟨Q, h1, h⟩ := h
  by_cases hn : nruns ≤ 0
  · rw [if_pos hn] at h
    exact absurd h (by simp)
  · rw [if_neg hn] at h
    simp only [bind_ok_iff, Except.ok.injEq] at h
    obtain ⟨-, -, -, -, -, -, rfl⟩ := h
    exact setBlastedSweeps_shape h1

theorem sweepRow_entries {eps : K} {sqrt : K → K} {rnd : K → Int} {solve : PetscSys K → Nat → PerfSolve K} {g : List Int} {P : PetscSys K} {nruns b : Int} (as : List Int) {Q : PetscSys K}
    (hQ : Q = P ∨ ∃ b' a', Q = sweepSys P b' a') {r : List (Int × Option K) × PetscSys K} (h : sweepRow eps sqrt rnd solve g nruns b as Q = .ok r) :
    (r.2 = P ∨ ∃ b' a', r.2 = sweepSys P b' a') ∧ List.Forall₂ (fun x a => ∃ R, runPetsc eps sqrt rnd solve g P nruns b a = .ok (x, R)) r.1 as := by
  induction as generalizing Q r with
  | nil =>
    rw [sweepRow, Except.ok.injEq] at h
    subst h
    exact ⟨hQ, List.Forall₂.nil⟩
  | cons a as ih =>
    rw [sweepRow, bind_ok_iff] at h
    obtain ⟨x, h1, h⟩ := h
    rw [bind_ok_iff] at h
    obtain ⟨y, h2, h3⟩ := h
    rw [Except.ok.injEq] at h3
    subst h3
    have hx : runPetsc eps sqrt rnd solve g P nruns b a = .ok x := by
      rcases hQ with rfl | ⟨b', a', rfl⟩
      · exact h1
      · rw [runPetsc_again] at h1
        exact h1
    obtain ⟨i1, i2⟩ := ih (Or.inr ⟨b, a, runPetsc_shape hx⟩) h2
    exact ⟨i1, List.Forall₂.cons ⟨x.2, hx⟩ i2⟩

/-- The entries of the table. -/
theorem sweepTable_entries {eps : K} {sqrt : K → K} {rnd : K → Int} {solve : PetscSys K → Nat → PerfSolve K} {g : List Int} {P : PetscSys K} {nruns : Int} {as : List Int} (bs : List Int) {Q : PetscSys K}
    (hQ : Q = P ∨ ∃ b' a', Q = sweepSys P b' a') {r : List (List (Int × Option K)) × PetscSys K} (h : sweepTable eps sqrt rnd solve g nruns as bs Q = .ok r) :
    List.Forall₂ (fun row b => List.Forall₂ (fun x a => ∃ R, runPetsc eps sqrt rnd solve g P nruns b a = .ok (x, R)) row as) r.1 bs := by
  induction bs generalizing Q r with
  | nil =>
    rw [sweepTable, Except.ok.injEq] at h
    subst h
    exact List.Forall₂.nil
  | cons b bs ih =>
    rw [sweepTable, bind_ok_iff] at h
    obtain ⟨x, h1, h⟩ := h
    rw [bind_ok_iff] at h
    obtain ⟨y, h2, h3⟩ := h
    rw [Except.ok.injEq] at h3
    subst h3
    obtain ⟨i1, i2⟩ := sweepRow_entries as hQ h1
    exact List.Forall₂.cons i2 (ih i1 h2)

/-- **C106** The entries of the tables are those of the settings: each is what the setting of its row and column would give by itself, whatever was run before. At most ten numbers are read for
each border. -/
theorem sweep_table_correct {eps : K} {sqrt : K → K} {rnd : K → Int} {solve : PetscSys K → Nat → PerfSolve K} {g : List Int} {P : PetscSys K} {N : Int} {sb sa : List Char} {bs as : List Int}
    (hb : P.db "-blasted_async_paramsweep_build" = some (some sb)) (hb' : P.toInts sb 10 = .ok bs) (ha : P.db "-blasted_async_paramsweep_apply" = some (some sa)) (ha' : P.toInts sa 10 = .ok as)
    (hN : IntOption P "-num_runs" 1 N) {o} (h : sweepProgram eps sqrt rnd solve g P = .ok (some o)) :
    o.1 = bs ∧ o.2.1 = as ∧ List.Forall₂ (fun row b => List.Forall₂ (fun x a => ∃ R, runPetsc eps sqrt rnd solve g P N b a = .ok (x, R)) row as) o.2.2 bs := by
  obtain ⟨o1, o2⟩ := intOption_eq hN
  have eb : optGetIntArray P "-blasted_async_paramsweep_build" g 10 = (0, bs ++ g.drop bs.length, bs.length, true) := by unfold optGetIntArray; simp [hb, hb']
  have ea : optGetIntArray P "-blasted_async_paramsweep_apply" g 10 = (0, as ++ g.drop as.length, as.length, true) := by unfold optGetIntArray; simp [ha, ha']
  unfold sweepProgram at h
  rw [eb, ea] at h
  dsimp only at h
  rw [if_neg (by decide), if_neg (by decide), if_neg (by rw [o1]; decide), o2, List.take_left, List.take_left] at h
  split_ifs at h with hf
  · exact absurd h (by simp)
  · rw [bind_ok_iff] at h
    obtain ⟨t, h1, h2⟩ := h
    simp only [Except.ok.injEq, Option.some.injEq] at h2
    subst h2
    exact ⟨rfl, rfl, sweepTable_entries bs (Or.inl rfl) h1⟩

theorem sweepRow_returns {eps : K} {sqrt : K → K} {rnd : K → Int} {solve : PetscSys K → Nat → PerfSolve K} {g : List Int} {P : PetscSys K} {nruns b : Int} (as : List Int) {Q : PetscSys K}
    (hQ : Q = P ∨ ∃ b' a', Q = sweepSys P b' a') (h : ∀ a ∈ as, ∃ x, runPetsc eps sqrt rnd solve g P nruns b a = .ok x) :
    ∃ r, sweepRow eps sqrt rnd solve g nruns b as Q = .ok r := by
  induction as generalizing Q with
  | nil => exact ⟨_, rfl⟩
  | cons a as ih =>
    obtain ⟨x, hx⟩ := h a (List.mem_cons_self ..)
    have hx' : runPetsc eps sqrt rnd solve g Q nruns b a = .ok x := by
      rcases hQ with rfl | ⟨b', a', rfl⟩
      · exact hx
      · rw [runPetsc_again]
        exact hx
    obtain ⟨r, hr⟩ := ih (Or.inr ⟨b, a, runPetsc_shape hx⟩) fun a ha => h a (List.mem_cons_of_mem _ ha)
    refine ⟨(x.1 :: r.1, r.2), ?_⟩
    rw [sweepRow, hx', ok_bind, hr, ok_bind]

theorem sweepTable_returns {eps : K} {sqrt : K → K} {rnd : K → Int} {solve : PetscSys K → Nat → PerfSolve K} {g : List Int} {P : PetscSys K} {nruns : Int} {as : List Int} (bs : List Int) {Q : PetscSys K}
    (hQ : Q = P ∨ ∃ b' a', Q = sweepSys P b' a') (h : ∀ b ∈ bs, ∀ a ∈ as, ∃ x, runPetsc eps sqrt rnd solve g P nruns b a = .ok x) :
    ∃ r, sweepTable eps sqrt rnd solve g nruns as bs Q = .ok r := by
  induction bs generalizing Q with
  | nil => exact ⟨_, rfl⟩
  | cons b bs ih =>
    obtain ⟨x, hx⟩ := sweepRow_returns as hQ (h b (List.mem_cons_self ..))
    obtain ⟨r, hr⟩ := ih (sweepRow_entries as hQ hx).1 fun b hb => h b (List.mem_cons_of_mem _ hb)
    refine ⟨(x.1 :: r.1, r.2), ?_⟩
    rw [sweepTable, hx, ok_bind, hr, ok_bind]

/-- **C106** The tables are written if the options are there and each setting by itself gives an entry (`sweep_setting_correct`, `sweep_setting_limit`, `sweep_setting_failed`). -/
theorem sweep_table_returns {eps : K} {sqrt : K → K} {rnd : K → Int} {solve : PetscSys K → Nat → PerfSolve K} {g : List Int} {P : PetscSys K} {N : Int} {sb sa : List Char} {bs as : List Int}
    (hb : P.db "-blasted_async_paramsweep_build" = some (some sb)) (hb' : P.toInts sb 10 = .ok bs) (ha : P.db "-blasted_async_paramsweep_apply" = some (some sa)) (ha' : P.toInts sa 10 = .ok as)
    (hN : IntOption P "-num_runs" 1 N) (hf : P.db "-blasted_async_paramsweep_outputfile" ≠ none)
    (h : ∀ b ∈ bs, ∀ a ∈ as, ∃ x, runPetsc eps sqrt rnd solve g P N b a = .ok x) : ∃ o, sweepProgram eps sqrt rnd solve g P = .ok (some o) := by
  obtain ⟨o1, o2⟩ := intOption_eq hN
  have eb : optGetIntArray P "-blasted_async_paramsweep_build" g 10 = (0, bs ++ g.drop bs.length, bs.length, true) := by unfold optGetIntArray; simp [hb, hb']
  have ea : optGetIntArray P "-blasted_async_paramsweep_apply" g 10 = (0, as ++ g.drop as.length, as.length, true) := by unfold optGetIntArray; simp [ha, ha']
  obtain ⟨t, ht⟩ := sweepTable_returns (Q := P) bs (Or.inl rfl) h
  refine ⟨(bs, as, t.1), ?_⟩
  unfold sweepProgram
  rw [eb, ea]
  dsimp only
  rw [if_neg (by decide), if_neg (by decide), if_neg (by rw [o1]; decide), o2, List.take_left, List.take_left, if_neg hf, ht, ok_bind]

end

section
variable {K : Type} [Field K] [LinearOrder K] [IsStrictOrderedRing K]

/-- **C106** The comparison in C accepts the same runs as the one in C++ (`comparison_passes_iff`), without the conditions on the information about the preconditioner. -/
theorem comparison_c_passes_iff {P : PetscSys K} {eps tol : K} {nrm : List K → K} {n N : Nat} {ref : KspResult K} {run : Nat → KspResult K} {times : Nat → RunTimes K} {tt : List Char}
    (htt : P.db "-test_type" = some (some tt)) (h0 : '\x00' ∉ tt) (htol : RealOption P "-error_tolerance" (2 * eps) tol) (hN : IntOption P "-num_runs" 1 N) (hN1 : 1 ≤ N)
    (hnrm : ∀ x, 0 ≤ nrm x) (href : 0 ≤ ref.iters) (hrl : ref.sol.length = n) (hn : ∀ i, (run i).sol.length = n) :
    runComparisonC P eps nrm n ref run times = .ok 0 ↔
      0 < ref.reason ∧ (∀ i < N, RunOk eps (run i) (times i)) ∧
      ((tt.take 29 = "compare_its".toList ∨ tt.take 29 = "issame".toList) →
        ref.iters ≠ 0 ∧ |(ref.iters : K) - ((∑ i ∈ range N, (run i).iters).tdiv N : Int)| ≤ tol * ref.iters) ∧
      (tt.take 29 = "upper_bound_its".toList → (∑ i ∈ range N, (run i).iters).tdiv N < ref.iters) ∧
      ((tt.take 29 = "compare_error".toList ∨ tt.take 29 = "issame".toList) →
        nrm ref.sol ≠ 0 ∧ nrm (vecDiff n ref.sol fun a => (∑ i ∈ range N, (run i).sol⟦a⟧) / N) ≤ tol * nrm ref.sol) := by
  obtain ⟨o1, o2⟩ := intOption_eq hN
  have hdiff : List.zipWith (fun a b => -1 * a + b) (((List.range n).map fun a => ∑ i ∈ range N, (run i).sol⟦a⟧).map fun v => (1 / ((N : Int) : K)) * v) ref.sol =
      vecDiff n ref.sol fun a => (∑ i ∈ range N, (run i).sol⟦a⟧) / N := by
    unfold vecDiff
    refine List.ext_getElem (by simp [hrl]) fun a h1 h2 => ?_
    have ha : a < n := by simpa using h2
    rw [List.getElem_zipWith, List.getElem_map, List.getElem_map, List.getElem_range, List.getElem_map, List.getElem_range, get0_eq_getElem (a := ref.sol) (by rw [hrl]; exact ha)]
    push_cast
    ring
  unfold runComparisonC
  dsimp only
  rw [if_neg (by rw [o1]; decide), o2, Int.toNat_natCast]
  have hN0 : ((N : Int) = 0) = False := eq_false (by omega)
  simp only [hN0, if_false]
  simp only [bind_ok_iff, cassert_ok_iff, decide_eq_true_iff, comparisonRuns_ok hn, compareSolverWithRef_ok htt h0 htol hnrm href, tail_unit, and_true]
  constructor
  · rintro ⟨h1, st, ⟨h2, rfl⟩, h4⟩
    rw [hdiff] at h4
    exact ⟨h1, h2, h4⟩
  · rintro ⟨h1, h2, h4⟩
    refine ⟨h1, _, ⟨h2, rfl⟩, ?_⟩
    rw [hdiff]
    exact h4

end

/-- **C106** If the number of runs cannot be read, the comparison in C ends with the error code, before anything is solved. -/
theorem comparison_c_unreadable {K : Type} [Field K] [LinearOrder K] {P : PetscSys K} {eps : K} {nrm : List K → K} {n : Nat} {ref : KspResult K} {run : Nat → KspResult K} {times : Nat → RunTimes K}
    {s : List Char} {e : Int} (hs : P.db "-num_runs" = some (some s)) (hi : P.toInt s = .error e) (he : e ≠ 0) : runComparisonC P eps nrm n ref run times = .ok e := by
  have ho : optGetInt P "-num_runs" 0 = (e, 0, true) := by unfold optGetInt; simp [hs, hi, outOf]
  unfold runComparisonC
  simp only [ho]
  rw [if_pos he]

/-! ### Examples -/

/-- Options for one or two sweeps of the factorization and one of the solves, two runs each. -/
def exSweepSys : PetscSys ℚ where
  db name := if name = "-blasted_async_paramsweep_build" then some (some "1,2".toList) else if name = "-blasted_async_paramsweep_apply" then some (some "1".toList)
    else if name = "-num_runs" then some (some "2".toList) else if name = "-blasted_async_paramsweep_outputfile" then some (some "out".toList) else none
  toInt s := if s = ['2'] then .ok 2 else .error 83
  toReal _ := .error 83
  toBool _ := .error 83
  toInts s k := if s = "1".toList then .ok (([1] : List Int).take k) else if s = "1,2".toList then .ok (([1, 2] : List Int).take k)
    else if s = "1,1".toList then .ok (([1, 1] : List Int).take k) else if s = "2,1".toList then .ok (([2, 1] : List Int).take k) else .error 83
  errMin := 54
  errMax := 99
  message _ := (0, some "Invalid argument", none)

/-- With one sweep of the factorization the second run reaches the limit of 100 iterations, with two sweeps it diverges. -/
def exSweepSolve (P : PetscSys ℚ) (i : Nat) : PerfSolve ℚ :=
  ⟨if i = 0 then 10 else 100, if i = 0 then 2 else if P.db "-blasted_async_sweeps" = some (some "1,1".toList) then -3 else -9, ⟨1, 1, 0, 0⟩⟩

-- the mean with the run that did not converge is in the table without a mark; the mark of the divergence is minus five hundred millions
example : (sweepProgram 0 id (fun v => v.num / v.den) exSweepSolve (List.replicate 10 0) exSweepSys).map (fun o => o.map fun o => o.2.2) =
    .ok (some [[(55, some (405 / 11))], [(-500000000, some ((500000010 ^ 2 + 500000100 ^ 2) / 2 / (-500000000)))]]) := by
  decide +kernel

-- the hypotheses of the theorems hold here
example : exSweepSys.toInts (sweepsText 1 1) 2 = .ok [1, 1] ∧ exSweepSys.toInts (sweepsText 2 1) 2 = .ok [2, 1] ∧ SettingOk 0 (exSweepSolve (sweepSys exSweepSys 1 1) 0) ∧
    (exSweepSolve (sweepSys exSweepSys 1 1) 1).reason = -3 ∧ (exSweepSolve (sweepSys exSweepSys 2 1) 1).reason = -9 ∧ exSweepSys.toInts "1,2".toList 10 = .ok [1, 2] := by
  unfold SettingOk
  decide +kernel

-- the comparison in C of the runs of `comparison_rounds_mean`
example : runComparisonC exCmpSys (1 / 2 ^ 52) exCmpNorm 2 ⟨2, 10, [2, 2]⟩ exCmpRun (fun _ => ⟨1, 1, 0, 0⟩) = .ok 0 := by
  decide +kernel

-- an unreadable number of runs
example : ({ exSweepSys with db := fun _ => some (some "x".toList) } : PetscSys ℚ).toInt "x".toList = .error 83 := by decide +kernel

end Blasted
