import Verif.ConvTest.CoreLemmas

/-!
# C94: the convergence test of the asynchronous factorization

What it means that the test passes; for which schedules it must pass; that it also fails without any fault of the factorization.
-/

namespace Blasted

open Finset

section
variable {K : Type} [Field K] [LinearOrder K] [IsStrictOrderedRing K]
variable {A : SR K} {pos : ILUPos} {ord : List Nat} {isq : K → K} {us : Bool} {sc : Option (List K)} {u : List K} {initialization : String} {tol : K} {M : Int}
variable {sched : Nat → List K → List K} {run : Nat → Nat → List K → List K} {nrepeats fuel : Nat}

omit [LinearOrder K] [IsStrictOrderedRing K] in
theorem scale_of_test (hs : ConvSetting A pos ord) (hsc : testScale isq us A ord = .ok sc) : ScaleIs isq us A sc := by
  obtain ⟨sc', h1, h2⟩ := testScale_ok hs isq us
  rw [hsc] at h1; cases h1
  exact h2

omit [LinearOrder K] [IsStrictOrderedRing K] in
theorem averageRuns_ok (hs : ConvSetting A pos ord) {x0 : List K} (hi : initializeIluvals initialization A u (List.replicate A.nnzb 0) = .ok x0) (hr : 1 ≤ nrepeats) {s : Nat}
    (hrun : ∀ irpt < nrepeats, (run s irpt x0).length = A.browptr⟦A.nbrows⟧) :
    Ok (averageRuns initialization A run nrepeats u s) fun x => x.length = A.browptr⟦A.nbrows⟧ ∧ ∀ p < A.browptr⟦A.nbrows⟧, x⟦p⟧ = (∑ irpt ∈ range nrepeats, (run s irpt x0)⟦p⟧) / nrepeats := by
  unfold averageRuns
  refine Ok.bind (P := fun avg => avg.length = A.browptr⟦A.nbrows⟧ ∧ ∀ p < A.browptr⟦A.nbrows⟧, avg⟦p⟧ = ∑ irpt ∈ range nrepeats, (run s irpt x0)⟦p⟧) ?_ ?_
  · refine forRange_ok (fun j avg => avg.length = A.browptr⟦A.nbrows⟧ ∧ ∀ p < A.browptr⟦A.nbrows⟧, avg⟦p⟧ = ∑ irpt ∈ range j, (run s irpt x0)⟦p⟧) (Nat.zero_le _) ?_ ?_
    · exact ⟨by simp [hs.nnz], fun p hp => by rw [get0_replicate, range_zero, sum_empty]⟩
    rintro j avg - hj ⟨h1, h2⟩
    rw [hi, ok_bind, hs.nnz]
    refine (addVals_eq (hrun j hj) h1).mono ?_
    rintro d ⟨h3, h4⟩
    exact ⟨h3, fun p hp => by rw [h4 p hp, h2 p hp, sum_range_succ]⟩
  · rintro avg ⟨h1, h2⟩
    rw [hs.nnz]
    refine (divVals_eq (by omega) h1).mono ?_
    rintro d ⟨h3, h4⟩
    exact ⟨h3, fun p hp => by rw [h4 p hp, h2 p hp]⟩

omit [LinearOrder K] [IsStrictOrderedRing K] in
/-- The cases of the initialization. -/
theorem init_cases (hs : ConvSetting A pos ord) (hu : u.length = A.browptr⟦A.nbrows⟧) {x0 : List K} (h : initializeIluvals initialization A u (List.replicate A.nnzb 0) = .ok x0) :
    x0.length = A.browptr⟦A.nbrows⟧ ∧ ((initialization = "orig" ∧ x0 = A.vals) ∨ (initialization = "exact" ∧ x0 = u)) := by
  by_cases h1 : initialization = "orig"
  · rw [h1, initializeIluvals_orig hs] at h
    cases h
    exact ⟨by rw [hs.full.val_len, Nat.mul_one], Or.inl ⟨h1, rfl⟩⟩
  · by_cases h2 : initialization = "exact"
    · rw [h2, initializeIluvals_exact hs hu] at h
      cases h
      exact ⟨hu, Or.inr ⟨h2, rfl⟩⟩
    · unfold initializeIluvals at h
      rw [if_neg h1, if_neg h2] at h
      cases h

/-- What a successful test has compared. -/
theorem sound_errors {x : List K} {st : ConvState} (hi : initialization = "orig")
    (hne : maxDiff (lowerPos A) A.vals u ≠ 0 ∧ maxDiff (upperPos A) A.vals u ≠ 0)
    (h : (relErrors initialization A u A.vals x).1 ≤ tol ∧ (relErrors initialization A u A.vals x).2 ≤ tol) :
    maxDiff (lowerPos A) x u ≤ tol * maxDiff (lowerPos A) A.vals u ∧ maxDiff (upperPos A) x u ≤ tol * maxDiff (upperPos A) A.vals u := by
  unfold relErrors at h
  rw [if_neg (by rw [hi]; decide)] at h
  exact ⟨(div_le_iff₀ (lt_of_le_of_ne (maxDiff_nonneg ..) (Ne.symm hne.1))).mp h.1, (div_le_iff₀ (lt_of_le_of_ne (maxDiff_nonneg ..) (Ne.symm hne.2))).mp h.2⟩

/-- **C94** If the partially asynchronous test passes, whatever the schedule: the matrix has exact factors `u`; the factors `x` compared last are what the sweeps have left, and their distance from `u` is at most
the tolerance, relative to the distance of the matrix itself from `u` when the sweeps began with the matrix, and absolute when they began with `u`. -/
theorem partially_async_test_sound (hs : ConvSetting A pos ord) (hlen : ∀ s x, x.length = A.browptr⟦A.nbrows⟧ → (sched s x).length = A.browptr⟦A.nbrows⟧) {st : ConvState} {x : List K}
    (h : testPartiallyAsync isq us A pos ord initialization tol M sched fuel = .ok (st, x)) :
    ∃ u : List K, u.length = A.browptr⟦A.nbrows⟧ ∧ ExactILU A (scaledEntry isq us A) u ∧ UsedPivotsOk A u ∧ (1 ≤ M → 1 ≤ st.isweep) ∧
      ((initialization = "orig" ∧ x = sweepsOf sched A.vals st.isweep ∧ 1 ≤ st.isweep ∧ ¬ ExactILU A (scaledEntry isq us A) A.vals ∧
          maxDiff (lowerPos A) A.vals u ≠ 0 ∧ maxDiff (upperPos A) A.vals u ≠ 0 ∧
          maxDiff (lowerPos A) x u ≤ tol * maxDiff (lowerPos A) A.vals u ∧ maxDiff (upperPos A) x u ≤ tol * maxDiff (upperPos A) A.vals u) ∨
        (initialization = "exact" ∧ x = sweepsOf sched u st.isweep ∧ (1 ≤ st.isweep → maxDiff (lowerPos A) x u ≤ tol ∧ maxDiff (upperPos A) x u ≤ tol))) := by
  unfold testPartiallyAsync at h
  obtain ⟨sc, hsc, hsc'⟩ := testScale_ok hs isq us
  rw [hsc, ok_bind] at h
  cases hu : getExactILU A (scalarScale? sc) pos with
  | error e => rw [hu] at h; cases h
  | ok u =>
    rw [hu, ok_bind] at h
    obtain ⟨hul, he, hp⟩ := getExactILU_sound hs hsc' hu
    cases hi : initializeIluvals initialization A u (List.replicate A.nnzb 0) with
    | error e => rw [hi] at h; cases h
    | ok x0 =>
      rw [hi, ok_bind] at h
      obtain ⟨hx0, hcase⟩ := init_cases hs hul hi
      have hsl : ∀ s, (sweepsOf sched x0 s).length = A.browptr⟦A.nbrows⟧ := by
        intro s
        induction s with
        | zero => exact hx0
        | succ s ih => exact hlen s _ ih
      obtain ⟨h1, h2, h3, h4⟩ := convTest_sound hs hsc' hul hx0 he (P := fun s x => x = sweepsOf sched x0 s) (fun s x hx => by rw [hx]; exact hsl s) rfl
        (fun s x hx => ⟨_, rfl, by rw [hx]; rfl⟩) h
      refine ⟨u, hul, he, hp, h2, ?_⟩
      rcases hcase with ⟨hc, rfl⟩ | ⟨hc, rfl⟩
      · obtain ⟨h5, h6, h7⟩ := h3 (by rw [hc]; decide)
        exact Or.inl ⟨hc, h1, h6, h5, h7.1, h7.2, sound_errors (st := st) hc h7 (h4 h6)⟩
      · refine Or.inr ⟨hc, h1, fun h5 => ?_⟩
        have := h4 h5
        unfold relErrors at this
        rw [if_pos hc] at this
        exact this

/-- **C94** The same for the fully asynchronous test: there the factors compared last are the averages over the repetitions with the last number of sweeps. -/
theorem fully_async_test_sound (hs : ConvSetting A pos ord) (hr : 1 ≤ nrepeats) (hlen : ∀ s i x, x.length = A.browptr⟦A.nbrows⟧ → (run s i x).length = A.browptr⟦A.nbrows⟧) {st : ConvState} {x : List K}
    (h : testFullyAsync isq us A pos ord initialization tol M nrepeats run fuel = .ok (st, x)) :
    ∃ u : List K, u.length = A.browptr⟦A.nbrows⟧ ∧ ExactILU A (scaledEntry isq us A) u ∧ UsedPivotsOk A u ∧ (1 ≤ M → 1 ≤ st.isweep) ∧
      ((initialization = "orig" ∧ 1 ≤ st.isweep ∧ (∀ p < A.browptr⟦A.nbrows⟧, x⟦p⟧ = (∑ i ∈ range nrepeats, (run (st.isweep - 1) i A.vals)⟦p⟧) / nrepeats) ∧
          ¬ ExactILU A (scaledEntry isq us A) A.vals ∧ maxDiff (lowerPos A) A.vals u ≠ 0 ∧ maxDiff (upperPos A) A.vals u ≠ 0 ∧
          maxDiff (lowerPos A) x u ≤ tol * maxDiff (lowerPos A) A.vals u ∧ maxDiff (upperPos A) x u ≤ tol * maxDiff (upperPos A) A.vals u) ∨
        (initialization = "exact" ∧ (1 ≤ st.isweep → (∀ p < A.browptr⟦A.nbrows⟧, x⟦p⟧ = (∑ i ∈ range nrepeats, (run (st.isweep - 1) i u)⟦p⟧) / nrepeats) ∧
          maxDiff (lowerPos A) x u ≤ tol ∧ maxDiff (upperPos A) x u ≤ tol))) := by
  unfold testFullyAsync at h
  obtain ⟨sc, hsc, hsc'⟩ := testScale_ok hs isq us
  rw [hsc, ok_bind] at h
  cases hu : getExactILU A (scalarScale? sc) pos with
  | error e => rw [hu] at h; cases h
  | ok u =>
    rw [hu, ok_bind] at h
    obtain ⟨hul, he, hp⟩ := getExactILU_sound hs hsc' hu
    cases hi : initializeIluvals initialization A u (List.replicate A.nnzb 0) with
    | error e => rw [hi] at h; cases h
    | ok x0 =>
      rw [hi, ok_bind] at h
      obtain ⟨hx0, hcase⟩ := init_cases hs hul hi
      obtain ⟨h1, h2, h3, h4⟩ := convTest_sound hs hsc' hul hx0 he
        (P := fun s x => x.length = A.browptr⟦A.nbrows⟧ ∧ (1 ≤ s → ∀ p < A.browptr⟦A.nbrows⟧, x⟦p⟧ = (∑ i ∈ range nrepeats, (run (s - 1) i x0)⟦p⟧) / nrepeats))
        (fun s x hx => hx.1) ⟨hx0, fun h => absurd h (by decide)⟩
        (fun s x hx => (averageRuns_ok hs hi hr (fun i _ => hlen s i x0 hx0)).mono fun y hy => ⟨hy.1, fun _ => hy.2⟩) h
      refine ⟨u, hul, he, hp, h2, ?_⟩
      rcases hcase with ⟨hc, rfl⟩ | ⟨hc, rfl⟩
      · obtain ⟨h5, h6, h7⟩ := h3 (by rw [hc]; decide)
        exact Or.inl ⟨hc, h6, h1.2 h6, h5, h7.1, h7.2, sound_errors (st := st) hc h7 (h4 h6)⟩
      · refine Or.inr ⟨hc, fun h5 => ⟨h1.2 h5, ?_⟩⟩
        have := h4 h5
        unfold relErrors at this
        rw [if_pos hc] at this
        exact this

/-! ### Schedules with which the tests must pass -/

section passes
variable (hs : ConvSetting A pos ord) (hsc : testScale isq us A ord = .ok sc) (hu : u.length = A.browptr⟦A.nbrows⟧) (he : ExactILU A (scaledEntry isq us A) u) (hp : UsedPivotsOk A u)
include hs hsc hu he hp

omit [IsStrictOrderedRing K] in
/-- Sweeps with a barrier after each of them. -/
theorem sweepsOf_asweeps {G : Nat → Nat → Prop} {x0 : List K} (hx0 : x0.length = A.browptr⟦A.nbrows⟧)
    (hsched : ∀ s, AsyncExec G A.browptr⟦A.nbrows⟧ (1 * A.browptr⟦A.nbrows⟧) (iluCompP A (scalarScale? sc) pos) (sweepsOf sched x0 s) (sweepsOf sched x0 (s + 1))) :
    ∀ s, (sweepsOf sched x0 s).length = A.browptr⟦A.nbrows⟧ ∧ ASweeps (iluComp A (scalarScale? sc) pos) mixWhole s x0 (sweepsOf sched x0 s) := by
  intro s
  induction s with
  | zero => exact ⟨hx0, .zero _⟩
  | succ s ih =>
    obtain ⟨log, h1, h2, h3⟩ := async_exec_nowait (isKernel_ilu hs.full hs.sorted hs.diag hs.plist) ih.1 (hsched s)
    refine ⟨by rw [h3, applyLog_length]; exact ih.1, ih.2.succ ⟨log, h1, fun i hi => ?_, h3⟩⟩
    have : i ∈ log.map Prod.fst := List.count_pos_iff.mp (by rw [h2 i hi]; decide)
    obtain ⟨⟨i', v⟩, hm, rfl⟩ := List.mem_map.mp this
    exact ⟨v, hm⟩

/-- **C94** The partially asynchronous test, begun with the matrix, passes for every schedule of its sweeps, if at least `2 n - 1` sweeps are allowed: whatever the interleaving of the accesses, the order of the
entries and the delay of stores inside a sweep. The matrix must have exact factors, and must differ from them below as well as above the diagonal. -/
theorem partially_async_test_passes (ht : 0 < tol) (h0 : ¬ ExactILU A (scaledEntry isq us A) A.vals) (hL : maxDiff (lowerPos A) A.vals u ≠ 0) (hU : maxDiff (upperPos A) A.vals u ≠ 0)
    {G : Nat → Nat → Prop}
    (hsched : ∀ s, AsyncExec G A.browptr⟦A.nbrows⟧ (1 * A.browptr⟦A.nbrows⟧) (iluCompP A (scalarScale? sc) pos) (sweepsOf sched A.vals s) (sweepsOf sched A.vals (s + 1)))
    (hM1 : 1 ≤ M) (hM : ((2 * A.nbrows - 1 : Nat) : Int) ≤ M) (hf : M + 2 ≤ fuel) :
    ∃ st x, testPartiallyAsync isq us A pos ord "orig" tol M sched fuel = .ok (st, x) ∧ x = sweepsOf sched A.vals st.isweep := by
  have hsc' := scale_of_test hs hsc
  have hx0 : A.vals.length = A.browptr⟦A.nbrows⟧ := by rw [hs.full.val_len, Nat.mul_one]
  have hsw := sweepsOf_asweeps hs hsc hu he hp hx0 hsched
  have hex := getExactILU_complete hs hsc' hu he hp
  have hseq := hex
  rw [getExactILU_sweeps hs] at hseq
  have hscales : Scales A (scalarScale? sc) (scaledEntry isq us A) := fun i hi p hp => by
    have := hsc'.scalOk hs.full hs.sorted p (hs.full.lt_nnz hi hp.2)
    dsimp only at this
    rw [hs.full.rowOf_eq hi hp] at this
    exact this
  obtain ⟨st, x, h1, h2, -⟩ := convTest_pass (fuel := fuel) hs hsc' hu hx0 he ht (N := 2 * A.nbrows - 1) (P := fun s x => x = sweepsOf sched A.vals s) (initialization := "orig")
    (nxt := fun s x => .ok (sched s x)) (fun s x hx => by rw [hx]; exact (hsw s).1) rfl (fun s x hx => ⟨_, rfl, by rw [hx]; rfl⟩)
    (fun s x hN h1 hx => by
      rw [hx]
      exact async_ilu_sweeps_exact mixOk_whole hs.full hs.sorted hs.diag hs.plist hscales (ks := 1) le_rfl (by simp) hseq hx0 hN h1 (hsw s).2)
    (fun _ => ⟨h0, hL, hU, hM1⟩) (Or.inl hM) hf
  refine ⟨st, x, ?_, h2⟩
  unfold testPartiallyAsync
  rw [hsc, ok_bind, hex, ok_bind, initializeIluvals_orig hs, ok_bind]
  exact h1

omit [IsStrictOrderedRing K] in
/-- **C94** Any other name of an initialization is refused by both tests with the same exception, whatever the schedule, if the matrix can be factorized. -/
theorem async_tests_refuse_initialization (hin : initialization ≠ "orig" ∧ initialization ≠ "exact") :
    testPartiallyAsync isq us A pos ord initialization tol M sched fuel = .error (.throw "std::runtime_error" "Unsupported initialization requested!") ∧
    testFullyAsync isq us A pos ord initialization tol M nrepeats run fuel = .error (.throw "std::runtime_error" "Unsupported initialization requested!") := by
  have hex := getExactILU_complete hs (scale_of_test hs hsc) hu he hp
  have hin' : initializeIluvals initialization A u (List.replicate A.nnzb 0) = .error badInitialization := by
    unfold initializeIluvals
    rw [if_neg hin.1, if_neg hin.2]
  constructor
  · unfold testPartiallyAsync
    rw [hsc, ok_bind, hex, ok_bind, hin']
    rfl
  · unfold testFullyAsync
    rw [hsc, ok_bind, hex, ok_bind, hin']
    rfl

/-- **C94** The fully asynchronous test, begun with the matrix, passes for every schedule in which no thread is `L` sweeps ahead of another, if at least `(2 n - 1) (2 L - 1)` sweeps are allowed. -/
theorem fully_async_test_passes (ht : 0 < tol) (h0 : ¬ ExactILU A (scaledEntry isq us A) A.vals) (hL : maxDiff (lowerPos A) A.vals u ≠ 0) (hU : maxDiff (upperPos A) A.vals u ≠ 0)
    {L : Nat} (hL1 : 1 ≤ L) (hr : 1 ≤ nrepeats)
    (hrun : ∀ s, ∀ i < nrepeats, AsyncExec (Lag A.browptr⟦A.nbrows⟧ L) A.browptr⟦A.nbrows⟧ ((s + 1) * A.browptr⟦A.nbrows⟧) (iluCompP A (scalarScale? sc) pos) A.vals (run s i A.vals))
    (hM1 : 1 ≤ M) (hM : (((2 * A.nbrows - 1) * (2 * L - 1) : Nat) : Int) ≤ M) (hf : M + 2 ≤ fuel) :
    ∃ st x, testFullyAsync isq us A pos ord "orig" tol M nrepeats run fuel = .ok (st, x) ∧ 1 ≤ st.isweep := by
  have hsc' := scale_of_test hs hsc
  have hx0 : A.vals.length = A.browptr⟦A.nbrows⟧ := by rw [hs.full.val_len, Nat.mul_one]
  have hex := getExactILU_complete hs hsc' hu he hp
  have hseq := hex
  rw [getExactILU_sweeps hs] at hseq
  have hrl : ∀ s, ∀ i < nrepeats, (run s i A.vals).length = A.browptr⟦A.nbrows⟧ := by
    intro s i hi
    obtain ⟨k, log, ps, -, -, h⟩ := hrun s i hi
    rw [h, applyLog_length]; exact hx0
  obtain ⟨st, x, h1, -, h2⟩ := convTest_pass (fuel := fuel) hs hsc' hu hx0 he ht (N := (2 * A.nbrows - 1) * (2 * L - 1)) (initialization := "orig")
    (P := fun s x => x.length = A.browptr⟦A.nbrows⟧ ∧ (1 ≤ s → ∀ p < A.browptr⟦A.nbrows⟧, x⟦p⟧ = (∑ i ∈ range nrepeats, (run (s - 1) i A.vals)⟦p⟧) / nrepeats))
    (nxt := fun s _ => averageRuns "orig" A run nrepeats u s)
    (fun s x hx => hx.1) ⟨hx0, fun h => absurd h (by decide)⟩
    (fun s x hx => (averageRuns_ok hs (initializeIluvals_orig hs u) hr (hrl s)).mono fun y hy => ⟨hy.1, fun _ => hy.2⟩)
    (fun s x hN h1 hx => by
      refine list_ext0 (by rw [hx.1, hu]) fun p hp => ?_
      rw [hx.2 h1 p (by rw [← hx.1]; exact hp), sum_congr rfl (g := fun _ => u⟦p⟧), sum_const, card_range, nsmul_eq_mul, mul_div_assoc, mul_div_cancel₀]
      · have : (nrepeats : K) ≠ 0 := by exact_mod_cast (by omega : nrepeats ≠ 0)
        exact this
      · intro i hi
        have := hrun (s - 1) i (mem_range.mp hi)
        rw [show s - 1 + 1 = s by omega] at this
        rw [async_ilu_exec_exact hs.full hs.sorted hs.diag hs.plist (ks := 1) le_rfl (by simp) hseq hL1 hN hx0 this])
    (fun _ => ⟨h0, hL, hU, hM1⟩) (Or.inl hM) hf
  refine ⟨st, x, ?_, h2 hM1⟩
  unfold testFullyAsync
  rw [hsc, ok_bind, hex, ok_bind, initializeIluvals_orig hs, ok_bind]
  exact h1

/-- **C94** Begun with the exact factors both tests pass for every schedule, however late any thread is, and for every maximum of sweeps. -/
theorem async_tests_pass_exact (ht : 0 < tol) {G : Nat → Nat → Prop} (hr : 1 ≤ nrepeats)
    (hsched : ∀ s, AsyncExec G A.browptr⟦A.nbrows⟧ (1 * A.browptr⟦A.nbrows⟧) (iluCompP A (scalarScale? sc) pos) (sweepsOf sched u s) (sweepsOf sched u (s + 1)))
    (hrun : ∀ s, ∀ i < nrepeats, AsyncExec G A.browptr⟦A.nbrows⟧ ((s + 1) * A.browptr⟦A.nbrows⟧) (iluCompP A (scalarScale? sc) pos) u (run s i u)) (hf : M + 2 ≤ fuel) :
    (∃ st, testPartiallyAsync isq us A pos ord "exact" tol M sched fuel = .ok (st, u)) ∧ ∃ st, testFullyAsync isq us A pos ord "exact" tol M nrepeats run fuel = .ok (st, u) := by
  have hsc' := scale_of_test hs hsc
  have hex := getExactILU_complete hs hsc' hu he hp
  have hseq := hex
  rw [getExactILU_sweeps hs] at hseq
  have hsw : ∀ s, sweepsOf sched u s = u := by
    intro s
    induction s with
    | zero => rfl
    | succ s ih =>
      have := hsched s
      rw [ih] at this
      exact async_ilu_exec_fixed hs.full hs.sorted hs.diag hs.plist (ks := 1) le_rfl (by simp) hseq this
  have hrl : ∀ s, ∀ i < nrepeats, run s i u = u := fun s i hi =>
    async_ilu_exec_fixed hs.full hs.sorted hs.diag hs.plist (ks := 1) le_rfl (by simp) hseq (hrun s i hi)
  constructor
  · obtain ⟨st, x, h1, h2, -⟩ := convTest_pass (fuel := fuel) hs hsc' hu hu he ht (N := 0) (M := M) (P := fun s x => x = u ∧ sweepsOf sched u s = x) (initialization := "exact") (nxt := fun s x => .ok (sched s x))
      (fun s x hx => by rw [hx.1]; exact hu) ⟨rfl, rfl⟩ (fun s x hx => ⟨_, rfl, by
        have : sched s x = u := by rw [← hx.2]; exact hsw (s + 1)
        exact ⟨this, by rw [this]; exact hsw _⟩⟩) (fun s x _ _ hx => hx.1) (fun h => absurd rfl h) (Or.inr (by decide)) hf
    refine ⟨st, ?_⟩
    unfold testPartiallyAsync
    rw [hsc, ok_bind, hex, ok_bind, initializeIluvals_exact hs hu, ok_bind, h1, h2.1]
  · obtain ⟨st, x, h1, h2, -⟩ := convTest_pass (fuel := fuel) hs hsc' hu hu he ht (N := 0) (M := M) (P := fun s x => x = u) (initialization := "exact")
      (nxt := fun s _ => averageRuns "exact" A run nrepeats u s)
      (fun s x hx => by rw [hx]; exact hu) rfl (fun s x hx => (averageRuns_ok hs (initializeIluvals_exact hs hu) hr (fun i hi => by rw [hrl s i hi]; exact hu)).mono fun y hy => by
        refine list_ext0 (by rw [hy.1, hu]) fun p hp => ?_
        rw [hy.2 p (by rw [← hy.1]; exact hp), sum_congr rfl (g := fun _ => u⟦p⟧), sum_const, card_range, nsmul_eq_mul, mul_div_assoc, mul_div_cancel₀]
        · have : (nrepeats : K) ≠ 0 := by exact_mod_cast (by omega : nrepeats ≠ 0)
          exact this
        · intro i hi
          rw [hrl s i (mem_range.mp hi)]) (fun s x _ _ hx => hx) (fun h => absurd rfl h) (Or.inr (by decide)) hf
    refine ⟨st, ?_⟩
    unfold testFullyAsync
    rw [hsc, ok_bind, hex, ok_bind, initializeIluvals_exact hs hu, ok_bind, h1, h2]

/-! ### Failures without a fault of the factorization -/

/-- **C94**, negative: if the matrix already agrees with its factors below the diagonal, or on and above it, the tests that begin with the matrix abort whatever the sweeps compute: they divide by the initial
error. -/
theorem async_tests_abort_without_error (hlen : ∀ s x, x.length = A.browptr⟦A.nbrows⟧ → (sched s x).length = A.browptr⟦A.nbrows⟧)
    (hrlen : ∀ s i x, x.length = A.browptr⟦A.nbrows⟧ → (run s i x).length = A.browptr⟦A.nbrows⟧) (hr : 1 ≤ nrepeats)
    (hz : maxDiff (lowerPos A) A.vals u = 0 ∨ maxDiff (upperPos A) A.vals u = 0) (hf : 1 ≤ fuel) :
    testPartiallyAsync isq us A pos ord "orig" tol M sched fuel = .error .abort ∧ testFullyAsync isq us A pos ord "orig" tol M nrepeats run fuel = .error .abort := by
  have hsc' := scale_of_test hs hsc
  have hx0 : A.vals.length = A.browptr⟦A.nbrows⟧ := by rw [hs.full.val_len, Nat.mul_one]
  have hex := getExactILU_complete hs hsc' hu he hp
  constructor
  · unfold testPartiallyAsync
    rw [hsc, ok_bind, hex, ok_bind, initializeIluvals_orig hs, ok_bind]
    exact convTest_zero hs hsc' hu hx0 he rfl (hlen 0 _ hx0) (by decide) (Or.inr hz) hf
  · unfold testFullyAsync
    rw [hsc, ok_bind, hex, ok_bind, initializeIluvals_orig hs, ok_bind]
    obtain ⟨y, h1, h2, -⟩ := averageRuns_ok (run := run) (s := 0) hs (initializeIluvals_orig hs u) hr (fun i _ => hrlen 0 i _ hx0)
    exact convTest_zero hs hsc' hu hx0 he h1 h2 (by decide) (Or.inr hz) hf

end passes

end

/-! ### Concrete cases -/

theorem exA2_conv : ConvSetting exA2 ⟨[2], [1], [0, 0, 0, 0, 1]⟩ [1, 0] :=
  ⟨exA2_full, exA2_sorted, exA2_diag, exA2_pos, by decide, by decide⟩

theorem exA2_factors : ExactILU exA2 (scaledEntry (fun x : ℚ => x) false exA2) [2, 1, 1/2, 1/2] ∧ UsedPivotsOk exA2 ([2, 1, 1/2, 1/2] : List ℚ) :=
  (getExactILU_sound exA2_conv (isq := fun x : ℚ => x) (us := false) (sc := none) rfl (by decide +kernel)).2

theorem exA2_errors : maxDiff (lowerPos exA2) exA2.vals [2, 1, 1/2, 1/2] = 1/2 ∧ maxDiff (upperPos exA2) exA2.vals [2, 1, 1/2, 1/2] = 1/2 := by decide +kernel

theorem exA2_not : ¬ ExactILU exA2 (scaledEntry (fun x : ℚ => x) false exA2) exA2.vals := by
  rw [← remNorm_eq_zero_iff]
  decide +kernel

theorem exA2_execs {G : Nat → Nat → Prop} (hG : ∀ q q', G q q' → q' < q) (s : Nat) {x : List ℚ} (hx : x.length = 4) :
    ∃ x', AsyncExec G 4 (s * 4) (iluCompP exA2 (scalarScale? none) ⟨[2], [1], [0, 0, 0, 0, 1]⟩) x x' ∧ x'.length = 4 := by
  obtain ⟨k, ⟨log, ps⟩, -, h1, h2⟩ := (async_ilu_exec_terminates (s := s) (x := x) exA2_full exA2_sorted exA2_diag exA2_pos exA2_scales hG hx (.refl _)).2
  exact ⟨_, ⟨k, log, ps, h1, h2, rfl⟩, by rw [applyLog_length]; exact hx⟩

/-- Non-vacuity of `partially_async_test_passes` (and of `partially_async_test_sound`): there are schedules for `exA2`, and with three sweeps the test passes. -/
example : ∃ sched : Nat → List ℚ → List ℚ, (∀ s x, x.length = 4 → (sched s x).length = 4) ∧
    (∀ s, AsyncExec NoWait 4 (1 * 4) (iluCompP exA2 (scalarScale? none) ⟨[2], [1], [0, 0, 0, 0, 1]⟩) (sweepsOf sched exA2.vals s) (sweepsOf sched exA2.vals (s + 1))) ∧
    ∃ st x, testPartiallyAsync (fun x => x) false exA2 ⟨[2], [1], [0, 0, 0, 0, 1]⟩ [1, 0] "orig" (1/1000) 3 sched 5 = .ok (st, x) := by
  choose f hf using fun (x : List ℚ) (hx : x.length = 4) => exA2_execs (G := NoWait) (fun _ _ h => h.elim) 1 hx
  let sched : Nat → List ℚ → List ℚ := fun _ x => if hx : x.length = 4 then f x hx else x
  have hlen : ∀ s x, x.length = 4 → (sched s x).length = 4 := fun s x hx => by
    show (dite _ _ _ : List ℚ).length = 4
    rw [dif_pos hx]
    exact (hf x hx).2
  have hl : ∀ s, (sweepsOf sched exA2.vals s).length = 4 := by
    intro s
    induction s with
    | zero => rfl
    | succ s ih => exact hlen s _ ih
  have hex : ∀ s, AsyncExec NoWait 4 (1 * 4) (iluCompP exA2 (scalarScale? none) ⟨[2], [1], [0, 0, 0, 0, 1]⟩) (sweepsOf sched exA2.vals s) (sweepsOf sched exA2.vals (s + 1)) := fun s => by
    have : sweepsOf sched exA2.vals (s + 1) = f _ (hl s) := dif_pos (hl s)
    rw [this]
    exact (hf _ (hl s)).1
  refine ⟨sched, hlen, hex, ?_⟩
  obtain ⟨st, x, h, -⟩ := partially_async_test_passes (fuel := 5) (M := 3) (tol := 1/1000) exA2_conv (isq := fun x : ℚ => x) (us := false) (sc := none) rfl rfl exA2_factors.1 exA2_factors.2 (by norm_num) exA2_not
    (by rw [exA2_errors.1]; norm_num) (by rw [exA2_errors.2]; norm_num) (G := NoWait) hex (by decide) (by decide) (by decide)
  exact ⟨st, x, h⟩

/-- Non-vacuity of `fully_async_test_passes`, `fully_async_test_sound`: with threads that may be one sweep apart (`L = 2`) nine sweeps suffice. -/
example : ∃ run : Nat → Nat → List ℚ → List ℚ,
    (∀ s i, AsyncExec (Lag 4 2) 4 ((s + 1) * 4) (iluCompP exA2 (scalarScale? none) ⟨[2], [1], [0, 0, 0, 0, 1]⟩) exA2.vals (run s i exA2.vals)) ∧
    ∃ st x, testFullyAsync (fun x => x) false exA2 ⟨[2], [1], [0, 0, 0, 0, 1]⟩ [1, 0] "orig" (1/1000) 9 3 run 11 = .ok (st, x) := by
  choose f hf using fun (s : Nat) => exA2_execs (x := exA2.vals) (lag_lt (n := 4) (L := 2) (by decide)) (s + 1) rfl
  refine ⟨fun s _ _ => f s, fun s _ => (hf s).1, ?_⟩
  obtain ⟨st, x, h, -⟩ := fully_async_test_passes (fuel := 11) (M := 9) (tol := 1/1000) exA2_conv (isq := fun x : ℚ => x) (us := false) (sc := none) rfl rfl exA2_factors.1 exA2_factors.2 (by norm_num) exA2_not
    (by rw [exA2_errors.1]; norm_num) (by rw [exA2_errors.2]; norm_num) (L := 2) (by decide) (nrepeats := 3) (by decide) (run := fun s _ _ => f s) (fun s _ _ => (hf s).1) (by decide) (by decide) (by decide)
  exact ⟨st, x, h⟩

/-- **C94**, negative: the program has no barrier between the sweeps of a repetition. There are executions with which the fully asynchronous test, begun with the matrix, fails whatever the number of
repetitions, the maximum of sweeps and the tolerance below 1, although the factorization of this matrix converges. -/
theorem fully_async_test_may_fail : ∃ run : Nat → Nat → List ℚ → List ℚ,
    (∀ s i, AsyncExec NoWait 4 ((s + 1) * 4) (iluCompP exA2 (scalarScale? none) ⟨[2], [1], [0, 0, 0, 0, 1]⟩) exA2.vals (run s i exA2.vals)) ∧
    ∀ (tol : ℚ) (M : Int) (nrepeats fuel : Nat), tol < 1 → 1 ≤ nrepeats → M + 2 ≤ fuel →
      testFullyAsync (fun x => x) false exA2 ⟨[2], [1], [0, 0, 0, 0, 1]⟩ [1, 0] "orig" tol M nrepeats run fuel = .error .abort := by
  refine ⟨fun _ _ _ => [2, 1, 1/2, 0], fun s i => ?_, fun tol M nrepeats fuel ht hr hf => ?_⟩
  · exact async_exec_initial (n := 4) (m₀ := exA2.vals) (e := [2, 1, 1/2, 0]) (evals_iluCompP exA2 (scalarScale? none) _) rfl rfl (Nat.succ_pos _) (by decide +kernel) fun _ _ _ h => h
  · have hsc : ScaleIs (fun x : ℚ => x) false exA2 none := rfl
    have hex : getExactILU exA2 (scalarScale? none) ⟨[2], [1], [0, 0, 0, 0, 1]⟩ = .ok ([2, 1, 1/2, 1/2] : List ℚ) := by decide +kernel
    unfold testFullyAsync
    rw [show testScale (fun x : ℚ => x) false exA2 [1, 0] = .ok none from rfl, ok_bind, hex, ok_bind, initializeIluvals_orig exA2_conv, ok_bind]
    refine convTest_fail exA2_conv hsc (u := [2, 1, 1/2, 1/2]) (x0 := exA2.vals) rfl rfl exA2_factors.1 (P := fun s x => x.length = 4 ∧ (1 ≤ s → x = [2, 1, 1/2, 0])) (fun s x hx => hx.1) ⟨rfl, fun h => absurd h (by decide)⟩
      (fun s x hx => (averageRuns_ok exA2_conv (initializeIluvals_orig exA2_conv _) hr (fun i _ => rfl)).mono fun y hy => ⟨hy.1, fun _ => ?_⟩) (by decide)
      (by rw [exA2_errors.1, exA2_errors.2]; norm_num) (fun s x h1 hx => Or.inr ?_) hf
    · refine list_ext0 hy.1 fun p hp => ?_
      have hn : (nrepeats : ℚ) ≠ 0 := by exact_mod_cast (by omega : nrepeats ≠ 0)
      rw [hy.2 p (by rw [← hy.1]; exact hp), sum_const, card_range, nsmul_eq_mul, mul_comm, mul_div_assoc, div_self hn, mul_one]
    · rw [hx.2 h1]
      have : (relErrors "orig" exA2 [2, 1, 1/2, 1/2] exA2.vals ([2, 1, 1/2, 0] : List ℚ)).2 = 1 := by decide +kernel
      rw [this]
      exact ht

/-- A lower triangular matrix: rows `2`; `1 3`. -/
def exLow : SR ℚ := { nbrows := 2, browptr := [0, 1, 3], bcolind := [0, 0, 1], vals := [2, 1, 3], diagind := [0, 2], browendptr := [1, 3], nnzb := 3, nbstored := 3 }

theorem exLow_conv : ConvSetting exLow ⟨[], [], [0, 0, 0, 0]⟩ [0, 1] :=
  ⟨by constructor <;> decide, SR.sorted_of_check (by decide), by constructor <;> decide, by decide, by decide, by decide⟩

/-- **C94**, negative, and non-vacuity of `async_tests_abort_without_error`: for a triangular matrix, whose factors a single sweep finds, both tests abort with any schedule. -/
theorem async_tests_abort_on_triangular {sched : Nat → List ℚ → List ℚ} {run : Nat → Nat → List ℚ → List ℚ} (hlen : ∀ s x, x.length = 3 → (sched s x).length = 3)
    (hrlen : ∀ s i x, x.length = 3 → (run s i x).length = 3) (tol : ℚ) (M : Int) {nrepeats fuel : Nat} (hr : 1 ≤ nrepeats) (hf : 1 ≤ fuel) :
    testPartiallyAsync (fun x => x) false exLow ⟨[], [], [0, 0, 0, 0]⟩ [0, 1] "orig" tol M sched fuel = .error .abort ∧
    testFullyAsync (fun x => x) false exLow ⟨[], [], [0, 0, 0, 0]⟩ [0, 1] "orig" tol M nrepeats run fuel = .error .abort := by
  have hx := getExactILU_sound exLow_conv (isq := fun x : ℚ => x) (us := false) (sc := none) (u := [2, 1/2, 3]) rfl (by decide +kernel)
  exact async_tests_abort_without_error exLow_conv (sc := none) rfl hx.1 hx.2.1 hx.2.2 hlen hrlen hr (Or.inr (by decide +kernel)) hf

/-- Non-vacuity of `async_tests_refuse_initialization`. -/
example : testPartiallyAsync (fun x => x) false exA2 ⟨[2], [1], [0, 0, 0, 0, 1]⟩ [1, 0] "sgs" (1/1000 : ℚ) 4 (fun _ x => x) 6 = .error (.throw "std::runtime_error" "Unsupported initialization requested!") :=
  (async_tests_refuse_initialization (nrepeats := 3) (run := fun _ _ x => x) exA2_conv (isq := fun x : ℚ => x) (us := false) (sc := none) rfl rfl exA2_factors.1 exA2_factors.2
    (by decide)).1

/-- Non-vacuity of `async_tests_pass_exact`: executions from the exact factors of `exA2` without any order between the sweeps. -/
example : ∃ run : Nat → Nat → List ℚ → List ℚ,
    (∀ s i, AsyncExec NoWait 4 ((s + 1) * 4) (iluCompP exA2 (scalarScale? none) ⟨[2], [1], [0, 0, 0, 0, 1]⟩) [2, 1, 1/2, 1/2] (run s i [2, 1, 1/2, 1/2])) ∧
    ∃ st, testFullyAsync (fun x => x) false exA2 ⟨[2], [1], [0, 0, 0, 0, 1]⟩ [1, 0] "exact" (1/1000) 4 3 run 6 = .ok (st, [2, 1, 1/2, 1/2]) := by
  have hfix : ∀ s, 1 ≤ s → AsyncExec NoWait 4 (s * 4) (iluCompP exA2 (scalarScale? none) ⟨[2], [1], [0, 0, 0, 0, 1]⟩) ([2, 1, 1/2, 1/2] : List ℚ) [2, 1, 1/2, 1/2] := fun s hs =>
    async_exec_initial (n := 4) (evals_iluCompP exA2 (scalarScale? none) _) rfl rfl hs (by decide +kernel) fun _ _ _ h => h
  refine ⟨fun _ _ x => x, fun s i => hfix (s + 1) (Nat.succ_pos _), ?_⟩
  have hsw : ∀ s, sweepsOf (fun _ x => x) ([2, 1, 1/2, 1/2] : List ℚ) s = [2, 1, 1/2, 1/2] := by
    intro s
    induction s with
    | zero => rfl
    | succ s ih => exact ih
  exact (async_tests_pass_exact (fuel := 6) (M := 4) (tol := 1/1000) (nrepeats := 3) (run := fun _ _ x => x) (sched := fun _ x => x) exA2_conv (isq := fun x : ℚ => x) (us := false) (sc := none) rfl rfl
    exA2_factors.1 exA2_factors.2 (by norm_num) (G := NoWait) (by decide) (fun s => by rw [hsw, hsw]; exact hfix 1 le_rfl) (fun s i _ => hfix (s + 1) (Nat.succ_pos _)) (by decide)).2

end Blasted
