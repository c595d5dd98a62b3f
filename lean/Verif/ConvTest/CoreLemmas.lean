import Verif.ConvTest.Lemmas

/-!
# The parts of the convergence test before and after its loop
-/

namespace Blasted

open Finset

variable {K : Type} [Field K] [LinearOrder K] [IsStrictOrderedRing K]

/-- The setting of the test: a well-formed matrix with sorted rows and stored diagonal, its position lists, the loops of the norms in any order. The last is asserted by the caller,
`tests/solverops/test_iter_prec_conv.cpp`. -/
structure ConvSetting (A : SR K) (pos : ILUPos) (ord : List Nat) : Prop where
  full : A.Full
  sorted : A.Sorted
  diag : A.HasDiag
  plist : computeILUPositions A = .ok pos
  ord_perm : ord.Perm (List.range A.nbrows)
  nnz : A.nnzb = A.browptr⟦A.nbrows⟧

variable {A : SR K} {pos : ILUPos} {ord : List Nat} {isq : K → K} {us : Bool} {sc : Option (List K)} {u x0 : List K} {initialization : String} {tol : K} {M : Int}
variable (hs : ConvSetting A pos ord)
include hs

omit [Field K] [LinearOrder K] [IsStrictOrderedRing K] in
theorem ConvSetting.posOk : ILUPosOk A pos := by
  obtain ⟨pos', h1, h⟩ := compute_ILU_positions_correct A hs.full hs.sorted hs.diag
  rw [hs.plist] at h1; cases h1
  exact h

omit [IsStrictOrderedRing K] in
omit [LinearOrder K] in
theorem testScale_ok (isq : K → K) (us : Bool) : Ok (testScale isq us A ord) (ScaleIs isq us A) := by
  unfold testScale ScaleIs
  cases us with
  | false => exact Ok.pure rfl
  | true =>
    refine (getScalingVector_ok isq hs.full hs.diag hs.ord_perm (s := List.replicate A.nbrows 0) (by simp)).bind ?_
    rintro s' ⟨h1, h2⟩
    refine Ok.pure ?_
    refine ⟨s', rfl, h1, fun i hi => ?_⟩
    have := hs.full.entry_stored hs.sorted hi (hs.diag.inRow hi)
    rw [hs.diag.diag_col i hi] at this
    rw [h2 i hi, this]

omit [IsStrictOrderedRing K] in
theorem getExactILU_sweeps (scal : Nat → Nat → K → C K) : getExactILU A scal pos = iluSweeps A scal pos 1 (List.replicate A.browptr⟦A.nbrows⟧ 0) := by
  unfold getExactILU iluSweeps
  rw [hs.nnz, show (forRange 0 1 _ _ : C (List K)) = _ from forList_cons 0 [] _ _]
  cases forRange 0 A.nbrows (iluRow A scal pos) (List.replicate A.browptr⟦A.nbrows⟧ 0) <;> rfl

omit [IsStrictOrderedRing K] in
theorem getExactILU_sound (hsc : ScaleIs isq us A sc) (h : getExactILU A (scalarScale? sc) pos = .ok u) :
    u.length = A.browptr⟦A.nbrows⟧ ∧ ExactILU A (scaledEntry isq us A) u ∧ UsedPivotsOk A u := by
  rw [getExactILU_sweeps hs] at h
  obtain ⟨h1, h2⟩ := iluSweeps_sound hs.full hs.sorted hs.diag hs.posOk (hsc.scalOk hs.full hs.sorted) Nat.one_pos (by simp) h
  refine ⟨h1, (exact_iff_pos hs.full).mpr fun p hp => (h2 p hp).1, fun i hi p hp hlt => ?_⟩
  have := (h2 p (hs.full.lt_nnz hi hp.2)).2
  rw [hs.full.rowOf_eq hi hp] at this
  exact this hlt

omit [IsStrictOrderedRing K] in
theorem getExactILU_complete (hsc : ScaleIs isq us A sc) (hl : u.length = A.browptr⟦A.nbrows⟧) (he : ExactILU A (scaledEntry isq us A) u) (hp : UsedPivotsOk A u) :
    getExactILU A (scalarScale? sc) pos = .ok u := by
  rw [getExactILU_sweeps hs]
  exact iluSweeps_complete hs.full hs.sorted hs.diag hs.posOk (hsc.scalOk hs.full hs.sorted) Nat.one_pos (by simp) hl (exact_pos hs.full he hp)

omit [LinearOrder K] [IsStrictOrderedRing K] in
theorem initializeIluvals_orig (u : List K) : initializeIluvals "orig" A u (List.replicate A.nnzb 0) = .ok A.vals := by
  unfold initializeIluvals
  rw [if_pos rfl]
  exact copyVals_eq (by rw [hs.full.val_len, hs.nnz, Nat.mul_one]) (by simp)

omit [LinearOrder K] [IsStrictOrderedRing K] in
theorem initializeIluvals_exact (hu : u.length = A.browptr⟦A.nbrows⟧) : initializeIluvals "exact" A u (List.replicate A.nnzb 0) = .ok u := by
  unfold initializeIluvals
  rw [if_neg (by decide), if_pos rfl]
  exact copyVals_eq (by rw [hu, hs.nnz]) (by simp)

variable (hsc : ScaleIs isq us A sc) (hu : u.length = A.browptr⟦A.nbrows⟧) (hx0 : x0.length = A.browptr⟦A.nbrows⟧)
include hsc

theorem iluRes_rem {x : List K} (hx : x.length = A.browptr⟦A.nbrows⟧) :
    iluRes (fun x : K => |x|) A (scalarScale? sc) pos ord x = .ok (remNorm A (scaledEntry isq us A) x) := by
  obtain ⟨r, h1, rfl, -⟩ := scalar_ilu_residual_correct hs.full hs.sorted hs.diag hs.plist hsc hs.ord_perm hx
  exact h1

include hu hx0

theorem checkInitial_eq (he : ExactILU A (scaledEntry isq us A) u) :
    checkInitial A (scalarScale? sc) pos ord initialization u x0 =
      if initialization ≠ "exact" ∧ remNorm A (scaledEntry isq us A) x0 = 0 then .error .abort else .ok () := by
  classical
  unfold checkInitial
  rw [maxnormLower_eq hs.full hs.sorted hs.diag hs.ord_perm hu hu, ok_bind, maxDiff_self, cassert_true (by simp), ok_bind,
    maxnormUpper_eq hs.full hs.sorted hs.diag hs.ord_perm hu hu, ok_bind, maxDiff_self, cassert_true (by simp), ok_bind,
    iluRes_rem hs hsc hx0, ok_bind, iluRes_rem hs hsc hu, ok_bind, remNorm_eq_zero_iff.mpr he]
  by_cases h1 : initialization = "exact"
  · rw [if_pos h1, if_neg (fun h => h.1 h1)]
  · rw [if_neg h1]
    unfold finiteQuot
    by_cases h2 : remNorm A (scaledEntry isq us A) x0 = 0
    · rw [if_pos h2, if_pos (show _ ∧ _ from ⟨h1, h2⟩)]
      rfl
    · rw [if_neg h2, if_neg (fun h => h2 h.2), ok_bind, zero_div, cassert_true (by simp)]

/-- The errors that the test compares with the tolerance. -/
def relErrors (initialization : String) (A : SR K) (u x0 x : List K) : K × K :=
  if initialization = "exact" then (maxDiff (lowerPos A) x u, maxDiff (upperPos A) x u)
  else (maxDiff (lowerPos A) x u / maxDiff (lowerPos A) x0 u, maxDiff (upperPos A) x u / maxDiff (upperPos A) x0 u)

omit hsc in
theorem convErrors_eq {x : List K} (hx : x.length = A.browptr⟦A.nbrows⟧) :
    convErrors initialization A ord (maxDiff (lowerPos A) x0 u) (maxDiff (upperPos A) x0 u) u x =
      if initialization ≠ "exact" ∧ (maxDiff (lowerPos A) x0 u = 0 ∨ maxDiff (upperPos A) x0 u = 0) then .error .abort else .ok (relErrors initialization A u x0 x) := by
  unfold convErrors relErrors
  rw [maxnormLower_eq hs.full hs.sorted hs.diag hs.ord_perm hx hu, ok_bind, maxnormUpper_eq hs.full hs.sorted hs.diag hs.ord_perm hx hu, ok_bind]
  by_cases h1 : initialization = "exact"
  · rw [if_pos h1, if_pos h1, if_neg fun h => h.1 h1]
  · rw [if_neg h1, if_neg h1]
    unfold finiteQuot
    by_cases h2 : maxDiff (lowerPos A) x0 u = 0
    · rw [if_pos h2, if_pos (show _ ∧ (_ ∨ _) from ⟨h1, Or.inl h2⟩)]; rfl
    · rw [if_neg h2, ok_bind]
      by_cases h3 : maxDiff (upperPos A) x0 u = 0
      · rw [if_pos h3, if_pos (show _ ∧ (_ ∨ _) from ⟨h1, Or.inr h3⟩)]; rfl
      · rw [if_neg h3, if_neg (fun h => h.2.elim h2 h3)]; rfl

/-- The test from the initial errors on. -/
theorem convTest_eq (he : ExactILU A (scaledEntry isq us A) u) (nxt : Nat → List K → C (List K)) (fuel : Nat) :
    convTest A (scalarScale? sc) pos ord initialization tol M nxt fuel u x0 =
      if initialization ≠ "exact" ∧ remNorm A (scaledEntry isq us A) x0 = 0 then .error .abort else (do
        let r ← convLoop nxt (checkConvergence A (scalarScale? sc) pos ord initialization tol M (maxDiff (lowerPos A) x0 u) (maxDiff (upperPos A) x0 u) u) fuel
          { isweep := 0, curmaxsweeps := M, converged := decide (initialization = "exact") } x0
        cassert r.1.converged
        .ok r) := by
  classical
  unfold convTest
  rw [maxnormLower_eq hs.full hs.sorted hs.diag hs.ord_perm hx0 hu, ok_bind, maxnormUpper_eq hs.full hs.sorted hs.diag hs.ord_perm hx0 hu, ok_bind, checkInitial_eq hs hsc hu hx0 he]
  split
  · rfl
  · rw [ok_bind]

theorem checkConvergence_eq {x : List K} (hx : x.length = A.browptr⟦A.nbrows⟧) (st : ConvState) :
    checkConvergence A (scalarScale? sc) pos ord initialization tol M (maxDiff (lowerPos A) x0 u) (maxDiff (upperPos A) x0 u) u x st =
      if initialization ≠ "exact" ∧ (maxDiff (lowerPos A) x0 u = 0 ∨ maxDiff (upperPos A) x0 u = 0) then .error .abort
      else .ok (convUpdate tol M (relErrors initialization A u x0 x) st) := by
  unfold checkConvergence
  rw [convErrors_eq hs hu hx0 hx]
  split
  · rfl
  · rw [ok_bind, iluRes_rem hs hsc hx, ok_bind]

/-- What the loop of the test does, if the initial errors can be divided by. -/
theorem convTest_loop {nxt : Nat → List K → C (List K)} {fuel : Nat} {P : Nat → List K → Prop}
    (hP : ∀ s x, P s x → x.length = A.browptr⟦A.nbrows⟧) (hP0 : P 0 x0) (hn : ∀ s x, P s x → Ok (nxt s x) (P (s + 1)))
    (h1 : initialization ≠ "exact" → maxDiff (lowerPos A) x0 u ≠ 0 ∧ maxDiff (upperPos A) x0 u ≠ 0) :
    ((fuel : Int) < M + 2 ∧ convLoop nxt (checkConvergence A (scalarScale? sc) pos ord initialization tol M (maxDiff (lowerPos A) x0 u) (maxDiff (upperPos A) x0 u) u) fuel
          { isweep := 0, curmaxsweeps := M, converged := decide (initialization = "exact") } x0 = .error .fuel) ∨
    ∃ st x, convLoop nxt (checkConvergence A (scalarScale? sc) pos ord initialization tol M (maxDiff (lowerPos A) x0 u) (maxDiff (upperPos A) x0 u) u) fuel
          { isweep := 0, curmaxsweeps := M, converged := decide (initialization = "exact") } x0 = .ok (st, x) ∧ LoopInv M st ∧ P st.isweep x ∧ st.curmaxsweeps ≤ st.isweep ∧
      ((M ≤ 0 ∧ st = { isweep := 0, curmaxsweeps := M, converged := decide (initialization = "exact") }) ∨
        (0 < st.isweep ∧ 0 < M ∧ ∃ st'', st = convUpdate tol M (relErrors initialization A u x0 x) st'')) := by
  have h := convLoop_ok (tol := tol) (M := M) (P := P) (e := relErrors initialization A u x0) hn
    (check := checkConvergence A (scalarScale? sc) pos ord initialization tol M (maxDiff (lowerPos A) x0 u) (maxDiff (upperPos A) x0 u) u) (fun s x st hx => by
      rw [checkConvergence_eq hs hsc hu hx0 (hP _ _ hx), if_neg]
      rintro ⟨h2, h3⟩
      exact h3.elim (h1 h2).1 (h1 h2).2) fuel { isweep := 0, curmaxsweeps := M, converged := decide (initialization = "exact") } x0 ⟨fun _ => rfl, by dsimp only; omega⟩ hP0
  rcases h with ⟨h2, h3⟩ | ⟨st, x, h2, h3, h4, h5, h6⟩
  · refine Or.inl ⟨?_, h3⟩
    dsimp only at h2
    push_cast at h2
    omega
  · refine Or.inr ⟨st, x, h2, h3, h4, h5, ?_⟩
    rcases h6 with ⟨h7, h8, -⟩ | ⟨h7, h8⟩
    · exact Or.inl ⟨by dsimp only at h7; push_cast at h7; exact h7, h8⟩
    · refine Or.inr ⟨h7, ?_, h8⟩
      by_contra hM
      have : convLoop nxt (checkConvergence A (scalarScale? sc) pos ord initialization tol M (maxDiff (lowerPos A) x0 u) (maxDiff (upperPos A) x0 u) u) fuel
          { isweep := 0, curmaxsweeps := M, converged := decide (initialization = "exact") } x0 = .ok ({ isweep := 0, curmaxsweeps := M, converged := decide (initialization = "exact") }, x0) := by
        unfold convLoop
        rw [if_neg (by dsimp only; push_cast; omega)]
      rw [this] at h2
      cases h2
      exact absurd h7 (by simp)

/-- Without an initial error to divide by the test stops. -/
theorem convTest_zero (he : ExactILU A (scaledEntry isq us A) u) {nxt : Nat → List K → C (List K)} {fuel : Nat} {y : List K}
    (hn : nxt 0 x0 = .ok y) (hy : y.length = A.browptr⟦A.nbrows⟧) (h1 : initialization ≠ "exact")
    (hbad : ExactILU A (scaledEntry isq us A) x0 ∨ maxDiff (lowerPos A) x0 u = 0 ∨ maxDiff (upperPos A) x0 u = 0)
    (hf1 : 1 ≤ fuel) : convTest A (scalarScale? sc) pos ord initialization tol M nxt fuel u x0 = .error .abort := by
  rw [convTest_eq hs hsc hu hx0 he]
  split
  · rfl
  · rename_i h2
    have hb : maxDiff (lowerPos A) x0 u = 0 ∨ maxDiff (upperPos A) x0 u = 0 := hbad.resolve_left fun h => h2 ⟨h1, remNorm_eq_zero_iff.mpr h⟩
    by_cases hM : 0 < M
    · obtain ⟨f, rfl⟩ := Nat.exists_eq_add_of_le' hf1
      rw [convLoop_err (f := .abort) (y := y) (check := checkConvergence A (scalarScale? sc) pos ord initialization tol M (maxDiff (lowerPos A) x0 u) (maxDiff (upperPos A) x0 u) u) hM hn (fun st => by rw [checkConvergence_eq hs hsc hu hx0 hy, if_pos ⟨h1, hb⟩])]
      rfl
    · unfold convLoop
      rw [if_neg (by dsimp only; push_cast; exact hM), ok_bind]
      dsimp only
      rw [decide_eq_false h1]
      rfl

/-- Soundness of the test, for any way in which the factors are obtained. -/
theorem convTest_sound (he : ExactILU A (scaledEntry isq us A) u) {nxt : Nat → List K → C (List K)} {fuel : Nat} {P : Nat → List K → Prop}
    (hP : ∀ s x, P s x → x.length = A.browptr⟦A.nbrows⟧) (hP0 : P 0 x0) (hn : ∀ s x, P s x → Ok (nxt s x) (P (s + 1))) {st : ConvState} {x : List K}
    (h : convTest A (scalarScale? sc) pos ord initialization tol M nxt fuel u x0 = .ok (st, x)) :
    P st.isweep x ∧ (1 ≤ M → 1 ≤ st.isweep) ∧
    (initialization ≠ "exact" → ¬ ExactILU A (scaledEntry isq us A) x0 ∧ 1 ≤ st.isweep ∧ maxDiff (lowerPos A) x0 u ≠ 0 ∧ maxDiff (upperPos A) x0 u ≠ 0) ∧
    (1 ≤ st.isweep → (relErrors initialization A u x0 x).1 ≤ tol ∧ (relErrors initialization A u x0 x).2 ≤ tol) := by
  have hz : initialization ≠ "exact" → ¬ ExactILU A (scaledEntry isq us A) x0 ∧ maxDiff (lowerPos A) x0 u ≠ 0 ∧ maxDiff (upperPos A) x0 u ≠ 0 := by
    intro h1
    obtain ⟨y, hy1, hy2⟩ := hn _ _ hP0
    rcases Nat.eq_zero_or_pos fuel with rfl | hf
    · exfalso
      rw [convTest_eq hs hsc hu hx0 he] at h
      split at h
      · cases h
      · unfold convLoop at h
        split at h
        · cases h
        · rw [ok_bind] at h
          dsimp only at h
          rw [decide_eq_false h1] at h
          cases h
    · refine ⟨?_, ?_, ?_⟩
      · intro h2
        rw [convTest_zero hs hsc hu hx0 he hy1 (hP _ _ hy2) h1 (Or.inl h2) hf] at h
        cases h
      · intro h2
        rw [convTest_zero hs hsc hu hx0 he hy1 (hP _ _ hy2) h1 (Or.inr (Or.inl h2)) hf] at h
        cases h
      · intro h2
        rw [convTest_zero hs hsc hu hx0 he hy1 (hP _ _ hy2) h1 (Or.inr (Or.inr h2)) hf] at h
        cases h
  rw [convTest_eq hs hsc hu hx0 he] at h
  split at h
  · cases h
  · rcases convTest_loop (tol := tol) (M := M) (fuel := fuel) hs hsc hu hx0 hP hP0 hn (fun h => (hz h).2) with ⟨-, h2⟩ | ⟨st', x', h2, h3, h4, h5, h6⟩
    · rw [h2] at h; cases h
    · rw [h2, ok_bind] at h
      cases hc : st'.converged with
      | false =>
        dsimp only at h
        rw [hc] at h
        cases h
      | true =>
        dsimp only at h
        rw [cassert_true hc, ok_bind] at h
        cases h
        refine ⟨h4, fun hM => ?_, fun h1 => ⟨(hz h1).1, ?_, (hz h1).2⟩, fun h1 => ?_⟩
        · rcases h6 with ⟨h7, -⟩ | ⟨h7, -⟩ <;> omega
        · rcases h6 with ⟨-, h7⟩ | ⟨h7, -⟩
          · rw [h7] at hc
            dsimp only at hc
            rw [decide_eq_false h1] at hc
            cases hc
          · exact h7
        · rcases h6 with ⟨-, h7⟩ | ⟨-, -, st'', h8⟩
          · rw [h7] at h1; exact absurd h1 (by simp)
          · rw [h8] at hc
            exact convUpdate_sound hc

omit hsc hx0 in
theorem relErrors_self (ht : 0 < tol) : (relErrors initialization A u x0 u).1 < tol ∧ (relErrors initialization A u x0 u).2 < tol := by
  unfold relErrors
  rw [maxDiff_self, maxDiff_self, zero_div, zero_div]
  split <;> exact ⟨ht, ht⟩

/-- The test passes if from some number of sweeps on, not larger than the maximum, the factors that are compared are the exact ones. -/
theorem convTest_pass (he : ExactILU A (scaledEntry isq us A) u) (ht : 0 < tol) {nxt : Nat → List K → C (List K)} {fuel N : Nat} {P : Nat → List K → Prop}
    (hP : ∀ s x, P s x → x.length = A.browptr⟦A.nbrows⟧) (hP0 : P 0 x0) (hn : ∀ s x, P s x → Ok (nxt s x) (P (s + 1))) (hconv : ∀ s x, N ≤ s → 1 ≤ s → P s x → x = u)
    (h1 : initialization ≠ "exact" → ¬ ExactILU A (scaledEntry isq us A) x0 ∧ maxDiff (lowerPos A) x0 u ≠ 0 ∧ maxDiff (upperPos A) x0 u ≠ 0 ∧ 1 ≤ M) (hM : (N : Int) ≤ M ∨ N ≤ 1)
    (hf : M + 2 ≤ fuel) : ∃ st x, convTest A (scalarScale? sc) pos ord initialization tol M nxt fuel u x0 = .ok (st, x) ∧ P st.isweep x ∧ (1 ≤ M → 1 ≤ st.isweep) := by
  rw [convTest_eq hs hsc hu hx0 he, if_neg fun h => (h1 h.1).1 (remNorm_eq_zero_iff.mp h.2)]
  rcases convTest_loop (tol := tol) (M := M) (fuel := fuel) hs hsc hu hx0 hP hP0 hn (fun h => ⟨(h1 h).2.1, (h1 h).2.2.1⟩) with ⟨h2, -⟩ | ⟨st', x', h2, h3, h4, h5, h6⟩
  · omega
  · have hc : st'.converged = true := by
      rcases h6 with ⟨h7, h8⟩ | ⟨h7, h8, st'', h9⟩
      · rw [h8]
        dsimp only
        refine decide_eq_true (Decidable.byContradiction fun h => ?_)
        have := (h1 h).2.2.2
        omega
      · by_contra hc
        have hc' : st'.converged = false := by simpa using hc
        have hm := h3.open_max hc'
        have hx : x' = u := hconv _ _ (by omega) (by omega) h4
        rw [h9, hx] at hc
        have := relErrors_self (initialization := initialization) (x0 := x0) hs hu ht
        exact hc (convUpdate_small this.1 this.2)
    refine ⟨st', x', ?_, h4, fun hM => ?_⟩
    · rw [h2, ok_bind]
      dsimp only
      rw [cassert_true hc, ok_bind]
    · rcases h6 with ⟨h7, -⟩ | ⟨h7, -⟩ <;> omega

/-- The test fails if one of the errors is never below the tolerance. -/
theorem convTest_fail (he : ExactILU A (scaledEntry isq us A) u) {nxt : Nat → List K → C (List K)} {fuel : Nat} {P : Nat → List K → Prop}
    (hP : ∀ s x, P s x → x.length = A.browptr⟦A.nbrows⟧) (hP0 : P 0 x0) (hn : ∀ s x, P s x → Ok (nxt s x) (P (s + 1))) (h1 : initialization ≠ "exact")
    (hne : maxDiff (lowerPos A) x0 u ≠ 0 ∧ maxDiff (upperPos A) x0 u ≠ 0)
    (hbad : ∀ s x, 1 ≤ s → P s x → tol < (relErrors initialization A u x0 x).1 ∨ tol < (relErrors initialization A u x0 x).2)
    (hf : M + 2 ≤ fuel) : convTest A (scalarScale? sc) pos ord initialization tol M nxt fuel u x0 = .error .abort := by
  rw [convTest_eq hs hsc hu hx0 he]
  split
  · rfl
  · rcases convTest_loop (tol := tol) (M := M) (fuel := fuel) hs hsc hu hx0 hP hP0 hn (fun _ => hne) with ⟨h2, -⟩ | ⟨st', x', h2, h3, h4, h5, h6⟩
    · omega
    · have hc : st'.converged = false := by
        rcases h6 with ⟨-, h8⟩ | ⟨h7, h8, st'', h9⟩
        · rw [h8]; exact decide_eq_false h1
        · by_contra hc
          have hc' : st'.converged = true := by simpa using hc
          rw [h9] at hc'
          have := convUpdate_sound hc'
          rcases hbad _ _ h7 h4 with h | h
          · exact absurd this.1 (not_le.mpr h)
          · exact absurd this.2 (not_le.mpr h)
      rw [h2, ok_bind]
      dsimp only
      rw [hc]
      rfl

end Blasted
