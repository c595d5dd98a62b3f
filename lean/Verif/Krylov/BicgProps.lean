import Verif.Krylov.BicgLemmas

/-!
# C79: `BiCGSTAB`
-/

namespace Blasted

open Matrix Finset

variable {K : Type} [Field K] [LinearOrder K] [IsStrictOrderedRing K]

omit [IsStrictOrderedRing K] in
/-- The part of `BiCGSTAB::solve` before the loop. -/
theorem bicg_start {E : SolverEnv K} {P : (Fin E.A.dim → K) → (Fin E.A.dim → K) → Prop} {b x : List K}
    (h : E.Ready P b x) :
    ∃ r : List K, r.length = E.A.dim ∧ vecN E.A.dim r = E.A.resid b (vecN E.A.dim x) ∧
      (BicgState.mk x r (List.replicate E.A.dim 0) (List.replicate E.A.dim 0) (List.replicate E.A.dim 0)
        (List.replicate E.A.dim 0) (List.replicate E.A.dim 0) 1 1 1 100).Holds
        ⟨vecN E.A.dim x, E.A.resid b (vecN E.A.dim x), 0, 0, 1, 1, 1⟩ ∧
      bicgstabSolve E b x = (do
        let q ← loopBreak E.maxiter.toNat 0 (bicgBody E (E.sqrt (nrm2 (vecN E.A.dim b))) r)
          ⟨x, r, List.replicate E.A.dim 0, List.replicate E.A.dim 0, List.replicate E.A.dim 0, List.replicate E.A.dim 0,
            List.replicate E.A.dim 0, 1, 1, 1, 100⟩
        .ok (⟨false, q.2 + 1, q.1.resnorm, E.sqrt (nrm2 (vecN E.A.dim b))⟩, q.1.x)) := by
  have hl : (List.replicate E.A.dim (0 : K)).length = E.A.dim := List.length_replicate
  obtain ⟨r, e, h1, h2⟩ := MatView.gemv3_ok h.mat (h.sched.1 0 2) h.x_len h.b_len hl
  refine ⟨r, h1, h2, ⟨h.x_len, h1, hl, hl, hl, hl, hl, rfl, h2, vecN_zero, vecN_zero, rfl, rfl, rfl⟩, ?_⟩
  unfold bicgstabSolve
  simp only [e, ok_bind, dotp_eq h.b_len h.b_len, vecassign_ok (h.sched.2 0 4) h1 hl]
  rfl

/-- **C79**. For every matrix, every right hand side and initial vector, every schedule and every preconditioner whose
applications return normally, even one that yields arbitrary vectors, `BiCGSTAB::solve` either divides by zero or returns
normally, after `m` iterations in which the convergence test was negative and possibly a last one in which it was
positive.

* If it stops before `maxiter` then the returned vector is below the tolerance, `info.resnorm` is the norm of its
  residual and `info.iters` is the number of iterations.
* If it stops because of `maxiter` then the returned vector is not below the tolerance and `info.resnorm` is the norm of
  its residual. `info.iters` is the number of iterations plus one. -/
theorem bicgstab_correct (E : SolverEnv K) (P : (Fin E.A.dim → K) → (Fin E.A.dim → K) → Prop) (b x : List K)
    (h : E.Ready P b x) (hs : SqrtOk E.sqrt) :
    bicgstabSolve E b x = .error .divzero ∨
    ∃ info x' m, bicgstabSolve E b x = .ok (info, x') ∧ x'.length = E.A.dim ∧ info.iters = (m : Nat) + 1 ∧
      m ≤ E.maxiter.toNat ∧
      (m < E.maxiter.toNat → E.Small b (vecN E.A.dim x') ∧ E.NormOf b (vecN E.A.dim x') info.resnorm) ∧
      (m = E.maxiter.toNat → m ≠ 0 → ¬ E.Small b (vecN E.A.dim x') ∧ E.NormOf b (vecN E.A.dim x') info.resnorm) ∧
      (m = E.maxiter.toNat → m = 0 → info.resnorm = 100 ∧ x' = x) ∧
      0 ≤ info.bnorm ∧ info.bnorm * info.bnorm = nrm2 (vecN E.A.dim b) ∧ info.converged = false := by
  have hb := hs _ (nrm2_nonneg (vecN E.A.dim b))
  obtain ⟨r, hrl, hr, hst, e⟩ := bicg_start h
  rw [e]
  have key := loopBreak_ok (D := True) (body := bicgBody E (E.sqrt (nrm2 (vecN E.A.dim b))) r)
    (fun k st => ∃ w : BicgVec K E.A.dim, st.Holds w ∧ w.r = E.A.resid b w.x ∧
      (k ≠ 0 → ¬ E.Small b w.x ∧ E.NormOf b w.x st.resnorm) ∧ (k = 0 → st.resnorm = 100 ∧ st.x = x))
    (fun k st => ∃ w : BicgVec K E.A.dim, st.Holds w ∧ E.Small b w.x ∧ E.NormOf b w.x st.resnorm)
    E.maxiter.toNat 0 _ ⟨_, hst, rfl, fun h => absurd rfl h, fun _ => ⟨rfl, rfl⟩⟩
    (by
      rintro k st _ hk ⟨w, hw, hwr, -, -⟩
      refine (bicgBody_ok h.mat h.sched h.prec _ hrl k hw).mono id ?_
      rintro ⟨st', fl⟩ ⟨w', beta, y, s, z, t, hstep, hw', hrn, hfl, -⟩
      have hr' := hstep.resid hwr
      dsimp only at hw' hrn hfl ⊢
      rw [hr'] at hrn hfl
      by_cases hf : fl = true
      · rw [if_pos hf]
        exact ⟨w', hw', (small_iff hs).mp (hfl.symm.trans hf), hrn ▸ normOf hs b _⟩
      · rw [if_neg hf]
        exact ⟨w', hw', hr', fun _ => ⟨fun hsm => hf (hfl.trans ((small_iff hs).mpr hsm)), hrn ▸ normOf hs b _⟩,
          fun h => absurd h (Nat.succ_ne_zero k)⟩)
  rcases key with ⟨e', -⟩ | ⟨⟨st, m⟩, e', hm⟩
  · rw [e']; exact .inl rfl
  · refine .inr ⟨⟨false, m + 1, st.resnorm, E.sqrt (nrm2 (vecN E.A.dim b))⟩, st.x, m, by rw [e']; rfl, ?_⟩
    rw [Nat.zero_add] at hm
    dsimp only at hm
    rcases hm with ⟨hm, w, hw, -, h1, h2⟩ | ⟨hm, _, w, hw, h1, h2⟩
    · rw [hw.x]
      exact ⟨hw.lx, rfl, hm.le, fun h => absurd h (by omega), fun _ => h1, fun _ => h2, hb.1, hb.2, rfl⟩
    · rw [hw.x]
      exact ⟨hw.lx, rfl, hm.le, fun _ => ⟨h1, h2⟩, fun h => absurd h (by omega), fun h => absurd h (by omega), hb.1, hb.2, rfl⟩

/-- **C79**, finite termination. If the preconditioner is a fixed linear one (`A z = T r` for the vector `z` that it
yields for `r`) then `BiCGSTAB::solve` with `maxiter` at least the dimension either divides by zero or returns, after
fewer iterations than the dimension, a vector below the tolerance. (The iteration in which the dimension is reached would
find the exact solution in its first half, and divides 0 by 0 then.) -/
theorem bicgstab_finite (E : SolverEnv K) (P : (Fin E.A.dim → K) → (Fin E.A.dim → K) → Prop) (b x : List K)
    (h : E.Ready P b x) (hs : SqrtOk E.sqrt) (T : Matrix (Fin E.A.dim) (Fin E.A.dim) K)
    (hT : ∀ r z, P r z → E.A.mat *ᵥ z = T *ᵥ r) (hdim : 0 < E.A.dim)
    (hmax : (E.A.dim : Int) ≤ E.maxiter) :
    bicgstabSolve E b x = .error .divzero ∨
    ∃ info x', bicgstabSolve E b x = .ok (info, x') ∧ info.iters < E.A.dim ∧ E.Small b (vecN E.A.dim x') ∧
      E.NormOf b (vecN E.A.dim x') info.resnorm := by
  obtain ⟨r, hrl, hr, hst, e⟩ := bicg_start h
  rw [e]
  have key := loopBreak_ok (D := True) (body := bicgBody E (E.sqrt (nrm2 (vecN E.A.dim b))) r)
    (fun k st => k < E.A.dim ∧ ∃ w : BicgVec K E.A.dim, st.Holds w ∧ w.r = E.A.resid b w.x ∧
      ∃ Q R Pm Ph c, BicgInv T (vecN E.A.dim r) k w Q R Pm Ph c)
    (fun k st => k + 1 < E.A.dim ∧ ∃ w : BicgVec K E.A.dim, st.Holds w ∧ E.Small b w.x ∧ E.NormOf b w.x st.resnorm)
    E.maxiter.toNat 0 _ ⟨hdim, _, hst, rfl, 1, _, 0, _, 1, BicgInv.start _ _⟩
    (by
      rintro k st _ hk ⟨hkn, w, hw, hwr, Q, R, Pm, Ph, c, hi⟩
      refine (bicgBody_ok h.mat h.sched h.prec _ hrl k hw).mono id ?_
      rintro ⟨st', fl⟩ ⟨w', beta, y, s, z, t, hstep, hw', hrn, hfl, hro⟩
      have hr' := hstep.resid hwr
      dsimp only at hw' hrn hfl hro ⊢
      by_cases hf : fl = true
      · rw [if_pos hf]
        rw [hr'] at hrn hfl
        exact ⟨hi.lt hT hkn hstep, w', hw', (small_iff hs).mp (hfl.symm.trans hf), hrn ▸ normOf hs b _⟩
      · rw [if_neg hf]
        obtain ⟨Q', R', Pm', Ph', c', hi', -⟩ := hi.step hT hstep (hro (Bool.not_eq_true _ ▸ hf))
        exact ⟨hi.lt hT hkn hstep, w', hw', hr', Q', R', Pm', Ph', c', hi'⟩)
  rcases key with ⟨e', -⟩ | ⟨⟨st, m⟩, e', hm⟩
  · rw [e']; exact .inl rfl
  · refine .inr ⟨⟨false, m + 1, st.resnorm, E.sqrt (nrm2 (vecN E.A.dim b))⟩, st.x, by rw [e']; rfl, ?_⟩
    rw [Nat.zero_add] at hm
    dsimp only at hm
    rcases hm with ⟨hm, h0, -⟩ | ⟨hm, _, h0, w, hw, h1, h2⟩
    · omega
    · rw [hw.x]
      exact ⟨by show ((m : Int) + 1) < _; omega, h1, h2⟩

omit [IsStrictOrderedRing K] in
/-- If no first iteration is possible then the outcome is the division by zero. -/
theorem bicg_breakdown {E : SolverEnv K} {P : (Fin E.A.dim → K) → (Fin E.A.dim → K) → Prop} {b x : List K}
    (h : E.Ready P b x) (hmax : 0 < E.maxiter)
    (hno : ∀ w' beta y s z t, ¬ BicgStep E.A.mat P (E.A.resid b (vecN E.A.dim x))
      ⟨vecN E.A.dim x, E.A.resid b (vecN E.A.dim x), 0, 0, 1, 1, 1⟩ w' beta y s z t) :
    bicgstabSolve E b x = .error .divzero := by
  obtain ⟨r, hrl, hr, hst, e⟩ := bicg_start h
  rw [e]
  obtain ⟨f, hf⟩ : ∃ f, E.maxiter.toNat = f + 1 := ⟨E.maxiter.toNat - 1, by omega⟩
  rw [hf]
  unfold loopBreak
  rcases bicgBody_ok h.mat h.sched h.prec (E.sqrt (nrm2 (vecN E.A.dim b))) hrl 0 hst with ⟨e', -⟩ | ⟨q, -, w', beta, y, s, z, t, hs, -⟩
  · rw [e']; rfl
  · rw [hr] at hs
    exact absurd hs (hno w' beta y s z t)

omit [IsStrictOrderedRing K] in
/-- **C79**, a defect: if the initial vector is already the exact solution then `BiCGSTAB::solve` divides 0 by 0 in its
first iteration, whatever the preconditioner. The vector which it returns then consists of NaNs. -/
theorem bicgstab_exact_guess (E : SolverEnv K) (P : (Fin E.A.dim → K) → (Fin E.A.dim → K) → Prop) (b x : List K)
    (h : E.Ready P b x) (hmax : 0 < E.maxiter) (hx : E.A.resid b (vecN E.A.dim x) = 0) :
    bicgstabSolve E b x = .error .divzero :=
  bicg_breakdown h hmax fun w' beta y s z t hs => hs.den1 (by rw [hx, zero_dotProduct])

omit [IsStrictOrderedRing K] in
/-- **C79**, a defect: if the preconditioner is the exact inverse of the matrix then `BiCGSTAB::solve` divides 0 by 0 in
its first iteration, although the first half of that iteration has found the solution. -/
theorem bicgstab_exact_prec (E : SolverEnv K) (P : (Fin E.A.dim → K) → (Fin E.A.dim → K) → Prop) (b x : List K)
    (h : E.Ready P b x) (hmax : 0 < E.maxiter) (hP : ∀ r z, P r z → E.A.mat *ᵥ z = r) :
    bicgstabSolve E b x = .error .divzero :=
  bicg_breakdown h hmax fun w' beta y s z t hs => by
    have hp : w'.p = E.A.resid b (vecN E.A.dim x) := by
      rw [hs.p_eq]; simp only [smul_zero, zero_add, sub_zero]
    have hv : w'.v = E.A.resid b (vecN E.A.dim x) := by rw [hs.v_eq, hP _ _ hs.y_eq, hp]
    have ha : w'.alpha = 1 := by
      have h1 := hs.alpha_eq
      have h2 := hs.den1
      rw [hv] at h1 h2
      exact mul_right_cancel₀ h2 (h1.trans (one_mul _).symm)
    have hs0 : s = 0 := by rw [hs.s_eq, hv, ha, one_smul, sub_self]
    refine hs.den2 ?_
    rw [hs.t_eq, hP _ _ hs.z_eq, hs0, zero_dotProduct]

end Blasted
