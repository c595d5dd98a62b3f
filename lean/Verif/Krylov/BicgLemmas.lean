import Verif.Krylov.Lemmas
import Mathlib.LinearAlgebra.Matrix.Block
import Mathlib.LinearAlgebra.Matrix.ToLinearEquiv

/-!
# One iteration of `BiCGSTAB::solve`
-/

namespace Blasted

open Matrix Finset

variable {K : Type} [Field K] [LinearOrder K]

/-- The vectors and numbers of `BiCGSTAB::solve` between two iterations. -/
structure BicgVec (K : Type) (n : Nat) where
  x : Fin n → K
  r : Fin n → K
  p : Fin n → K
  v : Fin n → K
  omega : K
  rhoold : K
  alpha : K

/-- The state of the program holds these vectors. -/
structure BicgState.Holds {n : Nat} (st : BicgState K) (w : BicgVec K n) : Prop where
  lx : st.x.length = n
  lr : st.r.length = n
  lp : st.p.length = n
  lv : st.v.length = n
  ly : st.y.length = n
  lz : st.z.length = n
  lt : st.t.length = n
  x : vecN n st.x = w.x
  r : vecN n st.r = w.r
  p : vecN n st.p = w.p
  v : vecN n st.v = w.v
  omega : st.omega = w.omega
  rhoold : st.rhoold = w.rhoold
  alpha : st.alpha = w.alpha

/-- The relation between the vectors before and after an iteration, with the intermediate values. -/
structure BicgStep {n : Nat} (S : Matrix (Fin n) (Fin n) K) (P : (Fin n → K) → (Fin n → K) → Prop) (rhat : Fin n → K)
    (w w' : BicgVec K n) (beta : K) (y s z t : Fin n → K) : Prop where
  den0 : w.rhoold * w.omega ≠ 0
  beta_eq : beta * (w.rhoold * w.omega) = rhat ⬝ᵥ w.r * w.alpha
  p_eq : w'.p = beta • w.p + w.r - (beta * w.omega) • w.v
  y_eq : P w'.p y
  v_eq : w'.v = S *ᵥ y
  den1 : rhat ⬝ᵥ w'.v ≠ 0
  alpha_eq : w'.alpha * (rhat ⬝ᵥ w'.v) = rhat ⬝ᵥ w.r
  s_eq : s = w.r - w'.alpha • w'.v
  z_eq : P s z
  t_eq : t = S *ᵥ z
  den2 : t ⬝ᵥ t ≠ 0
  omega_eq : w'.omega * (t ⬝ᵥ t) = t ⬝ᵥ s
  x_eq : w'.x = w.x + w'.alpha • y + w'.omega • z
  r_eq : w'.r = s - w'.omega • t

theorem bicgBody_ok {E : SolverEnv K} {P : (Fin E.A.dim → K) → (Fin E.A.dim → K) → Prop} (hA : E.A.Ready)
    (hS : E.sched.Valid E.A) (hp : E.prec.Meets E.A.dim P) (bnorm : K) {rhat : List K} (hrh : rhat.length = E.A.dim)
    (k : Nat) {st : BicgState K} {w : BicgVec K E.A.dim} (h : st.Holds w) :
    OkDz True (bicgBody E bnorm rhat k st) (fun q => ∃ (w' : BicgVec K E.A.dim) (beta : K) (y s z t : Fin E.A.dim → K),
      BicgStep E.A.mat P (vecN E.A.dim rhat) w w' beta y s z t ∧ q.1.Holds w' ∧
      q.1.resnorm = E.sqrt (nrm2 w'.r) ∧ q.2 = relLt (E.sqrt (nrm2 w'.r)) bnorm E.tol ∧
      (q.2 = false → w'.rhoold = vecN E.A.dim rhat ⬝ᵥ w.r)) := by
  unfold bicgBody
  rw [dotp_eq hrh h.lr, ok_bind, h.r]
  refine ((fdiv_okDz _ _).mono (fun _ => trivial) (fun _ => id)).bind fun beta hbeta => ?_
  refine (axpbypcz_ok (hS.2 k 0) beta 1 _ h.lp h.lr h.lv).bindDz fun p hp' => ?_
  refine Ok.bindDz (hp (2 * k) p st.y hp'.1 h.ly) fun y hy => ?_
  refine (MatView.apply_ok hA (hS.1 k 0) hy.1 h.lv).bindDz fun v hv => ?_
  rw [dotp_eq hrh hv.1, ok_bind]
  refine ((fdiv_okDz _ _).mono (fun _ => trivial) (fun _ => id)).bind fun alpha halpha => ?_
  refine (axpby_ok (hS.2 k 1) 1 (-alpha) h.lr hv.1).bindDz fun s hs => ?_
  refine Ok.bindDz (hp (2 * k + 1) s st.z hs.1 h.lz) fun z hz => ?_
  refine (MatView.apply_ok hA (hS.1 k 1) hz.1 h.lt).bindDz fun t ht => ?_
  rw [dotp_eq ht.1 hs.1, ok_bind, dotp_eq ht.1 ht.1, ok_bind]
  refine ((fdiv_okDz _ _).mono (fun _ => trivial) (fun _ => id)).bind fun omega homega => ?_
  refine (axpbypcz_ok (hS.2 k 2) 1 alpha omega h.lx hy.1 hz.1).bindDz fun x hx => ?_
  refine (axpby_ok (hS.2 k 3) 1 (-omega) hs.1 ht.1).bindDz fun r hr => ?_
  rw [dotp_eq hr.1 hr.1, ok_bind]
  refine .inr (Ok.pure ⟨⟨vecN _ x, vecN _ r, vecN _ p, vecN _ v, omega, _, alpha⟩, beta, vecN _ y, vecN _ s, vecN _ z,
    vecN _ t, ⟨?_, ?_, ?_, ?_, ?_, ?_, ?_, ?_, ?_, ?_, ?_, ?_, ?_, ?_⟩,
    ⟨hx.1, hr.1, hp'.1, hv.1, hy.1, hz.1, ht.1, rfl, rfl, rfl, rfl, rfl, rfl, rfl⟩, rfl, rfl, ?_⟩)
  · rw [← h.rhoold, ← h.omega]; exact hbeta.1
  · rw [← h.rhoold, ← h.omega, ← h.alpha]; exact hbeta.2
  · show vecN _ p = _
    rw [hp'.2, h.p, h.r, h.v, h.omega, one_smul, neg_mul, neg_smul, ← sub_eq_add_neg]
  · exact hy.2
  · exact hv.2
  · exact halpha.1
  · exact halpha.2
  · show vecN _ s = _ - alpha • vecN _ v
    rw [hs.2, h.r, one_smul, neg_smul, ← sub_eq_add_neg]
  · exact hz.2
  · exact ht.2
  · exact homega.1
  · exact homega.2
  · show vecN _ x = _ + alpha • _ + omega • _
    rw [hx.2, h.x, one_smul]
  · show vecN _ r = _ - omega • _
    rw [hr.2, one_smul, neg_smul, ← sub_eq_add_neg]
  · intro hq
    have hq' : relLt (E.sqrt (vecN E.A.dim r ⬝ᵥ vecN E.A.dim r)) bnorm E.tol = false := hq
    show (if relLt (E.sqrt (vecN E.A.dim r ⬝ᵥ vecN E.A.dim r)) bnorm E.tol = true then _ else _) = _
    rw [hq', if_neg (by decide)]

omit [LinearOrder K] in
/-- The residual computed by recurrence is the residual of the current vector, whatever the preconditioner does. -/
theorem BicgStep.resid {A : MatView K} {P : (Fin A.dim → K) → (Fin A.dim → K) → Prop} {rhat : Fin A.dim → K}
    {w w' : BicgVec K A.dim} {beta : K} {y s z t : Fin A.dim → K} {b : List K}
    (h : BicgStep A.mat P rhat w w' beta y s z t) (hr : w.r = A.resid b w.x) : w'.r = A.resid b w'.x := by
  rw [h.r_eq, h.s_eq, h.v_eq, h.t_eq, h.x_eq, resid_add, resid_add, hr, mulVec_smul, mulVec_smul]

/-- The last part of an iteration does not increase the residual. -/
theorem BicgStep.min [IsStrictOrderedRing K] {n : Nat} {S : Matrix (Fin n) (Fin n) K}
    {P : (Fin n → K) → (Fin n → K) → Prop} {rhat : Fin n → K} {w w' : BicgVec K n} {beta : K} {y s z t : Fin n → K}
    (h : BicgStep S P rhat w w' beta y s z t) (c : K) : nrm2 w'.r ≤ nrm2 (s - c • t) := by
  rw [h.r_eq, nrm2_sub_smul, nrm2_sub_smul]
  have h1 : s ⬝ᵥ t = w'.omega * nrm2 t := by rw [dotProduct_comm, ← h.omega_eq]; rfl
  have h2 := nrm2_nonneg t
  rw [h1]
  nlinarith [mul_nonneg (mul_self_nonneg (c - w'.omega)) h2]

/-! ### Finite termination -/

/-- The functionals against which the residuals of the biconjugate gradient method become orthogonal. -/
def kryF {n : Nat} (T : Matrix (Fin n) (Fin n) K) (rhat : Fin n → K) (j : Nat) (u : Fin n → K) : K :=
  rhat ⬝ᵥ (T ^ j *ᵥ u)

section kry
variable {n : Nat} {T : Matrix (Fin n) (Fin n) K} {rhat : Fin n → K}

omit [LinearOrder K] in
theorem kryF_zero (u : Fin n → K) : kryF T rhat 0 u = rhat ⬝ᵥ u := by
  unfold kryF; rw [pow_zero, one_mulVec]

omit [LinearOrder K] in
theorem kryF_succ (j : Nat) (u : Fin n → K) : kryF T rhat (j + 1) u = kryF T rhat j (T *ᵥ u) := by
  unfold kryF; rw [pow_succ, ← mulVec_mulVec]

omit [LinearOrder K] in
theorem kryF_add (j : Nat) (u v : Fin n → K) : kryF T rhat j (u + v) = kryF T rhat j u + kryF T rhat j v := by
  unfold kryF; rw [mulVec_add, dotProduct_add]

omit [LinearOrder K] in
theorem kryF_sub (j : Nat) (u v : Fin n → K) : kryF T rhat j (u - v) = kryF T rhat j u - kryF T rhat j v := by
  unfold kryF; rw [mulVec_sub, dotProduct_sub]

omit [LinearOrder K] in
theorem kryF_smul (j : Nat) (a : K) (u : Fin n → K) : kryF T rhat j (a • u) = a * kryF T rhat j u := by
  unfold kryF; rw [mulVec_smul, dotProduct_smul, smul_eq_mul]

omit [LinearOrder K] in
/-- `n` functionals with a triangular pairing have no common zero but 0. -/
theorem kryF_sep (f : Nat → Fin n → K) (hd : ∀ i < n, kryF T rhat i (f i) ≠ 0)
    (hu : ∀ i < n, ∀ j < i, kryF T rhat j (f i) = 0) (u : Fin n → K) (h : ∀ j < n, kryF T rhat j u = 0) : u = 0 := by
  let L : Matrix (Fin n) (Fin n) K := fun j => rhat ᵥ* T ^ (j : Nat)
  let F : Matrix (Fin n) (Fin n) K := fun a i => f i a
  have hL : ∀ (j : Fin n) v, (L *ᵥ v) j = kryF T rhat j v := fun j v => by
    show (rhat ᵥ* T ^ (j : Nat)) ⬝ᵥ v = _
    rw [← dotProduct_mulVec]; rfl
  have hLF : ∀ j i, (L * F) j i = kryF T rhat j (f i) := fun j i => by rw [← hL]; rfl
  have htri : (L * F).BlockTriangular OrderDual.toDual := by
    intro j i hij
    rw [hLF]
    exact hu i i.2 j (by simpa using hij)
  have hdet : L.det ≠ 0 := by
    intro h0
    have h1 := det_of_isLowerTriangular _ htri
    rw [det_mul, h0, zero_mul] at h1
    refine Finset.prod_ne_zero_iff.mpr (fun i _ => ?_) h1.symm
    rw [hLF]; exact hd i i.2
  refine eq_zero_of_mulVec_eq_zero hdet (funext fun j => ?_)
  rw [hL]; exact h j j.2

/-- Relation to the biconjugate gradient method after `k` iterations with a fixed linear preconditioner: `Q` is the
product of the stabilising factors, `R` the residual of that method, `Ph` its directions. -/
structure BicgInv (T : Matrix (Fin n) (Fin n) K) (rhat : Fin n → K) (k : Nat) (w : BicgVec K n)
    (Q : Matrix (Fin n) (Fin n) K) (R Pm : Fin n → K) (Ph : Nat → Fin n → K) (c : K) : Prop where
  comm : T * Q = Q * T
  r : w.r = Q *ᵥ R
  rorth : ∀ j < k, kryF T rhat j R = 0
  lead : ∀ u, (∀ j < k, kryF T rhat j u = 0) → rhat ⬝ᵥ (Q *ᵥ u) = c * kryF T rhat k u
  diag : ∀ i < k, kryF T rhat i (T *ᵥ Ph i) ≠ 0
  upper : ∀ i < k, ∀ j < i, kryF T rhat j (T *ᵥ Ph i) = 0
  prev : w.p - w.omega • w.v = Q *ᵥ Pm
  pm0 : k = 0 → Pm = 0
  pm : k ≠ 0 → Pm = Ph (k - 1)
  cne : w.rhoold * w.omega ≠ 0 → c ≠ 0
  rho : k ≠ 0 → w.rhoold * w.omega = -(w.alpha * c * kryF T rhat (k - 1) (T *ᵥ Pm))

theorem BicgInv.step {S : Matrix (Fin n) (Fin n) K} {P : (Fin n → K) → (Fin n → K) → Prop}
    (hT : ∀ r z, P r z → S *ᵥ z = T *ᵥ r) {k : Nat} {w w' : BicgVec K n} {Q : Matrix (Fin n) (Fin n) K}
    {R Pm : Fin n → K} {Ph : Nat → Fin n → K} {c : K} (h : BicgInv T rhat k w Q R Pm Ph c) {beta : K}
    {y s z t : Fin n → K} (st : BicgStep S P rhat w w' beta y s z t) (hrho : w'.rhoold = rhat ⬝ᵥ w.r) :
    ∃ Q' R' Pm' Ph' c', BicgInv T rhat (k + 1) w' Q' R' Pm' Ph' c' ∧ (R' = 0 → t = 0) := by
  have hc : c ≠ 0 := h.cne st.den0
  have hrr : rhat ⬝ᵥ w.r = c * kryF T rhat k R := by rw [h.r, h.lead R h.rorth]
  set Pk := R + beta • Pm with hPk
  have hp : w'.p = Q *ᵥ Pk := by
    rw [st.p_eq, hPk, mulVec_add, mulVec_smul, ← h.prev, ← h.r, smul_sub, smul_smul]
    funext i; simp only [Pi.add_apply, Pi.sub_apply]; ring
  have horth : ∀ j < k, kryF T rhat j (T *ᵥ Pk) = 0 := by
    intro j hj
    have hk : k ≠ 0 := by omega
    rw [hPk, mulVec_add, mulVec_smul, kryF_add, kryF_smul, ← kryF_succ]
    by_cases hj' : j + 1 = k
    · have h1 := h.rho hk
      have h2 := st.beta_eq
      have ha : w.alpha ≠ 0 := by
        intro h0
        rw [h0, zero_mul, zero_mul, neg_zero] at h1
        exact st.den0 h1
      rw [h1, hrr] at h2
      have hj2 : k - 1 = j := by omega
      rw [hj2] at h2
      rw [hj']
      have h3 : (w.alpha * c) * (kryF T rhat k R + beta * kryF T rhat j (T *ᵥ Pm)) = 0 := by
        linear_combination -h2
      exact (mul_eq_zero.mp h3).resolve_left (mul_ne_zero ha hc)
    · rw [h.rorth (j + 1) (by omega), h.pm hk, h.upper (k - 1) (by omega) j (by omega), mul_zero, add_zero]
  have hv : w'.v = Q *ᵥ (T *ᵥ Pk) := by
    rw [st.v_eq, hT _ _ st.y_eq, hp, mulVec_mulVec, mulVec_mulVec, h.comm]
  have hrv : rhat ⬝ᵥ w'.v = c * kryF T rhat k (T *ᵥ Pk) := by rw [hv, h.lead _ horth]
  have hdk : kryF T rhat k (T *ᵥ Pk) ≠ 0 := fun h0 => st.den1 (by rw [hrv, h0, mul_zero])
  have hal : w'.alpha * kryF T rhat k (T *ᵥ Pk) = kryF T rhat k R := by
    have h1 := st.alpha_eq
    rw [hrv, hrr] at h1
    exact mul_left_cancel₀ hc (by linear_combination h1)
  set R' := R - w'.alpha • (T *ᵥ Pk) with hR'
  have hs : s = Q *ᵥ R' := by rw [st.s_eq, hR', mulVec_sub, mulVec_smul, ← h.r, hv]
  have hRo : ∀ j < k + 1, kryF T rhat j R' = 0 := by
    intro j hj
    rw [hR', kryF_sub, kryF_smul]
    by_cases e : j = k
    · rw [e, hal, sub_self]
    · rw [h.rorth j (by omega), horth j (by omega), mul_zero, sub_zero]
  have ht : t = T *ᵥ s := by rw [st.t_eq, hT _ _ st.z_eq]
  refine ⟨Q - w'.omega • (T * Q), R', Pk, Function.update Ph k Pk, -(w'.omega * c), ⟨?_, ?_, hRo, ?_, ?_, ?_, ?_, ?_, ?_,
    ?_, ?_⟩, fun h0 => by rw [ht, hs, h0, mulVec_zero, mulVec_zero]⟩
  · rw [mul_sub, sub_mul, mul_smul_comm, smul_mul_assoc, h.comm, ← mul_assoc, h.comm]
  · rw [st.r_eq, ht, hs, sub_mulVec, smul_mulVec, ← mulVec_mulVec]
  · intro u hu
    have h1 := h.lead u fun j hj => hu j (by omega)
    have h2 := h.lead (T *ᵥ u) fun j hj => by rw [← kryF_succ]; exact hu (j + 1) (by omega)
    rw [sub_mulVec, smul_mulVec, h.comm, ← mulVec_mulVec, dotProduct_sub, dotProduct_smul, h1, h2, hu k (by omega),
      kryF_succ, smul_eq_mul]
    ring
  · intro i hi
    by_cases e : i = k
    · rw [e, Function.update_self]; exact hdk
    · rw [Function.update_of_ne e]; exact h.diag i (by omega)
  · intro i hi j hj
    by_cases e : i = k
    · rw [e, Function.update_self]; exact horth j (by omega)
    · rw [Function.update_of_ne e]; exact h.upper i (by omega) j hj
  · rw [hp, hv, sub_mulVec, smul_mulVec, h.comm, ← mulVec_mulVec]
  · intro h0; omega
  · intro _; rw [Nat.add_sub_cancel, Function.update_self]
  · intro h0
    exact neg_ne_zero.mpr (mul_ne_zero (right_ne_zero_of_mul h0) hc)
  · intro _
    rw [hrho, hrr, Nat.add_sub_cancel, ← hal]
    ring

/-- An iteration whose predecessors were iterations with a fixed linear preconditioner is one of the first `n - 1`: in
the `n`-th one the vector `t` would be zero. -/
theorem BicgInv.lt {S : Matrix (Fin n) (Fin n) K} {P : (Fin n → K) → (Fin n → K) → Prop}
    (hT : ∀ r z, P r z → S *ᵥ z = T *ᵥ r) {k : Nat} (hk : k < n) {w w' : BicgVec K n} {Q : Matrix (Fin n) (Fin n) K}
    {R Pm : Fin n → K} {Ph : Nat → Fin n → K} {c : K} (h : BicgInv T rhat k w Q R Pm Ph c) {beta : K}
    {y s z t : Fin n → K} (st : BicgStep S P rhat w w' beta y s z t) : k + 1 < n := by
  by_contra hn
  have hkn : k + 1 = n := by omega
  obtain ⟨Q', R', Pm', Ph', c', hi, h0⟩ := h.step (w' := { w' with rhoold := rhat ⬝ᵥ w.r }) hT
    ⟨st.den0, st.beta_eq, st.p_eq, st.y_eq, st.v_eq, st.den1, st.alpha_eq, st.s_eq, st.z_eq, st.t_eq, st.den2,
      st.omega_eq, st.x_eq, st.r_eq⟩ rfl
  rw [hkn] at hi
  refine st.den2 ?_
  rw [h0 (kryF_sep (fun i => T *ᵥ Ph' i) hi.diag hi.upper R' hi.rorth), zero_dotProduct]

omit [LinearOrder K] in
theorem BicgInv.start (r x : Fin n → K) : BicgInv T rhat 0 ⟨x, r, 0, 0, 1, 1, 1⟩ 1 r 0 (fun _ => 0) 1 where
  comm := by rw [mul_one, one_mul]
  r := (one_mulVec r).symm
  rorth := fun j hj => absurd hj (Nat.not_lt_zero j)
  lead := fun u _ => by rw [one_mulVec, kryF_zero, one_mul]
  diag := fun j hj => absurd hj (Nat.not_lt_zero j)
  upper := fun j hj => absurd hj (Nat.not_lt_zero j)
  prev := by rw [mulVec_zero, smul_zero, sub_zero]
  pm0 := fun _ => rfl
  pm := fun h => absurd rfl h
  cne := fun _ => one_ne_zero
  rho := fun h => absurd rfl h

end kry

end Blasted
