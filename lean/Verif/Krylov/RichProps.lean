import Verif.Krylov.Lemmas
import Mathlib.Algebra.Order.Archimedean.Basic

/-!
# C78: `RichardsonSolver`

What `solve` returns and reports, for every preconditioner and every schedule.
-/

namespace Blasted

open Matrix Finset

variable {K : Type} [Field K] [LinearOrder K] [IsStrictOrderedRing K]

/-- The sequence `X 0, ..., X m` of iterates starts at `x`, and every iterate adds to the previous one a vector that the
preconditioner may yield for its residual. -/
def Corrections (A : MatView K) (P : (Fin A.dim → K) → (Fin A.dim → K) → Prop) (b : List K) (x : Fin A.dim → K)
    (X : Nat → Fin A.dim → K) (m : Nat) : Prop :=
  X 0 = x ∧ ∀ k < m, ∃ z, P (A.resid b (X k)) z ∧ X (k + 1) = X k + z

/-- **C78**. `RichardsonSolver::solve` returns normally, for every matrix, every right hand side and initial vector,
every schedule and every preconditioner whose applications return normally. It performs `info.iters` corrections, each
with a vector that the preconditioner yields for the residual of the current iterate.

* It stops at the first iterate whose relative residual is below the tolerance, and not later than after `maxiter`
  corrections.
* If it stops before `maxiter` then the returned vector is below the tolerance and `info.resnorm` is the norm of its
  residual.
* If it stops because of `maxiter` then `info.resnorm` is the norm of the residual of the iterate before the last, and 0
  if no iteration was allowed. -/
theorem richardson_correct (E : SolverEnv K) (P : (Fin E.A.dim → K) → (Fin E.A.dim → K) → Prop) (b x : List K)
    (h : E.Ready P b x) (hs : SqrtOk E.sqrt) :
    ∃ info x' X m, richardsonSolve E b x = .ok (info, x') ∧ x'.length = E.A.dim ∧ info.iters = (m : Nat) ∧
      Corrections E.A P b (vecN E.A.dim x) X m ∧ vecN E.A.dim x' = X m ∧
      m ≤ E.maxiter.toNat ∧ (∀ k < m, ¬ E.Small b (X k)) ∧
      (m < E.maxiter.toNat → E.Small b (X m) ∧ E.NormOf b (X m) info.resnorm) ∧
      (m = E.maxiter.toNat → m ≠ 0 → E.NormOf b (X (m - 1)) info.resnorm) ∧
      (m = E.maxiter.toNat → m = 0 → info.resnorm = 0) ∧
      0 ≤ info.bnorm ∧ info.bnorm * info.bnorm = nrm2 (vecN E.A.dim b) ∧ info.converged = false := by
  have hb := hs _ (nrm2_nonneg (vecN E.A.dim b))
  unfold richardsonSolve
  rw [dotp_eq h.b_len h.b_len, ok_bind]
  change ∃ info x' X m, (_ : C _) = _ ∧ _
  have key := loopBreak_ok (D := False) (body := richBody E b (E.sqrt (nrm2 (vecN E.A.dim b))))
    (fun k st => st.du.length = E.A.dim ∧ st.s.length = E.A.dim ∧ st.ddu.length = E.A.dim ∧
      ∃ X, Corrections E.A P b (vecN E.A.dim x) X k ∧ vecN E.A.dim st.du = X k ∧ (∀ j < k, ¬ E.Small b (X j)) ∧
        (k ≠ 0 → E.NormOf b (X (k - 1)) st.resnorm) ∧ (k = 0 → st.resnorm = 0))
    (fun k st => st.du.length = E.A.dim ∧
      ∃ X, Corrections E.A P b (vecN E.A.dim x) X k ∧ vecN E.A.dim st.du = X k ∧ (∀ j < k, ¬ E.Small b (X j)) ∧
        E.Small b (X k) ∧ E.NormOf b (X k) st.resnorm)
    E.maxiter.toNat 0 ⟨x, List.replicate E.A.dim 0, List.replicate E.A.dim 0, 0⟩
    ⟨h.x_len, List.length_replicate, List.length_replicate, fun _ => vecN E.A.dim x,
      ⟨rfl, fun k hk => absurd hk (Nat.not_lt_zero k)⟩, rfl, fun k hk => absurd hk (Nat.not_lt_zero k),
      fun h => absurd rfl h, fun _ => rfl⟩
    (by
      rintro k st _ hk ⟨h1, h2, h3, X, hX, hx, hj, hr, hr0⟩
      unfold richBody
      refine ((MatView.gemv3_ok h.mat (h.sched.1 k 0) h1 h.b_len h2)).bindDz fun s hsv => ?_
      rw [dotp_eq hsv.1 hsv.1, ok_bind, hsv.2, hx]
      change OkDz _ (if relLt (E.sqrt (nrm2 _)) _ _ = true then _ else _) _
      by_cases hsm : relLt (E.sqrt (nrm2 (E.A.resid b (X k)))) (E.sqrt (nrm2 (vecN E.A.dim b))) E.tol = true
      · rw [if_pos hsm]
        exact .inr (Ok.pure ⟨h1, X, hX, hx, hj, (small_iff hs).mp hsm, normOf hs b _⟩)
      · rw [if_neg hsm]
        refine (Ok.bindDz (h.prec k s st.ddu hsv.1 h3)) fun z hz => ?_
        refine (axpby_ok (h.sched.2 k 0) 1 1 h1 hz.1).bindDz fun du hdu => .inr (Ok.pure ?_)
        show _ ∧ _
        refine ⟨hdu.1, hsv.1, hz.1, Function.update X (k + 1) (X k + vecN E.A.dim z), ⟨?_, ?_⟩, ?_, ?_, ?_, ?_⟩
        · rw [Function.update_of_ne (by omega)]; exact hX.1
        · intro j hj
          rw [Function.update_of_ne (by omega)]
          by_cases e : j = k
          · subst e
            refine ⟨vecN E.A.dim z, ?_, by rw [Function.update_self]⟩
            have := hz.2
            rwa [hsv.2, hx] at this
          · rw [Function.update_of_ne (by omega)]
            exact hX.2 j (by omega)
        · rw [Function.update_self, hdu.2, one_smul, one_smul, hx]
        · intro j hj'
          rw [Function.update_of_ne (by omega)]
          by_cases e : j = k
          · subst e; exact fun h => hsm ((small_iff hs).mpr h)
          · exact hj j (by omega)
        · intro _
          rw [Nat.add_sub_cancel, Function.update_of_ne (by omega)]
          exact normOf hs b _
        · intro h; omega)
  obtain ⟨⟨st, m⟩, e, hm⟩ := key.ok id
  refine ⟨⟨false, m, st.resnorm, E.sqrt (nrm2 (vecN E.A.dim b))⟩, st.du, ?_⟩
  rw [Nat.zero_add] at hm
  dsimp only at hm
  rcases hm with ⟨hm, h1, _, _, X, hX, hx, hj, hr, hr0⟩ | ⟨hm, _, h1, X, hX, hx, hj, hr, hr0⟩
  · refine ⟨X, m, ?_, h1, rfl, hX, hx, hm.le, hj, fun h => absurd h (by omega), fun _ => hr, fun _ => hr0, hb.1, hb.2, rfl⟩
    exact congrArg (· >>= _) e
  · refine ⟨X, m, ?_, h1, rfl, hX, hx, hm.le, hj, fun _ => ⟨hr, hr0⟩, fun h => absurd h (by omega),
      fun h => absurd h (by omega), hb.1, hb.2, rfl⟩
    exact congrArg (· >>= _) e

theorem Corrections.contract {A : MatView K} {P : (Fin A.dim → K) → (Fin A.dim → K) → Prop} {b : List K}
    {x : Fin A.dim → K} {X : Nat → Fin A.dim → K} {m : Nat} (hX : Corrections A P b x X m) (g : (Fin A.dim → K) → K)
    {ρ : K} (hρ : 0 ≤ ρ) (hc : ∀ r z, P r z → g (r - A.mat *ᵥ z) ≤ ρ * g r) :
    ∀ k ≤ m, g (A.resid b (X k)) ≤ ρ ^ k * g (A.resid b x) := by
  intro k
  induction k with
  | zero => intro _; rw [hX.1, pow_zero, one_mul]
  | succ k ih =>
    intro hk
    obtain ⟨z, hz, e⟩ := hX.2 k (by omega)
    rw [e, resid_add]
    refine (hc _ _ hz).trans ?_
    rw [pow_succ', mul_assoc]
    exact mul_le_mul_of_nonneg_left (ih (by omega)) hρ

/-- **C78**, convergence. If every application of the preconditioner reduces the residual, in some measure `g` that
bounds the 2-norm, then there is a number of iterations after which `solve` always has reached the tolerance: with any
larger `maxiter` it stops by itself, and its answer is right. The preconditioner may be a different one in every
application, as the asynchronous ones are. -/
theorem richardson_converges [Archimedean K] (E : SolverEnv K) (P : (Fin E.A.dim → K) → (Fin E.A.dim → K) → Prop)
    (b x : List K) (h : E.Ready P b x) (hs : SqrtOk E.sqrt) (hb : vecN E.A.dim b ≠ 0) (ht : 0 < E.tol)
    (g : (Fin E.A.dim → K) → K) (c ρ : K) (hg : ∀ v, nrm2 v ≤ c * g v) (hρ0 : 0 ≤ ρ) (hρ1 : ρ < 1) (hc0 : 0 ≤ c)
    (hc : ∀ r z, P r z → g (r - E.A.mat *ᵥ z) ≤ ρ * g r) :
    ∃ m0 : Nat, ∀ maxiter : Int, m0 < maxiter →
      ∃ info x', richardsonSolve { E with maxiter := maxiter } b x = .ok (info, x') ∧ info.iters ≤ m0 ∧
        E.Small b (vecN E.A.dim x') ∧ E.NormOf b (vecN E.A.dim x') info.resnorm := by
  have hB : 0 < E.tol * E.tol * nrm2 (vecN E.A.dim b) := mul_pos (mul_pos ht ht) (nrm2_pos hb)
  obtain ⟨m0, hm0⟩ : ∃ m0 : Nat, ρ ^ m0 * (c * g (E.A.resid b (vecN E.A.dim x))) < E.tol * E.tol * nrm2 (vecN E.A.dim b) := by
    set G := c * g (E.A.resid b (vecN E.A.dim x)) with hG
    by_cases hz : G ≤ 0
    · exact ⟨0, by rw [pow_zero, one_mul]; exact lt_of_le_of_lt hz hB⟩
    · have hG0 : 0 < G := not_le.mp hz
      obtain ⟨m0, h⟩ := exists_pow_lt_of_lt_one (div_pos hB hG0) hρ1
      exact ⟨m0, (lt_div_iff₀ hG0).mp h⟩
  refine ⟨m0, fun maxiter hmi => ?_⟩
  obtain ⟨info, x', X, m, e, hl, hit, hX, hx, hm, hns, hlt, -⟩ := richardson_correct { E with maxiter := maxiter } P b x
    ⟨h.mat, h.sched, h.prec, h.b_len, h.x_len⟩ hs
  have hm' : m ≤ m0 := by
    by_contra hn
    refine hns m0 (by omega) ⟨hb, ht, lt_of_le_of_lt (hg _) (lt_of_le_of_lt ?_ hm0)⟩
    rw [mul_left_comm]
    exact mul_le_mul_of_nonneg_left (hX.contract g hρ0 hc m0 (by omega)) hc0
  have hmm : m < maxiter.toNat := by omega
  refine ⟨info, x', e, by rw [hit]; exact_mod_cast hm', ?_, ?_⟩
  · have := (hlt hmm).1
    rwa [← hx] at this
  · have := (hlt hmm).2
    rwa [← hx] at this

/-- If every correction leads from the `k`-th to the next of a sequence of sets, the initial vector is in the first set and
the members of the set with number `m0` are below the tolerance, then `solve` stops after at most `m0` corrections with a
vector below the tolerance. -/
theorem richardson_reaches (E : SolverEnv K) (P : (Fin E.A.dim → K) → (Fin E.A.dim → K) → Prop)
    (b x : List K) (h : E.Ready P b x) (hs : SqrtOk E.sqrt) (B : Nat → (Fin E.A.dim → K) → Prop) (m0 : Nat)
    (h0 : B 0 (vecN E.A.dim x)) (hstep : ∀ k < m0, ∀ y z, B k y → P (E.A.resid b y) z → B (k + 1) (y + z))
    (hsm : ∀ y, B m0 y → E.Small b y) (hmax : (m0 : Int) < E.maxiter) :
    ∃ info x' m, richardsonSolve E b x = .ok (info, x') ∧ info.iters = (m : Nat) ∧ m ≤ m0 ∧ B m (vecN E.A.dim x') ∧
      E.Small b (vecN E.A.dim x') ∧ E.NormOf b (vecN E.A.dim x') info.resnorm := by
  obtain ⟨info, x', X, m, e, -, hit, hX, hx, hm, hns, hlt, -⟩ := richardson_correct E P b x h hs
  have hB : ∀ k, k ≤ m → k ≤ m0 → B k (X k) := by
    intro k
    induction k with
    | zero => intro _ _; rw [hX.1]; exact h0
    | succ k ih =>
      intro h1 h2
      obtain ⟨z, hz, e⟩ := hX.2 k (by omega)
      rw [e]
      exact hstep k (by omega) _ _ (ih (by omega) (by omega)) hz
  have hm' : m ≤ m0 := by
    by_contra hn
    exact hns m0 (by omega) (hsm _ (hB m0 (by omega) le_rfl))
  have hl := hlt (by omega)
  rw [← hx] at hl
  refine ⟨info, x', m, e, hit, hm', ?_, hl.1, hl.2⟩
  rw [hx]; exact hB m le_rfl hm'

/-- **C78**, with an exact preconditioner one correction is enough. -/
theorem richardson_exact_prec (E : SolverEnv K) (P : (Fin E.A.dim → K) → (Fin E.A.dim → K) → Prop) (b x : List K)
    (h : E.Ready P b x) (hs : SqrtOk E.sqrt) (hP : ∀ r z, P r z → E.A.mat *ᵥ z = r) (hb : vecN E.A.dim b ≠ 0)
    (ht : 0 < E.tol) (hmax : 1 < E.maxiter) :
    ∃ info x', richardsonSolve E b x = .ok (info, x') ∧ info.iters ≤ 1 ∧
      (info.iters = 1 → E.A.mat *ᵥ vecN E.A.dim x' = vecN E.A.dim b) ∧
      E.Small b (vecN E.A.dim x') ∧ E.NormOf b (vecN E.A.dim x') info.resnorm := by
  obtain ⟨info, x', m, e, hit, hm, hB, h1, h2⟩ := richardson_reaches E P b x h hs
    (fun k y => k = 1 → E.A.resid b y = 0) 1 (fun h => absurd h (by decide))
    (fun k hk y z _ hz _ => by rw [resid_add, hP _ _ hz, sub_self])
    (fun y hy => ⟨hb, ht, by
      rw [hy rfl, nrm2_eq_zero.mpr rfl]
      exact mul_pos (mul_pos ht ht) (nrm2_pos hb)⟩) (by exact_mod_cast hmax)
  refine ⟨info, x', e, by rw [hit]; exact_mod_cast hm, fun h => ?_, h1, h2⟩
  rw [hit] at h
  exact (sub_eq_zero.mp (hB (by exact_mod_cast h))).symm

/-- **C78**, a defect: when `solve` stops because of `maxiter` the reported norm is not that of the returned vector. With an
exact preconditioner, `maxiter = 1` and an initial vector that is not below the tolerance, the returned vector is the
exact solution and the reported norm is that of the residual of the initial vector, which is positive. -/
theorem richardson_stale_norm (E : SolverEnv K) (P : (Fin E.A.dim → K) → (Fin E.A.dim → K) → Prop) (b x : List K)
    (h : E.Ready P b x) (hs : SqrtOk E.sqrt) (hP : ∀ r z, P r z → E.A.mat *ᵥ z = r)
    (hx : E.A.resid b (vecN E.A.dim x) ≠ 0) (hsm : ¬ E.Small b (vecN E.A.dim x)) (hmax : E.maxiter = 1) :
    ∃ info x', richardsonSolve E b x = .ok (info, x') ∧ E.A.mat *ᵥ vecN E.A.dim x' = vecN E.A.dim b ∧
      E.NormOf b (vecN E.A.dim x) info.resnorm ∧ 0 < info.resnorm := by
  obtain ⟨info, x', X, m, e, -, hit, hX, hx', hm, hns, hlt, hst, -⟩ := richardson_correct E P b x h hs
  have h1 : E.maxiter.toNat = 1 := by rw [hmax]; rfl
  have hm1 : m = 1 := by
    by_contra hn
    have hm0 : m = 0 := by omega
    have := (hlt (by omega)).1
    rw [hm0, hX.1] at this
    exact hsm this
  subst hm1
  obtain ⟨z, hz, ez⟩ := hX.2 0 (by omega)
  have hn := hst h1.symm (by decide)
  rw [hX.1] at hn
  refine ⟨info, x', e, ?_, hn, ?_⟩
  · rw [hx', ez]
    have := hP _ _ hz
    rw [mulVec_add, this]
    exact add_sub_cancel _ _
  · refine lt_of_le_of_ne hn.1 fun h0 => hx ?_
    have h2 := hn.2
    rw [← h0, mul_zero] at h2
    exact nrm2_eq_zero.mp h2.symm

end Blasted
