import Verif.Krylov.GcrProg
import Mathlib.Algebra.Order.Archimedean.Basic

/-!
# C80: `GCR`
-/

namespace Blasted

open Matrix Finset

variable {K : Type} [Field K] [LinearOrder K] [IsStrictOrderedRing K]

/-- A breakdown is possible: for the residual `r` of the initial vector, or of a vector which is not below the tolerance,
the preconditioner may yield a vector `z` with `A z` orthogonal to `r`. -/
def CanBreak (E : SolverEnv K) (P : (Fin E.A.dim → K) → (Fin E.A.dim → K) → Prop) (b x : List K) : Prop :=
  ∃ y z, (y = vecN E.A.dim x ∨ ¬ E.Small b y) ∧ P (E.A.resid b y) z ∧ E.A.resid b y ⬝ᵥ (E.A.mat *ᵥ z) = 0

theorem div_cycle {nr m k : Nat} (hm : m % nr = 0) (hk : k < nr) : (m + k) / nr * nr = m := by
  obtain ⟨c, rfl⟩ := Nat.dvd_of_mod_eq_zero hm
  rw [Nat.mul_add_div (by omega), Nat.div_eq_of_lt hk, Nat.add_zero, Nat.mul_comm]

theorem Fgmres.snoc {A : MatView K} {P : (Fin A.dim → K) → (Fin A.dim → K) → Prop} {b : List K} {nr m k : Nat}
    {X X' Z Pv : Nat → Fin A.dim → K} (hm : m % nr = 0) (hk : k < nr) (hF : Fgmres A P b nr X Z (m + k))
    (hX : ∀ i ≤ m + k, X' i = X i) (hP : P (A.resid b (X (m + k))) (Z (m + k)))
    (h0 : GcrInv A b m k (k + 1) X Z Pv) (hpos : (A.mat *ᵥ Pv k) ⬝ᵥ (A.mat *ᵥ Pv k) ≠ 0)
    (h1 : GcrInv A b m (k + 1) (k + 1) X' Z Pv) : Fgmres A P b nr X' Z (m + (k + 1)) := by
  intro j hj
  by_cases e : j = m + k
  · subst e
    have hs := h1.span_eq (k + 1) le_rfl
    rw [div_cycle hm hk, hX (m + k) le_rfl, Nat.add_assoc m k 1, hs]
    exact ⟨hP, h0.fresh hpos, h1.xspan, fun u hu => h1.optimal hu⟩
  · exact (hF.congr hX fun _ _ => rfl) j (by omega)

/-- What is known between two cycles. -/
structure GcrDone (E : SolverEnv K) (P : (Fin E.A.dim → K) → (Fin E.A.dim → K) → Prop) (b x : List K) (nr : Nat)
    (st : GcrState K) (X Z : Nat → Fin E.A.dim → K) : Prop where
  lens : GcrLens E.A.dim nr st
  x0 : X 0 = vecN E.A.dim x
  x : vecN E.A.dim st.x = X st.step
  fg : Fgmres E.A P b nr X Z st.step
  big : ∀ i < st.step, 0 < i → ¬ E.Small b (X i)
  le : st.step ≤ E.maxiter.toNat

theorem gcrInner_ok {E : SolverEnv K} {P : (Fin E.A.dim → K) → (Fin E.A.dim → K) → Prop} {b x : List K}
    (h : E.Ready P b x) (hs : SqrtOk E.sqrt) {nr m : Nat} (hm : m % nr = 0) :
    ∀ (f k : Nat) (st : GcrState K) (X Z Pv : Nat → Fin E.A.dim → K), k + f = nr → 0 < f →
      GcrHolds E.A b nr m k (k + 1) st X Z Pv → X 0 = vecN E.A.dim x → Fgmres E.A P b nr X Z (m + k) →
      P (E.A.resid b (X (m + k))) (Z (m + k)) → (∀ i ≤ m + k, 0 < i → ¬ E.Small b (X i)) → m + k < E.maxiter.toNat →
      OkDz (CanBreak E P b x) (gcrInner E (E.sqrt (nrm2 (vecN E.A.dim b))) nr f k st) (fun st' =>
        ∃ X' Z', GcrDone E P b x nr st' X' Z' ∧ m + k < st'.step ∧ st'.resnorm = E.sqrt (nrm2 (E.A.resid b (X' st'.step))) ∧
          (E.Small b (X' st'.step) ∨ st'.step = E.maxiter.toNat ∨ (st'.step = m + nr ∧ ¬ E.Small b (X' st'.step)))) := by
  intro f
  induction f with
  | zero => intro k st X Z Pv _ h0; exact absurd h0 (Nat.lt_irrefl 0)
  | succ f ih =>
    intro k st X Z Pv hkf _ hh hX0 hF hP hbig hmax
    have hk : k < nr := by omega
    unfold gcrInner
    have hD : (E.A.mat *ᵥ Pv k) ⬝ᵥ (E.A.mat *ᵥ Pv k) = 0 → CanBreak E P b x := fun h0 => by
      refine ⟨X (m + k), Z (m + k), ?_, hP, hh.inv.breakdown h0⟩
      by_cases e : m + k = 0
      · rw [e]; exact .inl hX0
      · exact .inr (hbig _ le_rfl (by omega))
    refine ((gcrStep_ok h.sched hk hh).mono hD fun _ => id).bind fun st1 hst1 => ?_
    obtain ⟨hpos, xn, hh1, hrn⟩ := hst1
    have hX1 : ∀ i ≤ m + k, Function.update X (m + (k + 1)) xn i = X i := fun i hi => Function.update_of_ne (by omega) _ _
    have hF1 := hF.snoc hm hk hX1 hP hh.inv hpos hh1.inv
    have hxn : Function.update X (m + (k + 1)) xn st1.step = xn := by rw [hh1.step, Function.update_self]
    have hdone : GcrDone E P b x nr st1 (Function.update X (m + (k + 1)) xn) Z := by
      refine ⟨hh1.lens, ?_, ?_, ?_, ?_, ?_⟩
      · rw [hX1 0 (by omega)]; exact hX0
      · rw [hh1.x, hh1.step]
      · rw [hh1.step]; exact hF1
      · intro i hi h0
        rw [hh1.step] at hi
        rw [hX1 i (by omega)]; exact hbig i (by omega) h0
      · rw [hh1.step]; omega
    have hlt : m + k < st1.step := by rw [hh1.step]; omega
    have hrn' : st1.resnorm = E.sqrt (nrm2 (E.A.resid b (Function.update X (m + (k + 1)) xn st1.step))) := by
      rw [hxn]; exact hrn
    have hsm : relLt st1.resnorm (E.sqrt (nrm2 (vecN E.A.dim b))) E.tol = true ↔
        E.Small b (Function.update X (m + (k + 1)) xn st1.step) := by rw [hrn']; exact small_iff hs
    by_cases c1 : relLt st1.resnorm (E.sqrt (nrm2 (vecN E.A.dim b))) E.tol = true
    · rw [if_pos (by rw [c1]; rfl)]
      exact .inr (Ok.pure ⟨_, Z, hdone, hlt, hrn', .inl (hsm.mp c1)⟩)
    by_cases c2 : E.maxiter ≤ st1.step
    · rw [if_pos (by rw [decide_eq_true c2, Bool.or_true])]
      refine .inr (Ok.pure ⟨_, Z, hdone, hlt, hrn', .inr (.inl ?_)⟩)
      have := hh1.step
      omega
    by_cases c3 : k + 1 = nr
    · rw [if_pos (by rw [beq_iff_eq.mpr c3, Bool.or_true, Bool.true_or])]
      exact .inr (Ok.pure ⟨_, Z, hdone, hlt, hrn', .inr (.inr ⟨by rw [hh1.step, c3], fun h => c1 (hsm.mpr h)⟩)⟩)
    rw [if_neg (by
      rw [Bool.not_eq_true] at c1
      rw [c1, beq_eq_false_iff_ne.mpr c3, decide_eq_false c2]; decide)]
    refine (gcrNext_ok h.mat h.sched h.prec (show k + 1 < nr by omega) hh1).bindDz fun st2 hst2 => ?_
    obtain ⟨-, zn, pn, hPz, hh2⟩ := hst2
    have hst := hh1.step
    refine (ih (k + 1) st2 _ _ _ (by omega) (by omega) hh2 ?_ ?_ ?_ ?_ ?_).mono id ?_
    · rw [hX1 0 (by omega)]; exact hX0
    · exact hF1.congr (fun _ _ => rfl) fun i hi => Function.update_of_ne (by omega) _ _
    · rw [Function.update_self (a := m + (k + 1)) (f := Z)]; exact hPz
    · intro i hi h0
      by_cases e : i = m + (k + 1)
      · intro hsmall
        refine c1 (hsm.mpr ?_)
        rw [hst]; rwa [e] at hsmall
      · rw [hX1 i (by omega)]; exact hbig i (by omega) h0
    · omega
    · rintro st' ⟨X', Z', hd, hl, hr⟩
      exact ⟨X', Z', hd, by omega, hr⟩

theorem gcrCycle_ok {E : SolverEnv K} {P : (Fin E.A.dim → K) → (Fin E.A.dim → K) → Prop} {b x : List K}
    (h : E.Ready P b x) (hs : SqrtOk E.sqrt) {nr : Nat} (hnr : 0 < nr) {st : GcrState K} {X Z : Nat → Fin E.A.dim → K}
    (hd : GcrDone E P b x nr st X Z) (hm : st.step % nr = 0) (hmax : st.step < E.maxiter.toNat)
    (hbig : 0 < st.step → ¬ E.Small b (X st.step)) :
    OkDz (CanBreak E P b x) (gcrCycle E (E.sqrt (nrm2 (vecN E.A.dim b))) nr b st) (fun st' =>
      ∃ X' Z', GcrDone E P b x nr st' X' Z' ∧ st.step < st'.step ∧
        st'.resnorm = E.sqrt (nrm2 (E.A.resid b (X' st'.step))) ∧
        (E.Small b (X' st'.step) ∨ st'.step = E.maxiter.toNat ∨ (st'.step = st.step + nr ∧ ¬ E.Small b (X' st'.step)))) := by
  unfold gcrCycle
  refine (MatView.gemv3_ok h.mat (h.sched.1 _ 1) hd.lens.x h.b_len hd.lens.res).bindDz fun res hres => ?_
  rw [dotp_eq hres.1 hres.1, ok_bind]
  refine (hd.lens.p.rd hnr).bindDz fun p0 hp0 => ?_
  refine Ok.bindDz (h.prec st.step res p0 hres.1 hp0.1) fun p0' hp0' => ?_
  refine (hd.lens.p.wr hnr hp0'.1 1 (fun _ => vecN E.A.dim p0') (fun j hj hne => absurd hj (by omega)) rfl).bindDz
    fun p hp => ?_
  refine (hd.lens.q.rd hnr).bindDz fun q0 hq0 => ?_
  refine (MatView.apply_ok h.mat (h.sched.1 _ 0) hp0'.1 hq0.1).bindDz fun q0' hq0' => ?_
  refine (hd.lens.q.wr hnr hq0'.1 1 (fun _ => E.A.mat *ᵥ vecN E.A.dim p0') (fun j hj hne => absurd hj (by omega))
    hq0'.2).bindDz fun q hq => ?_
  refine (gcrInner_ok h hs hm nr 0 _ X (Function.update Z st.step (vecN E.A.dim p0')) (fun _ => vecN E.A.dim p0')
    (Nat.zero_add _) hnr ⟨hd.lens.x, hres.1, hd.lens.z, hd.lens.beta, hp, hq, hd.x, ?_, rfl, ?_⟩ hd.x0 ?_ ?_ ?_ hmax)
  · show vecN _ res = E.A.resid b (X st.step)
    rw [hres.2, hd.x]
  · exact GcrInv.start (Function.update_self _ _ _)
  · exact hd.fg.congr (fun _ _ => rfl) fun i hi => Function.update_of_ne (by omega) _ _
  · rw [Nat.add_zero, Function.update_self, ← hd.x, ← hres.2]; exact hp0'.2
  · intro i hi h0
    by_cases e : i = st.step
    · rw [e]; exact hbig (by omega)
    · exact hd.big i (by omega) h0

theorem gcrOuter_ok {E : SolverEnv K} {P : (Fin E.A.dim → K) → (Fin E.A.dim → K) → Prop} {b x : List K}
    (h : E.Ready P b x) (hs : SqrtOk E.sqrt) {nr : Nat} (hnr : 0 < nr) :
    ∀ (f : Nat) (st : GcrState K) (X Z : Nat → Fin E.A.dim → K), E.maxiter.toNat ≤ st.step + f →
      GcrDone E P b x nr st X Z → (st.step < E.maxiter.toNat → st.step % nr = 0) →
      (0 < st.step → st.step < E.maxiter.toNat → ¬ E.Small b (X st.step)) →
      (0 < st.step → st.resnorm = E.sqrt (nrm2 (E.A.resid b (X st.step)))) → (st.step = 0 → st.resnorm = 1) →
      OkDz (CanBreak E P b x) (gcrOuter E (E.sqrt (nrm2 (vecN E.A.dim b))) nr b f st) (fun st' =>
        ∃ X' Z', GcrDone E P b x nr st' X' Z' ∧ st.step ≤ st'.step ∧
          (st.step < E.maxiter.toNat → st.step < st'.step) ∧
          (0 < st'.step → st'.resnorm = E.sqrt (nrm2 (E.A.resid b (X' st'.step)))) ∧ (st'.step = 0 → st'.resnorm = 1) ∧
          (st'.step < E.maxiter.toNat → E.Small b (X' st'.step))) := by
  intro f
  induction f with
  | zero =>
    intro st X Z hf hd _ _ hr hr0
    unfold gcrOuter
    rw [if_neg (by have := hd.le; omega)]
    exact .inr (Ok.pure ⟨X, Z, hd, le_rfl, fun h => absurd h (by omega), hr, hr0, fun h => absurd h (by omega)⟩)
  | succ f ih =>
    intro st X Z hf hd hm hbig hr hr0
    unfold gcrOuter
    by_cases hlt : (st.step : Int) < E.maxiter
    · rw [if_pos hlt]
      dsimp only
      have hlt' : st.step < E.maxiter.toNat := by omega
      refine (gcrCycle_ok h hs hnr hd (hm hlt') hlt' fun h0 => hbig h0 hlt').bind fun st1 hst1 => ?_
      obtain ⟨X1, Z1, hd1, hl1, hr1, hc⟩ := hst1
      have hsm : relLt st1.resnorm (E.sqrt (nrm2 (vecN E.A.dim b))) E.tol = true ↔ E.Small b (X1 st1.step) := by
        rw [hr1]; exact small_iff hs
      by_cases c1 : relLt st1.resnorm (E.sqrt (nrm2 (vecN E.A.dim b))) E.tol = true
      · rw [if_pos c1]
        exact .inr (Ok.pure ⟨X1, Z1, hd1, hl1.le, fun _ => hl1, fun _ => hr1, fun h0 => absurd h0 (by omega), fun _ => hsm.mp c1⟩)
      · rw [if_neg c1]
        refine (ih st1 X1 Z1 (by omega) hd1 ?_ (fun _ _ h => c1 (hsm.mpr h)) (fun _ => hr1)
          fun h0 => absurd h0 (by omega)).mono id ?_
        · intro hlt1
          rcases hc with hc | hc | hc
          · exact absurd (hsm.mpr hc) c1
          · omega
          · rw [hc.1, Nat.add_mod_right]; exact hm hlt'
        · rintro st' ⟨X', Z', hd', hle, -, h3⟩
          exact ⟨X', Z', hd', by omega, fun _ => by omega, h3⟩
    · rw [if_neg hlt]
      exact .inr (Ok.pure ⟨X, Z, hd, le_rfl, fun h => absurd h (by omega), hr, hr0, fun h => absurd h (by omega)⟩)

theorem relLe_iff {n : Nat} {sqrt : K → K} (hs : SqrtOk sqrt) {r b : Fin n → K} {tol : K} :
    relLe (sqrt (nrm2 r)) (sqrt (nrm2 b)) tol = true ↔ b ≠ 0 ∧ 0 ≤ tol ∧ nrm2 r ≤ tol * tol * nrm2 b := by
  have h1 := hs _ (nrm2_nonneg r)
  have h2 := hs _ (nrm2_nonneg b)
  have hb : sqrt (nrm2 b) ≠ 0 ↔ b ≠ 0 := by
    rw [not_iff_not, ← nrm2_eq_zero (v := b)]
    constructor
    · intro h; rw [h] at h2; simpa using h2.2.symm
    · intro h; rw [h] at h2 ⊢; simpa using h2.2
  unfold relLe
  rw [decide_eq_true_iff, hb]
  refine and_congr_right fun hb0 => ?_
  have hp : 0 < sqrt (nrm2 b) := lt_of_le_of_ne h2.1 (Ne.symm (hb.mpr hb0))
  rw [div_le_iff₀ hp]
  have e : tol * sqrt (nrm2 b) * (tol * sqrt (nrm2 b)) = tol * tol * nrm2 b := by
    calc _ = tol * tol * (sqrt (nrm2 b) * sqrt (nrm2 b)) := by ring
      _ = _ := by rw [h2.2]
  constructor
  · intro h
    have ht : 0 ≤ tol := by
      by_contra hn
      have : tol * sqrt (nrm2 b) < 0 := mul_neg_of_neg_of_pos (not_le.mp hn) hp
      linarith [h1.1]
    refine ⟨ht, ?_⟩
    have := mul_self_le_mul_self h1.1 h
    rwa [h1.2, e] at this
  · rintro ⟨ht, h⟩
    rwa [mul_self_le_mul_self_iff h1.1 (mul_nonneg ht hp.le), h1.2, e]

/-- **C80**. For every matrix, every right hand side and initial vector, every schedule and every preconditioner whose
applications return normally, even a different one in every application, `GCR::solve` with a positive number of iterations
between restarts either divides by zero, which it can do only if the preconditioner breaks down in the sense of
`CanBreak`, or returns the result of `info.iters` iterations of the flexible GMRES method.

* It stops at the first iterate after the initial one whose relative residual is below the tolerance, and not later than
  after `maxiter` iterations.
* `info.resnorm` is the norm of the residual of the returned vector, and `info.converged` tells whether it is at most
  the tolerance. (With `maxiter` not positive no iteration is done and `info.resnorm` is 1.) -/
theorem gcr_correct (E : SolverEnv K) (P : (Fin E.A.dim → K) → (Fin E.A.dim → K) → Prop) (b x : List K)
    (h : E.Ready P b x) (hs : SqrtOk E.sqrt) (nr : Nat) (hnr : 0 < nr) :
    (gcrSolve E nr b x = .error .divzero ∧ CanBreak E P b x) ∨
    ∃ info x' X Z m, gcrSolve E nr b x = .ok (info, x') ∧ x'.length = E.A.dim ∧ info.iters = (m : Nat) ∧
      X 0 = vecN E.A.dim x ∧ vecN E.A.dim x' = X m ∧ Fgmres E.A P b nr X Z m ∧
      m ≤ E.maxiter.toNat ∧ (0 < E.maxiter → 0 < m) ∧ (∀ k < m, 0 < k → ¬ E.Small b (X k)) ∧
      (m < E.maxiter.toNat → E.Small b (X m)) ∧ (0 < m → E.NormOf b (X m) info.resnorm) ∧ (m = 0 → info.resnorm = 1) ∧
      (0 < m → (info.converged = true ↔ vecN E.A.dim b ≠ 0 ∧ 0 ≤ E.tol ∧
        nrm2 (E.A.resid b (X m)) ≤ E.tol * E.tol * nrm2 (vecN E.A.dim b))) ∧
      0 ≤ info.bnorm ∧ info.bnorm * info.bnorm = nrm2 (vecN E.A.dim b) := by
  have hb := hs _ (nrm2_nonneg (vecN E.A.dim b))
  have hl : (List.replicate E.A.dim (0 : K)).length = E.A.dim := List.length_replicate
  unfold gcrSolve
  rw [dotp_eq h.b_len h.b_len, ok_bind]
  have key := gcrOuter_ok h hs hnr E.maxiter.toNat
    ⟨x, List.replicate E.A.dim 0, List.replicate E.A.dim 0, List.replicate (nr + 1) 0, List.replicate nr (List.replicate E.A.dim 0),
      List.replicate nr (List.replicate E.A.dim 0), 1, 0⟩ (fun _ => vecN E.A.dim x) (fun _ => 0) (Nat.le_add_left _ _)
    ⟨⟨h.x_len, hl, hl, List.length_replicate, Dirs.start _ _ _, Dirs.start _ _ _⟩, rfl, rfl,
      fun j hj => absurd hj (Nat.not_lt_zero j), fun i hi => absurd hi (Nat.not_lt_zero i), Nat.zero_le _⟩
    (fun _ => Nat.zero_mod nr) (fun h0 => absurd h0 (Nat.lt_irrefl 0)) (fun h0 => absurd h0 (Nat.lt_irrefl 0)) (fun _ => rfl)
  rcases key with ⟨e, hD⟩ | ⟨st, e, X, Z, hd, -, hpos, hr, hr0, hsm⟩
  · exact .inl ⟨by show (gcrOuter E (E.sqrt (nrm2 (vecN E.A.dim b))) nr b _ _ >>= _) = _; rw [e]; rfl, hD⟩
  · refine .inr ⟨⟨relLe st.resnorm (E.sqrt (nrm2 (vecN E.A.dim b))) E.tol, st.step, st.resnorm, E.sqrt (nrm2 (vecN E.A.dim b))⟩,
      st.x, X, Z, st.step, ?_, hd.lens.x, rfl, hd.x0, hd.x, hd.fg, hd.le, fun h0 => hpos (by show 0 < _; omega), hd.big, hsm, ?_, hr0, ?_, hb.1, hb.2⟩
    · show (gcrOuter E (E.sqrt (nrm2 (vecN E.A.dim b))) nr b _ _ >>= _) = _
      rw [e]; rfl
    · intro h0
      show E.NormOf b _ st.resnorm
      rw [hr h0]; exact normOf hs b _
    · intro h0
      show relLe st.resnorm _ _ = true ↔ _
      rw [hr h0]; exact relLe_iff hs

/-! ### Consequences -/

section
variable {A : MatView K} {P : (Fin A.dim → K) → (Fin A.dim → K) → Prop} {b : List K} {nr : Nat}
  {X Z : Nat → Fin A.dim → K} {m : Nat}

omit [IsStrictOrderedRing K] in
theorem Fgmres.xspan (h : Fgmres A P b nr X Z m) (hnr : 0 < nr) {j : Nat} (hj : j < m) :
    X j - X (j / nr * nr) ∈ Submodule.span K (Z '' Set.Ico (j / nr * nr) (j + 1)) := by
  have hle : j / nr * nr ≤ j := Nat.div_mul_le_self j nr
  by_cases e : j / nr * nr = j
  · rw [e, sub_self]; exact Submodule.zero_mem _
  · obtain ⟨i, rfl⟩ : ∃ i, j = i + 1 := ⟨j - 1, by omega⟩
    have hq : i / nr = (i + 1) / nr := by
      refine (Nat.div_eq_of_lt_le (by omega) ?_)
      rw [Nat.add_mul, Nat.one_mul]
      have := Nat.div_add_mod (i + 1) nr
      have h2 := Nat.mod_lt (i + 1) hnr
      rw [Nat.mul_comm] at this
      omega
    have h3 := (h i (by omega)).2.2.1
    rw [hq] at h3
    exact Submodule.span_mono (Set.image_mono (Set.Ico_subset_Ico_right (by omega))) h3

omit [IsStrictOrderedRing K] in
/-- Every iteration is at least as good as the best step along the vector which the preconditioner yields. -/
theorem Fgmres.step_le (h : Fgmres A P b nr X Z m) (hnr : 0 < nr) {j : Nat} (hj : j < m) (t : K) :
    nrm2 (A.resid b (X (j + 1))) ≤ nrm2 (A.resid b (X j) - t • (A.mat *ᵥ Z j)) := by
  have h1 := (h j hj).2.2.2 (X j - X (j / nr * nr) + t • Z j)
    (Submodule.add_mem _ (h.xspan hnr hj) (Submodule.smul_mem _ _ (Submodule.subset_span
      ⟨j, ⟨Nat.div_mul_le_self j nr, Nat.lt_succ_self j⟩, rfl⟩)))
  rwa [← add_assoc, add_sub_cancel, resid_add, mulVec_smul] at h1

omit [IsStrictOrderedRing K] in
theorem Fgmres.antitone (h : Fgmres A P b nr X Z m) (hnr : 0 < nr) {j k : Nat} (hjk : j ≤ k) (hk : k ≤ m) :
    nrm2 (A.resid b (X k)) ≤ nrm2 (A.resid b (X j)) := by
  induction k, hjk using Nat.le_induction with
  | base => exact le_rfl
  | succ k hk' ih =>
    refine le_trans ?_ (ih (by omega))
    have := h.step_le hnr (j := k) (by omega) 0
    rwa [zero_smul, sub_zero] at this

omit [IsStrictOrderedRing K] in
theorem Fgmres.indep (h : Fgmres A P b nr X Z m) : ∀ k, k ≤ m → k ≤ nr →
    LinearIndependent K (fun i : Fin k => A.mat *ᵥ Z i) := by
  intro k
  induction k with
  | zero => exact fun _ _ => linearIndependent_empty_type
  | succ k ih =>
    intro hk hkn
    rw [linearIndependent_finSucc']
    refine ⟨ih (by omega) (by omega), ?_⟩
    have h1 := (h k (by omega)).2.1
    rw [Nat.div_eq_of_lt (show k < nr by omega), Nat.zero_mul] at h1
    have e : Set.range (Fin.init fun i : Fin (k + 1) => A.mat *ᵥ Z i) = (fun i => A.mat *ᵥ Z i) '' Set.Ico 0 k := by
      ext v
      constructor
      · rintro ⟨i, rfl⟩; exact ⟨i, ⟨Nat.zero_le _, i.2⟩, rfl⟩
      · rintro ⟨i, ⟨-, hi⟩, rfl⟩; exact ⟨⟨i, hi⟩, rfl⟩
    rw [e]
    exact h1

/-- Without restart the residual is zero after as many iterations as the dimension. -/
theorem Fgmres.exact (h : Fgmres A P b nr X Z m) (hm : A.dim ≤ m) (hnr : A.dim ≤ nr) (h0 : 0 < A.dim) :
    A.resid b (X A.dim) = 0 := by
  have hli := h.indep A.dim hm hnr
  have htop : Submodule.span K (Set.range fun i : Fin A.dim => A.mat *ᵥ Z i) = ⊤ := by
    refine hli.span_eq_top_of_card_eq_finrank' ?_
    rw [Fintype.card_fin, Module.finrank_fin_fun]
  have e : Set.range (fun i : Fin A.dim => A.mat *ᵥ Z i) = A.mat.mulVecLin '' (Z '' Set.Ico 0 A.dim) := by
    ext v
    constructor
    · rintro ⟨i, rfl⟩; exact ⟨_, ⟨i, ⟨Nat.zero_le _, i.2⟩, rfl⟩, rfl⟩
    · rintro ⟨_, ⟨i, ⟨-, hi⟩, rfl⟩, rfl⟩; exact ⟨⟨i, hi⟩, rfl⟩
  rw [e, ← Submodule.map_span] at htop
  obtain ⟨u, hu, eu⟩ : A.resid b (X 0) ∈ Submodule.map A.mat.mulVecLin (Submodule.span K (Z '' Set.Ico 0 A.dim)) := by
    rw [htop]; trivial
  have eu : A.mat *ᵥ u = A.resid b (X 0) := eu
  obtain ⟨k, hk⟩ : ∃ k, A.dim = k + 1 := ⟨A.dim - 1, by omega⟩
  have h1 := (h k (by omega)).2.2.2 u
  rw [Nat.div_eq_of_lt (show k < nr by omega), Nat.zero_mul, ← hk, resid_add, eu, sub_self] at h1
  refine nrm2_eq_zero.mp (le_antisymm ((h1 hu).trans_eq ?_) (nrm2_nonneg _))
  exact nrm2_eq_zero.mpr rfl

end

/-- **C80**, the residual never grows: the returned vector is at least as good as the initial one, whatever the
preconditioner does in each of its applications. -/
theorem gcr_monotone (E : SolverEnv K) (P : (Fin E.A.dim → K) → (Fin E.A.dim → K) → Prop) (b x : List K)
    (h : E.Ready P b x) (hs : SqrtOk E.sqrt) (nr : Nat) (hnr : 0 < nr) (info : SolveInfo K) (x' : List K)
    (he : gcrSolve E nr b x = .ok (info, x')) :
    nrm2 (E.A.resid b (vecN E.A.dim x')) ≤ nrm2 (E.A.resid b (vecN E.A.dim x)) := by
  rcases gcr_correct E P b x h hs nr hnr with ⟨e, -⟩ | ⟨info', x'', X, Z, m, e, -, -, h0, h1, hF, -⟩
  · rw [e] at he; cases he
  · rw [e] at he
    injection he with he
    injection he with _ he
    rw [← he, h1, ← h0]
    exact hF.antitone hnr (Nat.zero_le m) le_rfl

/-- **C80**, finite termination without restarts: if neither `nrestart` nor `maxiter` is smaller than the dimension then
`solve` divides by zero or returns, after at most as many iterations as the dimension, a vector below the tolerance. The
preconditioner may be a different one in every application. -/
theorem gcr_finite (E : SolverEnv K) (P : (Fin E.A.dim → K) → (Fin E.A.dim → K) → Prop) (b x : List K)
    (h : E.Ready P b x) (hs : SqrtOk E.sqrt) (nr : Nat) (hnr : E.A.dim ≤ nr) (hmax : (E.A.dim : Int) ≤ E.maxiter)
    (hb : vecN E.A.dim b ≠ 0) (ht : 0 < E.tol) :
    (gcrSolve E nr b x = .error .divzero ∧ CanBreak E P b x) ∨
    ∃ info x', gcrSolve E nr b x = .ok (info, x') ∧ info.iters ≤ E.A.dim ∧ info.converged = true ∧
      E.Small b (vecN E.A.dim x') ∧ E.NormOf b (vecN E.A.dim x') info.resnorm := by
  have hdim : 0 < E.A.dim := by
    by_contra hn
    exact hb (funext fun i => absurd i.2 (by omega))
  have hB : 0 < E.tol * E.tol * nrm2 (vecN E.A.dim b) := mul_pos (mul_pos ht ht) (nrm2_pos hb)
  rcases gcr_correct E P b x h hs nr (by omega) with hd | ⟨info, x', X, Z, m, e, -, hit, h0, h1, hF, hm, hpos, hbig, hsm, hn, -, hc, -⟩
  · exact .inl hd
  · have hz : E.A.dim ≤ m → E.Small b (X E.A.dim) := fun hle => by
      refine ⟨hb, ht, ?_⟩
      rw [hF.exact hle hnr hdim, nrm2_eq_zero.mpr rfl]; exact hB
    have hmd : m ≤ E.A.dim := by
      by_contra hn
      exact hbig E.A.dim (by omega) hdim (hz (by omega))
    have hS : E.Small b (X m) := by
      by_cases e : m = E.A.dim
      · rw [e]; exact hz (by omega)
      · exact hsm (by omega)
    have hm0 := hpos (by omega)
    refine .inr ⟨info, x', e, by rw [hit]; exact_mod_cast hmd, (hc hm0).mpr ⟨hb, ht.le, hS.2.2.le⟩, ?_, ?_⟩
    · rw [h1]; exact hS
    · rw [h1]; exact hn hm0

/-- **C80**, convergence with restarts. Suppose that for every nonzero residual `r` and every vector `z` which the
preconditioner may yield for it, the angle between `r` and `A z` is bounded away from a right angle. Then `solve` never
divides by zero unless the initial vector is exact, and there is a number of iterations after which it always has reached
the tolerance, for every `nrestart`. -/
theorem gcr_converges [Archimedean K] (E : SolverEnv K) (P : (Fin E.A.dim → K) → (Fin E.A.dim → K) → Prop)
    (b x : List K) (h : E.Ready P b x) (hs : SqrtOk E.sqrt) (hb : vecN E.A.dim b ≠ 0) (ht : 0 < E.tol)
    (hx : E.A.resid b (vecN E.A.dim x) ≠ 0) (δ : K) (hδ : 0 < δ)
    (hP : ∀ r z, r ≠ 0 → P r z → r ⬝ᵥ (E.A.mat *ᵥ z) ≠ 0 ∧
      δ * (nrm2 r * nrm2 (E.A.mat *ᵥ z)) ≤ (r ⬝ᵥ (E.A.mat *ᵥ z)) * (r ⬝ᵥ (E.A.mat *ᵥ z))) :
    ∃ m0 : Nat, ∀ (maxiter : Int) (nr : Nat), m0 < maxiter → 0 < nr →
      ∃ info x', gcrSolve { E with maxiter := maxiter } nr b x = .ok (info, x') ∧ info.iters ≤ m0 ∧
        info.converged = true ∧ E.Small b (vecN E.A.dim x') ∧ E.NormOf b (vecN E.A.dim x') info.resnorm := by
  have hB : 0 < E.tol * E.tol * nrm2 (vecN E.A.dim b) := mul_pos (mul_pos ht ht) (nrm2_pos hb)
  have hG0 : 0 < nrm2 (E.A.resid b (vecN E.A.dim x)) := nrm2_pos hx
  -- one step
  have hone : ∀ r z r' : Fin E.A.dim → K, P r z → (∀ t : K, nrm2 r' ≤ nrm2 (r - t • (E.A.mat *ᵥ z))) →
      nrm2 r' ≤ (1 - δ) * nrm2 r := by
    intro r z r' hPz hmin
    by_cases h0 : r = 0
    · have := hmin 0
      rw [h0, zero_smul, sub_zero] at this
      rw [h0, nrm2_eq_zero.mpr rfl, mul_zero]
      rwa [nrm2_eq_zero.mpr rfl] at this
    obtain ⟨h1, h2⟩ := hP r z h0 hPz
    have hw : 0 < nrm2 (E.A.mat *ᵥ z) := nrm2_pos fun e => h1 (by rw [e, dotProduct_zero])
    set d := r ⬝ᵥ (E.A.mat *ᵥ z) with hd
    set w := nrm2 (E.A.mat *ᵥ z) with hwd
    refine (hmin (d / w)).trans ?_
    rw [nrm2_sub_smul, ← hd, ← hwd]
    have e : nrm2 r - 2 * (d / w) * d + d / w * (d / w) * w = nrm2 r - d * d / w := by
      field_simp
      ring
    rw [e]
    have : δ * nrm2 r ≤ d * d / w := by
      rw [le_div_iff₀ hw, mul_assoc]; exact h2
    linarith
  by_cases hδ1 : δ ≤ 1
  swap
  · -- no residual can satisfy the hypothesis
    exfalso
    have hp := h.prec 0 (List.replicate E.A.dim 0) (List.replicate E.A.dim 0) List.length_replicate List.length_replicate
    obtain ⟨r, hr⟩ : ∃ l : List K, l.length = E.A.dim ∧ vecN E.A.dim l = E.A.resid b (vecN E.A.dim x) := by
      obtain ⟨r, -, h1, h2⟩ := MatView.gemv3_ok h.mat (h.sched.1 0 0) h.x_len h.b_len h.b_len
      exact ⟨r, h1, h2⟩
    obtain ⟨z, -, hz, hPz⟩ := h.prec 0 r r hr.1 hr.1
    rw [hr.2] at hPz
    obtain ⟨h1, h2⟩ := hP _ _ hx hPz
    have hw : 0 < nrm2 (E.A.mat *ᵥ vecN E.A.dim z) := nrm2_pos fun e => h1 (by rw [e, dotProduct_zero])
    set r0 := E.A.resid b (vecN E.A.dim x)
    set w0 := E.A.mat *ᵥ vecN E.A.dim z
    have hcs : 0 ≤ nrm2 (r0 - (r0 ⬝ᵥ w0 / nrm2 w0) • w0) := nrm2_nonneg _
    rw [nrm2_sub_smul] at hcs
    have e : nrm2 r0 - 2 * (r0 ⬝ᵥ w0 / nrm2 w0) * (r0 ⬝ᵥ w0) + r0 ⬝ᵥ w0 / nrm2 w0 * (r0 ⬝ᵥ w0 / nrm2 w0) * nrm2 w0 =
        nrm2 r0 - (r0 ⬝ᵥ w0) * (r0 ⬝ᵥ w0) / nrm2 w0 := by
      field_simp
      ring
    rw [e] at hcs
    have : δ * nrm2 r0 ≤ (r0 ⬝ᵥ w0) * (r0 ⬝ᵥ w0) / nrm2 w0 := by
      rw [le_div_iff₀ hw, mul_assoc]; exact h2
    nlinarith [mul_lt_mul_of_pos_right (not_le.mp hδ1) hG0]
  obtain ⟨m0, hm0⟩ := exists_pow_lt_of_lt_one (div_pos hB hG0) (show 1 - δ < 1 by linarith)
  rw [lt_div_iff₀ hG0] at hm0
  refine ⟨m0 + 1, fun maxiter nr hmi hnr => ?_⟩
  rcases gcr_correct { E with maxiter := maxiter } P b x ⟨h.mat, h.sched, h.prec, h.b_len, h.x_len⟩ hs nr hnr with
    ⟨-, y, z, hy, hPz, h0⟩ | ⟨info, x', X, Z, m, e, -, hit, hX0, h1, hF, hm, hpos, hbig, hsm, hn, -, hc, -⟩
  · exfalso
    refine (hP _ z ?_ hPz).1 h0
    rcases hy with rfl | hy
    · exact hx
    · intro hr0
      exact hy ⟨hb, ht, by
        show nrm2 (E.A.resid b y) < _
        rw [hr0, nrm2_eq_zero.mpr rfl]; exact hB⟩
  · have hdec : ∀ k ≤ m, nrm2 (E.A.resid b (X k)) ≤ (1 - δ) ^ k * nrm2 (E.A.resid b (vecN E.A.dim x)) := by
      intro k
      induction k with
      | zero => intro _; rw [hX0, pow_zero, one_mul]
      | succ k ih =>
        intro hk
        refine (hone _ _ _ (hF k (by omega)).1 (fun t => hF.step_le hnr (by omega) t)).trans ?_
        rw [pow_succ', mul_assoc]
        exact mul_le_mul_of_nonneg_left (ih (by omega)) (by linarith)
    have hsmall : ∀ k, m0 ≤ k → k ≤ m → E.Small b (X k) := fun k hk hkm =>
      ⟨hb, ht, lt_of_le_of_lt (hF.antitone hnr hk hkm) (lt_of_le_of_lt (hdec m0 (by omega)) hm0)⟩
    have hmd : m ≤ m0 + 1 := by
      by_contra hn
      exact hbig (m0 + 1) (by omega) (by omega) (hsmall _ (by omega) (by omega))
    have hS : E.Small b (X m) := hsm (by show m < maxiter.toNat; omega)
    have hm1 := hpos (by show 0 < maxiter; omega)
    refine ⟨info, x', e, by rw [hit]; exact_mod_cast hmd, (hc hm1).mpr ⟨hb, ht.le, hS.2.2.le⟩, ?_, ?_⟩
    · rw [h1]; exact hS
    · rw [h1]; exact hn hm1

/-- **C80**, a defect: if the initial vector is already the exact solution and the preconditioner yields zero for zero
then `GCR::solve` divides 0 by 0 in its first iteration. -/
theorem gcr_exact_guess (E : SolverEnv K) (P : (Fin E.A.dim → K) → (Fin E.A.dim → K) → Prop) (b x : List K)
    (h : E.Ready P b x) (hs : SqrtOk E.sqrt) (nr : Nat) (hnr : 0 < nr) (hmax : 0 < E.maxiter)
    (hx : E.A.resid b (vecN E.A.dim x) = 0) (hP : ∀ z, P 0 z → z = 0) : gcrSolve E nr b x = .error .divzero := by
  rcases gcr_correct E P b x h hs nr hnr with hd | ⟨info, x', X, Z, m, e, -, hit, hX0, h1, hF, hm, hpos, -⟩
  · exact hd.1
  · obtain ⟨h2, h3, -⟩ := hF 0 (hpos hmax)
    rw [hX0, hx] at h2
    refine absurd ?_ h3
    rw [hP _ h2, mulVec_zero]
    exact Submodule.zero_mem _

omit [IsStrictOrderedRing K] in
/-- **C80**, a defect: with `nrestart = 0` the program accesses an element of an empty vector. -/
theorem gcr_no_restart_ub (E : SolverEnv K) (P : (Fin E.A.dim → K) → (Fin E.A.dim → K) → Prop) (b x : List K)
    (h : E.Ready P b x) (hmax : 0 < E.maxiter) : gcrSolve E 0 b x = .error .ub := by
  have hl : (List.replicate E.A.dim (0 : K)).length = E.A.dim := List.length_replicate
  unfold gcrSolve
  rw [dotp_eq h.b_len h.b_len, ok_bind]
  obtain ⟨f, hf⟩ : ∃ f, E.maxiter.toNat = f + 1 := ⟨E.maxiter.toNat - 1, by omega⟩
  rw [hf]
  unfold gcrOuter
  dsimp only
  rw [if_pos (by exact_mod_cast hmax)]
  unfold gcrCycle
  obtain ⟨r, e, h1, h2⟩ := MatView.gemv3_ok h.mat (h.sched.1 0 1) h.x_len h.b_len hl
  dsimp only
  rw [e, ok_bind, dotp_eq h1 h1, ok_bind]
  rfl

/-- **C80**, with an exact preconditioner one iteration gives the exact solution. -/
theorem gcr_exact_prec (E : SolverEnv K) (P : (Fin E.A.dim → K) → (Fin E.A.dim → K) → Prop) (b x : List K)
    (h : E.Ready P b x) (hs : SqrtOk E.sqrt) (nr : Nat) (hnr : 0 < nr) (hmax : 0 < E.maxiter)
    (hP : ∀ r z, P r z → E.A.mat *ᵥ z = r) (hb : vecN E.A.dim b ≠ 0) (ht : 0 < E.tol)
    (hx : E.A.resid b (vecN E.A.dim x) ≠ 0) :
    ∃ info x', gcrSolve E nr b x = .ok (info, x') ∧ info.iters = 1 ∧ info.converged = true ∧ info.resnorm = 0 ∧
      E.A.mat *ᵥ vecN E.A.dim x' = vecN E.A.dim b := by
  have hB : 0 < E.tol * E.tol * nrm2 (vecN E.A.dim b) := mul_pos (mul_pos ht ht) (nrm2_pos hb)
  rcases gcr_correct E P b x h hs nr hnr with
    ⟨-, y, z, hy, hPz, h0⟩ | ⟨info, x', X, Z, m, e, -, hit, hX0, h1, hF, hm, hpos, hbig, hsm, hn, -, hc, -⟩
  · exfalso
    rw [hP _ _ hPz] at h0
    have hr0 : E.A.resid b y = 0 := nrm2_eq_zero.mp h0
    rcases hy with rfl | hy
    · exact hx hr0
    · exact hy ⟨hb, ht, by rw [hr0, nrm2_eq_zero.mpr rfl]; exact hB⟩
  · have hm1 := hpos hmax
    have hr1 : E.A.resid b (X 1) = 0 := by
      refine nrm2_eq_zero.mp (le_antisymm ((hF.step_le hnr hm1 1).trans_eq ?_) (nrm2_nonneg _))
      rw [hP _ _ (hF 0 hm1).1, one_smul, sub_self]
      exact nrm2_eq_zero.mpr rfl
    have hS : E.Small b (X 1) := ⟨hb, ht, by rw [hr1, nrm2_eq_zero.mpr rfl]; exact hB⟩
    have hme : m = 1 := by
      by_contra hne
      exact hbig 1 (by omega) (by omega) hS
    subst hme
    have hnn := hn hm1
    refine ⟨info, x', e, by rw [hit]; rfl, (hc hm1).mpr ⟨hb, ht.le, hS.2.2.le⟩, ?_, ?_⟩
    · have h2 := hnn.2
      rw [hr1, nrm2_eq_zero.mpr rfl] at h2
      exact mul_self_eq_zero.mp h2
    · rw [h1]; exact (sub_eq_zero.mp hr1).symm

end Blasted
