import Verif.Base.Sweep
import Mathlib.Algebra.Field.Basic
import Mathlib.LinearAlgebra.Matrix.Adjugate

/-!
# Inverting pivots

`PInv R` is what the code assumes of `.inverse()` (blocks, Eigen) and of division (scalars): it
succeeds with the two-sided inverse exactly on the invertible elements.
-/

namespace Blasted

/-- Inversion of and division by scalars or blocks, in any arithmetic: `pinv a` is `1.0/a` or `a.inverse()`, `pdiv s a` is
`s / a` or `s * a.inverse()`. -/
class PInvOp (R : Type) where
  pinv : R → C R
  pdiv : R → R → C R

export PInvOp (pinv pdiv)

/-- Exact inversion of scalars or blocks, failing with `divzero` on the non-invertible ones. -/
class PInv (R : Type) [Ring R] extends PInvOp R where
  pdiv_eq : ∀ s a : R, pdiv s a = (do let w ← pinv a; .ok (s * w))
  pinv_ok : ∀ {a b : R}, pinv a = .ok b → a * b = 1 ∧ b * a = 1
  pinv_unit : ∀ {a : R}, IsUnit a → ∃ b, pinv a = .ok b
  pinv_err : ∀ {a : R} {e : Fail}, pinv a = .error e → e = .divzero

/-- `1.0/a` for scalars. -/
instance instPInvField {K : Type} [Field K] [DecidableEq K] : PInv K where
  pinv a := if a = 0 then .error .divzero else .ok a⁻¹
  pdiv s a := if a = 0 then .error .divzero else .ok (s / a)
  pdiv_eq := by
    intro s a
    by_cases h : a = 0
    · simp only [if_pos h, error_bind]
    · simp only [if_neg h, ok_bind, div_eq_mul_inv]
  pinv_ok := by
    intro a b h
    split at h
    · cases h
    · rename_i ha
      cases h
      exact ⟨mul_inv_cancel₀ ha, inv_mul_cancel₀ ha⟩
  pinv_unit := by
    intro a h
    exact ⟨a⁻¹, by rw [if_neg h.ne_zero]⟩
  pinv_err := by
    intro a e h
    split at h
    · cases h; rfl
    · cases h

/-- Eigen's `.inverse()` of a fixed-size block. -/
instance instPInvMatrix {K : Type} [Field K] [DecidableEq K] {n : Nat} :
    PInv (Matrix (Fin n) (Fin n) K) where
  pinv a := if a.det = 0 then .error .divzero else .ok (a.det⁻¹ • a.adjugate)
  pdiv s a := if a.det = 0 then .error .divzero else .ok (s * (a.det⁻¹ • a.adjugate))
  pdiv_eq := by
    intro s a
    by_cases h : a.det = 0
    · simp only [if_pos h, error_bind]
    · simp only [if_neg h, ok_bind]
  pinv_ok := by
    intro a b h
    split at h
    · cases h
    · rename_i ha
      cases h
      constructor
      · rw [Matrix.mul_smul, Matrix.mul_adjugate, smul_smul, inv_mul_cancel₀ ha, one_smul]
      · rw [Matrix.smul_mul, Matrix.adjugate_mul, smul_smul, inv_mul_cancel₀ ha, one_smul]
  pinv_unit := by
    intro a h
    have : a.det ≠ 0 := by
      exact (h.map Matrix.detMonoidHom).ne_zero
    exact ⟨_, by rw [if_neg this]⟩
  pinv_err := by
    intro a e h
    split at h
    · cases h; rfl
    · cases h

section
variable {R : Type} [Ring R] [PInv R]

theorem isUnit_of_pinv {a b : R} (h : pinv a = .ok b) : IsUnit a := by
  have := PInv.pinv_ok h
  exact ⟨⟨a, b, this.1, this.2⟩, rfl⟩

theorem pinv_isUnit {a b : R} (h : pinv a = .ok b) : IsUnit b := by
  have := PInv.pinv_ok h
  exact ⟨⟨b, a, this.2, this.1⟩, rfl⟩

theorem pinv_iff {a : R} : IsUnit a ↔ ∃ b, pinv a = .ok b :=
  ⟨PInv.pinv_unit, fun ⟨_, h⟩ => isUnit_of_pinv h⟩

theorem pinv_cases (a : R) : (∃ b, pinv a = .ok b ∧ a * b = 1 ∧ b * a = 1) ∨
    (pinv a = .error .divzero ∧ ¬ IsUnit a) := by
  cases h : pinv a with
  | ok b => exact Or.inl ⟨b, rfl, PInv.pinv_ok h⟩
  | error e =>
    refine Or.inr ⟨by rw [PInv.pinv_err h], fun hu => ?_⟩
    obtain ⟨b, hb⟩ := PInv.pinv_unit hu
    rw [h] at hb; cases hb

end

/-! ### Sweeps in which an update can fail -/

section
variable {α : Type}

/-- A sequential sweep over the positions `0, 1, ..., N-1`. -/
def sweepUp (upd : Nat → (Nat → C α) → C α) (N : Nat) (x : List α) : C (List α) :=
  forRange 0 N (fun p x => do let v ← upd p (rd x); wr x p v) x

theorem rd_eq_readOfList [Zero α] (x : List α) :
    rd x = fun j => if j < x.length then .ok x⟦j⟧ else .error .ub := by
  funext j
  by_cases h : j < x.length
  · rw [rd_eq h, if_pos h]
  · rw [rd_ub (Nat.not_lt.mp h), if_neg h]

theorem rd_congr [Zero α] {x y : List α} (hl : x.length = y.length) {j : Nat}
    (h : x⟦j⟧ = y⟦j⟧) : rd x j = rd y j := by
  simp only [rd_eq_readOfList, hl, h]

variable {upd : Nat → (Nat → C α) → C α} {N : Nat}

/-- If the sweep ends normally, every position satisfies its own equation afterwards. -/
theorem sweepUp_sound [Zero α]
    (hdep : ∀ p < N, ∀ r r' : Nat → C α, (∀ q < p, r q = r' q) → upd p r = upd p r')
    {x y : List α} (hx : x.length = N) (h : sweepUp upd N x = .ok y) :
    y.length = N ∧ ∀ p < N, upd p (rd y) = .ok y⟦p⟧ := by
  have H : ∀ k ≤ N, ∀ y, forRange 0 k (fun p x => do let v ← upd p (rd x); wr x p v) x = .ok y →
      y.length = N ∧ ∀ p < k, upd p (rd y) = .ok y⟦p⟧ := by
    intro k
    induction k with
    | zero =>
      intro _ y h
      rw [forRange_self] at h
      cases h
      exact ⟨hx, fun p hp => by omega⟩
    | succ k ih =>
      intro hk y h
      rw [forRange_succ_right (Nat.zero_le _)] at h
      cases hz : forRange 0 k (fun p x => do let v ← upd p (rd x); wr x p v) x with
      | error e => rw [hz] at h; cases h
      | ok z =>
        obtain ⟨hzl, hI⟩ := ih (by omega) z hz
        rw [hz, ok_bind] at h
        cases hv : upd k (rd z) with
        | error e => rw [hv] at h; cases h
        | ok v =>
          rw [hv, ok_bind, wr_eq (by omega)] at h
          cases h
          have hag : ∀ p ≤ k, upd p (rd (z.set k v)) = upd p (rd z) := by
            intro p hp
            refine hdep p (by omega) _ _ fun q hq => ?_
            exact rd_congr (by simp) (by rw [get0_set_ne (by omega)])
          refine ⟨by simp [hzl], fun p hp => ?_⟩
          rw [hag p (by omega)]
          by_cases hpk : p = k
          · subst hpk; rw [hv, get0_set_self (by omega)]
          · rw [hI p (by omega), get0_set_ne (Ne.symm hpk)]
  exact H N (Nat.le_refl _) y h

/-- If the equations have a solution, the sweep finds it. -/
theorem sweepUp_complete [Zero α]
    (hdep : ∀ p < N, ∀ r r' : Nat → C α, (∀ q < p, r q = r' q) → upd p r = upd p r')
    {x y : List α} (hx : x.length = N) (hy : y.length = N) (h : ∀ p < N, upd p (rd y) = .ok y⟦p⟧) :
    sweepUp upd N x = .ok y := by
  have : Ok (sweepUp upd N x) (fun z => z.length = N ∧ ∀ p < N, z⟦p⟧ = y⟦p⟧) := by
    refine forRange_ok (fun k z => z.length = N ∧ ∀ p < k, z⟦p⟧ = y⟦p⟧) (Nat.zero_le _)
      ⟨hx, fun p hp => by omega⟩ ?_
    rintro k z _ hk ⟨hl, hI⟩
    have : upd k (rd z) = .ok y⟦k⟧ := by
      rw [← h k hk]
      refine hdep k hk _ _ fun q hq => ?_
      exact rd_congr (by omega) (hI q hq)
    rw [this, ok_bind, wr_eq (by omega)]
    refine Ok.pure ⟨by simp [hl], fun p hp => ?_⟩
    rw [get0_set]
    by_cases hpk : p = k
    · subst hpk; simp [hl, hk]
    · rw [if_neg (by omega)]
      exact hI p (by omega)
  obtain ⟨z, e, hl, hz⟩ := this
  rw [e, ext_get0 (hl.trans hy.symm) (fun i hi => hz i (by omega))]

/-- The only way a sweep can fail is the way an update can. -/
theorem sweepUp_fail [Zero α] {e₀ : Fail}
    (hok : ∀ p < N, ∀ y : List α, y.length = N →
      (∃ v, upd p (rd y) = .ok v) ∨ upd p (rd y) = .error e₀)
    {x : List α} (hx : x.length = N) :
    (∃ y, sweepUp upd N x = .ok y ∧ y.length = N) ∨ sweepUp upd N x = .error e₀ := by
  unfold sweepUp
  have H : ∀ k ≤ N, (∃ y, forRange 0 k (fun p x => do let v ← upd p (rd x); wr x p v) x = .ok y ∧
      y.length = N) ∨ forRange 0 k (fun p x => do let v ← upd p (rd x); wr x p v) x = .error e₀ := by
    intro k
    induction k with
    | zero => intro _; left; exact ⟨x, by simp, hx⟩
    | succ k ih =>
      intro hk
      rw [forRange_succ_right (Nat.zero_le _)]
      rcases ih (by omega) with ⟨y, hy, hl⟩ | he
      · rw [hy, ok_bind]
        rcases hok k (by omega) y hl with ⟨v, hv⟩ | hv
        · left
          rw [hv, ok_bind, wr_eq (by omega)]
          exact ⟨_, rfl, by simp [hl]⟩
        · right; rw [hv]; rfl
      · right; rw [he]; rfl
  exact H N (Nat.le_refl _)

/-- `k` sequential sweeps. -/
def sweepsUp (upd : Nat → (Nat → C α) → C α) (N k : Nat) (x : List α) : C (List α) :=
  forRange 0 k (fun _ x => sweepUp upd N x) x

/-- Sweeps after the first change nothing. -/
theorem sweepsUp_eq [Zero α]
    (hdep : ∀ p < N, ∀ r r' : Nat → C α, (∀ q < p, r q = r' q) → upd p r = upd p r')
    {x : List α} (hx : x.length = N) {k : Nat} (hk : 0 < k) :
    sweepsUp upd N k x = sweepUp upd N x := by
  unfold sweepsUp
  induction k with
  | zero => omega
  | succ k ih =>
    rw [forRange_succ_right (Nat.zero_le _)]
    rcases Nat.eq_zero_or_pos k with rfl | hk
    · simp
    · rw [ih hk]
      cases h : sweepUp upd N x with
      | error e => rfl
      | ok y =>
        obtain ⟨hl, hy⟩ := sweepUp_sound hdep hx h
        rw [ok_bind, sweepUp_complete hdep hl hl hy]

end
end Blasted
