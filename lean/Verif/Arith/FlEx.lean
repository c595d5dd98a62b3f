import Verif.Arith.FlSpec
import Mathlib.Data.Int.Log
import Mathlib.Data.Rat.Floor
import Mathlib.Algebra.Order.Round
import Mathlib.Tactic.NormNum

/-!
# Binary floating-point numbers with `p` bits

The numbers `m * 2 ^ e` with `|m| ≤ 2 ^ p` and any exponent `e`, with operations rounded to nearest: the arithmetic of `double` for `p = 53`, if
the exponent is not bounded. It satisfies the standard model with `u = 2⁻ᵖ`. This shows that the hypotheses of C63, C64 and C65 are met by a rounded arithmetic.
-/

namespace Blasted

/-- `q` has a significand of `p` bits. -/
def IsFl (p : Nat) (q : ℚ) : Prop := ∃ m e : ℤ, |m| ≤ 2 ^ p ∧ q = m * 2 ^ e

/-- The exponent of the last place of `q`. -/
def ulpExp (p : Nat) (q : ℚ) : ℤ := Int.log 2 |q| + 1 - p

/-- Rounding to the nearest number with `p` bits. -/
def rndFl (p : Nat) (q : ℚ) : ℚ := round (q / 2 ^ ulpExp p q) * 2 ^ ulpExp p q

theorem round_le_round {a b : ℚ} (h : a ≤ b) : round a ≤ round b := by
  rw [round_eq, round_eq]; exact Int.floor_mono (by linarith)

theorem rndFl_zero (p : Nat) : rndFl p 0 = 0 := by
  unfold rndFl
  rw [zero_div, round_zero, Int.cast_zero, zero_mul]

theorem zpow_ulp (p : Nat) (q : ℚ) : (2 : ℚ) ^ p * 2 ^ ulpExp p q = 2 ^ (Int.log 2 |q| + 1) := by
  rw [← zpow_natCast, ← zpow_add₀ (by norm_num)]
  unfold ulpExp
  congr 1
  omega

theorem abs_div_ulp_le (p : Nat) (q : ℚ) : |q / 2 ^ ulpExp p q| ≤ 2 ^ p := by
  have hp : (0 : ℚ) < 2 ^ ulpExp p q := zpow_pos (by norm_num) _
  rw [abs_div, abs_of_pos hp, div_le_iff₀ hp, zpow_ulp]
  exact le_of_lt (by simpa using Int.lt_zpow_succ_log_self (b := 2) (by norm_num) |q|)

/-- The rounded number has `p` bits. -/
theorem isFl_rndFl (p : Nat) (q : ℚ) : IsFl p (rndFl p q) := by
  refine ⟨round (q / 2 ^ ulpExp p q), ulpExp p q, ?_, rfl⟩
  have h := abs_div_ulp_le p q
  rw [abs_le] at h ⊢
  constructor
  · have := round_le_round h.1
    rwa [show (-2 ^ p : ℚ) = ((-2 ^ p : ℤ) : ℚ) by push_cast; rfl, round_intCast] at this
  · have := round_le_round h.2
    rwa [show (2 ^ p : ℚ) = ((2 ^ p : ℤ) : ℚ) by push_cast; rfl, round_intCast] at this

/-- The error of the rounding. -/
theorem rndFl_err {p : Nat} (q : ℚ) : |rndFl p q - q| ≤ (2 ^ p)⁻¹ * |q| := by
  by_cases hq : q = 0
  · rw [hq, rndFl_zero]; simp
  · have hp : (0 : ℚ) < 2 ^ ulpExp p q := zpow_pos (by norm_num) _
    have e : rndFl p q - q = (round (q / 2 ^ ulpExp p q) - q / 2 ^ ulpExp p q) * 2 ^ ulpExp p q := by
      unfold rndFl; field_simp
    rw [e, abs_mul, abs_of_pos hp]
    have h1 : |(round (q / 2 ^ ulpExp p q) : ℚ) - q / 2 ^ ulpExp p q| ≤ 1 / 2 := by
      rw [abs_sub_comm]; exact abs_sub_round _
    have h2 : (2 : ℚ) ^ Int.log 2 |q| ≤ |q| := by simpa using Int.zpow_log_le_self (b := 2) (by norm_num) (abs_pos.mpr hq)
    have h3 := zpow_ulp p q
    rw [zpow_add₀ (by norm_num), zpow_one] at h3
    rw [inv_mul_eq_div, le_div_iff₀ (by positivity)]
    calc _ ≤ (1 / 2 * 2 ^ ulpExp p q * 2 ^ p : ℚ) := by gcongr
      _ = 1 / 2 * (2 ^ p * 2 ^ ulpExp p q) := by ring
      _ ≤ |q| := by rw [h3]; linarith

/-- Numbers with `p` bits are not changed. -/
theorem rndFl_of_isFl {p : Nat} (hp : 1 ≤ p) {q : ℚ} (h : IsFl p q) : rndFl p q = q := by
  by_cases hq : q = 0
  · rw [hq, rndFl_zero]
  · obtain ⟨m, e, hm, rfl⟩ := h
    have he : (0 : ℚ) < 2 ^ e := zpow_pos (by norm_num) _
    have hm0 : m ≠ 0 := by rintro rfl; simp at hq
    have habs : |(m : ℚ) * 2 ^ e| ≤ 2 ^ ((p : ℤ) + e) := by
      rw [abs_mul, abs_of_pos he, zpow_add₀ (by norm_num), zpow_natCast]
      gcongr
      exact_mod_cast hm
    have hlog : Int.log 2 |(m : ℚ) * 2 ^ e| ≤ p + e := by
      have h1 : (2 : ℚ) ^ Int.log 2 |(m : ℚ) * 2 ^ e| ≤ 2 ^ ((p : ℤ) + e) :=
        le_trans (by simpa using Int.zpow_log_le_self (b := 2) (by norm_num) (abs_pos.mpr hq)) habs
      exact (zpow_le_zpow_iff_right₀ (by norm_num)).mp h1
    have key : ∃ z : ℤ, (m : ℚ) * 2 ^ e / 2 ^ ulpExp p ((m : ℚ) * 2 ^ e) = z := by
      have hpos : (0 : ℚ) < 2 ^ ulpExp p ((m : ℚ) * 2 ^ e) := zpow_pos (by norm_num) _
      by_cases hc : Int.log 2 |(m : ℚ) * 2 ^ e| = p + e
      · have hle : (2 : ℚ) ^ ((p : ℤ) + e) ≤ |(m : ℚ) * 2 ^ e| := by
          rw [← hc]; simpa using Int.zpow_log_le_self (b := 2) (by norm_num) (abs_pos.mpr hq)
        have heq : |(m : ℚ)| = 2 ^ p := by
          have := le_antisymm habs hle
          rw [abs_mul, abs_of_pos he, zpow_add₀ (by norm_num), zpow_natCast] at this
          exact mul_right_cancel₀ he.ne' this
        have hu : (2 : ℚ) ^ ulpExp p ((m : ℚ) * 2 ^ e) = 2 ^ e * 2 := by
          rw [ulpExp, hc, show (p : ℤ) + e + 1 - p = e + 1 by omega, zpow_add₀ (by norm_num), zpow_one]
        have hm2 : ∃ z : ℤ, (m : ℚ) = z * 2 := by
          obtain ⟨k, rfl⟩ : ∃ k, p = k + 1 := ⟨p - 1, by omega⟩
          rcases abs_eq (by positivity) |>.mp heq with h | h
          · exact ⟨2 ^ k, by rw [h]; push_cast; ring⟩
          · exact ⟨-2 ^ k, by rw [h]; push_cast; ring⟩
        obtain ⟨z, hz⟩ := hm2
        exact ⟨z, by rw [hu, hz]; field_simp⟩
      · obtain ⟨k, hk⟩ : ∃ k : Nat, (k : ℤ) = e - ulpExp p ((m : ℚ) * 2 ^ e) :=
          ⟨(e - ulpExp p ((m : ℚ) * 2 ^ e)).toNat, by rw [Int.toNat_of_nonneg]; unfold ulpExp; omega⟩
        refine ⟨m * 2 ^ k, ?_⟩
        rw [mul_div_assoc, ← zpow_sub₀ (by norm_num), ← hk, zpow_natCast]
        push_cast; rfl
    obtain ⟨z, hz⟩ := key
    have hpos : (0 : ℚ) < 2 ^ ulpExp p ((m : ℚ) * 2 ^ e) := zpow_pos (by norm_num) _
    unfold rndFl
    rw [hz, round_intCast, ← hz]
    field_simp

/-- Floating-point numbers. -/
def Fl (p : Nat) : Type := { q : ℚ // IsFl p q }

namespace Fl

variable {p : Nat}

instance : DecidableEq (Fl p) := inferInstanceAs (DecidableEq { q : ℚ // IsFl p q })

/-- Rounding. -/
def rnd (q : ℚ) : Fl p := ⟨rndFl p q, isFl_rndFl p q⟩

instance : Zero (Fl p) := ⟨⟨0, 0, 0, by simp, by simp⟩⟩
instance : Add (Fl p) := ⟨fun a b => rnd (a.1 + b.1)⟩
instance : Sub (Fl p) := ⟨fun a b => rnd (a.1 - b.1)⟩
instance : Mul (Fl p) := ⟨fun a b => rnd (a.1 * b.1)⟩
instance : PInvOp (Fl p) :=
  ⟨fun a => if a.1 = 0 then .error .divzero else .ok (rnd a.1⁻¹), fun a b => if b.1 = 0 then .error .divzero else .ok (rnd (a.1 / b.1))⟩

/-- Floating-point arithmetic with at least one bit satisfies the standard model. -/
def rounding (hp : 1 ≤ p) : Rounding (Fl p) ℚ where
  val := fun a => a.1
  u := (2 ^ p)⁻¹
  u_nonneg := by positivity
  u_lt_one := inv_lt_one_of_one_lt₀ (one_lt_pow₀ (by norm_num) (by omega))
  zero := rfl
  zero_add := fun a => by
    show rndFl p (0 + a.1) = a.1
    rw [zero_add]; exact rndFl_of_isFl hp a.2
  add := fun a b => rndFl_err _
  sub := fun a b => rndFl_err _
  mul := fun a b => rndFl_err _
  inv := fun {a b} h => by
    change (if a.1 = 0 then _ else _) = _ at h
    split_ifs at h with h0
    injection h with h; subst h
    exact ⟨h0, rndFl_err _⟩
  div := fun {a b c} h => by
    change (if b.1 = 0 then _ else _) = _ at h
    split_ifs at h with h0
    injection h with h; subst h
    exact ⟨h0, rndFl_err _⟩

end Fl

end Blasted
