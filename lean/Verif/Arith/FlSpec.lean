import Verif.Base.Block
import Mathlib.Algebra.Order.Field.Basic
import Mathlib.Algebra.Order.AbsoluteValue.Basic
import Mathlib.Algebra.Order.Ring.Pow
import Mathlib.Algebra.Order.BigOperators.Group.Finset
import Mathlib.Algebra.BigOperators.Ring.Finset
import Mathlib.Tactic.Ring
import Mathlib.Tactic.FieldSimp
import Mathlib.Tactic.Linarith
import Mathlib.Tactic.Positivity

/-!
# The standard model of rounded arithmetic

`Rounding F K` says that the operations of `F` are those of the ordered field `K`, each followed by a rounding whose
relative error is at most the unit roundoff `u`. IEEE arithmetic in any rounding mode has this property as long as no
operation overflows or underflows, with `u = 2⁻⁵³` for `double` and rounding to nearest. The range of the exponent is thus
taken to be unbounded.
-/

namespace Blasted

open Finset

/-- Rounded arithmetic: `val` is the number that an element of `F` stands for. -/
structure Rounding (F K : Type) [Zero F] [Add F] [Sub F] [Mul F] [PInvOp F] [Field K] [LinearOrder K] where
  val : F → K
  u : K
  u_nonneg : 0 ≤ u
  u_lt_one : u < 1
  zero : val 0 = 0
  zero_add : ∀ a, val (0 + a) = val a
  add : ∀ a b, |val (a + b) - (val a + val b)| ≤ u * |val a + val b|
  sub : ∀ a b, |val (a - b) - (val a - val b)| ≤ u * |val a - val b|
  mul : ∀ a b, |val (a * b) - val a * val b| ≤ u * |val a * val b|
  inv : ∀ {a b}, pinv a = .ok b → val a ≠ 0 ∧ |val b - (val a)⁻¹| ≤ u * |(val a)⁻¹|
  div : ∀ {a b c}, pdiv a b = .ok c → val b ≠ 0 ∧ |val c - val a / val b| ≤ u * |val a / val b|

variable {K : Type} [Field K] [LinearOrder K]

/-- The relative error of `k` consecutive roundings: `(1-u)⁻ᵏ - 1`, which is `k u` up to terms of second order. -/
def gam (u : K) (k : Nat) : K := ((1 - u) ^ k)⁻¹ - 1

/-- `θ` is a product of at most `k` factors `1 + δ` or `1 / (1 + δ)` with `|δ| ≤ u`. -/
def Fuzz (u : K) (k : Nat) (θ : K) : Prop := (1 - u) ^ k ≤ θ ∧ θ * (1 - u) ^ k ≤ 1

variable [IsStrictOrderedRing K] {u : K} (h0 : 0 ≤ u) (h1 : u < 1)
include h0 h1

omit h0 in
theorem one_sub_pow_pos (k : Nat) : 0 < (1 - u) ^ k := pow_pos (by linarith) k

omit h0 in
theorem Fuzz.pos {k : Nat} {θ : K} (h : Fuzz u k θ) : 0 < θ := lt_of_lt_of_le (pow_pos (by linarith) k) h.1

theorem fuzz_one (k : Nat) : Fuzz u k 1 := by
  have : (1 - u) ^ k ≤ 1 := pow_le_one₀ (by linarith) (by linarith)
  exact ⟨this, by rwa [one_mul]⟩

omit h0 in
theorem Fuzz.mul {j k : Nat} {θ η : K} (h : Fuzz u j θ) (h' : Fuzz u k η) : Fuzz u (j + k) (θ * η) := by
  have a := one_sub_pow_pos h1 j
  have b := one_sub_pow_pos h1 k
  have p := h.pos h1
  have q := h'.pos h1
  constructor
  · rw [pow_add]; exact mul_le_mul h.1 h'.1 b.le p.le
  · rw [pow_add, show θ * η * ((1 - u) ^ j * (1 - u) ^ k) = (θ * (1 - u) ^ j) * (η * (1 - u) ^ k) by ring]
    exact mul_le_one₀ h.2 (by positivity) h'.2

theorem Fuzz.mono {j k : Nat} (hjk : j ≤ k) {θ : K} (h : Fuzz u j θ) : Fuzz u k θ := by
  have := h.mul h1 (fuzz_one h0 h1 (k - j))
  rwa [mul_one, Nat.add_sub_cancel' hjk] at this

omit h0 in
theorem Fuzz.inv {k : Nat} {θ : K} (h : Fuzz u k θ) : Fuzz u k θ⁻¹ := by
  have p := h.pos h1
  constructor
  · rw [le_inv_comm₀ (one_sub_pow_pos h1 k) p, ← one_div, le_div_iff₀ (one_sub_pow_pos h1 k)]; exact h.2
  · rw [inv_mul_le_iff₀ p, mul_one]; exact h.1

theorem Fuzz.bound {k : Nat} {θ : K} (h : Fuzz u k θ) : |θ - 1| ≤ gam u k := by
  have a := one_sub_pow_pos h1 k
  have ha : (1 - u) ^ k ≤ 1 := (fuzz_one h0 h1 k).1
  have hle : θ ≤ ((1 - u) ^ k)⁻¹ := by rw [← one_div, le_div_iff₀ a]; exact h.2
  unfold gam
  rw [abs_le]
  constructor
  · have h2 : 2 ≤ ((1 - u) ^ k)⁻¹ + (1 - u) ^ k := by
      have : 0 ≤ ((1 - u) ^ k - 1) ^ 2 * ((1 - u) ^ k)⁻¹ := by positivity
      have e : ((1 - u) ^ k - 1) ^ 2 * ((1 - u) ^ k)⁻¹ = ((1 - u) ^ k)⁻¹ + (1 - u) ^ k - 2 := by
        field_simp; ring
      linarith
    linarith [h.1]
  · linarith

theorem gam_nonneg (k : Nat) : 0 ≤ gam u k := (abs_nonneg _).trans ((fuzz_one h0 h1 k).bound h0 h1)

theorem gam_mono {j k : Nat} (h : j ≤ k) : gam u j ≤ gam u k := by
  unfold gam
  have : ((1 - u) ^ j)⁻¹ ≤ ((1 - u) ^ k)⁻¹ :=
    inv_anti₀ (one_sub_pow_pos h1 k) (pow_le_pow_of_le_one (by linarith) (by linarith) h)
  linarith

omit h0 in
/-- `gam` is at most the usual constant `k u / (1 - k u)`. -/
theorem gam_le {k : Nat} (hk : k * u < 1) : gam u k ≤ k * u / (1 - k * u) := by
  have hp : 0 < 1 - k * u := by linarith
  have hb : 1 - k * u ≤ (1 - u) ^ k := by
    have := one_add_mul_le_pow (a := -u) (by linarith) k
    rw [mul_neg] at this
    rwa [sub_eq_add_neg, sub_eq_add_neg]
  have hi : ((1 - u) ^ k)⁻¹ ≤ (1 - k * u)⁻¹ := inv_anti₀ hp hb
  unfold gam
  rw [show (k * u / (1 - k * u) : K) = (1 - k * u)⁻¹ - 1 by field_simp; ring]
  linarith

/-- A relative error of at most `u` is a factor. -/
theorem fuzz_of_rel {x y : K} (h : |x - y| ≤ u * |y|) : ∃ θ, Fuzz u 1 θ ∧ x = y * θ := by
  by_cases hy : y = 0
  · refine ⟨1, fuzz_one h0 h1 1, ?_⟩
    rw [hy, abs_zero, mul_zero, sub_zero] at h
    rw [hy, zero_mul]
    exact abs_eq_zero.mp (le_antisymm h (abs_nonneg _))
  · refine ⟨x / y, ?_, by field_simp⟩
    have hb : |x / y - 1| ≤ u := by
      rw [show x / y - 1 = (x - y) / y by field_simp, abs_div, div_le_iff₀ (abs_pos.mpr hy)]; exact h
    rw [abs_le] at hb
    constructor
    · rw [pow_one]; linarith
    · rw [pow_one]
      nlinarith [mul_nonneg h0 h0, hb.2]

/-- A sum whose terms are perturbed. -/
theorem abs_sum_fuzz_le {ι : Type} {k : Nat} {s : Finset ι} {f θ : ι → K} (h : ∀ p ∈ s, Fuzz u k (θ p)) :
    |∑ p ∈ s, f p * θ p - ∑ p ∈ s, f p| ≤ gam u k * ∑ p ∈ s, |f p| := by
  rw [← sum_sub_distrib, mul_sum]
  refine (abs_sum_le_sum_abs _ _).trans (sum_le_sum fun p hp => ?_)
  rw [show f p * θ p - f p = (θ p - 1) * f p by ring, abs_mul]
  exact mul_le_mul_of_nonneg_right ((h p hp).bound h0 h1) (abs_nonneg _)

/-- A sum with a further term. -/
theorem abs_add_sum_fuzz_le {ι : Type} {k : Nat} {s : Finset ι} {f θ : ι → K} {c η : K} (hη : Fuzz u k η) (h : ∀ p ∈ s, Fuzz u k (θ p)) :
    |c * η + ∑ p ∈ s, f p * θ p - (c + ∑ p ∈ s, f p)| ≤ gam u k * (|c| + ∑ p ∈ s, |f p|) := by
  rw [show c * η + ∑ p ∈ s, f p * θ p - (c + ∑ p ∈ s, f p) = (η - 1) * c + (∑ p ∈ s, f p * θ p - ∑ p ∈ s, f p) by ring, mul_add]
  refine (abs_add_le _ _).trans (add_le_add ?_ (abs_sum_fuzz_le h0 h1 h))
  rw [abs_mul]
  exact mul_le_mul_of_nonneg_right (hη.bound h0 h1) (abs_nonneg _)

end Blasted
