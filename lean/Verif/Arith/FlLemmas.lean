import Verif.Arith.FlSpec
import Verif.Arith.MatVecLemmas

/-!
# Rounded sums and chains of subtractions
-/

namespace Blasted

open Finset

variable {F K : Type} [Zero F] [Add F] [Sub F] [Mul F] [PInvOp F] [Field K] [LinearOrder K] [IsStrictOrderedRing K] (ρ : Rounding F K)

namespace Rounding

theorem add_fl (a b : F) : ∃ θ, Fuzz ρ.u 1 θ ∧ ρ.val (a + b) = (ρ.val a + ρ.val b) * θ := fuzz_of_rel ρ.u_nonneg ρ.u_lt_one (ρ.add a b)
theorem sub_fl (a b : F) : ∃ θ, Fuzz ρ.u 1 θ ∧ ρ.val (a - b) = (ρ.val a - ρ.val b) * θ := fuzz_of_rel ρ.u_nonneg ρ.u_lt_one (ρ.sub a b)
theorem mul_fl (a b : F) : ∃ θ, Fuzz ρ.u 1 θ ∧ ρ.val (a * b) = (ρ.val a * ρ.val b) * θ := fuzz_of_rel ρ.u_nonneg ρ.u_lt_one (ρ.mul a b)

theorem one (k : Nat) : Fuzz ρ.u k 1 := fuzz_one ρ.u_nonneg ρ.u_lt_one k

end Rounding

variable {ρ}

theorem Fuzz.mul' {j k : Nat} {θ η : K} (h : Fuzz ρ.u j θ) (h' : Fuzz ρ.u k η) : Fuzz ρ.u (j + k) (θ * η) := h.mul ρ.u_lt_one h'
theorem Fuzz.mono' {j k : Nat} {θ : K} (h : Fuzz ρ.u j θ) (hjk : j ≤ k) : Fuzz ρ.u k θ := h.mono ρ.u_nonneg ρ.u_lt_one hjk
theorem Fuzz.inv' {k : Nat} {θ : K} (h : Fuzz ρ.u k θ) : Fuzz ρ.u k θ⁻¹ := h.inv ρ.u_lt_one
theorem Fuzz.ne' {k : Nat} {θ : K} (h : Fuzz ρ.u k θ) : θ ≠ 0 := (h.pos ρ.u_lt_one).ne'

omit [LinearOrder K] [IsStrictOrderedRing K] in
theorem sum_Ico_update {lo t : Nat} (h : lo ≤ t) (f θ : Nat → K) (η c : K) :
    ∑ p ∈ Ico lo (t + 1), f p * (if p < t then θ p * η else c) = (∑ p ∈ Ico lo t, f p * θ p) * η + f t * c := by
  rw [sum_Ico_succ_top h, if_neg (lt_irrefl t), sum_mul]
  congr 1
  refine sum_congr rfl fun p hp => ?_
  rw [if_pos (mem_Ico.mp hp).2]; ring

/-- A sum accumulated from the left, starting with `s`. -/
theorem addUp_fl (f : Nat → F) (s : F) {lo hi : Nat} (h : lo ≤ hi) :
    ∃ (η : K) (θ : Nat → K), Fuzz ρ.u (hi - lo) η ∧ (∀ p, Fuzz ρ.u (hi - lo) (θ p)) ∧
      ρ.val (addUp f lo hi s) = ρ.val s * η + ∑ p ∈ Ico lo hi, ρ.val (f p) * θ p := by
  induction hi, h using Nat.le_induction with
  | base => exact ⟨1, fun _ => 1, ρ.one _, fun _ => ρ.one _, by rw [addUp_self, Ico_self, sum_empty, mul_one, add_zero]⟩
  | succ t ht ih =>
    obtain ⟨η, θ, h1, h2, h3⟩ := ih
    obtain ⟨δ, hδ, e⟩ := ρ.add_fl (addUp f lo t s) (f t)
    refine ⟨η * δ, fun p => if p < t then θ p * δ else δ, ?_, fun p => ?_, ?_⟩
    · rw [Nat.succ_sub ht]; exact h1.mul' hδ
    · dsimp only
      split
      · rw [Nat.succ_sub ht]; exact (h2 p).mul' hδ
      · exact hδ.mono' (by omega)
    · rw [addUp_succ f ht, e, h3, sum_Ico_update ht]; ring

/-- A sum accumulated from the left, starting with zero. -/
theorem addUp_fl_zero (f : Nat → F) {lo hi : Nat} (h : lo ≤ hi) :
    ∃ θ : Nat → K, (∀ p, Fuzz ρ.u (hi - lo - 1) (θ p)) ∧
      ρ.val (addUp f lo hi 0) = ∑ p ∈ Ico lo hi, ρ.val (f p) * θ p := by
  induction hi, h using Nat.le_induction with
  | base => exact ⟨fun _ => 1, fun _ => ρ.one _, by rw [addUp_self, Ico_self, sum_empty, ρ.zero]⟩
  | succ t ht ih =>
    obtain ⟨θ, h2, h3⟩ := ih
    rcases Nat.eq_or_lt_of_le ht with rfl | hlt
    · refine ⟨fun _ => 1, fun _ => ρ.one _, ?_⟩
      rw [addUp_succ f (le_refl _), addUp_self, ρ.zero_add, sum_Ico_succ_top (le_refl _), Ico_self, sum_empty, mul_one, _root_.zero_add]
    · obtain ⟨δ, hδ, e⟩ := ρ.add_fl (addUp f lo t 0) (f t)
      refine ⟨fun p => if p < t then θ p * δ else δ, fun p => ?_, ?_⟩
      · dsimp only
        split
        · exact ((h2 p).mul' hδ).mono' (by omega)
        · exact hδ.mono' (by omega)
      · rw [addUp_succ f ht, e, h3, sum_Ico_update ht]; ring

/-- A dot product. -/
theorem dot_fl (a b : Nat → F) {lo hi : Nat} (h : lo ≤ hi) :
    ∃ θ : Nat → K, (∀ p, Fuzz ρ.u (hi - lo) (θ p)) ∧
      ρ.val (addUp (fun p => a p * b p) lo hi 0) = ∑ p ∈ Ico lo hi, ρ.val (a p) * ρ.val (b p) * θ p := by
  obtain ⟨θ, h1, h2⟩ := addUp_fl_zero (ρ := ρ) (fun p => a p * b p) h
  choose η hη e using fun p => ρ.mul_fl (a p) (b p)
  rcases Nat.eq_or_lt_of_le h with rfl | hlt
  · exact ⟨fun _ => 1, fun _ => ρ.one _, by rw [addUp_self, Ico_self, sum_empty, ρ.zero]⟩
  · refine ⟨fun p => η p * θ p, fun p => ((hη p).mul' (h1 p)).mono' (by omega), ?_⟩
    rw [h2]
    exact sum_congr rfl fun p _ => by rw [e p]; ring

/-- A chain of subtractions, solved for its starting value. -/
theorem subUp_fl (a b : Nat → F) (s : F) {lo hi : Nat} (h : lo ≤ hi) :
    ∃ (φ : K) (θ : Nat → K), Fuzz ρ.u (hi - lo) φ ∧ (∀ p, Fuzz ρ.u (hi - lo) (θ p)) ∧
      ρ.val s = ρ.val (subUp (fun p => a p * b p) lo hi s) * φ + ∑ p ∈ Ico lo hi, ρ.val (a p) * ρ.val (b p) * θ p := by
  induction hi, h using Nat.le_induction with
  | base => exact ⟨1, fun _ => 1, ρ.one _, fun _ => ρ.one _, by rw [subUp_self, Ico_self, sum_empty, mul_one, add_zero]⟩
  | succ t ht ih =>
    obtain ⟨φ, θ, h1, h2, h3⟩ := ih
    obtain ⟨δ, hδ, e⟩ := ρ.sub_fl (subUp (fun p => a p * b p) lo t s) (a t * b t)
    obtain ⟨ε, hε, e'⟩ := ρ.mul_fl (a t) (b t)
    refine ⟨φ * δ⁻¹, fun p => if p < t then θ p * 1 else φ * ε, ?_, fun p => ?_, ?_⟩
    · rw [Nat.succ_sub ht]; exact h1.mul' hδ.inv'
    · dsimp only
      split
      · rw [mul_one]; exact (h2 p).mono' (by omega)
      · rw [Nat.succ_sub ht]; exact h1.mul' hε
    · rw [subUp_succ _ ht, e, sum_Ico_update ht, h3, e']
      have := hδ.ne'
      field_simp
      ring

end Blasted
