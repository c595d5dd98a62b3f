import Verif.Algo.Model
import Verif.Transpose.Lemmas
import Mathlib.Data.List.Nodup
import Mathlib.Data.List.Perm.Subperm
import Mathlib.Logic.Equiv.Basic
import Mathlib.Tactic.Ring

/-! # Helper lemmas for sorting and prefix sums -/

namespace Blasted
open Finset

variable {K : Type}

/-- Re-indexing a list by an injection of `{0..N-1}` into itself is a permutation. -/
theorem map_range_perm {α : Type _} {N : Nat} (f : Nat → α) (σ : Nat → Nat)
    (hlt : ∀ q < N, σ q < N) (hinj : ∀ p < N, ∀ q < N, σ p = σ q → p = q) :
    ((List.range N).map fun q => f (σ q)).Perm ((List.range N).map f) := by
  have h : ((List.range N).map σ).Perm (List.range N) := by
    refine List.Subperm.perm_of_length_le (List.Nodup.subperm ?_ ?_) (by simp)
    · refine List.Nodup.map_on ?_ List.nodup_range
      intro p hp q hq hpq
      exact hinj p (List.mem_range.mp hp) q (List.mem_range.mp hq) hpq
    · intro a ha
      obtain ⟨q, hq, rfl⟩ := List.mem_map.mp ha
      exact List.mem_range.mpr (hlt q (List.mem_range.mp hq))
  have := h.map f
  rwa [List.map_map] at this

theorem maxElement_ok {a : List Nat} {lo hi : Nat} (h : lo < hi) (ha : hi ≤ a.length) :
    Ok (maxElement a lo hi) (fun p => lo ≤ p ∧ p < hi ∧ ∀ q, lo ≤ q → q < hi → a⟦q⟧ ≤ a⟦p⟧) := by
  unfold maxElement
  refine (forRange_ok (fun k p => lo ≤ p ∧ p < k ∧ ∀ q, lo ≤ q → q < k → a⟦q⟧ ≤ a⟦p⟧) h
    ⟨Nat.le_refl _, by omega, fun q h1 h2 => ?_⟩ ?_)
  · have : q = lo := by omega
    rw [this]
  · rintro k p h1 h2 ⟨h3, h4, h5⟩
    rw [rd_eq (by omega), ok_bind, rd_eq (by omega), ok_bind]
    refine Ok.pure ?_
    split
    · next hlt =>
      refine ⟨by omega, by omega, fun q h6 h7 => ?_⟩
      by_cases hq : q = k
      · rw [hq]
      · exact (h5 q h6 (by omega)).trans (Nat.le_of_lt hlt)
    · next hlt =>
      refine ⟨h3, by omega, fun q h6 h7 => ?_⟩
      by_cases hq : q = k
      · rw [hq]; omega
      · exact h5 q h6 (by omega)

/-- Swap of two blocks by the loop of lines 48-51. -/
theorem swapBlocks_ok [Zero K] {m p q : Nat} {vals tempv : List K}
    (hp : p * m + m ≤ vals.length) (hq : q * m + m ≤ vals.length) (ht : tempv = blockAt m vals p) :
    Ok (forRange 0 m (fun k vals => do
      let v ← rd vals (q * m + k)
      let vals ← wr vals (p * m + k) v
      let t ← rd tempv k
      wr vals (q * m + k) t) vals)
    (fun v' => v'.length = vals.length ∧ ∀ r, ∀ k < m, r * m + k < vals.length →
      v'⟦r * m + k⟧ = vals⟦(if r = p then q else if r = q then p else r) * m + k⟧) := by
  refine (forRange_ok (fun t v' => v'.length = vals.length ∧ ∀ r, ∀ k < m, r * m + k < vals.length →
      v'⟦r * m + k⟧ = if k < t then vals⟦(if r = p then q else if r = q then p else r) * m + k⟧
        else vals⟦r * m + k⟧) (Nat.zero_le _) ⟨rfl, by simp⟩ ?_).mono ?_
  · rintro t v' _ htm ⟨hl, hI⟩
    rw [rd_eq (by omega), ok_bind, wr_eq (by omega), ok_bind,
      rd_eq (by rw [ht]; simp [blockAt]; omega), ok_bind, wr_eq (by simp; omega)]
    refine Ok.pure ⟨by simp [hl], fun r k hk hrk => ?_⟩
    rw [ht, blockAt, get0_map_range _ htm, get0_set, get0_set]
    by_cases h1 : q * m + t = r * m + k
    · obtain ⟨rfl, rfl⟩ := blk_inj htm hk h1
      rw [if_pos ⟨rfl, by simp; omega⟩, if_pos (show t < t + 1 by omega)]
      by_cases h2 : q = p
      · subst h2; simp
      · simp [h2]
    · rw [if_neg (by tauto)]
      by_cases h2 : p * m + t = r * m + k
      · obtain ⟨rfl, rfl⟩ := blk_inj htm hk h2
        rw [if_pos ⟨rfl, by omega⟩, if_pos (show t < t + 1 by omega), hI q t hk (by omega),
          if_neg (Nat.lt_irrefl t)]
        simp
      · rw [if_neg (by tauto), hI r k hk hrk]
        by_cases h3 : k < t
        · rw [if_pos h3, if_pos (show k < t + 1 by omega)]
        · rw [if_neg h3]
          by_cases h4 : k < t + 1
          · have : k = t := by omega
            subst this
            have hrp : r ≠ p := fun h => h2 (by rw [h])
            have hrq : r ≠ q := fun h => h1 (by rw [h])
            simp [hrp, hrq]
          · rw [if_neg h4]
  · rintro v' ⟨hl, hI⟩
    refine ⟨hl, fun r k hk hrk => ?_⟩
    rw [hI r k hk hrk, if_pos hk]

/-- The entries of a row segment: pairs (column index, block). -/
def segEntries [Zero K] (m base N : Nat) (colind : List Nat) (vals : List K) : List (CSEntry K) :=
  (List.range N).map fun q => (colind⟦base + q⟧, blockAt m vals (base + q))

/-- Everything about one run of `sortBlockInnerDimension`, including that it is a re-indexing `σ`. -/
theorem sortBlockInner_ok [Zero K] {m N base : Nat} {colind : List Nat} {vals : List K}
    (hc : base + N ≤ colind.length) (hv : (base + N) * m ≤ vals.length) :
    Ok (sortBlockInner m N base colind vals) (fun s =>
      s.1.length = colind.length ∧ s.2.length = vals.length ∧
      (∀ q, q < base ∨ base + N ≤ q → s.1⟦q⟧ = colind⟦q⟧) ∧
      (∀ q, q < base ∨ base + N ≤ q → ∀ k < m, q * m + k < vals.length →
        s.2⟦q * m + k⟧ = vals⟦q * m + k⟧) ∧
      (segEntries m base N s.1 s.2).Perm (segEntries m base N colind vals) ∧
      ∀ p q, p ≤ q → q < N → s.1⟦base + p⟧ ≤ s.1⟦base + q⟧) := by
  unfold sortBlockInner
  refine (forRange_ok (fun i (s : List Nat × List K) =>
      s.1.length = colind.length ∧ s.2.length = vals.length ∧
      (∀ q, q < base ∨ base + N ≤ q → s.1⟦q⟧ = colind⟦q⟧) ∧
      (∀ q, q < base ∨ base + N ≤ q → ∀ k < m, q * m + k < vals.length →
        s.2⟦q * m + k⟧ = vals⟦q * m + k⟧) ∧
      (segEntries m base N s.1 s.2).Perm (segEntries m base N colind vals) ∧
      ∀ p q, p ≤ q → N - i ≤ q → q < N → s.1⟦base + p⟧ ≤ s.1⟦base + q⟧) (Nat.zero_le _)
      ⟨rfl, rfl, fun _ _ => rfl, fun _ _ _ _ _ => rfl, List.Perm.refl _, fun p q _ h1 h2 => by omega⟩
      ?_).mono ?_
  · rintro i ⟨ci, va⟩ _ hi ⟨hl1, hl2, ho1, ho2, hperm, hs⟩
    simp only at hl1 hl2 ho1 ho2 hperm hs
    dsimp only
    refine (maxElement_ok (a := ci) (lo := base) (hi := base + (N - i)) (by omega) (by omega)).bind ?_
    rintro it ⟨hit1, hit2, hmax⟩
    have hseg : ∀ q, q < base + N → q * m + m ≤ va.length := by
      intro q hq
      rw [← Nat.succ_mul, hl2]
      exact (Nat.mul_le_mul_right m hq).trans hv
    obtain ⟨last, hlast⟩ : ∃ l, l = base + (N - 1 - i) := ⟨_, rfl⟩
    rw [← hlast]
    rw [rd_eq (by omega), ok_bind, rd_eq (by omega), ok_bind, wr_eq (by omega), ok_bind,
      wr_eq (by simp; omega), ok_bind, readBlock_eq (hseg last (by omega)), ok_bind]
    refine (swapBlocks_ok (p := last) (q := it) (hseg last (by omega)) (hseg it (by omega)) rfl).bind ?_
    rintro v' ⟨hlv, hv'⟩
    refine Ok.pure ?_
    obtain ⟨σ, hσ⟩ : ∃ σ : Nat → Nat, σ = fun r => if r = last then it else if r = it then last else r :=
      ⟨_, rfl⟩
    have hci : ∀ q, ((ci.set last ci⟦it⟧).set it ci⟦last⟧)⟦q⟧ = ci⟦σ q⟧ := by
      intro q
      rw [get0_set, get0_set, hσ]
      simp only [List.length_set]
      by_cases h1 : it = q
      · rw [if_pos ⟨h1, by omega⟩]
        by_cases h2 : q = last
        · rw [if_pos h2, h1, h2]
        · rw [if_neg h2, if_pos h1.symm]
      · rw [if_neg (by tauto)]
        by_cases h2 : last = q
        · rw [if_pos ⟨h2, by omega⟩, if_pos h2.symm]
        · rw [if_neg (by tauto), if_neg (Ne.symm h2), if_neg (Ne.symm h1)]
    have hva : ∀ q, q < base + N → blockAt m v' q = blockAt m va (σ q) := by
      intro q hq
      unfold blockAt
      refine List.map_congr_left fun k hk => ?_
      rw [List.mem_range] at hk
      have := hseg q hq
      rw [hv' q k hk (by omega), hσ]
    refine ⟨by simp [hl1], hlv.trans hl2, ?_, ?_, ?_, ?_⟩
    · intro q hq
      simp only
      rw [hci, hσ]
      simp only
      rw [if_neg (by omega), if_neg (by omega)]
      exact ho1 q hq
    · intro q hq k hk hlt
      simp only
      rw [hv' q k hk (by omega), if_neg (by omega), if_neg (by omega)]
      exact ho2 q hq k hk hlt
    · refine List.Perm.trans ?_ hperm
      unfold segEntries
      simp only
      have hτ : ∀ q < N, base + (σ (base + q) - base) = σ (base + q) ∧ σ (base + q) - base < N := by
        intro q hq
        rw [hσ]; simp only
        split
        · omega
        · split <;> omega
      have e : ((List.range N).map fun q => (((ci.set last ci⟦it⟧).set it ci⟦last⟧)⟦base + q⟧,
          blockAt m v' (base + q))) =
          (List.range N).map fun q => (fun r => (ci⟦base + r⟧, blockAt m va (base + r)))
            (σ (base + q) - base) := by
        refine List.map_congr_left fun q hq => ?_
        rw [List.mem_range] at hq
        dsimp only
        rw [hci, hva _ (by omega), (hτ q hq).1]
      rw [e]
      refine map_range_perm (fun r => (ci⟦base + r⟧, blockAt m va (base + r))) _
        (fun q hq => (hτ q hq).2) ?_
      intro p hp q hq hpq
      have h1 := (hτ p hp).1
      have h2 := (hτ q hq).1
      have h3 : σ (base + p) = σ (base + q) := by omega
      rw [hσ] at h3
      simp only at h3
      split at h3 <;> split at h3 <;> (try split at h3) <;> (try split at h3) <;> omega
    · intro p q hpq h1 h2
      simp only
      rw [hci, hci]
      have hσle : ∀ p, p < N → N - i ≤ p → σ (base + p) = base + p := by
        intro p h3 h4
        rw [hσ]; simp only
        rw [if_neg (by omega), if_neg (by omega)]
      have hσrng : ∀ p, p < N - i → base ≤ σ (base + p) ∧ σ (base + p) < base + (N - i) := by
        intro p h3
        rw [hσ]; simp only
        split
        · omega
        · split <;> omega
      by_cases hq : N - i ≤ q
      · rw [hσle q h2 hq]
        by_cases hp : N - i ≤ p
        · rw [hσle p (by omega) hp]; exact hs p q hpq hq h2
        · have := hσrng p (by omega)
          have h5 := hs (σ (base + p) - base) q (by omega) hq h2
          rwa [show base + (σ (base + p) - base) = σ (base + p) by omega] at h5
      · have hql : σ (base + q) = it := by
          rw [hσ]; simp only; rw [if_pos (by omega)]
        rw [hql]
        have := hσrng p (by omega)
        exact hmax _ this.1 this.2
  · rintro ⟨ci, va⟩ ⟨hl1, hl2, ho1, ho2, hperm, hs⟩
    refine ⟨hl1, hl2, ho1, ho2, hperm, fun p q hpq hq => ?_⟩
    rcases Nat.eq_zero_or_pos q with h0 | h0
    · have : p = q := by omega
      rw [this]
    · exact hs p q hpq (by omega) hq

end Blasted
