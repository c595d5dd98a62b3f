import Verif.ILU.SweepProps

/-!
# Factors close to the exact ones (for C100)

The factors left by few asynchronous sweeps are not exact. Here: what contracts with the exact factors still contracts with factors close to them.
-/

namespace Blasted

open Finset

variable {K : Type} [Field K] [LinearOrder K] [IsStrictOrderedRing K]

/-- Triangular factors `L'`, `U'` that differ little from `L`, `U`, in the sums over the rows with the weights of the dominance. -/
structure NearFac (n : Nat) (S L U L' U' : Nat → Nat → K) (d : Nat → K) (ε : K) : Prop where
  one : ∀ i < n, L' i i = 1
  above : ∀ i < n, ∀ k, i < k → L' i k = 0
  below : ∀ i < n, ∀ j < i, U' i j = 0
  up : ∀ i < n, ∑ j ∈ range n, |U' i j - U i j| * d j ≤ ε * (|S i i| * d i)
  low : ∀ i < n, ∑ j ∈ range n, |L' i j - L i j| * (|S j j| * d j) ≤ ε * (|S i i| * d i)

namespace FewFac

variable {n : Nat} {S L U L' U' : Nat → Nat → K} {d w : Nat → K} {rho rho' ε : K}

theorem snn (h : FewFac n S L U d w rho) {i : Nat} (hi : i < n) : 0 ≤ |S i i| * d i := mul_nonneg (abs_nonneg _) (h.pos i hi).le

theorem spos (h : FewFac n S L U d w rho) {i : Nat} (hi : i < n) : 0 < |S i i| * d i := by
  refine mul_pos ?_ (h.pos i hi)
  by_contra hc
  have e := h.dia i hi
  have e1 := abs_pos.mpr (h.piv i hi)
  have e2 : |S i i| = 0 := le_antisymm (not_lt.mp hc) (abs_nonneg _)
  rw [e2, mul_zero] at e
  linarith

theorem lowNn (h : FewFac n S L U d w rho) {i : Nat} (hi : i < n) : 0 ≤ ∑ k ∈ range i, |L i k| * w k :=
  sum_nonneg fun k hk => mul_nonneg (abs_nonneg _) (h.wnn k (by rw [mem_range] at hk; omega))

theorem upNn (h : FewFac n S L U d w rho) {i : Nat} : 0 ≤ ∑ j ∈ Ico (i + 1) n, |U i j| * d j :=
  sum_nonneg fun j hj => mul_nonneg (abs_nonneg _) (h.pos j (mem_Ico.mp hj).2).le

theorem w_ge (h : FewFac n S L U d w rho) {i : Nat} (hi : i < n) : (1 - rho) * (|S i i| * d i) ≤ w i := by
  have := h.rhs i hi
  have := h.lowNn hi
  linarith

theorem w_le (h : FewFac n S L U d w rho) {i : Nat} (hi : i < n) : w i ≤ (1 + rho) * (|S i i| * d i) := by
  have e1 := h.wdef i hi
  have e2 := h.upNn (i := i)
  have e3 := mul_le_mul_of_nonneg_right (h.dia i hi) (h.pos i hi).le
  linarith

/-- The rows of `L` in the weights of the diagonal. -/
theorem lowS (h : FewFac n S L U d w rho) {i : Nat} (hi : i < n) : (1 - rho) * ∑ k ∈ range i, |L i k| * (|S k k| * d k) ≤ rho * w i := by
  refine le_trans ?_ (h.low i hi)
  rw [mul_sum]
  refine sum_le_sum fun k hk => ?_
  have := mul_le_mul_of_nonneg_left (h.w_ge (i := k) (by rw [mem_range] at hk; omega)) (abs_nonneg (L i k))
  linarith

/-- What contracts with the exact factors contracts with factors close to them, with a ratio that is a little larger. -/
theorem perturb (h : FewFac n S L U d w rho) (hN : NearFac n S L U L' U' d ε) (h0 : 0 ≤ rho) (hr : rho < rho') (h1 : rho' ≤ 1) (he : 0 ≤ ε)
    (hε : 8 * ε ≤ (rho' - rho) * (1 - rho) ^ 2) :
    FewFac n S L' U' d (fun i => |U' i i| * d i - ∑ j ∈ Ico (i + 1) n, |U' i j| * d j) rho' := by
  set w' : Nat → K := fun i => |U' i i| * d i - ∑ j ∈ Ico (i + 1) n, |U' i j| * d j with hw'
  set a := 1 - rho with ha
  set δ := rho' - rho with hδ
  have ha0 : 0 < a := by rw [ha]; linarith
  have ha1 : a ≤ 1 := by rw [ha]; linarith
  have hδ0 : 0 < δ := sub_pos.mpr hr
  have hδa : δ ≤ a := by rw [hδ, ha]; linarith
  have t1 : δ * a ^ 2 ≤ δ * a := by
    have : a ^ 2 ≤ a := by nlinarith
    exact mul_le_mul_of_nonneg_left this hδ0.le
  have t2 : δ * a ≤ a := by nlinarith
  have t3 : 8 * ε ≤ a := by linarith
  have t4 : 8 * ε ≤ δ * a := by linarith
  have t5 : δ * a ≤ δ := mul_le_of_le_one_right hδ0.le ha1
  set η := 3 * ε / a with hη
  have hηa : η * a = 3 * ε := by rw [hη]; field_simp
  have hη8 : 8 * η ≤ 3 * (δ * a) := by
    have : 8 * η * a ≤ 3 * (δ * a) * a := by nlinarith
    exact le_of_mul_le_mul_right this ha0
  have hη0 : 0 ≤ η := by rw [hη]; positivity
  have hgap : δ * a * 7 ≤ 8 * (δ * (a - ε)) := by nlinarith
  -- the rows of the difference of the upper factors
  have hdu : ∀ i < n, |U' i i - U i i| * d i + ∑ j ∈ Ico (i + 1) n, |U' i j - U i j| * d j ≤ ε * (|S i i| * d i) := by
    intro i hi
    have e := hN.up i hi
    rw [← sum_range_add_sum_Ico _ hi, sum_range_succ] at e
    have e2 : 0 ≤ ∑ j ∈ range i, |U' i j - U i j| * d j :=
      sum_nonneg fun j hj => mul_nonneg (abs_nonneg _) (h.pos j (by rw [mem_range] at hj; omega)).le
    linarith
  have hsub : ∀ i, ∑ j ∈ Ico (i + 1) n, |U' i j| * d j ≤ ∑ j ∈ Ico (i + 1) n, |U i j| * d j + ∑ j ∈ Ico (i + 1) n, |U' i j - U i j| * d j := by
    intro i
    rw [← sum_add_distrib]
    refine sum_le_sum fun j hj => ?_
    rw [← add_mul]
    refine mul_le_mul_of_nonneg_right ?_ (h.pos j (mem_Ico.mp hj).2).le
    have := abs_add_le (U i j) (U' i j - U i j)
    rwa [add_sub_cancel] at this
  have hsub' : ∀ i, ∑ j ∈ Ico (i + 1) n, |U i j| * d j ≤ ∑ j ∈ Ico (i + 1) n, |U' i j| * d j + ∑ j ∈ Ico (i + 1) n, |U' i j - U i j| * d j := by
    intro i
    rw [← sum_add_distrib]
    refine sum_le_sum fun j hj => ?_
    rw [← add_mul]
    refine mul_le_mul_of_nonneg_right ?_ (h.pos j (mem_Ico.mp hj).2).le
    have := abs_add_le (U' i j) (U i j - U' i j)
    rw [add_sub_cancel, abs_sub_comm (U i j)] at this
    exact this
  have hdd : ∀ i < n, |U i i| * d i ≤ |U' i i| * d i + |U' i i - U i i| * d i := by
    intro i hi
    rw [← add_mul]
    refine mul_le_mul_of_nonneg_right ?_ (h.pos i hi).le
    have := abs_add_le (U' i i) (U i i - U' i i)
    rw [add_sub_cancel, abs_sub_comm (U i i)] at this
    exact this
  have hdd' : ∀ i < n, |U' i i| * d i ≤ |U i i| * d i + |U' i i - U i i| * d i := by
    intro i hi
    rw [← add_mul]
    refine mul_le_mul_of_nonneg_right ?_ (h.pos i hi).le
    have := abs_add_le (U i i) (U' i i - U i i)
    rwa [add_sub_cancel] at this
  have hww : ∀ i < n, w i ≤ w' i + ε * (|S i i| * d i) := by
    intro i hi
    rw [h.wdef i hi, hw']
    have e1 := hdu i hi
    have e2 := hsub i
    have e3 := hdd i hi
    dsimp only
    linarith
  have hww' : ∀ i < n, w' i ≤ w i + ε * (|S i i| * d i) := by
    intro i hi
    rw [h.wdef i hi, hw']
    have e1 := hdu i hi
    have e2 := hsub' i
    have e3 := hdd' i hi
    dsimp only
    linarith
  have hws : ∀ i < n, (a - ε) * (|S i i| * d i) ≤ w' i := by
    intro i hi
    have e1 := hww i hi
    have e2 := h.w_ge hi
    rw [← ha] at e2
    linarith
  have hwp : ∀ i < n, 0 < w' i := fun i hi => lt_of_lt_of_le (mul_pos (by linarith) (h.spos hi)) (hws i hi)
  have hup' : ∀ i, 0 ≤ ∑ j ∈ Ico (i + 1) n, |U' i j| * d j := fun i =>
    sum_nonneg fun j hj => mul_nonneg (abs_nonneg _) (h.pos j (mem_Ico.mp hj).2).le
  have hwd : ∀ i < n, w' i ≤ |U' i i| * d i := fun i hi => by
    have := hup' i
    rw [hw']; dsimp only; linarith
  -- the rows of the lower factor
  have hlow : ∀ i < n, ∑ k ∈ range i, |L' i k| * w' k ≤ ∑ k ∈ range i, |L i k| * w k + η * (|S i i| * d i) := by
    intro i hi
    have hs := h.snn hi
    have e1 : ∑ k ∈ range i, |L' i k| * w' k ≤ ∑ k ∈ range i, (|L i k| * w k + (1 + rho + ε) * (|L' i k - L i k| * (|S k k| * d k)) + ε * (|L i k| * (|S k k| * d k))) := by
      refine sum_le_sum fun k hk => ?_
      have hk' : k < n := by rw [mem_range] at hk; omega
      have f1 : |L' i k| ≤ |L i k| + |L' i k - L i k| := by
        have := abs_add_le (L i k) (L' i k - L i k)
        rwa [add_sub_cancel] at this
      have f2 := hww' k hk'
      have f3 := h.w_le hk'
      have f4 := mul_le_mul_of_nonneg_right f1 (hwp k hk').le
      have f5 := mul_le_mul_of_nonneg_left f2 (abs_nonneg (L i k))
      have f6 : w' k ≤ (1 + rho + ε) * (|S k k| * d k) := by linarith
      have f7 := mul_le_mul_of_nonneg_left f6 (abs_nonneg (L' i k - L i k))
      linarith
    rw [sum_add_distrib, sum_add_distrib, ← mul_sum, ← mul_sum] at e1
    have e2 : ∑ k ∈ range i, |L' i k - L i k| * (|S k k| * d k) ≤ ε * (|S i i| * d i) := by
      refine le_trans ?_ (hN.low i hi)
      exact sum_le_sum_of_subset_of_nonneg (range_subset_range.mpr hi.le) fun j hj _ => mul_nonneg (abs_nonneg _) (h.snn (mem_range.mp hj))
    set X := ∑ k ∈ range i, |L i k| * (|S k k| * d k) with hX
    have e3 := h.lowS hi
    rw [← hX, ← ha] at e3
    have e4 := mul_le_mul_of_nonneg_left (h.w_le hi) h0
    have e5 := mul_le_mul_of_nonneg_left e2 (show 0 ≤ 1 + rho + ε by linarith)
    -- everything times `a`
    have e6 : (1 + rho + ε) * (ε * (|S i i| * d i)) + ε * X ≤ η * (|S i i| * d i) := by
      refine le_of_mul_le_mul_right ?_ ha0
      have g1 : ε * X * a ≤ ε * (rho * ((1 + rho) * (|S i i| * d i))) := by
        have := mul_le_mul_of_nonneg_left (e3.trans e4) he
        linarith
      have g2 : η * (|S i i| * d i) * a = 3 * ε * (|S i i| * d i) := by rw [← hηa]; ring
      have g3 : (1 + rho + ε) * a + rho * (1 + rho) ≤ 3 := by
        rw [ha]
        nlinarith [mul_nonneg he h0]
      have g4 := mul_le_mul_of_nonneg_right g3 (mul_nonneg he hs)
      rw [g2]
      linarith
    linarith
  exact {
    one := hN.one
    above := hN.above
    below := hN.below
    piv := fun i hi h0' => by
      have := hwd i hi
      rw [h0', abs_zero, zero_mul] at this
      exact absurd (hwp i hi) (not_lt.mpr this)
    pos := h.pos
    wnn := fun i hi => (hwp i hi).le
    wdef := fun i _ => rfl
    low := fun i hi => by
      have e1 := hlow i hi
      have e2 := h.low i hi
      have e3 := mul_le_mul_of_nonneg_left (hww i hi) h0
      have e4 := mul_le_mul_of_nonneg_left (hws i hi) hδ0.le
      have hs := h.snn hi
      have e5 : (rho * ε + η) * (|S i i| * d i) ≤ δ * (a - ε) * (|S i i| * d i) := by
        refine mul_le_mul_of_nonneg_right ?_ hs
        have : rho * ε ≤ ε := mul_le_of_le_one_left he (by linarith)
        linarith
      have e6 : rho' * w' i = rho * w' i + δ * w' i := by rw [hδ]; ring
      change _ ≤ rho' * w' i
      rw [e6]
      linarith
    rhs := fun i hi => by
      have e1 := hlow i hi
      have e2 := h.rhs i hi
      have e3 := hww i hi
      have hs := h.snn hi
      have e4 : (ε + η) * (|S i i| * d i) ≤ δ * (|S i i| * d i) := mul_le_mul_of_nonneg_right (by linarith) hs
      have e6 : (1 - rho') * (|S i i| * d i) = (1 - rho) * (|S i i| * d i) - δ * (|S i i| * d i) := by rw [hδ]; ring
      change _ ≤ w' i
      rw [e6]
      linarith
    up := fun i hi => by
      have e1 := hsub i
      have e2 := h.up i hi
      have e3 := mul_le_mul_of_nonneg_left (hdd i hi) h0
      have e4 := hdu i hi
      have e5 : rho * (|U' i i - U i i| * d i) ≤ |U' i i - U i i| * d i :=
        mul_le_of_le_one_left (mul_nonneg (abs_nonneg _) (h.pos i hi).le) (by linarith)
      have e6 := mul_le_mul_of_nonneg_left ((hws i hi).trans (hwd i hi)) hδ0.le
      have hs := h.snn hi
      have e7 : ε * (|S i i| * d i) ≤ δ * (a - ε) * (|S i i| * d i) := mul_le_mul_of_nonneg_right (by linarith) hs
      have e8 : rho' * (|U' i i| * d i) = rho * (|U' i i| * d i) + δ * (|U' i i| * d i) := by rw [hδ]; ring
      rw [e8]
      linarith
    dia := fun i hi => by
      refine le_of_mul_le_mul_right ?_ (h.pos i hi)
      have e1 := hdd' i hi
      have e2 := mul_le_mul_of_nonneg_right (h.dia i hi) (h.pos i hi).le
      have e3 := hdu i hi
      have e4 : 0 ≤ ∑ j ∈ Ico (i + 1) n, |U' i j - U i j| * d j :=
        sum_nonneg fun j hj => mul_nonneg (abs_nonneg _) (h.pos j (mem_Ico.mp hj).2).le
      have hs := h.snn hi
      have e5 : ε * (|S i i| * d i) ≤ δ * (|S i i| * d i) := mul_le_mul_of_nonneg_right (by linarith) hs
      have e6 : (1 + rho') * |S i i| * d i = (1 + rho) * |S i i| * d i + δ * (|S i i| * d i) := by rw [hδ]; ring
      rw [e6]
      linarith }

/-- The solutions of the systems with `L U` and with `L' U'` differ little. -/
theorem near_solution (h : FewFac n S L U d w rho) (hN : NearFac n S L U L' U' d ε) {w' : Nat → K} (h' : FewFac n S L' U' d w' rho') (h0 : 0 ≤ rho)
    (hr : rho < 1) (h1 : rho' < 1) (he : 0 ≤ ε) {z z' b : Nat → K} {c : K} (hc : 0 ≤ c) (hzb : ∀ i < n, |z i| ≤ c * d i)
    (hz : ∀ i < n, ∑ k ∈ range n, L i k * ∑ j ∈ range n, U k j * z j = b i)
    (hz' : ∀ i < n, ∑ k ∈ range n, L' i k * ∑ j ∈ range n, U' k j * z' j = b i) :
    ∀ i < n, |z' i - z i| ≤ 6 * c * ε / ((1 - rho) * (1 - rho')) * d i := by
  have hrho : 0 < 1 - rho := by linarith
  have hrho' : 0 < 1 - rho' := by linarith
  -- the residual of the difference
  set y : Nat → K := fun k => ∑ j ∈ range n, U' k j * (z' j - z j) with hy
  set f : Nat → K := fun i => - (∑ k ∈ range n, L i k * (∑ j ∈ range n, (U' k j - U k j) * z j) + ∑ k ∈ range n, (L' i k - L i k) * ∑ j ∈ range n, U' k j * z j) with hf
  have hLy : ∀ i < n, ∑ k ∈ range n, L' i k * y k = f i := by
    intro i hi
    have e : ∀ k, y k = ∑ j ∈ range n, U' k j * z' j - ∑ j ∈ range n, U' k j * z j := by
      intro k
      rw [hy, ← sum_sub_distrib]
      exact sum_congr rfl fun j _ => by ring
    have e1 : ∑ k ∈ range n, L' i k * y k = b i - ∑ k ∈ range n, L' i k * ∑ j ∈ range n, U' k j * z j := by
      rw [← hz' i hi, ← sum_sub_distrib]
      exact sum_congr rfl fun k _ => by rw [e k]; ring
    rw [e1, ← hz i hi, hf]
    dsimp only
    rw [← sum_sub_distrib, ← sum_add_distrib, ← sum_neg_distrib]
    refine sum_congr rfl fun k _ => ?_
    rw [show ∑ j ∈ range n, (U' k j - U k j) * z j = ∑ j ∈ range n, U' k j * z j - ∑ j ∈ range n, U k j * z j by
      rw [← sum_sub_distrib]; exact sum_congr rfl fun j _ => by ring]
    ring
  have hfb : ∀ i < n, |f i| ≤ 6 * c * ε / ((1 - rho) * (1 - rho')) * ((1 - rho') * (|S i i| * d i)) := by
    intro i hi
    have hs := h.snn hi
    -- the difference of the upper factors
    have d1 : ∀ k ∈ range n, |∑ j ∈ range n, (U' k j - U k j) * z j| ≤ c * ε * (|S k k| * d k) := by
      intro k hk
      have e1 := FewFac.abs_sum_le (s := range n) (a := fun j => U' k j - U k j) (x := z) (v := d) (c := c) fun j hj => hzb j (mem_range.mp hj)
      have e2 := mul_le_mul_of_nonneg_left (hN.up k (mem_range.mp hk)) hc
      linarith
    have d2 := FewFac.abs_sum_le (s := range n) (a := L i) (v := fun k => |S k k| * d k) d1
    have d3 : ∑ k ∈ range n, |L i k| * (|S k k| * d k) = ∑ k ∈ range i, |L i k| * (|S k k| * d k) + |S i i| * d i := by
      rw [← sum_range_add_sum_Ico _ hi, sum_range_succ, h.one i hi, abs_one, one_mul,
        sum_eq_zero (s := Ico (i + 1) n) fun k hk => by rw [h.above i hi k (by rw [mem_Ico] at hk; omega), abs_zero, zero_mul], add_zero]
    rw [d3] at d2
    set X := ∑ k ∈ range i, |L i k| * (|S k k| * d k) with hX
    have d4 := h.lowS hi
    rw [← hX] at d4
    have d5 := mul_le_mul_of_nonneg_left (h.w_le hi) h0
    -- the difference of the lower factors
    have d6 : ∀ k ∈ range n, |∑ j ∈ range n, U' k j * z j| ≤ c * 4 * (|S k k| * d k) := by
      intro k hk
      have hk' := mem_range.mp hk
      have e1 := FewFac.abs_sum_le (s := range n) (a := U' k) (x := z) (v := d) (c := c) fun j hj => hzb j (mem_range.mp hj)
      refine e1.trans ?_
      rw [mul_assoc]
      refine mul_le_mul_of_nonneg_left ?_ hc
      rw [← sum_range_add_sum_Ico _ hk', sum_range_succ,
        sum_eq_zero (s := range k) fun j hj => by rw [h'.below k hk' j (mem_range.mp hj), abs_zero, zero_mul], zero_add]
      have e2 := h'.up k hk'
      have e3 := mul_le_mul_of_nonneg_right (h'.dia k hk') (h.pos k hk').le
      have e4 : rho' * (|U' k k| * d k) ≤ |U' k k| * d k := mul_le_of_le_one_left (mul_nonneg (abs_nonneg _) (h.pos k hk').le) h1.le
      have e5 : rho' * (|S k k| * d k) ≤ |S k k| * d k := mul_le_of_le_one_left (h.snn hk') h1.le
      linarith
    have d7 := FewFac.abs_sum_le (s := range n) (a := fun k => L' i k - L i k) (v := fun k => |S k k| * d k) d6
    have d8 := mul_le_mul_of_nonneg_left (hN.low i hi) (mul_nonneg hc (show (0 : K) ≤ 4 by norm_num))
    have e1 : |f i| ≤ c * ε * (X + |S i i| * d i) + c * 4 * (ε * (|S i i| * d i)) := by
      rw [hf, abs_neg]
      refine (abs_add_le _ _).trans (add_le_add d2 (d7.trans d8))
    refine e1.trans ?_
    have e2 : 6 * c * ε / ((1 - rho) * (1 - rho')) * ((1 - rho') * (|S i i| * d i)) = 6 * c * ε / (1 - rho) * (|S i i| * d i) := by
      field_simp
    rw [e2]
    refine le_of_mul_le_mul_right ?_ hrho
    have e3 : 6 * c * ε / (1 - rho) * (|S i i| * d i) * (1 - rho) = 6 * (c * ε) * (|S i i| * d i) := by field_simp
    rw [e3]
    have hce : 0 ≤ c * ε := mul_nonneg hc he
    have e4 := mul_le_mul_of_nonneg_left (d4.trans d5) hce
    have e5 : rho * (1 + rho) + 5 * (1 - rho) ≤ 6 := by nlinarith
    have e6 := mul_le_mul_of_nonneg_right e5 (mul_nonneg hce hs)
    linarith
  have hR : 0 ≤ 6 * c * ε / ((1 - rho) * (1 - rho')) := by positivity
  exact h'.upper_bound (fun i _ => rfl) (h'.lower_bound hR hLy hfb)

end FewFac

end Blasted
