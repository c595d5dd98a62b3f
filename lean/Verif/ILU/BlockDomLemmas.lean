import Verif.ILU.DomLemmas
import Verif.ILU.BlockProps
import Mathlib.LinearAlgebra.Matrix.ToLin
import Mathlib.LinearAlgebra.Matrix.NonsingularInverse

/-!
# Incomplete factors of block diagonally dominant matrices
-/

namespace Blasted

open Finset

variable {K : Type} [Field K] [LinearOrder K] [IsStrictOrderedRing K] {bs : Nat}

local notation "Blk" => Matrix (Fin bs) (Fin bs) K

/-! ### Rows of absolute values -/

/-- The sum of the absolute values in row `a` of a block, with the weights `w`. -/
def absRow (B : Matrix (Fin bs) (Fin bs) K) (w : Fin bs → K) (a : Fin bs) : K := ∑ c, |B a c| * w c

theorem absRow_zero (w : Fin bs → K) (a : Fin bs) : absRow (0 : Blk) w a = 0 := by
  unfold absRow
  exact sum_eq_zero fun c _ => by rw [Matrix.zero_apply, abs_zero, zero_mul]

theorem absRow_nonneg {B : Blk} {w : Fin bs → K} (hw : ∀ c, 0 ≤ w c) (a : Fin bs) : 0 ≤ absRow B w a :=
  sum_nonneg fun c _ => mul_nonneg (abs_nonneg _) (hw c)

theorem absRow_mono {B : Blk} {w w' : Fin bs → K} (hw : ∀ c, w c ≤ w' c) (a : Fin bs) : absRow B w a ≤ absRow B w' a :=
  sum_le_sum fun c _ => mul_le_mul_of_nonneg_left (hw c) (abs_nonneg _)

omit [IsStrictOrderedRing K] in
theorem absRow_smul (B : Blk) (t : K) (w : Fin bs → K) (a : Fin bs) : absRow B (fun c => t * w c) a = t * absRow B w a := by
  unfold absRow
  rw [mul_sum]
  exact sum_congr rfl fun c _ => by ring

omit [IsStrictOrderedRing K] in
theorem absRow_sub (B : Blk) (w w' : Fin bs → K) (a : Fin bs) :
    absRow B (fun c => w c - w' c) a = absRow B w a - absRow B w' a := by
  unfold absRow
  rw [← sum_sub_distrib]
  exact sum_congr rfl fun c _ => by ring

omit [IsStrictOrderedRing K] in
theorem absRow_sum (B : Blk) (s : Finset Nat) (w : Nat → Fin bs → K) (a : Fin bs) :
    absRow B (fun c => ∑ j ∈ s, w j c) a = ∑ j ∈ s, absRow B (w j) a := by
  unfold absRow
  rw [sum_comm]
  exact sum_congr rfl fun c _ => by rw [mul_sum]

theorem absRow_add_le (B B' : Blk) {w : Fin bs → K} (hw : ∀ c, 0 ≤ w c) (a : Fin bs) :
    absRow (B + B') w a ≤ absRow B w a + absRow B' w a := by
  unfold absRow
  rw [← sum_add_distrib]
  refine sum_le_sum fun c _ => ?_
  rw [← add_mul, Matrix.add_apply]
  exact mul_le_mul_of_nonneg_right (abs_add_le _ _) (hw c)

theorem absRow_sub_le (B B' : Blk) {w : Fin bs → K} (hw : ∀ c, 0 ≤ w c) (a : Fin bs) :
    absRow (B - B') w a ≤ absRow B w a + absRow B' w a := by
  unfold absRow
  rw [← sum_add_distrib]
  refine sum_le_sum fun c _ => ?_
  rw [← add_mul, Matrix.sub_apply]
  exact mul_le_mul_of_nonneg_right (abs_sub _ _) (hw c)

theorem absRow_sum_le (s : Finset Nat) (B : Nat → Blk) {w : Fin bs → K} (hw : ∀ c, 0 ≤ w c) (a : Fin bs) :
    absRow (∑ j ∈ s, B j) w a ≤ ∑ j ∈ s, absRow (B j) w a := by
  classical
  induction s using Finset.induction_on with
  | empty => rw [sum_empty, sum_empty, absRow_zero]
  | insert j s hj ih =>
    rw [sum_insert hj, sum_insert hj]
    exact (absRow_add_le _ _ hw a).trans (by linarith)

theorem absRow_mul_le (B B' : Blk) {w : Fin bs → K} (hw : ∀ c, 0 ≤ w c) (a : Fin bs) :
    absRow (B * B') w a ≤ absRow B (absRow B' w) a := by
  unfold absRow
  simp only [mul_sum]
  rw [sum_comm]
  refine sum_le_sum fun c _ => ?_
  rw [Matrix.mul_apply]
  refine (mul_le_mul_of_nonneg_right (abs_sum_le_sum_abs _ _) (hw c)).trans ?_
  rw [sum_mul]
  exact sum_le_sum fun e _ => by rw [abs_mul, mul_assoc]

theorem abs_mulVec_le (B : Blk) (x : Fin bs → K) (a : Fin bs) : |B.mulVec x a| ≤ absRow B (fun c => |x c|) a := by
  unfold absRow Matrix.mulVec dotProduct
  exact (abs_sum_le_sum_abs _ _).trans (sum_le_sum fun c _ => by rw [abs_mul])

/-- If the absolute values of `T` map `d > 0` to something smaller, then `w ≤ |T| w` forces `w ≤ 0`. -/
theorem absRow_max {T : Blk} {d w : Fin bs → K} (hd : ∀ a, 0 < d a) (hT : ∀ a, absRow T d a < d a)
    (hw : ∀ a, w a ≤ absRow T w a) (a : Fin bs) : w a ≤ 0 := by
  by_contra ha
  rw [not_le] at ha
  obtain ⟨e, _, he⟩ := exists_max_image univ (fun c => w c / d c) ⟨a, mem_univ a⟩
  have hm : 0 < w e / d e := lt_of_lt_of_le (div_pos ha (hd a)) (he a (mem_univ a))
  have h1 : ∀ c, w c ≤ w e / d e * d c := fun c => (div_le_iff₀ (hd c)).mp (he c (mem_univ c))
  have h2 := (hw e).trans (absRow_mono h1 e)
  rw [absRow_smul] at h2
  have h3 := mul_lt_mul_of_pos_left (hT e) hm
  rw [div_mul_cancel₀ _ (hd e).ne'] at h3
  linarith

/-- A block near the identity is invertible. -/
theorem isUnit_of_near {r : Blk} {d : Fin bs → K} (hd : ∀ a, 0 < d a) (hT : ∀ a, absRow (1 - r) d a < d a) : IsUnit r := by
  rw [← Matrix.mulVec_injective_iff_isUnit]
  intro x y hxy
  have h0 : r.mulVec (x - y) = 0 := by rw [Matrix.mulVec_sub, sub_eq_zero]; exact hxy
  have h1 : ∀ a, |(x - y) a| ≤ absRow (1 - r) (fun c => |(x - y) c|) a := by
    intro a
    have h2 : (1 - r).mulVec (x - y) = x - y := by rw [Matrix.sub_mulVec, Matrix.one_mulVec, h0, sub_zero]
    conv_lhs => rw [← h2]
    exact abs_mulVec_le _ _ a
  funext a
  have := absRow_max hd hT h1 a
  exact sub_eq_zero.mp (abs_nonpos_iff.mp this)

/-- Multiplying a row `R` with the inverse of a block `r` near the identity keeps a bound that has room for the distance of `r` to the identity. -/
theorem near_row {r : Blk} {d : Fin bs → K} {rho : K} (hd : ∀ a, 0 < d a) (h1 : rho < 1) {s : Finset Nat} {R Z : Nat → Blk} {e : Nat → Fin bs → K}
    (he : ∀ j ∈ s, ∀ c, 0 ≤ e j c) (hn : ∀ a, absRow (1 - r) d a + ∑ j ∈ s, absRow (R j) (e j) a ≤ rho * d a) (hZ : ∀ j ∈ s, r * Z j = R j)
    (a : Fin bs) : ∑ j ∈ s, absRow (Z j) (e j) a ≤ rho * d a := by
  have hT : ∀ a, absRow (1 - r) d a < d a := fun a => by
    have h2 : 0 ≤ ∑ j ∈ s, absRow (R j) (e j) a := sum_nonneg fun j hj => absRow_nonneg (he j hj) a
    have h3 := hn a
    have h4 := mul_lt_mul_of_pos_right h1 (hd a)
    linarith
  have hq : ∀ a, ∑ j ∈ s, absRow (Z j) (e j) a ≤ ∑ j ∈ s, absRow (R j) (e j) a + absRow (1 - r) (fun c => ∑ j ∈ s, absRow (Z j) (e j) c) a := by
    intro a
    rw [absRow_sum (1 - r) _ (fun j => absRow (Z j) (e j)), ← sum_add_distrib]
    refine sum_le_sum fun j hj => ?_
    have e1 : Z j = R j + (1 - r) * Z j := by rw [sub_mul, one_mul, hZ j hj, add_sub_cancel]
    conv_lhs => rw [e1]
    exact (absRow_add_le _ _ (he j hj) a).trans (add_le_add le_rfl (absRow_mul_le _ _ (he j hj) a))
  have := absRow_max (T := 1 - r) (d := d) (w := fun a => ∑ j ∈ s, absRow (Z j) (e j) a - rho * d a) hd hT (fun a => by
    rw [absRow_sub (1 - r) (fun c => ∑ j ∈ s, absRow (Z j) (e j) c), absRow_smul]
    have h2 := hq a
    have h3 := hn a
    have h4 := mul_le_mul_of_nonneg_right h1.le (absRow_nonneg (B := 1 - r) (fun c => (hd c).le) a)
    linarith) a
  linarith

/-! ### Elimination of a row -/

/-- The elimination of row `i` of a matrix whose entries on the pattern `St` are `g`, multiplied with the inverse diagonal block: `l` is the row of `L` times the
pivots, `r` the row of `U`, `Z k` the earlier rows of `U` multiplied with the inverse pivots, `N` the discarded fill. -/
structure BElim (n i : Nat) (St : Nat → Prop) (g l r : Nat → Matrix (Fin bs) (Fin bs) K) (Z : Nat → Nat → Matrix (Fin bs) (Fin bs) K)
    (N : Nat → Matrix (Fin bs) (Fin bs) K) : Prop where
  diag : St i
  low : ∀ j < i, St j → g j = l j + ∑ k ∈ range j, l k * Z k j
  lowN : ∀ j < i, ¬ St j → l j = 0 ∧ N j = ∑ k ∈ range j, l k * Z k j
  dg : 1 = r i + ∑ k ∈ range i, l k * Z k i
  up : ∀ j < n, i < j → St j → g j = r j + ∑ k ∈ range i, l k * Z k j
  upN : ∀ j < n, i < j → ¬ St j → r j = 0 ∧ N j = ∑ k ∈ range i, l k * Z k j
  stN : ∀ j < n, St j → N j = 0

/-- What is left of the weight of row `k` of `Z`. -/
def bexcess (n : Nat) (Z : Nat → Nat → Matrix (Fin bs) (Fin bs) K) (d : Nat → Fin bs → K) (k : Nat) (c : Fin bs) : K :=
  d k c - ∑ j ∈ Ico (k + 1) n, absRow (Z k j) (d j) c

/-- The sum of the products that are subtracted from block `(i,j)`. -/
def bsub (l : Nat → Matrix (Fin bs) (Fin bs) K) (Z : Nat → Nat → Matrix (Fin bs) (Fin bs) K) (d : Nat → Fin bs → K) (i j : Nat) (a : Fin bs) : K :=
  ∑ k ∈ range i, if k < j then absRow (l k) (absRow (Z k j) (d j)) a else 0

section row

variable {n i : Nat} {St : Nat → Prop} {g l r N : Nat → Matrix (Fin bs) (Fin bs) K} {Z : Nat → Nat → Matrix (Fin bs) (Fin bs) K} {d : Nat → Fin bs → K}

theorem bsub_nonneg {j : Nat} (hd : ∀ c, 0 ≤ d j c) (a : Fin bs) : 0 ≤ bsub l Z d i j a := by
  unfold bsub
  refine sum_nonneg fun k _ => ?_
  split
  · exact absRow_nonneg (fun c => absRow_nonneg hd c) a
  · exact le_rfl

theorem absRow_prod_le {j m : Nat} (hm : m ≤ i) (hmj : m ≤ j) (hd : ∀ c, 0 ≤ d j c) (a : Fin bs) :
    absRow (∑ k ∈ range m, l k * Z k j) (d j) a ≤ bsub l Z d i j a := by
  refine (absRow_sum_le _ _ hd a).trans ?_
  unfold bsub
  rw [← sum_range_add_sum_Ico _ hm]
  refine le_trans (sum_le_sum fun k hk => ?_) (le_add_of_nonneg_right (sum_nonneg fun k _ => by
    split
    · exact absRow_nonneg (fun c => absRow_nonneg hd c) a
    · exact le_rfl))
  rw [mem_range] at hk
  rw [if_pos (by omega)]
  exact absRow_mul_le _ _ hd a

/-- The fundamental estimate for a row of blocks. -/
theorem BElim.estimate (h : BElim n i St g l r Z N) (hi : i < n) (hd : ∀ j < n, ∀ c, 0 ≤ d j c) {t : K} (t0 : 0 ≤ t) (t1 : t ≤ 1) (a : Fin bs) :
    ∑ j ∈ range n, absRow (N j) (d j) a + ∑ k ∈ range i, absRow (l k) (bexcess n Z d k) a +
      t * (absRow (1 - r i) (d i) a + ∑ j ∈ Ico (i + 1) n, absRow (r j) (d j) a) ≤
      ∑ j ∈ range i, absRow (g j) (d j) a + t * ∑ j ∈ Ico (i + 1) n, absRow (g j) (d j) a := by
  classical
  have entry : ∀ j < n,
      (if j < i then absRow (l j) (d j) a else if j = i then t * absRow (1 - r i) (d i) a else t * absRow (r j) (d j) a) + absRow (N j) (d j) a ≤
        (if j < i then absRow (g j) (d j) a else if j = i then 0 else t * absRow (g j) (d j) a) + bsub l Z d i j a := by
    intro j hj
    have hB := bsub_nonneg (l := l) (Z := Z) (i := i) (hd j hj) a
    by_cases hst : St j
    · rw [h.stN j hj hst, absRow_zero, add_zero]
      rcases lt_trichotomy j i with hji | rfl | hji
      · rw [if_pos hji, if_pos hji, show l j = g j - ∑ k ∈ range j, l k * Z k j by rw [h.low j hji hst, add_sub_cancel_right]]
        exact (absRow_sub_le _ _ (hd j hj) a).trans (add_le_add le_rfl (absRow_prod_le hji.le le_rfl (hd j hj) a))
      · rw [if_neg (lt_irrefl _), if_neg (lt_irrefl _), if_pos rfl, if_pos rfl, zero_add,
          show 1 - r j = ∑ k ∈ range j, l k * Z k j by conv_lhs => rw [h.dg, add_sub_cancel_left]]
        have h2 := absRow_prod_le (l := l) (Z := Z) (i := j) le_rfl le_rfl (hd j hj) a
        have h3 := mul_le_mul_of_nonneg_left h2 t0
        have h4 := mul_le_mul_of_nonneg_right t1 hB
        linarith
      · rw [if_neg (by omega), if_neg (by omega), if_neg (by omega), if_neg (by omega),
          show r j = g j - ∑ k ∈ range i, l k * Z k j by rw [h.up j hj hji hst, add_sub_cancel_right]]
        have h2 := (absRow_sub_le (g j) (∑ k ∈ range i, l k * Z k j) (hd j hj) a).trans
          (add_le_add le_rfl (absRow_prod_le (i := i) le_rfl hji.le (hd j hj) a))
        have h3 := mul_le_mul_of_nonneg_left h2 t0
        have h4 := mul_le_mul_of_nonneg_right t1 hB
        linarith
    · rcases lt_trichotomy j i with hji | rfl | hji
      · rw [if_pos hji, if_pos hji, (h.lowN j hji hst).1, (h.lowN j hji hst).2, absRow_zero, zero_add]
        have h2 := absRow_prod_le (l := l) (Z := Z) (i := i) hji.le le_rfl (hd j hj) a
        have h3 := absRow_nonneg (B := g j) (hd j hj) a
        linarith
      · exact absurd h.diag hst
      · rw [if_neg (by omega), if_neg (by omega), if_neg (by omega), if_neg (by omega), (h.upN j hj hji hst).1, (h.upN j hj hji hst).2,
          absRow_zero, mul_zero, zero_add]
        have h2 := absRow_prod_le (l := l) (Z := Z) (i := i) le_rfl hji.le (hd j hj) a
        have h3 := mul_nonneg t0 (absRow_nonneg (B := g j) (hd j hj) a)
        linarith
  have hsum := sum_le_sum fun j hj => entry j (mem_range.mp hj)
  have split : ∀ (x : Nat → K) (b : K) (y : Nat → K),
      ∑ j ∈ range n, (if j < i then x j else if j = i then b else y j) =
        ∑ j ∈ range i, x j + b + ∑ j ∈ Ico (i + 1) n, y j := by
    intro x b y
    rw [← sum_range_add_sum_Ico _ (show i + 1 ≤ n from hi), sum_range_succ]
    congr 1
    · congr 1
      · exact sum_congr rfl fun j hj => by rw [if_pos (mem_range.mp hj)]
      · rw [if_neg (lt_irrefl _), if_pos rfl]
    · refine sum_congr rfl fun j hj => ?_
      rw [mem_Ico] at hj
      rw [if_neg (by omega), if_neg (by omega)]
  have hB : ∑ j ∈ range n, bsub l Z d i j a = ∑ k ∈ range i, ∑ j ∈ Ico (k + 1) n, absRow (l k) (absRow (Z k j) (d j)) a := by
    unfold bsub
    rw [sum_comm]
    refine sum_congr rfl fun k hk => ?_
    rw [mem_range] at hk
    rw [← sum_range_add_sum_Ico _ (show k + 1 ≤ n by omega),
      sum_eq_zero (s := range (k + 1)) fun j hj => by rw [if_neg (by rw [mem_range] at hj; omega)], zero_add]
    refine sum_congr rfl fun j hj => ?_
    rw [mem_Ico] at hj
    rw [if_pos (by omega)]
  rw [sum_add_distrib, sum_add_distrib, split, split, hB] at hsum
  have hex : ∑ k ∈ range i, absRow (l k) (bexcess n Z d k) a =
      ∑ k ∈ range i, absRow (l k) (d k) a - ∑ k ∈ range i, ∑ j ∈ Ico (k + 1) n, absRow (l k) (absRow (Z k j) (d j)) a := by
    rw [← sum_sub_distrib]
    refine sum_congr rfl fun k _ => ?_
    unfold bexcess
    rw [absRow_sub, absRow_sum (l k) _ (fun j => absRow (Z k j) (d j))]
  rw [hex]
  rw [← mul_sum, ← mul_sum] at hsum
  rw [mul_add]
  linarith

variable {rho : K}

/-- The pivot, multiplied with the inverse diagonal block, is near the identity, the nearer the smaller the rest of the row. -/
theorem BElim.near (h : BElim n i St g l r Z N) (hi : i < n) (hd : ∀ j < n, ∀ c, 0 ≤ d j c)
    (hg : ∀ a, ∑ j ∈ (range n).erase i, absRow (g j) (d j) a ≤ rho * d i a) (hv : ∀ k < i, ∀ c, 0 ≤ bexcess n Z d k c) (a : Fin bs) :
    absRow (1 - r i) (d i) a + ∑ j ∈ Ico (i + 1) n, absRow (r j) (d j) a ≤ rho * d i a := by
  have key := h.estimate hi hd zero_le_one le_rfl a
  have h1 : 0 ≤ ∑ j ∈ range n, absRow (N j) (d j) a := sum_nonneg fun j hj => absRow_nonneg (hd j (mem_range.mp hj)) a
  have h2 : 0 ≤ ∑ k ∈ range i, absRow (l k) (bexcess n Z d k) a := sum_nonneg fun k hk => absRow_nonneg (hv k (mem_range.mp hk)) a
  have h3 := hg a
  rw [sum_erase_split hi] at h3
  linarith

/-- The row of `U` multiplied with the inverse pivot is again dominant. -/
theorem BElim.row (h : BElim n i St g l r Z N) (hi : i < n) (hd : ∀ j < n, ∀ c, 0 < d j c) (h1 : rho < 1)
    (hg : ∀ a, ∑ j ∈ (range n).erase i, absRow (g j) (d j) a ≤ rho * d i a) (hv : ∀ k < i, ∀ c, 0 ≤ bexcess n Z d k c)
    (hZ : ∀ j < n, i < j → r i * Z i j = r j) (a : Fin bs) : ∑ j ∈ Ico (i + 1) n, absRow (Z i j) (d j) a ≤ rho * d i a := by
  have hd0 : ∀ j < n, ∀ c, 0 ≤ d j c := fun j hj c => (hd j hj c).le
  have hn := h.near hi hd0 hg hv
  exact near_row (hd i hi) h1 (fun j hj => hd0 j (mem_Ico.mp hj).2) hn (fun j hj => hZ j (mem_Ico.mp hj).2 (mem_Ico.mp hj).1) a

/-- One step of the forward substitution: if the earlier components are within `c * rho` times the excess, then so is this one. -/
theorem BElim.forward (h : BElim n i St g l r Z N) (hi : i < n) (hd : ∀ j < n, ∀ c, 0 < d j c) (h0 : 0 ≤ rho) (h1 : rho < 1)
    (hg : ∀ a, ∑ j ∈ (range n).erase i, absRow (g j) (d j) a ≤ rho * d i a) (hv : ∀ k < i, ∀ c, 0 ≤ bexcess n Z d k c)
    (hZ : ∀ j < n, i < j → r i * Z i j = r j) {c : K} (hc : 0 ≤ c) {v e : Nat → Fin bs → K} (he : ∀ j < n, ∀ a, |e j a| ≤ c * d j a)
    (hvb : ∀ k < i, ∀ a, |v k a| ≤ c * (rho * bexcess n Z d k a))
    (heq : (r i).mulVec (v i) = ∑ j ∈ range n, (N j).mulVec (e j) - ∑ k ∈ range i, (l k).mulVec (v k)) (a : Fin bs) :
    |v i a| ≤ c * (rho * bexcess n Z d i a) := by
  have hd0 : ∀ j < n, ∀ c, 0 ≤ d j c := fun j hj c => (hd j hj c).le
  have hn := h.near hi hd0 hg hv
  have hT : ∀ a, absRow (1 - r i) (d i) a < d i a := fun a => by
    have h2 : 0 ≤ ∑ j ∈ Ico (i + 1) n, absRow (r j) (d j) a := sum_nonneg fun j hj => absRow_nonneg (hd0 j (mem_Ico.mp hj).2) a
    have h3 := hn a
    have h4 := mul_lt_mul_of_pos_right h1 (hd i hi a)
    linarith
  -- the excess
  have hE : ∀ a, d i a - ∑ j ∈ Ico (i + 1) n, absRow (r j) (d j) a - absRow (1 - r i) (d i) a + absRow (1 - r i) (bexcess n Z d i) a ≤ bexcess n Z d i a := by
    intro a
    unfold bexcess
    rw [absRow_sub, absRow_sum (1 - r i) _ (fun j => absRow (Z i j) (d j))]
    have : ∑ j ∈ Ico (i + 1) n, absRow (Z i j) (d j) a ≤ ∑ j ∈ Ico (i + 1) n, absRow (r j) (d j) a +
        ∑ j ∈ Ico (i + 1) n, absRow (1 - r i) (absRow (Z i j) (d j)) a := by
      rw [← sum_add_distrib]
      refine sum_le_sum fun j hj => ?_
      rw [mem_Ico] at hj
      have e : Z i j = r j + (1 - r i) * Z i j := by rw [sub_mul, one_mul, hZ j hj.2 hj.1, add_sub_cancel]
      conv_lhs => rw [e]
      exact (absRow_add_le _ _ (hd0 j hj.2) a).trans (add_le_add le_rfl (absRow_mul_le _ _ (hd0 j hj.2) a))
    linarith
  -- the component
  have hvi : ∀ a, |v i a| ≤ c * (rho * (d i a - absRow (1 - r i) (d i) a - ∑ j ∈ Ico (i + 1) n, absRow (r j) (d j) a)) +
      absRow (1 - r i) (fun b => |v i b|) a := by
    intro a
    have e1 : v i a = (∑ j ∈ range n, (N j).mulVec (e j) - ∑ k ∈ range i, (l k).mulVec (v k)) a + (1 - r i).mulVec (v i) a := by
      rw [← heq, Matrix.sub_mulVec, Matrix.one_mulVec]
      simp only [Pi.sub_apply]
      ring
    have h2 : |(∑ j ∈ range n, (N j).mulVec (e j) - ∑ k ∈ range i, (l k).mulVec (v k)) a| ≤
        c * ∑ j ∈ range n, absRow (N j) (d j) a + c * ∑ k ∈ range i, absRow (l k) (bexcess n Z d k) a := by
      rw [Pi.sub_apply, Finset.sum_apply, Finset.sum_apply, mul_sum, mul_sum]
      refine (abs_sub _ _).trans (add_le_add ((abs_sum_le_sum_abs _ _).trans (sum_le_sum fun j hj => ?_))
        ((abs_sum_le_sum_abs _ _).trans (sum_le_sum fun k hk => ?_)))
      · rw [← absRow_smul]
        exact (abs_mulVec_le _ _ a).trans (absRow_mono (he j (mem_range.mp hj)) a)
      · rw [← absRow_smul]
        refine (abs_mulVec_le _ _ a).trans (absRow_mono (fun b => (hvb k (mem_range.mp hk) b).trans ?_) a)
        exact mul_le_mul_of_nonneg_left (mul_le_of_le_one_left (hv k (mem_range.mp hk) b) h1.le) hc
    have h3 := h.estimate hi hd0 h0 h1.le a
    have h4 := hg a
    rw [sum_erase_split hi] at h4
    have h5 : 0 ≤ ∑ j ∈ Ico (i + 1) n, absRow (g j) (d j) a := sum_nonneg fun j hj => absRow_nonneg (hd0 j (mem_Ico.mp hj).2) a
    have h6 := mul_le_mul_of_nonneg_right h1.le h5
    have h7 : ∑ j ∈ range n, absRow (N j) (d j) a + ∑ k ∈ range i, absRow (l k) (bexcess n Z d k) a ≤
        rho * (d i a - absRow (1 - r i) (d i) a - ∑ j ∈ Ico (i + 1) n, absRow (r j) (d j) a) := by
      rw [mul_sub, mul_sub]
      rw [mul_add] at h3
      linarith
    have h8 := mul_le_mul_of_nonneg_left h7 hc
    rw [e1]
    refine (abs_add_le _ _).trans (add_le_add (h2.trans ?_) (abs_mulVec_le _ _ a))
    linarith
  have := absRow_max (T := 1 - r i) (d := d i) (w := fun a => |v i a| - c * rho * bexcess n Z d i a) (hd i hi) hT (fun a => by
    rw [absRow_sub (1 - r i) (fun c => |v i c|), absRow_smul]
    have h2 := hvi a
    have h3 := mul_le_mul_of_nonneg_left (hE a) (mul_nonneg hc h0)
    linarith) a
  linarith

end row

/-! ### Exact factors -/

section exact

variable {V R : Type} [Ring R] {A : SR V} {u : List R}

theorem luProd_low {i j : Nat} (hi : i < A.nbrows) (hj : j < i) :
    luProd A u i j = lowerFactor A u i j * upperFactor A u j j + ∑ k ∈ range j, lowerFactor A u i k * upperFactor A u k j := by
  unfold luProd
  rw [← sum_range_add_sum_Ico _ (show j + 1 ≤ A.nbrows by omega), sum_range_succ,
    sum_eq_zero (s := Ico (j + 1) A.nbrows) fun k hk => by
      rw [show upperFactor A u k j = 0 by unfold upperFactor; rw [if_neg (by rw [mem_Ico] at hk; omega)], mul_zero], add_zero, add_comm]

theorem luProd_up {i j : Nat} (hi : i < A.nbrows) :
    luProd A u i j = upperFactor A u i j + ∑ k ∈ range i, lowerFactor A u i k * upperFactor A u k j := by
  unfold luProd
  rw [← sum_range_add_sum_Ico _ (show i + 1 ≤ A.nbrows by omega), sum_range_succ,
    sum_eq_zero (s := Ico (i + 1) A.nbrows) fun k hk => by
      rw [mem_Ico] at hk
      rw [show lowerFactor A u i k = 0 by unfold lowerFactor; rw [if_neg (by omega), if_neg (by omega)], zero_mul], add_zero, add_comm,
    show lowerFactor A u i i = 1 by unfold lowerFactor; rw [if_neg (by omega), if_pos rfl], one_mul]

end exact

/-- Diagonal dominance for matrices of blocks, with positive weights `d` for the scalar unknowns and ratio `rho`: the diagonal blocks are invertible, and in
every scalar row of the matrix multiplied with the inverse diagonal blocks the absolute values outside the diagonal block add up to at most `rho`, with weights. -/
structure WBlockDominant (n : Nat) (S : Nat → Nat → Matrix (Fin bs) (Fin bs) K) (d : Nat → Fin bs → K) (rho : K) : Prop where
  pos : ∀ i < n, ∀ a, 0 < d i a
  diag : ∀ i < n, IsUnit (S i i)
  dom : ∀ i < n, ∀ G, G * S i i = 1 → ∀ a, ∑ j ∈ (range n).erase i, ∑ c, |(G * S i j) a c| * d j c ≤ rho * d i a

/-- A matrix that is dominant by scalar rows is dominant by blocks, with the same ratio. -/
theorem WBlockDominant.of_scalar {n : Nat} {S : Nat → Nat → Matrix (Fin bs) (Fin bs) K} {d : Nat → Fin bs → K} {rho : K} (h1 : rho < 1)
    (hd : ∀ i < n, ∀ a, 0 < d i a) (h0 : ∀ i < n, ∀ a, S i i a a ≠ 0)
    (hdom : ∀ i < n, ∀ a, ∑ j ∈ (range n).erase i, ∑ c, |S i j a c| * d j c + ∑ c ∈ univ.erase a, |S i i a c| * d i c ≤ rho * (|S i i a a| * d i a)) :
    WBlockDominant n S d rho := by
  have near : ∀ i < n, ∀ a, absRow (1 - Matrix.diagonal (fun a => (S i i a a)⁻¹) * S i i) (d i) a +
      ∑ j ∈ (range n).erase i, absRow (Matrix.diagonal (fun a => (S i i a a)⁻¹) * S i j) (d j) a ≤ rho * d i a := by
    intro i hi a
    have hp := abs_pos.mpr (h0 i hi a)
    have e1 : absRow (1 - Matrix.diagonal (fun a => (S i i a a)⁻¹) * S i i) (d i) a = |S i i a a|⁻¹ * ∑ c ∈ univ.erase a, |S i i a c| * d i c := by
      unfold absRow
      rw [← sum_erase_add _ _ (mem_univ a), mul_sum, Matrix.sub_apply, Matrix.diagonal_mul, Matrix.one_apply_eq, inv_mul_cancel₀ (h0 i hi a), sub_self,
        abs_zero, zero_mul, add_zero]
      refine sum_congr rfl fun c hc => ?_
      rw [Matrix.sub_apply, Matrix.diagonal_mul, Matrix.one_apply_ne (Ne.symm (ne_of_mem_erase hc)), zero_sub, abs_neg, abs_mul, abs_inv, mul_assoc]
    have e2 : ∀ j, absRow (Matrix.diagonal (fun a => (S i i a a)⁻¹) * S i j) (d j) a = |S i i a a|⁻¹ * ∑ c, |S i j a c| * d j c := by
      intro j
      unfold absRow
      rw [mul_sum]
      refine sum_congr rfl fun c _ => ?_
      rw [Matrix.diagonal_mul, abs_mul, abs_inv, mul_assoc]
    rw [e1, sum_congr rfl fun j _ => e2 j, ← mul_sum, ← mul_add]
    have h2 := mul_le_mul_of_nonneg_left (hdom i hi a) (inv_nonneg.mpr hp.le)
    rw [add_comm]
    refine h2.trans_eq ?_
    field_simp
  have hu : ∀ i < n, IsUnit (Matrix.diagonal (fun a => (S i i a a)⁻¹) * S i i) := fun i hi => isUnit_of_near (hd i hi) fun a => by
    have h2 : 0 ≤ ∑ j ∈ (range n).erase i, absRow (Matrix.diagonal (fun a => (S i i a a)⁻¹) * S i j) (d j) a :=
      sum_nonneg fun j hj => absRow_nonneg (fun c => (hd j (mem_range.mp (mem_of_mem_erase hj)) c).le) a
    have h3 := near i hi a
    have h4 := mul_lt_mul_of_pos_right h1 (hd i hi a)
    linarith
  have hS : ∀ i < n, IsUnit (S i i) := fun i hi => by
    have e : S i i = Matrix.diagonal (fun a => S i i a a) * (Matrix.diagonal (fun a => (S i i a a)⁻¹) * S i i) := by
      rw [← mul_assoc, Matrix.diagonal_mul_diagonal, show (fun a => S i i a a * (S i i a a)⁻¹) = fun _ => 1 from funext fun a => mul_inv_cancel₀ (h0 i hi a),
        Matrix.diagonal_one, one_mul]
    rw [e]
    refine IsUnit.mul ⟨⟨Matrix.diagonal fun a => S i i a a, Matrix.diagonal fun a => (S i i a a)⁻¹, ?_, ?_⟩, rfl⟩ (hu i hi)
    · rw [Matrix.diagonal_mul_diagonal, ← Matrix.diagonal_one]
      exact congrArg Matrix.diagonal (funext fun a => mul_inv_cancel₀ (h0 i hi a))
    · rw [Matrix.diagonal_mul_diagonal, ← Matrix.diagonal_one]
      exact congrArg Matrix.diagonal (funext fun a => inv_mul_cancel₀ (h0 i hi a))
  refine ⟨hd, hS, fun i hi G hG a => ?_⟩
  refine near_row (s := (range n).erase i) (hd i hi) h1 (fun j hj c => (hd j (mem_range.mp (mem_of_mem_erase hj)) c).le) (near i hi) (fun j _ => ?_) a
  rw [← mul_assoc, mul_assoc (Matrix.diagonal _), mul_eq_one_comm.mp hG, mul_one]

section exact

variable {V : Type} {A : SR V} {m : Nat} {u : List (Matrix (Fin bs) (Fin bs) K)} {S : Nat → Nat → Matrix (Fin bs) (Fin bs) K}
  {d : Nat → Fin bs → K} {rho : K}

/-- A row of `U` multiplied with the inverse pivot. -/
noncomputable def upScaled (A : SR V) (u : List (Matrix (Fin bs) (Fin bs) K)) (k j : Nat) : Matrix (Fin bs) (Fin bs) K :=
  Ring.inverse (upperFactor A u k k) * upperFactor A u k j

open Classical in
/-- The discarded fill, multiplied with the inverse diagonal block. -/
noncomputable def fillScaled (A : SR V) (u : List (Matrix (Fin bs) (Fin bs) K)) (G : Matrix (Fin bs) (Fin bs) K) (i j : Nat) :
    Matrix (Fin bs) (Fin bs) K :=
  if ∃ p, A.InRow i p ∧ A.bcolind⟦p⟧ = j then 0 else G * luProd A u i j

omit [LinearOrder K] [IsStrictOrderedRing K] in
theorem belim_of_exact (hA : A.Full m) (hD : A.HasDiag) (hl : u.length = A.browptr⟦A.nbrows⟧) {i : Nat} (hi : i < A.nbrows)
    {G : Blk} (hG : G * S i i = 1) (he : ∀ p, A.InRow i p → luProd A u i A.bcolind⟦p⟧ = S i A.bcolind⟦p⟧)
    (hp : ∀ k < i, IsUnit (upperFactor A u k k)) :
    BElim A.nbrows i (fun j => ∃ p, A.InRow i p ∧ A.bcolind⟦p⟧ = j) (fun j => G * S i j)
      (fun j => G * (lowerFactor A u i j * upperFactor A u j j)) (fun j => G * upperFactor A u i j) (upScaled A u) (fillScaled A u G i) := by
  have hprod : ∀ m ≤ i, ∀ j, ∑ k ∈ range m, G * (lowerFactor A u i k * upperFactor A u k k) * upScaled A u k j =
      G * ∑ k ∈ range m, lowerFactor A u i k * upperFactor A u k j := by
    intro m hm j
    rw [mul_sum]
    refine sum_congr rfl fun k hk => ?_
    rw [mem_range] at hk
    unfold upScaled
    rw [mul_assoc, mul_assoc, ← mul_assoc (upperFactor A u k k), Ring.mul_inverse_cancel _ (hp k (by omega)), one_mul]
  have hst : ∀ j, (∃ p, A.InRow i p ∧ A.bcolind⟦p⟧ = j) → luProd A u i j = S i j := by
    rintro j ⟨p, hq, rfl⟩
    exact he p hq
  have hun : ∀ j, (¬ ∃ p, A.InRow i p ∧ A.bcolind⟦p⟧ = j) → facEntry A u i j = 0 := fun j h =>
    facEntry_unstored hA hl hi fun p hq hc => h ⟨p, hq, hc⟩
  have hdiag : ∃ p, A.InRow i p ∧ A.bcolind⟦p⟧ = i := ⟨_, hD.inRow hi, hD.diag_col i hi⟩
  refine ⟨hdiag, fun j hj h => ?_, fun j hj h => ?_, ?_, fun j _ hj h => ?_, fun j _ hj h => ?_, fun j _ h => ?_⟩
  · rw [hprod j hj.le, ← mul_add, ← luProd_low hi hj, hst j h]
  · have h0 : lowerFactor A u i j = 0 := by unfold lowerFactor; rw [if_pos hj]; exact hun j h
    refine ⟨by rw [h0, zero_mul, mul_zero], ?_⟩
    unfold fillScaled
    rw [if_neg h, hprod j hj.le, luProd_low hi hj, h0, zero_mul, zero_add]
  · rw [hprod i le_rfl, ← mul_add, ← luProd_up hi, hst i hdiag, hG]
  · rw [hprod i le_rfl, ← mul_add, ← luProd_up hi, hst j h]
  · have h0 : upperFactor A u i j = 0 := by unfold upperFactor; rw [if_pos hj.le]; exact hun j h
    refine ⟨by rw [h0, mul_zero], ?_⟩
    unfold fillScaled
    rw [if_neg h, hprod i le_rfl, luProd_up hi, h0, zero_add]
  · unfold fillScaled
    rw [if_pos h]

/-- Exact factors of a dominant matrix: the pivots are invertible and the rows of `U` are dominant. -/
theorem block_exact_row (hA : A.Full m) (hD : A.HasDiag) (hl : u.length = A.browptr⟦A.nbrows⟧) (hS : WBlockDominant A.nbrows S d rho)
    (h1 : rho < 1) {i : Nat} (hi : i < A.nbrows)
    (he : ∀ k ≤ i, ∀ p, A.InRow k p → luProd A u k A.bcolind⟦p⟧ = S k A.bcolind⟦p⟧) :
    IsUnit (upperFactor A u i i) ∧ ∀ a, ∑ j ∈ Ico (i + 1) A.nbrows, absRow (upScaled A u i j) (d j) a ≤ rho * d i a := by
  induction i using Nat.strong_induction_on with
  | _ i ih =>
    have ih' := fun k hk => ih k hk (by omega) fun k' hk' => he k' (by omega)
    have hv : ∀ k < i, ∀ c, 0 ≤ bexcess A.nbrows (upScaled A u) d k c := fun k hk c => by
      have h2 := (ih' k hk).2 c
      have h3 := hS.pos k (by omega) c
      have h4 := mul_lt_mul_of_pos_right h1 h3
      unfold bexcess
      linarith
    have hG : Ring.inverse (S i i) * S i i = 1 := Ring.inverse_mul_cancel _ (hS.diag i hi)
    have hE := belim_of_exact hA hD hl hi hG (he i le_rfl) fun k hk => (ih' k hk).1
    have hd0 : ∀ j < A.nbrows, ∀ c, 0 ≤ d j c := fun j hj c => (hS.pos j hj c).le
    have hg := hS.dom i hi _ hG
    have hnear := hE.near hi hd0 hg hv
    have hr : IsUnit (Ring.inverse (S i i) * upperFactor A u i i) := isUnit_of_near (hS.pos i hi) fun a => by
      have h2 : 0 ≤ ∑ j ∈ Ico (i + 1) A.nbrows, absRow (Ring.inverse (S i i) * upperFactor A u i j) (d j) a :=
        sum_nonneg fun j hj => absRow_nonneg (hd0 j (mem_Ico.mp hj).2) a
      have h3 := hnear a
      have h4 := mul_lt_mul_of_pos_right h1 (hS.pos i hi a)
      linarith
    have hU : IsUnit (upperFactor A u i i) := by
      have h2 : upperFactor A u i i = S i i * (Ring.inverse (S i i) * upperFactor A u i i) := by
        rw [← mul_assoc, Ring.mul_inverse_cancel _ (hS.diag i hi), one_mul]
      rw [h2]
      exact (hS.diag i hi).mul hr
    refine ⟨hU, hE.row hi hS.pos h1 hg hv fun j _ _ => ?_⟩
    unfold upScaled
    rw [mul_assoc, ← mul_assoc (upperFactor A u i i), Ring.mul_inverse_cancel _ hU, one_mul]

/-- A dominant matrix has exact incomplete factors on every pattern with a full diagonal. -/
theorem exists_exact_block_ilu (hA : A.Full m) (hSo : A.Sorted) (hD : A.HasDiag) {pos : ILUPos}
    (hpos : ILUPosOk A pos) (hS : WBlockDominant A.nbrows S d rho) (h1 : rho < 1) :
    ∃ u : List Blk, u.length = A.browptr⟦A.nbrows⟧ ∧ ExactILU A S u ∧ PivotsOk A u := by
  obtain ⟨u, hl, hu⟩ := exists_rec (R := Blk) (fun p g => if A.bcolind⟦p⟧ < A.rowOf p then
      (S (A.rowOf p) A.bcolind⟦p⟧ - posSum pos g p) * Ring.inverse (g A.diagind⟦A.bcolind⟦p⟧⟧)
    else S (A.rowOf p) A.bcolind⟦p⟧ - posSum pos g p) A.browptr⟦A.nbrows⟧ (by
      intro p hp g g' hg
      obtain ⟨hi, hrow⟩ := hA.rowOf_spec hp
      have hs : posSum pos g p = posSum pos g' p := by
        unfold posSum
        refine sum_congr rfl fun t ht => ?_
        rw [mem_Ico] at ht
        obtain ⟨h2, h3, _⟩ := hpos.before hA hSo hi hrow ht.1 ht.2
        rw [hg _ h2, hg _ h3]
      rw [hs]
      split
      · rename_i hlow
        rw [hg _ (diag_before hA hD hi hrow hlow)]
      · rfl)
  -- a row is exact if the pivots before it are invertible
  have row : ∀ i < A.nbrows, (∀ k < i, IsUnit (upperFactor A u k k)) →
      ∀ p, A.InRow i p → luProd A u i A.bcolind⟦p⟧ = S i A.bcolind⟦p⟧ := by
    intro i hi hne p hp
    have hpn := hA.lt_nnz hi hp.2
    rw [luProd_eq hA hSo hD hpos hl hi hp]
    have := hu p hpn
    rw [hA.rowOf_eq hi hp] at this
    by_cases hlow : A.bcolind⟦p⟧ < i
    · rw [if_pos hlow] at this ⊢
      have h2 := hne _ hlow
      rw [upperFactor_diag hA hSo hD hl (by omega)] at h2
      rw [this, mul_assoc, Ring.inverse_mul_cancel _ h2, mul_one, add_sub_cancel]
    · rw [if_neg hlow] at this ⊢
      rw [this, add_sub_cancel]
  have all : ∀ i < A.nbrows, (∀ p, A.InRow i p → luProd A u i A.bcolind⟦p⟧ = S i A.bcolind⟦p⟧) ∧ IsUnit (upperFactor A u i i) := by
    intro i
    induction i using Nat.strong_induction_on with
    | _ i ih =>
      intro hi
      have hr := row i hi fun k hk => (ih k hk (by omega)).2
      refine ⟨hr, (block_exact_row hA hD hl hS h1 hi fun k hk => ?_).1⟩
      rcases Nat.lt_or_eq_of_le hk with h | rfl
      · exact (ih k h (by omega)).1
      · exact hr
  exact ⟨u, hl, fun i hi => (all i hi).1, fun i hi => (all i hi).2⟩

/-- If `L U e' = (L U - S) e` then every bound on `e` in the weighted maximum norm shrinks by `rho`. -/
theorem block_exact_contract (hA : A.Full m) (hD : A.HasDiag) (hl : u.length = A.browptr⟦A.nbrows⟧) (hS : WBlockDominant A.nbrows S d rho)
    (h0 : 0 ≤ rho) (h1 : rho < 1) (he : ExactILU A S u)
    (hoff : ∀ i < A.nbrows, ∀ j < A.nbrows, (∀ p, A.InRow i p → A.bcolind⟦p⟧ ≠ j) → S i j = 0)
    {e e' : Nat → Fin bs → K} {c : K} (hc : 0 ≤ c) (hb : ∀ j < A.nbrows, ∀ a, |e j a| ≤ c * d j a)
    (heq : ∀ i < A.nbrows, ∑ j ∈ range A.nbrows, (luProd A u i j).mulVec (e' j) =
      ∑ j ∈ range A.nbrows, (luProd A u i j - S i j).mulVec (e j)) :
    ∀ i < A.nbrows, ∀ a, |e' i a| ≤ c * (rho * d i a) := by
  have hd0 : ∀ j < A.nbrows, ∀ c, 0 ≤ d j c := fun j hj c => (hS.pos j hj c).le
  have hex := fun i hi => block_exact_row hA hD hl hS h1 (i := i) hi fun k hk => he k (by omega)
  have hv : ∀ k < A.nbrows, ∀ c, 0 ≤ bexcess A.nbrows (upScaled A u) d k c := fun k hk c => by
    have h2 := (hex k hk).2 c
    have h4 := mul_lt_mul_of_pos_right h1 (hS.pos k hk c)
    unfold bexcess
    linarith
  -- the intermediate vector
  set y : Nat → Fin bs → K := fun i => ∑ j ∈ range A.nbrows, (upperFactor A u i j).mulVec (e' j) with hy
  set v : Nat → Fin bs → K := fun i => (Ring.inverse (upperFactor A u i i)).mulVec (y i) with hvdef
  have hUv : ∀ i < A.nbrows, (upperFactor A u i i).mulVec (v i) = y i := fun i hi => by
    rw [hvdef]
    dsimp only
    rw [Matrix.mulVec_mulVec, Ring.mul_inverse_cancel _ (hex i hi).1, Matrix.one_mulVec]
  have hLy : ∀ i < A.nbrows, y i + ∑ k ∈ range i, (lowerFactor A u i k).mulVec (y k) =
      ∑ j ∈ range A.nbrows, (luProd A u i j).mulVec (e' j) := by
    intro i hi
    have h2 : ∀ k, (lowerFactor A u i k).mulVec (y k) = ∑ j ∈ range A.nbrows, (lowerFactor A u i k * upperFactor A u k j).mulVec (e' j) := by
      intro k
      simp only [hy]
      rw [Matrix.mulVec_sum]
      exact sum_congr rfl fun j _ => by rw [Matrix.mulVec_mulVec]
    rw [sum_congr rfl fun k _ => h2 k, sum_comm]
    simp only [hy]
    rw [← sum_add_distrib]
    refine sum_congr rfl fun j _ => ?_
    rw [luProd_up hi, Matrix.add_mulVec, Matrix.sum_mulVec]
  have hvb : ∀ i < A.nbrows, ∀ a, |v i a| ≤ c * (rho * bexcess A.nbrows (upScaled A u) d i a) := by
    intro i
    induction i using Nat.strong_induction_on with
    | _ i ih =>
      intro hi
      have hG : Ring.inverse (S i i) * S i i = 1 := Ring.inverse_mul_cancel _ (hS.diag i hi)
      have hE := belim_of_exact hA hD hl hi hG (he i hi) fun k hk => (hex k (by omega)).1
      refine hE.forward hi hS.pos h0 h1 (hS.dom i hi _ hG) (fun k hk => hv k (by omega)) (fun j _ _ => ?_) hc hb (fun k hk => ih k hk (by omega)) ?_
      · unfold upScaled
        rw [mul_assoc, ← mul_assoc (upperFactor A u i i), Ring.mul_inverse_cancel _ (hex i hi).1, one_mul]
      · rw [← Matrix.mulVec_mulVec, hUv i hi]
        have h2 : y i = ∑ j ∈ range A.nbrows, (luProd A u i j - S i j).mulVec (e j) - ∑ k ∈ range i, (lowerFactor A u i k).mulVec (y k) := by
          rw [← heq i hi, ← hLy i hi, add_sub_cancel_right]
        rw [h2, Matrix.mulVec_sub, Matrix.mulVec_sum, Matrix.mulVec_sum]
        congr 1
        · refine sum_congr rfl fun j hj => ?_
          rw [Matrix.mulVec_mulVec]
          congr 1
          unfold fillScaled
          split
          · rename_i hst
            obtain ⟨p, hq, rfl⟩ := hst
            rw [he i hi p hq, sub_self, mul_zero]
          · rename_i hst
            rw [hoff i hi j (mem_range.mp hj) fun p hq hc => hst ⟨p, hq, hc⟩, sub_zero]
        · refine sum_congr rfl fun k hk => ?_
          rw [mem_range] at hk
          rw [← Matrix.mulVec_mulVec, ← Matrix.mulVec_mulVec, hUv k (by omega)]
  -- backward
  have key : ∀ t i, i < A.nbrows → A.nbrows - i = t → ∀ a, |e' i a| ≤ c * (rho * d i a) := by
    intro t
    induction t using Nat.strong_induction_on with
    | _ t ih =>
      intro i hi ht a
      have h2 : e' i = v i - ∑ j ∈ Ico (i + 1) A.nbrows, (upScaled A u i j).mulVec (e' j) := by
        have h3 : y i = (upperFactor A u i i).mulVec (e' i) + ∑ j ∈ Ico (i + 1) A.nbrows, (upperFactor A u i j).mulVec (e' j) := by
          simp only [hy]
          rw [← sum_range_add_sum_Ico _ (show i + 1 ≤ A.nbrows from hi), sum_range_succ,
            sum_eq_zero (s := range i) fun j hj => by
              rw [mem_range] at hj
              rw [show upperFactor A u i j = 0 by unfold upperFactor; rw [if_neg (by omega)], Matrix.zero_mulVec], zero_add]
        simp only [hvdef]
        rw [h3, Matrix.mulVec_add, Matrix.mulVec_mulVec, Ring.inverse_mul_cancel _ (hex i hi).1, Matrix.one_mulVec, Matrix.mulVec_sum,
          sum_congr rfl fun j _ => Matrix.mulVec_mulVec (e' j) (Ring.inverse (upperFactor A u i i)) (upperFactor A u i j)]
        unfold upScaled
        rw [add_sub_cancel_right]
      have h4 : |∑ j ∈ Ico (i + 1) A.nbrows, (upScaled A u i j).mulVec (e' j) a| ≤ ∑ j ∈ Ico (i + 1) A.nbrows, c * rho * absRow (upScaled A u i j) (d j) a := by
        refine (abs_sum_le_sum_abs _ _).trans (sum_le_sum fun j hj => ?_)
        rw [mem_Ico] at hj
        rw [← absRow_smul]
        exact (abs_mulVec_le _ _ a).trans (absRow_mono (fun b => by rw [mul_assoc]; exact ih _ (by omega) j hj.2 rfl b) a)
      rw [← mul_sum] at h4
      have h5 := hvb i hi a
      unfold bexcess at h5
      rw [h2, Pi.sub_apply, Finset.sum_apply]
      refine (abs_sub _ _).trans ?_
      linarith
  exact fun i hi => key _ i hi rfl

end exact

end Blasted
