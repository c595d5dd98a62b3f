import Verif.ILU.ScalarProps
import Mathlib.Algebra.Order.BigOperators.Group.Finset
import Mathlib.Algebra.Order.BigOperators.Ring.Finset
import Mathlib.Tactic.Linarith
import Mathlib.Tactic.Ring

/-!
# Incomplete factors of diagonally dominant matrices
-/

namespace Blasted

open Finset

variable {K : Type} [Field K] [LinearOrder K] [IsStrictOrderedRing K]

/-! ### Rows of incomplete factors -/

/-- Row `i` of the factors `L` (unit lower triangular) and `U` (upper triangular) has entries at the positions `St` only, and the product is `S` there. -/
structure RowFac (n : Nat) (St : Nat → Nat → Prop) (S L U : Nat → Nat → K) (i : Nat) : Prop where
  diag : St i i
  one : L i i = 1
  above : ∀ k, i < k → L i k = 0
  low : ∀ k, k < i → ¬ St i k → L i k = 0
  up : ∀ j, i < j → ¬ St i j → U i j = 0
  prod : ∀ j < n, St i j → ∑ k ∈ range n, L i k * U k j = S i j

/-- By how much the diagonal entry of row `k` of `U` exceeds the others, with weights `d`. -/
def excess (n : Nat) (U : Nat → Nat → K) (d : Nat → K) (k : Nat) : K :=
  |U k k| * d k - ∑ j ∈ Ico (k + 1) n, |U k j| * d j

/-- The sum of the products that are subtracted from entry `(i,j)`. -/
def subSum (L U : Nat → Nat → K) (i j : Nat) : K := ∑ k ∈ range i, if k < j then |L i k| * |U k j| else 0

theorem subSum_nonneg (L U : Nat → Nat → K) (i j : Nat) : 0 ≤ subSum L U i j :=
  sum_nonneg fun k _ => by split <;> positivity

/-- The product without its last term, for the entries above and below the diagonal. -/
theorem RowFac.split_up {n : Nat} {St : Nat → Nat → Prop} {S L U : Nat → Nat → K} {i : Nat} (h : RowFac n St S L U i) (hi : i < n)
    {j : Nat} (hj : i ≤ j) :
    ∑ k ∈ range n, L i k * U k j = U i j + ∑ k ∈ range i, L i k * U k j ∧ |∑ k ∈ range i, L i k * U k j| ≤ subSum L U i j := by
  constructor
  · rw [← sum_range_add_sum_Ico _ hi, sum_range_succ, h.one, one_mul,
      sum_eq_zero (s := Ico (i + 1) n) fun k hk => by rw [h.above k (by rw [mem_Ico] at hk; omega), zero_mul]]
    ring
  · refine (abs_sum_le_sum_abs _ _).trans (sum_le_sum fun k hk => ?_)
    rw [mem_range] at hk
    rw [if_pos (by omega), abs_mul]

theorem RowFac.split_low {n : Nat} {St : Nat → Nat → Prop} {S L U : Nat → Nat → K} {i : Nat} (_h : RowFac n St S L U i) (hi : i < n)
    (hU : ∀ k j, j < k → U k j = 0) {j : Nat} (hj : j < i) :
    ∑ k ∈ range n, L i k * U k j = L i j * U j j + ∑ k ∈ range j, L i k * U k j ∧ |∑ k ∈ range j, L i k * U k j| ≤ subSum L U i j := by
  have hjn : j < n := by omega
  constructor
  · rw [← sum_range_add_sum_Ico _ hjn, sum_range_succ,
      sum_eq_zero (s := Ico (j + 1) n) fun k hk => by rw [hU k j (by rw [mem_Ico] at hk; omega), mul_zero]]
    ring
  · unfold subSum
    rw [← sum_range_add_sum_Ico _ hj.le]
    refine (abs_sum_le_sum_abs _ _).trans ?_
    refine le_trans (sum_le_sum fun k hk => ?_) (le_add_of_nonneg_right (sum_nonneg fun k _ => by split <;> positivity))
    rw [mem_range] at hk
    rw [if_pos hk, abs_mul]

/-- The fundamental estimate for a row: for `0 ≤ t ≤ 1`, the discarded fill and the excess of the earlier rows weighted with the row of `L`, plus the
dominance of the row of `S` with its diagonal and upper entries weighted by `t`, are at most `t` times the excess of the row of `U`. -/
theorem RowFac.estimate {n : Nat} {St : Nat → Nat → Prop} {S L U : Nat → Nat → K} {i : Nat} (h : RowFac n St S L U i) (hi : i < n)
    (hU : ∀ k j, j < k → U k j = 0) {d : Nat → K} (hd : ∀ j < n, 0 ≤ d j) {t : K} (t0 : 0 ≤ t) (t1 : t ≤ 1)
    {N : Nat → K} (hN0 : ∀ j < n, St i j → N j = 0) (hN1 : ∀ j < n, ¬ St i j → N j = ∑ k ∈ range n, L i k * U k j) :
    ∑ j ∈ range n, |N j| * d j + ∑ k ∈ range i, |L i k| * excess n U d k +
      (t * (|S i i| * d i) - ∑ j ∈ range i, |S i j| * d j - t * ∑ j ∈ Ico (i + 1) n, |S i j| * d j) ≤
      t * excess n U d i := by
  classical
  -- the estimate of one entry
  have entry : ∀ j < n,
      (if j < i then |L i j| * |U j j| else if j = i then -(t * |U i i|) else t * |U i j|) + |N j| ≤
        (if j < i then |S i j| else if j = i then -(t * |S i i|) else t * |S i j|) + subSum L U i j := by
    intro j hj
    have hB := subSum_nonneg L U i j
    by_cases hst : St i j
    · rw [hN0 j hj hst, abs_zero, add_zero]
      have hp := h.prod j hj hst
      rcases lt_trichotomy j i with hji | rfl | hji
      · rw [if_pos hji, if_pos hji]
        obtain ⟨e, hb⟩ := h.split_low hi hU hji
        rw [e] at hp
        rw [← abs_mul, show L i j * U j j = S i j - ∑ k ∈ range j, L i k * U k j by linear_combination hp]
        exact (abs_sub _ _).trans (by linarith)
      · rw [if_neg (lt_irrefl _), if_neg (lt_irrefl _), if_pos rfl, if_pos rfl]
        obtain ⟨e, hb⟩ := h.split_up hi le_rfl
        rw [e] at hp
        have : |S j j| ≤ |U j j| + subSum L U j j := by
          rw [← hp]; exact (abs_add_le _ _).trans (by linarith)
        have h2 := mul_le_mul_of_nonneg_left this t0
        have h3 := mul_le_mul_of_nonneg_right t1 hB
        linarith
      · rw [if_neg (by omega), if_neg (by omega), if_neg (by omega), if_neg (by omega)]
        obtain ⟨e, hb⟩ := h.split_up hi hji.le
        rw [e] at hp
        have : |U i j| ≤ |S i j| + subSum L U i j := by
          rw [show U i j = S i j - ∑ k ∈ range i, L i k * U k j by linear_combination hp]
          exact (abs_sub _ _).trans (by linarith)
        have h2 := mul_le_mul_of_nonneg_left this t0
        have h3 := mul_le_mul_of_nonneg_right t1 hB
        linarith
    · rw [hN1 j hj hst]
      rcases lt_trichotomy j i with hji | rfl | hji
      · rw [if_pos hji, if_pos hji]
        obtain ⟨e, hb⟩ := h.split_low hi hU hji
        rw [e, h.low j hji hst, abs_zero, zero_mul, zero_mul, zero_add, zero_add]
        linarith [abs_nonneg (S i j)]
      · exact absurd h.diag hst
      · rw [if_neg (by omega), if_neg (by omega), if_neg (by omega), if_neg (by omega)]
        obtain ⟨e, hb⟩ := h.split_up hi hji.le
        rw [e, h.up j hji hst, abs_zero, mul_zero, zero_add, zero_add]
        have := mul_nonneg t0 (abs_nonneg (S i j))
        linarith
  -- sum over the row
  have hsum : ∑ j ∈ range n, ((if j < i then |L i j| * |U j j| else if j = i then -(t * |U i i|) else t * |U i j|) + |N j|) * d j ≤
      ∑ j ∈ range n, ((if j < i then |S i j| else if j = i then -(t * |S i i|) else t * |S i j|) + subSum L U i j) * d j :=
    sum_le_sum fun j hj => mul_le_mul_of_nonneg_right (entry j (mem_range.mp hj)) (hd j (mem_range.mp hj))
  have split : ∀ (a : Nat → K) (b : K) (c : Nat → K),
      ∑ j ∈ range n, (if j < i then a j else if j = i then b else c j) * d j =
        ∑ j ∈ range i, a j * d j + b * d i + ∑ j ∈ Ico (i + 1) n, c j * d j := by
    intro a b c
    rw [← sum_range_add_sum_Ico _ (show i + 1 ≤ n from hi), sum_range_succ]
    congr 1
    · congr 1
      · exact sum_congr rfl fun j hj => by rw [if_pos (mem_range.mp hj)]
      · rw [if_neg (lt_irrefl _), if_pos rfl]
    · refine sum_congr rfl fun j hj => ?_
      rw [mem_Ico] at hj
      rw [if_neg (by omega), if_neg (by omega)]
  have hB : ∑ j ∈ range n, subSum L U i j * d j = ∑ k ∈ range i, |L i k| * ∑ j ∈ Ico (k + 1) n, |U k j| * d j := by
    unfold subSum
    simp only [sum_mul]
    rw [sum_comm]
    refine sum_congr rfl fun k hk => ?_
    rw [mem_range] at hk
    rw [mul_sum, ← sum_range_add_sum_Ico _ (show k + 1 ≤ n by omega),
      sum_eq_zero (s := range (k + 1)) fun j hj => by rw [if_neg (by rw [mem_range] at hj; omega), zero_mul], zero_add]
    refine sum_congr rfl fun j hj => ?_
    rw [mem_Ico] at hj
    rw [if_pos (by omega), mul_assoc]
  simp only [add_mul, sum_add_distrib] at hsum
  rw [split, split, hB] at hsum
  have hex : ∑ k ∈ range i, |L i k| * excess n U d k =
      ∑ k ∈ range i, |L i k| * |U k k| * d k - ∑ k ∈ range i, |L i k| * ∑ j ∈ Ico (k + 1) n, |U k j| * d j := by
    rw [← sum_sub_distrib]
    exact sum_congr rfl fun k _ => by unfold excess; ring
  rw [hex]
  unfold excess
  simp only [mul_assoc, ← mul_sum] at hsum ⊢
  rw [neg_mul, neg_mul] at hsum
  rw [mul_sub]
  linarith

/-! ### Dominance -/

/-- Strict diagonal dominance by rows with positive weights `d` and ratio `rho`. For `d = 1` this is ordinary dominance; the matrices that are dominant for some
weights are the nonsingular H-matrices, among them the nonsingular M-matrices. -/
structure WDominant (n : Nat) (S : Nat → Nat → K) (d : Nat → K) (rho : K) : Prop where
  pos : ∀ i < n, 0 < d i
  diag : ∀ i < n, S i i ≠ 0
  dom : ∀ i < n, ∑ j ∈ (range n).erase i, |S i j| * d j ≤ rho * (|S i i| * d i)

theorem sum_erase_split {n i : Nat} (hi : i < n) (f : Nat → K) :
    ∑ j ∈ (range n).erase i, f j = ∑ j ∈ range i, f j + ∑ j ∈ Ico (i + 1) n, f j := by
  have h1 := sum_erase_add (range n) f (mem_range.mpr hi)
  have h2 := sum_range_add_sum_Ico f (show i + 1 ≤ n from hi)
  rw [sum_range_succ] at h2
  linear_combination h1 - h2

theorem WDominant.low_nonneg {n : Nat} {S : Nat → Nat → K} {d : Nat → K} {rho : K} (h : WDominant n S d rho) (i : Nat)
    (s : Finset Nat) (hs : s ⊆ range n) : 0 ≤ ∑ j ∈ s, |S i j| * d j :=
  sum_nonneg fun j hj => mul_nonneg (abs_nonneg _) (h.pos j (mem_range.mp (hs hj))).le

/-- The excess of a row of `U` when the earlier rows have none negative. -/
theorem RowFac.excess_ge {n : Nat} {St : Nat → Nat → Prop} {S L U : Nat → Nat → K} {i : Nat} (h : RowFac n St S L U i) (hi : i < n)
    (hU : ∀ k j, j < k → U k j = 0) {d : Nat → K} {rho : K} (hS : WDominant n S d rho)
    (hv : ∀ k < i, 0 ≤ excess n U d k) : (1 - rho) * (|S i i| * d i) ≤ excess n U d i := by
  classical
  have key := h.estimate hi hU (fun j hj => (hS.pos j hj).le) zero_le_one le_rfl
    (N := fun j => if St i j then 0 else ∑ k ∈ range n, L i k * U k j)
    (fun j _ hst => if_pos hst) (fun j _ hst => if_neg hst)
  have h1 : 0 ≤ ∑ j ∈ range n, |if St i j then 0 else ∑ k ∈ range n, L i k * U k j| * d j :=
    sum_nonneg fun j hj => mul_nonneg (abs_nonneg _) (hS.pos j (mem_range.mp hj)).le
  have h2 : 0 ≤ ∑ k ∈ range i, |L i k| * excess n U d k :=
    sum_nonneg fun k hk => mul_nonneg (abs_nonneg _) (hv k (mem_range.mp hk))
  have h3 := hS.dom i hi
  rw [sum_erase_split hi] at h3
  linarith

/-- The discarded fill and the weighted excess of the earlier rows. -/
theorem RowFac.fill_le {n : Nat} {St : Nat → Nat → Prop} {S L U : Nat → Nat → K} {i : Nat} (h : RowFac n St S L U i) (hi : i < n)
    (hU : ∀ k j, j < k → U k j = 0) {d : Nat → K} {rho : K} (hS : WDominant n S d rho) (h0 : 0 ≤ rho) (h1 : rho ≤ 1)
    {N : Nat → K} (hN0 : ∀ j < n, St i j → N j = 0) (hN1 : ∀ j < n, ¬ St i j → N j = ∑ k ∈ range n, L i k * U k j) :
    ∑ j ∈ range n, |N j| * d j + ∑ k ∈ range i, |L i k| * excess n U d k ≤ rho * excess n U d i := by
  have key := h.estimate hi hU (fun j hj => (hS.pos j hj).le) h0 h1 hN0 hN1
  have h3 := hS.dom i hi
  rw [sum_erase_split hi] at h3
  have h4 := hS.low_nonneg i (Ico (i + 1) n) (fun j hj => by rw [mem_Ico] at hj; exact mem_range.mpr hj.2)
  have h5 := mul_le_mul_of_nonneg_right h1 h4
  linarith

/-! ### Existence -/

/-- A recursion on the positions. -/
theorem exists_rec {R : Type} [Zero R] (F : Nat → (Nat → R) → R) (N : Nat) (hF : ∀ p < N, ∀ g g', (∀ q < p, g q = g' q) → F p g = F p g') :
    ∃ x : List R, x.length = N ∧ ∀ p < N, x⟦p⟧ = F p (get0 x) := by
  induction N with
  | zero => exact ⟨[], rfl, fun p hp => absurd hp (by omega)⟩
  | succ N ih =>
    obtain ⟨x, hl, hx⟩ := ih fun p hp => hF p (by omega)
    have hq : ∀ q < N, (x ++ [F N (get0 x)])⟦q⟧ = x⟦q⟧ := fun q hq => get0_append_left (by omega)
    refine ⟨x ++ [F N (get0 x)], by simp [hl], fun p hp => ?_⟩
    rcases Nat.lt_succ_iff_lt_or_eq.mp hp with h | rfl
    · rw [hq p h, hx p h]
      exact hF p (by omega) _ _ fun q hqp => (hq q (by omega)).symm
    · rw [hF p (by omega) (get0 (x ++ [F p (get0 x)])) (get0 x) hq, get0_append_right (by omega)]
      simp [hl, get0]

omit [LinearOrder K] [IsStrictOrderedRing K] in
/-- The factors of a matrix are rows in the sense of `RowFac`, as far as they are exact. -/
theorem rowFac_of_exact {V : Type} {A : SR V} {m : Nat} (hA : A.Full m) (hD : A.HasDiag) {u : List K}
    (hl : u.length = A.browptr⟦A.nbrows⟧) {S : Nat → Nat → K} {i : Nat} (hi : i < A.nbrows)
    (he : ∀ p, A.InRow i p → luProd A u i A.bcolind⟦p⟧ = S i A.bcolind⟦p⟧) :
    RowFac A.nbrows (fun i j => ∃ p, A.InRow i p ∧ A.bcolind⟦p⟧ = j) S (lowerFactor A u) (upperFactor A u) i where
  diag := ⟨_, hD.inRow hi, hD.diag_col i hi⟩
  one := by unfold lowerFactor; rw [if_neg (lt_irrefl _), if_pos rfl]
  above := fun k hk => by unfold lowerFactor; rw [if_neg (by omega), if_neg (by omega)]
  low := fun k hk hst => by
    unfold lowerFactor
    rw [if_pos hk]
    exact facEntry_unstored hA hl hi fun p hp hc => hst ⟨p, hp, hc⟩
  up := fun j hj hst => by
    unfold upperFactor
    rw [if_pos hj.le]
    exact facEntry_unstored hA hl hi fun p hp hc => hst ⟨p, hp, hc⟩
  prod := fun j _ hst => by
    obtain ⟨p, hp, rfl⟩ := hst
    exact he p hp

omit [LinearOrder K] [IsStrictOrderedRing K] in
theorem upperFactor_zero {V : Type} (A : SR V) (u : List K) (k j : Nat) (h : j < k) : upperFactor A u k j = 0 := by
  unfold upperFactor; rw [if_neg (by omega)]

/-- Exact factors of a dominant matrix have a dominant upper factor. -/
theorem exact_excess {V : Type} {A : SR V} {m : Nat} (hA : A.Full m) (hD : A.HasDiag) {u : List K}
    (hl : u.length = A.browptr⟦A.nbrows⟧) {S : Nat → Nat → K} {d : Nat → K} {rho : K} (hS : WDominant A.nbrows S d rho)
    (h1 : rho < 1) {i : Nat} (hi : i < A.nbrows)
    (he : ∀ k ≤ i, ∀ p, A.InRow k p → luProd A u k A.bcolind⟦p⟧ = S k A.bcolind⟦p⟧) :
    (1 - rho) * (|S i i| * d i) ≤ excess A.nbrows (upperFactor A u) d i := by
  induction i using Nat.strong_induction_on with
  | _ i ih =>
    refine (rowFac_of_exact hA hD hl hi (he i le_rfl)).excess_ge hi (upperFactor_zero A u) hS fun k hk => ?_
    refine le_trans ?_ (ih k hk (by omega) fun k' hk' => he k' (by omega))
    exact mul_nonneg (sub_nonneg.mpr h1.le) (mul_nonneg (abs_nonneg _) (hS.pos k (by omega)).le)

/-- The pivots are not zero where there is an excess. -/
theorem pivot_ne_zero {n : Nat} {S U : Nat → Nat → K} {d : Nat → K} {rho : K} (hS : WDominant n S d rho) (h1 : rho < 1) {i : Nat}
    (hi : i < n) (h : (1 - rho) * (|S i i| * d i) ≤ excess n U d i) : U i i ≠ 0 := by
  intro h0
  have h2 : 0 < (1 - rho) * (|S i i| * d i) :=
    mul_pos (sub_pos.mpr h1) (mul_pos (abs_pos.mpr (hS.diag i hi)) (hS.pos i hi))
  have h3 : excess n U d i ≤ 0 := by
    unfold excess
    rw [h0, abs_zero, zero_mul, zero_sub]
    exact neg_nonpos.mpr (sum_nonneg fun j hj => mul_nonneg (abs_nonneg _) (hS.pos j (mem_Ico.mp hj).2).le)
  linarith

/-- A dominant matrix has exact incomplete factors on every pattern with a full diagonal. -/
theorem exists_exact_ilu {V : Type} {A : SR V} {m : Nat} (hA : A.Full m) (hSo : A.Sorted) (hD : A.HasDiag) {pos : ILUPos}
    (hpos : ILUPosOk A pos) {S : Nat → Nat → K} {d : Nat → K} {rho : K} (hS : WDominant A.nbrows S d rho) (h1 : rho < 1) :
    ∃ u : List K, u.length = A.browptr⟦A.nbrows⟧ ∧ ExactILU A S u ∧ PivotsOk A u := by
  obtain ⟨u, hl, hu⟩ := exists_rec (fun p g => if A.bcolind⟦p⟧ < A.rowOf p then
      (S (A.rowOf p) A.bcolind⟦p⟧ - posSum pos g p) / g A.diagind⟦A.bcolind⟦p⟧⟧
    else S (A.rowOf p) A.bcolind⟦p⟧ - posSum pos g p) A.browptr⟦A.nbrows⟧ (by
      intro p hp g g' hg
      obtain ⟨hi, hrow⟩ := hA.rowOf_spec hp
      have hs : posSum pos g p = posSum pos g' p := by
        unfold posSum
        refine sum_congr rfl fun t ht => ?_
        rw [mem_Ico] at ht
        obtain ⟨h2, h3, _⟩ := hpos.before hA hSo hi hrow ht.1 ht.2
        rw [hg _ h2, hg _ h3]
      rw [hs]
      split
      · rename_i hlow
        rw [hg _ (diag_before hA hD hi hrow hlow)]
      · rfl)
  -- a row is exact if the pivots before it do not vanish
  have row : ∀ i < A.nbrows, (∀ k < i, upperFactor A u k k ≠ 0) →
      ∀ p, A.InRow i p → luProd A u i A.bcolind⟦p⟧ = S i A.bcolind⟦p⟧ := by
    intro i hi hne p hp
    have hpn := hA.lt_nnz hi hp.2
    rw [luProd_eq hA hSo hD hpos hl hi hp]
    have := hu p hpn
    rw [hA.rowOf_eq hi hp] at this
    by_cases hlow : A.bcolind⟦p⟧ < i
    · rw [if_pos hlow] at this ⊢
      have h2 := hne _ hlow
      rw [upperFactor_diag hA hSo hD hl (by omega)] at h2
      rw [this, div_mul_cancel₀ _ h2]
      ring
    · rw [if_neg hlow] at this ⊢
      rw [this]
      ring
  have all : ∀ i < A.nbrows, (∀ p, A.InRow i p → luProd A u i A.bcolind⟦p⟧ = S i A.bcolind⟦p⟧) ∧ upperFactor A u i i ≠ 0 := by
    intro i
    induction i using Nat.strong_induction_on with
    | _ i ih =>
      intro hi
      have hr := row i hi fun k hk => (ih k hk (by omega)).2
      refine ⟨hr, pivot_ne_zero hS h1 hi (exact_excess hA hD hl hS h1 hi fun k hk => ?_)⟩
      rcases Nat.lt_or_eq_of_le hk with h | rfl
      · exact (ih k h (by omega)).1
      · exact hr
  exact ⟨u, hl, fun i hi => (all i hi).1, fun i hi => isUnit_iff_ne_zero.mpr (all i hi).2⟩

/-! ### Contraction -/

/-- If `L U e' = (L U - S) e` then every bound on `e` in the weighted maximum norm shrinks by `rho`. -/
theorem exact_contract {V : Type} {A : SR V} {m : Nat} (hA : A.Full m) (hD : A.HasDiag) {u : List K}
    (hl : u.length = A.browptr⟦A.nbrows⟧) {S : Nat → Nat → K} {d : Nat → K} {rho : K} (hS : WDominant A.nbrows S d rho)
    (h0 : 0 ≤ rho) (h1 : rho < 1) (he : ExactILU A S u)
    (hoff : ∀ i < A.nbrows, ∀ j < A.nbrows, (∀ p, A.InRow i p → A.bcolind⟦p⟧ ≠ j) → S i j = 0)
    {e e' : Nat → K} {c : K} (hc : 0 ≤ c) (hb : ∀ j < A.nbrows, |e j| ≤ c * d j)
    (heq : ∀ i < A.nbrows, ∑ j ∈ range A.nbrows, luProd A u i j * e' j = ∑ j ∈ range A.nbrows, (luProd A u i j - S i j) * e j) :
    ∀ i < A.nbrows, |e' i| ≤ c * (rho * d i) := by
  set n := A.nbrows with hn
  set L := lowerFactor A u with hL
  set U := upperFactor A u with hUdef
  have hU : ∀ k j, j < k → U k j = 0 := upperFactor_zero A u
  have hrow : ∀ i < n, RowFac n (fun i j => ∃ p, A.InRow i p ∧ A.bcolind⟦p⟧ = j) S L U i :=
    fun i hi => rowFac_of_exact hA hD hl hi (he i hi)
  have hex : ∀ i < n, 0 ≤ excess n U d i := fun i hi =>
    le_trans (mul_nonneg (sub_nonneg.mpr h1.le) (mul_nonneg (abs_nonneg _) (hS.pos i hi).le))
      (exact_excess hA hD hl hS h1 hi fun k hk => he k (by omega))
  have hpiv : ∀ i < n, U i i ≠ 0 := fun i hi =>
    pivot_ne_zero hS h1 hi (exact_excess hA hD hl hS h1 hi fun k hk => he k (by omega))
  -- the intermediate vector
  set y : Nat → K := fun i => ∑ j ∈ range n, U i j * e' j with hy
  have hLy : ∀ i < n, ∑ k ∈ range n, L i k * y k = ∑ j ∈ range n, luProd A u i j * e' j := by
    intro i _
    simp only [hy, mul_sum, luProd, sum_mul]
    rw [sum_comm]
    exact sum_congr rfl fun j _ => sum_congr rfl fun k _ => by ring
  have hyb : ∀ i < n, |y i| ≤ c * (rho * excess n U d i) := by
    intro i
    induction i using Nat.strong_induction_on with
    | _ i ih =>
      intro hi
      have h2 : y i = ∑ j ∈ range n, (luProd A u i j - S i j) * e j - ∑ k ∈ range i, L i k * y k := by
        rw [← heq i hi, ← hLy i hi, ← sum_range_add_sum_Ico _ hi, sum_range_succ, (hrow i hi).one,
          sum_eq_zero (s := Ico (i + 1) n) fun k hk => by rw [(hrow i hi).above k (by rw [mem_Ico] at hk; omega), zero_mul]]
        ring
      have hfill := (hrow i hi).fill_le hi hU hS h0 h1.le (N := fun j => luProd A u i j - S i j)
        (fun j _ ⟨p, hp, hc⟩ => by rw [← hc]; exact sub_eq_zero.mpr (he i hi p hp))
        (fun j hj hst => by rw [hoff i hi j hj fun p hp hc => hst ⟨p, hp, hc⟩, sub_zero]; rfl)
      rw [h2]
      refine (abs_sub _ _).trans ?_
      refine le_trans (add_le_add ((abs_sum_le_sum_abs _ _).trans (sum_le_sum (g := fun j => c * (|luProd A u i j - S i j| * d j)) fun j hj => ?_))
        ((abs_sum_le_sum_abs _ _).trans (sum_le_sum (g := fun k => c * (|L i k| * excess n U d k)) fun k hk => ?_))) ?_
      · rw [abs_mul]
        have := mul_le_mul_of_nonneg_left (hb j (mem_range.mp hj)) (abs_nonneg (luProd A u i j - S i j))
        linarith
      · rw [mem_range] at hk
        rw [abs_mul]
        have h3 := mul_le_mul_of_nonneg_left (ih k hk (by omega)) (abs_nonneg (L i k))
        have h4 : c * (rho * excess n U d k) ≤ c * excess n U d k :=
          mul_le_mul_of_nonneg_left (mul_le_of_le_one_left (hex k (by omega)) h1.le) hc
        have h5 := mul_le_mul_of_nonneg_left h4 (abs_nonneg (L i k))
        linarith
      · rw [← mul_sum, ← mul_sum, ← mul_add]
        exact mul_le_mul_of_nonneg_left hfill hc
  -- backward
  have key : ∀ t i, i < n → n - i = t → |e' i| ≤ c * (rho * d i) := by
    intro t
    induction t using Nat.strong_induction_on with
    | _ t ih =>
      intro i hi ht
      have h2 : U i i * e' i = y i - ∑ j ∈ Ico (i + 1) n, U i j * e' j := by
        simp only [hy]
        rw [← sum_range_add_sum_Ico _ hi, sum_range_succ,
          sum_eq_zero (s := range i) fun j hj => by rw [hU i j (mem_range.mp hj), zero_mul]]
        ring
      have h3 : |U i i| * |e' i| ≤ |U i i| * (c * (rho * d i)) := by
        rw [← abs_mul, h2]
        refine (abs_sub _ _).trans ?_
        have h4 : |∑ j ∈ Ico (i + 1) n, U i j * e' j| ≤ ∑ j ∈ Ico (i + 1) n, c * (rho * (|U i j| * d j)) := by
          refine (abs_sum_le_sum_abs _ _).trans (sum_le_sum fun j hj => ?_)
          rw [mem_Ico] at hj
          rw [abs_mul]
          have := mul_le_mul_of_nonneg_left (ih _ (by omega) j hj.2 rfl) (abs_nonneg (U i j))
          linarith
        rw [← mul_sum, ← mul_sum] at h4
        have h5 := hyb i hi
        unfold excess at h5
        linarith
      exact le_of_mul_le_mul_left h3 (abs_pos.mpr (hpiv i hi))
  exact fun i hi => key _ i hi rfl

end Blasted
