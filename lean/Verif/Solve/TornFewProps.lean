import Verif.Solve.BlockFewProps
import Verif.Race.TornEnds

/-!
# Few asynchronous sweeps of the block triangular solves with torn segments (C103)

As C102, for matrices that are dominant by scalar rows. Threads may see segments of which only some coefficients have been stored. The sweeps with `L` contract in the weighted maximum norm
with the weights that remain of the dominance of the row of `U`.
-/

namespace Blasted

open Finset

variable {K : Type} [Field K] [LinearOrder K] [IsStrictOrderedRing K] {bs : Nat}

local notation "Blk" => Matrix (Fin bs) (Fin bs) K
local notation "Seg" => Fin bs → K

/-- Diagonal dominance by scalar rows for matrices of blocks, with positive weights `d` for the unknowns and ratio `rho`. -/
structure WRowDominant (n : Nat) (S : Nat → Nat → Matrix (Fin bs) (Fin bs) K) (d : Nat → Fin bs → K) (rho : K) : Prop where
  pos : ∀ i < n, ∀ a, 0 < d i a
  diag : ∀ i < n, ∀ a, S i i a a ≠ 0
  dom : ∀ i < n, ∀ a, ∑ j ∈ (range n).erase i, ∑ c, |S i j a c| * d j c + ∑ c ∈ univ.erase a, |S i i a c| * d i c ≤ rho * (|S i i a a| * d i a)

theorem WRowDominant.block {n : Nat} {S : Nat → Nat → Blk} {d : Nat → Fin bs → K} {rho : K} (h : WRowDominant n S d rho) (h1 : rho < 1) : WBlockDominant n S d rho :=
  .of_scalar h1 h.pos h.diag h.dom

theorem WRowDominant.scaled {isq : K → K} {us : Bool} {A : SR Blk} {d : Nat → Fin bs → K} {rho : K} (h : WRowDominant A.nbrows A.entry d rho)
    (hisq : us = true → ∀ i < A.nbrows, ∀ a, isq (A.entry i i a a) ≠ 0) :
    WRowDominant A.nbrows (blockScaledEntry isq us A) (fun j a => d j a / |blockScaleFac isq us A j a|) rho := by
  have hne := fun i hi a => blockScaleFac_ne (A := A) hisq (i := i) hi a
  refine ⟨fun i hi a => div_pos (h.pos i hi a) (abs_pos.mpr (hne i hi a)), fun i hi a => mul_ne_zero (mul_ne_zero (hne i hi a) (h.diag i hi a)) (hne i hi a), fun i hi a => ?_⟩
  have hs := abs_pos.mpr (hne i hi a)
  have e : ∀ j < A.nbrows, ∀ c, |blockScaledEntry isq us A i j a c| * (d j c / |blockScaleFac isq us A j c|) = |blockScaleFac isq us A i a| * (|A.entry i j a c| * d j c) := by
    intro j hj c
    have hsj := abs_pos.mpr (hne j hj c)
    show |blockScaleFac isq us A i a * A.entry i j a c * blockScaleFac isq us A j c| * _ = _
    rw [abs_mul, abs_mul]
    field_simp
  rw [sum_congr rfl fun j hj => sum_congr rfl fun c _ => e j (mem_range.mp (mem_of_mem_erase hj)) c, sum_congr rfl fun c _ => e i hi c, e i hi a]
  simp only [← mul_sum]
  rw [← mul_add, mul_left_comm]
  exact mul_le_mul_of_nonneg_left (h.dom i hi a) hs.le

/-! ### Comparison rows -/

/-- The row `a` of the comparison matrix of a block, with weights. -/
def cmpRow (B : Matrix (Fin bs) (Fin bs) K) (v : Fin bs → K) (a : Fin bs) : K := |B a a| * v a - ∑ c ∈ univ.erase a, |B a c| * v c

theorem cmpRow_le (B : Blk) {v : Fin bs → K} (hv : ∀ c, 0 ≤ v c) (a : Fin bs) : cmpRow B v a ≤ |B a a| * v a :=
  sub_le_self _ (sum_nonneg fun c _ => mul_nonneg (abs_nonneg _) (hv c))

theorem cmpRow_sub_ge (B B' : Blk) {v : Fin bs → K} (hv : ∀ c, 0 ≤ v c) (a : Fin bs) : cmpRow B v a - absRow B' v a ≤ cmpRow (B - B') v a := by
  unfold cmpRow absRow
  rw [← add_sum_erase univ _ (mem_univ a)]
  have h1 : |B a a| * v a ≤ |(B - B') a a| * v a + |B' a a| * v a := by
    rw [← add_mul]
    refine mul_le_mul_of_nonneg_right ?_ (hv a)
    rw [Matrix.sub_apply]
    have := abs_add_le (B a a - B' a a) (B' a a)
    rwa [sub_add_cancel] at this
  have h2 : ∑ c ∈ univ.erase a, |(B - B') a c| * v c ≤ ∑ c ∈ univ.erase a, |B a c| * v c + ∑ c ∈ univ.erase a, |B' a c| * v c := by
    rw [← sum_add_distrib]
    refine sum_le_sum fun c _ => ?_
    rw [← add_mul]
    exact mul_le_mul_of_nonneg_right (by rw [Matrix.sub_apply]; exact abs_sub _ _) (hv c)
  linarith

/-- The inverse of a block is bounded by the inverse of its comparison matrix. -/
theorem absRow_cmpRow_le (Y M : Blk) {v : Fin bs → K} (hv : ∀ c, 0 ≤ v c) (a : Fin bs) : absRow Y (cmpRow M v) a ≤ absRow (Y * M) v a := by
  have e : absRow Y (cmpRow M v) a = ∑ b, (|Y a b| * |M b b| - ∑ c ∈ univ.erase b, |Y a c| * |M c b|) * v b := by
    unfold absRow cmpRow
    simp only [mul_sub, sub_mul, sum_sub_distrib]
    congr 1
    · exact sum_congr rfl fun b _ => by ring
    · have e1 : ∀ b, |Y a b| * ∑ c ∈ univ.erase b, |M b c| * v c = ∑ c, if c ≠ b then |Y a b| * |M b c| * v c else 0 := fun b => by
        rw [mul_sum, ← sum_filter, filter_ne' univ b]
        exact sum_congr rfl fun c _ => by ring
      have e2 : ∀ b, (∑ c ∈ univ.erase b, |Y a c| * |M c b|) * v b = ∑ c, if c ≠ b then |Y a c| * |M c b| * v b else 0 := fun b => by
        rw [sum_mul, ← sum_filter, filter_ne' univ b]
      rw [sum_congr rfl fun b _ => e1 b, sum_congr rfl fun b _ => e2 b, sum_comm]
      exact sum_congr rfl fun b _ => sum_congr rfl fun c _ => by simp only [ne_comm]
  rw [e]
  unfold absRow
  refine sum_le_sum fun b _ => mul_le_mul_of_nonneg_right ?_ (hv b)
  rw [Matrix.mul_apply, ← add_sum_erase univ _ (mem_univ b)]
  have h1 := abs_sub_abs_le_abs_add (Y a b * M b b) (∑ c ∈ univ.erase b, Y a c * M c b)
  have h2 : |∑ c ∈ univ.erase b, Y a c * M c b| ≤ ∑ c ∈ univ.erase b, |Y a c| * |M c b| :=
    (abs_sum_le_sum_abs _ _).trans_eq (sum_congr rfl fun c _ => abs_mul _ _)
  rw [abs_mul] at h1
  linarith

/-! ### The factors -/

/-- What dominance by scalar rows gives for exact factors, with weights `w` for the sweeps with `L`. -/
structure TFew (n : Nat) (S L U : Nat → Nat → Matrix (Fin bs) (Fin bs) K) (V : Nat → Matrix (Fin bs) (Fin bs) K) (d w : Nat → Fin bs → K) (rho : K) : Prop where
  wnn : ∀ i < n, ∀ a, 0 ≤ w i a
  low : ∀ i < n, ∀ a, ∑ k ∈ range i, absRow (L i k) (w k) a ≤ rho * w i a
  rhs : ∀ i < n, ∀ a, (1 - rho) * (|S i i a a| * d i a) + ∑ k ∈ range i, absRow (L i k) (w k) a ≤ w i a
  piv : ∀ i < n, ∀ a, absRow (V i) (w i) a + absRow (V i) (fun c => ∑ j ∈ Ico (i + 1) n, absRow (U i j) (d j) c) a ≤ d i a
  up : ∀ i < n, ∀ a, absRow (V i) (fun c => ∑ j ∈ Ico (i + 1) n, absRow (U i j) (d j) c) a ≤ rho * d i a
  dia : ∀ i < n, ∀ a, w i a ≤ 2 * (|S i i a a| * d i a)

theorem tFew_of_exact {T : Type} {A : SR T} {m : Nat} (hA : A.Full m) (hD : A.HasDiag) {u : List Blk}
    (hl : u.length = A.browptr⟦A.nbrows⟧) {S : Nat → Nat → Blk} {d : Nat → Fin bs → K} {rho : K} (hS : WRowDominant A.nbrows S d rho)
    (h0 : 0 ≤ rho) (h1 : rho < 1) (he : ExactILU A S u) {V : Nat → Blk} (hV : ∀ i < A.nbrows, V i * upperFactor A u i i = 1) :
    ∃ w, TFew A.nbrows S (lowerFactor A u) (upperFactor A u) V d w rho := by
  set n := A.nbrows with hn
  set L := lowerFactor A u with hL
  set U := upperFactor A u with hU
  have hd0 : ∀ j < n, ∀ c, 0 ≤ d j c := fun j hj c => (hS.pos j hj c).le
  set w : Nat → Fin bs → K := fun i a => cmpRow (U i i) (d i) a - ∑ j ∈ Ico (i + 1) n, absRow (U i j) (d j) a with hw
  have hst : ∀ i < n, ∀ j, (∃ p, A.InRow i p ∧ A.bcolind⟦p⟧ = j) → luProd A u i j = S i j := by
    rintro i hi j ⟨p, hq, rfl⟩
    exact he i hi p hq
  have hun : ∀ i < n, ∀ j, (¬ ∃ p, A.InRow i p ∧ A.bcolind⟦p⟧ = j) → facEntry A u i j = 0 := fun i hi j h =>
    facEntry_unstored hA hl hi fun p hq hc => h ⟨p, hq, hc⟩
  -- products
  set P : Nat → Fin bs → Nat → Nat → K := fun i a k j => absRow (L i k) (absRow (U k j) (d j)) a with hP
  have hPnn : ∀ i a k, ∀ j < n, 0 ≤ P i a k j := fun i a k j hj => absRow_nonneg (fun c => absRow_nonneg (hd0 j hj) c) a
  have hprod : ∀ i a t, ∀ j < n, absRow (∑ k ∈ range t, L i k * U k j) (d j) a ≤ ∑ k ∈ range t, P i a k j := fun i a t j hj =>
    (absRow_sum_le _ _ (hd0 j hj) a).trans (sum_le_sum fun k _ => absRow_mul_le _ _ (hd0 j hj) a)
  -- the entries of `L` times the pivots
  have hlow : ∀ i < n, ∀ a, ∀ k < i, absRow (L i k * U k k) (d k) a ≤ absRow (S i k) (d k) a + ∑ l ∈ range k, P i a l k := by
    intro i hi a k hk
    by_cases h : ∃ p, A.InRow i p ∧ A.bcolind⟦p⟧ = k
    · have e := luProd_low (u := u) (A := A) hi hk
      rw [hst i hi k h] at e
      rw [show L i k * U k k = S i k - ∑ l ∈ range k, L i l * U l k by rw [e]; exact (add_sub_cancel_right _ _).symm]
      exact (absRow_sub_le _ _ (hd0 k (by omega)) a).trans (add_le_add le_rfl (hprod i a k k (by omega)))
    · have e : L i k = 0 := by rw [hL]; unfold lowerFactor; rw [if_pos hk]; exact hun i hi k h
      rw [e, zero_mul, absRow_zero]
      exact add_nonneg (absRow_nonneg (hd0 k (by omega)) a) (sum_nonneg fun l _ => hPnn i a l k (by omega))
  have hup : ∀ i < n, ∀ a, ∀ j < n, i < j → absRow (U i j) (d j) a ≤ absRow (S i j) (d j) a + ∑ k ∈ range i, P i a k j := by
    intro i hi a j hj hij
    by_cases h : ∃ p, A.InRow i p ∧ A.bcolind⟦p⟧ = j
    · have e := luProd_up (u := u) (A := A) (j := j) hi
      rw [hst i hi j h] at e
      rw [show U i j = S i j - ∑ k ∈ range i, L i k * U k j by rw [e]; exact (add_sub_cancel_right _ _).symm]
      exact (absRow_sub_le _ _ (hd0 j hj) a).trans (add_le_add le_rfl (hprod i a i j hj))
    · have e : U i j = 0 := by rw [hU]; unfold upperFactor; rw [if_pos hij.le]; exact hun i hi j h
      rw [e, absRow_zero]
      exact add_nonneg (absRow_nonneg (hd0 j hj) a) (sum_nonneg fun l _ => hPnn i a l j hj)
  have hUii : ∀ i < n, U i i = S i i - ∑ k ∈ range i, L i k * U k i := by
    intro i hi
    have e := luProd_up (u := u) (A := A) (j := i) hi
    rw [hst i hi i ⟨_, hD.inRow hi, hD.diag_col i hi⟩] at e
    rw [e]
    exact (add_sub_cancel_right _ _).symm
  have hdg : ∀ i < n, ∀ a, cmpRow (S i i) (d i) a - ∑ k ∈ range i, P i a k i ≤ cmpRow (U i i) (d i) a := by
    intro i hi a
    rw [hUii i hi]
    have h2 := cmpRow_sub_ge (S i i) (∑ k ∈ range i, L i k * U k i) (hd0 i hi) a
    have h3 := hprod i a i i hi
    linarith
  have hdg' : ∀ i < n, ∀ a, |U i i a a| * d i a ≤ |S i i a a| * d i a + ∑ k ∈ range i, P i a k i := by
    intro i hi a
    have h3 := hprod i a i i hi
    have h4 : |(∑ k ∈ range i, L i k * U k i) a a| * d i a ≤ absRow (∑ k ∈ range i, L i k * U k i) (d i) a :=
      single_le_sum (f := fun c => |(∑ k ∈ range i, L i k * U k i) a c| * d i c) (fun c _ => mul_nonneg (abs_nonneg _) (hd0 i hi c)) (mem_univ a)
    have h5 : |U i i a a| * d i a ≤ |S i i a a| * d i a + |(∑ k ∈ range i, L i k * U k i) a a| * d i a := by
      rw [← add_mul, hUii i hi, Matrix.sub_apply]
      exact mul_le_mul_of_nonneg_right (abs_sub _ _) (hd0 i hi a)
    linarith
  -- the fill to the right
  set F : Nat → Fin bs → K := fun i a => ∑ k ∈ range i, ∑ j ∈ Ico i n, P i a k j with hF
  have hFnn : ∀ i a, 0 ≤ F i a := fun i a => sum_nonneg fun k _ => sum_nonneg fun j hj => hPnn i a k j (mem_Ico.mp hj).2
  have hw1 : ∀ i < n, ∀ a, ∑ k ∈ range i, absRow (L i k) (w k) a + F i a ≤ ∑ k ∈ range i, absRow (S i k) (d k) a := by
    intro i hi a
    have e1 : ∀ k ∈ range i, absRow (L i k) (w k) a ≤ absRow (S i k) (d k) a + ∑ l ∈ range k, P i a l k - ∑ j ∈ Ico (k + 1) i, P i a k j - ∑ j ∈ Ico i n, P i a k j := by
      intro k hk
      rw [mem_range] at hk
      have e2 : absRow (L i k) (w k) a = absRow (L i k) (cmpRow (U k k) (d k)) a - ∑ j ∈ Ico (k + 1) n, P i a k j := by
        simp only [hw, hP]
        rw [absRow_sub, absRow_sum (L i k) _ (fun j => absRow (U k j) (d j))]
      have e3 := absRow_cmpRow_le (L i k) (U k k) (hd0 k (by omega)) a
      have e4 := hlow i hi a k hk
      rw [e2, ← sum_Ico_consecutive (fun j => P i a k j) (show k + 1 ≤ i by omega) hi.le]
      linarith
    have e5 := sum_le_sum e1
    simp only [sum_sub_distrib, sum_add_distrib] at e5
    have e6 : ∑ k ∈ range i, ∑ l ∈ range k, P i a l k = ∑ k ∈ range i, ∑ j ∈ Ico (k + 1) i, P i a k j := by
      have := sum_Ico_Ico_comm' 0 i (fun k j => P i a k j)
      simp only [← range_eq_Ico] at this
      exact this.symm
    rw [e6] at e5
    show _ + ∑ k ∈ range i, ∑ j ∈ Ico i n, P i a k j ≤ _
    linarith
  have hw2 : ∀ i < n, ∀ a, cmpRow (S i i) (d i) a - ∑ j ∈ Ico (i + 1) n, absRow (S i j) (d j) a - F i a ≤ w i a := by
    intro i hi a
    have e1 := sum_le_sum fun j (hj : j ∈ Ico (i + 1) n) => hup i hi a j (mem_Ico.mp hj).2 (mem_Ico.mp hj).1
    rw [sum_add_distrib] at e1
    have e2 := hdg i hi a
    have e3 : F i a = ∑ k ∈ range i, P i a k i + ∑ j ∈ Ico (i + 1) n, ∑ k ∈ range i, P i a k j := by
      simp only [hF]
      rw [sum_comm, sum_eq_sum_Ico_succ_bot hi]
    rw [e3]
    show _ ≤ cmpRow (U i i) (d i) a - ∑ j ∈ Ico (i + 1) n, absRow (U i j) (d j) a
    linarith
  have hdom : ∀ i < n, ∀ a, ∑ k ∈ range i, absRow (S i k) (d k) a + ∑ j ∈ Ico (i + 1) n, absRow (S i j) (d j) a + ∑ c ∈ univ.erase a, |S i i a c| * d i c ≤ rho * (|S i i a a| * d i a) := by
    intro i hi a
    have h2 := hS.dom i hi a
    rw [sum_erase_split hi] at h2
    exact h2
  have hoff : ∀ i < n, ∀ a, 0 ≤ ∑ c ∈ univ.erase a, |S i i a c| * d i c := fun i hi a => sum_nonneg fun c _ => mul_nonneg (abs_nonneg _) (hd0 i hi c)
  have hri : ∀ i < n, ∀ a, 0 ≤ ∑ j ∈ Ico (i + 1) n, absRow (S i j) (d j) a := fun i hi a => sum_nonneg fun j hj => absRow_nonneg (hd0 j (mem_Ico.mp hj).2) a
  have hrhs : ∀ i < n, ∀ a, (1 - rho) * (|S i i a a| * d i a) + ∑ k ∈ range i, absRow (L i k) (w k) a ≤ w i a := by
    intro i hi a
    have h2 := hw1 i hi a
    have h3 := hw2 i hi a
    have h4 := hdom i hi a
    unfold cmpRow at h3
    linarith
  have hwnn : ∀ i < n, ∀ a, 0 ≤ w i a := by
    intro i
    induction i using Nat.strong_induction_on with
    | _ i ih =>
      intro hi a
      have h2 : 0 ≤ ∑ k ∈ range i, absRow (L i k) (w k) a := sum_nonneg fun k hk => by
        rw [mem_range] at hk
        exact absRow_nonneg (ih k hk (by omega)) a
      have h3 : 0 ≤ (1 - rho) * (|S i i a a| * d i a) := mul_nonneg (by linarith) (mul_nonneg (abs_nonneg _) (hd0 i hi a))
      linarith [hrhs i hi a]
  have hcmp : ∀ i < n, ∀ a, absRow (V i) (cmpRow (U i i) (d i)) a ≤ d i a := fun i hi a => by
    have e3 := absRow_cmpRow_le (V i) (U i i) (hd0 i hi) a
    rwa [hV i hi, absRow_one] at e3
  refine ⟨w, hwnn, fun i hi a => ?_, hrhs, fun i hi a => ?_, fun i hi a => ?_, fun i hi a => ?_⟩
  · have h2 := hw1 i hi a
    have h3 := mul_le_mul_of_nonneg_left (hw2 i hi a) h0
    have h4 := hdom i hi a
    have h5 := mul_le_of_le_one_left (hoff i hi a) h1.le
    have h6 := mul_le_of_le_one_left (hri i hi a) h1.le
    have h7 := mul_le_of_le_one_left (hFnn i a) h1.le
    unfold cmpRow at h3
    rw [mul_sub, mul_sub, mul_sub] at h3
    linarith
  · have e2 : absRow (V i) (w i) a = absRow (V i) (cmpRow (U i i) (d i)) a - absRow (V i) (fun c => ∑ j ∈ Ico (i + 1) n, absRow (U i j) (d j) c) a := by
      simp only [hw]
      rw [absRow_sub]
    have e3 := hcmp i hi a
    linarith
  · have e1 : ∀ c, ∑ j ∈ Ico (i + 1) n, absRow (U i j) (d j) c ≤ rho * cmpRow (U i i) (d i) c := fun c => by
      have g1 := sum_le_sum fun j (hj : j ∈ Ico (i + 1) n) => hup i hi c j (mem_Ico.mp hj).2 (mem_Ico.mp hj).1
      rw [sum_add_distrib] at g1
      have g2 := mul_le_mul_of_nonneg_left (hdg i hi c) h0
      have g3 : F i c = ∑ k ∈ range i, P i c k i + ∑ j ∈ Ico (i + 1) n, ∑ k ∈ range i, P i c k j := by
        simp only [hF]
        rw [sum_comm, sum_eq_sum_Ico_succ_bot hi]
      have g4 := hw1 i hi c
      have g5 := hdom i hi c
      have g6 := mul_le_of_le_one_left (hoff i hi c) h1.le
      have g7 := mul_le_of_le_one_left (sum_nonneg fun k (_ : k ∈ range i) => hPnn i c k i hi) h1.le
      have g8 : 0 ≤ ∑ k ∈ range i, absRow (L i k) (w k) c := sum_nonneg fun k hk => by
        rw [mem_range] at hk
        exact absRow_nonneg (hwnn k (by omega)) c
      unfold cmpRow at g2 ⊢
      rw [mul_sub, mul_sub] at g2
      rw [mul_sub]
      linarith
    have e2 := absRow_mono (B := V i) e1 a
    rw [absRow_smul] at e2
    exact e2.trans (mul_le_mul_of_nonneg_left (hcmp i hi a) h0)
  · have h2 : w i a ≤ cmpRow (U i i) (d i) a := sub_le_self _ (sum_nonneg fun j hj => absRow_nonneg (hd0 j (mem_Ico.mp hj).2) a)
    have h3 := cmpRow_le (U i i) (hd0 i hi) a
    have h4 := hdg' i hi a
    have h5 : ∑ k ∈ range i, P i a k i ≤ F i a := sum_le_sum fun k _ =>
      single_le_sum (f := fun j => P i a k j) (fun j hj => hPnn i a k j (mem_Ico.mp hj).2) (mem_Ico.mpr ⟨le_rfl, hi⟩)
    have h6 := hw1 i hi a
    have h7 := hdom i hi a
    have h8 := hoff i hi a
    have h9 := hri i hi a
    have h10 : 0 ≤ ∑ k ∈ range i, absRow (L i k) (w k) a := sum_nonneg fun k hk => by
      rw [mem_range] at hk
      exact absRow_nonneg (hwnn k (by omega)) a
    have h11 := mul_le_of_le_one_left (mul_nonneg (abs_nonneg (S i i a a)) (hd0 i hi a)) h1.le
    linarith

namespace TFew

variable {n : Nat} {S L U : Nat → Nat → Matrix (Fin bs) (Fin bs) K} {V : Nat → Matrix (Fin bs) (Fin bs) K} {d w wB : Nat → Fin bs → K} {rho : K}

theorem lower_bound (h : TFew n S L U V d w rho) (hB : BFew n S L U V d wB rho) {y b : Nat → Seg} {R : K} (hR : 0 ≤ R)
    (hy : ∀ i < n, ∑ k ∈ range n, (L i k).mulVec (y k) = b i) (hb : ∀ i < n, ∀ a, |b i a| ≤ R * ((1 - rho) * (|S i i a a| * d i a))) :
    ∀ i < n, ∀ a, |y i a| ≤ R * w i a := by
  intro i
  induction i using Nat.strong_induction_on with
  | _ i ih =>
    intro hi a
    have e := hy i hi
    rw [hB.lowerSum hi] at e
    rw [show y i = b i - ∑ k ∈ range i, (L i k).mulVec (y k) by rw [← e, add_sub_cancel_left], Pi.sub_apply]
    have e1 := abs_mulVec_sum_le (s := range i) (B := L i) (x := y) (v := w) (c := R) (fun k hk => ih k (mem_range.mp hk) (by rw [mem_range] at hk; omega)) a
    have e2 := mul_le_mul_of_nonneg_left (h.rhs i hi a) hR
    refine (abs_sub _ _).trans ((add_le_add (hb i hi a) e1).trans ?_)
    linarith

/-- One row of the backward substitution. -/
theorem back (h : TFew n S L U V d w rho) (hB : BFew n S L U V d wB rho) {i : Nat} (hi : i < n) {y x : Seg} {z : Nat → Seg}
    (hx : (U i i).mulVec x = y - ∑ j ∈ Ico (i + 1) n, (U i j).mulVec (z j))
    {δ E : K} (hδ : 0 ≤ δ) (hE : 0 ≤ E) (hy : ∀ a, |y a| ≤ δ * w i a) (hz : ∀ j < n, i < j → ∀ a, |z j a| ≤ (δ + E) * d j a) (a : Fin bs) :
    |x a| ≤ (δ + rho * E) * d i a := by
  have e : x = (V i).mulVec y - ∑ j ∈ Ico (i + 1) n, (V i * U i j).mulVec (z j) := by
    have e1 : (V i).mulVec ((U i i).mulVec x) = x := by rw [Matrix.mulVec_mulVec, (hB.inv i hi).1, Matrix.one_mulVec]
    rw [← e1, hx, Matrix.mulVec_sub, Matrix.mulVec_sum]
    congr 1
    exact sum_congr rfl fun j _ => Matrix.mulVec_mulVec _ _ _
  have e2 := abs_mulVec_sum_le (s := Ico (i + 1) n) (B := fun j => V i * U i j) (x := z) (v := d) (c := δ + E)
    (fun j hj => hz j (mem_Ico.mp hj).2 (mem_Ico.mp hj).1) a
  have e3 : |(V i).mulVec y a| ≤ δ * absRow (V i) (w i) a := by
    rw [← absRow_smul]
    exact (abs_mulVec_le _ _ a).trans (absRow_mono hy a)
  have e4 := mul_le_mul_of_nonneg_left (h.up i hi a) hE
  have e5 := mul_le_mul_of_nonneg_left (h.piv i hi a) hδ
  have e6 : ∑ j ∈ Ico (i + 1) n, absRow (V i * U i j) (d j) a ≤ absRow (V i) (fun c => ∑ j ∈ Ico (i + 1) n, absRow (U i j) (d j) c) a := by
    rw [absRow_sum (V i) _ (fun j => absRow (U i j) (d j))]
    exact sum_le_sum fun j hj => absRow_mul_le _ _ (fun c => (hB.pos j (mem_Ico.mp hj).2 c).le) a
  have e7 := mul_le_mul_of_nonneg_left e6 (add_nonneg hδ hE)
  replace e2 := e2.trans e7
  rw [add_mul] at e2
  rw [e, Pi.sub_apply]
  refine (abs_sub _ _).trans ?_
  linarith

theorem upper_bound (h : TFew n S L U V d w rho) (hB : BFew n S L U V d wB rho) {z y : Nat → Seg} {R : K} (hR : 0 ≤ R)
    (hz : ∀ i < n, ∑ k ∈ range n, (U i k).mulVec (z k) = y i) (hy : ∀ i < n, ∀ a, |y i a| ≤ R * w i a) : ∀ i < n, ∀ a, |z i a| ≤ R * d i a := by
  have key : ∀ t i, i < n → n - i = t → ∀ a, |z i a| ≤ R * d i a := by
    intro t
    induction t using Nat.strong_induction_on with
    | _ t ih =>
      intro i hi ht a
      have e := hz i hi
      rw [hB.upperSum hi] at e
      have := h.back hB hi (y := y i) (x := z i) (z := z) (by rw [← e, add_sub_cancel_right]) hR le_rfl (hy i hi) (fun j hj hij b => by
        rw [add_zero]; exact ih _ (by omega) j hj rfl b) a
      rwa [mul_zero, add_zero] at this
  exact fun i hi => key _ i hi rfl

end TFew

/-! ### The updates contract -/

open scoped Matrix.Module

/-- `y` is a result of the update of row `i` of the forward substitution from values that differ by at most `E v` from `x`, possibly with different values for different coefficients
of the same product. -/
def LowNear {T : Type} (A : SR T) (u : List (Matrix (Fin bs) (Fin bs) K)) (b : List (Fin bs → K)) (x v : Nat → Fin bs → K) (E : K) (i : Nat) (y : Fin bs → K) : Prop :=
  ∃ s : Fin bs → K, (∀ c, |s c - lowSum A u i x c| ≤ E * ∑ k ∈ range i, absRow (lowerFactor A u i k) (v k) c) ∧ y = b⟦i⟧ - s

/-- Likewise for the backward substitution. -/
def UpNear {T : Type} (A : SR T) (u ilu : List (Matrix (Fin bs) (Fin bs) K)) (b : List (Fin bs → K)) (x v : Nat → Fin bs → K) (E : K) (i : Nat) (y : Fin bs → K) : Prop :=
  ∃ s : Fin bs → K, (∀ c, |s c - upSum A u i x c| ≤ E * ∑ j ∈ Ico (i + 1) A.nbrows, absRow (upperFactor A u i j) (v j) c) ∧ y = ilu⟦A.diagind⟦i⟧⟧ • (b⟦i⟧ - s)

section rows
variable {T : Type} {A : SR T} {m : Nat} {u ilu : List (Matrix (Fin bs) (Fin bs) K)} {S : Nat → Nat → Matrix (Fin bs) (Fin bs) K} {V : Nat → Matrix (Fin bs) (Fin bs) K}
  {d w wB : Nat → Fin bs → K} {rho : K}

/-- The stored entries left of the diagonal are those of `L`. -/
theorem low_abs_le (hA : A.Full m) (hSo : A.Sorted) (hD : A.HasDiag) (hu : DiagInverted A u ilu) {v : Nat → Seg} (hv : ∀ j < A.nbrows, ∀ c, 0 ≤ v j c) {i : Nat} (hi : i < A.nbrows) (c : Fin bs) :
    ∑ p ∈ Ico A.browptr⟦i⟧ A.diagind⟦i⟧, absRow ilu⟦p⟧ (v A.bcolind⟦p⟧) c ≤ ∑ k ∈ range i, absRow (lowerFactor A u i k) (v k) c := by
  have hd := hD.diag_lt i hi
  have hcol : ∀ p ∈ Ico A.browptr⟦i⟧ A.diagind⟦i⟧, A.bcolind⟦p⟧ < i := fun p hp => by
    rw [mem_Ico] at hp
    exact (low_dep hSo hD hi hp.1 hp.2).2
  have e : ∀ p ∈ Ico A.browptr⟦i⟧ A.diagind⟦i⟧, absRow ilu⟦p⟧ (v A.bcolind⟦p⟧) c = absRow (lowerFactor A u i A.bcolind⟦p⟧) (v A.bcolind⟦p⟧) c := fun p hp => by
    have h1 := hcol p hp
    rw [mem_Ico] at hp
    have hr : A.InRow i p := ⟨hp.1, by omega⟩
    rw [hu.off p (not_diag_of_ne hA hD hi hr (by omega))]
    unfold lowerFactor
    rw [if_pos h1, facEntry_stored hA hSo hu.len hi hr]
  have hinj : Set.InjOn (fun p => A.bcolind⟦p⟧) (Ico A.browptr⟦i⟧ A.diagind⟦i⟧ : Finset Nat) := fun p hp q hq h => by
    rw [mem_coe, mem_Ico] at hp hq
    exact hSo.inj hi ⟨hp.1, by omega⟩ ⟨hq.1, by omega⟩ h
  rw [sum_congr rfl e, ← sum_image (f := fun k => absRow (lowerFactor A u i k) (v k) c) hinj]
  refine sum_le_sum_of_subset_of_nonneg (fun k hk => ?_) fun k hk _ => absRow_nonneg (hv k (by rw [mem_range] at hk; omega)) c
  obtain ⟨p, hp, rfl⟩ := mem_image.mp hk
  exact mem_range.mpr (hcol p hp)

/-- The stored entries right of the diagonal are those of `U`. -/
theorem up_abs_le (hA : A.Full m) (hSo : A.Sorted) (hD : A.HasDiag) (hu : DiagInverted A u ilu) {v : Nat → Seg} (hv : ∀ j < A.nbrows, ∀ c, 0 ≤ v j c) {i : Nat} (hi : i < A.nbrows) (c : Fin bs) :
    ∑ p ∈ Ico (A.diagind⟦i⟧ + 1) A.browptr⟦i + 1⟧, absRow ilu⟦p⟧ (v A.bcolind⟦p⟧) c ≤ ∑ j ∈ Ico (i + 1) A.nbrows, absRow (upperFactor A u i j) (v j) c := by
  have hd := hD.diag_ge i hi
  have hcol : ∀ p ∈ Ico (A.diagind⟦i⟧ + 1) A.browptr⟦i + 1⟧, i < A.bcolind⟦p⟧ := fun p hp => by
    rw [mem_Ico] at hp
    exact (up_dep hSo hD hi hp.1 hp.2).2
  have e : ∀ p ∈ Ico (A.diagind⟦i⟧ + 1) A.browptr⟦i + 1⟧, absRow ilu⟦p⟧ (v A.bcolind⟦p⟧) c = absRow (upperFactor A u i A.bcolind⟦p⟧) (v A.bcolind⟦p⟧) c := fun p hp => by
    have h1 := hcol p hp
    rw [mem_Ico] at hp
    have hr : A.InRow i p := ⟨by omega, hp.2⟩
    rw [hu.off p (not_diag_of_ne hA hD hi hr (by omega))]
    unfold upperFactor
    rw [if_pos h1.le, facEntry_stored hA hSo hu.len hi hr]
  have hinj : Set.InjOn (fun p => A.bcolind⟦p⟧) (Ico (A.diagind⟦i⟧ + 1) A.browptr⟦i + 1⟧ : Finset Nat) := fun p hp q hq h => by
    rw [mem_coe, mem_Ico] at hp hq
    exact hSo.inj hi ⟨by omega, hp.2⟩ ⟨by omega, hq.2⟩ h
  rw [sum_congr rfl e, ← sum_image (f := fun k => absRow (upperFactor A u i k) (v k) c) hinj]
  refine sum_le_sum_of_subset_of_nonneg (fun k hk => ?_) fun k hk _ => absRow_nonneg (hv k (mem_Ico.mp hk).2) c
  obtain ⟨p, hp, rfl⟩ := mem_image.mp hk
  have h2 := hcol p hp
  rw [mem_Ico] at hp
  exact mem_Ico.mpr ⟨h2, hA.col_lt p (hA.lt_nnz hi hp.2)⟩

/-- A sum of products with segments near those of `x`. -/
theorem abs_prods_le {s : Finset Nat} {B : Nat → Blk} {col : Nat → Nat} {view x v : Nat → Seg} {E : K} (h : ∀ p ∈ s, ∀ a, |view (col p) a - x (col p) a| ≤ E * v (col p) a) (c : Fin bs) :
    |(∑ p ∈ s, B p • view (col p)) c - (∑ p ∈ s, B p • x (col p)) c| ≤ E * ∑ p ∈ s, absRow (B p) (v (col p)) c := by
  have e : (∑ p ∈ s, B p • view (col p)) c - (∑ p ∈ s, B p • x (col p)) c = (∑ p ∈ s, (B p).mulVec (view (col p) - x (col p))) c := by
    rw [← Pi.sub_apply, ← sum_sub_distrib]
    exact congrFun (sum_congr rfl fun p _ => (Matrix.mulVec_sub _ _ _).symm) c
  rw [e]
  exact abs_mulVec_sum_le (x := fun p => view (col p) - x (col p)) (v := fun p => v (col p)) h c

theorem lowNear_view (hA : A.Full m) (hSo : A.Sorted) (hD : A.HasDiag) (hu : DiagInverted A u ilu) {b : List Seg} {x v view : Nat → Seg} {E : K} (hE : 0 ≤ E) (hv : ∀ j < A.nbrows, ∀ c, 0 ≤ v j c)
    {i : Nat} (hi : i < A.nbrows) (h : ∀ j < A.nbrows, ∀ a, |view j a - x j a| ≤ E * v j a) : LowNear A u b x v E i (b⟦i⟧ - lowSum A ilu i view) := by
  refine ⟨_, fun c => ?_, rfl⟩
  rw [← hu.lowSum_eq hA hD hi]
  refine (abs_prods_le (s := Ico A.browptr⟦i⟧ A.diagind⟦i⟧) (B := get0 ilu) (col := get0 A.bcolind) (v := v) (fun p hp a => ?_) c).trans
    (mul_le_mul_of_nonneg_left (low_abs_le hA hSo hD hu hv hi c) hE)
  rw [mem_Ico] at hp
  have hd := hD.diag_lt i hi
  exact h _ (hA.col_lt p (hA.lt_nnz hi (by omega))) a

theorem upNear_view (hA : A.Full m) (hSo : A.Sorted) (hD : A.HasDiag) (hu : DiagInverted A u ilu) {b : List Seg} {x v view : Nat → Seg} {E : K} (hE : 0 ≤ E) (hv : ∀ j < A.nbrows, ∀ c, 0 ≤ v j c)
    {i : Nat} (hi : i < A.nbrows) (h : ∀ j < A.nbrows, ∀ a, |view j a - x j a| ≤ E * v j a) : UpNear A u ilu b x v E i (ilu⟦A.diagind⟦i⟧⟧ • (b⟦i⟧ - upSum A ilu i view)) := by
  refine ⟨_, fun c => ?_, rfl⟩
  rw [← hu.upSum_eq hA hD hi]
  refine (abs_prods_le (s := Ico (A.diagind⟦i⟧ + 1) A.browptr⟦i + 1⟧) (B := get0 ilu) (col := get0 A.bcolind) (v := v) (fun p hp a => ?_) c).trans
    (mul_le_mul_of_nonneg_left (up_abs_le hA hSo hD hu hv hi c) hE)
  rw [mem_Ico] at hp
  exact h _ (hA.col_lt p (hA.lt_nnz hi hp.2)) a

theorem TFew.lowerRow (hA : A.Full m) (hSo : A.Sorted) (hD : A.HasDiag) (hu : DiagInverted A u ilu)
    (hT : TFew A.nbrows S (lowerFactor A u) (upperFactor A u) V d w rho)
    {b : List Seg} {ys : Nat → Seg} (hys : ∀ i < A.nbrows, ∑ k ∈ range A.nbrows, (lowerFactor A u i k).mulVec (ys k) = b⟦i⟧)
    {E : K} (hE : 0 ≤ E) {i : Nat} (hi : i < A.nbrows) {y : Seg} (hy : LowNear A u b ys w E i y) (a : Fin bs) : |y a - ys i a| ≤ rho * E * w i a := by
  obtain ⟨s, hs, rfl⟩ := hy
  have e1 : ∑ k ∈ range A.nbrows, (lowerFactor A u i k).mulVec (ys k) = lowSum A u i ys + ys i := lowerFactor_mul (M := Seg) hA hSo hD hu.len hi ys
  rw [hys i hi] at e1
  have e2 : (b⟦i⟧ - s) a - ys i a = -(s a - lowSum A u i ys a) := by
    rw [e1, Pi.sub_apply, Pi.add_apply]
    ring
  rw [e2, abs_neg]
  have e5 := mul_le_mul_of_nonneg_left (hT.low i hi a) hE
  linarith [hs a]

theorem TFew.upperRow (hA : A.Full m) (hSo : A.Sorted) (hD : A.HasDiag) (hu : DiagInverted A u ilu) (hV : ∀ i < A.nbrows, V i = ilu⟦A.diagind⟦i⟧⟧)
    (hT : TFew A.nbrows S (lowerFactor A u) (upperFactor A u) V d w rho)
    {b : List Seg} {ys zs : Nat → Seg} {δ : K} (hδ : 0 ≤ δ) (hbs : ∀ i < A.nbrows, ∀ a, |b⟦i⟧ a - ys i a| ≤ δ * w i a)
    (hzs : ∀ i < A.nbrows, ∑ k ∈ range A.nbrows, (upperFactor A u i k).mulVec (zs k) = ys i)
    {E : K} (hE : 0 ≤ E) {i : Nat} (hi : i < A.nbrows) {y : Seg} (hy : UpNear A u ilu b zs d (δ + E) i y) (a : Fin bs) :
    |y a - zs i a| ≤ (δ + rho * E) * d i a := by
  obtain ⟨s, hs, rfl⟩ := hy
  have e1 : ∑ k ∈ range A.nbrows, (upperFactor A u i k).mulVec (zs k) = (u⟦A.diagind⟦i⟧⟧).mulVec (zs i) + upSum A u i zs :=
    upperFactor_mul (M := Seg) hA hSo hD hu.len hi zs
  rw [hzs i hi] at e1
  have e2 : zs i = (ilu⟦A.diagind⟦i⟧⟧).mulVec (ys i - upSum A u i zs) := by
    rw [e1, add_sub_cancel_right, Matrix.mulVec_mulVec, (hu.diag i hi).2, Matrix.one_mulVec]
  have e3 : (ilu⟦A.diagind⟦i⟧⟧ • (b⟦i⟧ - s)) a - zs i a = ((V i).mulVec ((b⟦i⟧ - ys i) - (s - upSum A u i zs))) a := by
    have : (ilu⟦A.diagind⟦i⟧⟧ • (b⟦i⟧ - s)) = (ilu⟦A.diagind⟦i⟧⟧).mulVec (b⟦i⟧ - s) := rfl
    rw [this]
    conv_lhs => rw [e2]
    rw [hV i hi, ← Pi.sub_apply, ← Matrix.mulVec_sub, sub_sub_sub_comm]
  have e4 : ∀ c, |((b⟦i⟧ - ys i) - (s - upSum A u i zs)) c| ≤ δ * w i c - -((δ + E) * ∑ j ∈ Ico (i + 1) A.nbrows, absRow (upperFactor A u i j) (d j) c) := fun c => by
    rw [sub_neg_eq_add]
    exact (abs_sub _ _).trans (add_le_add (hbs i hi c) (hs c))
  rw [e3]
  have e5 := (abs_mulVec_le (V i) _ a).trans (absRow_mono e4 a)
  simp only [← neg_mul] at e5
  rw [absRow_sub, absRow_smul, absRow_smul] at e5
  have e6 := mul_le_mul_of_nonneg_left (hT.piv i hi a) hδ
  have e7 := mul_le_mul_of_nonneg_left (hT.up i hi a) hE
  linarith

end rows

/-! ### Both solves -/

/-- Asynchronous rounds of an update that contracts, for every way of reading that stays within `Q E`. -/
theorem arun_contract_mix {M : Type} [Zero M] {upd : Nat → (Nat → C M) → C M} {mix : Set M → Set M} {n : Nat} {D : Nat → Nat → Prop} {f : Nat → (Nat → M) → M} (h : RowUpd upd n D f)
    {Q : K → Nat → M → Prop} (hmix : ∀ E j St, (∀ v ∈ St, Q E j v) → ∀ v ∈ mix St, Q E j v) {rho : K} (h0 : 0 ≤ rho) (h1 : rho ≤ 1)
    (hle : ∀ E E' j u, j < n → E' ≤ E → Q E' j u → Q E j u)
    (hf : ∀ E, 0 ≤ E → ∀ i < n, ∀ view : Nat → M, (∀ j < n, Q E j (view j)) → Q (rho * E) i (f i view))
    {x x' : List M} (hx : x.length = n) {E : K} (hE : 0 ≤ E) (hs : ∀ i < n, Q E i x⟦i⟧) {k : Nat}
    (hr : ARun upd mix k x x') : x'.length = n ∧ ∀ i < n, Q (rho ^ k * E) i x'⟦i⟧ := by
  obtain ⟨log, last, hR, rfl⟩ := hr
  have key := hR.contract (Q := fun E j u => j < n → Q E j u) h0 h1 hE (fun E j St hSt v hv hj => hmix E j St (fun u hu => hSt u hu hj) v hv)
    (fun E E' j u hEE hu hj => hle E E' j u hj hEE (hu hj))
    (fun E hE i hi view hview v hv _ => by
      rw [hx] at hi hview hv
      rw [h.yields hi hv]
      exact hf E hE i hi view fun j hj => hview j hj hj)
    (fun v hv hvn => by rw [memOf_eq hv]; exact hs _ hvn)
  refine ⟨by simp [hx], fun i hi => ?_⟩
  exact key.2 _ (hR.mem_last (memOf_get0 (x := applyLog x log) (i := i) (by simpa [hx] using hi))) hi

/-- What is needed of the sweeps of a solve: after them the values are `rho ^ k` closer to the exact ones if every update from near values (as told by `near`) contracts. It holds for
asynchronous rounds and for executions. -/
def SweepsContract (n : Nat) (run : List (Fin bs → K) → List (Fin bs → K) → Prop) (near : (Nat → Fin bs → K) → (Nat → Fin bs → K) → K → Nat → (Fin bs → K) → Prop) (rho : K) (k : Nat) : Prop :=
  ∀ (e : Nat → Fin bs → K) (v : Nat → Fin bs → K) (δ E : K) (x x' : List (Fin bs → K)), (∀ i < n, ∀ a, 0 ≤ v i a) → 0 ≤ δ → 0 ≤ E → x.length = n →
    (∀ i < n, ∀ a, |x⟦i⟧ a - e i a| ≤ (δ + E) * v i a) →
    (∀ E, 0 ≤ E → ∀ i < n, ∀ y, near e v (δ + E) i y → ∀ a, |y a - e i a| ≤ (δ + rho * E) * v i a) →
    run x x' → x'.length = n ∧ ∀ i < n, ∀ a, |x'⟦i⟧ a - e i a| ≤ (δ + rho ^ k * E) * v i a

theorem sweepsContract_rounds {upd : Nat → (Nat → C (Fin bs → K)) → C (Fin bs → K)} {n : Nat} {D : Nat → Nat → Prop} {f : Nat → (Nat → Fin bs → K) → Fin bs → K} (h : RowUpd upd n D f)
    {near : (Nat → Fin bs → K) → (Nat → Fin bs → K) → K → Nat → (Fin bs → K) → Prop}
    (hn : ∀ e v E, 0 ≤ E → (∀ i < n, ∀ a, 0 ≤ v i a) → ∀ i < n, ∀ view : Nat → Fin bs → K, (∀ j < n, ∀ a, |view j a - e j a| ≤ E * v j a) → near e v E i (f i view))
    {rho : K} (h0 : 0 ≤ rho) (h1 : rho ≤ 1) (k : Nat) : SweepsContract n (ARun upd mixTornSeg k) near rho k := by
  intro e v δ E x x' hv hδ hE hx hs hf hr
  exact arun_contract_mix h (Q := fun E j u => ∀ a, |u a - e j a| ≤ (δ + E) * v j a)
    (fun E j St hSt u hu a => by obtain ⟨u', hu', e'⟩ := hu a; rw [e']; exact hSt u' hu' a) h0 h1
    (fun E E' j u hj hle h a => (h a).trans (mul_le_mul_of_nonneg_right (by linarith) (hv j hj a)))
    (fun E hE i hi view hview => hf E hE i hi _ (hn e v (δ + E) (add_nonneg hδ hE) hv i hi view hview)) hx hE hs hr

section solves
variable {T : Type} {A : SR T} {m : Nat} {u ilu : List (Matrix (Fin bs) (Fin bs) K)} {S : Nat → Nat → Matrix (Fin bs) (Fin bs) K} {V : Nat → Matrix (Fin bs) (Fin bs) K}
  {d w wB : Nat → Fin bs → K} {rho : K}

theorem torn_solves_few (hA : A.Full m) (hSo : A.Sorted) (hD : A.HasDiag) (hu : DiagInverted A u ilu)
    (hB : BFew A.nbrows S (lowerFactor A u) (upperFactor A u) V d wB rho) (hT : TFew A.nbrows S (lowerFactor A u) (upperFactor A u) V d w rho) (h0 : 0 ≤ rho) (h1 : rho ≤ 1)
    {g : K} (hg0 : 0 ≤ g) {init : ApplyInit} (hi : init ≠ .none) (hg : init = .jacobi → ∀ i < A.nbrows, ∀ a, |S i i a a| ≤ g) {k : Nat} {o₁ o₂ : List Nat}
    (ho₁ : o₁.Perm (List.range A.nbrows)) (ho₂ : o₂.Perm (List.range A.nbrows)) {b y y₁ y' z₂ z' : List Seg}
    (hb : b.length = A.nbrows) (hy : y.length = A.nbrows) {runL runU : List Seg → List Seg → List Seg → Prop}
    (hcL : SweepsContract A.nbrows (runL b) (LowNear A u b) rho k)
    (hcU : y'.length = A.nbrows → SweepsContract A.nbrows (runU y') (UpNear A u ilu y') rho k)
    (e1 : applyInitY A.nbrows init o₁ y = .ok y₁) (e2 : runL b y₁ y')
    (e3 : applyInitZ A.nbrows init o₂ y' b = .ok z₂) (e4 : runU y' z₂ z')
    {R : K} (hR : 0 ≤ R) (hbs : ∀ i < A.nbrows, ∀ a, |b⟦i⟧ a| ≤ R * ((1 - rho) * (|S i i a a| * d i a))) {zs : Nat → Seg}
    (hzs : ∀ i < A.nbrows, ∑ j ∈ range A.nbrows, (luProd A u i j).mulVec (zs j) = b⟦i⟧) :
    z'.length = A.nbrows ∧ ∀ i < A.nbrows, ∀ a, |z'⟦i⟧ a - zs i a| ≤ (2 + 4 * g) * R * rho ^ k * d i a := by
  have hk0 : 0 ≤ rho ^ k := pow_nonneg h0 k
  have hk1 : rho ^ k ≤ 1 := pow_le_one₀ h0 h1
  -- the exact intermediate vector
  set ys : Nat → Seg := fun i => ∑ j ∈ range A.nbrows, (upperFactor A u i j).mulVec (zs j) with hys
  have hLy : ∀ i < A.nbrows, ∑ k ∈ range A.nbrows, (lowerFactor A u i k).mulVec (ys k) = b⟦i⟧ := by
    intro i hi
    rw [← hzs i hi]
    have : ∀ k, (lowerFactor A u i k).mulVec (ys k) = ∑ j ∈ range A.nbrows, (lowerFactor A u i k * upperFactor A u k j).mulVec (zs j) := fun k => by
      simp only [hys]
      rw [Matrix.mulVec_sum]
      exact sum_congr rfl fun j _ => Matrix.mulVec_mulVec _ _ _
    rw [sum_congr rfl fun k _ => this k, sum_comm]
    refine sum_congr rfl fun j _ => ?_
    unfold luProd
    rw [Matrix.sum_mulVec]
  have hV : ∀ i < A.nbrows, V i = ilu⟦A.diagind⟦i⟧⟧ := fun i hi => by
    have e := (hu.diag i hi).1
    rw [← upperFactor_diag hA hSo hD hu.len hi] at e
    rw [← mul_one (V i), ← e, ← mul_assoc, (hB.inv i hi).1, one_mul]
  have hyb := hT.lower_bound hB hR hLy hbs
  have hzb := hT.upper_bound hB (z := zs) (y := ys) hR (fun _ _ => rfl) hyb
  obtain ⟨hy1, hy0⟩ := (applyInitY_zero hi ho₁ hy).post _ e1
  obtain ⟨hy2, hye⟩ := hcL ys w 0 R y₁ y' hT.wnn le_rfl hR hy1 (fun i hi a => by
    rw [hy0 i hi, zero_add, Pi.zero_apply, zero_sub, abs_neg]; exact hyb i hi a) (fun E hE i hi v hv a => by
      rw [zero_add] at hv ⊢
      exact hT.lowerRow hA hSo hD hu hLy hE hi hv a) e2
  simp only [zero_add] at hye
  obtain ⟨hz2, hz0⟩ := (applyInitZ_seg hi ho₂ hy2 hb).post _ e3
  have hG : 0 ≤ R + 4 * g * R := by positivity
  have hδ : 0 ≤ rho ^ k * R := by positivity
  obtain ⟨hz3, hze⟩ := hcU hy2 zs d (rho ^ k * R) (R + 4 * g * R) z₂ z' (fun i hi a => (hB.pos i hi a).le) hδ hG hz2 (fun i hi a => by
    rw [hz0 i hi]
    have hd := (hB.pos i hi a).le
    have hzi := hzb i hi a
    have n1 : 0 ≤ rho ^ k * R * d i a := by positivity
    split
    · rename_i hj
      have a1 : |y'⟦i⟧ a| ≤ 2 * R * w i a := by
        have e6 : rho ^ k * R * w i a ≤ R * w i a := mul_le_mul_of_nonneg_right (mul_le_of_le_one_left hR hk1) (hT.wnn i hi a)
        have e5 := abs_add_le (y'⟦i⟧ a - ys i a) (ys i a)
        rw [sub_add_cancel] at e5
        linarith [hye i hi a, hyb i hi a]
      have a2 : w i a ≤ 2 * (g * d i a) := (hT.dia i hi a).trans (mul_le_mul_of_nonneg_left (mul_le_mul_of_nonneg_right (hg hj i hi a) hd) (by norm_num))
      have a3 : 2 * R * w i a ≤ 2 * R * (2 * (g * d i a)) := mul_le_mul_of_nonneg_left a2 (by positivity)
      refine (abs_sub _ _).trans ?_
      linarith
    · rw [Pi.zero_apply, zero_sub, abs_neg]
      have : 0 ≤ 4 * g * R * d i a := by positivity
      linarith) (fun E hE i hi v hv a => hT.upperRow hA hSo hD hu hV hδ hye (fun _ _ => rfl) hE hi hv a) e4
  refine ⟨hz3, fun i hi a => (hze i hi a).trans_eq ?_⟩
  ring

end solves

/-! ### Executions -/

section exec
variable {T : Type} {A : SR T} {m : Nat} {u ilu : List (Matrix (Fin bs) (Fin bs) K)}

/-- Sweeps of an update, coefficient by coefficient, in which threads may be up to `L - 1` sweeps apart. -/
theorem sweepsContract_torn {n : Nat} {p : Nat → Prog K (Fin bs → K)} {near : (Nat → Fin bs → K) → (Nat → Fin bs → K) → K → Nat → (Fin bs → K) → Prop}
    (hn : ∀ e v E, 0 ≤ E → (∀ i < n, ∀ a, 0 ≤ v i a) → ∀ (St : Nat → Set K) (J : Prop), (∀ j < n, ∀ c : Fin bs, ∀ x ∈ St (j * bs + c), |x - e j c| ≤ E * v j c) →
      ∀ i < n, (p i).All St J (near e v E i))
    {rho : K} (h0 : 0 ≤ rho) (h1 : rho ≤ 1) {L k t : Nat} (hL : 1 ≤ L) (hk : 1 ≤ k) (ht : (k - 1) * (2 * L - 1) + L ≤ t) :
    SweepsContract n (fun x x' => x'.length = n ∧ TornExec (Lag n L) n (t * n) bs p (flat (Equiv.refl _) x) (flat (Equiv.refl _) x')) near rho k := by
  intro e v δ E x x' hv hδ hE hx hs hf hr
  obtain ⟨hx', h⟩ := hr
  have hm : (flat (Equiv.refl (Fin bs → K)) x).length = n * bs := by rw [flat_length, hx]
  have key := h.rounds (Q := fun r c => {u | ∀ a : Fin bs, c = c / bs * bs + a → |u - e (c / bs) a| ≤ (δ + rho ^ r * E) * v (c / bs) a}) hL hk ht hm ?_ ?_ ?_
  · refine ⟨hx', fun i hi a => ?_⟩
    have := key.2 (i * bs + a) (tcell_lt hi a)
    simp only [tcell_div, Set.mem_ofPred_eq] at this
    have := this a rfl
    rwa [flat_get _ _ (by omega)] at this
  · intro r r' c hc hrr u hu a hca
    have := mul_le_mul_of_nonneg_right (pow_le_pow_of_le_one h0 h1 hrr) hE
    exact (hu a hca).trans (mul_le_mul_of_nonneg_right (by linarith) (hv _ (div_cell_lt hc) _))
  · intro c hc a hca
    rw [hca, tcell_div, flat_get _ _ (by rw [hx]; exact div_cell_lt hc)]
    simpa using hs _ (div_cell_lt hc) a
  · intro r i hi
    have hr0 : 0 ≤ rho ^ r * E := mul_nonneg (pow_nonneg h0 _) hE
    refine (hn e v (δ + rho ^ r * E) (add_nonneg hδ hr0) hv _ _ ?_ i hi).imp fun y hy a => ?_
    · intro j hj c u hu
      simp only [tcell_div, Set.mem_ofPred_eq] at hu
      exact hu c rfl
    · simp only [tcell_div, Set.mem_ofPred_eq]
      intro a' haa
      rw [← tcell_inj haa, pow_succ]
      refine (hf _ hr0 i hi y hy a).trans (le_of_eq ?_)
      ring

theorem all_unitLowerT (hA : A.Full m) (hSo : A.Sorted) (hD : A.HasDiag) (hu : DiagInverted A u ilu) {b : List Seg} (hb : b.length = A.nbrows) {x v : Nat → Seg} {E : K} (hE : 0 ≤ E)
    (hv : ∀ j < A.nbrows, ∀ c, 0 ≤ v j c) {St : Nat → Set K} {J : Prop} (hS : ∀ j < A.nbrows, ∀ c : Fin bs, ∀ y ∈ St (j * bs + c), |y - x j c| ≤ E * v j c) {i : Nat} (hi : i < A.nbrows) :
    (unitLowerT (Equiv.refl (Fin bs → K)) A ilu b i).All St J (LowNear A u b x v E i) := by
  have h1 := hA.ptr_len
  have h2 := hD.diag_len
  have hlo := hD.diag_ge i hi
  have hhi := hD.diag_lt i hi
  have hnz := hA.ptr_le (show i + 1 ≤ A.nbrows by omega)
  have h4 := hA.ind_len
  have h5 := hu.len'
  unfold unitLowerT
  rw [rd_eq (by omega), rd_eq (by omega), rd_eq (by omega)]
  refine (all_rowSumT (n := A.nbrows) hS hlo (by omega) (by omega) (fun k g1 g2 => hA.col_lt k (by omega)) (s := 0) (t := 0) (F := 0) (by simp)).do fun s hs => ?_
  refine ⟨s, fun c => ?_, rfl⟩
  have h := hs c
  simp only [Pi.zero_apply, zero_add] at h
  rw [← hu.lowSum_eq hA hD hi]
  unfold lowSum
  rw [Finset.sum_apply]
  refine h.trans (le_trans (le_of_eq ?_) (mul_le_mul_of_nonneg_left (low_abs_le hA hSo hD hu hv hi c) hE))
  rw [mul_sum]
  refine sum_congr rfl fun p _ => ?_
  unfold absRow
  rw [mul_sum]
  exact sum_congr rfl fun _ _ => by ring

theorem all_blockUpperT (hA : A.Full m) (hSo : A.Sorted) (hD : A.HasDiag) (hu : DiagInverted A u ilu) {b : List Seg} (hb : b.length = A.nbrows) {x v : Nat → Seg} {E : K} (hE : 0 ≤ E)
    (hv : ∀ j < A.nbrows, ∀ c, 0 ≤ v j c) {St : Nat → Set K} {J : Prop} (hS : ∀ j < A.nbrows, ∀ c : Fin bs, ∀ y ∈ St (j * bs + c), |y - x j c| ≤ E * v j c) {i : Nat} (hi : i < A.nbrows) :
    (blockUpperT (Equiv.refl (Fin bs → K)) A ilu b i).All St J (UpNear A u ilu b x v E i) := by
  have h1 := hA.ptr_len
  have h2 := hD.diag_len
  have hlo := hD.diag_ge i hi
  have hhi := hD.diag_lt i hi
  have hnz := hA.ptr_le (show i + 1 ≤ A.nbrows by omega)
  have h4 := hA.ind_len
  have h5 := hu.len'
  unfold blockUpperT
  rw [rd_eq (by omega), rd_eq (by omega), rd_eq (by omega)]
  refine (all_rowSumT (n := A.nbrows) hS (show A.diagind⟦i⟧ + 1 ≤ A.browptr⟦i + 1⟧ by omega) (by omega) (by omega) (fun k g1 g2 => hA.col_lt k (by omega)) (s := 0) (t := 0) (F := 0)
    (by simp)).do fun s hs => ?_
  rw [rd_eq (by omega)]
  refine ⟨s, fun c => ?_, rfl⟩
  have h := hs c
  simp only [Pi.zero_apply, zero_add] at h
  rw [← hu.upSum_eq hA hD hi]
  unfold upSum
  rw [Finset.sum_apply]
  refine h.trans (le_trans (le_of_eq ?_) (mul_le_mul_of_nonneg_left (up_abs_le hA hSo hD hu hv hi c) hE))
  rw [mul_sum]
  refine sum_congr rfl fun p _ => ?_
  unfold absRow
  rw [mul_sum]
  exact sum_congr rfl fun _ _ => by ring

theorem sweeps_unitLowerT (hA : A.Full m) (hSo : A.Sorted) (hD : A.HasDiag) (hu : DiagInverted A u ilu) {b : List Seg} (hb : b.length = A.nbrows)
    {rho : K} (h0 : 0 ≤ rho) (h1 : rho ≤ 1) {L k t : Nat} (hL : 1 ≤ L) (hk : 1 ≤ k) (ht : (k - 1) * (2 * L - 1) + L ≤ t) :
    SweepsContract A.nbrows (fun x x' => x'.length = A.nbrows ∧
      TornExec (Lag A.nbrows L) A.nbrows (t * A.nbrows) bs (unitLowerT (Equiv.refl Seg) A ilu b) (flat (Equiv.refl _) x) (flat (Equiv.refl _) x')) (LowNear A u b) rho k := by
  refine sweepsContract_torn ?_ h0 h1 hL hk ht
  intro e v E hE hv St J hS i hi
  exact all_unitLowerT hA hSo hD hu hb hE hv hS hi

theorem sweeps_blockUpperT (hA : A.Full m) (hSo : A.Sorted) (hD : A.HasDiag) (hu : DiagInverted A u ilu) {b : List Seg} (hb : b.length = A.nbrows)
    {rho : K} (h0 : 0 ≤ rho) (h1 : rho ≤ 1) {L k t : Nat} (hL : 1 ≤ L) (hk : 1 ≤ k) (ht : (k - 1) * (2 * L - 1) + L ≤ t) :
    SweepsContract A.nbrows (fun x x' => x'.length = A.nbrows ∧
      TornExec (Lag A.nbrows L) A.nbrows (t * A.nbrows) bs (blockUpperT (Equiv.refl Seg) A ilu b) (flat (Equiv.refl _) x) (flat (Equiv.refl _) x')) (UpNear A u ilu b) rho k := by
  refine sweepsContract_torn ?_ h0 h1 hL hk ht
  intro e v E hE hv St J hS i hi
  exact all_blockUpperT hA hSo hD hu hb hE hv hS hi

end exec

/-! ### The application -/

section apply
variable {isq : K → K} {us : Bool} {A : SR (Matrix (Fin bs) (Fin bs) K)} {u ilu : List (Matrix (Fin bs) (Fin bs) K)} {scale : Option (List K)} {d : Nat → Fin bs → K} {rho : K}

/-- The application with any sweeps that contract. -/
theorem torn_apply_few (hA : A.Full) (hSo : A.Sorted) (hD : A.HasDiag) (hu : DiagInverted A u ilu)
    (hsc : BlockScaleIs isq us A scale) (hex : ExactILU A (blockScaledEntry isq us A) u) (hisq : us = true → ∀ i < A.nbrows, ∀ a, isq (A.entry i i a a) ≠ 0)
    (hdom : WRowDominant A.nbrows A.entry d rho) (h0 : 0 ≤ rho) (h1 : rho < 1)
    {init : ApplyInit} (hi : init ≠ .none) {g : K} (hg0 : 0 ≤ g) (hg : init = .jacobi → ∀ i < A.nbrows, ∀ a, |blockScaledEntry isq us A i i a a| ≤ g)
    {k : Nat} {ord : Nat → List Nat} (hord : ∀ t, (ord t).Perm (List.range A.nbrows)) {r z y z₁ y₁ y' z₂ z₃ z' : List Seg}
    (hr : r.length = A.nbrows) (hz : z.length = A.nbrows) (hy : y.length = A.nbrows) {runL runU : List Seg → List Seg → List Seg → Prop}
    (hcL : ∀ b, b.length = A.nbrows → SweepsContract A.nbrows (runL b) (LowNear A u b) rho k)
    (hcU : ∀ b, b.length = A.nbrows → SweepsContract A.nbrows (runU b) (UpNear A u ilu b) rho k)
    (e1 : applyScaleIn A.nbrows (scale.map (blockSeg bs)) (ord 0) r z = .ok z₁) (e2 : applyInitY A.nbrows init (ord 1) y = .ok y₁) (e3 : runL z₁ y₁ y')
    (e4 : applyInitZ A.nbrows init (ord 2) y' z₁ = .ok z₂) (e5 : runU y' z₂ z₃) (e6 : applyScaleOut A.nbrows (scale.map (blockSeg bs)) (ord 3) z₃ = .ok z')
    {R : K} (hR : 0 ≤ R) (hrb : ∀ i < A.nbrows, ∀ a, |r⟦i⟧ a| ≤ R * ((1 - rho) * (|A.entry i i a a| * d i a)))
    {s : List Seg} (hs : BlockIluSolved A u scale r s) :
    z'.length = A.nbrows ∧ ∀ i < A.nbrows, ∀ a, |z'⟦i⟧ a - s⟦i⟧ a| ≤ (2 + 4 * g) * R * rho ^ k * d i a := by
  obtain ⟨_, w, hw, heq⟩ := hs
  have hne := fun i hi a => blockScaleFac_ne (A := A) hisq (i := i) hi a
  have hdS := hdom.scaled (isq := isq) hisq
  have hF := bFew_of_exact hA hD hu.len (hdS.block h1) h0 h1 hex
  obtain ⟨wT, hT⟩ := tFew_of_exact hA hD hu.len hdS h0 h1 hex (fun i hi => (hF.inv i hi).1)
  have hSeg := segOk_block (K := K) (bs := bs) hsc.length
  obtain ⟨hz1, hv1⟩ := (applyScaleIn_ok hSeg (hord 0) hr hz).post _ e1
  obtain ⟨hz3, hz3e⟩ := torn_solves_few hA hSo hD hu hF hT h0 h1.le hg0 hi hg (hord 1) (hord 2) hz1 hy (hcL _ hz1) (hcU y') e2 e3 e4 e5 hR (fun i hi a => by
      set σ := blockScaleFac isq us A i with hσ
      have hs : 0 < |σ a| := abs_pos.mpr (hne i hi a)
      have hb : z₁⟦i⟧ a = σ a * r⟦i⟧ a := by
        rw [hv1 i hi]
        unfold blockScaleAt
        rw [hsc.scaleAt hi]
      have hS : |blockScaledEntry isq us A i i a a| = |σ a| * |A.entry i i a a| * |σ a| := by
        rw [blockScaledEntry_diagonal, ← hσ, Matrix.mul_diagonal, Matrix.diagonal_mul, abs_mul, abs_mul]
      rw [hb, hS, abs_mul]
      refine (mul_le_mul_of_nonneg_left (hrb i hi a) hs.le).trans_eq ?_
      field_simp) (zs := w) (fun i hi => by rw [heq i hi, hv1 i hi])
  obtain ⟨hz', hv'⟩ := (applyScaleOut_ok hSeg (hord 3) hz3).post _ e6
  refine ⟨hz', fun i hi a => ?_⟩
  have hs := abs_pos.mpr (hne i hi a)
  rw [hv' i hi, hw i hi]
  unfold blockScaleAt
  rw [← mul_sub, abs_mul, hsc.scaleAt hi]
  refine (mul_le_mul_of_nonneg_left (hz3e i hi a) hs.le).trans_eq ?_
  field_simp

/-- **C103** `k` asynchronous sweeps of each block triangular solve, in which a thread may read a segment of which only some coefficients have been stored, differ from the exact solves by at most
`(2 + 4 g) R rho ^ k` in the norm given by the weights `d`: `A` is dominant by scalar rows with the ratio `rho`, `R` bounds the right hand side, and `g` is needed for the Jacobi-like initial
values only. -/
theorem torn_block_ilu_few_sweeps (hA : A.Full) (hSo : A.Sorted) (hD : A.HasDiag) (hu : DiagInverted A u ilu)
    (hsc : BlockScaleIs isq us A scale) (hex : ExactILU A (blockScaledEntry isq us A) u) (hisq : us = true → ∀ i < A.nbrows, ∀ a, isq (A.entry i i a a) ≠ 0)
    (hdom : WRowDominant A.nbrows A.entry d rho) (h0 : 0 ≤ rho) (h1 : rho < 1)
    {init : ApplyInit} (hi : init ≠ .none) {g : K} (hg0 : 0 ≤ g) (hg : init = .jacobi → ∀ i < A.nbrows, ∀ a, |blockScaledEntry isq us A i i a a| ≤ g)
    {k : Nat} {ord : Nat → List Nat} (hord : ∀ t, (ord t).Perm (List.range A.nbrows)) {r z y z' y' : List Seg}
    (hr : r.length = A.nbrows) (hz : z.length = A.nbrows) (hy : y.length = A.nbrows)
    (h : AsyncIluApply (unitLowerRow A ilu) (blockUpperRow A ilu) A.nbrows mixTornSeg (scale.map (blockSeg bs)) k init ord r z y z' y')
    {R : K} (hR : 0 ≤ R) (hrb : ∀ i < A.nbrows, ∀ a, |r⟦i⟧ a| ≤ R * ((1 - rho) * (|A.entry i i a a| * d i a)))
    {s : List Seg} (hs : BlockIluSolved A u scale r s) :
    z'.length = A.nbrows ∧ ∀ i < A.nbrows, ∀ a, |z'⟦i⟧ a - s⟦i⟧ a| ≤ (2 + 4 * g) * R * rho ^ k * d i a := by
  obtain ⟨z₁, y₁, z₂, z₃, e1, e2, e3, e4, e5, e6⟩ := h
  exact torn_apply_few hA hSo hD hu hsc hex hisq hdom h0 h1 hi hg0 hg hord hr hz hy
    (runL := fun b => ARun (unitLowerRow A ilu b) mixTornSeg k) (runU := fun b => ARun (blockUpperRow A ilu b) mixTornSeg k)
    (fun b hb => sweepsContract_rounds (rowUpd_unitLower (M := Seg) hA hSo hD hu.len' hb) (fun e v E hE hv i hi view hview => lowNear_view hA hSo hD hu hE hv hi hview) h0 h1.le k)
    (fun b hb => sweepsContract_rounds (rowUpd_blockUpper (M := Seg) hA hSo hD hu.len' hb) (fun e v E hE hv i hi view hview => upNear_view hA hSo hD hu hE hv hi hview) h0 h1.le k)
    e1 e2 e3 e4 e5 e6 hR hrb hs

/-- **C103** for executions coefficient by coefficient: threads may be up to `L - 1` sweeps apart, and even the coefficients of one product may be computed from different versions of a
segment. `t` sweeps count as `k` if `(k - 1) (2 L - 1) + L ≤ t`. -/
theorem torn_block_ilu_few_sweeps_exec (hA : A.Full) (hSo : A.Sorted) (hD : A.HasDiag) (hu : DiagInverted A u ilu)
    (hsc : BlockScaleIs isq us A scale) (hex : ExactILU A (blockScaledEntry isq us A) u) (hisq : us = true → ∀ i < A.nbrows, ∀ a, isq (A.entry i i a a) ≠ 0)
    (hdom : WRowDominant A.nbrows A.entry d rho) (h0 : 0 ≤ rho) (h1 : rho < 1)
    {init : ApplyInit} (hi : init ≠ .none) {g : K} (hg0 : 0 ≤ g) (hg : init = .jacobi → ∀ i < A.nbrows, ∀ a, |blockScaledEntry isq us A i i a a| ≤ g)
    {L k t : Nat} (hL : 1 ≤ L) (hk : 1 ≤ k) (ht : (k - 1) * (2 * L - 1) + L ≤ t) {ord : Nat → List Nat} (hord : ∀ t, (ord t).Perm (List.range A.nbrows)) {r z y z' y' : List Seg}
    (hr : r.length = A.nbrows) (hz : z.length = A.nbrows) (hy : y.length = A.nbrows)
    (h : TornIluExec (Equiv.refl _) (unitLowerT (Equiv.refl _) A ilu) (blockUpperT (Equiv.refl _) A ilu) A.nbrows (Lag A.nbrows L) (scale.map (blockSeg bs)) t init ord r z y z' y')
    {R : K} (hR : 0 ≤ R) (hrb : ∀ i < A.nbrows, ∀ a, |r⟦i⟧ a| ≤ R * ((1 - rho) * (|A.entry i i a a| * d i a)))
    {s : List Seg} (hs : BlockIluSolved A u scale r s) :
    z'.length = A.nbrows ∧ ∀ i < A.nbrows, ∀ a, |z'⟦i⟧ a - s⟦i⟧ a| ≤ (2 + 4 * g) * R * rho ^ k * d i a := by
  obtain ⟨z₁, y₁, z₂, z₃, e1, e2, hy2, e3, e4, hz3, e5, e6⟩ := h
  have hcL : ∀ b : List Seg, b.length = A.nbrows → SweepsContract A.nbrows (fun x x' => x'.length = A.nbrows ∧
      TornExec (Lag A.nbrows L) A.nbrows (t * A.nbrows) bs (unitLowerT (Equiv.refl Seg) A ilu b) (flat (Equiv.refl _) x) (flat (Equiv.refl _) x')) (LowNear A u b) rho k :=
    fun b hb => sweeps_unitLowerT hA hSo hD hu hb h0 h1.le hL hk ht
  have hcU : ∀ b : List Seg, b.length = A.nbrows → SweepsContract A.nbrows (fun x x' => x'.length = A.nbrows ∧
      TornExec (Lag A.nbrows L) A.nbrows (t * A.nbrows) bs (blockUpperT (Equiv.refl Seg) A ilu b) (flat (Equiv.refl _) x) (flat (Equiv.refl _) x')) (UpNear A u ilu b) rho k :=
    fun b hb => sweeps_blockUpperT hA hSo hD hu hb h0 h1.le hL hk ht
  exact torn_apply_few hA hSo hD hu hsc hex hisq hdom h0 h1 hi hg0 hg hord hr hz hy
    (runL := fun b x x' => x'.length = A.nbrows ∧
      TornExec (Lag A.nbrows L) A.nbrows (t * A.nbrows) bs (unitLowerT (Equiv.refl Seg) A ilu b) (flat (Equiv.refl _) x) (flat (Equiv.refl _) x'))
    (runU := fun b x x' => x'.length = A.nbrows ∧
      TornExec (Lag A.nbrows L) A.nbrows (t * A.nbrows) bs (blockUpperT (Equiv.refl Seg) A ilu b) (flat (Equiv.refl _) x) (flat (Equiv.refl _) x')) hcL hcU
    e1 e2 ⟨hy2, e3⟩ e4 ⟨hz3, e5⟩ e6 hR hrb hs

/-- Steps of the iteration that corrects `x` by the preconditioned residual, each with `s` sweeps, coefficient by coefficient, of the block triangular solves, in which threads may be up to `L - 1` sweeps
apart. -/
inductive TornFewIteration (A : SR (Matrix (Fin bs) (Fin bs) K)) (ilu : List (Matrix (Fin bs) (Fin bs) K)) (scale : Option (List K)) (L s : Nat) (init : ApplyInit) (b : List (Fin bs → K)) :
    Nat → List (Fin bs → K) → List (Fin bs → K) → Prop
  | zero (x : List (Fin bs → K)) : TornFewIteration A ilu scale L s init b 0 x x
  | succ {t : Nat} {x y r z z₀ y₀ y₁ : List (Fin bs → K)} {ord : Nat → List Nat} (h : TornFewIteration A ilu scale L s init b t x y) (hr : r.length = A.nbrows)
      (hres : ∀ i < A.nbrows, r⟦i⟧ = b⟦i⟧ - ∑ j ∈ range A.nbrows, (A.entry i j).mulVec y⟦j⟧) (hz : z₀.length = A.nbrows) (hy : y₀.length = A.nbrows)
      (hord : ∀ t, (ord t).Perm (List.range A.nbrows))
      (hap : TornIluExec (Equiv.refl _) (unitLowerT (Equiv.refl _) A ilu) (blockUpperT (Equiv.refl _) A ilu) A.nbrows (Lag A.nbrows L) (scale.map (blockSeg bs)) s init ord r z₀ y₀ z y₁) :
      TornFewIteration A ilu scale L s init b (t + 1) x (List.zipWith (· + ·) y z)

/-- **C103** The preconditioned iteration with few sweeps, coefficient by coefficient, per block triangular solve: after `compute`, each step reduces the largest weighted error by the factor
`rho + (2 + 4 g) rho ^ k (1 + rho) / (1 - rho)`. -/
theorem torn_block_ilu_few_iteration_converges {conf : ILUConf} {ord ord2 ordc : List Nat} {gilu gdblks : List Blk} {gscale : List K} {st st' : ILUState Blk K} {inf : Option (RemInfo K)}
    (hc : BlockSetting conf.usescaling A ord ord2 ordc gilu gdblks gscale st) (hb : 1 ≤ conf.nbuildsweeps)
    (hisq : conf.usescaling = true → ∀ i < A.nbrows, ∀ a, isq (A.entry i i a a) ≠ 0)
    (hdom : WRowDominant A.nbrows A.entry d rho) (h0 : 0 ≤ rho) (h1 : rho < 1)
    (h : blockCompute isq conf A ord ord2 ordc gilu gdblks gscale st = .ok (inf, st')) (hu : st'.iluvals = some ilu)
    {init : ApplyInit} (hi : init ≠ .none) {g : K} (hg0 : 0 ≤ g) (hg : init = .jacobi → ∀ i < A.nbrows, ∀ a, |blockScaledEntry isq conf.usescaling A i i a a| ≤ g)
    {b x y : List Seg} {sol : Nat → Seg} (hs : ∀ i < A.nbrows, ∑ j ∈ range A.nbrows, (A.entry i j).mulVec (sol j) = b⟦i⟧)
    (hx : x.length = A.nbrows) {c : K} (hc0 : 0 ≤ c) (hxs : ∀ i < A.nbrows, ∀ a, |x⟦i⟧ a - sol i a| ≤ c * d i a) {L k s t : Nat} (hL : 1 ≤ L) (hk : 1 ≤ k) (hks : (k - 1) * (2 * L - 1) + L ≤ s)
    (hit : TornFewIteration A ilu st'.scale L s init b t x y) :
    y.length = A.nbrows ∧ ∀ i < A.nbrows, ∀ a, |y⟦i⟧ a - sol i a| ≤ c * (rho + (2 + 4 * g) * rho ^ k * (1 + rho) / (1 - rho)) ^ t * d i a := by
  obtain ⟨_, hsc, u, ilu', hu', hex, _, hinv⟩ := block_ilu_compute_exact hc hb h
  rw [hu] at hu'
  injection hu' with hu'
  subst hu'
  have hrho : 0 < 1 - rho := sub_pos.mpr h1
  set q := rho + (2 + 4 * g) * rho ^ k * (1 + rho) / (1 - rho) with hq
  have hq0 : 0 ≤ q := by
    have := pow_nonneg h0 k
    positivity
  induction hit with
  | zero x => simpa using ⟨hx, hxs⟩
  | @succ t x y r z z₀ y₀ y₁ ord _ hr hres hz hy hord hap ih =>
    obtain ⟨hyl, hyb⟩ := ih hx hxs
    have hM : 0 ≤ c * q ^ t := mul_nonneg hc0 (pow_nonneg hq0 t)
    -- the exact application
    obtain ⟨ze, ye, _, _, hsol⟩ := block_ilu_apply_correct hc.full hc.sorted hc.diag hinv hsc.length (k := 1) le_rfl hi hord hr hz hy
    have hcon := block_ilu_correction_contracts hc.full hc.diag hinv.len hsc hex hisq (hdom.block h1) h0 h1 hs hres hsol hM hyb
    -- the residual
    have hres' : ∀ i < A.nbrows, ∀ a, |r⟦i⟧ a| ≤ c * q ^ t * (1 + rho) / (1 - rho) * ((1 - rho) * (|A.entry i i a a| * d i a)) := by
      intro i hi a
      have e : r⟦i⟧ = -∑ j ∈ range A.nbrows, (A.entry i j).mulVec ((fun j => y⟦j⟧ - sol j) j) := by
        rw [hres i hi, ← hs i hi, ← sum_sub_distrib, ← sum_neg_distrib]
        exact sum_congr rfl fun j _ => by rw [Matrix.mulVec_sub, neg_sub]
      rw [e, Pi.neg_apply, abs_neg]
      have e2 := abs_mulVec_sum_le (s := range A.nbrows) (B := fun j => A.entry i j) (x := fun j => y⟦j⟧ - sol j) (v := d) (c := c * q ^ t)
        (fun j hj a => hyb j (mem_range.mp hj) a) a
      have e3 : ∑ j ∈ range A.nbrows, absRow (A.entry i j) (d j) a ≤ (1 + rho) * (|A.entry i i a a| * d i a) := by
        have g1 := hdom.dom i hi a
        have g2 : absRow (A.entry i i) (d i) a = |A.entry i i a a| * d i a + ∑ c ∈ univ.erase a, |A.entry i i a c| * d i c :=
          (add_sum_erase _ _ (mem_univ a)).symm
        rw [← add_sum_erase _ _ (mem_range.mpr hi), g2]
        unfold absRow
        linarith
      refine (e2.trans (mul_le_mul_of_nonneg_left e3 hM)).trans_eq ?_
      field_simp
    obtain ⟨hzl, hzb⟩ := torn_block_ilu_few_sweeps_exec hc.full hc.sorted hc.diag hinv hsc hex hisq hdom h0 h1 hi hg0 hg hL hk hks hord hr hz hy hap
      (R := c * q ^ t * (1 + rho) / (1 - rho)) (by positivity) hres' hsol
    refine ⟨by simp [hyl, hzl], fun i hi a => ?_⟩
    have hzip : (List.zipWith (· + ·) y z)⟦i⟧ = y⟦i⟧ + z⟦i⟧ := by
      rw [get0_eq_getElem (by simp [hyl, hzl, hi]), get0_eq_getElem (by omega), get0_eq_getElem (by omega), List.getElem_zipWith]
    rw [hzip, Pi.add_apply, show y⟦i⟧ a + z⟦i⟧ a - sol i a = (y⟦i⟧ a + ze⟦i⟧ a - sol i a) + (z⟦i⟧ a - ze⟦i⟧ a) by ring]
    refine (abs_add_le _ _).trans ((add_le_add (hcon i hi a) (hzb i hi a)).trans_eq ?_)
    rw [pow_succ, hq]
    field_simp

end apply

/-! ### Non-vacuity -/

theorem exBD_rowDominant : WRowDominant 3 exBD.entry (fun _ _ => 1) (3/4 : ℚ) :=
  ⟨fun _ _ _ => one_pos, by decide +kernel, by decide +kernel⟩

omit [LinearOrder K] [IsStrictOrderedRing K] in
/-- Executions of every number of sweeps exist, coefficient by coefficient. -/
theorem exists_tornIluExec {T : Type} {A : SR T} {m : Nat} {ilu : List (Matrix (Fin bs) (Fin bs) K)} {scale : Option (List K)} (hA : A.Full m) (hD : A.HasDiag)
    (hl : ilu.length = A.browptr⟦A.nbrows⟧) (hs : ScaleLen scale (A.nbrows * bs)) {L : Nat} (hL : 1 ≤ L) (t : Nat) {init : ApplyInit} (hi : init ≠ .none)
    {ord : Nat → List Nat} (hord : ∀ t, (ord t).Perm (List.range A.nbrows)) {r z y : List (Fin bs → K)} (hr : r.length = A.nbrows) (hz : z.length = A.nbrows)
    (hy : y.length = A.nbrows) :
    ∃ z' y', TornIluExec (Equiv.refl _) (unitLowerT (Equiv.refl _) A ilu) (blockUpperT (Equiv.refl _) A ilu) A.nbrows (Lag A.nbrows L) (scale.map (blockSeg bs)) t init ord r z y z' y' := by
  have hS := segOk_block (K := K) (bs := bs) hs
  have : Inhabited K := ⟨0⟩
  have hLag := lag_lt (n := A.nbrows) (L := L) hL
  obtain ⟨z₁, e1, hz1, -⟩ := applyScaleIn_ok hS (hord 0) hr hz
  obtain ⟨y₁, e2, hy1⟩ := applyInitY_ok init (hord 1) hy
  obtain ⟨m1, h1⟩ := torn_exec_exists (n := A.nbrows) (m₀ := flat (Equiv.refl (Fin bs → K)) y₁) (by rw [flat_length, hy1])
    (ends_unitLowerT (Equiv.refl (Fin bs → K)) hA hD hl (b := z₁) hz1) hLag t
  obtain ⟨y', hy', rfl⟩ := exists_flat (Equiv.refl (Fin bs → K)) (n := A.nbrows) (m := m1) (by rw [h1.length, flat_length, hy1])
  obtain ⟨z₂, e4, hz2⟩ := applyInitZ_ok hi (hord 2) hy' hz1
  obtain ⟨m2, h2⟩ := torn_exec_exists (n := A.nbrows) (m₀ := flat (Equiv.refl (Fin bs → K)) z₂) (by rw [flat_length, hz2])
    (ends_blockUpperT (Equiv.refl (Fin bs → K)) hA hD hl (b := y') hy') hLag t
  obtain ⟨z₃, hz3, rfl⟩ := exists_flat (Equiv.refl (Fin bs → K)) (n := A.nbrows) (m := m2) (by rw [h2.length, flat_length, hz2])
  obtain ⟨z', e6, -⟩ := applyScaleOut_ok hS (hord 3) hz3
  exact ⟨z', y', z₁, y₁, z₂, z₃, e1, e2, hy', h1, e4, hz3, h2, e6⟩

/-- Non-vacuity of `torn_block_ilu_few_sweeps` (with scaling): two sweeps. -/
example : ∃ (u ilu : List (Matrix (Fin 2) (Fin 2) ℚ)) (z' y' s : List (Fin 2 → ℚ)), exBDstate.iluvals = some ilu ∧
    AsyncIluApply (unitLowerRow exBD ilu) (blockUpperRow exBD ilu) 3 mixTornSeg (exBDstate.scale.map (blockSeg 2)) 2 .zero (fun _ => [2, 0, 1]) exBDb
      [![7, 7], ![7, 7], ![7, 7]] [![9, 9], ![9, 9], ![9, 9]] z' y' ∧
    BlockIluSolved exBD u exBDstate.scale exBDb s ∧ ∀ i < 3, ∀ a, |z'⟦i⟧ a - s⟦i⟧ a| ≤ (2 + 4 * 0) * 8 * (3/4) ^ 2 * 1 := by
  have hc := exBD_setting true
  obtain ⟨_, hsc, u, ilu, hu', hex, _, hinv⟩ := block_ilu_compute_exact hc (conf := ⟨true, 2, .sgs, false⟩) (by decide) exBD_compute
  have hord : ∀ t : Nat, ((fun _ : Nat => [2, 0, 1]) t).Perm (List.range 3) := fun _ => (by decide : [2, 0, 1].Perm (List.range 3))
  have hl' := triUpd_unitLower (M := Fin 2 → ℚ) hc.full hc.sorted hc.diag hinv.len'
  have hu2 := triUpd_blockUpper (M := Fin 2 → ℚ) hc.full hc.sorted hc.diag hinv.len'
  have hS := segOk_block (K := ℚ) (bs := 2) hsc.length
  have hsub : ∀ (S : Set (Fin 2 → ℚ)) v, v ∈ S → v ∈ mixTornSeg S := fun S v hv a => ⟨v, hv, rfl⟩
  obtain ⟨z₁, e1, hz1, -⟩ := applyScaleIn_ok hS (hord 0) (r := exBDb) rfl (z := [![7, 7], ![7, 7], ![7, 7]]) rfl
  obtain ⟨y₁, e2, hy1⟩ := applyInitY_ok .zero (hord 1) (y := [![9, 9], ![9, 9], (![9, 9] : Fin 2 → ℚ)]) rfl
  obtain ⟨v, -, -, hv⟩ := (hl'.upd z₁ hz1).fwd (fun _ _ h => h.2) le_rfl hy1
  obtain ⟨y', h3, hy', -⟩ := (hl'.upd z₁ hz1).exists_exact (mix := mixTornSeg) hsub id_involutive (fun i _ j _ h => h.2) hv hy1 (k := 2) (by decide)
  obtain ⟨z₂, e4, hz2⟩ := applyInitZ_ok (init := .zero) (by decide) (hord 2) hy' hz1
  obtain ⟨w, -, -, hw⟩ := (hu2.upd y' hy').bwd (fun _ _ h => h.2) le_rfl hz2
  obtain ⟨z₃, h5, hz3, -⟩ := (hu2.upd y' hy').exists_exact (mix := mixTornSeg) hsub rev_involutive (fun i hi j hj h => by have := h.2; omega) hw hz2 (k := 2) (by decide)
  obtain ⟨z', e6, -⟩ := applyScaleOut_ok hS (hord 3) hz3
  obtain ⟨s, -, -, -, hs⟩ := block_ilu_apply_correct hc.full hc.sorted hc.diag hinv hsc.length (k := 1) le_rfl (init := .zero) (by decide) hord (r := exBDb) rfl
    (z := [![7, 7], ![7, 7], ![7, 7]]) rfl (y := [![9, 9], ![9, 9], ![9, 9]]) rfl
  have h : AsyncIluApply (unitLowerRow exBD ilu) (blockUpperRow exBD ilu) 3 mixTornSeg (exBDstate.scale.map (blockSeg 2)) 2 .zero (fun _ => [2, 0, 1]) exBDb
      [![7, 7], ![7, 7], ![7, 7]] [![9, 9], ![9, 9], ![9, 9]] z' y' := ⟨z₁, y₁, z₂, z₃, e1, e2, h3, e4, h5, e6⟩
  refine ⟨u, ilu, z', y', s, hu', h, hs, ?_⟩
  exact (torn_block_ilu_few_sweeps hc.full hc.sorted hc.diag hinv hsc hex (fun _ => by decide +kernel) exBD_rowDominant (by norm_num) (by norm_num) (by decide) le_rfl (by decide)
    hord rfl rfl rfl h (R := 8) (by norm_num) (by decide +kernel) hs).2

/-- Non-vacuity of `torn_block_ilu_few_sweeps_exec` (with scaling): seven sweeps in which threads may be one sweep apart, which count as two. -/
example : ∃ (u ilu : List (Matrix (Fin 2) (Fin 2) ℚ)) (z' y' s : List (Fin 2 → ℚ)), exBDstate.iluvals = some ilu ∧
    TornIluExec (Equiv.refl _) (unitLowerT (Equiv.refl _) exBD ilu) (blockUpperT (Equiv.refl _) exBD ilu) 3 (Lag 3 2) (exBDstate.scale.map (blockSeg 2)) 7 .zero (fun _ => [2, 0, 1]) exBDb
      [![7, 7], ![7, 7], ![7, 7]] [![9, 9], ![9, 9], ![9, 9]] z' y' ∧
    BlockIluSolved exBD u exBDstate.scale exBDb s ∧ ∀ i < 3, ∀ a, |z'⟦i⟧ a - s⟦i⟧ a| ≤ (2 + 4 * 0) * 8 * (3/4) ^ 2 * 1 := by
  have hc := exBD_setting true
  obtain ⟨_, hsc, u, ilu, hu', hex, _, hinv⟩ := block_ilu_compute_exact hc (conf := ⟨true, 2, .sgs, false⟩) (by decide) exBD_compute
  have hord : ∀ t : Nat, ((fun _ : Nat => [2, 0, 1]) t).Perm (List.range 3) := fun _ => (by decide : [2, 0, 1].Perm (List.range 3))
  obtain ⟨z', y', h⟩ := exists_tornIluExec (r := exBDb) (z := [![7, 7], ![7, 7], ![7, 7]]) (y := [![9, 9], ![9, 9], ![9, 9]]) hc.full hc.diag hinv.len' hsc.length
    (L := 2) (by decide) 7 (init := .zero) (by decide) hord rfl rfl rfl
  obtain ⟨s, -, -, -, hs⟩ := block_ilu_apply_correct hc.full hc.sorted hc.diag hinv hsc.length (k := 1) le_rfl (init := .zero) (by decide) hord (r := exBDb) rfl
    (z := [![7, 7], ![7, 7], ![7, 7]]) rfl (y := [![9, 9], ![9, 9], ![9, 9]]) rfl
  refine ⟨u, ilu, z', y', s, hu', h, hs, ?_⟩
  exact (torn_block_ilu_few_sweeps_exec hc.full hc.sorted hc.diag hinv hsc hex (fun _ => by decide +kernel) exBD_rowDominant (by norm_num) (by norm_num) (by decide) le_rfl (by decide)
    (L := 2) (k := 2) (by decide) (by decide) (by decide) hord rfl rfl rfl h (R := 8) (by norm_num) (by decide +kernel) hs).2

/-- Non-vacuity of `torn_block_ilu_few_iteration_converges`: a step with 50 sweeps in which threads may be one sweep apart, which reduces the error at least by the factor 22/25. -/
example : ∃ (ilu : List (Matrix (Fin 2) (Fin 2) ℚ)) (x : List (Fin 2 → ℚ)), exBDstate.iluvals = some ilu ∧
    TornFewIteration exBD ilu exBDstate.scale 2 50 .zero exBDb 1 [0, 0, 0] x ∧ ∀ i < 3, ∀ a, |x⟦i⟧ a - 1| ≤ 22/25 := by
  have hc := exBD_setting true
  obtain ⟨_, hsc, u, ilu, hu', hex, _, hinv⟩ := block_ilu_compute_exact hc (conf := ⟨true, 2, .sgs, false⟩) (by decide) exBD_compute
  obtain ⟨z, y', hz⟩ := exists_tornIluExec (r := exBDb) (z := [![7, 7], ![7, 7], ![7, 7]]) (y := [![9, 9], ![9, 9], ![9, 9]]) hc.full hc.diag hinv.len' hsc.length
    (L := 2) (by decide) 50 (init := .zero) (by decide) (ord := fun _ => [1, 2, 0]) (fun _ => by decide) rfl rfl rfl
  have hit : TornFewIteration exBD ilu exBDstate.scale 2 50 .zero exBDb 1 [0, 0, 0] (List.zipWith (· + ·) [0, 0, 0] z) :=
    .succ (.zero _) rfl (fun i hi => by
      rw [sum_eq_zero fun j _ => ?_, sub_zero]
      rw [show ([0, 0, 0] : List (Fin 2 → ℚ))⟦j⟧ = 0 by
        rcases j with _ | _ | _ | j <;> rfl, Matrix.mulVec_zero]) rfl rfl (fun _ => by decide) hz
  refine ⟨ilu, _, hu', hit, fun i hi a => ?_⟩
  have := (torn_block_ilu_few_iteration_converges hc (conf := ⟨true, 2, .sgs, false⟩) (by decide) (fun _ => by decide +kernel) exBD_rowDominant (by norm_num) (by norm_num) exBD_compute hu'
    (init := .zero) (by decide) (g := 0) le_rfl (by decide) (sol := fun _ _ => 1) (by decide +kernel) rfl (c := 1) (by norm_num) (by decide +kernel) (L := 2) (k := 17) (by decide) (by decide)
    (by decide) hit).2 i hi a
  refine this.trans ?_
  norm_num

end Blasted
