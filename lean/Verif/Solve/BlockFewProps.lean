import Verif.Solve.FewProps
import Verif.Solve.BlockDomProps

/-!
# Few asynchronous sweeps of the block triangular solves (C102)

As C98, for the block preconditioner. The sweeps with `L` contract in a norm in which every segment is first multiplied by the inverse of the diagonal block of `U`.
-/

namespace Blasted

open Finset

variable {K : Type} [Field K] [LinearOrder K] [IsStrictOrderedRing K] {bs : Nat}

local notation "Blk" => Matrix (Fin bs) (Fin bs) K
local notation "Seg" => Fin bs → K

/-! ### The factors of a dominant matrix contract -/

section row

variable {n i : Nat} {St : Nat → Prop} {g l r N : Nat → Matrix (Fin bs) (Fin bs) K} {Z : Nat → Nat → Matrix (Fin bs) (Fin bs) K} {d : Nat → Fin bs → K} {rho : K}

/-- A system with the (scaled) diagonal block. -/
theorem BElim.solve (h : BElim n i St g l r Z N) (hi : i < n) (hd : ∀ j < n, ∀ c, 0 < d j c) (h1 : rho < 1)
    (hg : ∀ a, ∑ j ∈ (range n).erase i, absRow (g j) (d j) a ≤ rho * d i a) (hv : ∀ k < i, ∀ c, 0 ≤ bexcess n Z d k c)
    (hZ : ∀ j < n, i < j → r i * Z i j = r j) {c : K} (hc : 0 ≤ c) {v q : Fin bs → K}
    (hq : ∀ a, |q a| ≤ c * (d i a - absRow (1 - r i) (d i) a - ∑ j ∈ Ico (i + 1) n, absRow (r j) (d j) a))
    (heq : (r i).mulVec v = q) (a : Fin bs) : |v a| ≤ c * bexcess n Z d i a := by
  have hd0 : ∀ j < n, ∀ c, 0 ≤ d j c := fun j hj c => (hd j hj c).le
  have hn := h.near hi hd0 hg hv
  have hT : ∀ a, absRow (1 - r i) (d i) a < d i a := fun a => by
    have h2 : 0 ≤ ∑ j ∈ Ico (i + 1) n, absRow (r j) (d j) a := sum_nonneg fun j hj => absRow_nonneg (hd0 j (mem_Ico.mp hj).2) a
    have h3 := hn a
    have h4 := mul_lt_mul_of_pos_right h1 (hd i hi a)
    linarith
  have hE : ∀ a, d i a - ∑ j ∈ Ico (i + 1) n, absRow (r j) (d j) a - absRow (1 - r i) (d i) a + absRow (1 - r i) (bexcess n Z d i) a ≤ bexcess n Z d i a := by
    intro a
    unfold bexcess
    rw [absRow_sub, absRow_sum (1 - r i) _ (fun j => absRow (Z i j) (d j))]
    have : ∑ j ∈ Ico (i + 1) n, absRow (Z i j) (d j) a ≤ ∑ j ∈ Ico (i + 1) n, absRow (r j) (d j) a +
        ∑ j ∈ Ico (i + 1) n, absRow (1 - r i) (absRow (Z i j) (d j)) a := by
      rw [← sum_add_distrib]
      refine sum_le_sum fun j hj => ?_
      rw [mem_Ico] at hj
      have e : Z i j = r j + (1 - r i) * Z i j := by rw [sub_mul, one_mul, hZ j hj.2 hj.1, add_sub_cancel]
      conv_lhs => rw [e]
      exact (absRow_add_le _ _ (hd0 j hj.2) a).trans (add_le_add le_rfl (absRow_mul_le _ _ (hd0 j hj.2) a))
    linarith
  have hvi : ∀ a, |v a| ≤ c * (d i a - absRow (1 - r i) (d i) a - ∑ j ∈ Ico (i + 1) n, absRow (r j) (d j) a) + absRow (1 - r i) (fun b => |v b|) a := by
    intro a
    have e1 : v a = q a + (1 - r i).mulVec v a := by
      rw [← heq, Matrix.sub_mulVec, Matrix.one_mulVec]
      simp only [Pi.sub_apply]
      ring
    rw [e1]
    exact (abs_add_le _ _).trans (add_le_add (hq a) (abs_mulVec_le _ _ a))
  have := absRow_max (T := 1 - r i) (d := d i) (w := fun a => |v a| - c * bexcess n Z d i a) (hd i hi) hT (fun a => by
    rw [absRow_sub (1 - r i) (fun c => |v c|), absRow_smul]
    have h2 := hvi a
    have h3 := mul_le_mul_of_nonneg_left (hE a) hc
    linarith) a
  linarith

end row

theorem absRow_one (w : Fin bs → K) (a : Fin bs) : absRow (1 : Blk) w a = w a := by
  unfold absRow
  rw [sum_eq_single a (fun c _ hc => by rw [Matrix.one_apply_ne hc.symm, abs_zero, zero_mul]) (fun h => absurd (mem_univ a) h), Matrix.one_apply_eq, abs_one, one_mul]

/-- A weighted sum of segments. -/
theorem abs_mulVec_sum_le {s : Finset Nat} {B : Nat → Blk} {x v : Nat → Seg} {c : K} (hx : ∀ j ∈ s, ∀ a, |x j a| ≤ c * v j a) (a : Fin bs) :
    |(∑ j ∈ s, (B j).mulVec (x j)) a| ≤ c * ∑ j ∈ s, absRow (B j) (v j) a := by
  rw [Finset.sum_apply, mul_sum]
  refine (abs_sum_le_sum_abs _ _).trans (sum_le_sum fun j hj => ?_)
  rw [← absRow_smul]
  exact (abs_mulVec_le _ _ a).trans (absRow_mono (hx j hj) a)

/-- What block dominance gives for exact factors: `w` are the weights in which the sweeps with `L` contract, `V` are the inverse diagonal blocks of `U`. -/
structure BFew (n : Nat) (S L U : Nat → Nat → Matrix (Fin bs) (Fin bs) K) (V : Nat → Matrix (Fin bs) (Fin bs) K) (d w : Nat → Fin bs → K) (rho : K) : Prop where
  one : ∀ i < n, L i i = 1
  above : ∀ i < n, ∀ k, i < k → L i k = 0
  below : ∀ i < n, ∀ j < i, U i j = 0
  inv : ∀ i < n, V i * U i i = 1 ∧ U i i * V i = 1
  pos : ∀ i < n, ∀ a, 0 < d i a
  wnn : ∀ i < n, ∀ a, 0 ≤ w i a
  wdef : ∀ i < n, ∀ a, w i a = d i a - ∑ j ∈ Ico (i + 1) n, absRow (V i * U i j) (d j) a
  low : ∀ i < n, ∀ c, 0 ≤ c → ∀ e : Nat → Fin bs → K, (∀ k < i, ∀ a, |(V k).mulVec (e k) a| ≤ c * w k a) →
    ∀ a, |(V i).mulVec (∑ k ∈ range i, (L i k).mulVec (e k)) a| ≤ c * rho * w i a
  rhs : ∀ i < n, ∀ c, 0 ≤ c → ∀ e : Nat → Fin bs → K, (∀ k < i, ∀ a, |(V k).mulVec (e k) a| ≤ c * w k a) → ∀ b : Fin bs → K,
    (∀ G, G * S i i = 1 → ∀ a, |G.mulVec b a| ≤ c * ((1 - rho) * d i a)) →
    ∀ a, |(V i).mulVec (b - ∑ k ∈ range i, (L i k).mulVec (e k)) a| ≤ c * w i a
  up : ∀ i < n, ∀ a, ∑ j ∈ Ico (i + 1) n, absRow (V i * U i j) (d j) a ≤ rho * d i a
  dia : ∀ i < n, ∀ g, (∀ a, absRow (S i i) (d i) a ≤ g * d i a) → ∀ a, absRow (U i i) (d i) a ≤ 2 * g * d i a

theorem bFew_of_exact {V : Type} {A : SR V} {m : Nat} (hA : A.Full m) (hD : A.HasDiag) {u : List Blk}
    (hl : u.length = A.browptr⟦A.nbrows⟧) {S : Nat → Nat → Blk} {d : Nat → Fin bs → K} {rho : K} (hS : WBlockDominant A.nbrows S d rho)
    (h0 : 0 ≤ rho) (h1 : rho < 1) (he : ExactILU A S u) :
    BFew A.nbrows S (lowerFactor A u) (upperFactor A u) (fun i => Ring.inverse (upperFactor A u i i)) d (bexcess A.nbrows (upScaled A u) d) rho := by
  have hd0 : ∀ j < A.nbrows, ∀ c, 0 ≤ d j c := fun j hj c => (hS.pos j hj c).le
  have hex := fun i hi => block_exact_row hA hD hl hS h1 (i := i) hi fun k hk => he k (by omega)
  have hv : ∀ k < A.nbrows, ∀ c, 0 ≤ bexcess A.nbrows (upScaled A u) d k c := fun k hk c => by
    have h2 := (hex k hk).2 c
    have h4 := mul_lt_mul_of_pos_right h1 (hS.pos k hk c)
    unfold bexcess
    linarith
  have hG : ∀ i < A.nbrows, Ring.inverse (S i i) * S i i = 1 := fun i hi => Ring.inverse_mul_cancel _ (hS.diag i hi)
  have hE := fun i hi => belim_of_exact hA hD hl hi (hG i hi) (he i hi) fun k hk => (hex k (by omega)).1
  have hZ : ∀ i < A.nbrows, ∀ j < A.nbrows, i < j → Ring.inverse (S i i) * upperFactor A u i i * upScaled A u i j = Ring.inverse (S i i) * upperFactor A u i j := by
    intro i hi j _ _
    unfold upScaled
    rw [mul_assoc, ← mul_assoc (upperFactor A u i i), Ring.mul_inverse_cancel _ (hex i hi).1, one_mul]
  have hsolve := fun i (hi : i < A.nbrows) (c : K) (hc : 0 ≤ c) (v q : Fin bs → K) => (hE i hi).solve hi hS.pos h1 (hS.dom i hi _ (hG i hi)) (fun k hk => hv k (by omega)) (hZ i hi) hc (v := v) (q := q)
  have hsum : ∀ i < A.nbrows, ∀ c : K, ∀ e : Nat → Fin bs → K, (∀ k < i, ∀ a, |(Ring.inverse (upperFactor A u k k)).mulVec (e k) a| ≤ c * bexcess A.nbrows (upScaled A u) d k a) →
      ∀ a, |(Ring.inverse (S i i)).mulVec (∑ k ∈ range i, (lowerFactor A u i k).mulVec (e k)) a| ≤
        c * ∑ k ∈ range i, absRow (Ring.inverse (S i i) * (lowerFactor A u i k * upperFactor A u k k)) (bexcess A.nbrows (upScaled A u) d k) a := by
    intro i hi c e hb a
    have e1 : (Ring.inverse (S i i)).mulVec (∑ k ∈ range i, (lowerFactor A u i k).mulVec (e k)) =
        ∑ k ∈ range i, (Ring.inverse (S i i) * (lowerFactor A u i k * upperFactor A u k k)).mulVec ((Ring.inverse (upperFactor A u k k)).mulVec (e k)) := by
      rw [Matrix.mulVec_sum]
      refine sum_congr rfl fun k hk => ?_
      rw [mem_range] at hk
      rw [Matrix.mulVec_mulVec, Matrix.mulVec_mulVec, mul_assoc, mul_assoc, Ring.mul_inverse_cancel _ (hex k (by omega)).1, mul_one]
    rw [e1]
    exact abs_mulVec_sum_le (fun k hk => hb k (mem_range.mp hk)) a
  have hcancel : ∀ i < A.nbrows, ∀ x : Fin bs → K, (Ring.inverse (S i i) * upperFactor A u i i).mulVec ((Ring.inverse (upperFactor A u i i)).mulVec x) =
      (Ring.inverse (S i i)).mulVec x := by
    intro i hi x
    rw [Matrix.mulVec_mulVec, mul_assoc, Ring.mul_inverse_cancel _ (hex i hi).1, mul_one]
  exact {
    one := fun i _ => by unfold lowerFactor; rw [if_neg (lt_irrefl i), if_pos rfl]
    above := fun i _ k hk => by unfold lowerFactor; rw [if_neg (by omega), if_neg (by omega)]
    below := fun i _ j hj => by unfold upperFactor; rw [if_neg (by omega)]
    inv := fun i hi => ⟨Ring.inverse_mul_cancel _ (hex i hi).1, Ring.mul_inverse_cancel _ (hex i hi).1⟩
    pos := hS.pos
    wnn := hv
    wdef := fun i _ a => rfl
    low := fun i hi c hc e hb => by
      refine hsolve i hi _ (mul_nonneg hc h0) _ _ (fun a => ?_) (hcancel i hi _)
      refine (hsum i hi c e hb a).trans ?_
      have h3 := (hE i hi).estimate hi hd0 h0 h1.le a
      have h4 := hS.dom i hi _ (hG i hi) a
      rw [sum_erase_split hi] at h4
      have h5 : 0 ≤ ∑ j ∈ Ico (i + 1) A.nbrows, absRow (Ring.inverse (S i i) * S i j) (d j) a := sum_nonneg fun j hj => absRow_nonneg (hd0 j (mem_Ico.mp hj).2) a
      have h6 := mul_le_mul_of_nonneg_right h1.le h5
      have h7 : 0 ≤ ∑ j ∈ range A.nbrows, absRow (fillScaled A u (Ring.inverse (S i i)) i j) (d j) a := sum_nonneg fun j hj => absRow_nonneg (hd0 j (mem_range.mp hj)) a
      rw [mul_assoc]
      refine mul_le_mul_of_nonneg_left ?_ hc
      rw [mul_sub, mul_sub]
      rw [mul_add] at h3
      change ∑ j ∈ range i, absRow (Ring.inverse (S i i) * S i j) (d j) a + ∑ j ∈ Ico (i + 1) A.nbrows, absRow (Ring.inverse (S i i) * S i j) (d j) a ≤ rho * d i a at h4
      linarith
    rhs := fun i hi c hc e hb b hbb => by
      refine hsolve i hi _ hc _ _ (fun a => ?_) (hcancel i hi _)
      rw [Matrix.mulVec_sub, Pi.sub_apply]
      refine (abs_sub _ _).trans ((add_le_add (hbb _ (hG i hi) a) (hsum i hi c e hb a)).trans ?_)
      have h3 := (hE i hi).estimate hi hd0 zero_le_one le_rfl a
      have h4 := hS.dom i hi _ (hG i hi) a
      rw [sum_erase_split hi] at h4
      have h7 : 0 ≤ ∑ j ∈ range A.nbrows, absRow (fillScaled A u (Ring.inverse (S i i)) i j) (d j) a := sum_nonneg fun j hj => absRow_nonneg (hd0 j (mem_range.mp hj)) a
      rw [← mul_add]
      refine mul_le_mul_of_nonneg_left ?_ hc
      change ∑ j ∈ range i, absRow (Ring.inverse (S i i) * S i j) (d j) a + ∑ j ∈ Ico (i + 1) A.nbrows, absRow (Ring.inverse (S i i) * S i j) (d j) a ≤ rho * d i a at h4
      linarith
    up := fun i hi => (hex i hi).2
    dia := fun i hi g hg a => by
      have e : upperFactor A u i i = S i i * (Ring.inverse (S i i) * upperFactor A u i i) := by
        rw [← mul_assoc, Ring.mul_inverse_cancel _ (hS.diag i hi), one_mul]
      have hn := (hE i hi).near hi hd0 (hS.dom i hi _ (hG i hi)) (fun k hk => hv k (by omega))
      have h2 : ∀ a, absRow (Ring.inverse (S i i) * upperFactor A u i i) (d i) a ≤ 2 * d i a := by
        intro a
        have h3 : 0 ≤ ∑ j ∈ Ico (i + 1) A.nbrows, absRow (Ring.inverse (S i i) * upperFactor A u i j) (d j) a := sum_nonneg fun j hj => absRow_nonneg (hd0 j (mem_Ico.mp hj).2) a
        have h4 := hn a
        have h5 := absRow_sub_le (1 : Blk) (1 - Ring.inverse (S i i) * upperFactor A u i i) (hd0 i hi) a
        rw [absRow_one, sub_sub_cancel] at h5
        have h6 := mul_le_mul_of_nonneg_right h1.le (hd0 i hi a)
        linarith
      rw [e]
      refine (absRow_mul_le _ _ (hd0 i hi) a).trans ((absRow_mono h2 a).trans ?_)
      rw [absRow_smul]
      linarith [hg a] }
namespace BFew

variable {n : Nat} {S L U : Nat → Nat → Matrix (Fin bs) (Fin bs) K} {V : Nat → Matrix (Fin bs) (Fin bs) K} {d w : Nat → Fin bs → K} {rho : K}

omit [IsStrictOrderedRing K] in
theorem lowerSum (h : BFew n S L U V d w rho) {i : Nat} (hi : i < n) (x : Nat → Seg) :
    ∑ j ∈ range n, (L i j).mulVec (x j) = ∑ k ∈ range i, (L i k).mulVec (x k) + x i := by
  rw [← sum_range_add_sum_Ico _ hi, sum_range_succ, h.one i hi, Matrix.one_mulVec,
    sum_eq_zero (s := Ico (i + 1) n) fun k hk => by rw [h.above i hi k (by rw [mem_Ico] at hk; omega), Matrix.zero_mulVec], add_zero]

omit [IsStrictOrderedRing K] in
theorem upperSum (h : BFew n S L U V d w rho) {i : Nat} (hi : i < n) (x : Nat → Seg) :
    ∑ j ∈ range n, (U i j).mulVec (x j) = (U i i).mulVec (x i) + ∑ j ∈ Ico (i + 1) n, (U i j).mulVec (x j) := by
  rw [← sum_range_add_sum_Ico _ hi, sum_range_succ,
    sum_eq_zero (s := range i) fun j hj => by rw [h.below i hi j (mem_range.mp hj), Matrix.zero_mulVec], zero_add]

theorem w_le (h : BFew n S L U V d w rho) {i : Nat} (hi : i < n) (a : Fin bs) : w i a ≤ d i a := by
  rw [h.wdef i hi, sub_le_self_iff]
  exact sum_nonneg fun j hj => absRow_nonneg (fun c => (h.pos j (mem_Ico.mp hj).2 c).le) a

omit [IsStrictOrderedRing K] in
/-- The solution of the lower system is bounded by the right-hand side. -/
theorem lower_bound (h : BFew n S L U V d w rho) {y b : Nat → Seg} {R : K} (hR : 0 ≤ R)
    (hy : ∀ i < n, ∑ k ∈ range n, (L i k).mulVec (y k) = b i)
    (hb : ∀ i < n, ∀ G, G * S i i = 1 → ∀ a, |G.mulVec (b i) a| ≤ R * ((1 - rho) * d i a)) :
    ∀ i < n, ∀ a, |(V i).mulVec (y i) a| ≤ R * w i a := by
  intro i
  induction i using Nat.strong_induction_on with
  | _ i ih =>
    intro hi a
    have e := hy i hi
    rw [h.lowerSum hi] at e
    rw [show y i = b i - ∑ k ∈ range i, (L i k).mulVec (y k) by rw [← e, add_sub_cancel_left]]
    exact h.rhs i hi R hR y (fun k hk => ih k hk (by omega)) (b i) (hb i hi) a

/-- One row of the backward substitution. -/
theorem back (h : BFew n S L U V d w rho) {i : Nat} (hi : i < n) {y x : Seg} {z : Nat → Seg} (hx : (U i i).mulVec x = y - ∑ j ∈ Ico (i + 1) n, (U i j).mulVec (z j))
    {δ E : K} (hE : 0 ≤ E) (hy : ∀ a, |(V i).mulVec y a| ≤ δ * w i a) (hz : ∀ j < n, i < j → ∀ a, |z j a| ≤ (δ + E) * d j a) (a : Fin bs) :
    |x a| ≤ (δ + rho * E) * d i a := by
  have e : x = (V i).mulVec y - ∑ j ∈ Ico (i + 1) n, (V i * U i j).mulVec (z j) := by
    have e1 : (V i).mulVec ((U i i).mulVec x) = x := by rw [Matrix.mulVec_mulVec, (h.inv i hi).1, Matrix.one_mulVec]
    rw [← e1, hx, Matrix.mulVec_sub, Matrix.mulVec_sum]
    congr 1
    exact sum_congr rfl fun j _ => Matrix.mulVec_mulVec _ _ _
  have e2 := abs_mulVec_sum_le (s := Ico (i + 1) n) (B := fun j => V i * U i j) (x := z) (v := d) (c := δ + E)
    (fun j hj => hz j (mem_Ico.mp hj).2 (mem_Ico.mp hj).1) a
  have e3 := hy a
  rw [h.wdef i hi, mul_sub] at e3
  have e4 := mul_le_mul_of_nonneg_left (h.up i hi a) hE
  rw [add_mul] at e2
  rw [e, Pi.sub_apply]
  refine (abs_sub _ _).trans ?_
  linarith

/-- The solution of the upper system is bounded by the right-hand side. -/
theorem upper_bound (h : BFew n S L U V d w rho) {z y : Nat → Seg} {R : K}
    (hz : ∀ i < n, ∑ k ∈ range n, (U i k).mulVec (z k) = y i) (hy : ∀ i < n, ∀ a, |(V i).mulVec (y i) a| ≤ R * w i a) : ∀ i < n, ∀ a, |z i a| ≤ R * d i a := by
  have key : ∀ t i, i < n → n - i = t → ∀ a, |z i a| ≤ R * d i a := by
    intro t
    induction t using Nat.strong_induction_on with
    | _ t ih =>
      intro i hi ht a
      have e := hz i hi
      rw [h.upperSum hi] at e
      have := h.back hi (y := y i) (x := z i) (z := z) (by rw [← e, add_sub_cancel_right]) le_rfl (hy i hi) (fun j hj hij b => by
        rw [add_zero]; exact ih _ (by omega) j hj rfl b) a
      rwa [mul_zero, add_zero] at this
  exact fun i hi => key _ i hi rfl

end BFew

/-! ### Rounds -/

omit [IsStrictOrderedRing K] [LinearOrder K] [Field K] in
theorem rowUpd_view {M : Type} {upd : Nat → (Nat → C M) → C M} {n : Nat} {D : Nat → Nat → Prop} {f : Nat → (Nat → M) → M} (h : RowUpd upd n D f)
    {i : Nat} (hi : i < n) {view : Nat → M} {v : M} (hv : Yields (upd i (readView n view)) v) : v = f i view := h.yields hi hv

/-- Asynchronous rounds of an update that contracts: `Q E` says that a value is within `E`. -/
theorem arun_contract_pred {M : Type} [Zero M] {upd : Nat → (Nat → C M) → C M} {n : Nat} {D : Nat → Nat → Prop} {f : Nat → (Nat → M) → M} (h : RowUpd upd n D f)
    {Q : K → Nat → M → Prop} {rho : K} (h0 : 0 ≤ rho) (h1 : rho ≤ 1) (hle : ∀ E E' j u, j < n → E' ≤ E → Q E' j u → Q E j u)
    (hf : ∀ E, 0 ≤ E → ∀ i < n, ∀ view : Nat → M, (∀ j < n, Q E j (view j)) → Q (rho * E) i (f i view))
    {x x' : List M} (hx : x.length = n) {E : K} (hE : 0 ≤ E) (hs : ∀ i < n, Q E i x⟦i⟧) {k : Nat}
    (hr : ARun upd mixWhole k x x') : x'.length = n ∧ ∀ i < n, Q (rho ^ k * E) i x'⟦i⟧ := by
  obtain ⟨log, last, hR, rfl⟩ := hr
  have key := hR.contract (Q := fun E j u => j < n → Q E j u) h0 h1 hE (fun E j S hS v hv => hS v hv)
    (fun E E' j u hEE hu hj => hle E E' j u hj hEE (hu hj))
    (fun E hE i hi view hview v hv _ => by
      rw [hx] at hi hview hv
      rw [h.yields hi hv]
      exact hf E hE i hi view fun j hj => hview j hj hj)
    (fun v hv hvn => by rw [memOf_eq hv]; exact hs _ hvn)
  refine ⟨by simp [hx], fun i hi => ?_⟩
  exact key.2 _ (hR.mem_last (memOf_get0 (x := applyLog x log) (i := i) (by simpa [hx] using hi))) hi

/-! ### The two triangular solves -/

open scoped Matrix.Module

section solves
variable {T : Type} {A : SR T} {m : Nat} {u ilu : List (Matrix (Fin bs) (Fin bs) K)} {S : Nat → Nat → Matrix (Fin bs) (Fin bs) K} {V : Nat → Matrix (Fin bs) (Fin bs) K} {d w : Nat → Fin bs → K} {rho : K}

theorem block_lower_few (hA : A.Full m) (hSo : A.Sorted) (hD : A.HasDiag) (hu : DiagInverted A u ilu)
    (hF : BFew A.nbrows S (lowerFactor A u) (upperFactor A u) V d w rho) (h0 : 0 ≤ rho) (h1 : rho ≤ 1)
    {b : List Seg} (hb : b.length = A.nbrows) {ys : Nat → Seg} (hys : ∀ i < A.nbrows, ∑ k ∈ range A.nbrows, (lowerFactor A u i k).mulVec (ys k) = b⟦i⟧)
    {y y' : List Seg} (hy : y.length = A.nbrows) {E : K} (hE : 0 ≤ E) (hs : ∀ i < A.nbrows, ∀ a, |(V i).mulVec (y⟦i⟧ - ys i) a| ≤ E * w i a) {k : Nat}
    (hr : ARun (unitLowerRow A ilu b) mixWhole k y y') : y'.length = A.nbrows ∧ ∀ i < A.nbrows, ∀ a, |(V i).mulVec (y'⟦i⟧ - ys i) a| ≤ rho ^ k * E * w i a := by
  refine arun_contract_pred (rowUpd_unitLower (M := Seg) hA hSo hD hu.len' hb) (Q := fun E j u => ∀ a, |(V j).mulVec (u - ys j) a| ≤ E * w j a) h0 h1
    (fun E E' j u hj hle h a => (h a).trans (mul_le_mul_of_nonneg_right hle (hF.wnn j hj a))) (fun E hE i hi view hv a => ?_) hy hE hs hr
  have e1 : ∑ k ∈ range A.nbrows, (lowerFactor A u i k).mulVec (view k) = lowSum A u i view + view i := lowerFactor_mul (M := Seg) hA hSo hD hu.len hi view
  have e2 := hys i hi
  rw [hF.lowerSum hi] at e1 e2
  have e3 : b⟦i⟧ - lowSum A ilu i view - ys i = -∑ k ∈ range i, (lowerFactor A u i k).mulVec (view k - ys k) := by
    rw [hu.lowSum_eq hA hD hi, ← add_right_cancel e1, ← e2]
    simp only [Matrix.mulVec_sub, sum_sub_distrib]
    abel
  rw [e3, Matrix.mulVec_neg, Pi.neg_apply, abs_neg]
  refine (hF.low i hi E hE (fun k => view k - ys k) (fun k hk => hv k (by omega)) a).trans_eq ?_
  ring

theorem block_upper_few (hA : A.Full m) (hSo : A.Sorted) (hD : A.HasDiag) (hu : DiagInverted A u ilu)
    (hF : BFew A.nbrows S (lowerFactor A u) (upperFactor A u) V d w rho) (h0 : 0 ≤ rho) (h1 : rho ≤ 1)
    {b : List Seg} (hb : b.length = A.nbrows) {ys zs : Nat → Seg} {δ : K} (hbs : ∀ i < A.nbrows, ∀ a, |(V i).mulVec (b⟦i⟧ - ys i) a| ≤ δ * w i a)
    (hzs : ∀ i < A.nbrows, ∑ k ∈ range A.nbrows, (upperFactor A u i k).mulVec (zs k) = ys i)
    {z z' : List Seg} (hz : z.length = A.nbrows) {E : K} (hE : 0 ≤ E) (hs : ∀ i < A.nbrows, ∀ a, |(z⟦i⟧ - zs i) a| ≤ (δ + E) * d i a) {k : Nat}
    (hr : ARun (blockUpperRow A ilu b) mixWhole k z z') : z'.length = A.nbrows ∧ ∀ i < A.nbrows, ∀ a, |(z'⟦i⟧ - zs i) a| ≤ (δ + rho ^ k * E) * d i a := by
  refine arun_contract_pred (rowUpd_blockUpper (M := Seg) hA hSo hD hu.len' hb) (Q := fun E j u => ∀ a, |(u - zs j) a| ≤ (δ + E) * d j a) h0 h1
    (fun E E' j u hj hle h a => (h a).trans (mul_le_mul_of_nonneg_right (by linarith) (hF.pos j hj a).le)) (fun E hE i hi view hv a => ?_) hz hE hs hr
  have e1 : ∑ k ∈ range A.nbrows, (upperFactor A u i k).mulVec (view k) = (u⟦A.diagind⟦i⟧⟧).mulVec (view i) + upSum A u i view :=
    upperFactor_mul (M := Seg) hA hSo hD hu.len hi view
  have e2 := hzs i hi
  rw [hF.upperSum hi] at e2
  rw [hF.upperSum hi, ← upperFactor_diag hA hSo hD hu.len hi] at e1
  refine hF.back hi (y := b⟦i⟧ - ys i) (z := fun j => view j - zs j) ?_ hE (hbs i hi) (fun j hj _ => hv j hj) a
  show (upperFactor A u i i).mulVec ((ilu⟦A.diagind⟦i⟧⟧).mulVec (b⟦i⟧ - upSum A ilu i view) - zs i) = _
  rw [hu.upSum_eq hA hD hi, ← add_left_cancel e1, Matrix.mulVec_sub, Matrix.mulVec_mulVec, upperFactor_diag hA hSo hD hu.len hi, (hu.diag i hi).1, Matrix.one_mulVec,
    ← upperFactor_diag hA hSo hD hu.len hi, ← e2]
  simp only [Matrix.mulVec_sub, sum_sub_distrib]
  abel

omit [LinearOrder K] [IsStrictOrderedRing K] [Field K] in
/-- The initialisation of the result. -/
theorem applyInitZ_seg {M : Type} [Zero M] {n : Nat} {init : ApplyInit} (hi : init ≠ .none) {ord : List Nat} (hord : ord.Perm (List.range n)) {y z : List M}
    (hy : y.length = n) (hz : z.length = n) :
    Ok (applyInitZ n init ord y z) (fun z' => z'.length = n ∧ ∀ i < n, z'⟦i⟧ = if init = .jacobi then y⟦i⟧ else 0) := by
  cases init with
  | none => exact absurd rfl hi
  | zero => exact par_cells hord hz (fun _ => (0 : M)) fun i hi y' hy' => wr_eq (by omega)
  | jacobi =>
    refine par_cells hord hz (fun i => y⟦i⟧) fun i hi z' hz' => ?_
    rw [rd_eq (by omega), ok_bind, wr_eq (by omega)]

/-- Both solves: `zs` is the exact result. -/
theorem block_solves_few (hA : A.Full m) (hSo : A.Sorted) (hD : A.HasDiag) (hu : DiagInverted A u ilu)
    (hF : BFew A.nbrows S (lowerFactor A u) (upperFactor A u) V d w rho) (h0 : 0 ≤ rho) (h1 : rho ≤ 1) {g : K} (hg0 : 0 ≤ g)
    {init : ApplyInit} (hi : init ≠ .none) (hg : init = .jacobi → ∀ i < A.nbrows, ∀ a, absRow (S i i) (d i) a ≤ g * d i a) {k : Nat} {o₁ o₂ : List Nat}
    (ho₁ : o₁.Perm (List.range A.nbrows)) (ho₂ : o₂.Perm (List.range A.nbrows)) {b y y₁ y' z₂ z' : List Seg}
    (hb : b.length = A.nbrows) (hy : y.length = A.nbrows)
    (e1 : applyInitY A.nbrows init o₁ y = .ok y₁) (e2 : ARun (unitLowerRow A ilu b) mixWhole k y₁ y')
    (e3 : applyInitZ A.nbrows init o₂ y' b = .ok z₂) (e4 : ARun (blockUpperRow A ilu y') mixWhole k z₂ z')
    {R : K} (hR : 0 ≤ R) (hbs : ∀ i < A.nbrows, ∀ G, G * S i i = 1 → ∀ a, |G.mulVec b⟦i⟧ a| ≤ R * ((1 - rho) * d i a)) {zs : Nat → Seg}
    (hzs : ∀ i < A.nbrows, ∑ j ∈ range A.nbrows, (luProd A u i j).mulVec (zs j) = b⟦i⟧) :
    z'.length = A.nbrows ∧ ∀ i < A.nbrows, ∀ a, |(z'⟦i⟧ - zs i) a| ≤ (2 + 4 * g) * R * rho ^ k * d i a := by
  have hk0 : 0 ≤ rho ^ k := pow_nonneg h0 k
  have hk1 : rho ^ k ≤ 1 := pow_le_one₀ h0 h1
  -- the exact intermediate vector
  set ys : Nat → Seg := fun i => ∑ j ∈ range A.nbrows, (upperFactor A u i j).mulVec (zs j) with hys
  have hLy : ∀ i < A.nbrows, ∑ k ∈ range A.nbrows, (lowerFactor A u i k).mulVec (ys k) = b⟦i⟧ := by
    intro i hi
    rw [← hzs i hi]
    have : ∀ k, (lowerFactor A u i k).mulVec (ys k) = ∑ j ∈ range A.nbrows, (lowerFactor A u i k * upperFactor A u k j).mulVec (zs j) := fun k => by
      simp only [hys]
      rw [Matrix.mulVec_sum]
      exact sum_congr rfl fun j _ => Matrix.mulVec_mulVec _ _ _
    rw [sum_congr rfl fun k _ => this k, sum_comm]
    refine sum_congr rfl fun j _ => ?_
    unfold luProd
    rw [Matrix.sum_mulVec]
  have hyb := hF.lower_bound hR hLy hbs
  have hzb := hF.upper_bound (z := zs) (y := ys) (fun _ _ => rfl) hyb
  obtain ⟨hy1, hy0⟩ := (applyInitY_zero hi ho₁ hy).post _ e1
  obtain ⟨hy2, hye⟩ := block_lower_few hA hSo hD hu hF h0 h1 hb hLy hy1 hR (fun i hi a => by
    rw [hy0 i hi, zero_sub, Matrix.mulVec_neg, Pi.neg_apply, abs_neg]; exact hyb i hi a) e2
  obtain ⟨hz2, hz0⟩ := (applyInitZ_seg hi ho₂ hy2 hb).post _ e3
  have hG : 0 ≤ R + 4 * g * R := by positivity
  obtain ⟨hz3, hze⟩ := block_upper_few hA hSo hD hu hF h0 h1 hy2 (ys := ys) (δ := rho ^ k * R) hye (fun _ _ => rfl) hz2 hG (fun i hi a => by
    rw [hz0 i hi]
    have hd := (hF.pos i hi a).le
    have hzi := hzb i hi a
    have n1 : 0 ≤ rho ^ k * R * d i a := by positivity
    split
    · rename_i hj
      have a1 : ∀ c, |(V i).mulVec y'⟦i⟧ c| ≤ 2 * R * d i c := fun c => by
        have e5 : (V i).mulVec y'⟦i⟧ c = (V i).mulVec (y'⟦i⟧ - ys i) c + (V i).mulVec (ys i) c := by
          rw [Matrix.mulVec_sub, Pi.sub_apply, sub_add_cancel]
        have e6 : rho ^ k * R * w i c ≤ R * w i c := mul_le_mul_of_nonneg_right (mul_le_of_le_one_left hR hk1) (hF.wnn i hi c)
        have e7 := mul_le_mul_of_nonneg_left (hF.w_le hi c) hR
        rw [e5]
        refine (abs_add_le _ _).trans ((add_le_add (hye i hi c) (hyb i hi c)).trans ?_)
        linarith
      have a2 : |y'⟦i⟧ a| ≤ 2 * R * (2 * g * d i a) := by
        have e5 : y'⟦i⟧ = (upperFactor A u i i).mulVec ((V i).mulVec y'⟦i⟧) := by rw [Matrix.mulVec_mulVec, (hF.inv i hi).2, Matrix.one_mulVec]
        rw [e5]
        refine (abs_mulVec_le _ _ a).trans ((absRow_mono a1 a).trans ?_)
        rw [absRow_smul]
        exact mul_le_mul_of_nonneg_left (hF.dia i hi g (hg hj i hi) a) (by positivity)
      rw [Pi.sub_apply]
      refine (abs_sub _ _).trans ?_
      nlinarith
    · rw [zero_sub, Pi.neg_apply, abs_neg]
      have : 0 ≤ 4 * g * R * d i a := by positivity
      nlinarith) e4
  refine ⟨hz3, fun i hi a => (hze i hi a).trans_eq ?_⟩
  ring

end solves

/-! ### The application -/

section apply
variable {isq : K → K} {us : Bool} {A : SR (Matrix (Fin bs) (Fin bs) K)} {u ilu : List (Matrix (Fin bs) (Fin bs) K)} {scale : Option (List K)} {d : Nat → Fin bs → K} {rho : K}

/-- **C102** For a (weighted) block dominant matrix with exact factors, `k` asynchronous sweeps of each block triangular solve (in rounds that may overlap, with arbitrary schedules and
reads of segments) give the result of the exact solves up to `rho ^ k` times a constant, in the weighted maximum norm, whatever the number of rows. The constant is 2 for the initialisation
with zeros. For Jacobi's it involves the diagonal blocks of the (scaled) matrix. -/
theorem block_ilu_few_sweeps (hA : A.Full) (hSo : A.Sorted) (hD : A.HasDiag) (hu : DiagInverted A u ilu)
    (hsc : BlockScaleIs isq us A scale) (hex : ExactILU A (blockScaledEntry isq us A) u) (hisq : us = true → ∀ i < A.nbrows, ∀ a, isq (A.entry i i a a) ≠ 0)
    (hdom : WBlockDominant A.nbrows A.entry d rho) (h0 : 0 ≤ rho) (h1 : rho < 1)
    {init : ApplyInit} (hi : init ≠ .none) {g : K} (hg0 : 0 ≤ g)
    (hg : init = .jacobi → ∀ i < A.nbrows, ∀ a, ∑ c, |blockScaledEntry isq us A i i a c| * (d i c / |blockScaleFac isq us A i c|) ≤ g * (d i a / |blockScaleFac isq us A i a|))
    {k : Nat} {ord : Nat → List Nat} (hord : ∀ t, (ord t).Perm (List.range A.nbrows)) {r z y z' y' : List Seg}
    (hr : r.length = A.nbrows) (hz : z.length = A.nbrows) (hy : y.length = A.nbrows)
    (h : AsyncIluApply (unitLowerRow A ilu) (blockUpperRow A ilu) A.nbrows mixWhole (scale.map (blockSeg bs)) k init ord r z y z' y')
    {R : K} (hR : 0 ≤ R) (hrb : ∀ i < A.nbrows, ∀ G, G * A.entry i i = 1 → ∀ a, |G.mulVec r⟦i⟧ a| ≤ R * ((1 - rho) * d i a))
    {s : List Seg} (hs : BlockIluSolved A u scale r s) :
    z'.length = A.nbrows ∧ ∀ i < A.nbrows, ∀ a, |z'⟦i⟧ a - s⟦i⟧ a| ≤ (2 + 4 * g) * R * rho ^ k * d i a := by
  obtain ⟨_, w, hw, heq⟩ := hs
  obtain ⟨z₁, y₁, z₂, z₃, e1, e2, e3, e4, e5, e6⟩ := h
  have hne := fun i hi a => blockScaleFac_ne (A := A) hisq (i := i) hi a
  have hF := bFew_of_exact hA hD hu.len (hdom.scaled (isq := isq) hisq) h0 h1 hex
  have hSeg := segOk_block (K := K) (bs := bs) hsc.length
  obtain ⟨hz1, hv1⟩ := (applyScaleIn_ok hSeg (hord 0) hr hz).post _ e1
  obtain ⟨hz3, hz3e⟩ := block_solves_few hA hSo hD hu hF h0 h1.le hg0 hi hg (hord 1) (hord 2) hz1 hy e2 e3 e4 e5 hR (fun i hi G hG a => by
      -- the inverse of the scaled diagonal block
      set σ := blockScaleFac isq us A i with hσ
      have hmul : G * Matrix.diagonal σ = Matrix.diagonal (fun a => (σ a)⁻¹) * (Matrix.diagonal σ * G * Matrix.diagonal σ) := by
        rw [← mul_assoc, ← mul_assoc, Matrix.diagonal_mul_diagonal, show (fun a => (σ a)⁻¹ * σ a) = fun _ => 1 from funext fun a => inv_mul_cancel₀ (hne i hi a),
          Matrix.diagonal_one, one_mul]
      have hinv : Matrix.diagonal σ * G * Matrix.diagonal σ * A.entry i i = 1 := by
        rw [blockScaledEntry_diagonal, ← hσ] at hG
        have hdd : Matrix.diagonal σ * Matrix.diagonal (fun a => (σ a)⁻¹) = 1 := by
          rw [Matrix.diagonal_mul_diagonal, show (fun a => σ a * (σ a)⁻¹) = fun _ => 1 from funext fun a => mul_inv_cancel₀ (hne i hi a), Matrix.diagonal_one]
        calc Matrix.diagonal σ * G * Matrix.diagonal σ * A.entry i i
            = Matrix.diagonal σ * (G * (Matrix.diagonal σ * A.entry i i * Matrix.diagonal σ)) * Matrix.diagonal (fun a => (σ a)⁻¹) := by
              simp only [mul_assoc]
              rw [hdd, mul_one]
          _ = 1 := by rw [hG, mul_one, hdd]
      have hb : z₁⟦i⟧ = (Matrix.diagonal σ).mulVec r⟦i⟧ := by
        rw [hv1 i hi]
        funext c
        unfold blockScaleAt
        rw [hsc.scaleAt hi, Matrix.mulVec_diagonal]
      rw [hb, Matrix.mulVec_mulVec, hmul, ← Matrix.mulVec_mulVec, Matrix.mulVec_diagonal, abs_mul, abs_inv]
      have hs : 0 < |σ a| := abs_pos.mpr (hne i hi a)
      refine (mul_le_mul_of_nonneg_left (hrb i hi _ hinv a) (inv_nonneg.mpr hs.le)).trans_eq ?_
      field_simp) (zs := w) (fun i hi => by rw [heq i hi, hv1 i hi])
  obtain ⟨hz', hv'⟩ := (applyScaleOut_ok hSeg (hord 3) hz3).post _ e6
  refine ⟨hz', fun i hi a => ?_⟩
  have hs := abs_pos.mpr (hne i hi a)
  rw [hv' i hi, hw i hi]
  unfold blockScaleAt
  rw [← mul_sub, abs_mul, hsc.scaleAt hi]
  refine (mul_le_mul_of_nonneg_left (hz3e i hi a) hs.le).trans_eq ?_
  field_simp

/-- **C102** for executions in which threads may be up to `L - 1` sweeps apart (C68): `t` sweeps count as `k` if `k (2 L - 1) ≤ t`. -/
theorem block_ilu_few_sweeps_exec (hA : A.Full) (hSo : A.Sorted) (hD : A.HasDiag) (hu : DiagInverted A u ilu)
    (hsc : BlockScaleIs isq us A scale) (hex : ExactILU A (blockScaledEntry isq us A) u) (hisq : us = true → ∀ i < A.nbrows, ∀ a, isq (A.entry i i a a) ≠ 0)
    (hdom : WBlockDominant A.nbrows A.entry d rho) (h0 : 0 ≤ rho) (h1 : rho < 1)
    {init : ApplyInit} (hi : init ≠ .none) {g : K} (hg0 : 0 ≤ g)
    (hg : init = .jacobi → ∀ i < A.nbrows, ∀ a, ∑ c, |blockScaledEntry isq us A i i a c| * (d i c / |blockScaleFac isq us A i c|) ≤ g * (d i a / |blockScaleFac isq us A i a|))
    {L k t : Nat} (hL : 1 ≤ L) (hk : 1 ≤ k) (ht : k * (2 * L - 1) ≤ t) {ord : Nat → List Nat} (hord : ∀ t, (ord t).Perm (List.range A.nbrows)) {r z y z' y' : List Seg}
    (hr : r.length = A.nbrows) (hz : z.length = A.nbrows) (hy : y.length = A.nbrows)
    (h : AsyncIluExec (unitLowerP A ilu) (blockUpperP A ilu) A.nbrows (Lag A.nbrows L) (scale.map (blockSeg bs)) t init ord r z y z' y')
    {R : K} (hR : 0 ≤ R) (hrb : ∀ i < A.nbrows, ∀ G, G * A.entry i i = 1 → ∀ a, |G.mulVec r⟦i⟧ a| ≤ R * ((1 - rho) * d i a))
    {s : List Seg} (hs : BlockIluSolved A u scale r s) :
    z'.length = A.nbrows ∧ ∀ i < A.nbrows, ∀ a, |z'⟦i⟧ a - s⟦i⟧ a| ≤ (2 + 4 * g) * R * rho ^ k * d i a :=
  block_ilu_few_sweeps hA hSo hD hu hsc hex hisq hdom h0 h1 hi hg0 hg hord hr hz hy
    (h.apply (fun b => ⟨evals_unitLowerP A ilu b, fun _ hi => once_unitLowerP hSo hD ilu b hi⟩)
      (fun b => ⟨evals_blockUpperP A ilu b, fun _ hi => once_blockUpperP hSo hD ilu b hi⟩) (segOk_block hsc.length) hL hk (fun _ => ht) hi hord hr hz hy) hR hrb hs

/-- `t` steps of the iteration that corrects `x` by the preconditioned residual, each with `k` asynchronous sweeps of the block triangular solves. -/
inductive BlockFewIteration (A : SR (Matrix (Fin bs) (Fin bs) K)) (ilu : List (Matrix (Fin bs) (Fin bs) K)) (scale : Option (List K)) (k : Nat) (init : ApplyInit) (b : List (Fin bs → K)) :
    Nat → List (Fin bs → K) → List (Fin bs → K) → Prop
  | zero (x : List (Fin bs → K)) : BlockFewIteration A ilu scale k init b 0 x x
  | succ {t : Nat} {x y r z z₀ y₀ y₁ : List (Fin bs → K)} {ord : Nat → List Nat} (h : BlockFewIteration A ilu scale k init b t x y) (hr : r.length = A.nbrows)
      (hres : ∀ i < A.nbrows, r⟦i⟧ = b⟦i⟧ - ∑ j ∈ range A.nbrows, (A.entry i j).mulVec y⟦j⟧) (hz : z₀.length = A.nbrows) (hy : y₀.length = A.nbrows)
      (hord : ∀ t, (ord t).Perm (List.range A.nbrows))
      (hap : AsyncIluApply (unitLowerRow A ilu) (blockUpperRow A ilu) A.nbrows mixWhole (scale.map (blockSeg bs)) k init ord r z₀ y₀ z y₁) :
      BlockFewIteration A ilu scale k init b (t + 1) x (List.zipWith (· + ·) y z)

/-- **C102** The preconditioned iteration with `k` asynchronous sweeps per block triangular solve: after `compute`, each step reduces the largest weighted error by the factor
`rho + (2 + 4 g) rho ^ k (1 + rho) / (1 - rho)`, in which neither the number of rows nor the number of threads nor the block size occurs. -/
theorem block_ilu_few_iteration_converges {conf : ILUConf} {ord ord2 ordc : List Nat} {gilu gdblks : List Blk} {gscale : List K} {st st' : ILUState Blk K} {inf : Option (RemInfo K)}
    (hc : BlockSetting conf.usescaling A ord ord2 ordc gilu gdblks gscale st) (hb : 1 ≤ conf.nbuildsweeps)
    (hisq : conf.usescaling = true → ∀ i < A.nbrows, ∀ a, isq (A.entry i i a a) ≠ 0)
    (hdom : WBlockDominant A.nbrows A.entry d rho) (h0 : 0 ≤ rho) (h1 : rho < 1)
    (h : blockCompute isq conf A ord ord2 ordc gilu gdblks gscale st = .ok (inf, st')) (hu : st'.iluvals = some ilu)
    {init : ApplyInit} (hi : init ≠ .none) {g : K} (hg0 : 0 ≤ g)
    (hg : init = .jacobi → ∀ i < A.nbrows, ∀ a,
      ∑ c, |blockScaledEntry isq conf.usescaling A i i a c| * (d i c / |blockScaleFac isq conf.usescaling A i c|) ≤ g * (d i a / |blockScaleFac isq conf.usescaling A i a|))
    {b x y : List Seg} {s : Nat → Seg} (hs : ∀ i < A.nbrows, ∑ j ∈ range A.nbrows, (A.entry i j).mulVec (s j) = b⟦i⟧)
    (hx : x.length = A.nbrows) {c : K} (hc0 : 0 ≤ c) (hxs : ∀ i < A.nbrows, ∀ a, |x⟦i⟧ a - s i a| ≤ c * d i a) {k t : Nat}
    (hit : BlockFewIteration A ilu st'.scale k init b t x y) :
    y.length = A.nbrows ∧ ∀ i < A.nbrows, ∀ a, |y⟦i⟧ a - s i a| ≤ c * (rho + (2 + 4 * g) * rho ^ k * (1 + rho) / (1 - rho)) ^ t * d i a := by
  obtain ⟨_, hsc, u, ilu', hu', hex, _, hinv⟩ := block_ilu_compute_exact hc hb h
  rw [hu] at hu'
  injection hu' with hu'
  subst hu'
  have hrho : 0 < 1 - rho := sub_pos.mpr h1
  set q := rho + (2 + 4 * g) * rho ^ k * (1 + rho) / (1 - rho) with hq
  have hq0 : 0 ≤ q := by
    have := pow_nonneg h0 k
    positivity
  induction hit with
  | zero x => simpa using ⟨hx, hxs⟩
  | @succ t x y r z z₀ y₀ y₁ ord _ hr hres hz hy hord hap ih =>
    obtain ⟨hyl, hyb⟩ := ih hx hxs
    have hM : 0 ≤ c * q ^ t := mul_nonneg hc0 (pow_nonneg hq0 t)
    -- the exact application
    obtain ⟨ze, ye, _, _, hsol⟩ := block_ilu_apply_correct hc.full hc.sorted hc.diag hinv hsc.length (k := 1) le_rfl hi hord hr hz hy
    have hcon := block_ilu_correction_contracts hc.full hc.diag hinv.len hsc hex hisq hdom h0 h1 hs hres hsol hM hyb
    -- the residual
    have hres' : ∀ i < A.nbrows, ∀ G, G * A.entry i i = 1 → ∀ a, |G.mulVec r⟦i⟧ a| ≤ c * q ^ t * (1 + rho) / (1 - rho) * ((1 - rho) * d i a) := by
      intro i hi G hG a
      have e : G.mulVec r⟦i⟧ = -((fun j => y⟦j⟧ - s j) i + ∑ j ∈ (range A.nbrows).erase i, (G * A.entry i j).mulVec ((fun j => y⟦j⟧ - s j) j)) := by
        rw [hres i hi, ← hs i hi, ← sum_sub_distrib]
        have e1 : ∀ j, (A.entry i j).mulVec (s j) - (A.entry i j).mulVec y⟦j⟧ = -(A.entry i j).mulVec (y⟦j⟧ - s j) := fun j => by rw [Matrix.mulVec_sub, neg_sub]
        rw [sum_congr rfl fun j _ => e1 j, sum_neg_distrib, Matrix.mulVec_neg, Matrix.mulVec_sum, ← add_sum_erase _ _ (mem_range.mpr hi), Matrix.mulVec_mulVec, hG, Matrix.one_mulVec]
        congr 2
        exact sum_congr rfl fun j _ => Matrix.mulVec_mulVec _ _ _
      rw [e, Pi.neg_apply, abs_neg, Pi.add_apply]
      have e2 := abs_mulVec_sum_le (s := (range A.nbrows).erase i) (B := fun j => G * A.entry i j) (x := fun j => y⟦j⟧ - s j) (v := d) (c := c * q ^ t)
        (fun j hj a => hyb j (mem_range.mp (mem_of_mem_erase hj)) a) a
      have e3 := mul_le_mul_of_nonneg_left (hdom.dom i hi G hG a) hM
      have e4 := hyb i hi a
      refine (abs_add_le _ _).trans ((add_le_add e4 (e2.trans e3)).trans_eq ?_)
      field_simp
    obtain ⟨hzl, hzb⟩ := block_ilu_few_sweeps hc.full hc.sorted hc.diag hinv hsc hex hisq hdom h0 h1 hi hg0 hg hord hr hz hy hap
      (R := c * q ^ t * (1 + rho) / (1 - rho)) (by positivity) hres' hsol
    refine ⟨by simp [hyl, hzl], fun i hi a => ?_⟩
    have hzip : (List.zipWith (· + ·) y z)⟦i⟧ = y⟦i⟧ + z⟦i⟧ := by
      rw [get0_eq_getElem (by simp [hyl, hzl, hi]), get0_eq_getElem (by omega), get0_eq_getElem (by omega), List.getElem_zipWith]
    rw [hzip, Pi.add_apply, show y⟦i⟧ a + z⟦i⟧ a - s i a = (y⟦i⟧ a + ze⟦i⟧ a - s i a) + (z⟦i⟧ a - ze⟦i⟧ a) by ring]
    refine (abs_add_le _ _).trans ((add_le_add (hcon i hi a) (hzb i hi a)).trans_eq ?_)
    rw [pow_succ, hq]
    field_simp

end apply

/-! ### Non-vacuity -/

omit [LinearOrder K] [IsStrictOrderedRing K] in
/-- Executions of every number of sweeps exist. -/
theorem exists_asyncBlockIluApply {T : Type} {A : SR T} {m : Nat} {u : List (Matrix (Fin bs) (Fin bs) K)} {scale : Option (List K)} (hA : A.Full m) (hSo : A.Sorted) (hD : A.HasDiag)
    (hl : u.length = A.browptr⟦A.nbrows⟧) (hs : ScaleLen scale (A.nbrows * bs)) {k : Nat} (hk : 1 ≤ k) {init : ApplyInit} (hi : init ≠ .none)
    {ord : Nat → List Nat} (hord : ∀ t, (ord t).Perm (List.range A.nbrows)) {r z y : List (Fin bs → K)} (hr : r.length = A.nbrows) (hz : z.length = A.nbrows)
    (hy : y.length = A.nbrows) :
    ∃ z' y', AsyncIluApply (unitLowerRow A u) (blockUpperRow A u) A.nbrows mixWhole (scale.map (blockSeg bs)) k init ord r z y z' y' := by
  have hl' := triUpd_unitLower (M := Fin bs → K) hA hSo hD hl
  have hu' := triUpd_blockUpper (M := Fin bs → K) hA hSo hD hl
  have hS := segOk_block (K := K) (bs := bs) hs
  obtain ⟨z₁, e1, hz1, -⟩ := applyScaleIn_ok hS (hord 0) hr hz
  obtain ⟨y₁, e2, hy1⟩ := applyInitY_ok init (hord 1) hy
  obtain ⟨v, -, -, hv⟩ := (hl'.upd z₁ hz1).fwd (fun _ _ h => h.2) le_rfl hy1
  obtain ⟨y', h3, hy', -⟩ := (hl'.upd z₁ hz1).exists_exact (mix := mixWhole) (fun _ _ h => h) id_involutive (fun i _ j _ h => h.2) hv hy1 hk
  obtain ⟨z₂, e4, hz2⟩ := applyInitZ_ok hi (hord 2) hy' hz1
  obtain ⟨w, -, -, hw⟩ := (hu'.upd y' hy').bwd (fun _ _ h => h.2) le_rfl hz2
  obtain ⟨z₃, h5, hz3, -⟩ := (hu'.upd y' hy').exists_exact (mix := mixWhole) (fun _ _ h => h) rev_involutive (fun i hi j hj h => by have := h.2; omega) hw hz2 hk
  obtain ⟨z', e6, -⟩ := applyScaleOut_ok hS (hord 3) hz3
  exact ⟨z', y', z₁, y₁, z₂, z₃, e1, e2, h3, e4, h5, e6⟩

theorem exBD_inverse {i : Nat} (hi : i < 3) {G : Matrix (Fin 2) (Fin 2) ℚ} (hG : G * exBD.entry i i = 1) : G = exBDinv⟦i⟧ := by
  have hu : ∀ i < 3, exBDinv⟦i⟧ * exBD.entry i i = 1 ∧ exBD.entry i i * exBDinv⟦i⟧ = 1 := by decide +kernel
  rw [← mul_one G, ← (hu i hi).2, ← mul_assoc, hG, one_mul]

/-- Non-vacuity of `block_ilu_few_sweeps` and `block_ilu_few_sweeps_exec`: an application with scaling, of six sweeps in which threads may be one sweep apart, which count as two. -/
example : ∃ (u ilu : List (Matrix (Fin 2) (Fin 2) ℚ)) (z' y' s : List (Fin 2 → ℚ)), exBDstate.iluvals = some ilu ∧
    AsyncIluExec (unitLowerP exBD ilu) (blockUpperP exBD ilu) 3 (Lag 3 2) (exBDstate.scale.map (blockSeg 2)) 6 .zero (fun _ => [2, 0, 1]) exBDb
      [![7, 7], ![7, 7], ![7, 7]] [![9, 9], ![9, 9], ![9, 9]] z' y' ∧
    BlockIluSolved exBD u exBDstate.scale exBDb s ∧ ∀ i < 3, ∀ a, |z'⟦i⟧ a - s⟦i⟧ a| ≤ (2 + 4 * 0) * 5 * (5/8) ^ 2 * 1 := by
  have hc := exBD_setting true
  obtain ⟨_, hsc, u, ilu, hu', hex, _, hinv⟩ := block_ilu_compute_exact hc (conf := ⟨true, 2, .sgs, false⟩) (by decide) exBD_compute
  have hord : ∀ t : Nat, ((fun _ : Nat => [2, 0, 1]) t).Perm (List.range 3) := fun _ => (by decide : [2, 0, 1].Perm (List.range 3))
  have hL := lag_lt (n := 3) (L := 2) (by decide)
  have hlen : ∀ {p : Nat → Prog (Fin 2 → ℚ) (Fin 2 → ℚ)} {x x' : List (Fin 2 → ℚ)}, AsyncExec (Lag 3 2) 3 (6 * 3) p x x' → x'.length = x.length := by
    rintro p x x' ⟨k, log, ps, -, -, rfl⟩
    exact applyLog_length ..
  have hS := segOk_block (K := ℚ) (bs := 2) hsc.length
  obtain ⟨z₁, e1, hz1, -⟩ := applyScaleIn_ok hS (hord 0) (r := exBDb) rfl (z := [![7, 7], ![7, 7], ![7, 7]]) rfl
  obtain ⟨y₁, e2, hy1⟩ := applyInitY_ok .zero (hord 1) (y := [![9, 9], ![9, 9], (![9, 9] : Fin 2 → ℚ)]) rfl
  obtain ⟨y', h1⟩ := ((triAny_unitLower (M := Fin 2 → ℚ) hc.full hc.sorted hc.diag hinv.len').upd z₁ hz1).exec_exists
    ⟨evals_unitLowerP exBD ilu _, fun i hi => once_unitLowerP hc.sorted hc.diag _ _ hi⟩ hy1 hL 6
  have hy' : y'.length = 3 := (hlen h1).trans hy1
  obtain ⟨z₂, e4, hz2⟩ := applyInitZ_ok (init := .zero) (by decide) (hord 2) hy' hz1
  obtain ⟨z₃, h2⟩ := ((triAny_blockUpper (M := Fin 2 → ℚ) hc.full hc.sorted hc.diag hinv.len').upd y' hy').exec_exists
    ⟨evals_blockUpperP exBD ilu _, fun i hi => once_blockUpperP hc.sorted hc.diag _ _ hi⟩ hz2 hL 6
  obtain ⟨z', e6, -⟩ := applyScaleOut_ok hS (hord 3) ((hlen h2).trans hz2)
  obtain ⟨s, -, -, -, hs⟩ := block_ilu_apply_correct hc.full hc.sorted hc.diag hinv hsc.length (k := 1) le_rfl (init := .zero) (by decide) hord (r := exBDb) rfl
    (z := [![7, 7], ![7, 7], ![7, 7]]) rfl (y := [![9, 9], ![9, 9], ![9, 9]]) rfl
  have h : AsyncIluExec (unitLowerP exBD ilu) (blockUpperP exBD ilu) 3 (Lag 3 2) (exBDstate.scale.map (blockSeg 2)) 6 .zero (fun _ => [2, 0, 1]) exBDb
      [![7, 7], ![7, 7], ![7, 7]] [![9, 9], ![9, 9], ![9, 9]] z' y' := ⟨z₁, y₁, z₂, z₃, e1, e2, h1, e4, h2, e6⟩
  refine ⟨u, ilu, z', y', s, hu', h, hs, ?_⟩
  exact (block_ilu_few_sweeps_exec hc.full hc.sorted hc.diag hinv hsc hex (fun _ => by decide +kernel) exBD_dominant (by norm_num) (by norm_num) (by decide) le_rfl (by decide)
    (L := 2) (k := 2) (by decide) (by decide) (by decide) hord rfl rfl rfl h (R := 5) (by norm_num) (fun i hi G hG => by
      rw [exBD_inverse hi hG]
      clear hG
      revert i
      decide +kernel) hs).2

/-- Non-vacuity of `block_ilu_few_iteration_converges`: a step with eight sweeps, which reduces the error at least by the factor 21/25. -/
example : ∃ (ilu : List (Matrix (Fin 2) (Fin 2) ℚ)) (x : List (Fin 2 → ℚ)), exBDstate.iluvals = some ilu ∧
    BlockFewIteration exBD ilu exBDstate.scale 8 .zero exBDb 1 [0, 0, 0] x ∧ ∀ i < 3, ∀ a, |x⟦i⟧ a - 1| ≤ 21/25 := by
  have hc := exBD_setting true
  obtain ⟨_, hsc, u, ilu, hu', hex, _, hinv⟩ := block_ilu_compute_exact hc (conf := ⟨true, 2, .sgs, false⟩) (by decide) exBD_compute
  obtain ⟨z, y', hz⟩ := exists_asyncBlockIluApply (r := exBDb) (z := [![7, 7], ![7, 7], ![7, 7]]) (y := [![9, 9], ![9, 9], ![9, 9]]) hc.full hc.sorted hc.diag hinv.len' hsc.length
    (k := 8) (by decide) (init := .zero) (by decide) (ord := fun _ => [1, 2, 0]) (fun _ => by decide) rfl rfl rfl
  have hit : BlockFewIteration exBD ilu exBDstate.scale 8 .zero exBDb 1 [0, 0, 0] (List.zipWith (· + ·) [0, 0, 0] z) :=
    .succ (.zero _) rfl (fun i hi => by
      rw [sum_eq_zero fun j _ => ?_, sub_zero]
      rw [show ([0, 0, 0] : List (Fin 2 → ℚ))⟦j⟧ = 0 by
        rcases j with _ | _ | _ | j <;> rfl, Matrix.mulVec_zero]) rfl rfl (fun _ => by decide) hz
  refine ⟨ilu, _, hu', hit, fun i hi a => ?_⟩
  have := (block_ilu_few_iteration_converges hc (conf := ⟨true, 2, .sgs, false⟩) (by decide) (fun _ => by decide +kernel) exBD_dominant (by norm_num) (by norm_num) exBD_compute hu'
    (init := .zero) (by decide) (g := 0) le_rfl (by decide) (s := fun _ _ => 1) (by decide +kernel) rfl (c := 1) (by norm_num) (by decide +kernel) hit).2 i hi a
  refine this.trans ?_
  norm_num

end Blasted
