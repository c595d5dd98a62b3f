import Verif.Relax.WeightProps
import Verif.Solve.SharpProps

/-!
# Few asynchronous sweeps (C98)

The theorems on the asynchronous applications so far need as many sweeps as there are rows. Here the matrix is (weighted) dominant, and the number of sweeps is arbitrary: the error
left by `k` sweeps of each triangular solve is `rho ^ k` times a constant.
-/

namespace Blasted

open Finset

variable {K : Type} [Field K] [LinearOrder K] [IsStrictOrderedRing K]

/-! ### The factors of a dominant matrix contract -/

/-- The rows of `U` are dominant with the ratio of the matrix. -/
theorem RowFac.upper_le {n : Nat} {St : Nat → Nat → Prop} {S L U : Nat → Nat → K} {i : Nat} (h : RowFac n St S L U i) (hi : i < n)
    (hU : ∀ k j, j < k → U k j = 0) {d : Nat → K} {rho : K} (hS : WDominant n S d rho) (h0 : 0 ≤ rho) (h1 : rho ≤ 1)
    (hv : ∀ k < i, 0 ≤ excess n U d k) : ∑ j ∈ Ico (i + 1) n, |U i j| * d j ≤ rho * (|U i i| * d i) := by
  classical
  -- the estimate with the weight of column `i` reduced
  set d' : Nat → K := fun j => if j = i then rho * d j else d j with hd'
  have hd0 : ∀ j < n, 0 ≤ d' j := fun j hj => by
    simp only [hd']
    split
    · exact mul_nonneg h0 (hS.pos j hj).le
    · exact (hS.pos j hj).le
  have hle : ∀ j < n, d' j ≤ d j := fun j hj => by
    simp only [hd']
    split
    · exact mul_le_of_le_one_left (hS.pos j hj).le h1
    · exact le_rfl
  have hdi : d' i = rho * d i := if_pos rfl
  have hne : ∀ j, j ≠ i → d' j = d j := fun j hj => if_neg hj
  have key := h.estimate hi hU hd0 zero_le_one le_rfl
    (N := fun j => if St i j then 0 else ∑ k ∈ range n, L i k * U k j)
    (fun j _ hst => if_pos hst) (fun j _ hst => if_neg hst)
  have e1 : 0 ≤ ∑ j ∈ range n, |if St i j then 0 else ∑ k ∈ range n, L i k * U k j| * d' j :=
    sum_nonneg fun j hj => mul_nonneg (abs_nonneg _) (hd0 j (mem_range.mp hj))
  have e2 : 0 ≤ ∑ k ∈ range i, |L i k| * excess n U d' k := by
    refine sum_nonneg fun k hk => mul_nonneg (abs_nonneg _) ((hv k (mem_range.mp hk)).trans ?_)
    unfold excess
    rw [hne k (by rw [mem_range] at hk; omega)]
    exact sub_le_sub_left (sum_le_sum fun j hj => mul_le_mul_of_nonneg_left (hle j (mem_Ico.mp hj).2) (abs_nonneg _)) _
  have e3 := hS.dom i hi
  rw [sum_erase_split hi] at e3
  have c1 : ∑ j ∈ range i, |S i j| * d' j = ∑ j ∈ range i, |S i j| * d j :=
    sum_congr rfl fun j hj => by rw [hne j (by rw [mem_range] at hj; omega)]
  have c2 : ∀ T : Nat → Nat → K, ∑ j ∈ Ico (i + 1) n, |T i j| * d' j = ∑ j ∈ Ico (i + 1) n, |T i j| * d j :=
    fun T => sum_congr rfl fun j hj => by rw [hne j (by rw [mem_Ico] at hj; omega)]
  unfold excess at key
  rw [c1, c2, c2, hdi] at key
  unfold excess at e2
  linarith

/-- The same estimate for `L`, with what is left for a right-hand side. -/
theorem RowFac.lower_le {n : Nat} {St : Nat → Nat → Prop} {S L U : Nat → Nat → K} {i : Nat} (h : RowFac n St S L U i) (hi : i < n)
    (hU : ∀ k j, j < k → U k j = 0) {d : Nat → K} {rho : K} (hS : WDominant n S d rho) :
    ∑ k ∈ range i, |L i k| * excess n U d k + (1 - rho) * (|S i i| * d i) ≤ excess n U d i := by
  classical
  have key := h.estimate hi hU (fun j hj => (hS.pos j hj).le) zero_le_one le_rfl
    (N := fun j => if St i j then 0 else ∑ k ∈ range n, L i k * U k j)
    (fun j _ hst => if_pos hst) (fun j _ hst => if_neg hst)
  have h1 : 0 ≤ ∑ j ∈ range n, |if St i j then 0 else ∑ k ∈ range n, L i k * U k j| * d j :=
    sum_nonneg fun j hj => mul_nonneg (abs_nonneg _) (hS.pos j (mem_range.mp hj)).le
  have h3 := hS.dom i hi
  rw [sum_erase_split hi] at h3
  linarith

/-- The diagonal of `U` is not much larger than that of the matrix. -/
theorem RowFac.diag_le {n : Nat} {St : Nat → Nat → Prop} {S L U : Nat → Nat → K} {i : Nat} (h : RowFac n St S L U i) (hi : i < n)
    (hU : ∀ k j, j < k → U k j = 0) {d : Nat → K} {rho : K} (hS : WDominant n S d rho) (hv : ∀ k < i, 0 ≤ excess n U d k) :
    |U i i| ≤ (1 + rho) * |S i i| := by
  classical
  -- the estimate without column `i`
  set d' : Nat → K := fun j => if j = i then 0 else d j with hd'
  have hd0 : ∀ j < n, 0 ≤ d' j := fun j hj => by
    simp only [hd']
    split
    · exact le_rfl
    · exact (hS.pos j hj).le
  have hdi : d' i = 0 := if_pos rfl
  have hne : ∀ j, j ≠ i → d' j = d j := fun j hj => if_neg hj
  have key := h.estimate hi hU hd0 (t := 0) le_rfl zero_le_one
    (N := fun j => if St i j then 0 else ∑ k ∈ range n, L i k * U k j)
    (fun j _ hst => if_pos hst) (fun j _ hst => if_neg hst)
  have e1 : 0 ≤ ∑ j ∈ range n, |if St i j then 0 else ∑ k ∈ range n, L i k * U k j| * d' j :=
    sum_nonneg fun j hj => mul_nonneg (abs_nonneg _) (hd0 j (mem_range.mp hj))
  have e2 : ∑ k ∈ range i, |L i k| * (|U k i| * d i) ≤ ∑ k ∈ range i, |L i k| * excess n U d' k := by
    refine sum_le_sum fun k hk => mul_le_mul_of_nonneg_left ?_ (abs_nonneg _)
    rw [mem_range] at hk
    have := hv k hk
    unfold excess at this ⊢
    rw [hne k (by omega)]
    have hmem : i ∈ Ico (k + 1) n := mem_Ico.mpr ⟨hk, hi⟩
    rw [← sum_erase_add _ _ hmem] at this
    rw [← sum_erase_add _ _ hmem, hdi, mul_zero, add_zero, sum_congr rfl fun j hj => by rw [hne j (ne_of_mem_erase hj)]]
    linarith
  have e3 := hS.dom i hi
  rw [sum_erase_split hi] at e3
  have c1 : ∑ j ∈ range i, |S i j| * d' j = ∑ j ∈ range i, |S i j| * d j :=
    sum_congr rfl fun j hj => by rw [hne j (by rw [mem_range] at hj; omega)]
  rw [c1] at key
  have e4 := hS.low_nonneg i (Ico (i + 1) n) (fun j hj => by rw [mem_Ico] at hj; exact mem_range.mpr hj.2)
  have e5 : U i i = S i i - ∑ k ∈ range i, L i k * U k i := by
    have := h.prod i hi h.diag
    rw [← sum_range_add_sum_Ico _ hi, sum_range_succ, h.one,
      sum_eq_zero (s := Ico (i + 1) n) fun k hk => by rw [h.above k (by rw [mem_Ico] at hk; omega), zero_mul]] at this
    linear_combination this
  have e6 : |∑ k ∈ range i, L i k * U k i| * d i ≤ ∑ k ∈ range i, |L i k| * (|U k i| * d i) := by
    refine (mul_le_mul_of_nonneg_right (abs_sum_le_sum_abs _ _) (hS.pos i hi).le).trans_eq ?_
    rw [sum_mul]
    exact sum_congr rfl fun k _ => by rw [abs_mul]; ring
  refine le_of_mul_le_mul_right ?_ (hS.pos i hi)
  have e7 : |U i i| ≤ |S i i| + |∑ k ∈ range i, L i k * U k i| := by
    rw [e5]; exact abs_sub _ _
  have e8 := mul_le_mul_of_nonneg_right e7 (hS.pos i hi).le
  linarith

/-- What dominance gives for exact factors: `w` are the weights in which the sweeps with `L` contract. -/
structure FewFac (n : Nat) (S L U : Nat → Nat → K) (d w : Nat → K) (rho : K) : Prop where
  one : ∀ i < n, L i i = 1
  above : ∀ i < n, ∀ k, i < k → L i k = 0
  below : ∀ i < n, ∀ j < i, U i j = 0
  piv : ∀ i < n, U i i ≠ 0
  pos : ∀ i < n, 0 < d i
  wnn : ∀ i < n, 0 ≤ w i
  wdef : ∀ i < n, w i = |U i i| * d i - ∑ j ∈ Ico (i + 1) n, |U i j| * d j
  low : ∀ i < n, ∑ k ∈ range i, |L i k| * w k ≤ rho * w i
  rhs : ∀ i < n, ∑ k ∈ range i, |L i k| * w k + (1 - rho) * (|S i i| * d i) ≤ w i
  up : ∀ i < n, ∑ j ∈ Ico (i + 1) n, |U i j| * d j ≤ rho * (|U i i| * d i)
  dia : ∀ i < n, |U i i| ≤ (1 + rho) * |S i i|

theorem fewFac_of_exact {V : Type} {A : SR V} {m : Nat} (hA : A.Full m) (hD : A.HasDiag) {u : List K}
    (hl : u.length = A.browptr⟦A.nbrows⟧) {S : Nat → Nat → K} {d : Nat → K} {rho : K} (hS : WDominant A.nbrows S d rho)
    (h0 : 0 ≤ rho) (h1 : rho < 1) (he : ExactILU A S u) :
    FewFac A.nbrows S (lowerFactor A u) (upperFactor A u) d (excess A.nbrows (upperFactor A u) d) rho := by
  have hrow := fun i hi => rowFac_of_exact hA hD hl hi (he i hi)
  have hU := upperFactor_zero A u
  have hge := fun i (hi : i < A.nbrows) => exact_excess hA hD hl hS h1 hi fun k hk => he k (by omega)
  have hex : ∀ i < A.nbrows, 0 ≤ excess A.nbrows (upperFactor A u) d i := fun i hi =>
    le_trans (mul_nonneg (sub_nonneg.mpr h1.le) (mul_nonneg (abs_nonneg _) (hS.pos i hi).le)) (hge i hi)
  exact {
    one := fun i hi => (hrow i hi).one
    above := fun i hi k hk => (hrow i hi).above k hk
    below := fun i _ j hj => hU i j hj
    piv := fun i hi => pivot_ne_zero hS h1 hi (hge i hi)
    pos := hS.pos
    wnn := hex
    wdef := fun i _ => rfl
    low := fun i hi => by
      classical
      have := (hrow i hi).fill_le hi hU hS h0 h1.le
        (N := fun j => if (∃ p, A.InRow i p ∧ A.bcolind⟦p⟧ = j) then 0 else ∑ k ∈ range A.nbrows, lowerFactor A u i k * upperFactor A u k j)
        (fun j _ hst => if_pos hst) (fun j _ hst => if_neg hst)
      refine le_trans (le_add_of_nonneg_left ?_) this
      exact sum_nonneg fun j hj => mul_nonneg (abs_nonneg _) (hS.pos j (mem_range.mp hj)).le
    rhs := fun i hi => (hrow i hi).lower_le hi hU hS
    up := fun i hi => (hrow i hi).upper_le hi hU hS h0 h1.le fun k hk => hex k (by omega)
    dia := fun i hi => (hrow i hi).diag_le hi hU hS fun k hk => hex k (by omega) }

namespace FewFac

variable {n : Nat} {S L U : Nat → Nat → K} {d w : Nat → K} {rho : K}

omit [IsStrictOrderedRing K] in
theorem lowerSum (h : FewFac n S L U d w rho) {i : Nat} (hi : i < n) (x : Nat → K) :
    ∑ j ∈ range n, L i j * x j = ∑ k ∈ range i, L i k * x k + x i := by
  rw [← sum_range_add_sum_Ico _ hi, sum_range_succ, h.one i hi,
    sum_eq_zero (s := Ico (i + 1) n) fun k hk => by rw [h.above i hi k (by rw [mem_Ico] at hk; omega), zero_mul]]
  ring

omit [IsStrictOrderedRing K] in
theorem upperSum (h : FewFac n S L U d w rho) {i : Nat} (hi : i < n) (x : Nat → K) :
    ∑ j ∈ range n, U i j * x j = U i i * x i + ∑ j ∈ Ico (i + 1) n, U i j * x j := by
  rw [← sum_range_add_sum_Ico _ hi, sum_range_succ,
    sum_eq_zero (s := range i) fun j hj => by rw [h.below i hi j (mem_range.mp hj), zero_mul]]
  ring

/-- A weighted sum. -/
theorem abs_sum_le {s : Finset Nat} {a x v : Nat → K} {c : K} (hx : ∀ j ∈ s, |x j| ≤ c * v j) :
    |∑ j ∈ s, a j * x j| ≤ c * ∑ j ∈ s, |a j| * v j := by
  refine (abs_sum_le_sum_abs _ _).trans ?_
  rw [mul_sum]
  refine sum_le_sum fun j hj => ?_
  rw [abs_mul]
  have := mul_le_mul_of_nonneg_left (hx j hj) (abs_nonneg (a j))
  linarith

/-- The solution of the lower system is bounded by the right-hand side. -/
theorem lower_bound (h : FewFac n S L U d w rho) {y b : Nat → K} {R : K} (hR : 0 ≤ R)
    (hy : ∀ i < n, ∑ k ∈ range n, L i k * y k = b i) (hb : ∀ i < n, |b i| ≤ R * ((1 - rho) * (|S i i| * d i))) :
    ∀ i < n, |y i| ≤ R * w i := by
  intro i
  induction i using Nat.strong_induction_on with
  | _ i ih =>
    intro hi
    have e := hy i hi
    rw [h.lowerSum hi] at e
    have e2 : y i = b i - ∑ k ∈ range i, L i k * y k := by linear_combination e
    have e3 := abs_sum_le (a := L i) (x := y) (v := w) (c := R) (s := range i) fun k hk => ih k (mem_range.mp hk) (by rw [mem_range] at hk; omega)
    rw [e2]
    refine (abs_sub _ _).trans ?_
    have e4 := mul_le_mul_of_nonneg_left (h.rhs i hi) hR
    have e5 := hb i hi
    rw [mul_add] at e4
    linarith

/-- The solution of the upper system is bounded by the right-hand side. -/
theorem upper_bound (h : FewFac n S L U d w rho) {z y : Nat → K} {R : K}
    (hz : ∀ i < n, ∑ k ∈ range n, U i k * z k = y i) (hy : ∀ i < n, |y i| ≤ R * w i) : ∀ i < n, |z i| ≤ R * d i := by
  have key : ∀ t i, i < n → n - i = t → |z i| ≤ R * d i := by
    intro t
    induction t using Nat.strong_induction_on with
    | _ t ih =>
      intro i hi ht
      have e := hz i hi
      rw [h.upperSum hi] at e
      have e2 : U i i * z i = y i - ∑ j ∈ Ico (i + 1) n, U i j * z j := by linear_combination e
      have e3 := abs_sum_le (a := U i) (x := z) (v := d) (c := R) (s := Ico (i + 1) n) fun j hj => by
        rw [mem_Ico] at hj; exact ih _ (by omega) j hj.2 rfl
      have e4 := hy i hi
      rw [h.wdef i hi] at e4
      have e5 : |U i i| * |z i| ≤ |U i i| * (R * d i) := by
        rw [← abs_mul, e2]
        refine (abs_sub _ _).trans ?_
        linarith
      exact le_of_mul_le_mul_left e5 (abs_pos.mpr (h.piv i hi))
  exact fun i hi => key _ i hi rfl

end FewFac

/-! ### Rounds -/

/-- Asynchronous rounds of an update that contracts, up to `δ`, towards `e`. -/
theorem arun_contract_to {upd : Nat → (Nat → C K) → C K} {n : Nat} {D : Nat → Nat → Prop} {f : Nat → (Nat → K) → K} (h : RowUpd upd n D f)
    {e w : Nat → K} {rho δ : K} (hw : ∀ i < n, 0 ≤ w i) (h0 : 0 ≤ rho) (h1 : rho ≤ 1)
    (hf : ∀ E, 0 ≤ E → ∀ i < n, ∀ view : Nat → K, (∀ j < n, |view j - e j| ≤ (δ + E) * w j) → |f i view - e i| ≤ (δ + rho * E) * w i)
    {x x' : List K} (hx : x.length = n) {E : K} (hE : 0 ≤ E) (hs : ∀ i < n, |x⟦i⟧ - e i| ≤ (δ + E) * w i) {k : Nat}
    (hr : ARun upd mixWhole k x x') : x'.length = n ∧ ∀ i < n, |x'⟦i⟧ - e i| ≤ (δ + rho ^ k * E) * w i := by
  obtain ⟨log, last, hR, rfl⟩ := hr
  have key := hR.contract (Q := fun E j u => j < n → |u - e j| ≤ (δ + E) * w j) h0 h1 hE (fun E j S hS v hv => hS v hv)
    (fun E E' j u hle hu hj => (hu hj).trans (mul_le_mul_of_nonneg_right (by linarith) (hw j hj)))
    (fun E hE i hi view hview v hv _ => by
      rw [hx] at hi hview hv
      rw [h.yields hi hv]
      exact hf E hE i hi view fun j hj => hview j hj hj)
    (fun v hv hvn => by rw [memOf_eq hv]; exact hs _ hvn)
  refine ⟨by simp [hx], fun i hi => ?_⟩
  exact key.2 _ (hR.mem_last (memOf_get0 (x := applyLog x log) (i := i) (by simpa [hx] using hi))) hi

/-! ### The two triangular solves -/

section solves
variable {V : Type} {A : SR V} {m : Nat} {u : List K} {S : Nat → Nat → K} {d w : Nat → K} {rho : K}

theorem lower_few (hA : A.Full m) (hSo : A.Sorted) (hD : A.HasDiag) (hl : u.length = A.browptr⟦A.nbrows⟧)
    (hF : FewFac A.nbrows S (lowerFactor A u) (upperFactor A u) d w rho) (h0 : 0 ≤ rho) (h1 : rho ≤ 1)
    {b : List K} (hb : b.length = A.nbrows) {ys : Nat → K} (hys : ∀ i < A.nbrows, ∑ k ∈ range A.nbrows, lowerFactor A u i k * ys k = b⟦i⟧)
    {y y' : List K} (hy : y.length = A.nbrows) {E : K} (hE : 0 ≤ E) (hs : ∀ i < A.nbrows, |y⟦i⟧ - ys i| ≤ E * w i) {k : Nat}
    (hr : ARun (unitLowerRow A u b) mixWhole k y y') : y'.length = A.nbrows ∧ ∀ i < A.nbrows, |y'⟦i⟧ - ys i| ≤ rho ^ k * E * w i := by
  have := arun_contract_to (rowUpd_unitLower hA hSo hD hl hb) (e := ys) (δ := 0) hF.wnn h0 h1 (fun E hE i hi view hv => ?_) hy hE
    (by simpa using hs) hr
  · simpa using this
  · have e1 := lowerFactor_mul hA hSo hD hl hi view
    have e2 := hys i hi
    simp only [smul_eq_mul] at e1
    rw [hF.lowerSum hi] at e1 e2
    have e3 : b⟦i⟧ - lowSum A u i view - ys i = -∑ k ∈ range i, lowerFactor A u i k * (view k - ys k) := by
      simp only [mul_sub, sum_sub_distrib]
      linear_combination e1 - e2
    rw [e3, abs_neg, zero_add]
    refine (FewFac.abs_sum_le (v := w) (c := E) fun k hk => ?_).trans ?_
    · rw [mem_range] at hk
      simpa using hv k (by omega)
    · have := mul_le_mul_of_nonneg_left (hF.low i hi) hE
      linarith

theorem upper_few (hA : A.Full m) (hSo : A.Sorted) (hD : A.HasDiag) (hl : u.length = A.browptr⟦A.nbrows⟧)
    (hF : FewFac A.nbrows S (lowerFactor A u) (upperFactor A u) d w rho) (h0 : 0 ≤ rho) (h1 : rho ≤ 1)
    {b : List K} (hb : b.length = A.nbrows) {ys zs : Nat → K} {δ : K} (hbs : ∀ i < A.nbrows, |b⟦i⟧ - ys i| ≤ δ * w i)
    (hzs : ∀ i < A.nbrows, ∑ k ∈ range A.nbrows, upperFactor A u i k * zs k = ys i)
    {z z' : List K} (hz : z.length = A.nbrows) {E : K} (hE : 0 ≤ E) (hs : ∀ i < A.nbrows, |z⟦i⟧ - zs i| ≤ (δ + E) * d i) {k : Nat}
    (hr : ARun (upperRow A u b) mixWhole k z z') : z'.length = A.nbrows ∧ ∀ i < A.nbrows, |z'⟦i⟧ - zs i| ≤ (δ + rho ^ k * E) * d i := by
  have hp : PivotsOk A u := fun i hi => isUnit_iff_ne_zero.mpr (hF.piv i hi)
  obtain ⟨dinv, hd⟩ := exists_dinv hA hSo hD hl hp
  refine arun_contract_to (rowUpd_upper hA hSo hD hl hd hb) (e := zs) (fun i hi => (hF.pos i hi).le) h0 h1 (fun E hE i hi view hv => ?_) hz hE hs hr
  have hdi : dinv⟦i⟧ * upperFactor A u i i = 1 := by
    rw [upperFactor_diag hA hSo hD hl hi]
    exact (PInv.pinv_ok (hd i hi)).2
  have e1 := upperFactor_mul hA hSo hD hl hi view
  have e2 := hzs i hi
  simp only [smul_eq_mul] at e1
  rw [hF.upperSum hi, ← upperFactor_diag hA hSo hD hl hi] at e1
  rw [hF.upperSum hi] at e2
  have e3 : upperFactor A u i i * (dinv⟦i⟧ • (b⟦i⟧ - upSum A u i view) - zs i) =
      (b⟦i⟧ - ys i) - ∑ j ∈ Ico (i + 1) A.nbrows, upperFactor A u i j * (view j - zs j) := by
    simp only [mul_sub, sum_sub_distrib, smul_eq_mul]
    linear_combination e1 - e2 + (b⟦i⟧ - upSum A u i view) * hdi
  refine le_of_mul_le_mul_left ?_ (abs_pos.mpr (hF.piv i hi))
  rw [← abs_mul, e3]
  refine (abs_sub _ _).trans ?_
  have e4 := FewFac.abs_sum_le (a := upperFactor A u i) (x := fun j => view j - zs j) (v := d) (c := δ + E) (s := Ico (i + 1) A.nbrows)
    fun j hj => hv j (mem_Ico.mp hj).2
  have e5 := hbs i hi
  rw [hF.wdef i hi] at e5
  have e6 := mul_le_mul_of_nonneg_left (hF.up i hi) hE
  rw [mul_sub] at e5
  rw [add_mul] at e4
  nlinarith

omit [LinearOrder K] [IsStrictOrderedRing K] in
/-- The initialisation of the result. -/
theorem applyInitZ_val {n : Nat} {init : ApplyInit} (hi : init ≠ .none) {ord : List Nat} (hord : ord.Perm (List.range n)) {y z : List K}
    (hy : y.length = n) (hz : z.length = n) :
    Ok (applyInitZ n init ord y z) (fun z' => z'.length = n ∧ ∀ i < n, z'⟦i⟧ = if init = .jacobi then y⟦i⟧ else 0) := by
  cases init with
  | none => exact absurd rfl hi
  | zero => exact par_cells hord hz (fun _ => (0 : K)) fun i hi y' hy' => wr_eq (by omega)
  | jacobi =>
    refine par_cells hord hz (fun i => y⟦i⟧) fun i hi z' hz' => ?_
    rw [rd_eq (by omega), ok_bind, wr_eq (by omega)]

/-- Both solves: `rs` is the right-hand side, `zs` the exact result. -/
theorem solves_few (hA : A.Full m) (hSo : A.Sorted) (hD : A.HasDiag) (hl : u.length = A.browptr⟦A.nbrows⟧)
    (hF : FewFac A.nbrows S (lowerFactor A u) (upperFactor A u) d w rho) (h0 : 0 ≤ rho) (h1 : rho ≤ 1) {g : K} (hg0 : 0 ≤ g)
    {init : ApplyInit} (hi : init ≠ .none) (hg : init = .jacobi → ∀ i < A.nbrows, |S i i| ≤ g) {k : Nat} {o₁ o₂ : List Nat}
    (ho₁ : o₁.Perm (List.range A.nbrows)) (ho₂ : o₂.Perm (List.range A.nbrows)) {b y y₁ y' z₂ z' : List K}
    (hb : b.length = A.nbrows) (hy : y.length = A.nbrows)
    (e1 : applyInitY A.nbrows init o₁ y = .ok y₁) (e2 : ARun (unitLowerRow A u b) mixWhole k y₁ y')
    (e3 : applyInitZ A.nbrows init o₂ y' b = .ok z₂) (e4 : ARun (upperRow A u y') mixWhole k z₂ z')
    {R : K} (hR : 0 ≤ R) (hbs : ∀ i < A.nbrows, |b⟦i⟧| ≤ R * ((1 - rho) * (|S i i| * d i))) {zs : Nat → K}
    (hzs : ∀ i < A.nbrows, ∑ j ∈ range A.nbrows, luProd A u i j * zs j = b⟦i⟧) :
    z'.length = A.nbrows ∧ ∀ i < A.nbrows, |z'⟦i⟧ - zs i| ≤ (2 + 4 * g) * R * rho ^ k * d i := by
  have hk0 : 0 ≤ rho ^ k := pow_nonneg h0 k
  have hk1 : rho ^ k ≤ 1 := pow_le_one₀ h0 h1
  -- the exact intermediate vector
  set ys : Nat → K := fun i => ∑ j ∈ range A.nbrows, upperFactor A u i j * zs j with hys
  have hLy : ∀ i < A.nbrows, ∑ k ∈ range A.nbrows, lowerFactor A u i k * ys k = b⟦i⟧ := by
    intro i hi
    rw [← hzs i hi]
    simp only [hys, mul_sum, luProd, sum_mul]
    rw [sum_comm]
    exact sum_congr rfl fun j _ => sum_congr rfl fun k _ => by ring
  have hyb := hF.lower_bound hR hLy hbs
  have hzb := hF.upper_bound (z := zs) (y := ys) (fun _ _ => rfl) hyb
  obtain ⟨hy1, hy0⟩ := (applyInitY_zero hi ho₁ hy).post _ e1
  obtain ⟨hy2, hye⟩ := lower_few hA hSo hD hl hF h0 h1 hb hLy hy1 hR (fun i hi => by rw [hy0 i hi, zero_sub, abs_neg]; exact hyb i hi) e2
  obtain ⟨hz2, hz0⟩ := (applyInitZ_val hi ho₂ hy2 hb).post _ e3
  have hG : 0 ≤ R + 4 * g * R := by positivity
  obtain ⟨hz3, hze⟩ := upper_few hA hSo hD hl hF h0 h1 hy2 (ys := ys) (δ := rho ^ k * R) hye (fun _ _ => rfl) hz2 hG (fun i hi => by
    rw [hz0 i hi]
    have hd := (hF.pos i hi).le
    have hzi := hzb i hi
    have n1 : 0 ≤ rho ^ k * R * d i := by positivity
    split
    · rename_i hj
      have a1 : |y'⟦i⟧| ≤ rho ^ k * R * w i + R * w i := by
        rw [show y'⟦i⟧ = (y'⟦i⟧ - ys i) + ys i by ring]
        exact (abs_add_le _ _).trans (add_le_add (hye i hi) (hyb i hi))
      have a2 : w i ≤ |upperFactor A u i i| * d i := by
        rw [hF.wdef i hi, sub_le_self_iff]
        exact sum_nonneg fun j hj => mul_nonneg (abs_nonneg _) (hF.pos j (mem_Ico.mp hj).2).le
      have a3 : |upperFactor A u i i| ≤ 2 * g := (hF.dia i hi).trans
        (mul_le_mul (by linarith) (hg hj i hi) (abs_nonneg _) (by norm_num))
      have a4 : w i ≤ 2 * g * d i := a2.trans (mul_le_mul_of_nonneg_right a3 hd)
      have a5 : rho ^ k * R * w i ≤ R * w i := mul_le_mul_of_nonneg_right (mul_le_of_le_one_left hR hk1) (hF.wnn i hi)
      have a6 := mul_le_mul_of_nonneg_left a4 hR
      refine (abs_sub _ _).trans ?_
      nlinarith
    · rw [zero_sub, abs_neg]
      have : 0 ≤ 4 * g * R * d i := by positivity
      nlinarith) e4
  refine ⟨hz3, fun i hi => (hze i hi).trans_eq ?_⟩
  ring

end solves

/-! ### The application -/

section apply
variable {isq : K → K} {us : Bool} {A : SR K} {u : List K} {scale : Option (List K)} {d : Nat → K} {rho : K}

/-- `ilu_few_sweeps` for factors that contract. -/
theorem ilu_few_sweeps_fac (hA : A.Full) (hSo : A.Sorted) (hD : A.HasDiag) (hl : u.length = A.browptr⟦A.nbrows⟧)
    (hsc : ScaleIs isq us A scale) (hisq : us = true → ∀ i < A.nbrows, isq (A.entry i i) ≠ 0) {wt : Nat → K}
    (hF : FewFac A.nbrows (scaledEntry isq us A) (lowerFactor A u) (upperFactor A u) (fun j => d j / |scaleFac isq us A j|) wt rho) (h0 : 0 ≤ rho) (h1 : rho < 1)
    {init : ApplyInit} (hi : init ≠ .none) {g : K} (hg0 : 0 ≤ g) (hg : init = .jacobi → ∀ i < A.nbrows, |scaledEntry isq us A i i| ≤ g)
    {k : Nat} {ord : Nat → List Nat} (hord : ∀ t, (ord t).Perm (List.range A.nbrows)) {r z y z' y' : List K}
    (hr : r.length = A.nbrows) (hz : z.length = A.nbrows) (hy : y.length = A.nbrows)
    (h : AsyncIluApply (unitLowerRow A u) (upperRow A u) A.nbrows mixWhole (scale.map scalarSeg) k init ord r z y z' y')
    {R : K} (hR : 0 ≤ R) (hrb : ∀ i < A.nbrows, |r⟦i⟧| ≤ R * ((1 - rho) * (|A.entry i i| * d i)))
    {s : List K} (hs : ScalarIluSolved A u scale r s) :
    z'.length = A.nbrows ∧ ∀ i < A.nbrows, |z'⟦i⟧ - s⟦i⟧| ≤ (2 + 4 * g) * R * rho ^ k * d i := by
  obtain ⟨w, hw, heq⟩ := hs
  obtain ⟨z₁, y₁, z₂, z₃, e1, e2, e3, e4, e5, e6⟩ := h
  have hne : ∀ i < A.nbrows, scaleFac isq us A i ≠ 0 := by
    intro i hi
    unfold scaleFac
    split
    · rename_i hu; exact hisq hu i hi
    · exact one_ne_zero
  have hSeg := segOk_scalar hsc.length
  obtain ⟨hz1, hv1⟩ := (applyScaleIn_ok hSeg (hord 0) hr hz).post _ e1
  obtain ⟨hz3, hz3e⟩ := solves_few hA hSo hD hl hF h0 h1.le hg0 hi hg (hord 1) (hord 2) hz1 hy e2 e3 e4 e5 hR (fun i hi => by
      have hs := abs_pos.mpr (hne i hi)
      rw [hv1 i hi, hsc.scaleAt hi, abs_mul]
      refine (mul_le_mul_of_nonneg_left (hrb i hi) hs.le).trans_eq ?_
      unfold scaledEntry
      rw [abs_mul, abs_mul]
      field_simp) (zs := w) (fun i hi => by rw [heq i hi, hv1 i hi])
  obtain ⟨hz', hv'⟩ := (applyScaleOut_ok hSeg (hord 3) hz3).post _ e6
  refine ⟨hz', fun i hi => ?_⟩
  have hs := abs_pos.mpr (hne i hi)
  rw [hv' i hi, hw i hi, ← mul_sub, abs_mul, hsc.scaleAt hi]
  refine (mul_le_mul_of_nonneg_left (hz3e i hi) hs.le).trans_eq ?_
  field_simp

/-- **C98** For a (weighted) dominant matrix with exact factors, `k` asynchronous sweeps of each triangular solve (in rounds that may overlap, with arbitrary schedules and reads) give the
result of the exact solves up to `rho ^ k` times a constant, in the weighted maximum norm, whatever the number of rows. The constant is 2 for the initialisation with zeros. For Jacobi's it
involves the diagonal of the (scaled) matrix. -/
theorem ilu_few_sweeps (hA : A.Full) (hSo : A.Sorted) (hD : A.HasDiag) (hl : u.length = A.browptr⟦A.nbrows⟧)
    (hsc : ScaleIs isq us A scale) (hex : ExactILU A (scaledEntry isq us A) u) (hisq : us = true → ∀ i < A.nbrows, isq (A.entry i i) ≠ 0)
    (hdom : WDominant A.nbrows A.entry d rho) (h0 : 0 ≤ rho) (h1 : rho < 1)
    {init : ApplyInit} (hi : init ≠ .none) {g : K} (hg0 : 0 ≤ g) (hg : init = .jacobi → ∀ i < A.nbrows, |scaledEntry isq us A i i| ≤ g)
    {k : Nat} {ord : Nat → List Nat} (hord : ∀ t, (ord t).Perm (List.range A.nbrows)) {r z y z' y' : List K}
    (hr : r.length = A.nbrows) (hz : z.length = A.nbrows) (hy : y.length = A.nbrows)
    (h : AsyncIluApply (unitLowerRow A u) (upperRow A u) A.nbrows mixWhole (scale.map scalarSeg) k init ord r z y z' y')
    {R : K} (hR : 0 ≤ R) (hrb : ∀ i < A.nbrows, |r⟦i⟧| ≤ R * ((1 - rho) * (|A.entry i i| * d i)))
    {s : List K} (hs : ScalarIluSolved A u scale r s) :
    z'.length = A.nbrows ∧ ∀ i < A.nbrows, |z'⟦i⟧ - s⟦i⟧| ≤ (2 + 4 * g) * R * rho ^ k * d i := by
  exact ilu_few_sweeps_fac hA hSo hD hl hsc hisq (fewFac_of_exact hA hD hl (hdom.scaled (isq := isq) hisq) h0 h1 hex) h0 h1 hi hg0 hg hord hr hz hy h hR hrb hs

/-- **C98** for executions in which threads may be up to `L - 1` sweeps apart (C68): `s` sweeps count as `k` if `k (2 L - 1) ≤ s`. -/
theorem ilu_few_sweeps_exec (hA : A.Full) (hSo : A.Sorted) (hD : A.HasDiag) (hl : u.length = A.browptr⟦A.nbrows⟧)
    (hsc : ScaleIs isq us A scale) (hex : ExactILU A (scaledEntry isq us A) u) (hisq : us = true → ∀ i < A.nbrows, isq (A.entry i i) ≠ 0)
    (hdom : WDominant A.nbrows A.entry d rho) (h0 : 0 ≤ rho) (h1 : rho < 1)
    {init : ApplyInit} (hi : init ≠ .none) {g : K} (hg0 : 0 ≤ g) (hg : init = .jacobi → ∀ i < A.nbrows, |scaledEntry isq us A i i| ≤ g)
    {L k t : Nat} (hL : 1 ≤ L) (hk : 1 ≤ k) (ht : k * (2 * L - 1) ≤ t)
    {ord : Nat → List Nat} (hord : ∀ t, (ord t).Perm (List.range A.nbrows)) {r z y z' y' : List K}
    (hr : r.length = A.nbrows) (hz : z.length = A.nbrows) (hy : y.length = A.nbrows)
    (h : AsyncIluExec (unitLowerP A u) (upperP A u) A.nbrows (Lag A.nbrows L) (scale.map scalarSeg) t init ord r z y z' y')
    {R : K} (hR : 0 ≤ R) (hrb : ∀ i < A.nbrows, |r⟦i⟧| ≤ R * ((1 - rho) * (|A.entry i i| * d i)))
    {s : List K} (hs : ScalarIluSolved A u scale r s) :
    z'.length = A.nbrows ∧ ∀ i < A.nbrows, |z'⟦i⟧ - s⟦i⟧| ≤ (2 + 4 * g) * R * rho ^ k * d i :=
  ilu_few_sweeps hA hSo hD hl hsc hex hisq hdom h0 h1 hi hg0 hg hord hr hz hy
    (h.apply (fun b => ⟨evals_unitLowerP A u b, fun _ hi => once_unitLowerP hSo hD u b hi⟩)
      (fun b => ⟨evals_upperP A u b, fun _ hi => once_upperP hSo hD u b hi⟩) (segOk_scalar hsc.length) hL hk (fun _ => ht) hi hord hr hz hy) hR hrb hs

/-- `t` steps of the iteration that corrects `x` by the preconditioned residual, each with `k` asynchronous sweeps of the triangular solves. -/
inductive FewIteration (A : SR K) (u : List K) (scale : Option (List K)) (k : Nat) (init : ApplyInit) (b : List K) : Nat → List K → List K → Prop
  | zero (x : List K) : FewIteration A u scale k init b 0 x x
  | succ {t : Nat} {x y r z z₀ y₀ y₁ : List K} {ord : Nat → List Nat} (h : FewIteration A u scale k init b t x y) (hr : r.length = A.nbrows)
      (hres : ∀ i < A.nbrows, r⟦i⟧ = b⟦i⟧ - ∑ j ∈ range A.nbrows, A.entry i j * y⟦j⟧) (hz : z₀.length = A.nbrows) (hy : y₀.length = A.nbrows)
      (hord : ∀ t, (ord t).Perm (List.range A.nbrows))
      (hap : AsyncIluApply (unitLowerRow A u) (upperRow A u) A.nbrows mixWhole (scale.map scalarSeg) k init ord r z₀ y₀ z y₁) :
      FewIteration A u scale k init b (t + 1) x (List.zipWith (· + ·) y z)

/-- **C98** The preconditioned iteration with `k` asynchronous sweeps per triangular solve: after `compute`, each step reduces the largest weighted error by the factor
`rho + (2 + 4 g) rho ^ k (1 + rho) / (1 - rho)`, in which neither the number of rows nor the number of threads occurs. -/
theorem ilu_few_iteration_converges {conf : ILUConf} {ord ordc : List Nat} {gilu gy gscale : List K} {st st' : ILUState K K} {inf : Option (RemInfo K)}
    (hc : CompSetting conf.usescaling A ord ordc gilu gy gscale st) (hb : 1 ≤ conf.nbuildsweeps)
    (hisq : conf.usescaling = true → ∀ i < A.nbrows, isq (A.entry i i) ≠ 0)
    (hdom : WDominant A.nbrows A.entry d rho) (h0 : 0 ≤ rho) (h1 : rho < 1)
    (h : scalarCompute isq conf A ord ordc gilu gy gscale st = .ok (inf, st')) (hu : st'.iluvals = some u)
    {init : ApplyInit} (hi : init ≠ .none) {g : K} (hg0 : 0 ≤ g) (hg : init = .jacobi → ∀ i < A.nbrows, |scaledEntry isq conf.usescaling A i i| ≤ g)
    {b x y : List K} {s : Nat → K} (hs : ∀ i < A.nbrows, ∑ j ∈ range A.nbrows, A.entry i j * s j = b⟦i⟧)
    (hx : x.length = A.nbrows) {c : K} (hc0 : 0 ≤ c) (hxs : ∀ i < A.nbrows, |x⟦i⟧ - s i| ≤ c * d i) {k t : Nat}
    (hit : FewIteration A u st'.scale k init b t x y) :
    y.length = A.nbrows ∧ ∀ i < A.nbrows, |y⟦i⟧ - s i| ≤ c * (rho + (2 + 4 * g) * rho ^ k * (1 + rho) / (1 - rho)) ^ t * d i := by
  obtain ⟨_, hsc, u', hu', hl, hex, _⟩ := scalar_ilu_compute_exact hc hb h
  rw [hu] at hu'
  injection hu' with hu'
  subst hu'
  have hdom' := hdom.scaled (isq := isq) hisq
  have hp : PivotsOk A u := fun i hi => isUnit_iff_ne_zero.mpr
    (pivot_ne_zero hdom' h1 hi (exact_excess hc.full hc.diag hl hdom' h1 hi fun k hk => hex k (by omega)))
  have hrho : 0 < 1 - rho := sub_pos.mpr h1
  set q := rho + (2 + 4 * g) * rho ^ k * (1 + rho) / (1 - rho) with hq
  have hq0 : 0 ≤ q := by
    have := pow_nonneg h0 k
    positivity
  induction hit with
  | zero x => simpa using ⟨hx, hxs⟩
  | @succ t x y r z z₀ y₀ y₁ ord _ hr hres hz hy hord hap ih =>
    obtain ⟨hyl, hyb⟩ := ih hx hxs
    have hM : 0 ≤ c * q ^ t := mul_nonneg hc0 (pow_nonneg hq0 t)
    -- the exact application
    obtain ⟨ze, ye, _, _, hze, hsol⟩ := scalar_ilu_apply_correct hc.full hc.sorted hc.diag hl hp hsc.length (k := 1) le_rfl hi hord hr hz hy
    have hcon := ilu_correction_contracts hc.full hc.diag hl hsc hex hisq hdom h0 h1 hs hres hsol hM hyb
    -- the residual
    have hres' : ∀ i < A.nbrows, |r⟦i⟧| ≤ c * q ^ t * (1 + rho) / (1 - rho) * ((1 - rho) * (|A.entry i i| * d i)) := by
      intro i hi
      have e : r⟦i⟧ = -∑ j ∈ range A.nbrows, A.entry i j * (y⟦j⟧ - s j) := by
        simp only [mul_sub, sum_sub_distrib]
        rw [hres i hi, ← hs i hi]
        ring
      rw [e, abs_neg]
      refine (FewFac.abs_sum_le (v := d) (c := c * q ^ t) fun j hj => hyb j (mem_range.mp hj)).trans ?_
      have e2 := hdom.dom i hi
      have e3 := sum_erase_add (range A.nbrows) (fun j => |A.entry i j| * d j) (mem_range.mpr hi)
      have e4 : ∑ j ∈ range A.nbrows, |A.entry i j| * d j ≤ (1 + rho) * (|A.entry i i| * d i) := by linarith
      refine (mul_le_mul_of_nonneg_left e4 hM).trans_eq ?_
      field_simp
    obtain ⟨hzl, hzb⟩ := ilu_few_sweeps hc.full hc.sorted hc.diag hl hsc hex hisq hdom h0 h1 hi hg0 hg hord hr hz hy hap
      (R := c * q ^ t * (1 + rho) / (1 - rho)) (by positivity) hres' hsol
    refine ⟨by simp [hyl, hzl], fun i hi => ?_⟩
    have hzip : (List.zipWith (· + ·) y z)⟦i⟧ = y⟦i⟧ + z⟦i⟧ := by
      rw [get0_eq_getElem (by simp [hyl, hzl, hi]), get0_eq_getElem (by omega), get0_eq_getElem (by omega), List.getElem_zipWith]
    rw [hzip, show y⟦i⟧ + z⟦i⟧ - s i = (y⟦i⟧ + ze⟦i⟧ - s i) + (z⟦i⟧ - ze⟦i⟧) by ring]
    refine (abs_add_le _ _).trans ((add_le_add (hcon i hi) (hzb i hi)).trans_eq ?_)
    rw [pow_succ, hq]
    field_simp

end apply

/-! ### Symmetric Gauss-Seidel -/

section sgs
variable {A : SR K} {dinv : List K} {d : Nat → K} {rho : K}

/-- The strictly upper triangle of a dominant matrix. -/
theorem upSum_few (hA : A.Full) (hSo : A.Sorted) (hD : A.HasDiag) (hI : DiagInv A dinv) (hdom : WDominant A.nbrows A.entry d rho) {E : K} (hE : 0 ≤ E)
    {i : Nat} (hi : i < A.nbrows) {x x' : Nat → K} (hx : ∀ j < A.nbrows, |x j - x' j| ≤ E * d j) :
    |dinv⟦i⟧ * upSum A A.vals i x - dinv⟦i⟧ * upSum A A.vals i x'| ≤ rho * E * d i := by
  have h1 := upDiag_mul hA hSo hD hi x
  have h2 := upDiag_mul hA hSo hD hi x'
  simp only [smul_eq_mul] at h1 h2
  have hd : |dinv⟦i⟧| * |A.entry i i| = 1 := by rw [← abs_mul, hI.left i hi, abs_one]
  have split : ∀ y : Nat → K, ∑ k ∈ range A.nbrows, (if i ≤ k then A.entry i k else 0) * y k = A.entry i i * y i + ∑ j ∈ Ico (i + 1) A.nbrows, A.entry i j * y j := by
    intro y
    rw [← sum_range_add_sum_Ico _ hi, sum_range_succ, if_pos le_rfl,
      sum_eq_zero (s := range i) fun j hj => by rw [if_neg (by rw [mem_range] at hj; omega), zero_mul], zero_add]
    congr 1
    exact sum_congr rfl fun j hj => by rw [if_pos (by rw [mem_Ico] at hj; omega)]
  rw [split] at h1 h2
  have h3 : dinv⟦i⟧ * upSum A A.vals i x - dinv⟦i⟧ * upSum A A.vals i x' = dinv⟦i⟧ * ∑ j ∈ Ico (i + 1) A.nbrows, A.entry i j * (x j - x' j) := by
    simp only [mul_sub, sum_sub_distrib]
    linear_combination dinv⟦i⟧ * h2 - dinv⟦i⟧ * h1
  rw [h3, abs_mul]
  have h4 := FewFac.abs_sum_le (a := A.entry i) (x := fun j => x j - x' j) (v := d) (c := E) (s := Ico (i + 1) A.nbrows) fun j hj => hx j (mem_Ico.mp hj).2
  have h5 := hdom.dom i hi
  rw [sum_erase_split hi] at h5
  have h6 := hdom.low_nonneg i (range i) (range_subset_range.mpr hi.le)
  have h7 : |∑ j ∈ Ico (i + 1) A.nbrows, A.entry i j * (x j - x' j)| ≤ E * (rho * (|A.entry i i| * d i)) :=
    h4.trans (mul_le_mul_of_nonneg_left (by linarith) hE)
  refine (mul_le_mul_of_nonneg_left h7 (abs_nonneg _)).trans_eq ?_
  linear_combination (rho * E * d i) * hd

/-- **C98** for symmetric Gauss-Seidel with threads: the forward sweeps are exact, `k` asynchronous backward sweeps leave `rho ^ k` times a constant, for both initialisations. -/
theorem sgs_few_sweeps (hA : A.Full) (hSo : A.Sorted) (hD : A.HasDiag) (hI : DiagInv A dinv)
    (hdom : WDominant A.nbrows A.entry d rho) (h0 : 0 ≤ rho) (h1 : rho < 1) {init : ApplyInit} (hi : init ≠ .none)
    {k : Nat} (hk : 1 ≤ k) {ord : Nat → List Nat} (hord : ∀ t, (ord t).Perm (List.range A.nbrows)) {r z y z' y' : List K}
    (hr : r.length = A.nbrows) (hz : z.length = A.nbrows) (hy : y.length = A.nbrows)
    (h : AsyncSgsApply A dinv mixWhole k init ord r z y z' y')
    {R : K} (hR : 0 ≤ R) (hrb : ∀ i < A.nbrows, |r⟦i⟧| ≤ R * ((1 - rho) * (|A.entry i i| * d i)))
    {s : Nat → K} (hs : ∀ i < A.nbrows, ∑ j ∈ range A.nbrows, sgsMat A dinv i j * s j = r⟦i⟧) :
    z'.length = A.nbrows ∧ ∀ i < A.nbrows, |z'⟦i⟧ - s i| ≤ R / (1 - rho) * rho ^ k * d i := by
  have hrho : 0 < 1 - rho := sub_pos.mpr h1
  obtain ⟨y₁, z₁, e1, e2, e3, h4⟩ := h
  have hy1 := (applyInitY_ok init (hord 0) hy).post _ e1
  have hy2 := ((rowUpd_fgs hA hSo hD hI.len hr).fwd (fun i j h => h.2) hk hy1).post _ e2
  obtain ⟨hz1, hv1⟩ := (applyInitZ_val hi (hord 1) hy2.1 hz).post z₁ (by
    cases init with
    | none => exact absurd rfl hi
    | zero => exact e3
    | jacobi => exact e3)
  obtain ⟨ys, hys, hss⟩ := (sgs_iff hA hSo hD hI (r := get0 r) (z := s)).mp (by simpa only [smul_eq_mul] using hs)
  have hyy : ∀ i < A.nbrows, y'⟦i⟧ = ys i := fwd_unique (fun _ _ h => h.2) (rowUpd_fgs hA hSo hD hI.len hr).dep hy2.2 hys
  simp only [smul_eq_mul] at hys hss
  -- the intermediate vector is bounded
  have hyb : ∀ i < A.nbrows, |ys i| ≤ R * d i := by
    intro i
    induction i using Nat.strong_induction_on with
    | _ i ih =>
      intro hi
      have h1 := lowDiag_mul hA hSo hD hi ys
      simp only [smul_eq_mul] at h1
      rw [← sum_range_add_sum_Ico _ hi, sum_range_succ, if_pos le_rfl,
        sum_eq_zero (s := Ico (i + 1) A.nbrows) fun j hj => by rw [if_neg (by rw [mem_Ico] at hj; omega), zero_mul], add_zero,
        sum_congr rfl fun j hj => by rw [if_pos (by rw [mem_range] at hj; omega)]] at h1
      have h2 := FewFac.abs_sum_le (a := A.entry i) (x := ys) (v := d) (c := R) (s := range i) fun j hj => by
        rw [mem_range] at hj; exact ih j hj (by omega)
      have h3 := hdom.dom i hi
      rw [sum_erase_split hi] at h3
      have h5 := hdom.low_nonneg i (Ico (i + 1) A.nbrows) (fun j hj => by rw [mem_Ico] at hj; exact mem_range.mpr hj.2)
      have h6 : |A.entry i i| * |ys i| ≤ |A.entry i i| * (R * d i) := by
        have e : A.entry i i * ys i = r⟦i⟧ - ∑ j ∈ range i, A.entry i j * ys j := by
          have e := hys i hi
          have e' := hI.right i hi
          rw [← add_right_cancel h1] at e
          linear_combination A.entry i i * e + (r⟦i⟧ - ∑ j ∈ range i, A.entry i j * ys j) * e'
        rw [← abs_mul, e]
        refine (abs_sub _ _).trans ?_
        have h7 := hrb i hi
        have h8 : R * ∑ j ∈ range i, |A.entry i j| * d j ≤ R * (rho * (|A.entry i i| * d i)) := mul_le_mul_of_nonneg_left (by linarith) hR
        nlinarith
      exact le_of_mul_le_mul_left h6 (abs_pos.mpr (hdom.diag i hi))
  -- and so is the result
  set c := R / (1 - rho) with hc
  have hc0 : 0 ≤ c := by positivity
  have hcr : R + rho * c = c := by rw [hc]; field_simp; ring
  have hsb : ∀ i < A.nbrows, |s i| ≤ c * d i := by
    have key : ∀ t i, i < A.nbrows → A.nbrows - i = t → |s i| ≤ c * d i := by
      intro t
      induction t using Nat.strong_induction_on with
      | _ t ih =>
        intro i hi ht
        rw [hss i hi]
        refine (abs_sub _ _).trans ?_
        have e := upSum_few hA hSo hD hI hdom hc0 hi (x := fun j => if i < j then s j else 0) (x' := fun _ => 0) (fun j hj => by
          rw [sub_zero]
          split
          · exact ih _ (by omega) j hj rfl
          · rw [abs_zero]; exact mul_nonneg hc0 (hdom.pos j hj).le)
        have ez : upSum A A.vals i (fun _ => (0 : K)) = 0 := by
          have := upDiag_mul hA hSo hD hi (fun _ => (0 : K))
          simpa using this.symm
        rw [ez, mul_zero, sub_zero, upSum_congr hA hSo hD hi (h := s) fun j hj hd => if_pos hd.2] at e
        have := hyb i hi
        rw [← hcr]
        linarith
    exact fun i hi => key _ i hi rfl
  have := arun_contract_to (rowUpd_bgs hA hSo hD hI.len hy2.1) (e := s) (δ := 0) (E := c) (fun i hi => (hdom.pos i hi).le) h0 h1.le
    (fun E hE i hi view hv => by
      rw [hss i hi, hyy i hi, zero_add]
      simp only [smul_eq_mul]
      rw [sub_sub_sub_cancel_left, abs_sub_comm]
      exact upSum_few hA hSo hD hI hdom hE hi fun j hj => by simpa using hv j hj) hz1 hc0
    (fun i hi => by
      rw [hv1 i hi, zero_add]
      split
      · rw [hyy i hi, hss i hi, sub_sub_cancel]
        have e := upSum_few hA hSo hD hI hdom hc0 hi (x := s) (x' := fun _ => 0) (fun j hj => by rw [sub_zero]; exact hsb j hj)
        have ez : upSum A A.vals i (fun _ => (0 : K)) = 0 := by
          have := upDiag_mul hA hSo hD hi (fun _ => (0 : K))
          simpa using this.symm
        rw [ez, mul_zero, sub_zero] at e
        exact e.trans (mul_le_mul_of_nonneg_right (mul_le_of_le_one_left hc0 h1.le) (hdom.pos i hi).le)
      · rw [zero_sub, abs_neg]; exact hsb i hi) h4
  refine ⟨this.1, fun i hi => (this.2 i hi).trans_eq ?_⟩
  ring

end sgs

/-! ### Non-vacuity -/

omit [IsStrictOrderedRing K] in
/-- Executions of every number of sweeps exist. -/
theorem exists_asyncIluApply {V : Type} {A : SR V} {m : Nat} {u : List K} {scale : Option (List K)} (hA : A.Full m) (hSo : A.Sorted) (hD : A.HasDiag)
    (hl : u.length = A.browptr⟦A.nbrows⟧) (hp : PivotsOk A u) (hs : ScaleLen scale A.nbrows) {k : Nat} (hk : 1 ≤ k) {init : ApplyInit} (hi : init ≠ .none)
    {ord : Nat → List Nat} (hord : ∀ t, (ord t).Perm (List.range A.nbrows)) {r z y : List K} (hr : r.length = A.nbrows) (hz : z.length = A.nbrows)
    (hy : y.length = A.nbrows) :
    ∃ z' y', AsyncIluApply (unitLowerRow A u) (upperRow A u) A.nbrows mixWhole (scale.map scalarSeg) k init ord r z y z' y' := by
  obtain ⟨dinv, hd⟩ := exists_dinv hA hSo hD hl hp
  have hl' := triUpd_unitLower (M := K) hA hSo hD hl
  have hu' := triUpd_upper (M := K) hA hSo hD hl hd
  have hS := segOk_scalar (K := K) hs
  obtain ⟨z₁, e1, hz1, -⟩ := applyScaleIn_ok hS (hord 0) hr hz
  obtain ⟨y₁, e2, hy1⟩ := applyInitY_ok init (hord 1) hy
  obtain ⟨v, -, -, hv⟩ := (hl'.upd z₁ hz1).fwd (fun _ _ h => h.2) le_rfl hy1
  obtain ⟨y', h3, hy', -⟩ := (hl'.upd z₁ hz1).exists_exact (mix := mixWhole) (fun _ _ h => h) id_involutive (fun i _ j _ h => h.2) hv hy1 hk
  obtain ⟨z₂, e4, hz2⟩ := applyInitZ_ok hi (hord 2) hy' hz1
  obtain ⟨w, -, -, hw⟩ := (hu'.upd y' hy').bwd (fun _ _ h => h.2) le_rfl hz2
  obtain ⟨z₃, h5, hz3, -⟩ := (hu'.upd y' hy').exists_exact (mix := mixWhole) (fun _ _ h => h) rev_involutive (fun i hi j hj h => by have := h.2; omega) hw hz2 hk
  obtain ⟨z', e6, -⟩ := applyScaleOut_ok hS (hord 3) hz3
  exact ⟨z', y', z₁, y₁, z₂, z₃, e1, e2, h3, e4, h5, e6⟩

theorem exTri_wdominant : WDominant 3 exTri.entry (get0 [3, 4, (3 : ℚ)]) (3/4) := by
  constructor <;> intro i hi <;> interval_cases i <;> decide +kernel

theorem exTri_exact (isq : ℚ → ℚ) : ExactILU exTri (scaledEntry isq false exTri) exTriFac := by
  have key : ∀ i < 3, ∀ p, exTri.browptr⟦i⟧ ≤ p → p < exTri.browptr⟦i + 1⟧ →
      luProd exTri exTriFac i exTri.bcolind⟦p⟧ = exTri.entry i exTri.bcolind⟦p⟧ := by
    intro i hi p h1 h2
    have : p < 7 := by
      have : exTri.browptr⟦i + 1⟧ ≤ 7 := by interval_cases i <;> decide
      omega
    revert h1 h2
    interval_cases i <;> interval_cases p <;> decide +kernel
  intro i hi p hp
  rw [key i hi p hp.1 hp.2]
  unfold scaledEntry scaleFac
  simp

/-- Non-vacuity of `ilu_few_sweeps`: an execution of two sweeps whose result is not exact, and the bound of its error. -/
example : ∃ z' y' s, AsyncIluApply (unitLowerRow exTri exTriFac) (upperRow exTri exTriFac) 3 mixWhole none 2
    .zero (fun _ => [2, 0, 1]) [1, 1/2, 1/3] [7, 7, 7] [9, 9, 9] z' y' ∧ ¬ ScalarIluSolved exTri exTriFac none [1, 1/2, 1/3] z' ∧
    ScalarIluSolved exTri exTriFac none [1, 1/2, 1/3] s ∧ ∀ i < 3, |z'⟦i⟧ - s⟦i⟧| ≤ (2 + 4 * 0) * (2/3) * (3/4) ^ 2 * ([3, 4, (3 : ℚ)])⟦i⟧ := by
  obtain ⟨z', y', h, hne⟩ := scalar_ilu_apply_lower_sharp (r := [1, 1/2, 1/3]) (z := [7, 7, 7]) (y := [9, 9, 9]) (scale := none) exTri_full exTri_sorted exTri_diag (by decide) exTri_pivots
    scaleLen_none (fun _ _ => one_ne_zero) (mix := mixWhole) (fun _ _ h => h) (k := 2) (by decide)
    (c := id) (fun t ht => by show t < 3; omega) (fun t _ => by show t < t + 1; omega) (fun t ht => by interval_cases t <;> decide +kernel) (init := .zero) (by decide)
    (ord := fun _ => [2, 0, 1]) (fun _ => by decide) rfl rfl rfl (e := fun _ => 1) (fun i hi => by have : i < 3 := hi; interval_cases i <;> decide +kernel) one_ne_zero
  obtain ⟨s, -, -, -, -, hs⟩ := scalar_ilu_apply_correct (r := [1, 1/2, 1/3]) (z := [7, 7, 7]) (y := [9, 9, 9]) exTri_full exTri_sorted exTri_diag (by decide) exTri_pivots
    scaleLen_none (k := 1) le_rfl (init := .zero) (by decide) (ord := fun _ => [2, 0, 1]) (fun _ => by decide) rfl rfl rfl
  refine ⟨z', y', s, h, hne, hs, ?_⟩
  exact (ilu_few_sweeps (isq := id) (us := false) (scale := none) exTri_full exTri_sorted exTri_diag (by decide) rfl (exTri_exact id) (by simp) exTri_wdominant (by norm_num) (by norm_num)
    (by decide) le_rfl (by decide) (fun _ => by decide) rfl rfl rfl h (R := 2/3) (by norm_num) (by decide +kernel) hs).2

/-- Non-vacuity of `ilu_few_sweeps_exec`: an execution of six sweeps in which threads may be one sweep apart. -/
example : ∃ z' y' s, AsyncIluExec (unitLowerP exTri exTriFac) (upperP exTri exTriFac) 3 (Lag 3 2) none 6 .zero (fun _ => [2, 0, 1]) [1, 1/2, (1/3 : ℚ)] [7, 7, 7] [9, 9, 9] z' y' ∧
    ScalarIluSolved exTri exTriFac none [1, 1/2, 1/3] s ∧ ∀ i < 3, |z'⟦i⟧ - s⟦i⟧| ≤ (2 + 4 * 0) * (2/3) * (3/4) ^ 2 * ([3, 4, (3 : ℚ)])⟦i⟧ := by
  have hd : ∀ i < 3, pinv exTriFac⟦exTri.diagind⟦i⟧⟧ = .ok [1/2, 2/3, 3/4]⟦i⟧ := by decide +kernel
  have hL := lag_lt (n := 3) (L := 2) (by decide)
  have hlen : ∀ {p : Nat → Prog ℚ ℚ} {x x' : List ℚ}, AsyncExec (Lag 3 2) 3 (6 * 3) p x x' → x'.length = x.length := by
    rintro p x x' ⟨k, log, ps, -, -, rfl⟩
    exact applyLog_length ..
  obtain ⟨y', h1⟩ := (((triAny_unitLower (M := ℚ) exTri_full exTri_sorted exTri_diag (ilu := exTriFac) rfl).upd [1, 1/2, 1/3] rfl)).exec_exists
    ⟨evals_unitLowerP exTri exTriFac _, fun i hi => once_unitLowerP exTri_sorted exTri_diag _ _ hi⟩ (m₀ := [0, 0, 0]) rfl hL 6
  obtain ⟨z', h2⟩ := (((triAny_upper exTri_full exTri_sorted exTri_diag (ilu := exTriFac) rfl hd).upd y' (hlen h1))).exec_exists
    ⟨evals_upperP exTri exTriFac _, fun i hi => once_upperP exTri_sorted exTri_diag _ _ hi⟩ (m₀ := [0, 0, 0]) rfl hL 6
  obtain ⟨s, -, -, -, -, hs⟩ := scalar_ilu_apply_correct (r := [1, 1/2, 1/3]) (z := [7, 7, 7]) (y := [9, 9, 9]) exTri_full exTri_sorted exTri_diag (by decide) exTri_pivots
    scaleLen_none (k := 1) le_rfl (init := .zero) (by decide) (ord := fun _ => [2, 0, 1]) (fun _ => by decide) rfl rfl rfl
  have h : AsyncIluExec (unitLowerP exTri exTriFac) (upperP exTri exTriFac) 3 (Lag 3 2) none 6 .zero (fun _ => [2, 0, 1]) [1, 1/2, (1/3 : ℚ)] [7, 7, 7] [9, 9, 9] z' y' :=
    ⟨[1, 1/2, 1/3], [0, 0, 0], [0, 0, 0], z', by decide +kernel, by decide +kernel, h1, rfl, h2, rfl⟩
  exact ⟨z', y', s, h, hs, (ilu_few_sweeps_exec (isq := id) (us := false) (scale := none) exTri_full exTri_sorted exTri_diag (by decide) rfl (exTri_exact id) (by simp) exTri_wdominant
    (by norm_num) (by norm_num) (by decide) le_rfl (by decide) (L := 2) (k := 2) (by decide) (by decide) (by decide) (fun _ => by decide) rfl rfl rfl h (R := 2/3) (by norm_num)
    (by decide +kernel) hs).2⟩

/-- Non-vacuity of `ilu_few_iteration_converges`: a step with forty sweeps, which reduces the error at least by the factor 22/25, after `compute` with scaling. -/
example : ∃ u x : List ℚ, exMstate.iluvals = some u ∧ FewIteration exM u exMstate.scale 40 .zero [1, 0, 1, 0] 1 [0, 0, 0, 0] x ∧
    ∀ i < 4, |x⟦i⟧ - 1| ≤ 1/4 * (22/25) ^ 1 * ([4, 5, 4, (5 : ℚ)])⟦i⟧ := by
  have hu : exMstate.iluvals = some (exMstate.iluvals.getD []) := by decide +kernel
  have hc := exM_setting true
  obtain ⟨_, hsc, u', hu', hl, hex, _⟩ := scalar_ilu_compute_exact hc (conf := ⟨true, 2, .original, false⟩) (by decide) exM_compute
  rw [hu] at hu'
  injection hu' with hu'
  subst hu'
  have hdom' := exM_dominant.scaled (A := exM) (us := true) (isq := fun x : ℚ => x⁻¹) fun _ i hi => inv_ne_zero (exM_dominant.diag i hi)
  have hp : PivotsOk exM (exMstate.iluvals.getD []) := fun i hi => isUnit_iff_ne_zero.mpr
    (pivot_ne_zero hdom' (by norm_num) hi (exact_excess hc.full hc.diag hl hdom' (by norm_num) hi fun k hk => hex k (by omega)))
  obtain ⟨z, y', hz⟩ := exists_asyncIluApply (r := [1, 0, 1, 0]) (z := [7, 7, 7, 7]) (y := [9, 9, 9, 9]) hc.full hc.sorted hc.diag hl hp hsc.length
    (k := 40) (by decide) (init := .zero) (by decide) (ord := fun _ => [3, 1, 2, 0]) (fun _ => by decide) rfl rfl rfl
  have hit : FewIteration exM (exMstate.iluvals.getD []) exMstate.scale 40 .zero [1, 0, 1, 0] 1 [0, 0, 0, 0] (List.zipWith (· + ·) [0, 0, 0, 0] z) :=
    .succ (.zero _) rfl (by decide +kernel) rfl rfl (fun _ => by decide) hz
  refine ⟨_, _, hu, hit, fun i hi => ?_⟩
  have := (ilu_few_iteration_converges (exM_setting true) (conf := ⟨true, 2, .original, false⟩) (by decide)
    (fun _ i hi => inv_ne_zero (exM_dominant.diag i hi)) exM_dominant (by norm_num) (by norm_num) exM_compute hu (init := .zero) (by decide) (g := 0) le_rfl (by decide)
    (s := fun _ => 1) (by decide +kernel) rfl (c := 1/4) (by norm_num) (by decide +kernel) hit).2 i hi
  refine this.trans (mul_le_mul_of_nonneg_right ?_ (exM_dominant.pos i hi).le)
  norm_num

/-- Non-vacuity of `sgs_few_sweeps`: an execution of two sweeps whose result is not exact. -/
example : ∃ z' y', AsyncSgsApply exTri [1/2, 1/2, 1/2] mixWhole 2 .zero (fun _ => [2, 0, 1]) [1, 1/2, 3/2] [7, 7, 7] [9, 9, 9] z' y' ∧
    (¬ ∀ i < 3, ∑ j ∈ range 3, sgsMat exTri [1/2, 1/2, 1/2] i j • z'⟦j⟧ = ([1, 1/2, 3/2] : List ℚ)⟦i⟧) ∧
    ∀ i < 3, |z'⟦i⟧ - 1| ≤ 1 / (1 - 3/4) * (3/4) ^ 2 * ([3, 4, (3 : ℚ)])⟦i⟧ := by
  obtain ⟨z', y', h, hne⟩ := sgs_apply_sharp (M := ℚ) (r := [1, 1/2, 3/2]) (z := [7, 7, 7]) (y := [9, 9, 9]) exTri_full exTri_sorted exTri_diag exTri_diagInv (mix := mixWhole) (fun _ _ h => h) (k := 2) (by decide)
    (init := .zero) (ord := fun _ => [2, 0, 1])
    (c := fun t => 2 - t) (fun t ht => by show 2 - t < 3; omega) (fun t ht => by show 2 - (t + 1) < 2 - t; omega)
    (fun t ht => by rw [isUnit_iff_ne_zero]; interval_cases t <;> decide +kernel)
    (fun _ => by decide) rfl rfl rfl (e := fun _ => 1) (fun i hi => by have : i < 3 := hi; interval_cases i <;> decide +kernel) (Or.inl ⟨rfl, one_ne_zero⟩)
  refine ⟨z', y', h, hne, ?_⟩
  exact (sgs_few_sweeps exTri_full exTri_sorted exTri_diag exTri_diagInv exTri_wdominant (by norm_num) (by norm_num) (by decide) (by decide) (fun _ => by decide) rfl rfl rfl h
    (R := 1) (by norm_num) (by decide +kernel) (s := fun _ => 1) (by decide +kernel)).2

end Blasted
