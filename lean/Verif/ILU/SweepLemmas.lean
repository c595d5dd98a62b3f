import Verif.Solve.FewProps

/-!
# Majorants of the asynchronous factorization

Lemmas for C99. The entries of the factors, and of everything an asynchronous sweep writes, are bounded by the (negated) entries of the factors of the comparison
matrix, whose diagonal is that of `|S|` and whose other entries are those of `-|S|` (`Hat`, with `tau = 1`). The differences of the factors of two comparison matrices
with enlarged off-diagonal entries (`tau > 1`) serve as the weights in which a sweep contracts.
-/

namespace Blasted

open Finset

variable {K : Type} [Field K] [LinearOrder K] [IsStrictOrderedRing K] {V : Type} {A : SR V} {m : Nat} {pos : ILUPos}

/-- The sum over the position list of products of two different arrays. -/
def posB (pos : ILUPos) (f g : Nat → K) (p : Nat) : K :=
  ∑ t ∈ Ico pos.posptr⟦p⟧ pos.posptr⟦p + 1⟧, f pos.lowerp⟦t⟧ * g pos.upperp⟦t⟧

/-- `h` holds the negated off-diagonal entries of the factors of the matrix with diagonal `a` and off-diagonal entries `-tau a`, and at the diagonal the difference between
`a` and the pivot. -/
structure Hat (A : SR V) (pos : ILUPos) (a : Nat → K) (tau : K) (h : Nat → K) : Prop where
  nn : ∀ p < A.browptr⟦A.nbrows⟧, 0 ≤ h p
  piv : ∀ c < A.nbrows, h A.diagind⟦c⟧ < a A.diagind⟦c⟧
  up : ∀ p < A.browptr⟦A.nbrows⟧, A.rowOf p < A.bcolind⟦p⟧ → h p = tau * a p + posSum pos h p
  dia : ∀ p < A.browptr⟦A.nbrows⟧, A.rowOf p = A.bcolind⟦p⟧ → h p = posSum pos h p
  low : ∀ p < A.browptr⟦A.nbrows⟧, A.bcolind⟦p⟧ < A.rowOf p →
    h p * (a A.diagind⟦A.bcolind⟦p⟧⟧ - h A.diagind⟦A.bcolind⟦p⟧⟧) = tau * a p + posSum pos h p

/-- The value `v` is what an update of entry `p` that reads `x` computes, if the pivot read is not zero. -/
def IsUpd (A : SR V) (pos : ILUPos) (T : Nat → K) (x : Nat → K) (p : Nat) (v : K) : Prop :=
  if A.bcolind⟦p⟧ < A.rowOf p then v * x A.diagind⟦A.bcolind⟦p⟧⟧ = T p - posSum pos x p else v = T p - posSum pos x p

/-- The bound that `h` is for the value `v` at position `p`. -/
def InBox (A : SR V) (T h : Nat → K) (p : Nat) (v : K) : Prop :=
  if A.rowOf p = A.bcolind⟦p⟧ then |v - T p| ≤ h p else |v| ≤ h p

omit [Field K] [LinearOrder K] [IsStrictOrderedRing K] in
/-- What an update depends on. -/
theorem ILUPosOk.dep (hA : A.Full m) (hSo : A.Sorted) (hpos : ILUPosOk A pos) {p : Nat} (hp : p < A.browptr⟦A.nbrows⟧) {t : Nat}
    (ht : t ∈ Ico pos.posptr⟦p⟧ pos.posptr⟦p + 1⟧) :
    (pos.lowerp⟦t⟧ < p ∧ pos.upperp⟦t⟧ < p) ∧ A.bcolind⟦pos.lowerp⟦t⟧⟧ < A.rowOf pos.lowerp⟦t⟧ ∧ A.rowOf pos.upperp⟦t⟧ < A.bcolind⟦pos.upperp⟦t⟧⟧ := by
  obtain ⟨hi, hrow⟩ := hA.rowOf_spec hp
  rw [mem_Ico] at ht
  obtain ⟨h1, h2, -⟩ := hpos.before hA hSo hi hrow ht.1 ht.2
  obtain ⟨k, hk, h3, h4, h5, h6⟩ := hpos.sound _ hi p hrow t ht.1 ht.2
  have hki : k < A.rowOf p := lt_of_lt_of_le hk (min_le_left _ _)
  have hkj : k < A.bcolind⟦p⟧ := lt_of_lt_of_le hk (min_le_right _ _)
  refine ⟨⟨h1, h2⟩, ?_, ?_⟩
  · rw [hA.rowOf_eq hi h3, h4]; exact hki
  · rw [hA.rowOf_eq (by omega) h5, h6]; exact hkj

omit [Field K] [LinearOrder K] [IsStrictOrderedRing K] in
theorem SR.HasDiag.before (hA : A.Full m) (hD : A.HasDiag) {p : Nat} (hp : p < A.browptr⟦A.nbrows⟧) (h : A.bcolind⟦p⟧ < A.rowOf p) :
    A.diagind⟦A.bcolind⟦p⟧⟧ < p := by
  obtain ⟨hi, hrow⟩ := hA.rowOf_spec hp
  have h1 := (hD.inRow (hA.col_lt p hp)).2
  have h2 := hA.ptr_le (i := A.bcolind⟦p⟧ + 1) (j := A.rowOf p) h (by omega)
  have h3 := hrow.1
  omega

omit [Field K] [LinearOrder K] [IsStrictOrderedRing K] in
theorem SR.HasDiag.rowOf_diag (hA : A.Full m) (hD : A.HasDiag) {c : Nat} (hc : c < A.nbrows) : A.rowOf A.diagind⟦c⟧ = A.bcolind⟦A.diagind⟦c⟧⟧ := by
  rw [hA.rowOf_eq hc (hD.inRow hc), hD.diag_col c hc]

omit [LinearOrder K] [IsStrictOrderedRing K] in
theorem posSum_sub (x e : Nat → K) (p : Nat) : posSum pos x p - posSum pos e p = posB pos (fun q => x q - e q) x p + posB pos e (fun q => x q - e q) p := by
  unfold posSum posB
  rw [← sum_sub_distrib, ← sum_add_distrib]
  exact sum_congr rfl fun t _ => by ring

section hat
variable {a T : Nat → K} {tau tau' : K} {h h' : Nat → K}

/-- The majorants grow at least linearly. -/
theorem Hat.grow (hA : A.Full m) (hSo : A.Sorted) (hD : A.HasDiag) (hpos : ILUPosOk A pos) (ha : ∀ p < A.browptr⟦A.nbrows⟧, 0 ≤ a p)
    (H : Hat A pos a tau h) (H' : Hat A pos a tau' h') {c : K} (hc : 1 ≤ c) (hle : c * tau ≤ tau') :
    ∀ p < A.browptr⟦A.nbrows⟧, c * h p ≤ h' p := by
  intro p
  induction p using Nat.strong_induction_on with
  | _ p ih =>
    intro hp
    have c0 : 0 ≤ c := by linarith
    have hs : c * posSum pos h p ≤ posSum pos h' p := by
      unfold posSum
      rw [mul_sum]
      refine sum_le_sum fun t ht => ?_
      obtain ⟨⟨h1, h2⟩, -, -⟩ := hpos.dep hA hSo hp ht
      have e1 := ih _ h1 (by omega)
      have e2 := ih _ h2 (by omega)
      have n1 := H.nn _ (show pos.lowerp⟦t⟧ < A.browptr⟦A.nbrows⟧ by omega)
      have n2 := H.nn _ (show pos.upperp⟦t⟧ < A.browptr⟦A.nbrows⟧ by omega)
      have e3 : h pos.upperp⟦t⟧ ≤ h' pos.upperp⟦t⟧ := (le_mul_of_one_le_left n2 hc).trans e2
      calc c * (h pos.lowerp⟦t⟧ * h pos.upperp⟦t⟧) = (c * h pos.lowerp⟦t⟧) * h pos.upperp⟦t⟧ := by ring
        _ ≤ h' pos.lowerp⟦t⟧ * h' pos.upperp⟦t⟧ := mul_le_mul e1 e3 n2 ((mul_nonneg c0 n1).trans e1)
    have hta : c * (tau * a p) ≤ tau' * a p := by
      have := mul_le_mul_of_nonneg_right hle (ha p hp)
      linarith
    rcases lt_trichotomy A.bcolind⟦p⟧ (A.rowOf p) with hlt | heq | hgt
    · have e1 := H.low p hp hlt
      have e2 := H'.low p hp hlt
      have hcn := hA.col_lt p hp
      have hdb := hD.before hA hp hlt
      have e3 := ih _ hdb (by omega)
      have n1 := H.nn A.diagind⟦A.bcolind⟦p⟧⟧ (by omega)
      have e4 : h A.diagind⟦A.bcolind⟦p⟧⟧ ≤ h' A.diagind⟦A.bcolind⟦p⟧⟧ := (le_mul_of_one_le_left n1 hc).trans e3
      have e5 := H.piv _ hcn
      have e6 := mul_le_mul_of_nonneg_left e4 (H'.nn p hp)
      have e7 : c * h p * (a A.diagind⟦A.bcolind⟦p⟧⟧ - h A.diagind⟦A.bcolind⟦p⟧⟧) = c * (tau * a p) + c * posSum pos h p := by
        linear_combination c * e1
      refine le_of_mul_le_mul_right (a := a A.diagind⟦A.bcolind⟦p⟧⟧ - h A.diagind⟦A.bcolind⟦p⟧⟧) ?_ (by linarith)
      rw [e7]
      linarith
    · rw [H.dia p hp heq.symm, H'.dia p hp heq.symm]; exact hs
    · rw [H.up p hp hgt, H'.up p hp hgt]; linarith

/-- Updates that read bounded values compute bounded values. -/
theorem Hat.box (hA : A.Full m) (hSo : A.Sorted) (hD : A.HasDiag) (hpos : ILUPosOk A pos) (hT : ∀ p < A.browptr⟦A.nbrows⟧, a p = |T p|)
    (H : Hat A pos a 1 h) {x : Nat → K} {p : Nat} (hp : p < A.browptr⟦A.nbrows⟧) (hx : ∀ q < p, InBox A T h q (x q)) {v : K} (hv : IsUpd A pos T x p v) :
    InBox A T h p v := by
  have hs : |posSum pos x p| ≤ posSum pos h p := by
    unfold posSum
    refine (abs_sum_le_sum_abs _ _).trans (sum_le_sum fun t ht => ?_)
    obtain ⟨⟨h1, h2⟩, h3, h4⟩ := hpos.dep hA hSo hp ht
    have e1 := hx _ h1
    have e2 := hx _ h2
    unfold InBox at e1 e2
    rw [if_neg (by omega)] at e1 e2
    rw [abs_mul]
    exact mul_le_mul e1 e2 (abs_nonneg _) (H.nn _ (by omega))
  unfold InBox
  unfold IsUpd at hv
  rcases lt_trichotomy A.bcolind⟦p⟧ (A.rowOf p) with hlt | heq | hgt
  · rw [if_neg (by omega)]
    rw [if_pos hlt] at hv
    have hcn := hA.col_lt p hp
    have hdb := hD.before hA hp hlt
    have e1 := hx _ hdb
    unfold InBox at e1
    rw [if_pos (hD.rowOf_diag hA hcn)] at e1
    have e2 := H.piv _ hcn
    have e3 : a A.diagind⟦A.bcolind⟦p⟧⟧ - h A.diagind⟦A.bcolind⟦p⟧⟧ ≤ |x A.diagind⟦A.bcolind⟦p⟧⟧| := by
      rw [hT _ (by omega)]
      have := abs_sub_abs_le_abs_sub (T A.diagind⟦A.bcolind⟦p⟧⟧) (x A.diagind⟦A.bcolind⟦p⟧⟧)
      rw [abs_sub_comm] at this
      linarith
    have e4 := H.low p hp hlt
    rw [one_mul] at e4
    refine le_of_mul_le_mul_right (a := a A.diagind⟦A.bcolind⟦p⟧⟧ - h A.diagind⟦A.bcolind⟦p⟧⟧) ?_ (by linarith)
    calc |v| * (a A.diagind⟦A.bcolind⟦p⟧⟧ - h A.diagind⟦A.bcolind⟦p⟧⟧) ≤ |v| * |x A.diagind⟦A.bcolind⟦p⟧⟧| := mul_le_mul_of_nonneg_left e3 (abs_nonneg _)
      _ = |T p - posSum pos x p| := by rw [← abs_mul, hv]
      _ ≤ |T p| + |posSum pos x p| := abs_sub _ _
      _ ≤ _ := by rw [e4, hT p hp]; linarith
  · rw [if_pos heq.symm]
    rw [if_neg (by omega)] at hv
    rw [hv, sub_sub_cancel_left, abs_neg, H.dia p hp heq.symm]
    exact hs
  · rw [if_neg (by omega)]
    rw [if_neg (by omega)] at hv
    rw [hv, H.up p hp hgt, hT p hp, one_mul]
    exact (abs_sub _ _).trans (by linarith)

/-- Pivots within the bounds. -/
theorem Hat.pivot (hA : A.Full m) (hD : A.HasDiag) (hT : ∀ p < A.browptr⟦A.nbrows⟧, a p = |T p|) {c : Nat} (hc : c < A.nbrows) {v : K}
    (hv : InBox A T h A.diagind⟦c⟧ v) : a A.diagind⟦c⟧ - h A.diagind⟦c⟧ ≤ |v| := by
  unfold InBox at hv
  rw [if_pos (hD.rowOf_diag hA hc)] at hv
  rw [hT _ (hA.lt_nnz hc (hD.inRow hc).2)]
  have := abs_sub_abs_le_abs_sub (T A.diagind⟦c⟧) v
  rw [abs_sub_comm] at this
  linarith

/-- Fixed points are bounded. -/
theorem Hat.box_fixed (hA : A.Full m) (hSo : A.Sorted) (hD : A.HasDiag) (hpos : ILUPosOk A pos) (hT : ∀ p < A.browptr⟦A.nbrows⟧, a p = |T p|)
    (H : Hat A pos a 1 h) {e : Nat → K} (he : ∀ p < A.browptr⟦A.nbrows⟧, IsUpd A pos T e p (e p)) :
    ∀ p < A.browptr⟦A.nbrows⟧, InBox A T h p (e p) := by
  intro p
  induction p using Nat.strong_induction_on with
  | _ p ih => exact fun hp => H.box hA hSo hD hpos hT hp (fun q hq => ih q hq (by omega)) (he p hp)

end hat

/-- The three majorants: `h0` bounds the values, `h2 - h1` are the weights of the errors. -/
structure Hats (A : SR V) (pos : ILUPos) (a : Nat → K) (t1 t2 : K) (h0 h1 h2 : Nat → K) : Prop where
  H0 : Hat A pos a 1 h0
  H1 : Hat A pos a t1 h1
  H2 : Hat A pos a t2 h2
  one_le : 1 ≤ t1
  lt : t1 < t2
  nn : ∀ p < A.browptr⟦A.nbrows⟧, 0 ≤ a p

section hats
variable {a T : Nat → K} {t1 t2 : K} {h0 h1 h2 : Nat → K}

theorem Hats.grow01 (hA : A.Full m) (hSo : A.Sorted) (hD : A.HasDiag) (hpos : ILUPosOk A pos) (H : Hats A pos a t1 t2 h0 h1 h2) :
    ∀ p < A.browptr⟦A.nbrows⟧, t1 * h0 p ≤ h1 p :=
  H.H0.grow hA hSo hD hpos H.nn H.H1 H.one_le (by rw [mul_one])

theorem Hats.grow12 (hA : A.Full m) (hSo : A.Sorted) (hD : A.HasDiag) (hpos : ILUPosOk A pos) (H : Hats A pos a t1 t2 h0 h1 h2) :
    ∀ p < A.browptr⟦A.nbrows⟧, t2 / t1 * h1 p ≤ h2 p := by
  have h : 0 < t1 := lt_of_lt_of_le one_pos H.one_le
  exact H.H1.grow hA hSo hD hpos H.nn H.H2 ((one_le_div h).mpr H.lt.le) (by rw [div_mul_cancel₀ _ h.ne'])

/-- The weights are as large as the bounds. -/
theorem Hats.weight (hA : A.Full m) (hSo : A.Sorted) (hD : A.HasDiag) (hpos : ILUPosOk A pos) (H : Hats A pos a t1 t2 h0 h1 h2) {p : Nat}
    (hp : p < A.browptr⟦A.nbrows⟧) : h1 p ≤ h2 p ∧ (t2 - t1) * h0 p ≤ h2 p - h1 p := by
  have h : 0 < t1 := lt_of_lt_of_le one_pos H.one_le
  have e1 := H.grow01 hA hSo hD hpos p hp
  have e2 := H.grow12 hA hSo hD hpos p hp
  have e3 : 0 ≤ t2 / t1 - 1 := sub_nonneg.mpr ((one_le_div h).mpr H.lt.le)
  have e4 := mul_le_mul_of_nonneg_left e1 e3
  have e5 : (t2 / t1 - 1) * (t1 * h0 p) = (t2 - t1) * h0 p := by field_simp
  have e6 := mul_nonneg e3 (H.H1.nn p hp)
  constructor <;> linarith

/-- The weights are a supersolution of the linearized equations, by the factor `t1`. -/
theorem Hats.super (hA : A.Full m) (hSo : A.Sorted) (hD : A.HasDiag) (hpos : ILUPosOk A pos) (H : Hats A pos a t1 t2 h0 h1 h2) {p : Nat}
    (hp : p < A.browptr⟦A.nbrows⟧) :
    t1 * (posB pos (fun q => h2 q - h1 q) h0 p + posB pos h0 (fun q => h2 q - h1 q) p) ≤ posSum pos h2 p - posSum pos h1 p := by
  unfold posB posSum
  rw [← sum_sub_distrib, ← sum_add_distrib, mul_sum]
  refine sum_le_sum fun t ht => ?_
  obtain ⟨⟨d1, d2⟩, -, -⟩ := hpos.dep hA hSo hp ht
  set l := pos.lowerp⟦t⟧
  set u := pos.upperp⟦t⟧
  have g1 := H.grow01 hA hSo hD hpos l (by omega)
  have g2 := H.grow01 hA hSo hD hpos u (by omega)
  have w1 := (H.weight hA hSo hD hpos (show l < A.browptr⟦A.nbrows⟧ by omega)).1
  have w2 := (H.weight hA hSo hD hpos (show u < A.browptr⟦A.nbrows⟧ by omega)).1
  have e1 := mul_le_mul_of_nonneg_left (g2.trans w2) (sub_nonneg.mpr w1)
  have e2 := mul_le_mul_of_nonneg_right g1 (sub_nonneg.mpr w2)
  nlinarith

/-- A sweep contracts the errors by the factor `1 / t1`. -/
theorem Hats.contract (hA : A.Full m) (hSo : A.Sorted) (hD : A.HasDiag) (hpos : ILUPosOk A pos) (hT : ∀ p < A.browptr⟦A.nbrows⟧, a p = |T p|)
    (H : Hats A pos a t1 t2 h0 h1 h2) {x e : Nat → K} {p : Nat} (hp : p < A.browptr⟦A.nbrows⟧) {v E : K} (hE : 0 ≤ E)
    (hx : ∀ q < p, InBox A T h0 q (x q) ∧ |x q - e q| ≤ E * (h2 q - h1 q)) (he : ∀ q < A.browptr⟦A.nbrows⟧, IsUpd A pos T e q (e q))
    (hv : IsUpd A pos T x p v) : |v - e p| ≤ t1⁻¹ * E * (h2 p - h1 p) := by
  have h : 0 < t1 := lt_of_lt_of_le one_pos H.one_le
  have hbox := H.H0.box_fixed hA hSo hD hpos hT he
  have hd : |posSum pos x p - posSum pos e p| ≤ E * (posB pos (fun q => h2 q - h1 q) h0 p + posB pos h0 (fun q => h2 q - h1 q) p) := by
    rw [posSum_sub]
    unfold posB
    rw [← sum_add_distrib, ← sum_add_distrib, mul_sum]
    refine (abs_sum_le_sum_abs _ _).trans (sum_le_sum fun t ht => ?_)
    obtain ⟨⟨d1, d2⟩, d3, d4⟩ := hpos.dep hA hSo hp ht
    obtain ⟨-, b1⟩ := hx _ d1
    obtain ⟨b3, b2⟩ := hx _ d2
    have b4 := hbox _ (show pos.lowerp⟦t⟧ < A.browptr⟦A.nbrows⟧ by omega)
    unfold InBox at b3 b4
    rw [if_neg (by omega)] at b3 b4
    refine (abs_add_le _ _).trans ?_
    rw [abs_mul, abs_mul]
    have c1 := mul_le_mul b1 b3 (abs_nonneg _) ((abs_nonneg _).trans b1)
    have c2 := mul_le_mul b4 b2 (abs_nonneg _) ((abs_nonneg _).trans b4)
    linarith
  have hs := H.super hA hSo hD hpos hp
  set P := posB pos (fun q => h2 q - h1 q) h0 p + posB pos h0 (fun q => h2 q - h1 q) p with hP
  have hsE : E * P ≤ t1⁻¹ * E * (posSum pos h2 p - posSum pos h1 p) := by
    have := mul_le_mul_of_nonneg_left hs (mul_nonneg (inv_nonneg.mpr h.le) hE)
    refine le_trans (le_of_eq ?_) this
    field_simp
  have hqE : 0 ≤ t1⁻¹ * E := mul_nonneg (inv_nonneg.mpr h.le) hE
  have hap := H.nn p hp
  have hta : 0 ≤ (t2 - t1) * a p := mul_nonneg (sub_nonneg.mpr H.lt.le) hap
  have he' := he p hp
  unfold IsUpd at hv he'
  rcases lt_trichotomy A.bcolind⟦p⟧ (A.rowOf p) with hlt | heq | hgt
  · rw [if_pos hlt] at hv he'
    have hcn := hA.col_lt p hp
    have hdb := hD.before hA hp hlt
    set c := A.diagind⟦A.bcolind⟦p⟧⟧ with hc
    obtain ⟨b1, b2⟩ := hx _ hdb
    have b3 := Hat.pivot (a := a) hA hD hT hcn b1
    have b4 := hbox p hp
    unfold InBox at b4
    rw [if_neg (by omega)] at b4
    have g0 := H.H0.piv _ hcn
    have l1 := H.H1.low p hp hlt
    have l2 := H.H2.low p hp hlt
    rw [← hc] at b3 g0 l1 l2
    -- the error times the pivot that was read
    have k1 : (v - e p) * x c = -(posSum pos x p - posSum pos e p) - e p * (x c - e c) := by linear_combination hv - he'
    have k2 : |v - e p| * |x c| ≤ E * P + h0 p * (E * (h2 c - h1 c)) := by
      rw [← abs_mul, k1]
      refine (abs_sub _ _).trans ?_
      rw [abs_neg, abs_mul]
      have := mul_le_mul b4 b2 (abs_nonneg _) ((abs_nonneg _).trans b4)
      linarith
    have k3 : |v - e p| * (a c - h0 c) ≤ |v - e p| * |x c| := mul_le_mul_of_nonneg_left b3 (abs_nonneg _)
    refine le_of_mul_le_mul_right (a := a c - h0 c) ?_ (by linarith)
    refine (k3.trans k2).trans ?_
    have wc := (H.weight hA hSo hD hpos (show c < A.browptr⟦A.nbrows⟧ by omega)).1
    have wp := (H.weight hA hSo hD hpos hp).1
    have gp := H.grow01 hA hSo hD hpos p hp
    have gc := H.grow01 hA hSo hD hpos c (by omega)
    have n0 := H.H0.nn c (by omega)
    have gc' : h0 c ≤ h2 c := ((le_mul_of_one_le_left n0 H.one_le).trans gc).trans wc
    have r1 := mul_le_mul_of_nonneg_right gp (sub_nonneg.mpr wc)
    have r2 := mul_le_mul_of_nonneg_left gc' (sub_nonneg.mpr wp)
    have r3 : posSum pos h2 p - posSum pos h1 p + t1 * h0 p * (h2 c - h1 c) ≤ (h2 p - h1 p) * (a c - h0 c) := by nlinarith
    have r4 := mul_le_mul_of_nonneg_left r3 hqE
    have r5 : t1⁻¹ * E * (t1 * h0 p * (h2 c - h1 c)) = h0 p * (E * (h2 c - h1 c)) := by field_simp
    rw [mul_add, r5] at r4
    linarith
  · rw [if_neg (by omega)] at hv he'
    rw [show v - e p = -(posSum pos x p - posSum pos e p) by linear_combination hv - he', abs_neg, H.H1.dia p hp heq.symm, H.H2.dia p hp heq.symm]
    exact hd.trans hsE
  · rw [if_neg (by omega)] at hv he'
    rw [show v - e p = -(posSum pos x p - posSum pos e p) by linear_combination hv - he', abs_neg, H.H1.up p hp hgt, H.H2.up p hp hgt]
    refine (hd.trans hsE).trans (mul_le_mul_of_nonneg_left ?_ hqE)
    linarith

end hats

end Blasted
