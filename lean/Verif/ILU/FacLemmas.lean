import Verif.ILU.PosProps
import Verif.Async.Lemmas
import Mathlib.Tactic.Abel
import Mathlib.Tactic.NoncommRing

/-!
# The factorization update and the product of the factors
-/

namespace Blasted

open Finset

variable {V R : Type}

section spec
variable [Semiring R]

omit [Semiring R] in
theorem SR.Full.withVals {A : SR V} {m : Nat} (hA : A.Full m) {ilu : List R}
    (hl : ilu.length = A.browptr⟦A.nbrows⟧) : ({ A with vals := ilu } : SR R).Full 1 where
  ptr_len := hA.ptr_len
  ptr_zero := hA.ptr_zero
  ptr_mono := hA.ptr_mono
  end_len := hA.end_len
  end_eq := hA.end_eq
  ind_len := hA.ind_len
  val_len := by rw [Nat.mul_one]; exact hl
  col_lt := hA.col_lt

theorem facEntry_stored {A : SR V} {m : Nat} (hA : A.Full m) (hS : A.Sorted) {ilu : List R}
    (hl : ilu.length = A.browptr⟦A.nbrows⟧) {i p : Nat} (hi : i < A.nbrows) (hp : A.InRow i p) :
    facEntry A ilu i A.bcolind⟦p⟧ = ilu⟦p⟧ :=
  (hA.withVals hl).entry_stored (A := { A with vals := ilu }) hS hi hp

theorem facEntry_unstored {A : SR V} {m : Nat} (hA : A.Full m) {ilu : List R}
    (hl : ilu.length = A.browptr⟦A.nbrows⟧) {i j : Nat} (hi : i < A.nbrows)
    (h : ∀ k, A.InRow i k → A.bcolind⟦k⟧ ≠ j) : facEntry A ilu i j = 0 :=
  (hA.withVals hl).entry_unstored (A := { A with vals := ilu }) hi h

/-- The sum of products over the position list of an entry. -/
def posSum (pos : ILUPos) (g : Nat → R) (p : Nat) : R :=
  ∑ t ∈ Ico pos.posptr⟦p⟧ pos.posptr⟦p + 1⟧, g pos.lowerp⟦t⟧ * g pos.upperp⟦t⟧

/-- The product `L U` at a stored position in terms of the position list. -/
theorem luProd_eq {A : SR V} {m : Nat} (hA : A.Full m) (hS : A.Sorted) (hD : A.HasDiag)
    {pos : ILUPos} (hpos : ILUPosOk A pos) {ilu : List R} (hl : ilu.length = A.browptr⟦A.nbrows⟧)
    {i p : Nat} (hi : i < A.nbrows) (hp : A.InRow i p) :
    luProd A ilu i A.bcolind⟦p⟧ = posSum pos (get0 ilu) p +
      (if A.bcolind⟦p⟧ < i then ilu⟦p⟧ * ilu⟦A.diagind⟦A.bcolind⟦p⟧⟧⟧ else ilu⟦p⟧) := by
  have hj := hA.col_lt p (hA.lt_nnz hi hp.2)
  set j := A.bcolind⟦p⟧ with hjdef
  set μ := min i j with hμ
  have hμn : μ < A.nbrows := lt_of_le_of_lt (min_le_left _ _) hi
  unfold luProd
  rw [← sum_subset (s₁ := range (μ + 1)) (range_subset_range.mpr hμn) (by
    intro k _ hk
    rw [mem_range] at hk
    unfold lowerFactor upperFactor
    by_cases hki : i < k
    · rw [if_neg (by omega), if_neg (by omega), zero_mul]
    · rw [if_neg (show ¬ k ≤ j by omega), mul_zero])]
  rw [sum_range_succ]
  congr 1
  · symm
    unfold posSum
    refine sum_of_injOn (fun t => A.bcolind⟦pos.lowerp⟦t⟧⟧) ?_ ?_ ?_ ?_
    · intro t ht t' ht' h
      rw [coe_Ico, Set.mem_Ico] at ht ht'
      rcases Nat.lt_trichotomy t t' with h1 | h1 | h1
      · have := hpos.incr i hi p hp t t' ht.1 h1 ht'.2
        simp only at h; omega
      · exact h1
      · have := hpos.incr i hi p hp t' t ht'.1 h1 ht.2
        simp only at h; omega
    · intro t ht
      rw [coe_Ico, Set.mem_Ico] at ht
      obtain ⟨k, hk, _, h2, _, _⟩ := hpos.sound i hi p hp t ht.1 ht.2
      rw [coe_range, Set.mem_Iio]
      simp only [h2]
      exact hk
    · intro k hk hnot
      rw [mem_range] at hk
      have hki : k < i := lt_of_lt_of_le hk (min_le_left _ _)
      have hkj : k < j := lt_of_lt_of_le hk (min_le_right _ _)
      unfold lowerFactor upperFactor
      rw [if_pos hki, if_pos (by omega)]
      by_cases ha : ∃ a, A.InRow i a ∧ A.bcolind⟦a⟧ = k
      · obtain ⟨a, ha, hak⟩ := ha
        by_cases hb : ∃ b, A.InRow k b ∧ A.bcolind⟦b⟧ = j
        · obtain ⟨b, hb, hbj⟩ := hb
          obtain ⟨t, h1, h2, h3, h4⟩ := hpos.complete i hi p hp k hk a b ha hak hb hbj
          exact absurd ⟨t, by rw [coe_Ico, Set.mem_Ico]; exact ⟨h1, h2⟩, by simp only [h3, hak]⟩ hnot
        · rw [facEntry_unstored hA hl (by omega) (fun b hb' h => hb ⟨b, hb', h⟩), mul_zero]
      · rw [facEntry_unstored hA hl hi (fun b hb' h => ha ⟨b, hb', h⟩), zero_mul]
    · intro t ht
      rw [mem_Ico] at ht
      obtain ⟨k, hk, h1, h2, h3, h4⟩ := hpos.sound i hi p hp t ht.1 ht.2
      have hki : k < i := lt_of_lt_of_le hk (min_le_left _ _)
      have hkj : k < j := lt_of_lt_of_le hk (min_le_right _ _)
      simp only [h2]
      unfold lowerFactor upperFactor
      rw [if_pos hki, if_pos (by omega)]
      have e1 := facEntry_stored hA hS hl hi h1
      have e2 := facEntry_stored hA hS hl (show k < A.nbrows by omega) h3
      rw [h2] at e1
      rw [h4] at e2
      rw [e1, e2]
  · have hst := facEntry_stored hA hS hl hi hp
    rw [← hjdef] at hst
    by_cases hji : j < i
    · rw [if_pos hji]
      have : μ = j := min_eq_right (by omega)
      rw [this]
      unfold lowerFactor upperFactor
      rw [if_pos hji, if_pos (Nat.le_refl _), hst]
      have := facEntry_stored hA hS hl hj (hD.inRow hj)
      rw [hD.diag_col j hj] at this
      rw [this]
    · rw [if_neg hji]
      have : μ = i := min_eq_left (by omega)
      rw [this]
      unfold lowerFactor upperFactor
      rw [if_neg (by omega), if_pos rfl, if_pos (by omega), hst, one_mul]

theorem upperFactor_diag {A : SR V} {m : Nat} (hA : A.Full m) (hS : A.Sorted) (hD : A.HasDiag)
    {ilu : List R} (hl : ilu.length = A.browptr⟦A.nbrows⟧) {i : Nat} (hi : i < A.nbrows) :
    upperFactor A ilu i i = ilu⟦A.diagind⟦i⟧⟧ := by
  unfold upperFactor
  rw [if_pos (Nat.le_refl _)]
  have := facEntry_stored hA hS hl hi (hD.inRow hi)
  rwa [hD.diag_col i hi] at this

end spec

section upd
variable [Ring R] [PInv R]

/-- Positions in the list of an entry come before the entry. -/
theorem ILUPosOk.before {A : SR V} {m : Nat} (hA : A.Full m) (hS : A.Sorted)
    {pos : ILUPos} (hpos : ILUPosOk A pos) {i p t : Nat} (hi : i < A.nbrows) (hp : A.InRow i p)
    (h1 : pos.posptr⟦p⟧ ≤ t) (h2 : t < pos.posptr⟦p + 1⟧) :
    pos.lowerp⟦t⟧ < p ∧ pos.upperp⟦t⟧ < p ∧ t < pos.lowerp.length ∧ t < pos.upperp.length := by
  obtain ⟨k, hk, h3, h4, h5, _⟩ := hpos.sound i hi p hp t h1 h2
  have hki : k < i := lt_of_lt_of_le hk (min_le_left _ _)
  have hkj : k < A.bcolind⟦p⟧ := lt_of_lt_of_le hk (min_le_right _ _)
  have hle : ∀ q ≤ A.browptr⟦A.nbrows⟧, ∀ q' ≤ q, pos.posptr⟦q'⟧ ≤ pos.posptr⟦q⟧ := by
    intro q
    induction q with
    | zero => intro _ q' h; rw [Nat.le_zero.mp h]
    | succ q ih =>
      intro hq q' hq'
      rcases Nat.lt_or_ge q q' with h | h
      · rw [show q' = q + 1 by omega]
      · exact (ih (by omega) q' h).trans (hpos.ptr_mono q (by omega))
  have hpn := hA.lt_nnz hi hp.2
  have hT := hle _ (Nat.le_refl _) (p + 1) hpn
  refine ⟨?_, ?_, ?_, ?_⟩
  · rw [← hS.lt_iff hi h3 hp, h4]; exact hkj
  · have := hA.ptr_le (i := k + 1) (j := i) hki (by omega)
    have h6 := h5.2
    have h7 := hp.1
    omega
  · rw [hpos.low_len]; omega
  · rw [hpos.up_len]; omega

/-- The diagonal of an earlier row comes before. -/
theorem diag_before {A : SR V} {m : Nat} (hA : A.Full m) (hD : A.HasDiag) {i p c : Nat}
    (hi : i < A.nbrows) (hp : A.InRow i p) (hc : c < i) : A.diagind⟦c⟧ < p := by
  have h1 := hD.diag_lt c (by omega)
  have h2 := hA.ptr_le (i := c + 1) (j := i) hc (by omega)
  have h3 := hp.1
  omega

/-- Closed form of the update of entry `p` when the array is read as `g` and the scaled matrix entry is `T`. -/
def facVal (A : SR V) (pos : ILUPos) (T : R) (g : Nat → R) (i p : Nat) : C R :=
  if A.bcolind⟦p⟧ < i then do
    let w ← pinv (g A.diagind⟦A.bcolind⟦p⟧⟧)
    .ok ((T - posSum pos g p) * w)
  else .ok (T - posSum pos g p)

theorem forRange_sub {α : Type} [AddCommGroup α] {lo hi : Nat} (hle : lo ≤ hi) {f : Nat → C α}
    {g : Nat → α} {s : α} (h : ∀ i, lo ≤ i → i < hi → f i = .ok (g i)) :
    forRange lo hi (fun i s => do let t ← f i; .ok (s - t)) s = .ok (s - ∑ i ∈ Ico lo hi, g i) := by
  obtain ⟨a, e, rfl⟩ := forRange_ok (body := fun i s => do let t ← f i; .ok (s - t)) (s := s)
    (fun k s' => s' = s - ∑ i ∈ Ico lo k, g i) hle (by simp) (by
      intro i s' h1 h2 hs
      simp only [h i h1 h2, ok_bind]
      refine Ok.pure ?_
      rw [hs, sum_Ico_succ_top h1]; abel)
  exact e

theorem iluUpd_eq {A : SR R} (hA : A.Full) (hS : A.Sorted) (hD : A.HasDiag)
    {pos : ILUPos} (hpos : ILUPosOk A pos) {scal : Nat → Nat → R → C R} {T : R} {i p : Nat}
    (hi : i < A.nbrows) (hp : A.InRow i p) (hT : scal i A.bcolind⟦p⟧ A.vals⟦p⟧ = .ok T)
    {r : Nat → C R} {g : Nat → R} (hr : ∀ q < p, r q = .ok (g q)) :
    iluUpd A scal pos i p r = facVal A pos T g i p := by
  have hpn := hA.lt_nnz hi hp.2
  have h1 := hA.ind_len
  have h2 := hA.val_len
  have h3 := hpos.ptr_len
  have h4 := hD.diag_len
  unfold iluUpd facVal
  rw [rd_eq (by omega), ok_bind, rd_eq (by omega), ok_bind, hT, ok_bind, rd_eq (by omega), ok_bind,
    rd_eq (by omega), ok_bind]
  have hloop := forRange_sub (s := T) (hpos.ptr_mono p hpn)
    (f := fun k => do
      let l ← rd pos.lowerp k
      let u ← rd pos.upperp k
      let a ← r l
      let b ← r u
      .ok (a * b)) (g := fun t => g pos.lowerp⟦t⟧ * g pos.upperp⟦t⟧) (by
      intro t ht1 ht2
      obtain ⟨h5, h6, h7, h8⟩ := hpos.before hA hS hi hp ht1 ht2
      rw [rd_eq h7, ok_bind, rd_eq h8, ok_bind, hr _ h5, ok_bind, hr _ h6, ok_bind])
  rw [forRange_congr (body' := fun i s => do
      let t ← (do
        let l ← rd pos.lowerp i
        let u ← rd pos.upperp i
        let a ← r l
        let b ← r u
        .ok (a * b))
      .ok (s - t)) (by
      intro t ht1 ht2 s
      obtain ⟨h5, h6, h7, h8⟩ := hpos.before hA hS hi hp ht1 ht2
      rw [rd_eq h7, ok_bind, rd_eq h8, ok_bind, hr _ h5, ok_bind, hr _ h6, ok_bind]
      simp only [ok_bind, hr _ h5, hr _ h6]), hloop, ok_bind]
  have hc := hA.col_lt p hpn
  by_cases hlow : A.bcolind⟦p⟧ < i
  · rw [if_pos hlow, if_pos hlow, rd_eq (by omega), ok_bind, hr _ (diag_before hA hD hi hp hlow), ok_bind, PInv.pdiv_eq]
    rfl
  · rw [if_neg hlow, if_neg hlow]; rfl

/-- Solving for the entry is the same as `L U` matching the matrix at that entry. -/
theorem facVal_iff {A : SR V} {m : Nat} (hA : A.Full m) (hS : A.Sorted) (hD : A.HasDiag)
    {pos : ILUPos} (hpos : ILUPosOk A pos) {ilu : List R} (hl : ilu.length = A.browptr⟦A.nbrows⟧)
    {T : R} {i p : Nat} (hi : i < A.nbrows) (hp : A.InRow i p) :
    facVal A pos T (get0 ilu) i p = .ok ilu⟦p⟧ ↔
      luProd A ilu i A.bcolind⟦p⟧ = T ∧
        (A.bcolind⟦p⟧ < i → IsUnit (upperFactor A ilu A.bcolind⟦p⟧ A.bcolind⟦p⟧)) := by
  rw [luProd_eq hA hS hD hpos hl hi hp]
  have hc := hA.col_lt p (hA.lt_nnz hi hp.2)
  rw [upperFactor_diag hA hS hD hl hc]
  unfold facVal
  by_cases hlow : A.bcolind⟦p⟧ < i
  · rw [if_pos hlow, if_pos hlow]
    rcases pinv_cases (ilu⟦A.diagind⟦A.bcolind⟦p⟧⟧⟧) with ⟨b, hb, h1, h2⟩ | ⟨he, hu⟩
    · rw [hb, ok_bind]
      constructor
      · intro h
        injection h with h
        refine ⟨?_, fun _ => isUnit_of_pinv hb⟩
        rw [← h, mul_assoc, h2, mul_one]; abel
      · rintro ⟨h, _⟩
        rw [← h, add_sub_cancel_left, mul_assoc, h1, mul_one]
    · rw [he]
      constructor
      · intro h; cases h
      · rintro ⟨_, h⟩; exact absurd (h hlow) hu
  · rw [if_neg hlow, if_neg hlow]
    constructor
    · intro h
      injection h with h
      exact ⟨by rw [← h]; abel, fun h => absurd h hlow⟩
    · rintro ⟨h, _⟩
      rw [← h, add_sub_cancel_left]

omit [Ring R] [PInv R] in
/-- The sweeps of the code are sweeps over the positions. -/
theorem iluSweeps_eq [Sub R] [Mul R] [PInvOp R] {A : SR R} (hA : A.Full) (scal : Nat → Nat → R → C R) (pos : ILUPos) (k : Nat)
    (ilu : List R) : iluSweeps A scal pos k ilu =
      sweepsUp (iluComp A scal pos) A.browptr⟦A.nbrows⟧ k ilu := by
  unfold iluSweeps sweepsUp
  congr 1
  funext _ ilu
  unfold iluRow
  rw [hA.nested_pos (body := fun irow j ilu => do
    let v ← iluUpd A scal pos irow j (rd ilu)
    wr ilu j v)]
  rfl

omit [Ring R] [PInv R] in
theorem iluComp_dep [Zero R] [Sub R] [Mul R] [PInvOp R] {A : SR R} (hA : A.Full) (hS : A.Sorted) (hD : A.HasDiag)
    {pos : ILUPos} (hpos : ILUPosOk A pos) (scal : Nat → Nat → R → C R) {p : Nat}
    (hp : p < A.browptr⟦A.nbrows⟧) (r r' : Nat → C R) (h : ∀ q < p, r q = r' q) :
    iluComp A scal pos p r = iluComp A scal pos p r' := by
  obtain ⟨hi, hrow⟩ := hA.rowOf_spec hp
  have h1 := hA.ind_len
  have h2 := hA.val_len
  have h3 := hpos.ptr_len
  have h4 := hD.diag_len
  unfold iluComp iluUpd
  rw [rd_eq (by omega), ok_bind, ok_bind, rd_eq (by omega), ok_bind, ok_bind]
  cases scal (A.rowOf p) A.bcolind⟦p⟧ A.vals⟦p⟧ with
  | error e => rfl
  | ok T =>
    rw [ok_bind, ok_bind, rd_eq (by omega), ok_bind, ok_bind, rd_eq (by omega), ok_bind, ok_bind]
    rw [forRange_congr (body' := fun k sum => do
      let l ← rd pos.lowerp k
      let u ← rd pos.upperp k
      let a ← r' l
      let b ← r' u
      .ok (sum - a * b)) (by
      intro t ht1 ht2 s
      obtain ⟨h5, h6, h7, h8⟩ := hpos.before hA hS hi hrow ht1 ht2
      rw [rd_eq h7, ok_bind, ok_bind, rd_eq h8, ok_bind, ok_bind, h _ h5, h _ h6])]
    by_cases hlow : A.bcolind⟦p⟧ < A.rowOf p
    · have hc := hA.col_lt p hp
      simp only [if_pos hlow]
      rw [rd_eq (by omega)]
      simp only [ok_bind]
      rw [h _ (diag_before hA hD hi hrow hlow)]
    · simp only [if_neg hlow]

variable {A : SR R} {scal : Nat → Nat → R → C R} {pos : ILUPos} {T : Nat → R}

/-- `T p` is the scaled value of the matrix at `p`. -/
def ScalOk (A : SR R) (scal : Nat → Nat → R → C R) (T : Nat → R) : Prop :=
  ∀ p < A.browptr⟦A.nbrows⟧, scal (A.rowOf p) A.bcolind⟦p⟧ A.vals⟦p⟧ = .ok (T p)

theorem iluComp_view (hA : A.Full) (hS : A.Sorted) (hD : A.HasDiag)
    (hpos : ILUPosOk A pos) (hT : ScalOk A scal T) {p : Nat} (hp : p < A.browptr⟦A.nbrows⟧)
    {r : Nat → C R} {g : Nat → R} (hr : ∀ q < p, r q = .ok (g q)) :
    iluComp A scal pos p r = facVal A pos (T p) g (A.rowOf p) p := by
  obtain ⟨hi, hrow⟩ := hA.rowOf_spec hp
  exact iluUpd_eq hA hS hD hpos hi hrow (hT p hp) hr

/-- The factors satisfy all update equations iff `L U = T` on the pattern and the pivots that are
divided by are invertible. -/
theorem iluComp_fix_iff (hA : A.Full) (hS : A.Sorted) (hD : A.HasDiag)
    (hpos : ILUPosOk A pos) (hT : ScalOk A scal T) {ilu : List R}
    (hl : ilu.length = A.browptr⟦A.nbrows⟧) {p : Nat} (hp : p < A.browptr⟦A.nbrows⟧) :
    iluComp A scal pos p (rd ilu) = .ok ilu⟦p⟧ ↔
      luProd A ilu (A.rowOf p) A.bcolind⟦p⟧ = T p ∧
        (A.bcolind⟦p⟧ < A.rowOf p → IsUnit (upperFactor A ilu A.bcolind⟦p⟧ A.bcolind⟦p⟧)) := by
  obtain ⟨hi, hrow⟩ := hA.rowOf_spec hp
  rw [iluComp_view hA hS hD hpos hT hp (g := get0 ilu) (fun q hq => rd_eq (by omega))]
  exact facVal_iff hA hS hD hpos hl hi hrow

theorem facVal_cases (A : SR V) (pos : ILUPos) (T : R) (g : Nat → R) (i p : Nat) :
    (∃ v, facVal A pos T g i p = .ok v) ∨ facVal A pos T g i p = .error .divzero := by
  unfold facVal
  split
  · rcases pinv_cases (g A.diagind⟦A.bcolind⟦p⟧⟧) with ⟨b, hb, _⟩ | ⟨he, _⟩
    · left; rw [hb]; exact ⟨_, rfl⟩
    · right; rw [he]; rfl
  · left; exact ⟨_, rfl⟩

/-- A sequential factorization that ends normally is exact on the pattern. -/
theorem iluSweeps_sound (hA : A.Full) (hS : A.Sorted) (hD : A.HasDiag)
    (hpos : ILUPosOk A pos) (hT : ScalOk A scal T) {k : Nat} (hk : 0 < k) {ilu ilu' : List R}
    (hl : ilu.length = A.browptr⟦A.nbrows⟧) (h : iluSweeps A scal pos k ilu = .ok ilu') :
    ilu'.length = A.browptr⟦A.nbrows⟧ ∧ ∀ p < A.browptr⟦A.nbrows⟧,
      luProd A ilu' (A.rowOf p) A.bcolind⟦p⟧ = T p ∧
        (A.bcolind⟦p⟧ < A.rowOf p → IsUnit (upperFactor A ilu' A.bcolind⟦p⟧ A.bcolind⟦p⟧)) := by
  rw [iluSweeps_eq hA, sweepsUp_eq (fun p hp => iluComp_dep hA hS hD hpos scal hp) hl hk] at h
  obtain ⟨h1, h2⟩ := sweepUp_sound (fun p hp => iluComp_dep hA hS hD hpos scal hp) hl h
  exact ⟨h1, fun p hp => (iluComp_fix_iff hA hS hD hpos hT h1 hp).mp (h2 p hp)⟩

/-- If exact factors with invertible pivots exist, the sequential factorization returns them. -/
theorem iluSweeps_complete (hA : A.Full) (hS : A.Sorted) (hD : A.HasDiag)
    (hpos : ILUPosOk A pos) (hT : ScalOk A scal T) {k : Nat} (hk : 0 < k) {ilu ex : List R}
    (hl : ilu.length = A.browptr⟦A.nbrows⟧) (hex : ex.length = A.browptr⟦A.nbrows⟧)
    (h : ∀ p < A.browptr⟦A.nbrows⟧, luProd A ex (A.rowOf p) A.bcolind⟦p⟧ = T p ∧
        (A.bcolind⟦p⟧ < A.rowOf p → IsUnit (upperFactor A ex A.bcolind⟦p⟧ A.bcolind⟦p⟧))) :
    iluSweeps A scal pos k ilu = .ok ex := by
  rw [iluSweeps_eq hA, sweepsUp_eq (fun p hp => iluComp_dep hA hS hD hpos scal hp) hl hk]
  exact sweepUp_complete (fun p hp => iluComp_dep hA hS hD hpos scal hp) hl hex
    (fun p hp => (iluComp_fix_iff hA hS hD hpos hT hex hp).mpr (h p hp))

/-- The only possible failure is a pivot that is not invertible. -/
theorem iluSweeps_fail (hA : A.Full) (hS : A.Sorted) (hD : A.HasDiag)
    (hpos : ILUPosOk A pos) (hT : ScalOk A scal T) (k : Nat) {ilu : List R}
    (hl : ilu.length = A.browptr⟦A.nbrows⟧) :
    (∃ ilu', iluSweeps A scal pos k ilu = .ok ilu' ∧ ilu'.length = A.browptr⟦A.nbrows⟧) ∨
      iluSweeps A scal pos k ilu = .error .divzero := by
  rcases Nat.eq_zero_or_pos k with rfl | hk
  · left; exact ⟨ilu, by simp [iluSweeps], hl⟩
  rw [iluSweeps_eq hA, sweepsUp_eq (fun p hp => iluComp_dep hA hS hD hpos scal hp) hl hk]
  refine sweepUp_fail (fun p hp y hy => ?_) hl
  rw [iluComp_view hA hS hD hpos hT hp (g := get0 y) (fun q hq => rd_eq (by omega))]
  exact facVal_cases _ _ _ _ _ _

end upd

end Blasted
