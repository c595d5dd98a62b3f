import Verif.Container.AssemblyModel
import Verif.Base.Sweep
import Mathlib.Algebra.Order.Group.Int
import Mathlib.Algebra.Order.Group.Abs
import Mathlib.Algebra.BigOperators.Intervals
import Mathlib.Tactic.Ring

/-!
# C47 and C49: comparing matrices, and queries about the diagonal
-/

namespace Blasted

open Finset

variable {K : Type} [CommRing K] [LinearOrder K]

/-! ### C47 -/

/-- The arrays of a matrix have the lengths the class gives them. -/
structure SR.Shaped (A : SR K) (m : Nat) : Prop where
  full : A.Full m
  diag : A.diagind.length = A.nbrows

theorem setIfNe_iff (b : Bool) (x y : Nat) : setIfNe b x y = true ↔ b = true ∧ x = y := by
  unfold setIfNe
  by_cases h : x = y
  · simp [h]
  · simp [h]

theorem areEqualLoops_ok {m : Nat} {A B : SR K} (tol : K) (hA : A.Shaped m) (hB : B.Shaped m)
    (hn : A.nbrows = B.nbrows) (hz : A.browptr⟦A.nbrows⟧ = B.browptr⟦B.nbrows⟧) :
    Ok (areEqualLoops m A B tol) (fun f => f.nrows = true ∧
      (f.rowptr = true ↔ ∀ i < A.nbrows, A.browptr⟦i⟧ = B.browptr⟦i⟧) ∧
      (f.diag = true ↔ ∀ i < A.nbrows, A.diagind⟦i⟧ = B.diagind⟦i⟧) ∧
      (f.colind = true ↔ ∀ j < A.browptr⟦A.nbrows⟧, A.bcolind⟦j⟧ = B.bcolind⟦j⟧) ∧
      (f.values = true ↔ ∀ j < A.browptr⟦A.nbrows⟧, ∀ k < m, |A.vals⟦j * m + k⟧ - B.vals⟦j * m + k⟧| ≤ tol)) := by
  have hpa := hA.full.ptr_len
  have hpb := hB.full.ptr_len
  have hda := hA.diag
  have hdb := hB.diag
  unfold areEqualLoops
  refine Ok.bind (P := fun f => f.nrows = true ∧ f.colind = true ∧ f.values = true ∧
      (f.rowptr = true ↔ ∀ i < A.nbrows, A.browptr⟦i⟧ = B.browptr⟦i⟧) ∧
      (f.diag = true ↔ ∀ i < A.nbrows, A.diagind⟦i⟧ = B.diagind⟦i⟧)) ?_ ?_
  · refine forRange_ok (fun t (f : EqFlags) => f.nrows = true ∧ f.colind = true ∧ f.values = true ∧
      (f.rowptr = true ↔ ∀ i < t, A.browptr⟦i⟧ = B.browptr⟦i⟧) ∧
      (f.diag = true ↔ ∀ i < t, A.diagind⟦i⟧ = B.diagind⟦i⟧)) (Nat.zero_le _) (by simp) ?_
    rintro t f _ ht ⟨h1, h2, h3, h4, h5⟩
    rw [rd_eq (by omega), ok_bind, rd_eq (by omega), ok_bind, rd_eq (by omega), ok_bind, rd_eq (by omega), ok_bind]
    refine Ok.pure ⟨h1, h2, h3, ?_, ?_⟩
    · show setIfNe _ _ _ = true ↔ _
      rw [setIfNe_iff, h4]
      constructor
      · rintro ⟨a, b⟩ i hi
        rcases Nat.lt_succ_iff_lt_or_eq.mp hi with h | rfl
        · exact a i h
        · exact b
      · exact fun h => ⟨fun i hi => h i (by omega), h t (by omega)⟩
    · show setIfNe _ _ _ = true ↔ _
      rw [setIfNe_iff, h5]
      constructor
      · rintro ⟨a, b⟩ i hi
        rcases Nat.lt_succ_iff_lt_or_eq.mp hi with h | rfl
        · exact a i h
        · exact b
      · exact fun h => ⟨fun i hi => h i (by omega), h t (by omega)⟩
  · rintro f ⟨h1, h2, h3, h4, h5⟩
    rw [rd_eq (by omega), ok_bind]
    refine (forRange_ok (fun t (f : EqFlags) => f.nrows = true ∧
      (f.rowptr = true ↔ ∀ i < A.nbrows, A.browptr⟦i⟧ = B.browptr⟦i⟧) ∧
      (f.diag = true ↔ ∀ i < A.nbrows, A.diagind⟦i⟧ = B.diagind⟦i⟧) ∧
      (f.colind = true ↔ ∀ j < t, A.bcolind⟦j⟧ = B.bcolind⟦j⟧) ∧
      (f.values = true ↔ ∀ j < t, ∀ k < m, |A.vals⟦j * m + k⟧ - B.vals⟦j * m + k⟧| ≤ tol))
      (Nat.zero_le _) ⟨h1, h4, h5, by simp [h2], by simp [h3]⟩ ?_)
    rintro t f _ ht ⟨h1, h4, h5, h6, h7⟩
    have hia := hA.full.ind_len
    have hib := hB.full.ind_len
    rw [rd_eq (by omega), ok_bind, rd_eq (by omega), ok_bind]
    refine Ok.bind (P := fun v => (v = true ↔ f.values = true ∧
      ∀ k < m, |A.vals⟦t * m + k⟧ - B.vals⟦t * m + k⟧| ≤ tol)) ?_ ?_
    · refine forRange_ok (fun n (v : Bool) => (v = true ↔ f.values = true ∧
        ∀ k < n, |A.vals⟦t * m + k⟧ - B.vals⟦t * m + k⟧| ≤ tol)) (Nat.zero_le _) (by simp) ?_
      rintro n v _ hn' hv
      have ha : t * m + n < A.vals.length := by
        rw [hA.full.val_len]
        calc t * m + n < t * m + m := by omega
          _ = (t + 1) * m := by ring
          _ ≤ _ := Nat.mul_le_mul_right _ ht
      have hb : t * m + n < B.vals.length := by
        rw [hB.full.val_len, ← hz]
        calc t * m + n < t * m + m := by omega
          _ = (t + 1) * m := by ring
          _ ≤ _ := Nat.mul_le_mul_right _ ht
      rw [rd_eq ha, ok_bind, rd_eq hb, ok_bind]
      refine Ok.pure ?_
      by_cases hgt : |A.vals⟦t * m + n⟧ - B.vals⟦t * m + n⟧| > tol
      · rw [if_pos hgt]
        constructor
        · intro h; cases h
        · rintro ⟨_, h⟩
          exact absurd (h n (by omega)) (not_le.mpr hgt)
      · rw [if_neg hgt, hv]
        refine and_congr_right fun _ => ⟨fun h k hk => ?_, fun h k hk => h k (by omega)⟩
        rcases Nat.lt_succ_iff_lt_or_eq.mp hk with h' | rfl
        · exact h k h'
        · exact not_lt.mp hgt
    · intro v hv
      refine Ok.pure ⟨h1, h4, h5, ?_, ?_⟩
      · show setIfNe _ _ _ = true ↔ _
        rw [setIfNe_iff, h6]
        constructor
        · rintro ⟨a, b⟩ i hi
          rcases Nat.lt_succ_iff_lt_or_eq.mp hi with h | rfl
          · exact a i h
          · exact b
        · exact fun h => ⟨fun i hi => h i (by omega), h t (by omega)⟩
      · show v = true ↔ _
        rw [hv, h7]
        constructor
        · rintro ⟨a, b⟩ i hi
          rcases Nat.lt_succ_iff_lt_or_eq.mp hi with h | rfl
          · exact a i h
          · exact b
        · exact fun h => ⟨fun i hi => h i (by omega), h t (by omega)⟩

/-- The arrays hold what the comparison is about. -/
structure SameMatrix (A B : SR K) (tol : K) : Prop where
  rows : A.nbrows = B.nbrows
  ptr : A.browptr = B.browptr
  ind : A.bcolind = B.bcolind
  diag : A.diagind = B.diagind
  vals : ∀ p < A.vals.length, |A.vals⟦p⟧ - B.vals⟦p⟧| ≤ tol

theorem areEqual_ok {m : Nat} {A B : SR K} (tol : K) (hA : A.Shaped m) (hB : B.Shaped m) :
    Ok (areEqual m A B tol) (fun f =>
      (f = {} ↔ SameMatrix A B tol) ∧
      (f.nrows = false → A.nbrows ≠ B.nbrows) ∧
      (f.rowptr = false → A.browptr ≠ B.browptr) ∧
      (f.colind = false → A.bcolind ≠ B.bcolind) ∧
      (f.diag = false → A.diagind ≠ B.diagind) ∧
      (f.values = false → ∃ p < A.vals.length, tol < |A.vals⟦p⟧ - B.vals⟦p⟧|)) := by
  have hpa := hA.full.ptr_len
  have hpb := hB.full.ptr_len
  unfold areEqual
  by_cases hn : A.nbrows = B.nbrows
  · rw [if_neg (not_not.mpr hn), rd_eq (by omega), ok_bind, rd_eq (by omega), ok_bind]
    by_cases hz : A.browptr⟦A.nbrows⟧ = B.browptr⟦B.nbrows⟧
    · rw [if_neg (not_not.mpr hz)]
      refine (areEqualLoops_ok tol hA hB hn hz).mono ?_
      rintro f ⟨h1, h2, h3, h4, h5⟩
      have e1 : (∀ i < A.nbrows, A.browptr⟦i⟧ = B.browptr⟦i⟧) ↔ A.browptr = B.browptr := by
        constructor
        · intro h
          refine ext_get0 (by omega) fun i hi => ?_
          rcases Nat.lt_or_ge i A.nbrows with h' | h'
          · exact h i h'
          · obtain rfl : i = A.nbrows := by omega
            rw [hz, ← hn]
        · intro h i _; rw [h]
      have e2 : (∀ i < A.nbrows, A.diagind⟦i⟧ = B.diagind⟦i⟧) ↔ A.diagind = B.diagind := by
        constructor
        · intro h
          exact ext_get0 (by rw [hA.diag, hB.diag, hn]) fun i hi => h i (by rw [← hA.diag]; exact hi)
        · intro h i _; rw [h]
      have e3 : (∀ j < A.browptr⟦A.nbrows⟧, A.bcolind⟦j⟧ = B.bcolind⟦j⟧) ↔ A.bcolind = B.bcolind := by
        constructor
        · intro h
          exact ext_get0 (by rw [hA.full.ind_len, hB.full.ind_len, hz]) fun i hi =>
            h i (by rw [← hA.full.ind_len]; exact hi)
        · intro h i _; rw [h]
      have e4 : (∀ j < A.browptr⟦A.nbrows⟧, ∀ k < m, |A.vals⟦j * m + k⟧ - B.vals⟦j * m + k⟧| ≤ tol) ↔
          ∀ p < A.vals.length, |A.vals⟦p⟧ - B.vals⟦p⟧| ≤ tol := by
        rw [hA.full.val_len]
        constructor
        · intro h p hp
          have hm : 0 < m := Nat.pos_of_ne_zero (by rintro rfl; simp at hp)
          have := h (p / m) (Nat.div_lt_of_lt_mul (by rw [Nat.mul_comm]; exact hp)) (p % m) (Nat.mod_lt _ hm)
          rw [Nat.mul_comm, Nat.div_add_mod] at this
          exact this
        · intro h j hj k hk
          refine h _ ?_
          calc j * m + k < j * m + m := by omega
            _ = (j + 1) * m := by ring
            _ ≤ _ := Nat.mul_le_mul_right _ hj
      rw [e1] at h2; rw [e2] at h3; rw [e3] at h4; rw [e4] at h5
      refine ⟨?_, ?_, ?_, ?_, ?_, ?_⟩
      · constructor
        · rintro rfl
          exact ⟨hn, h2.mp rfl, h4.mp rfl, h3.mp rfl, h5.mp rfl⟩
        · intro h
          obtain ⟨a, b, c, d, e⟩ := f
          simp only at h1 h2 h3 h4 h5
          rw [h1, h2.mpr h.ptr, h3.mpr h.diag, h4.mpr h.ind, h5.mpr h.vals]
      · intro h; rw [h1] at h; cases h
      · intro h hc; rw [h2.mpr hc] at h; cases h
      · intro h hc; rw [h4.mpr hc] at h; cases h
      · intro h hc; rw [h3.mpr hc] at h; cases h
      · intro h
        by_contra hc
        push Not at hc
        rw [h5.mpr hc] at h; cases h
    · rw [if_pos hz]
      have hne : A.browptr ≠ B.browptr := by
        intro h; rw [h, hn] at hz; exact hz rfl
      refine Ok.pure ⟨⟨fun h => absurd h (by simp), fun h => absurd h.ptr hne⟩, ?_, fun _ => hne, ?_, ?_, ?_⟩ <;>
        (intro h; cases h)
  · rw [if_pos hn]
    refine Ok.pure ⟨⟨fun h => absurd h (by simp), fun h => absurd h.rows hn⟩, fun _ => hn, ?_, ?_, ?_, ?_⟩ <;>
      (intro h; cases h)

omit [CommRing K] [LinearOrder K] in
theorem rawOf_ok {m : Nat} {A : SR K} (hA : A.Shaped m) (hn : 0 < A.nbrows) (hz : 0 < A.browptr⟦A.nbrows⟧)
    (hm : 0 < m) : rawOf A = .ok () := by
  have h1 := hA.full.ptr_len
  have h2 := hA.full.ind_len
  have h3 := hA.full.val_len
  have h4 := hA.diag
  have h5 := hA.full.end_len
  have h6 : 0 < A.vals.length := by rw [h3]; exact Nat.mul_pos hz hm
  unfold rawOf addr0 cassert
  rw [decide_eq_true (show 0 < A.browptr.length by omega), decide_eq_true (show 0 < A.bcolind.length by omega),
    decide_eq_true h6, decide_eq_true (show 0 < A.diagind.length by omega),
    decide_eq_true (show 0 < A.browendptr.length by omega)]
  rfl

/-- **C47**. For matrices with at least one stored block, `isEqual` sets all flags exactly if the matrices have the
same number of rows, the same structure, the same diagonal positions and values that differ by at most
the tolerance; and each flag that is not set tells the truth. -/
theorem is_equal_correct {m : Nat} {A B : SR K} (tol : K) (hA : A.Shaped m) (hB : B.Shaped m)
    (ha : 0 < A.nbrows ∧ 0 < A.browptr⟦A.nbrows⟧) (hb : 0 < B.nbrows ∧ 0 < B.browptr⟦B.nbrows⟧) (hm : 0 < m) :
    Ok (isEqual m A B tol) (fun f =>
      (f = ⟨true, true, true, true, true⟩ ↔ SameMatrix A B tol) ∧
      (f.nrows = false → A.nbrows ≠ B.nbrows) ∧
      (f.rowptr = false → A.browptr ≠ B.browptr) ∧
      (f.colind = false → A.bcolind ≠ B.bcolind) ∧
      (f.diag = false → A.diagind ≠ B.diagind) ∧
      (f.values = false → ∃ p < A.vals.length, tol < |A.vals⟦p⟧ - B.vals⟦p⟧|)) := by
  unfold isEqual
  rw [rawOf_ok hA ha.1 ha.2 hm, ok_bind, rawOf_ok hB hb.1 hb.2 hm, ok_bind]
  exact areEqual_ok tol hA hB

/-- Two matrices with different numbers of rows. -/
def exEqA : SR Int where
  browptr := [0, 1, 3]
  bcolind := [0, 0, 1]
  vals := [1, 2, 3]
  diagind := [0, 2]
  browendptr := [1, 3]
  nbrows := 2
  nnzb := 3
  nbstored := 3

/-- Same structure as `exEqA`, values off by one. -/
def exEqB : SR Int := { exEqA with vals := [1, 3, 3] }

/-- A matrix with one row. -/
def exEqC : SR Int where
  browptr := [0, 1]
  bcolind := [0]
  vals := [7]
  diagind := [0]
  browendptr := [1]
  nbrows := 1
  nnzb := 1
  nbstored := 1

/-- A matrix without rows. -/
def exEqE : SR Int where
  browptr := [0]
  bcolind := []
  vals := []
  diagind := []
  browendptr := []
  nbrows := 0
  nnzb := 0
  nbstored := 0

theorem exEqA_shaped : exEqA.Shaped 1 :=
  ⟨{ ptr_len := rfl, ptr_zero := rfl, ptr_mono := by decide, end_len := rfl, end_eq := by decide
     ind_len := rfl, val_len := rfl, col_lt := by decide }, rfl⟩

example : exEqB.Shaped 1 :=
  ⟨{ ptr_len := rfl, ptr_zero := rfl, ptr_mono := by decide, end_len := rfl, end_eq := by decide
     ind_len := rfl, val_len := rfl, col_lt := by decide }, rfl⟩

/-- The comparison on concrete matrices, with a tolerance that is met and one that is not. -/
example : isEqual 1 exEqA exEqB 1 = .ok ⟨true, true, true, true, true⟩ ∧
    isEqual 1 exEqA exEqB 0 = .ok ⟨true, true, true, false, true⟩ := by decide

/-- A flag that is set need not tell the truth: when the numbers of rows differ, the comparison ends early and
all other flags stay set although the arrays differ. -/
theorem is_equal_true_flag_unreliable :
    isEqual 1 exEqA exEqC 0 = .ok ⟨false, true, true, true, true⟩ ∧ exEqA.bcolind ≠ exEqC.bcolind ∧
    exEqA.browptr ≠ exEqC.browptr := by decide

/-- Comparing an empty matrix with itself aborts in a build with assertions. -/
theorem is_equal_empty_aborts : exEqE.Full 1 ∧ isEqual 1 exEqE exEqE 0 = .error .abort :=
  ⟨{ ptr_len := rfl, ptr_zero := rfl, ptr_mono := by decide, end_len := rfl, end_eq := by decide
     ind_len := rfl, val_len := rfl, col_lt := by decide }, by decide⟩

/-! ### C49 -/

section diagonal
variable {A : SR K}

omit [LinearOrder K] in
theorem diagVal_eq (hA : A.Full 1) (hS : A.Sorted) (hD : A.HasDiag) {i : Nat} (hi : i < A.nbrows) :
    diagVal A i = .ok (A.entry i i) := by
  have hin := hD.inRow hi
  have hlt : A.diagind⟦i⟧ < A.vals.length := by
    have := hA.lt_nnz hi hin.2; have := hA.val_len; omega
  unfold diagVal
  rw [rd_eq (by rw [hD.diag_len]; exact hi), ok_bind, rd_eq hlt]
  have := hA.entry_stored hS hi hin
  rw [hD.diag_col i hi] at this
  rw [this]

theorem zeroDiagFrom_ok (hA : A.Full 1) (hS : A.Sorted) (hD : A.HasDiag) (te : K) (n i : Nat)
    (hn : i + n = A.nbrows) : Ok (zeroDiagFrom te A n i) (fun r =>
      (r = none → ∀ k, i ≤ k → k < A.nbrows → ¬ |A.entry k k| < te) ∧
      ∀ k, r = some k → (i ≤ k ∧ k < A.nbrows) ∧ |A.entry k k| < te ∧ ∀ l, i ≤ l → l < k → ¬ |A.entry l l| < te) := by
  induction n generalizing i with
  | zero => exact Ok.pure ⟨fun _ k h1 h2 => absurd h2 (by omega), fun k h => by cases h⟩
  | succ n ih =>
    unfold zeroDiagFrom
    rw [diagVal_eq hA hS hD (by omega), ok_bind]
    by_cases h : |A.entry i i| < te
    · rw [if_pos h]
      refine Ok.pure ⟨fun h => by (cases h), fun k hk => ?_⟩
      obtain rfl : i = k := by injection hk
      exact ⟨⟨le_refl _, by omega⟩, h, fun l h1 h2 => absurd h2 (by omega)⟩
    · rw [if_neg h]
      refine (ih (i + 1) (by omega)).mono ?_
      rintro r ⟨h1, h2⟩
      refine ⟨fun hr k hk1 hk2 => ?_, fun k hk => ?_⟩
      · rcases Nat.eq_or_lt_of_le hk1 with rfl | h'
        · exact h
        · exact h1 hr k h' hk2
      · obtain ⟨a, b, c⟩ := h2 k hk
        refine ⟨⟨by omega, a.2⟩, b, fun l hl1 hl2 => ?_⟩
        rcases Nat.eq_or_lt_of_le hl1 with rfl | h'
        · exact h
        · exact c l h' hl2

/-- **C49**. `zeroDiagonalRow` returns the first row whose diagonal entry is below the threshold in absolute value,
and `-1` exactly if there is none. -/
theorem zero_diagonal_row (hA : A.Full 1) (hS : A.Sorted) (hD : A.HasDiag) (te : K) :
    Ok (zeroDiagonalRow te A) (fun r =>
      (r = none ↔ ∀ k < A.nbrows, ¬ |A.entry k k| < te) ∧
      ∀ k, r = some k ↔ k < A.nbrows ∧ |A.entry k k| < te ∧ ∀ l < k, ¬ |A.entry l l| < te) := by
  refine (zeroDiagFrom_ok hA hS hD te A.nbrows 0 (by omega)).mono ?_
  rintro r ⟨h1, h2⟩
  cases r with
  | none =>
    have := h1 rfl
    refine ⟨⟨fun _ k hk => this k (Nat.zero_le _) hk, fun _ => rfl⟩, fun k => ⟨fun h => by (cases h), ?_⟩⟩
    rintro ⟨a, b, _⟩
    exact absurd b (this k (Nat.zero_le _) a)
  | some k0 =>
    obtain ⟨a, b, c⟩ := h2 k0 rfl
    refine ⟨⟨fun h => by (cases h), fun h => absurd b (h k0 a.2)⟩, fun k => ⟨fun h => ?_, ?_⟩⟩
    · obtain rfl : k0 = k := by injection h
      exact ⟨a.2, b, fun l hl => c l (Nat.zero_le _) hl⟩
    · rintro ⟨d, e, f⟩
      congr 1
      rcases Nat.lt_trichotomy k0 k with h | h | h
      · exact absurd b (f k0 h)
      · exact h
      · exact absurd e (c k (Nat.zero_le _) h)

/-- **C49**. `getNumZeroDiagonals` counts the rows whose diagonal entry is below the threshold. -/
theorem num_zero_diagonals (hA : A.Full 1) (hS : A.Sorted) (hD : A.HasDiag) (te : K) :
    getNumZeroDiagonals te A = .ok ((range A.nbrows).filter fun k => |A.entry k k| < te).card := by
  unfold getNumZeroDiagonals
  obtain ⟨r, hr, hr'⟩ := forRange_ok (body := fun i num => do
      let v ← diagVal A i
      Except.ok (if |v| < te then num + 1 else num)) (s := 0) (lo := 0) (hi := A.nbrows)
    (fun t r => r = ((range t).filter fun k => |A.entry k k| < te).card) (Nat.zero_le _) (by simp) (by
      intro t r _ ht hr
      rw [diagVal_eq hA hS hD ht, ok_bind]
      refine Ok.pure ?_
      rw [Finset.range_add_one, Finset.filter_insert, hr]
      split
      · rw [Finset.card_insert_of_notMem (by simp)]
      · rfl)
  rw [hr, hr']

omit [LinearOrder K] in
/-- **C49**. `getDiagonalProduct` is the product of the diagonal entries. -/
theorem diagonal_product (hA : A.Full 1) (hS : A.Sorted) (hD : A.HasDiag) :
    getDiagonalProduct A = .ok (∏ k ∈ range A.nbrows, A.entry k k) := by
  unfold getDiagonalProduct
  obtain ⟨r, hr, hr'⟩ := forRange_ok (body := fun i prod => do
      let v ← diagVal A i
      Except.ok (prod * v)) (s := (1 : K)) (lo := 0) (hi := A.nbrows)
    (fun t r => r = ∏ k ∈ range t, A.entry k k) (Nat.zero_le _) (by simp) (by
      intro t r _ ht hr
      rw [diagVal_eq hA hS hD ht, ok_bind]
      refine Ok.pure ?_
      rw [Finset.prod_range_succ, hr])
  rw [hr, hr']

/-- **C49**. `getDiagonalAbsSum` is the sum of the absolute values of the diagonal entries. -/
theorem diagonal_abs_sum (hA : A.Full 1) (hS : A.Sorted) (hD : A.HasDiag) :
    getDiagonalAbsSum A = .ok (∑ k ∈ range A.nbrows, |A.entry k k|) := by
  unfold getDiagonalAbsSum
  obtain ⟨r, hr, hr'⟩ := forRange_ok (body := fun i sum => do
      let v ← diagVal A i
      Except.ok (sum + |v|)) (s := (0 : K)) (lo := 0) (hi := A.nbrows)
    (fun t r => r = ∑ k ∈ range t, |A.entry k k|) (Nat.zero_le _) (by simp) (by
      intro t r _ ht hr
      rw [diagVal_eq hA hS hD ht, ok_bind]
      refine Ok.pure ?_
      rw [Finset.sum_range_succ, hr])
  rw [hr, hr']

/-- **C49**. `getAbsMinDiagonalEntry` is the least absolute value of a diagonal entry: it is attained (unless
there is no row) and no diagonal entry is smaller. -/
theorem abs_min_diagonal (hA : A.Full 1) (hS : A.Sorted) (hD : A.HasDiag) :
    Ok (getAbsMinDiagonalEntry A) (fun r => (∀ k < A.nbrows, r ≤ ↑|A.entry k k|) ∧
      (0 < A.nbrows → ∃ k < A.nbrows, r = ↑|A.entry k k|) ∧ (A.nbrows = 0 → r = ⊤)) := by
  unfold getAbsMinDiagonalEntry
  refine (forRange_ok (fun t (r : WithTop K) => (∀ k < t, r ≤ ↑|A.entry k k|) ∧
      (0 < t → ∃ k < t, r = ↑|A.entry k k|) ∧ (t = 0 → r = ⊤)) (Nat.zero_le _)
      ⟨fun k hk => absurd hk (by omega), fun h => absurd h (by omega), fun _ => rfl⟩ ?_)
  rintro t r _ ht ⟨h1, h2, h3⟩
  rw [diagVal_eq hA hS hD ht, ok_bind]
  refine Ok.pure ⟨fun k hk => ?_, fun _ => ?_, fun h => absurd h (by omega)⟩
  · rcases Nat.lt_succ_iff_lt_or_eq.mp hk with h | rfl
    · split
      next hlt => exact (le_of_lt hlt).trans (h1 k h)
      next => exact h1 k h
    · split
      next => exact le_refl _
      next hlt => exact not_lt.mp hlt
  · split
    next => exact ⟨t, by omega, rfl⟩
    next hlt =>
      rcases Nat.eq_zero_or_pos t with rfl | hpos
      · rw [h3 rfl] at hlt
        exact absurd (WithTop.coe_lt_top _) hlt
      · obtain ⟨k, hk, e⟩ := h2 hpos
        exact ⟨k, by omega, e⟩

/-- **C49**. `getAbsMaxDiagonalEntry` is the greatest absolute value of a diagonal entry (zero if there is no
row). -/
theorem abs_max_diagonal [IsOrderedRing K] (hA : A.Full 1) (hS : A.Sorted) (hD : A.HasDiag) :
    Ok (getAbsMaxDiagonalEntry A) (fun r => (∀ k < A.nbrows, |A.entry k k| ≤ r) ∧
      (0 < A.nbrows → ∃ k < A.nbrows, r = |A.entry k k|) ∧ (A.nbrows = 0 → r = 0)) := by
  unfold getAbsMaxDiagonalEntry
  refine (forRange_ok (fun t (r : K) => (∀ k < t, |A.entry k k| ≤ r) ∧
      (0 < t → ∃ k < t, r = |A.entry k k|) ∧ (t = 0 → r = 0)) (Nat.zero_le _)
      ⟨fun k hk => absurd hk (by omega), fun h => absurd h (by omega), fun _ => rfl⟩ ?_)
  rintro t r _ ht ⟨h1, h2, h3⟩
  rw [diagVal_eq hA hS hD ht, ok_bind]
  refine Ok.pure ⟨fun k hk => ?_, fun _ => ?_, fun h => absurd h (by omega)⟩
  · rcases Nat.lt_succ_iff_lt_or_eq.mp hk with h | rfl
    · split
      next hlt => exact (h1 k h).trans (le_of_lt hlt)
      next => exact h1 k h
    · split
      next => exact le_refl _
      next hlt => exact not_lt.mp hlt
  · split
    next => exact ⟨t, by omega, rfl⟩
    next hlt =>
      rcases Nat.eq_zero_or_pos t with rfl | hpos
      · refine ⟨0, by omega, ?_⟩
        rw [h3 rfl] at hlt ⊢
        exact le_antisymm (abs_nonneg _) (not_lt.mp hlt)
      · obtain ⟨k, hk, e⟩ := h2 hpos
        exact ⟨k, by omega, e⟩

/-- The hypotheses of the theorems on the diagonal hold for a concrete matrix. -/
example : exEqA.Full 1 ∧ exEqA.Sorted ∧ exEqA.HasDiag :=
  ⟨exEqA_shaped.full, SR.sorted_of_check (by decide),
    { diag_len := rfl, diag_ge := by decide, diag_lt := by decide, diag_col := by decide }⟩

example : zeroDiagonalRow 2 exEqA = .ok (some 0) ∧ getNumZeroDiagonals 2 exEqA = .ok 1 ∧
    getDiagonalProduct exEqA = .ok 3 ∧ getDiagonalAbsSum exEqA = .ok 4 ∧
    getAbsMaxDiagonalEntry exEqA = .ok 3 := by decide

end diagonal

end Blasted
