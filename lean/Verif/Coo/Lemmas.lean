import Verif.Coo.Model
import Verif.MatVec.Lemmas
import Verif.Container.AssemblyLemmas

/-!
# Lemmas for the conversion of coordinate matrices
-/

namespace Blasted
open Finset

variable {K : Type}

/-! ### Specification -/

/-- The matrix denoted by a list of coordinate entries. -/
def cooEntry [AddCommMonoid K] (es : List (Entry K)) (i j : Nat) : K :=
  (es.map fun e => if e.rowind = (i : Int) ∧ e.colind = (j : Int) then e.value else 0).sum

/-- A coordinate matrix as `readMatrixMarket` leaves it, except that rows may be empty: the row pointers delimit
the entries of each row and column indices are in range. -/
structure COO.Valid (A : COO K) : Prop where
  nnz_eq : A.entries.length = A.nnz
  ptr_len : A.rowptr.length = A.nrows + 1
  ptr_zero : A.rowptr⟦0⟧ = 0
  ptr_mono : ∀ i < A.nrows, A.rowptr⟦i⟧ ≤ A.rowptr⟦i + 1⟧
  ptr_last : A.rowptr⟦A.nrows⟧ = A.nnz
  row : ∀ i < A.nrows, ∀ k e, A.rowptr⟦i⟧ ≤ k → k < A.rowptr⟦i + 1⟧ → A.entries[k]? = some e → e.rowind = i
  col : ∀ e ∈ A.entries, 0 ≤ e.colind ∧ e.colind < A.ncols

/-- Entries are ordered by row, then by column, and no position occurs twice. -/
def lexLt (a b : Entry K) : Prop := a.rowind < b.rowind ∨ (a.rowind = b.rowind ∧ a.colind < b.colind)

/-- Entries are ordered by row, then by column. -/
def lexLe (a b : Entry K) : Prop := a.rowind < b.rowind ∨ (a.rowind = b.rowind ∧ a.colind ≤ b.colind)

/-- No two entries have the same position. -/
def NoDup (es : List (Entry K)) : Prop := es.Pairwise fun a b => ¬ (a.rowind = b.rowind ∧ a.colind = b.colind)

/-- The entry lies in block (`i`, `j`) for block size `bs`. -/
def InBlock (bs i j : Nat) (e : Entry K) : Prop := ∃ I J : Nat, e.rowind = I ∧ e.colind = J ∧ I / bs = i ∧ J / bs = j

/-- Every block with an entry has an entry in its first scalar row. -/
def FirstRowTouches (bs : Nat) (es : List (Entry K)) : Prop :=
  ∀ e ∈ es, ∃ e' ∈ es, e'.rowind = bs * (e.rowind / bs) ∧ e'.colind / bs = e.colind / bs

/-! ### Array loops -/

theorem rd_getElem {α : Type _} {a : List α} {i : Nat} (h : i < a.length) : rd a i = .ok a[i] := by
  simp [rd, h]

@[simp] theorem fresh_length {α : Type} (n : Nat) (g : Nat → α) : (fresh n g).length = n := by simp [fresh]

/-- A loop that assigns every element of an array. -/
theorem forRange_fill {α : Type} {n : Nat} (f : Nat → α) {body : Nat → List α → C (List α)} {a : List α}
    (ha : a.length = n) (hb : ∀ i < n, ∀ l : List α, l.length = n → body i l = .ok (l.set i (f i))) :
    forRange 0 n body a = .ok ((List.range n).map f) := by
  obtain ⟨v, hv, hl, hp⟩ := forRange_ok (body := body) (s := a)
    (fun t (l : List α) => l.length = n ∧ ∀ k < t, l[k]? = some (f k)) (Nat.zero_le n)
    ⟨ha, by simp⟩
    (fun t l _ ht ⟨hl, hp⟩ => by
      rw [hb t ht l hl]
      refine Ok.pure ⟨by simp [hl], fun k hk => ?_⟩
      rw [List.getElem?_set]
      by_cases h : t = k
      · subst h; simp [hl, ht]
      · rw [if_neg h]; exact hp k (by omega))
  rw [hv]
  congr 1
  apply List.ext_getElem?
  intro k
  by_cases hk : k < n
  · rw [hp k hk]; simp [hk]
  · rw [List.getElem?_eq_none (by omega), List.getElem?_eq_none (by simp; omega)]

/-! ### The sparse-row view of a coordinate matrix -/

/-- The entries and row pointers of a coordinate matrix as sparse-row storage. -/
def COO.sr (A : COO K) : SR K where
  browptr := A.rowptr
  bcolind := A.entries.map fun e => e.colind.toNat
  vals := A.entries.map Entry.value
  diagind := []
  browendptr := rowEnds A.nrows A.rowptr
  nbrows := A.nrows
  nnzb := A.nnz
  nbstored := A.nnz

theorem rowEnds_length {n : Nat} {p : List Nat} (h : p.length = n + 1) : (rowEnds n p).length = n := by
  simp [rowEnds, h]

theorem rowEnds_get {n : Nat} {p : List Nat} {i : Nat} (hi : i < n) :
    (rowEnds n p)⟦i⟧ = p⟦i + 1⟧ := by
  unfold rowEnds get0
  simp only [List.getD_eq_getElem?_getD, List.getElem?_take, if_pos hi, List.getElem?_drop]
  congr 2; omega

theorem COO.Valid.col_toNat {A : COO K} (hA : A.Valid) (hsq : A.ncols ≤ A.nrows) {k : Nat}
    (hk : k < A.entries.length) : A.entries[k].colind = (A.entries[k].colind.toNat : Int) ∧
      A.entries[k].colind.toNat < A.nrows := by
  have := hA.col _ (List.getElem_mem hk)
  omega

theorem COO.Valid.full {A : COO K} (hA : A.Valid) (hsq : A.ncols ≤ A.nrows) : A.sr.Full where
  ptr_len := hA.ptr_len
  ptr_zero := hA.ptr_zero
  ptr_mono := hA.ptr_mono
  end_len := rowEnds_length hA.ptr_len
  end_eq := fun i hi => rowEnds_get hi
  ind_len := by
    show (A.entries.map _).length = A.rowptr⟦A.nrows⟧
    rw [List.length_map, hA.ptr_last, hA.nnz_eq]
  val_len := by
    show (A.entries.map _).length = A.rowptr⟦A.nrows⟧ * 1
    rw [List.length_map, hA.ptr_last, hA.nnz_eq, Nat.mul_one]
  col_lt := fun k hk => by
    replace hk : k < A.nnz := by have := hA.ptr_last; rw [← this]; exact hk
    have hk' : k < A.entries.length := by rw [hA.nnz_eq]; exact hk
    show (A.entries.map fun e => e.colind.toNat)⟦k⟧ < A.nrows
    rw [get0_eq_getElem (by simpa using hk'), List.getElem_map]
    exact (hA.col_toNat hsq hk').2

theorem COO.Valid.row_get {A : COO K} (hA : A.Valid) {i k : Nat} (hi : i < A.nrows)
    (hk : A.sr.InRow i k) (hk' : k < A.entries.length) : A.entries[k].rowind = i :=
  hA.row i hi k _ hk.1 hk.2 (List.getElem?_eq_getElem hk')

theorem COO.sr_col {A : COO K} {k : Nat} (hk : k < A.entries.length) :
    A.sr.bcolind⟦k⟧ = A.entries[k].colind.toNat := by
  show (A.entries.map fun e => e.colind.toNat)⟦k⟧ = _
  rw [get0_eq_getElem (by simpa using hk), List.getElem_map]

theorem COO.sr_val [Zero K] {A : COO K} {k : Nat} (hk : k < A.entries.length) :
    A.sr.vals⟦k⟧ = A.entries[k].value := by
  show (A.entries.map Entry.value)⟦k⟧ = _
  rw [get0_eq_getElem (by simpa using hk), List.getElem_map]

theorem COO.Valid.rowOf_get {A : COO K} (hA : A.Valid) (hsq : A.ncols ≤ A.nrows) {k : Nat}
    (hk : k < A.entries.length) : A.entries[k].rowind = (A.sr.rowOf k : Int) ∧ A.sr.rowOf k < A.nrows := by
  have hF := hA.full hsq
  have := hF.rowOf_spec (p := k) (by show k < A.rowptr⟦A.nrows⟧; rw [hA.ptr_last, ← hA.nnz_eq]; exact hk)
  exact ⟨hA.row_get this.1 this.2 hk, this.1⟩

theorem List.sum_map_eq_range {α : Type} [AddCommMonoid K] (l : List α) (f : α → K) (g : Nat → K)
    (h : ∀ k (hk : k < l.length), f l[k] = g k) : (l.map f).sum = ∑ k ∈ range l.length, g k := by
  have : l.map f = (List.range l.length).map g := by
    apply List.ext_getElem (by simp)
    intro k h1 h2
    simp only [List.getElem_map, List.getElem_range]
    exact h k (by simpa using h1)
  rw [this]; rfl

theorem COO.Valid.cooEntry_eq [AddCommMonoid K] {A : COO K} (hA : A.Valid) (hsq : A.ncols ≤ A.nrows) (i j : Nat) :
    cooEntry A.entries i j = ∑ k ∈ range A.nnz,
      if A.sr.rowOf k = i ∧ A.sr.bcolind⟦k⟧ = j then A.sr.vals⟦k⟧ else 0 := by
  rw [cooEntry, ← hA.nnz_eq]
  refine List.sum_map_eq_range _ _ _ fun k hk => ?_
  have h1 := (hA.rowOf_get hsq hk).1
  have h2 := hA.col_toNat hsq hk
  rw [COO.sr_col hk, COO.sr_val hk]
  refine if_congr ?_ rfl rfl
  omega

theorem COO.Valid.entry_sr [AddCommMonoid K] {A : COO K} (hA : A.Valid) (hsq : A.ncols ≤ A.nrows) {i : Nat}
    (hi : i < A.nrows) (j : Nat) : A.sr.entry i j = cooEntry A.entries i j := by
  have hF := hA.full hsq
  rw [hA.cooEntry_eq hsq, hF.entry_eq hi, ← Finset.sum_filter, ← Finset.sum_filter]
  refine Finset.sum_congr ?_ fun _ _ => rfl
  ext k
  simp only [mem_filter, mem_Ico, Finset.mem_range]
  have hlast : A.sr.browptr⟦A.sr.nbrows⟧ = A.nnz := hA.ptr_last
  constructor
  · rintro ⟨hk, hc⟩
    have := hF.lt_nnz hi hk.2
    exact ⟨by omega, hF.rowOf_eq hi hk, hc⟩
  · rintro ⟨hk, hr, hc⟩
    have := hF.rowOf_spec (p := k) (by omega)
    rw [hr] at this
    exact ⟨this.2, hc⟩

end Blasted
