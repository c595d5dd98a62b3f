import Verif.Base.Mem

/-!
# Sparse-row storage and the matrix it denotes

`SR V` models `SRMatrixStorage`, `CRawBSRMatrix` and `RawBSRMatrix`
(`include/srmatrixdefs.hpp` lines 37-159): the same eight members. `V` is the type of one cell of the
value array: a scalar for the flat memory level, a whole block for the block level.

`SR.entry` is the specification of which matrix a storage denotes; all property
theorems are stated with it.
-/

namespace Blasted

open Finset

/-- `include/srmatrixdefs.hpp` lines 48-55 (`SRMatrixStorage`), 103-110 (`CRawBSRMatrix`),
137-144 (`RawBSRMatrix`). Simplification: indices are naturals. -/
structure SR (V : Type _) where
  browptr : List Nat
  bcolind : List Nat
  vals : List V
  diagind : List Nat
  browendptr : List Nat
  nbrows : Nat
  nnzb : Nat
  nbstored : Nat
deriving Repr, DecidableEq

/-- Eigen `StorageOptions` (`include/blasted_config.hpp` lines 13-15). -/
inductive Stor where
  | rowMajor
  | colMajor
deriving Repr, DecidableEq

/-- Offset of entry `(a,b)` inside a `bs × bs` block of the given layout
(`Block_t`, `include/blasted_config.hpp` lines 30-31: an Eigen matrix with that storage order). -/
def Stor.off (s : Stor) (bs a b : Nat) : Nat :=
  match s with
  | .rowMajor => a * bs + b
  | .colMajor => b * bs + a

namespace SR
variable {V : Type _}

/-- The matrix denoted by block-level storage: entry `(i,j)` is the sum of the stored
values of row `i` (between the row's begin and end pointers) whose column index is `j`. -/
def entry [AddCommMonoid V] (A : SR V) (i j : Nat) : V :=
  ∑ k ∈ Ico A.browptr⟦i⟧ A.browendptr⟦i⟧, if A.bcolind⟦k⟧ = j then A.vals⟦k⟧ else 0

/-- The scalar matrix denoted by flat block storage: entry `(I,J)` is found in block row `I/bs`,
block column `J/bs`, at inner position `(I%bs, J%bs)` of the layout. -/
def bentry [AddCommMonoid V] (stor : Stor) (bs : Nat) (A : SR V) (I J : Nat) : V :=
  ∑ k ∈ Ico A.browptr⟦I / bs⟧ A.browendptr⟦I / bs⟧,
    if A.bcolind⟦k⟧ = J / bs then A.vals⟦k * (bs * bs) + stor.off bs (I % bs) (J % bs)⟧ else 0

/-- Well-formed complete storage, `m` value cells per stored entry (`m = 1` at block level,
`bs*bs` at flat level): array lengths agree, row pointers are monotone starting from 0, row ends
coincide with the next row's begin, and column indices are in range. -/
structure Full (A : SR V) (m : Nat := 1) : Prop where
  ptr_len : A.browptr.length = A.nbrows + 1
  ptr_zero : A.browptr⟦0⟧ = 0
  ptr_mono : ∀ i < A.nbrows, A.browptr⟦i⟧ ≤ A.browptr⟦i + 1⟧
  end_len : A.browendptr.length = A.nbrows
  end_eq : ∀ i < A.nbrows, A.browendptr⟦i⟧ = A.browptr⟦i + 1⟧
  ind_len : A.bcolind.length = A.browptr⟦A.nbrows⟧
  val_len : A.vals.length = A.browptr⟦A.nbrows⟧ * m
  col_lt : ∀ k < A.browptr⟦A.nbrows⟧, A.bcolind⟦k⟧ < A.nbrows

/-- Column indices strictly increase inside every row. -/
def Sorted (A : SR V) : Prop :=
  ∀ i < A.nbrows, ∀ k l, A.browptr⟦i⟧ ≤ k → k < l → l < A.browptr⟦i + 1⟧ →
    A.bcolind⟦k⟧ < A.bcolind⟦l⟧

/-- Every row stores its diagonal entry and `diagind` locates it. -/
structure HasDiag (A : SR V) : Prop where
  diag_len : A.diagind.length = A.nbrows
  diag_ge : ∀ i < A.nbrows, A.browptr⟦i⟧ ≤ A.diagind⟦i⟧
  diag_lt : ∀ i < A.nbrows, A.diagind⟦i⟧ < A.browptr⟦i + 1⟧
  diag_col : ∀ i < A.nbrows, A.bcolind⟦A.diagind⟦i⟧⟧ = i

/-- Position `k` is stored in row `i`. -/
def InRow (A : SR V) (i k : Nat) : Prop := A.browptr⟦i⟧ ≤ k ∧ k < A.browptr⟦i + 1⟧

theorem Full.ptr_le {A : SR V} {m : Nat} (hA : A.Full m) {i j : Nat} (hij : i ≤ j)
    (hj : j ≤ A.nbrows) : A.browptr⟦i⟧ ≤ A.browptr⟦j⟧ := by
  induction j, hij using Nat.le_induction with
  | base => exact Nat.le_refl _
  | succ j hij ih => exact (ih (by omega)).trans (hA.ptr_mono j (by omega))

theorem Full.lt_nnz {A : SR V} {m : Nat} (hA : A.Full m) {i k : Nat} (hi : i < A.nbrows)
    (hk : k < A.browptr⟦i + 1⟧) : k < A.browptr⟦A.nbrows⟧ :=
  hk.trans_le (hA.ptr_le hi (Nat.le_refl _))

/-- For complete storage the denoted entry in terms of the row pointers only. -/
theorem Full.entry_eq [AddCommMonoid V] {A : SR V} {m : Nat} (hA : A.Full m) {i : Nat}
    (hi : i < A.nbrows) (j : Nat) :
    A.entry i j = ∑ k ∈ Ico A.browptr⟦i⟧ A.browptr⟦i + 1⟧,
      if A.bcolind⟦k⟧ = j then A.vals⟦k⟧ else 0 := by
  rw [entry, hA.end_eq i hi]

/-- Row sums over stored entries equal sums over all columns of the denoted matrix. -/
theorem Full.sum_row {M : Type _} [AddCommMonoid V] [AddCommMonoid M] {A : SR V} {m : Nat}
    (hA : A.Full m) {i : Nat} (hi : i < A.nbrows) (f : V → Nat → M) (hf0 : ∀ j, f 0 j = 0)
    (hfa : ∀ u v j, f (u + v) j = f u j + f v j) :
    ∑ k ∈ Ico A.browptr⟦i⟧ A.browptr⟦i + 1⟧, f A.vals⟦k⟧ A.bcolind⟦k⟧ =
      ∑ j ∈ range A.nbrows, f (A.entry i j) j := by
  have hadd : ∀ (s : Finset Nat) (g : Nat → V) (j : Nat), f (∑ k ∈ s, g k) j = ∑ k ∈ s, f (g k) j := by
    intro s g j
    classical
    induction s using Finset.induction_on with
    | empty => simp [hf0]
    | insert a s ha ih => rw [sum_insert ha, sum_insert ha, hfa, ih]
  simp only [hA.entry_eq hi, hadd]
  rw [sum_comm]
  refine sum_congr rfl fun k hk => ?_
  rw [mem_Ico] at hk
  have hc := hA.col_lt k (hA.lt_nnz hi hk.2)
  rw [sum_eq_single A.bcolind⟦k⟧]
  · simp
  · intro j _ hj
    rw [if_neg (Ne.symm hj), hf0]
  · intro h; exact absurd (mem_range.mpr hc) h

/-- All stored entries `(row, position)` of the matrix, row by row. -/
def stored (A : SR V) : List (Nat × Nat) :=
  (List.range A.nbrows).flatMap fun i =>
    (List.range' A.browptr⟦i⟧ (A.browptr⟦i + 1⟧ - A.browptr⟦i⟧)).map fun k => (i, k)

theorem mem_stored {A : SR V} {e : Nat × Nat} :
    e ∈ A.stored ↔ e.1 < A.nbrows ∧ A.InRow e.1 e.2 := by
  obtain ⟨i, k⟩ := e
  simp only [stored, List.mem_flatMap, List.mem_range, List.mem_map, List.mem_range'_1,
    Prod.mk.injEq, InRow]
  constructor
  · rintro ⟨i', hi', k', hk', rfl, rfl⟩
    exact ⟨hi', by omega, by omega⟩
  · rintro ⟨hi, h1, h2⟩
    exact ⟨i, hi, k, by omega, rfl, rfl⟩

end SR

theorem forList_flatMap {ι κ σ : Type _} (l : List ι) (g : ι → List κ) (body : κ → σ → C σ) (s : σ) :
    forList (l.flatMap g) body s = forList l (fun i s => forList (g i) body s) s := by
  induction l generalizing s with
  | nil => rfl
  | cons i l ih =>
    rw [List.flatMap_cons, forList_append, forList_cons]
    congr 1; funext s'; exact ih s'

theorem forList_map {ι κ σ : Type _} (l : List ι) (g : ι → κ) (body : κ → σ → C σ) (s : σ) :
    forList (l.map g) body s = forList l (fun i => body (g i)) s := by
  induction l generalizing s with
  | nil => rfl
  | cons i l ih =>
    rw [List.map_cons, forList_cons, forList_cons]
    congr 1; funext s'; exact ih s'

namespace SR
variable {V : Type _}

/-- The ubiquitous loop over rows and the entries of each row is a loop over all stored entries. -/
theorem Full.nested {A : SR V} {m : Nat} (hA : A.Full m) {σ : Type _} (body : Nat → Nat → σ → C σ)
    (s : σ) :
    forRange 0 A.nbrows (fun i s => do
      let lo ← rd A.browptr i
      let hi ← rd A.browptr (i + 1)
      forRange lo hi (body i) s) s = forList A.stored (fun e => body e.1 e.2) s := by
  unfold stored
  rw [forList_flatMap, forRange, Nat.sub_zero, ← List.range_eq_range']
  refine forList_congr fun i hi s => ?_
  rw [List.mem_range] at hi
  have := hA.ptr_len
  rw [rd_eq (by omega), ok_bind, rd_eq (by omega), ok_bind, forList_map]
  rfl

theorem Full.stored_snd {A : SR V} {m : Nat} (hA : A.Full m) :
    A.stored.map Prod.snd = List.range A.browptr⟦A.nbrows⟧ := by
  have H : ∀ n ≤ A.nbrows, (((List.range n).flatMap fun i =>
    (List.range' A.browptr⟦i⟧ (A.browptr⟦i + 1⟧ - A.browptr⟦i⟧)).map fun k => (i, k))).map Prod.snd
      = List.range A.browptr⟦n⟧ := by
    intro n hn
    induction n with
    | zero => simp [hA.ptr_zero]
    | succ n ih =>
      rw [List.range_succ, List.flatMap_append, List.map_append, ih (by omega)]
      simp only [List.flatMap_cons, List.flatMap_nil, List.append_nil, List.map_map]
      have := hA.ptr_mono n (by omega)
      have e : (Prod.snd ∘ fun k => (n, k)) = (id : Nat → Nat) := by funext; rfl
      rw [e, List.map_id, List.range_eq_range', List.range_eq_range']
      have h := List.range'_append_1 (s := 0) (m := A.browptr⟦n⟧) (n := A.browptr⟦n + 1⟧ - A.browptr⟦n⟧)
      rw [Nat.zero_add] at h
      rw [h]
      congr 1; omega
  exact H _ (Nat.le_refl _)

theorem Full.stored_length {A : SR V} {m : Nat} (hA : A.Full m) :
    A.stored.length = A.browptr⟦A.nbrows⟧ := by
  rw [← List.length_map (f := Prod.snd), hA.stored_snd, List.length_range]

end SR
end Blasted
