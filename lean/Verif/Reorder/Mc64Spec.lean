import Verif.Reorder.Mc64Model
import Verif.Reorder.Props
import Mathlib.Algebra.Order.Field.Basic
import Mathlib.Algebra.Order.AbsoluteValue.Basic

/-!
# What MC64 is documented to do

The contract of the Fortran routine used by `MC64::compute`, in its own terms: 1-based compressed
columns in, a column permutation and the logarithms of scaling factors out. Nothing here refers to the wrapper.
-/

namespace Blasted

variable {K : Type}

/-- A square matrix in 1-based compressed columns without repeated entries, as MC64 requires its input. -/
structure MC64Input [Zero K] (n ne : Nat) (colptr rowind : List Nat) (a : List K) : Prop where
  order_pos : 1 ≤ n
  ptr_len : colptr.length = n + 1
  ptr_first : colptr⟦0⟧ = 1
  ptr_mono : ∀ j < n, colptr⟦j⟧ ≤ colptr⟦j + 1⟧
  ptr_last : colptr⟦n⟧ = ne + 1
  ind_len : rowind.length = ne
  val_len : a.length = ne
  row_range : ∀ p < ne, 1 ≤ rowind⟦p⟧ ∧ rowind⟦p⟧ ≤ n
  distinct : ∀ j < n, ∀ p q, colptr⟦j⟧ ≤ p + 1 → p + 1 < colptr⟦j + 1⟧ → colptr⟦j⟧ ≤ q + 1 →
    q + 1 < colptr⟦j + 1⟧ → rowind⟦p⟧ = rowind⟦q⟧ → p = q

/-- Position `p` (counted from 0) of the arrays holds the entry in row `i` and column `j` (counted from 0). -/
def MC64At (colptr rowind : List Nat) (i j p : Nat) : Prop :=
  colptr⟦j⟧ ≤ p + 1 ∧ p + 1 < colptr⟦j + 1⟧ ∧ rowind⟦p⟧ = i + 1

/-- The lengths of the work arrays IW and DW that MC64 requires for a job. -/
def MC64Work (job : Int) (n ne liw ldw : Nat) : Prop :=
  (job = 1 → 5 * n ≤ liw) ∧ (job = 2 → 4 * n ≤ liw ∧ n ≤ ldw) ∧
  (job = 3 → 10 * n + ne ≤ liw ∧ ne ≤ ldw) ∧ (job = 4 → 5 * n ≤ liw ∧ 2 * n + ne ≤ ldw) ∧
  (job = 5 → 5 * n ≤ liw ∧ 3 * n + ne ≤ ldw)

/-- The contract of MC64: on a valid input with sufficient work arrays, a return code 0 means that the
magnitudes of `cperm` are a permutation of `1 … n`, that for every `i` the entry in row `i` and column
`|cperm(i)|` is stored (column `|cperm(j)|` of the original is column `j` of the permuted matrix, so
these are its diagonal entries), and, for job 5, that scaling rows by `exp(dw(i))` and columns by `exp(dw(n+j))` makes all entries at
most 1 in modulus and those chosen ones equal to 1 in modulus. -/
def MC64Contract [Field K] [LinearOrder K] (mc : MC64Fn K) (exp : K → K) : Prop :=
  ∀ (job : Int) (n ne : Nat) (colptr rowind : List Nat) (a : List K) (liw ldw : Nat),
    1 ≤ job → job ≤ 5 → MC64Input n ne colptr rowind a → MC64Work job n ne liw ldw →
    (mc job n ne colptr rowind a liw ldw).info0 = 0 →
    let o := mc job n ne colptr rowind a liw ldw
    (o.cperm.map Int.natAbs).Perm (List.range' 1 n) ∧ o.dw.length = ldw ∧
    (∀ i < n, ∃ p, MC64At colptr rowind i (o.cperm⟦i⟧.natAbs - 1) p) ∧
    (job = 5 →
      (∀ i < n, ∀ j < n, ∀ p, MC64At colptr rowind i j p → exp o.dw⟦i⟧ * |a⟦p⟧| * exp o.dw⟦n + j⟧ ≤ 1) ∧
      (∀ i < n, ∀ p, MC64At colptr rowind i (o.cperm⟦i⟧.natAbs - 1) p →
        exp o.dw⟦i⟧ * |a⟦p⟧| * exp o.dw⟦n + (o.cperm⟦i⟧.natAbs - 1)⟧ = 1))

/-- The one-based column storage in the arrays denotes the scalar matrix `A`: an entry is stored there
exactly if `A` stores it, with the same value. -/
def MC64Denotes [Zero K] (A : SR K) (colptr rowind : List Nat) (a : List K) : Prop :=
  ∀ i < A.nbrows, ∀ j < A.nbrows, ∀ x,
    (∃ p, MC64At colptr rowind i j p ∧ a⟦p⟧ = x) ↔ ∃ k, A.InRow i k ∧ A.bcolind⟦k⟧ = j ∧ A.vals⟦k⟧ = x

end Blasted
