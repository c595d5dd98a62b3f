import Verif.ILU.Model

/-!
# Specification vocabulary for ILU(0)

`luProd A ilu` is the product of the unit lower triangular and the upper triangular factor that
the array `ilu` holds on the pattern of `A`.
-/

namespace Blasted

open Finset

variable {V R : Type}

/-- Entry `(i,j)` of the matrix that has the pattern of `A` and the values `ilu`. -/
def facEntry [AddCommMonoid R] (A : SR V) (ilu : List R) (i j : Nat) : R :=
  ({ A with vals := ilu } : SR R).entry i j

/-- The unit lower triangular factor. -/
def lowerFactor [Semiring R] (A : SR V) (ilu : List R) (i j : Nat) : R :=
  if j < i then facEntry A ilu i j else if j = i then 1 else 0

/-- The upper triangular factor. -/
def upperFactor [Semiring R] (A : SR V) (ilu : List R) (i j : Nat) : R :=
  if i ≤ j then facEntry A ilu i j else 0

/-- Entry `(i,j)` of the product `L U`. -/
def luProd [Semiring R] (A : SR V) (ilu : List R) (i j : Nat) : R :=
  ∑ k ∈ range A.nbrows, lowerFactor A ilu i k * upperFactor A ilu k j

/-- `L U` coincides with the matrix `S` at every position stored in `A`. -/
def ExactILU [Semiring R] (A : SR V) (S : Nat → Nat → R) (ilu : List R) : Prop :=
  ∀ i < A.nbrows, ∀ p, A.InRow i p → luProd A ilu i A.bcolind⟦p⟧ = S i A.bcolind⟦p⟧

/-- The pivots, that is the diagonal entries of `U`, are invertible. -/
def PivotsOk [Semiring R] (A : SR V) (ilu : List R) : Prop :=
  ∀ i < A.nbrows, IsUnit (upperFactor A ilu i i)

/-- The pivots that are divided by, that is those of columns with a stored entry below the diagonal, are
invertible. -/
def UsedPivotsOk [Semiring R] (A : SR V) (ilu : List R) : Prop :=
  ∀ i < A.nbrows, ∀ p, A.InRow i p → A.bcolind⟦p⟧ < i →
    IsUnit (upperFactor A ilu A.bcolind⟦p⟧ A.bcolind⟦p⟧)

/-- What the position lists must be: for the entry stored at `p` in row `i`, column `j`, the list
between `posptr[p]` and `posptr[p+1]` consists of the pairs of locations of the stored entries
`(i,k)` and `(k,j)` with `k < min i j`, each once, in increasing `k`. -/
structure ILUPosOk (A : SR V) (pos : ILUPos) : Prop where
  ptr_len : pos.posptr.length = A.browptr⟦A.nbrows⟧ + 1
  ptr_zero : pos.posptr⟦0⟧ = 0
  ptr_mono : ∀ p < A.browptr⟦A.nbrows⟧, pos.posptr⟦p⟧ ≤ pos.posptr⟦p + 1⟧
  low_len : pos.lowerp.length = pos.posptr⟦A.browptr⟦A.nbrows⟧⟧
  up_len : pos.upperp.length = pos.posptr⟦A.browptr⟦A.nbrows⟧⟧
  sound : ∀ i < A.nbrows, ∀ p, A.InRow i p → ∀ t, pos.posptr⟦p⟧ ≤ t → t < pos.posptr⟦p + 1⟧ →
    ∃ k, k < min i A.bcolind⟦p⟧ ∧
      A.InRow i pos.lowerp⟦t⟧ ∧ A.bcolind⟦pos.lowerp⟦t⟧⟧ = k ∧
      A.InRow k pos.upperp⟦t⟧ ∧ A.bcolind⟦pos.upperp⟦t⟧⟧ = A.bcolind⟦p⟧
  incr : ∀ i < A.nbrows, ∀ p, A.InRow i p → ∀ t t', pos.posptr⟦p⟧ ≤ t → t < t' →
    t' < pos.posptr⟦p + 1⟧ → A.bcolind⟦pos.lowerp⟦t⟧⟧ < A.bcolind⟦pos.lowerp⟦t'⟧⟧
  complete : ∀ i < A.nbrows, ∀ p, A.InRow i p → ∀ k < min i A.bcolind⟦p⟧, ∀ a b,
    A.InRow i a → A.bcolind⟦a⟧ = k → A.InRow k b → A.bcolind⟦b⟧ = A.bcolind⟦p⟧ →
    ∃ t, pos.posptr⟦p⟧ ≤ t ∧ t < pos.posptr⟦p + 1⟧ ∧ pos.lowerp⟦t⟧ = a ∧ pos.upperp⟦t⟧ = b

end Blasted
