import Verif.Base.SR
import Verif.Base.Sweep

/-!
# Triangular views of a sparse-row matrix

`src/rawsrmatrixutils.cpp` lines 176-316. Simplification: indices are naturals, so that the differences of
positions are those of integers only when the diagonal lies inside its row; the theorems assume
that.
-/

namespace Blasted

variable {V : Type _}

/-- Pointer arrays and non-zero count built by the loop over rows. -/
structure ViewArrays where
  rowptr : List Nat
  rowendptr : List Nat
  nnz : Nat
deriving Repr, DecidableEq

/-- One iteration of the loop of `getLowerTriangularView`, `src/rawsrmatrixutils.cpp` lines 190-195
(raw storage) and 262-267 (`SRMatrixStorage`). -/
def lowerViewStep (A : SR V) (irow : Nat) (s : ViewArrays) : C ViewArrays := do
  let lo ← rd A.browptr irow
  let rowptr ← wr s.rowptr irow lo
  let d ← rd A.diagind irow
  let rowendptr ← wr s.rowendptr irow (d + 1)
  .ok ⟨rowptr, rowendptr, s.nnz + (d - lo + 1)⟩

/-- `getLowerTriangularView`, `src/rawsrmatrixutils.cpp` lines 176-203 and 250-276. `gp`, `ge`: contents of
the freshly allocated pointer arrays. The view shares the column, value and diagonal arrays. -/
def lowerView (A : SR V) (gp ge : List Nat) : C (SR V) := do
  let s ← forRange 0 A.nbrows (lowerViewStep A) ⟨gp, ge, 0⟩
  .ok { A with browptr := s.rowptr, browendptr := s.rowendptr, nnzb := s.nnz }

/-- One iteration of the loop of `getUpperTriangularView`, `src/rawsrmatrixutils.cpp` lines 223-228
and 294-299. -/
def upperViewStep (A : SR V) (irow : Nat) (s : ViewArrays) : C ViewArrays := do
  let d ← rd A.diagind irow
  let rowptr ← wr s.rowptr irow d
  let hi ← rd A.browendptr irow
  let rowendptr ← wr s.rowendptr irow hi
  .ok ⟨rowptr, rowendptr, s.nnz + (hi - d)⟩

/-- The assertion on the last row, `src/rawsrmatrixutils.cpp` lines 210, 235, 282, 307. For a matrix without rows
the C++ index is `-1`; here the read of an empty array is out of bounds as well. -/
def lastRowAssert (A : SR V) : C Unit := do
  let e ← rd A.browendptr (A.nbrows - 1)
  let d ← rd A.diagind (A.nbrows - 1)
  cassert (e == d + 1)

/-- The debug loop of `getUpperTriangularView`, `src/rawsrmatrixutils.cpp` lines 237-243 and 309-313. -/
def upperDebug (A : SR V) : C Unit :=
  forRange 0 A.nbrows (fun irow _ => do
    let lo ← rd A.browptr irow
    let hi ← rd A.browendptr irow
    forRange lo hi (fun jj _ => do
      let c ← rd A.bcolind jj
      let d ← rd A.diagind irow
      cassert (decide (c > irow) || d == jj)) ()) ()

/-- `getUpperTriangularView`, `src/rawsrmatrixutils.cpp` lines 207-246 and 280-316, with assertions and debug
checks. -/
def upperView (A : SR V) (gp ge : List Nat) : C (SR V) := do
  lastRowAssert A
  let s ← forRange 0 A.nbrows (upperViewStep A) ⟨gp, ge, 0⟩
  let U := { A with browptr := s.rowptr, browendptr := s.rowendptr, nnzb := s.nnz }
  lastRowAssert U
  upperDebug U
  .ok U

end Blasted
