import Verif.Coo.MMModel

/-!
# Reading files into PETSc objects

`src/utils/blasted_petsc_io.cpp`. PETSc is represented by what its manual says about the calls the code makes, for a run with one process:
a matrix is its sizes, its block size, the orientation of value arrays and the values set so far; a call returns the new state and an
error code, which is zero for success. Console output is not modelled.
-/

namespace Blasted

variable {K : Type}

/-- A sequential PETSc `Mat`: `val i j` is `none` where no value has been set, which means zero. -/
structure PMat (K : Type) where
  rows : Nat
  cols : Nat
  bs : Nat
  rowOriented : Bool
  val : Nat → Nat → Option K

/-- The element of the matrix. -/
def PMat.entry [Zero K] (A : PMat K) (i j : Nat) : K := (A.val i j).getD 0

/-- `PETSC_ERR_ARG_OUTOFRANGE` and `PETSC_ERR_ARG_SIZ` of `petscerror.h`. -/
def petscErrRange : Nat := 63
@[inherit_doc petscErrRange] def petscErrSize : Nat := 60

/-- `MatCreate` and `MatSetFromOptions`: `optbs` is the block size found in the options database. Value arrays are row-oriented by default. -/
def matCreate (optbs : Nat) : PMat K := ⟨0, 0, optbs, true, fun _ _ => none⟩

/-- `MatSetSizes(A, PETSC_DECIDE, PETSC_DECIDE, r, c)` followed by `MatSetUp(A)`: sizes must not be negative and must be multiples of the block size. -/
def matSetSizes (A : PMat K) (r c : Int) : PMat K × Nat :=
  if r < 0 ∨ c < 0 then (A, petscErrSize)
  else if r % A.bs ≠ 0 ∨ c % A.bs ≠ 0 then (A, petscErrSize)
  else ({ A with rows := r.toNat, cols := c.toNat, val := fun _ _ => none }, 0)

/-- `MatSetOption(A, MAT_ROW_ORIENTED, flag)`. -/
def matSetRowOriented (A : PMat K) (flag : Bool) : PMat K := { A with rowOriented := flag }

/-- One element set by `MatSetValues` with `INSERT_VALUES`: negative indices are ignored, and too large ones are an error if PETSc was built with
its checks (`checks`) and undefined otherwise. -/
def PMat.put (checks : Bool) (A : PMat K) (r c : Int) (v : K) : C (PMat K × Nat) :=
  if r < 0 ∨ c < 0 then .ok (A, 0)
  else if A.rows ≤ r.toNat ∨ A.cols ≤ c.toNat then (if checks then .ok (A, petscErrRange) else .error .ub)
  else .ok ({ A with val := fun i j => if i = r.toNat ∧ j = c.toNat then some v else A.val i j }, 0)

/-- `MatSetValues(A, m, idxm, n, idxn, v, INSERT_VALUES)`: `im` and `jn` are the index arrays, `v` points to element `off` of the array `vals`. The values are
those of an `m × n` array stored by rows or by columns. The first error ends the call. -/
def matSetValues (checks : Bool) (A : PMat K) (im jn : List Int) (vals : List K) (off : Nat) : C (PMat K × Nat) :=
  forList ((List.range im.length).flatMap fun a => (List.range jn.length).map fun b => (a, b))
    (fun ab (s : PMat K × Nat) =>
      if s.2 ≠ 0 then .ok s
      else do
        let r ← rd im ab.1
        let c ← rd jn ab.2
        let v ← rd vals (off + if A.rowOriented then ab.1 * jn.length + ab.2 else ab.2 * im.length + ab.1)
        s.1.put checks r c v) (A, 0)

/-- The scalar indices of a list of blocks. -/
def blockIndices (bs : Nat) (l : List Int) : List Int := l.flatMap fun b => (List.range bs).map fun (k : Nat) => b * bs + k

/-- `MatSetValuesBlocked`: as `MatSetValues`, with block indices; the value array is the scalar array of the blocks put together. -/
def matSetValuesBlocked (checks : Bool) (A : PMat K) (im jn : List Int) (vals : List K) (off : Nat) : C (PMat K × Nat) :=
  matSetValues checks A (blockIndices A.bs im) (blockIndices A.bs jn) vals off

/-- Column indices and values of one row, `src/utils/blasted_petsc_io.cpp` lines 81-93. A negative number of columns makes the constructors throw. -/
def readMatGather [Zero K] (A : COO K) (p q : Nat) : C (List Int × List K) :=
  if q < p then .error (.throw "std::length_error" "cannot create std::vector larger than max_size()")
  else forRange p q (fun jr (s : List Int × List K) => do
    let e ← rd A.entries jr
    let c ← wr s.1 (jr - p) e.colind
    let v ← wr s.2 (jr - p) e.value
    .ok (c, v)) (List.replicate (q - p) 0, List.replicate (q - p) 0)

/-- The loop body of `readMatFromCOOFile`, `src/utils/blasted_petsc_io.cpp` lines 77-98: the error code of the row before is overwritten.
`&colinds[0]` of an empty vector is undefined. -/
def readMatRow [Zero K] (checks : Bool) (A : COO K) (irow : Nat) (s : PMat K × Nat) : C (PMat K × Nat) := do
  let p ← rd A.rowptr irow
  let e ← rd A.entries p
  if (irow : Int) ≠ e.rowind then .error (.throw "std::runtime_error" "Encountered invalid COO row indices!")
  else do
    let q ← rd A.rowptr (irow + 1)
    let cv ← readMatGather A p q
    if p = q then .error .ub
    else matSetValues checks s.1 [(irow : Int)] cv.1 cv.2 0

/-- `readMatFromCOOFile`, `src/utils/blasted_petsc_io.cpp` lines 46-108, for one process: the matrix and the error code returned. -/
def readMatFromCOOFile [Zero K] (checks : Bool) (optbs : Nat) (num : List Char → Option K)
    (srt : (Entry K → Int) → List (Entry K) → List (Entry K)) (g : Nat → Nat) (fuel : Nat) (file : Option (List Char)) : C (PMat K × Nat) := do
  let A ← readMatrixMarket num srt g fuel file
  let m := matSetSizes (matCreate optbs) A.nrows A.ncols
  if m.2 ≠ 0 then .ok m
  else forRange 0 A.nrows (readMatRow checks A) (matSetRowOriented m.1 false, 0)

/-- The conversion in `readMatFromCOOFile_viaSR`, `src/utils/blasted_petsc_io.cpp` lines 133-157: the storage and the block size used from then on. -/
def viaSRConvert [Zero K] (bs : Nat) (gi : Nat → Nat) (gd : Nat → Int) (gv : Nat → K) (A : COO K) : C (SR K × Nat) :=
  if bs = 3 ∨ bs = 4 ∨ bs = 7 then do
    let r ← getSRMatrixFromCOO bs "colmajor" gi gd gv A
    .ok (r.1, bs)
  else do
    let r ← getSRMatrixFromCOO 1 "colmajor" gi gd gv A
    .ok (r.1, 1)

/-- A pointer to `n` consecutive elements of an index array, from element `p` on, as index argument of a PETSc call. -/
def idxSlice (a : List Nat) (p n : Nat) : C (List Int) :=
  if p + n ≤ a.length then .ok (((a.drop p).take n).map fun (x : Nat) => (x : Int)) else .error .ub

/-- One row of `MatCreateMPIAIJWithArrays`; one block-row of the loop of `readMatFromCOOFile_viaSR`, `src/utils/blasted_petsc_io.cpp` lines 172-181, which
returns at the first error. -/
def setRowFromSR (checks : Bool) (R : SR K) (bs i : Nat) (s : PMat K × Nat) : C (PMat K × Nat) :=
  if s.2 ≠ 0 then .ok s
  else do
    let p ← rd R.browptr i
    let q ← rd R.browptr (i + 1)
    if q < p then .ok (s.1, petscErrRange)
    else do
      let cols ← idxSlice R.bcolind p (q - p)
      if bs = 1 then matSetValues checks s.1 [(i : Int)] cols R.vals (p * bs * bs)
      else matSetValuesBlocked checks s.1 [(i : Int)] cols R.vals (p * bs * bs)

/-- The rest of `readMatFromCOOFile_viaSR`, `src/utils/blasted_petsc_io.cpp` lines 161-182. For block size 1 the matrix is created from the arrays
(`MatCreateMPIAIJWithArrays`), with the number of rows for the number of columns. -/
def viaSRInsert (checks : Bool) (optbs : Nat) (A : COO K) (r : SR K × Nat) : C (PMat K × Nat) :=
  if r.2 = 1 then
    forRange 0 r.1.nbrows (setRowFromSR checks r.1 1) (⟨r.1.nbrows, r.1.nbrows, 1, true, fun _ _ => none⟩, 0)
  else
    let m := matSetSizes (matCreate optbs) A.nrows A.ncols
    if m.2 ≠ 0 then .ok m
    else forRange 0 r.1.nbrows (setRowFromSR checks r.1 r.2) (matSetRowOriented m.1 false, 0)

/-- `readMatFromCOOFile_viaSR`, `src/utils/blasted_petsc_io.cpp` lines 110-190. -/
def readMatFromCOOFileViaSR [Zero K] (checks : Bool) (mpisize optbs : Nat) (num : List Char → Option K)
    (srt : (Entry K → Int) → List (Entry K) → List (Entry K)) (gi : Nat → Nat) (gd : Nat → Int) (gv : Nat → K) (fuel : Nat)
    (file : Option (List Char)) : C (PMat K × Nat) :=
  if 1 < mpisize then .error (.throw "std::runtime_error" " Currently only 1 rank is supported")
  else do
    let A ← readMatrixMarket num srt gi fuel file
    let r ← viaSRConvert optbs gi gd gv A
    viaSRInsert checks optbs A r

/-- `VecSetValues(v, ni, ix, y, INSERT_VALUES)`. -/
def vecSetValues (checks : Bool) (v : List K) (ix : List Nat) (y : List K) : C (List K × Nat) :=
  forRange 0 ix.length (fun a (s : List K × Nat) =>
    if s.2 ≠ 0 then .ok s
    else do
      let i ← rd ix a
      let x ← rd y a
      if i < s.1.length then .ok (s.1.set i x, 0)
      else if checks then .ok (s.1, petscErrRange) else .error .ub) (v, 0)

/-- `readVecFromFile`, `src/utils/blasted_petsc_io.cpp` lines 16-43: with a matrix the vector gets as many elements as the matrix has rows, without one as many as
there are numbers in the file. New vectors are zero. -/
def readVecFromFile [Zero K] (checks : Bool) (num : List Char → Option K) (fuel : Nat) (file : Option (List Char)) (a : Option (PMat K)) :
    C (List K × Nat) := do
  let arr ← readDenseMatrixMarket num fuel file
  vecSetValues checks (List.replicate ((a.map PMat.rows).getD arr.length) 0) (List.range arr.length) arr

end Blasted
