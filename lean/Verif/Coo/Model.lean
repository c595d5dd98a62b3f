import Verif.Base.Sweep

/-!
# Coordinate matrices and their conversion to sparse-row storage

`COOMatrix::convertToCSR`, `COOMatrix::convertToBSR`, `getSRMatrixFromCOO`, `src/coomatrix.cpp` lines 261-439,
`include/coomatrix.hpp` lines 53-127.
-/

namespace Blasted

variable {K : Type}

/-- `Entry<scalar,index>`, `include/coomatrix.hpp` lines 54-59. The index type is signed. -/
structure Entry (K : Type) where
  rowind : Int
  colind : Int
  value : K
deriving Repr, DecidableEq

/-- The members of `COOMatrix`, `include/coomatrix.hpp` lines 112-117. Simplification: the number of entries, the
number of rows and the row pointers are naturals (`readMatrixMarket`, the only function that sets them, fails when
they would be negative). -/
structure COO (K : Type) where
  entries : List (Entry K)
  nnz : Nat
  nrows : Nat
  ncols : Int
  rowptr : List Nat
deriving Repr, DecidableEq

/-- A signed index stored into an index array of the result. Simplification: the index arrays of `SR` hold naturals;
the code copies a negative index as it is, which the model does not follow. -/
def toIdx (z : Int) : C Nat := if 0 ≤ z then .ok z.toNat else .error .ub

/-- A freshly allocated array of `n` elements: its contents `g` are arbitrary (`ArrayView::resize`,
`include/arrayview.hpp`: `new[]` of a built-in type does not initialise). -/
def fresh {α : Type} (n : Nat) (g : Nat → α) : List α := (List.range n).map g

/-- The loop that copies column indices and values, `src/coomatrix.cpp` lines 272-275. -/
def csrCopyEntries (A : COO K) (s : List Nat × List K) : C (List Nat × List K) :=
  forRange 0 A.nnz (fun i (s : List Nat × List K) => do
    let e ← rd A.entries i
    let c ← toIdx e.colind
    let bcolind ← wr s.1 i c
    let vals ← wr s.2 i e.value
    .ok (bcolind, vals)) s

/-- One row of the loop that finds the diagonal entries, `src/coomatrix.cpp` lines 281-285. -/
def csrDiagRow (A : COO K) (i : Nat) (diagind : List Int) : C (List Int) := do
  let lo ← rd A.rowptr i
  let hi ← rd A.rowptr (i + 1)
  forRange lo hi (fun j diagind => do
    let e ← rd A.entries j
    if e.colind = e.rowind then wr diagind i (j : Int) else .ok diagind) diagind

/-- `browendptr.wrap(&browptr[1], n)`, executed when `n > 0` (`src/coomatrix.cpp` lines 288-289 and 397-398): the elements
`1, ..., n` of `browptr`. -/
def rowEnds (n : Nat) (browptr : List Nat) : List Nat := (browptr.drop 1).take n

/-- `convertToCSR`, `src/coomatrix.cpp` lines 261-295. The second component is the array `diagind` as it is; the member
`diagind` of the first component is the same array with naturals. `gi`, `gd`, `gv`: what the newly allocated
arrays contain. -/
def convertToCSR (gi : Nat → Nat) (gd : Nat → Int) (gv : Nat → K) (A : COO K) : C (SR K × List Int) := do
  let s ← csrCopyEntries A (fresh A.nnz gi, fresh A.nnz gv)
  let browptr ← forRange 0 (A.nrows + 1) (fun i browptr => do
    let p ← rd A.rowptr i
    wr browptr i p) (fresh (A.nrows + 1) gi)
  let diagind ← forRange 0 A.nrows (csrDiagRow A) (fresh A.nrows gd)
  let nnzb ← rd browptr A.nrows
  .ok ({ browptr := browptr, bcolind := s.1, vals := s.2, diagind := diagind.map Int.toNat,
         browendptr := rowEnds A.nrows browptr, nbrows := A.nrows, nnzb := nnzb, nbstored := nnzb }, diagind)

/-- State of the first pass of `convertToBSR`: `bmat.browptr`, `bmat.diagind`, `bcolidxs`, `tallybrows`, `bnnz`
(`src/coomatrix.cpp` lines 313-323). -/
structure BsrPass where
  browptr : List Nat
  diagind : List Int
  bcolidxs : List Nat
  tally : List Bool
  bnnz : Nat
deriving Repr, DecidableEq

/-- `std::find(a.begin()+lo, a.begin()+hi, x)`: position of the first `x`, or `hi`. -/
def findFrom (a : List Nat) (lo hi x : Nat) : Nat := lo + ((a.take hi).drop lo).idxOf x

/-- The lines of `convertToBSR` that record where a block-row begins, `src/coomatrix.cpp` lines 337-340. -/
def bsrTally (curbrow : Nat) (s : BsrPass) : C BsrPass := do
  let t ← rd s.tally curbrow
  if t then .ok s
  else do
    let browptr ← wr s.browptr curbrow s.bnnz
    let tally ← wr s.tally curbrow true
    .ok { s with browptr := browptr, tally := tally }

/-- The lines that add a block, `src/coomatrix.cpp` lines 343-351. -/
def bsrAddBlock (curbrow curbcol : Nat) (s : BsrPass) : C BsrPass := do
  let lo ← rd s.browptr curbrow
  if s.bcolidxs.length < lo then .error .ub
  else if findFrom s.bcolidxs lo s.bcolidxs.length curbcol = s.bcolidxs.length then do
    let diagind ← (if curbcol = curbrow then wr s.diagind curbrow (s.bnnz : Int) else .ok s.diagind : C (List Int))
    .ok { s with bcolidxs := s.bcolidxs ++ [curbcol], diagind := diagind, bnnz := s.bnnz + 1 }
  else .ok s

/-- Body of the first pass for entry `j` of row `irow`, `src/coomatrix.cpp` lines 331-351. -/
def bsrCountEntry (bs : Nat) (A : COO K) (irow j : Nat) (s : BsrPass) : C BsrPass := do
  let e ← rd A.entries j
  let curcol ← toIdx e.colind
  let s ← bsrTally (irow / bs) s
  bsrAddBlock (irow / bs) (curcol / bs) s

/-- A loop over the rows and the entries of each row, as both passes have (`src/coomatrix.cpp` lines 329-332
and 373-376). -/
def cooLoop {σ : Type} (A : COO K) (body : Nat → Nat → σ → C σ) (s : σ) : C σ :=
  forRange 0 A.nrows (fun irow s => do
    let lo ← rd A.rowptr irow
    let hi ← rd A.rowptr (irow + 1)
    forRange lo hi (body irow) s) s

/-- `src/coomatrix.cpp` lines 358-361: the row pointers of empty block-rows. -/
def bsrFixPtr (nbrows : Nat) (browptr : List Nat) : C (List Nat) :=
  forDown 1 nbrows (fun i browptr => do
    let p ← rd browptr i
    if p = 0 then do
      let q ← rd browptr (i + 1)
      wr browptr i q
    else .ok browptr) browptr

/-- `offset`, `src/coomatrix.cpp` lines 375-381. -/
def blockOffset (bs : Nat) (stor : Stor) (irow curcol : Nat) : Nat :=
  let curbrow := irow / bs
  let curbcol := curcol / bs
  match stor with
  | .rowMajor => (irow - curbrow * bs) * bs + (curcol - curbcol * bs)
  | .colMajor => (curcol - curbcol * bs) * bs + (irow - curbrow * bs)

/-- Body of the second pass for entry `j` of row `irow`, `src/coomatrix.cpp` lines 378-393. -/
def bsrCopyEntry (bs : Nat) (stor : Stor) (A : COO K) (browptr bcolind : List Nat) (irow j : Nat) (vals : List K) :
    C (List K) := do
  let e ← rd A.entries j
  let curcol ← toIdx e.colind
  let curbrow := irow / bs
  let curbcol := curcol / bs
  let offset := blockOffset bs stor irow curcol
  let lo ← rd browptr curbrow
  let hi ← rd browptr (curbrow + 1)
  if hi < lo ∨ bcolind.length < hi then .error .ub
  else if findFrom bcolind lo hi curbcol = hi then .error .abort
  else wr vals (findFrom bcolind lo hi curbcol * bs * bs + offset) e.value

/-- `convertToBSR`, `src/coomatrix.cpp` lines 297-403. The two components are as in `convertToCSR`. Simplification:
the memory reserved for `bcolidxs` (line 322) is not modelled. -/
def convertToBSR [Zero K] (bs : Nat) (stor : Stor) (gi : Nat → Nat) (gd : Nat → Int) (gv : Nat → K) (A : COO K) :
    C (SR K × List Int) := do
  cassert (decide ((A.nrows : Int) = A.ncols))
  cassert (decide (A.nrows % bs = 0))
  let nbrows := A.nrows / bs
  let diagind ← forRange 0 nbrows (fun i d => wr d i (-1)) (fresh nbrows gd)
  let browptr ← forRange 0 (nbrows + 1) (fun i p => wr p i 0) (fresh (nbrows + 1) gi)
  let s ← cooLoop A (bsrCountEntry bs A)
    { browptr := browptr, diagind := diagind, bcolidxs := [], tally := List.replicate nbrows false, bnnz := 0 }
  let browptr ← wr s.browptr nbrows s.bnnz
  let browptr ← bsrFixPtr nbrows browptr
  let vals ← forRange 0 (s.bnnz * bs * bs) (fun i v => wr v i 0) (fresh (s.bnnz * bs * bs) gv)
  let bcolind ← forRange 0 s.bnnz (fun i c => do
    let b ← rd s.bcolidxs i
    wr c i b) (fresh s.bnnz gi)
  let vals ← cooLoop A (bsrCopyEntry bs stor A browptr bcolind) vals
  .ok ({ browptr := browptr, bcolind := bcolind, vals := vals, diagind := s.diagind.map Int.toNat,
         browendptr := rowEnds nbrows browptr, nbrows := nbrows, nnzb := s.bnnz, nbstored := s.bnnz }, s.diagind)

/-- `getSRMatrixFromCOO`, `src/coomatrix.cpp` lines 425-439. -/
def getSRMatrixFromCOO [Zero K] (bs : Nat) (order : String) (gi : Nat → Nat) (gd : Nat → Int) (gv : Nat → K)
    (A : COO K) : C (SR K × List Int) :=
  if bs = 1 then convertToCSR gi gd gv A
  else if order = "rowmajor" then convertToBSR bs .rowMajor gi gd gv A
  else if order = "colmajor" then convertToBSR bs .colMajor gi gd gv A
  else .error (.throw "std::runtime_error" "getSRMatrixFromCOO: invalid storage order!")

end Blasted
