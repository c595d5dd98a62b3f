import Verif.ILU.Model
import Verif.Coo.Model
import Verif.Transpose.Model

/-!
# Index arithmetic in a signed type of bounded range

The other modules compute with unbounded indices. The library is instantiated with `index = int` only
(for example `src/ilu_pattern.cpp` lines 165-168, `src/scmatrix.cpp` lines 97-111): a sum or product of indices above
`INT_MAX` is undefined behaviour. Here the functions that add up or multiply indices are transcribed again, with
every such operation checked. `imax` is the largest value of the index type, `2^31 - 1` for `int`.
`size_t` is taken as unbounded: no count in this code can exceed the number of bytes of memory.
-/

namespace Blasted

variable {V K : Type}

/-- The largest `int`. -/
def maxInt : Nat := 2147483647

/-- The value `x` of a sum or product of non-negative indices: undefined behaviour if it is not representable. -/
def ick (imax x : Nat) : C Nat := if x ≤ imax then .ok x else .error .ub

/-- Conversion of an integer to the index type: reduction modulo the number `2 (imax + 1)` of its values. -/
def toIndex (imax : Nat) (x : Int) : Int := x.bmod (2 * (imax + 1))

/-- `inclusive_scan` (in place), `src/helper_algorithms.cpp` lines 68-74; the loop variable is a `size_t`. -/
def inclusiveScanI (imax : Nat) (v : List Nat) : C (List Nat) :=
  forRange 1 v.length (fun i v => do
    let a ← rd v i
    let b ← rd v (i - 1)
    let s ← ick imax (a + b)
    wr v i s) v

/-- `std::accumulate(numpos.begin(), numpos.end(), 0)`, `src/ilu_pattern.cpp` line 84. The initial value
is an `int`, so the running total is one: each sum is computed as `size_t` and converted to `int`. -/
def accumulateI (imax : Nat) (l : List Nat) : Int := l.foldl (fun (acc : Int) (x : Nat) => toIndex imax (acc + x)) 0

/-- First pass of `compute_ILU_positions_CSR_CSR`, `src/ilu_pattern.cpp` lines 37-82: `numpos` and `posptr`. The
counts are of type `size_t`. Simplification: `pos.posptr[j+1] = numpos[j]` converts to the index type; a count that is
not representable is a failure here (there is none: a count is at most the number of stored entries). Loop counters and
`irow+1` are not checked: they are bounded by the number of rows or of stored entries. -/
def iluCountI (imax : Nat) (A : SR V) (pattern_size : Nat) : C (List Nat × List Nat) := do
  let numpos := List.replicate pattern_size 0
  let sz ← ick imax (pattern_size + 1)
  let posptr ← wr (List.replicate sz 0) 0 0
  forRange 0 A.nbrows (fun irow (s : List Nat × List Nat) => do
    let lo ← rd A.browptr irow
    let hi ← rd A.browptr (irow + 1)
    forRange lo hi (fun j (s : List Nat × List Nat) => do
      let numpos ← iluScan A irow j (fun _ ipos numpos => do
        if ipos > -1 then
          let v ← rd numpos j
          wr numpos j (v + 1)
        else .ok numpos) s.1
      let v ← rd numpos j
      let v ← ick imax v
      let posptr ← wr s.2 (j + 1) v
      .ok (numpos, posptr)) s) (numpos, posptr)

/-- `std::vector<index>::resize(totallen)` of an empty vector, where `totallen` was converted from `int` to
`size_t`: a negative value becomes larger than `max_size()`. -/
def resizeI (totallen : Int) : C (List Nat) :=
  if totallen < 0 then .error (.throw "std::length_error" "vector::_M_default_append")
  else .ok (List.replicate totallen.toNat 0)

/-- Second pass of `compute_ILU_positions_CSR_CSR`, `src/ilu_pattern.cpp` lines 97-160. -/
def iluFillI (imax : Nat) (A : SR V) (numpos posptr lowerp upperp : List Nat) : C (List Nat × List Nat) :=
  forRange 0 A.nbrows (fun irow (s : List Nat × List Nat) => do
    let lo ← rd A.browptr irow
    let hi ← rd A.browptr (irow + 1)
    forRange lo hi (fun j (s : List Nat × List Nat) => do
      let r ← iluScan A irow j (fun k ipos (r : Nat × List Nat × List Nat) => do
        if ipos ≠ -1 then
          let p ← rd posptr j
          let at1 ← ick imax (p + r.1)
          let lowerp ← wr r.2.1 at1 k
          let at2 ← ick imax (p + r.1)
          let upperp ← wr r.2.2 at2 ipos.toNat
          let offset ← ick imax (r.1 + 1)
          .ok (offset, lowerp, upperp)
        else .ok r) (0, s.1, s.2)
      let n ← rd numpos j
      cassert (r.1 = n)
      .ok (r.2.1, r.2.2)) s) (lowerp, upperp)

/-- `compute_ILU_positions_CSR_CSR`, `src/ilu_pattern.cpp` lines 31-163, with checked index arithmetic. -/
def computeILUPositionsI (imax : Nat) (A : SR V) : C ILUPos := do
  let pattern_size ← rd A.browptr A.nbrows
  let c ← iluCountI imax A pattern_size
  let totallen := accumulateI imax c.1
  let posptr ← inclusiveScanI imax c.2
  let last ← rd posptr pattern_size
  cassert (decide ((last : Int) = totallen))
  let lowerp ← resizeI totallen
  let upperp ← resizeI totallen
  let r ← iluFillI imax A c.1 posptr lowerp upperp
  .ok ⟨r.1, r.2, posptr⟩

/-- Read at a computed index. Where the index is computed in several steps, the intermediate values are smaller. -/
def rdI {α : Type _} (imax : Nat) (a : List α) (e : Nat) : C α := do
  let i ← ick imax e
  rd a i

/-- Write at a computed index. -/
def wrI {α : Type _} (imax : Nat) (a : List α) (e : Nat) (v : α) : C (List α) := do
  let i ← ick imax e
  wr a i v

/-- One increment of the column counts, `src/adjacency.cpp` line 39. -/
def colCountI (imax : Nat) (A : SR K) (jj : Nat) (ptrs : List Nat) : C (List Nat) := do
  let c ← rd A.bcolind jj
  let v ← rdI imax ptrs (c + 1)
  let w ← ick imax (v + 1)
  wrI imax ptrs (c + 1) w

/-- Body of the loop that fills the lists, `src/adjacency.cpp` lines 54-59. -/
def colFillI (imax : Nat) (A : SR K) (ptrs : List Nat) (irow jj : Nat) (s : List Nat × List Nat × List Nat) :
    C (List Nat × List Nat × List Nat) := do
  let (colfill, col_rows, rows_loc) := s
  let colind ← rd A.bcolind jj
  let p ← rd ptrs colind
  let f ← rd colfill colind
  let col_rows ← wrI imax col_rows (p + f) irow
  let rows_loc ← wrI imax rows_loc (p + f) jj
  let g ← ick imax (f + 1)
  let colfill ← wr colfill colind g
  .ok (colfill, col_rows, rows_loc)

/-- `ColumnAdjacency::compute`, `src/adjacency.cpp` lines 30-62, with checked index arithmetic. Loop counters are
not checked: they are bounded by the number of rows or of stored entries. -/
def colAdjacencyI (imax : Nat) (A : SR K) : C ColAdj := do
  let sz ← ick imax (A.nbrows + 1)
  let ptrs := List.replicate sz 0
  let nnz ← rd A.browptr A.nbrows
  let col_rows := List.replicate nnz 0
  let rows_loc := List.replicate nnz 0
  let ptrs ← forRange 0 nnz (colCountI imax A) ptrs
  let front ← rd ptrs 0
  if front ≠ 0 then .error (.throw "runtime_error" "Wrong sizes!")
  let ptrs ← inclusiveScanI imax ptrs
  let back ← rd ptrs (ptrs.length - 1)
  if back ≠ nnz then .error (.throw "runtime_error" "Wrong pointer list!")
  let colfill := List.replicate A.nbrows 0
  let (_, col_rows, rows_loc) ← forRange 0 A.nbrows (fun irow (s : List Nat × List Nat × List Nat) => do
    let lo ← rd A.browptr irow
    let hi ← rdI imax A.browptr (irow + 1)
    forRange lo hi (colFillI imax A ptrs irow) s) (colfill, col_rows, rows_loc)
  .ok { col_rows := col_rows, rows_loc := rows_loc, ptrs := ptrs }

/-- `src/scmatrix.cpp` lines 55-57. -/
def readBlockI (imax bs2 : Nat) (vals : List K) (jj : Nat) : C (List K) :=
  forRange 0 bs2 (fun i bloc => do
    let v ← rdI imax vals (jj * bs2 + i)
    .ok (bloc ++ [v])) []

/-- `src/scmatrix.cpp` lines 52-60. -/
def bscScatterI (imax bs2 : Nat) (A : SR K) : C (List (List (CSEntry K))) :=
  forRange 0 A.nbrows (fun irow cv => do
    let lo ← rd A.browptr irow
    let hi ← rdI imax A.browptr (irow + 1)
    forRange lo hi (fun jj cv => do
      let bloc ← readBlockI imax bs2 A.vals jj
      let c ← rd A.bcolind jj
      let col ← rd cv c
      wr cv c (col ++ [(irow, bloc)])) cv) (List.replicate A.nbrows [])

/-- `src/scmatrix.cpp` lines 76-83. -/
def bscPutI (imax bs2 icol : Nat) (e : CSEntry K) (s : BscState K) : C (BscState K) := do
  let browind ← wr s.browind s.iz e.1
  let vals ← forRange 0 bs2 (fun i vals => do
    let v ← rd e.2 i
    wrI imax vals (s.iz * bs2 + i) v) s.vals
  let b ← rd browind s.iz
  let diagind ← if icol = b then wr s.diagind icol (s.iz : Int) else .ok s.diagind
  let iz ← ick imax (s.iz + 1)
  .ok { s with iz := iz, browind := browind, vals := vals, diagind := diagind }

/-- `convert_BSR_to_BSC`, `src/scmatrix.cpp` lines 29-95, with checked index arithmetic: the sizes of the arrays
(lines 39-42) and all indices. The product `bnnz*bs2` is computed as `int` before it is multiplied by `sizeof`. -/
def convertBSCI (imax bs2 : Nat) (srt : List (CSEntry K) → List (CSEntry K)) (A : SR K)
    (gptr gind : List Nat) (gvals : List K) (gdiag : List Int) : C (SC K) := do
  let bnnz ← rd A.browptr A.nbrows
  let _ ← ick imax (A.nbrows + 1)
  let _ ← ick imax (bnnz * bs2)
  let cv ← bscScatterI imax bs2 A
  let cv ← forRange 0 A.nbrows (fun icol cv => do
    let col ← rd cv icol
    wr cv icol (srt col)) cv
  let s ← forRange 0 A.nbrows (fun icol s => do
    let bcolptr ← wr s.bcolptr icol s.iz
    let diagind ← wr s.diagind icol (-1)
    let col ← rd cv icol
    forList col (bscPutI imax bs2 icol) { s with bcolptr := bcolptr, diagind := diagind })
    (⟨0, gptr, gind, gvals, gdiag⟩ : BscState K)
  cassert (s.iz == bnnz)
  let bcolptr ← wr s.bcolptr A.nbrows bnnz
  .ok { bcolptr := bcolptr, browind := s.browind, vals := s.vals, diagind := s.diagind,
        nbcols := A.nbrows }

/-- `convert_BSR_to_BSC_1based`, `src/scmatrix.cpp` lines 113-132, with checked index arithmetic. -/
def convertBSC1I (imax bs2 : Nat) (srt : List (CSEntry K) → List (CSEntry K)) (A : SR K)
    (gptr gind : List Nat) (gvals : List K) (gdiag : List Int) : C (SC K) := do
  let c ← convertBSCI imax bs2 srt A gptr gind gvals gdiag
  let bcolptr ← forRange 0 (c.nbcols + 1) (fun i a => do
    let v ← rd a i
    let w ← ick imax (v + 1)
    wr a i w) c.bcolptr
  let diagind ← forRange 0 c.nbcols (fun i a => do
    let v ← rd a i
    if (imax : Int) < v + 1 then .error .ub
    wr a i (v + 1)) c.diagind
  let bnnz ← rd A.browptr A.nbrows
  let browind ← forRange 0 bnnz (fun i a => do
    let v ← rd a i
    let w ← ick imax (v + 1)
    wr a i w) c.browind
  .ok { c with bcolptr := bcolptr, diagind := diagind, browind := browind }

/-- `src/coomatrix.cpp` lines 343-351. -/
def bsrAddBlockI (imax curbrow curbcol : Nat) (s : BsrPass) : C BsrPass := do
  let lo ← rd s.browptr curbrow
  if s.bcolidxs.length < lo then .error .ub
  else if findFrom s.bcolidxs lo s.bcolidxs.length curbcol = s.bcolidxs.length then do
    let diagind ← (if curbcol = curbrow then wr s.diagind curbrow (s.bnnz : Int) else .ok s.diagind : C (List Int))
    let bnnz ← ick imax (s.bnnz + 1)
    .ok { s with bcolidxs := s.bcolidxs ++ [curbcol], diagind := diagind, bnnz := bnnz }
  else .ok s

/-- `src/coomatrix.cpp` lines 331-351. -/
def bsrCountEntryI (imax bs : Nat) (A : COO K) (irow j : Nat) (s : BsrPass) : C BsrPass := do
  let e ← rd A.entries j
  let curcol ← toIdx e.colind
  let s ← bsrTally (irow / bs) s
  bsrAddBlockI imax (irow / bs) (curcol / bs) s

/-- `COOMatrix::convertToBSR`, `src/coomatrix.cpp` lines 297-403, with checked index arithmetic: the sizes and the
number of blocks. Not checked are the loop counters, which are bounded by sizes, and `offset` (lines 375-381), which is
less than the constant `bs*bs` and computed from products that do not exceed `irow` and `curcol`; the address of a block is
computed with `ptrdiff_t` (line 393), taken as unbounded. -/
def convertToBSRI [Zero K] (imax bs : Nat) (stor : Stor) (gi : Nat → Nat) (gd : Nat → Int) (gv : Nat → K) (A : COO K) :
    C (SR K × List Int) := do
  cassert (decide ((A.nrows : Int) = A.ncols))
  cassert (decide (A.nrows % bs = 0))
  let nbrows := A.nrows / bs
  let np ← ick imax (nbrows + 1)
  let diagind ← forRange 0 nbrows (fun i d => wr d i (-1)) (fresh nbrows gd)
  let browptr ← forRange 0 np (fun i p => wr p i 0) (fresh np gi)
  let s ← cooLoop A (bsrCountEntryI imax bs A)
    { browptr := browptr, diagind := diagind, bcolidxs := [], tally := List.replicate nbrows false, bnnz := 0 }
  let browptr ← wr s.browptr nbrows s.bnnz
  let browptr ← bsrFixPtr nbrows browptr
  let nvals ← ick imax (s.bnnz * bs * bs)
  let vals ← forRange 0 nvals (fun i v => wr v i 0) (fresh nvals gv)
  let bcolind ← forRange 0 s.bnnz (fun i c => do
    let b ← rd s.bcolidxs i
    wr c i b) (fresh s.bnnz gi)
  let vals ← cooLoop A (bsrCopyEntry bs stor A browptr bcolind) vals
  .ok ({ browptr := browptr, bcolind := bcolind, vals := vals, diagind := s.diagind.map Int.toNat,
         browendptr := rowEnds nbrows browptr, nbrows := nbrows, nnzb := s.bnnz, nbstored := s.bnnz }, s.diagind)

end Blasted
