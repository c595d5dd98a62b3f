import Verif.MatVec.Model

/-!
# Row-to-column conversion and column adjacency

Transcription of `src/scmatrix.cpp`, `src/adjacency.cpp` and `inclusive_scan` of
`src/helper_algorithms.cpp`.

Freshly allocated C++ arrays have indeterminate contents. They are modelled by lists that are
parameters (`g...`) about which only the length is known.
-/

namespace Blasted

variable {K : Type _}

/-- One entry of the temporary column-wise storage: row index and the `bs2` scalars of the block
(`CSEntry`, `src/scmatrix.cpp` line 46). -/
abbrev CSEntry (K : Type _) := Nat × List K

/-- Lines 55-57 of `src/scmatrix.cpp`: copy of block `jj`. -/
def readBlock (bs2 : Nat) (vals : List K) (jj : Nat) : C (List K) :=
  forRange 0 bs2 (fun i bloc => do
    let v ← rd vals (jj * bs2 + i)
    .ok (bloc ++ [v])) []

/-- Lines 52-60 of `src/scmatrix.cpp`: distribute the entries over the columns. -/
def bscScatter (bs2 : Nat) (A : SR K) : C (List (List (CSEntry K))) :=
  forRange 0 A.nbrows (fun irow cv => do
    let lo ← rd A.browptr irow
    let hi ← rd A.browptr (irow + 1)
    forRange lo hi (fun jj cv => do
      let bloc ← readBlock bs2 A.vals jj
      let c ← rd A.bcolind jj
      let col ← rd cv c
      wr cv c (col ++ [(irow, bloc)])) cv) (List.replicate A.nbrows [])

/-- Loop state of the output phase of `convert_BSR_to_BSC` (lines 70-85). -/
structure BscState (K : Type _) where
  iz : Nat
  bcolptr : List Nat
  browind : List Nat
  vals : List K
  diagind : List Int

/-- Lines 76-83 of `src/scmatrix.cpp`: write one entry of column `icol`. -/
def bscPut (bs2 icol : Nat) (e : CSEntry K) (s : BscState K) : C (BscState K) := do
  let browind ← wr s.browind s.iz e.1
  let vals ← forRange 0 bs2 (fun i vals => do
    let v ← rd e.2 i
    wr vals (s.iz * bs2 + i) v) s.vals
  let b ← rd browind s.iz
  let diagind ← if icol = b then wr s.diagind icol (s.iz : Int) else .ok s.diagind
  .ok { s with iz := s.iz + 1, browind := browind, vals := vals, diagind := diagind }

/-- `convert_BSR_to_BSC`, `src/scmatrix.cpp` lines 29-95. `srt` is `std::sort` with the comparison
on the row index (lines 66-67). `gptr`, `gind`, `gvals`, `gdiag` are the contents
of the newly allocated arrays. -/
def convertBSC (bs2 : Nat) (srt : List (CSEntry K) → List (CSEntry K)) (A : SR K)
    (gptr gind : List Nat) (gvals : List K) (gdiag : List Int) : C (SC K) := do
  let bnnz ← rd A.browptr A.nbrows
  let cv ← bscScatter bs2 A
  let cv ← forRange 0 A.nbrows (fun icol cv => do
    let col ← rd cv icol
    wr cv icol (srt col)) cv
  let s ← forRange 0 A.nbrows (fun icol s => do
    let bcolptr ← wr s.bcolptr icol s.iz
    let diagind ← wr s.diagind icol (-1)
    let col ← rd cv icol
    forList col (bscPut bs2 icol) { s with bcolptr := bcolptr, diagind := diagind })
    (⟨0, gptr, gind, gvals, gdiag⟩ : BscState K)
  cassert (s.iz == bnnz)
  let bcolptr ← wr s.bcolptr A.nbrows bnnz
  .ok { bcolptr := bcolptr, browind := s.browind, vals := s.vals, diagind := s.diagind,
        nbcols := A.nbrows }

/-- `convert_BSR_to_BSC_1based`, `src/scmatrix.cpp` lines 113-132. -/
def convertBSC1 (bs2 : Nat) (srt : List (CSEntry K) → List (CSEntry K)) (A : SR K)
    (gptr gind : List Nat) (gvals : List K) (gdiag : List Int) : C (SC K) := do
  let c ← convertBSC bs2 srt A gptr gind gvals gdiag
  let bcolptr ← forRange 0 (c.nbcols + 1) (fun i a => do
    let v ← rd a i
    wr a i (v + 1)) c.bcolptr
  let diagind ← forRange 0 c.nbcols (fun i a => do
    let v ← rd a i
    wr a i (v + 1)) c.diagind
  let bnnz ← rd A.browptr A.nbrows
  let browind ← forRange 0 bnnz (fun i a => do
    let v ← rd a i
    wr a i (v + 1)) c.browind
  .ok { c with bcolptr := bcolptr, diagind := diagind, browind := browind }

/-- `inclusive_scan` (in place), `src/helper_algorithms.cpp` lines 68-74 and 88-94. -/
def inclusiveScan (v : List Nat) : C (List Nat) :=
  forRange 1 v.length (fun i v => do
    let a ← rd v i
    let b ← rd v (i - 1)
    wr v i (a + b)) v

/-- `inclusive_scan` (out of place), `src/helper_algorithms.cpp` lines 98-104. -/
def inclusiveScanCopy (v : List Nat) : C (List Nat) := do
  let scanned := v
  inclusiveScan scanned

/-- The members of `ColumnAdjacency`, `src/adjacency.hpp` lines 33-40. -/
structure ColAdj where
  col_rows : List Nat
  rows_loc : List Nat
  ptrs : List Nat
deriving Repr, DecidableEq

/-- `ColumnAdjacency::compute`, `src/adjacency.cpp` lines 30-62. `std::vector::resize` of the empty
vectors fills with zeros. -/
def colAdjacency (A : SR K) : C ColAdj := do
  let ptrs := List.replicate (A.nbrows + 1) 0
  let nnz ← rd A.browptr A.nbrows
  let col_rows := List.replicate nnz 0
  let rows_loc := List.replicate nnz 0
  let ptrs ← forRange 0 nnz (fun jj ptrs => do
    let c ← rd A.bcolind jj
    let v ← rd ptrs (c + 1)
    wr ptrs (c + 1) (v + 1)) ptrs
  let front ← rd ptrs 0
  if front ≠ 0 then .error (.throw "runtime_error" "Wrong sizes!")
  let ptrs ← inclusiveScan ptrs
  let back ← rd ptrs (ptrs.length - 1)
  if back ≠ nnz then .error (.throw "runtime_error" "Wrong pointer list!")
  let colfill := List.replicate A.nbrows 0
  let (_, col_rows, rows_loc) ← forRange 0 A.nbrows (fun irow (s : List Nat × List Nat × List Nat) => do
    let lo ← rd A.browptr irow
    let hi ← rd A.browptr (irow + 1)
    forRange lo hi (fun jj (s : List Nat × List Nat × List Nat) => do
      let (colfill, col_rows, rows_loc) := s
      let colind ← rd A.bcolind jj
      let p ← rd ptrs colind
      let f ← rd colfill colind
      let col_rows ← wr col_rows (p + f) irow
      let rows_loc ← wr rows_loc (p + f) jj
      let colfill ← wr colfill colind (f + 1)
      .ok (colfill, col_rows, rows_loc)) s) (colfill, col_rows, rows_loc)
  .ok { col_rows := col_rows, rows_loc := rows_loc, ptrs := ptrs }

end Blasted
