import Verif.Algo.Model
import Mathlib.Algebra.Field.Defs

/-!
# Reordering and scaling

Transcription of `src/reorderingscaling.cpp`, `include/reorderingscaling.hpp` and
`BSRMatrix::reorderScale` (`src/blockmatrices.ipp`), at the flat memory level with `m = bs*bs` cells per
stored entry. `MC64::compute` is in `Reorder/Mc64Model.lean`.
-/

namespace Blasted

variable {K : Type}

/-- `RSApplyMode`, `include/reorderingscaling.hpp` line 29. -/
inductive RSMode where
  | forward
  | inverse
deriving Repr, DecidableEq

/-- `RSApplyDir`, `include/reorderingscaling.hpp` line 30. -/
inductive RSDir where
  | row
  | column
deriving Repr, DecidableEq

/-- Members of `Reordering` and `ReorderingScaling`, `include/reorderingscaling.hpp` lines 89-98 and
125-132. An absent ordering or scaling is an empty vector. -/
structure RS (K : Type) where
  rp : List Nat := []
  cp : List Nat := []
  irp : List Nat := []
  icp : List Nat := []
  rowscale : List K := []
  colscale : List K := []
deriving Repr, DecidableEq

/-- `std::vector::resize(length)` of a vector of integers: old contents are kept, new cells are 0. -/
def vresize (v : List Nat) (length : Nat) : List Nat :=
  v.take length ++ List.replicate (length - v.length) 0

/-- `invertPermutationVector`, `src/reorderingscaling.cpp` lines 32-39. -/
def invertPermutation (p : List Nat) : C (List Nat) :=
  forRange 0 p.length (fun i invp => do
    let pi ← rd p i
    wr invp pi i) (List.replicate p.length 0)

/-- One half of `setOrdering`, `src/reorderingscaling.cpp` lines 53-62 (rows) and 64-72 (columns):
`ord` is the array passed by the caller, `p`, `ip` the members before the call. -/
def setOrderingDir (ord : List Nat) (length : Nat) (p ip : List Nat) : C (List Nat × List Nat) := do
  let p ← forRange 0 length (fun i p => do
    let o ← rd ord i
    wr p i o) (vresize p length)
  let ip ← forRange 0 length (fun i ip => do
    let o ← rd ord i
    wr ip o i) (vresize ip length)
  .ok (p, ip)

/-- One of the two `if`s of `setOrdering`: a null pointer (`none`) leaves the members alone
(`src/reorderingscaling.cpp` lines 53, 64). -/
def setOrderingOpt (ord : Option (List Nat)) (length : Nat) (p ip : List Nat) :
    C (List Nat × List Nat) :=
  match ord with
  | some o => setOrderingDir o length p ip
  | none => .ok (p, ip)

/-- `Reordering::setOrdering`, `src/reorderingscaling.cpp` lines 49-73. -/
def setOrdering (rord cord : Option (List Nat)) (length : Nat) (r : RS K) : C (RS K) := do
  let a ← setOrderingOpt rord length r.rp r.irp
  let b ← setOrderingOpt cord length r.cp r.icp
  .ok { r with rp := a.1, irp := a.2, cp := b.1, icp := b.2 }

/-- Copy of the `m` cells of entry `jj` of `src` to entry `pos` of `dst`: the innermost loops of
`applyOrdering`, `src/reorderingscaling.cpp` lines 98-99, 111-112, 161-162, 174-175. -/
def copyBlock (m : Nat) (src : List K) (jj : Nat) (dst : List K) (pos : Nat) : C (List K) :=
  forRange 0 m (fun k dst => do
    let v ← rd src (jj * m + k)
    wr dst (pos * m + k) v) dst

/-- Loop state of the forward row reordering (`src/reorderingscaling.cpp` lines 83-88). -/
structure RowMove (K : Type) where
  pos : Nat
  rptr : List Nat
  cind : List Nat
  val : List K

/-- Body of the loop over rows, `src/reorderingscaling.cpp` lines 91-102. -/
def moveRow (m : Nat) (rp : List Nat) (A : SR K) (i : Nat) (s : RowMove K) : C (RowMove K) := do
  let ni ← rd rp i
  let rptr ← wr s.rptr i s.pos
  let lo ← rd A.browptr ni
  let hi ← rd A.browptr (ni + 1)
  forRange lo hi (fun jj s => do
    let c ← rd A.bcolind jj
    let cind ← wr s.cind s.pos c
    let val ← copyBlock m A.vals jj s.val s.pos
    .ok { s with pos := s.pos + 1, cind := cind, val := val }) { s with rptr := rptr }

/-- Forward row reordering of a matrix, `src/reorderingscaling.cpp` lines 82-114. The row-end
pointer of a complete matrix is the address of `browptr[1]` (`src/blockmatrices.ipp` lines 199, 222,
255, 300, `src/rawsrmatrixutils.cpp` lines 150-153, `src/coomatrix.cpp` lines 289, 398), so it
changes along with `browptr`. `diagind` is not touched by the code. -/
def reorderRowsFwd [Zero K] (m : Nat) (rp : List Nat) (A : SR K) : C (SR K) := do
  let nnz ← rd A.browptr A.nbrows
  let rptr ← wr (List.replicate (A.nbrows + 1) 0) A.nbrows nnz
  let s ← forRange 0 A.nbrows (moveRow m rp A)
    (⟨0, rptr, List.replicate nnz 0, List.replicate (nnz * m) 0⟩ : RowMove K)
  cassert (s.pos == nnz)
  let browptr ← forRange 0 A.nbrows (fun i bp => do
    let v ← rd s.rptr i
    wr bp i v) A.browptr
  let cv ← forRange 0 s.pos (fun jj (cv : List Nat × List K) => do
    let c ← rd s.cind jj
    let cind ← wr cv.1 jj c
    let val ← copyBlock m s.val jj cv.2 jj
    .ok (cind, val)) (A.bcolind, A.vals)
  .ok { A with browptr := browptr, bcolind := cv.1, vals := cv.2, browendptr := browptr.tail }

/-- Body of the column loop, `src/reorderingscaling.cpp` lines 121-134 (with `q = icp`) and 185-198
(with `q = cp`). -/
def permuteColsRow (m : Nat) (q : List Nat) (browptr : List Nat) (i : Nat)
    (cv : List Nat × List K) : C (List Nat × List K) := do
  let lo ← rd browptr i
  let hi ← rd browptr (i + 1)
  let ocinds ← forRange 0 (hi - lo) (fun jj o => do
    let c ← rd cv.1 (lo + jj)
    .ok (o ++ [c])) []
  let rcolind ← forRange 0 (hi - lo) (fun jj rcolind => do
    let c ← rd ocinds jj
    let c' ← rd q c
    wr rcolind (lo + jj) c') cv.1
  sortBlockInner m (hi - lo) lo rcolind cv.2

/-- Column reordering of a matrix; the rows are processed in parallel in the order `ord`. -/
def permuteCols (m : Nat) (q : List Nat) (ord : List Nat) (A : SR K) : C (SR K) := do
  let cv ← parFor A.nbrows ord (permuteColsRow m q A.browptr) (A.bcolind, A.vals)
  .ok { A with bcolind := cv.1, vals := cv.2 }

/-- Lines 149-164 of `src/reorderingscaling.cpp`: distribute row `i` to `brows[rp[i]]`. -/
def collectRow [Zero K] (m : Nat) (rp : List Nat) (A : SR K) (i : Nat)
    (brows : List (List (CSEntry K))) : C (List (List (CSEntry K))) := do
  let destr ← rd rp i
  let old ← rd brows destr
  cassert (old.length == 0)
  let lo ← rd A.browptr i
  let hi ← rd A.browptr (i + 1)
  let row ← forRange lo hi (fun jj row => do
    let c ← rd A.bcolind jj
    let e ← rd row (jj - lo)
    let v ← copyBlock m A.vals jj e.2 0
    wr row (jj - lo) (c, v)) (List.replicate (hi - lo) (0, List.replicate m 0))
  wr brows destr row

/-- Lines 169-177 of `src/reorderingscaling.cpp`: write back row `i`. The state is
(`browptr`, `bcolind`, `vals`). -/
def writeRow (m : Nat) (brows : List (List (CSEntry K))) (i : Nat)
    (s : List Nat × List Nat × List K) : C (List Nat × List Nat × List K) := do
  let row ← rd brows i
  let lo ← rd s.1 i
  let browptr ← wr s.1 (i + 1) (row.length + lo)
  let cv ← forRange lo (row.length + lo) (fun jj (cv : List Nat × List K) => do
    let e ← rd row (jj - lo)
    let cind ← wr cv.1 jj e.1
    let val ← copyBlock m e.2 0 cv.2 jj
    .ok (cind, val)) s.2
  .ok (browptr, cv)

/-- Inverse row reordering of a matrix, `src/reorderingscaling.cpp` lines 141-179. -/
def reorderRowsInv [Zero K] (m : Nat) (rp : List Nat) (A : SR K) : C (SR K) := do
  let brows ← forRange 0 A.nbrows (collectRow m rp A) (List.replicate A.nbrows [])
  let browptr ← wr A.browptr 0 0
  let s ← forRange 0 A.nbrows (writeRow m brows) (browptr, A.bcolind, A.vals)
  .ok { A with browptr := s.1, bcolind := s.2.1, vals := s.2.2, browendptr := s.1.tail }

/-- The row half of `applyOrdering` for matrices, with its `if(rp.size() > 0)`. -/
def orderRows [Zero K] (m : Nat) (r : RS K) (mode : RSMode) (A : SR K) : C (SR K) :=
  if r.rp.length > 0 then
    match mode with
    | .forward => reorderRowsFwd m r.rp A
    | .inverse => reorderRowsInv m r.rp A
  else .ok A

/-- The column half of `applyOrdering` for matrices, with its `if(cp.size() > 0)`. -/
def orderCols (m : Nat) (r : RS K) (mode : RSMode) (ord : List Nat) (A : SR K) : C (SR K) :=
  if r.cp.length > 0 then
    match mode with
    | .forward => permuteCols m r.icp ord A
    | .inverse => permuteCols m r.cp ord A
  else .ok A

/-- `Reordering::applyOrdering(RawBSRMatrix&, mode)`, `src/reorderingscaling.cpp` lines 75-199. -/
def applyOrdering [Zero K] (m : Nat) (r : RS K) (mode : RSMode) (ord : List Nat) (A : SR K) :
    C (SR K) := do
  let A ← orderRows m r mode A
  orderCols m r mode ord A

/-- `rp` or `cp` depending on the direction (`src/reorderingscaling.cpp` line 208). -/
def RS.perm (r : RS K) : RSDir → List Nat
  | .row => r.rp
  | .column => r.cp

/-- One iteration of the vector reordering loops, `src/reorderingscaling.cpp` lines 226-227, 232-233,
241-242, 248-249. -/
def orderVecStep (bs : Nat) (mode : RSMode) (p : List Nat) (tv : List K) (i : Nat) (vec : List K) :
    C (List K) :=
  forRange 0 bs (fun k vec => do
    let pi ← rd p i
    match mode with
    | .forward => do
      let v ← rd tv (pi * bs + k)
      wr vec (i * bs + k) v
    | .inverse => do
      let v ← rd tv (i * bs + k)
      wr vec (pi * bs + k) v) vec

/-- `Reordering::applyOrdering(scalar*, mode, dir)`, `src/reorderingscaling.cpp` lines 204-252. `ordc`,
`ord` are the orders in which the two parallel loops run. -/
def applyOrderingVec [Zero K] (bs : Nat) (r : RS K) (mode : RSMode) (dir : RSDir)
    (ordc ord : List Nat) (vec : List K) : C (List K) := do
  let size := (r.perm dir).length
  if size ≤ 0 then .ok vec
  else
    let tv ← parFor (size * bs) ordc (fun i tv => do
      let v ← rd vec i
      wr tv i v) (List.replicate (size * bs) 0)
    parFor size ord (orderVecStep bs mode (r.perm dir) tv) vec

section scaling
variable [Field K] [DecidableEq K]

/-- `x *= s` or `x /= s`. Division by zero is a distinct outcome `divzero` (in IEEE
arithmetic it produces an infinity or NaN). -/
def scaleOp (mode : RSMode) (x s : K) : C K :=
  match mode with
  | .forward => .ok (x * s)
  | .inverse => if s = 0 then .error .divzero else .ok (x / s)

/-- Row loop body of `applyScaling`, `src/reorderingscaling.cpp` lines 277-283 and 289-295. -/
def scaleRow (m : Nat) (mode : RSMode) (rowscale : List K) (A : SR K) (irow : Nat) (vals : List K) :
    C (List K) := do
  let s ← rd rowscale irow
  let lo ← rd A.browptr irow
  let hi ← rd A.browptr (irow + 1)
  forRange lo hi (fun jj vals => forRange 0 m (fun k vals => do
    let v ← rd vals (jj * m + k)
    let v' ← scaleOp mode v s
    wr vals (jj * m + k) v') vals) vals

/-- Column loop body of `applyScaling`, `src/reorderingscaling.cpp` lines 305-312 and 318-325. -/
def scaleCol (m : Nat) (mode : RSMode) (colscale : List K) (A : SR K) (irow : Nat) (vals : List K) :
    C (List K) := do
  let lo ← rd A.browptr irow
  let hi ← rd A.browptr (irow + 1)
  forRange lo hi (fun jj vals => do
    let c ← rd A.bcolind jj
    let s ← rd colscale c
    forRange 0 m (fun k vals => do
      let v ← rd vals (jj * m + k)
      let v' ← scaleOp mode v s
      wr vals (jj * m + k) v') vals) vals

/-- `if(rowscale.size() > 0)` of `src/reorderingscaling.cpp` line 271. -/
def scaleRows (m : Nat) (r : RS K) (mode : RSMode) (ord : List Nat) (A : SR K) : C (List K) :=
  if r.rowscale.length > 0 then parFor A.nbrows ord (scaleRow m mode r.rowscale A) A.vals else .ok A.vals

/-- `if(colscale.size() > 0)` of `src/reorderingscaling.cpp` line 299. -/
def scaleCols (m : Nat) (r : RS K) (mode : RSMode) (ord : List Nat) (A : SR K) : C (List K) :=
  if r.colscale.length > 0 then parFor A.nbrows ord (scaleCol m mode r.colscale A) A.vals else .ok A.vals

/-- `ReorderingScaling::applyScaling(RawBSRMatrix&, mode)`, `src/reorderingscaling.cpp`
lines 267-331. -/
def applyScaling (m : Nat) (r : RS K) (mode : RSMode) (ord1 ord2 : List Nat) (A : SR K) :
    C (SR K) := do
  let vals ← scaleRows m r mode ord1 A
  let A := { A with vals := vals }
  let vals ← scaleCols m r mode ord2 A
  .ok { A with vals := vals }

/-- `rowscale` or `colscale` depending on the direction (`src/reorderingscaling.cpp` lines 333-368). -/
def RS.scale (r : RS K) : RSDir → List K
  | .row => r.rowscale
  | .column => r.colscale

/-- `ReorderingScaling::applyScaling(scalar*, mode, dir)`, `src/reorderingscaling.cpp`
lines 333-368. -/
def applyScalingVec (bs : Nat) (r : RS K) (mode : RSMode) (dir : RSDir) (ord : List Nat)
    (vec : List K) : C (List K) :=
  if (r.scale dir).length > 0 then
    parFor (r.scale dir).length ord (fun i vec => forRange 0 bs (fun k vec => do
      let s ← rd (r.scale dir) i
      let v ← rd vec (i * bs + k)
      let v' ← scaleOp mode v s
      wr vec (i * bs + k) v') vec) vec
  else .ok vec

/-- `BSRMatrix::reorderScale`, `src/blockmatrices.ipp` lines 415-430. `ords 0`, `ords 1`, `ords 2` are the
iteration orders of the three parallel loops. -/
def reorderScale (m : Nat) (r : RS K) (mode : RSMode) (ords : Nat → List Nat) (A : SR K) :
    C (SR K) :=
  match mode with
  | .forward => do
    let A ← applyScaling m r .forward (ords 0) (ords 1) A
    applyOrdering m r .forward (ords 2) A
  | .inverse => do
    let A ← applyOrdering m r .inverse (ords 2) A
    applyScaling m r .inverse (ords 0) (ords 1) A

end scaling

/-- `Reordering::isRowReordering`, `include/reorderingscaling.hpp` lines 58-64. -/
def RS.isRowReordering (r : RS K) : Bool := r.rp.length > 0 && r.irp.length == r.rp.length

end Blasted
