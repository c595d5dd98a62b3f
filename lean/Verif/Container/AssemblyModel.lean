import Verif.Base.SR
import Verif.Base.Sweep
import Mathlib.Algebra.Ring.Defs
import Mathlib.Algebra.Order.Group.Unbundled.Abs
import Mathlib.Order.WithBot

/-!
# Assembly operations, comparison and diagonal queries of the matrix classes

`src/blockmatrices.ipp` lines 43-82, 304-390, 594-695, 753-822. A matrix object is modelled by its
storage `SR K` (flat level: `bs*bs` scalars per stored block). Simplification: the messages printed to
standard output are not modelled, except for `found` of the block class, which is returned.
-/

namespace Blasted

variable {K : Type}

section ring
variable [CommRing K]

/-- `#pragma omp atomic update  vals[p] += v`. -/
def atomicAdd (e : Nat × K) (vals : List K) : C (List K) := do
  let x ← rd vals e.1
  wr vals e.1 (x + e.2)

/-! ### Block class -/

/-- `#pragma omp parallel for` over `0 ≤ i < n`, whose iterations run in the order chosen by `sched`. -/
def parRange {σ : Type _} (sched : List Nat → List Nat) (n : Nat) (body : Nat → σ → C σ) (s : σ) : C σ :=
  forList (sched (List.range n)) body s

/-- A schedule runs every iteration once, in any order. -/
def IsSched (sched : List Nat → List Nat) : Prop := ∀ l, (sched l).Perm l

/-- `BSRMatrix::setAllZero`, `src/blockmatrices.ipp` lines 304-312. -/
def bsrSetAllZero (bs : Nat) (sched : List Nat → List Nat) (A : SR K) : C (List K) :=
  parRange sched (A.nnzb * bs * bs) (fun i vals => wr vals i 0) A.vals

/-- `BSRMatrix::setDiagZero`, `src/blockmatrices.ipp` lines 314-324. -/
def bsrSetDiagZero (bs : Nat) (sched : List Nat → List Nat) (A : SR K) : C (List K) :=
  parRange sched A.nbrows (fun irow vals => do
    let d ← rd A.diagind irow
    forRange (d * (bs * bs)) ((d + 1) * (bs * bs)) (fun jj vals => wr vals jj 0) vals) A.vals

/-- `BSRMatrix::submitBlock`, `src/blockmatrices.ipp` lines 326-344. Returns the values and `found`. -/
def bsrSubmitBlock (bs : Nat) (A : SR K) (starti startj : Nat) (buffer : List K) : C (List K × Bool) := do
  let startr := starti / bs
  let startc := startj / bs
  let lo ← rd A.browptr startr
  let hi ← rd A.browendptr startr
  forRange lo hi (fun j s => do
    let c ← rd A.bcolind j
    if c = startc then do
      let vals ← forRange 0 (bs * bs) (fun k vals => do
        let b ← rd buffer k
        wr vals (j * (bs * bs) + k) b) s.1
      .ok (vals, true)
    else .ok s) (A.vals, false)

/-- `BSRMatrix::updateDiagBlock`, `src/blockmatrices.ipp` lines 346-356, on the current values `vals`. -/
def bsrUpdateDiagBlock (bs : Nat) (A : SR K) (starti : Nat) (buffer vals : List K) : C (List K) := do
  let pos ← rd A.diagind (starti / bs)
  forRange 0 (bs * bs) (fun k vals => do
    let b ← rd buffer k
    atomicAdd (pos * (bs * bs) + k, b) vals) vals

/-- `BSRMatrix::updateBlock`, `src/blockmatrices.ipp` lines 358-378, on the current values `vals`. -/
def bsrUpdateBlock (bs : Nat) (A : SR K) (starti startj : Nat) (buffer vals : List K) :
    C (List K × Bool) := do
  let startr := starti / bs
  let startc := startj / bs
  let lo ← rd A.browptr startr
  let hi ← rd A.browptr (startr + 1)
  forRange lo hi (fun j s => do
    let c ← rd A.bcolind j
    if c = startc then do
      let vals ← forRange 0 (bs * bs) (fun k vals => do
        let b ← rd buffer k
        atomicAdd (j * (bs * bs) + k, b) vals) s.1
      .ok (vals, true)
    else .ok s) (vals, false)

/-- `BSRMatrix::scaleAll`, `src/blockmatrices.ipp` lines 380-390. -/
def bsrScaleAll (bs : Nat) (sched : List Nat → List Nat) (factor : K) (A : SR K) : C (List K) :=
  parRange sched A.nnzb (fun iz vals => forRange 0 (bs * bs) (fun k vals => do
    let v ← rd vals (iz * bs * bs + k)
    wr vals (iz * bs * bs + k) (v * factor)) vals) A.vals

/-! ### Scalar class -/

/-- `BSRMatrix<.,.,1>::setAllZero`, `src/blockmatrices.ipp` lines 594-600. -/
def csrSetAllZero (sched : List Nat → List Nat) (A : SR K) : C (List K) := do
  let n ← rd A.browptr A.nbrows
  parRange sched n (fun i vals => wr vals i 0) A.vals

/-- `BSRMatrix<.,.,1>::setDiagZero`, `src/blockmatrices.ipp` lines 602-608. -/
def csrSetDiagZero (sched : List Nat → List Nat) (A : SR K) : C (List K) :=
  parRange sched A.nbrows (fun irow vals => do
    let d ← rd A.diagind irow
    wr vals d 0) A.vals

/-- One row of `BSRMatrix<.,.,1>::submitBlock` and `updateBlock`, `src/blockmatrices.ipp` lines 619-633 and
668-684. The state is the counter `k` and the values; `act` is the action on a position. After
`break` the counter stays equal to `bsj`, so that not leaving the loop has the same effect. -/
def csrBlockRow (A : SR K) (startj bsj irow : Nat) (act : Nat → Nat → List K → C (List K)) (vals : List K) :
    C (Nat × List K) := do
  let lo ← rd A.browptr irow
  let hi ← rd A.browptr (irow + 1)
  forRange lo hi (fun jj s => do
    let c ← rd A.bcolind jj
    if c < startj then .ok s
    else if s.1 = bsj then .ok s
    else do
      let vals ← act jj s.1 s.2
      .ok (s.1 + 1, vals)) (0, vals)

/-- `BSRMatrix<.,.,1>::submitBlock`, `src/blockmatrices.ipp` lines 613-635. -/
def csrSubmitBlock (A : SR K) (starti startj : Nat) (buffer : List K) (bsi bsj : Nat) : C (List K) :=
  forRange starti (starti + bsi) (fun irow vals => do
    let s ← csrBlockRow A startj bsj irow (fun jj k vals => do
      let b ← rd buffer ((irow - starti) * bsj + k)
      wr vals jj b) vals
    .ok s.2) A.vals

/-- `BSRMatrix<.,.,1>::updateBlock`, `src/blockmatrices.ipp` lines 662-685, on the current values `vals`. The
buffer index is `locrow*bsi + k`. -/
def csrUpdateBlock (A : SR K) (starti startj : Nat) (buffer : List K) (bsi bsj : Nat) (vals : List K) :
    C (List K) :=
  forRange starti (starti + bsi) (fun irow vals => do
    let s ← csrBlockRow A startj bsj irow (fun jj k vals => do
      let b ← rd buffer ((irow - starti) * bsi + k)
      atomicAdd (jj, b) vals) vals
    .ok s.2) vals

/-- `BSRMatrix<.,.,1>::updateDiagBlock`, `src/blockmatrices.ipp` lines 640-657, on the current values `vals`.
Simplification: naturals, so `diagind - locrow` is the C++ value only if it is not negative. -/
def csrUpdateDiagBlock (A : SR K) (starti : Nat) (buffer : List K) (bs : Nat) (vals : List K) : C (List K) :=
  forRange starti (starti + bs) (fun irow vals => do
    let locrow := irow - starti
    let d ← rd A.diagind irow
    forRange (d - locrow) (d - locrow + bs) (fun jj vals => do
      let loccol := jj + locrow - d
      let b ← rd buffer (locrow * bs + loccol)
      atomicAdd (jj, b) vals) vals) vals

/-- `BSRMatrix<.,.,1>::scaleAll`, `src/blockmatrices.ipp` lines 687-695. -/
def csrScaleAll (sched : List Nat → List Nat) (factor : K) (A : SR K) : C (List K) := do
  let n ← rd A.browptr A.nbrows
  parRange sched n (fun iz vals => do
    let v ← rd vals iz
    wr vals iz (v * factor)) A.vals

end ring

/-! ### Comparison -/

section compare
variable [CommRing K] [LinearOrder K]

/-- The five flags of `areEqual`. -/
structure EqFlags where
  nrows : Bool := true
  rowptr : Bool := true
  colind : Bool := true
  values : Bool := true
  diag : Bool := true
deriving Repr, DecidableEq

/-- `if(a != b) flag = false`. -/
def setIfNe (flag : Bool) (a b : Nat) : Bool := if a ≠ b then false else flag

/-- The loops of `areEqual`, `src/blockmatrices.ipp` lines 62-79. -/
def areEqualLoops (m : Nat) (A B : SR K) (tol : K) : C EqFlags := do
  let f ← forRange 0 A.nbrows (fun i f => do
    let p1 ← rd A.browptr i
    let p2 ← rd B.browptr i
    let d1 ← rd A.diagind i
    let d2 ← rd B.diagind i
    .ok { f with rowptr := setIfNe f.rowptr p1 p2, diag := setIfNe f.diag d1 d2 }) ({} : EqFlags)
  let nnz ← rd A.browptr A.nbrows
  forRange 0 nnz (fun jj f => do
    let c1 ← rd A.bcolind jj
    let c2 ← rd B.bcolind jj
    let v ← forRange 0 m (fun k v => do
      let v1 ← rd A.vals (jj * m + k)
      let v2 ← rd B.vals (jj * m + k)
      .ok (if |v1 - v2| > tol then false else v)) f.values
    .ok { f with colind := setIfNe f.colind c1 c2, values := v }) f

/-- `areEqual`, `src/blockmatrices.ipp` lines 43-82, `m = bs*bs`. -/
def areEqual (m : Nat) (A B : SR K) (tol : K) : C EqFlags := do
  if A.nbrows ≠ B.nbrows then .ok { nrows := false }
  else do
    let n1 ← rd A.browptr A.nbrows
    let n2 ← rd B.browptr B.nbrows
    if n1 ≠ n2 then .ok { rowptr := false }
    else areEqualLoops m A B tol

/-- Taking the address of element 0 of an `ArrayView`: `operator[]` asserts that 0 is in range
(`include/arrayview.hpp` lines 124-134). -/
def addr0 {α : Type} (l : List α) : C Unit := cassert (decide (0 < l.length))

/-- The raw matrix made of a matrix object, `src/blockmatrices.ipp` lines 436-439. -/
def rawOf (A : SR K) : C Unit := do
  addr0 A.browptr
  addr0 A.bcolind
  addr0 A.vals
  addr0 A.diagind
  addr0 A.browendptr

/-- `BSRMatrix::isEqual`, `src/blockmatrices.ipp` lines 432-446 and 738-751. -/
def isEqual (m : Nat) (A B : SR K) (tol : K) : C EqFlags := do
  rawOf A
  rawOf B
  areEqual m A B tol

/-! ### Diagonal queries of the scalar class -/

/-- `mat.vals[mat.diagind[i]]`. -/
def diagVal (A : SR K) (i : Nat) : C K := do
  let d ← rd A.diagind i
  rd A.vals d

/-- The first index from `i` on (at most `n` of them) whose diagonal entry is smaller than `te`. -/
def zeroDiagFrom (te : K) (A : SR K) : Nat → Nat → C (Option Nat)
  | 0, _ => .ok none
  | n + 1, i => do
    let v ← diagVal A i
    if |v| < te then .ok (some i) else zeroDiagFrom te A n (i + 1)

/-- `zeroDiagonalRow`, `src/blockmatrices.ipp` lines 753-763; `te` is 100 times the machine epsilon and `none` is
the returned value `-1`. -/
def zeroDiagonalRow (te : K) (A : SR K) : C (Option Nat) := zeroDiagFrom te A A.nbrows 0

/-- `getNumZeroDiagonals`, `src/blockmatrices.ipp` lines 765-774. -/
def getNumZeroDiagonals (te : K) (A : SR K) : C Nat :=
  forRange 0 A.nbrows (fun i num => do
    let v ← diagVal A i
    .ok (if |v| < te then num + 1 else num)) 0

/-- `getDiagonalProduct`, `src/blockmatrices.ipp` lines 776-783. -/
def getDiagonalProduct (A : SR K) : C K :=
  forRange 0 A.nbrows (fun i prod => do
    let v ← diagVal A i
    .ok (prod * v)) 1

/-- `getDiagonalAbsSum`, `src/blockmatrices.ipp` lines 785-792. -/
def getDiagonalAbsSum (A : SR K) : C K :=
  forRange 0 A.nbrows (fun i sum => do
    let v ← diagVal A i
    .ok (sum + |v|)) 0

/-- `getAbsMinDiagonalEntry`, `src/blockmatrices.ipp` lines 794-809; `⊤` is infinity. -/
def getAbsMinDiagonalEntry (A : SR K) : C (WithTop K) :=
  forRange 0 A.nbrows (fun i m => do
    let v ← diagVal A i
    .ok (if (↑|v| : WithTop K) < m then ↑|v| else m)) ⊤

/-- `getAbsMaxDiagonalEntry`, `src/blockmatrices.ipp` lines 811-822. -/
def getAbsMaxDiagonalEntry (A : SR K) : C K :=
  forRange 0 A.nbrows (fun i m => do
    let v ← diagVal A i
    .ok (if |v| > m then |v| else m)) 0

end compare

end Blasted
