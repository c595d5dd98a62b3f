import Verif.Heap.Model
import Verif.Base.SR

/-!
# Matrix objects: construction, copying, destruction

`src/rawsrmatrixutils.cpp` lines 29-316 and 321-341, `src/blockmatrices.ipp` lines 166-302 and 450-592,
`include/srmatrixdefs.hpp` lines 99-159. A matrix object consists of five array views in memory and three numbers. Index
arrays and value arrays live in separate memories. Arrays passed by the caller as `const` pointers that are only
read (`bcinds`, `brptrs`) are lists.
-/

namespace Blasted

variable {K : Type}

/-- The memory: index arrays and value arrays. -/
structure Mem (K : Type) where
  ih : Heap Nat := {}
  vh : Heap K := {}

/-- The members of `SRMatrixStorage`, `include/srmatrixdefs.hpp` lines 48-55; the default constructor
(`src/rawsrmatrixutils.cpp` lines 29-31) sets the default values. -/
structure MatObj where
  browptr : AV := {}
  bcolind : AV := {}
  vals : AV := {}
  diagind : AV := {}
  browendptr : AV := {}
  nbrows : Nat := 0
  nnzb : Nat := 0
  nbstored : Nat := 0
deriving Repr, DecidableEq

/-- The members of `RawBSRMatrix` and `CRawBSRMatrix`, `include/srmatrixdefs.hpp` lines 103-110, 137-144. -/
structure RawMat where
  browptr : Ptr := none
  bcolind : Ptr := none
  vals : Ptr := none
  diagind : Ptr := none
  browendptr : Ptr := none
  nbrows : Nat := 0
  nnzb : Nat := 0
  nbstored : Nat := 0
deriving Repr, DecidableEq

/-- The wrapping constructor of `SRMatrixStorage`, `src/rawsrmatrixutils.cpp` lines 33-42. -/
def MatObj.ofPtrs (brptrs bcinds values diag_inds brendptrs : Ptr) (n_brows n_nzb n_bstored b_s : Nat) : MatObj where
  browptr := AV.ofWrap brptrs (n_brows + 1)
  bcolind := AV.ofWrap bcinds n_bstored
  vals := AV.ofWrap values (n_bstored * b_s * b_s)
  diagind := AV.ofWrap diag_inds n_brows
  browendptr := AV.ofWrap brendptrs n_brows
  nbrows := n_brows
  nnzb := n_nzb
  nbstored := n_bstored

/-- The move constructor of `SRMatrixStorage`, `src/rawsrmatrixutils.cpp` lines 56-62: the new object and what is left of
the other one. -/
def MatObj.move (other : MatObj) : MatObj × MatObj :=
  ({ browptr := other.browptr.move.1, bcolind := other.bcolind.move.1, vals := other.vals.move.1,
     diagind := other.diagind.move.1, browendptr := other.browendptr.move.1,
     nbrows := other.nbrows, nnzb := other.nnzb, nbstored := other.nbstored },
   { other with browptr := other.browptr.move.2, bcolind := other.bcolind.move.2, vals := other.vals.move.2,
                diagind := other.diagind.move.2, browendptr := other.browendptr.move.2 })

/-- `move_to_const` of a storage object, `src/rawsrmatrixutils.cpp` lines 64-79. The views returned by the inner
calls are moved into the new object and then destroyed when they own nothing. -/
def MatObj.moveToConst (smat : MatObj) : MatObj × MatObj :=
  ({ browptr := smat.browptr.moveToConst.1.move.1, bcolind := smat.bcolind.moveToConst.1.move.1,
     vals := smat.vals.moveToConst.1.move.1, diagind := smat.diagind.moveToConst.1.move.1,
     browendptr := smat.browendptr.moveToConst.1.move.1,
     nbrows := smat.nbrows, nnzb := smat.nnzb, nbstored := smat.nbstored },
   { browptr := smat.browptr.moveToConst.2, bcolind := smat.bcolind.moveToConst.2, vals := smat.vals.moveToConst.2,
     diagind := smat.diagind.moveToConst.2, browendptr := smat.browendptr.moveToConst.2,
     nbrows := 0, nnzb := 0, nbstored := 0 })

/-- `&v[0]`: `operator[]` asserts that 0 is in range. -/
def AV.addr (v : AV) (i : Nat) : C Ptr := do
  cassert (decide (i < v.len))
  v.data.add i

/-- `share_with_const`, `src/rawsrmatrixutils.cpp` lines 86-94. -/
def MatObj.shareWithConst (smat : MatObj) (bs : Nat) : C MatObj := do
  let a ← smat.browptr.addr 0
  let b ← smat.bcolind.addr 0
  let c ← smat.vals.addr 0
  let d ← smat.diagind.addr 0
  let e ← smat.browendptr.addr 0
  .ok (MatObj.ofPtrs a b c d e smat.nbrows smat.nnzb smat.nbstored bs)

/-- `createRawView`, `src/rawsrmatrixutils.cpp` lines 330-339. -/
def createRawView (smat : MatObj) : C RawMat := do
  let a ← smat.browptr.addr 0
  let e ← smat.browendptr.addr 0
  let b ← smat.bcolind.addr 0
  let d ← smat.diagind.addr 0
  let c ← smat.vals.addr 0
  .ok ⟨a, b, c, d, e, smat.nbrows, smat.nnzb, smat.nbstored⟩

/-- Destructor: the views are destroyed in the reverse order of their declaration. -/
def MatObj.destroy (M : MatObj) (μ : Mem K) : C (Mem K) := do
  let ih ← M.browendptr.destroy μ.ih
  let ih ← M.diagind.destroy ih
  let vh ← M.vals.destroy μ.vh
  let ih ← M.bcolind.destroy ih
  let ih ← M.browptr.destroy ih
  .ok ⟨ih, vh⟩

/-- The four calls of `resize`, `src/blockmatrices.ipp` lines 179-182, 237-240, 280-283, 466-469, 570-573. `gi k` and
`gv` are the contents of the new blocks; `m = bs*bs`. -/
def allocArrays (m n nnz : Nat) (gi : Nat → Nat → Nat) (gv : Nat → K) (M : MatObj) (μ : Mem K) : C (MatObj × Mem K) := do
  let a ← M.browptr.resize (n + 1) (gi 0) μ.ih
  let b ← M.bcolind.resize nnz (gi 1) a.2
  let c ← M.diagind.resize n (gi 2) b.2
  let d ← M.vals.resize (nnz * m) gv μ.vh
  .ok ({ M with browptr := a.1, bcolind := b.1, diagind := c.1, vals := d.1 }, ⟨c.2, d.2⟩)

/-- The search for the diagonal block of one row, with its `break`, `src/blockmatrices.ipp` lines 191-195, 292-296,
477-481, 582-586. -/
def findDiagRow (M : MatObj) (irow : Nat) (ih : Heap Nat) : C (Heap Nat) := do
  let lo ← M.browptr.get irow ih
  let hi ← M.browptr.get (irow + 1) ih
  let r ← forRange lo hi (fun j (s : Bool × Heap Nat) =>
    if s.1 then .ok s else do
      let c ← M.bcolind.get j s.2
      if c = irow then do
        let h ← M.diagind.set irow j s.2
        .ok (true, h)
      else .ok s) (false, ih)
  .ok r.2

/-- `if(nbrows > 0) browendptr.wrap(&browptr[1], l)`, `src/blockmatrices.ipp` lines 198-199, 254-255, 299-300, 484-485,
546-547, 589-590. -/
def wrapEnds (M : MatObj) (n l : Nat) (μ : Mem K) : C (MatObj × Mem K) :=
  if n > 0 then do
    let p ← M.browptr.addr 1
    let e ← M.browendptr.wrap p l μ.ih
    .ok ({ M with browendptr := e.1 }, { μ with ih := e.2 })
  else .ok (M, μ)

/-- Allocating the arrays for `n` rows and copying the structure, `src/blockmatrices.ipp` lines 179-199, 280-300, 466-485,
570-590. -/
def fillStructure (m n : Nat) (bcinds brptrs : List Nat) (gi : Nat → Nat → Nat) (gv : Nat → K) (M : MatObj)
    (μ : Mem K) : C (MatObj × Mem K) := do
  let nnz ← rd brptrs n
  let r ← allocArrays m n nnz gi gv M μ
  let ih ← forRange 0 (n + 1) (fun i ih => do
    let v ← rd brptrs i
    r.1.browptr.set i v ih) r.2.ih
  let ih ← forRange 0 nnz (fun i ih => do
    let v ← rd bcinds i
    r.1.bcolind.set i v ih) ih
  let ih ← forRange 0 n (findDiagRow r.1) ih
  wrapEnds r.1 n n { r.2 with ih := ih }

/-- `BSRMatrix::setStructure`, `src/blockmatrices.ipp` lines 271-302, and with `m = 1` that of the scalar class, lines
563-592. -/
def setStructure (m n : Nat) (bcinds brptrs : List Nat) (gi : Nat → Nat → Nat) (gv : Nat → K) (M : MatObj) (μ : Mem K) :
    C (MatObj × Mem K) := do
  let nnz ← rd brptrs n
  fillStructure m n bcinds brptrs gi gv { M with nbrows := n, nbstored := nnz, nnzb := nnz } μ

/-- The constructor of the scalar class from a structure, `src/blockmatrices.ipp` lines 459-489. -/
def csrOfStructure (n : Nat) (bcinds brptrs : List Nat) (gi : Nat → Nat → Nat) (gv : Nat → K) (μ : Mem K) :
    C (MatObj × Mem K) := do
  let r ← fillStructure 1 n bcinds brptrs gi gv { nbrows := n } μ
  let nnz ← rd brptrs n
  .ok ({ r.1 with nbstored := nnz, nnzb := nnz }, r.2)

/-- The constructor of the block class from a structure, `src/blockmatrices.ipp` lines 173-201. The number of rows used
throughout is `mat.nbrows`, which the default constructor of the member has set to 0, and never the argument
`n_brows`. -/
def bsrOfStructure (m _n_brows : Nat) (bcinds brptrs : List Nat) (gi : Nat → Nat → Nat) (gv : Nat → K) (μ : Mem K) :
    C (MatObj × Mem K) :=
  let M : MatObj := {}
  fillStructure m M.nbrows bcinds brptrs gi gv M μ

/-- The wrapping constructor of the block class, `src/blockmatrices.ipp` lines 203-209. -/
def bsrOfArrays (bs n : Nat) (brptrs bcinds values diaginds : Ptr) (μ : Mem K) : C MatObj := do
  let e ← if n > 0 then brptrs.add 1 else .ok none
  let nnz ← μ.ih.load brptrs n
  .ok (MatObj.ofPtrs brptrs bcinds values diaginds e n nnz nnz bs)

/-- The wrapping constructor of the scalar class, `src/blockmatrices.ipp` lines 491-504. The number of
non-zeros is read from `brptrs[nrows+1]`. -/
def csrOfArrays (n : Nat) (brptrs bcinds values diaginds : Ptr) (μ : Mem K) : C (MatObj × Mem K) := do
  let M : MatObj := {}
  let nnz ← μ.ih.load brptrs (n + 1)
  let a ← M.browptr.wrap brptrs (n + 1) μ.ih
  let b ← M.bcolind.wrap bcinds nnz a.2
  let c ← M.vals.wrap values nnz μ.vh
  let d ← M.diagind.wrap diaginds n b.2
  let p ← brptrs.add 1
  let e ← M.browendptr.wrap p n d.2
  .ok ({ browptr := a.1, bcolind := b.1, vals := c.1, diagind := d.1, browendptr := e.1, nbrows := n, nnzb := nnz,
         nbstored := nnz }, ⟨e.2, c.2⟩)

/-- The constructor of the block class from a raw matrix, `src/blockmatrices.ipp` lines 211-229; returns also the raw
matrix after the call. -/
def bsrOfRaw (bs : Nat) (R : RawMat) (μ : Mem K) : C (MatObj × RawMat × Mem K) := do
  let M : MatObj := {}
  let a ← M.browptr.takeControl R.browptr R.nbrows μ.ih
  let b ← M.bcolind.takeControl R.bcolind R.nbstored a.2
  let c ← M.vals.takeControl R.vals (R.nbstored * bs * bs) μ.vh
  let d ← M.diagind.takeControl R.diagind R.nbrows b.2
  let M : MatObj := { browptr := a.1, bcolind := b.1, vals := c.1, diagind := d.1, nbrows := R.nbrows, nnzb := R.nnzb,
                      nbstored := R.nbstored }
  if R.nbrows > 0 then do
    let p ← R.browptr.add 1
    let e ← M.browendptr.wrap p R.nbrows d.2
    .ok ({ M with browendptr := e.1 }, {}, ⟨e.2, c.2⟩)
  else .ok (M, {}, ⟨d.2, c.2⟩)

/-- The constructor of the scalar class from a raw matrix, `src/blockmatrices.ipp` lines 506-525; returns also the raw
matrix after the call. The arrays are wrapped twice with the same effect; they are not taken over. -/
def csrOfRaw (R : RawMat) (_μ : Mem K) : C (MatObj × RawMat) := do
  cassert (R.nnzb == R.nbstored)
  let p ← R.browptr.add 1
  .ok (MatObj.ofPtrs R.browptr R.bcolind R.vals R.diagind p R.nbrows R.nnzb R.nbstored 1, {})

/-- The loops that copy the arrays of `O`, `src/blockmatrices.ipp` lines 242-252 and 537-545. -/
def copyLoops (m : Nat) (O M : MatObj) (μ : Mem K) : C (Mem K) := do
  let ih ← forRange 0 (O.nbrows + 1) (fun i ih => do
    let v ← O.browptr.get i ih
    M.browptr.set i v ih) μ.ih
  let nnz ← M.browptr.get O.nbrows ih
  let μ ← forRange 0 nnz (fun i (μ : Mem K) => do
    let c ← O.bcolind.get i μ.ih
    let ih ← M.bcolind.set i c μ.ih
    let vh ← forRange 0 m (fun k vh => do
      let v ← O.vals.get (i * m + k) vh
      M.vals.set (i * m + k) v vh) μ.vh
    .ok ⟨ih, vh⟩) { μ with ih := ih }
  let ih ← forRange 0 O.nbrows (fun i ih => do
    let v ← O.diagind.get i ih
    M.diagind.set i v ih) μ.ih
  .ok { μ with ih := ih }

/-- The copy constructor of the block class, `src/blockmatrices.ipp` lines 231-259. -/
def bsrCopy (m : Nat) (gi : Nat → Nat → Nat) (gv : Nat → K) (O : MatObj) (μ : Mem K) : C (MatObj × Mem K) := do
  let nnz ← O.browptr.get O.nbrows μ.ih
  let r ← allocArrays m O.nbrows nnz gi gv { nbrows := O.nbrows } μ
  let μ ← copyLoops m O r.1 r.2
  let r ← wrapEnds r.1 O.nbrows O.nbrows μ
  .ok ({ r.1 with nbstored := O.nbstored, nnzb := O.nnzb }, r.2)

/-- The allocations of the copy constructor of the scalar class, `src/blockmatrices.ipp` lines 531-535: the lengths are those
of the other object's views. -/
def csrCopyAlloc (gi : Nat → Nat → Nat) (gv : Nat → K) (O : MatObj) (μ : Mem K) : C (MatObj × Mem K) := do
  let M : MatObj := { nbrows := O.nbrows }
  let a ← M.browptr.resize O.browptr.len (gi 0) μ.ih
  let b ← M.bcolind.resize O.bcolind.len (gi 1) a.2
  let c ← M.diagind.resize O.nbrows (gi 2) b.2
  let d ← M.vals.resize O.vals.len gv μ.vh
  .ok ({ M with browptr := a.1, bcolind := b.1, diagind := c.1, vals := d.1 }, ⟨c.2, d.2⟩)

/-- The copy constructor of the scalar class, `src/blockmatrices.ipp` lines 527-551. -/
def csrCopy (gi : Nat → Nat → Nat) (gv : Nat → K) (O : MatObj) (μ : Mem K) : C (MatObj × Mem K) := do
  let r ← csrCopyAlloc gi gv O μ
  let μ ← copyLoops 1 O r.1 r.2
  let r ← wrapEnds r.1 O.nbrows O.browendptr.len μ
  .ok ({ r.1 with nbstored := O.nbstored, nnzb := O.nnzb }, r.2)

/-! ### Raw matrices -/

/-- Body of the first loop of `copyRawBSRMatrix`, `src/rawsrmatrixutils.cpp` lines 137-139. -/
def copyEntry (m : Nat) (R N : RawMat) (i : Nat) (μ : Mem K) : C (Mem K) := do
  let c ← μ.ih.load R.bcolind i
  let ih ← μ.ih.store N.bcolind i c
  let vh ← forRange 0 m (fun j vh => do
    let v ← vh.load R.vals (i * m + j)
    vh.store N.vals (i * m + j) v) μ.vh
  .ok ⟨ih, vh⟩

/-- The row-end pointers, `src/rawsrmatrixutils.cpp` lines 150-156. -/
def copyRawEnds (R N : RawMat) : C RawMat :=
  match R.browendptr with
  | some _ =>
    if R.nbrows > 0 then do
      let p ← N.browptr.add 1
      .ok { N with browendptr := p }
    else .ok N
  | none => .error (.throw "std::runtime_error" "CRawBSRMatrix does not have row end pointers!")

/-- `copyRawBSRMatrix`, `src/rawsrmatrixutils.cpp` lines 120-159. `ord1`, `ord2`, `ord3` are the orders in which the
parallel loops run. -/
def copyRaw (bs : Nat) (gi : Nat → Nat → Nat) (gv : Nat → K) (ord1 ord2 ord3 : List Nat) (R : RawMat) (μ : Mem K) :
    C (RawMat × Mem K) := do
  let nnz ← μ.ih.load R.browptr R.nbrows
  let a := μ.ih.alloc (R.nbrows + 1) (gi 0)
  let b := a.2.alloc nnz (gi 1)
  let v := μ.vh.alloc (nnz * bs * bs) gv
  let d := b.2.alloc R.nbrows (gi 2)
  let N : RawMat := { browptr := a.1, bcolind := b.1, vals := v.1, diagind := d.1, nbrows := R.nbrows, nnzb := R.nnzb,
                      nbstored := R.nbstored }
  let μ ← parFor R.nbstored ord1 (copyEntry (bs * bs) R N) ⟨d.2, v.2⟩
  let ih ← parFor (R.nbrows + 1) ord2 (fun i ih => do
    let x ← ih.load R.browptr i
    ih.store N.browptr i x) μ.ih
  let ih ← parFor R.nbrows ord3 (fun i ih => do
    let x ← ih.load R.diagind i
    ih.store N.diagind i x) ih
  let N ← copyRawEnds R N
  .ok (N, { μ with ih := ih })

/-- `alignedDestroyRawBSRMatrix`, `src/rawsrmatrixutils.cpp` lines 165-174. -/
def destroyRaw (R : RawMat) (μ : Mem K) : C (Mem K) := do
  let ih ← μ.ih.free R.browptr
  let ih ← ih.free R.bcolind
  let ih ← ih.free R.diagind
  let vh ← μ.vh.free R.vals
  if R.nnzb ≠ R.nbstored then do
    let ih ← ih.free R.browendptr
    .ok ⟨ih, vh⟩
  else .ok ⟨ih, vh⟩

/-! ### Triangular views -/

/-- One iteration of the loop of `getLowerTriangularView`, `src/rawsrmatrixutils.cpp` lines 190-195: index memory and number of blocks. -/
def lowerRawStep (R L : RawMat) (irow : Nat) (s : Heap Nat × Nat) : C (Heap Nat × Nat) := do
  let lo ← s.1.load R.browptr irow
  let ih ← s.1.store L.browptr irow lo
  let d ← ih.load R.diagind irow
  let ih ← ih.store L.browendptr irow (d + 1)
  .ok (ih, s.2 + (d - lo + 1))

/-- `getLowerTriangularView` of a raw matrix, `src/rawsrmatrixutils.cpp` lines 178-203. `gi`: contents of the new memory. -/
def lowerRaw (gi : Nat → Nat → Nat) (R : RawMat) (μ : Mem K) : C (RawMat × Mem K) := do
  let p := μ.ih.alloc R.nbrows (gi 0)
  let e := p.2.alloc R.nbrows (gi 1)
  let L := { R with browptr := p.1, browendptr := e.1 }
  let s ← forRange 0 R.nbrows (lowerRawStep R L) (e.2, 0)
  .ok ({ L with nnzb := s.2 }, { μ with ih := s.1 })

/-- One iteration of the loop of `getUpperTriangularView`, `src/rawsrmatrixutils.cpp` lines 223-228. -/
def upperRawStep (R U : RawMat) (irow : Nat) (s : Heap Nat × Nat) : C (Heap Nat × Nat) := do
  let d ← s.1.load R.diagind irow
  let ih ← s.1.store U.browptr irow d
  let hi ← ih.load R.browendptr irow
  let ih ← ih.store U.browendptr irow hi
  .ok (ih, s.2 + (hi - d))

/-- The assertion on the last row, `src/rawsrmatrixutils.cpp` lines 210 and 235. -/
def rawLastRowAssert (R : RawMat) (ih : Heap Nat) : C Unit := do
  let e ← ih.load R.browendptr (R.nbrows - 1)
  let d ← ih.load R.diagind (R.nbrows - 1)
  cassert (e == d + 1)

/-- The debug loop of `getUpperTriangularView`, `src/rawsrmatrixutils.cpp` lines 237-243. -/
def rawUpperDebug (U : RawMat) (ih : Heap Nat) : C Unit :=
  forRange 0 U.nbrows (fun irow _ => do
    let lo ← ih.load U.browptr irow
    let hi ← ih.load U.browendptr irow
    forRange lo hi (fun jj _ => do
      let c ← ih.load U.bcolind jj
      let d ← ih.load U.diagind irow
      cassert (decide (c > irow) || d == jj)) ()) ()

/-- `getUpperTriangularView` of a raw matrix, `src/rawsrmatrixutils.cpp` lines 207-246. -/
def upperRaw (gi : Nat → Nat → Nat) (R : RawMat) (μ : Mem K) : C (RawMat × Mem K) := do
  rawLastRowAssert R μ.ih
  let p := μ.ih.alloc R.nbrows (gi 0)
  let e := p.2.alloc R.nbrows (gi 1)
  let U := { R with browptr := p.1, browendptr := e.1 }
  let s ← forRange 0 R.nbrows (upperRawStep R U) (e.2, 0)
  let U := { U with nnzb := s.2 }
  rawLastRowAssert U s.1
  rawUpperDebug U s.1
  .ok (U, { μ with ih := s.1 })

/-- One iteration of the loop of `getLowerTriangularView` of a storage object, `src/rawsrmatrixutils.cpp` lines 262-267. -/
def lowerStorStep (M : MatObj) (lrowptr lrowendptr : AV) (irow : Nat) (s : Heap Nat × Nat) : C (Heap Nat × Nat) := do
  let lo ← M.browptr.get irow s.1
  let ih ← lrowptr.set irow lo s.1
  let d ← M.diagind.get irow ih
  let ih ← lrowendptr.set irow (d + 1) ih
  .ok (ih, s.2 + (d - lo + 1))

/-- `getLowerTriangularView` of a storage object, `src/rawsrmatrixutils.cpp` lines 250-276. -/
def lowerStor (gi : Nat → Nat → Nat) (M : MatObj) (μ : Mem K) : C (MatObj × Mem K) := do
  let c ← M.bcolind.addr 0
  let d ← M.diagind.addr 0
  let v ← M.vals.addr 0
  let p := AV.ofSize M.nbrows (gi 0) μ.ih
  let e := AV.ofSize M.nbrows (gi 1) p.2
  let s ← forRange 0 M.nbrows (lowerStorStep M p.1 e.1) (e.2, 0)
  .ok ({ browptr := p.1.moveToConst.1, bcolind := AV.ofWrap c M.bcolind.len, vals := AV.ofWrap v M.vals.len,
         diagind := AV.ofWrap d M.diagind.len, browendptr := e.1.moveToConst.1,
         nbrows := M.nbrows, nnzb := s.2, nbstored := M.nbstored }, { μ with ih := s.1 })

/-- One iteration of the loop of `getUpperTriangularView` of a storage object, `src/rawsrmatrixutils.cpp` lines 292-297. -/
def upperStorStep (M : MatObj) (urowptr urowendptr : AV) (irow : Nat) (s : Heap Nat × Nat) : C (Heap Nat × Nat) := do
  let d ← M.diagind.get irow s.1
  let ih ← urowptr.set irow d s.1
  let hi ← M.browendptr.get irow ih
  let ih ← urowendptr.set irow hi ih
  .ok (ih, s.2 + (hi - d))

/-- The assertion on the last row, `src/rawsrmatrixutils.cpp` lines 282 and 305. -/
def storLastRowAssert (M : MatObj) (ih : Heap Nat) : C Unit := do
  let e ← M.browendptr.get (M.nbrows - 1) ih
  let d ← M.diagind.get (M.nbrows - 1) ih
  cassert (e == d + 1)

/-- The debug loop of `getUpperTriangularView` of a storage object, `src/rawsrmatrixutils.cpp` lines 307-311. -/
def storUpperDebug (U : MatObj) (ih : Heap Nat) : C Unit :=
  forRange 0 U.nbrows (fun irow _ => do
    let lo ← U.browptr.get irow ih
    let hi ← U.browendptr.get irow ih
    forRange lo hi (fun jj _ => do
      let c ← U.bcolind.get jj ih
      let d ← U.diagind.get irow ih
      cassert (decide (c > irow) || d == jj)) ()) ()

/-- `getUpperTriangularView` of a storage object, `src/rawsrmatrixutils.cpp` lines 278-314. -/
def upperStor (gi : Nat → Nat → Nat) (M : MatObj) (μ : Mem K) : C (MatObj × Mem K) := do
  storLastRowAssert M μ.ih
  let c ← M.bcolind.addr 0
  let d ← M.diagind.addr 0
  let v ← M.vals.addr 0
  let p := AV.ofSize M.nbrows (gi 0) μ.ih
  let e := AV.ofSize M.nbrows (gi 1) p.2
  let s ← forRange 0 M.nbrows (upperStorStep M p.1 e.1) (e.2, 0)
  let U : MatObj := { browptr := p.1.moveToConst.1, bcolind := AV.ofWrap c M.bcolind.len, vals := AV.ofWrap v M.vals.len,
                      diagind := AV.ofWrap d M.diagind.len, browendptr := e.1.moveToConst.1,
                      nbrows := M.nbrows, nnzb := s.2, nbstored := M.nbstored }
  storLastRowAssert U s.1
  storUpperDebug U s.1
  .ok (U, { μ with ih := s.1 })

/-- `alignedDestroyRawBSRMatrixTriangularView`, `src/rawsrmatrixutils.cpp` lines 321-326. -/
def destroyRawView (R : RawMat) (μ : Mem K) : C (Mem K) := do
  let ih ← μ.ih.free R.browptr
  let ih ← ih.free R.browendptr
  .ok { μ with ih := ih }

end Blasted
