import Verif.Transpose.Model

/-!
# Sparse approximate inverses

Transcription of `src/sai.cpp`: the assembly patterns of the left sparse approximate inverse (SAI) and the
left incomplete sparse approximate inverse (ISAI), and the computation of the approximate inverse from them.

The debug blocks (`#ifdef DEBUG`) and the assertions of the pattern functions are considered active. The
assertion in `gather_lhs_matrix` is controlled by a parameter, because it decides what the function does.
-/

namespace Blasted

variable {V K : Type _}

/-- `LeftSAIPattern`, `src/sai.hpp` lines 16-39. -/
structure SaiPattern where
  bpos : List Nat
  browind : List Int
  bcolptr : List Nat
  sairowptr : List Nat
  nVars : List Nat
  nEqns : List Nat
  localCentralRow : List Int
deriving Repr, DecidableEq

/-- `std::set<index>::insert`; the set is the list of its elements in increasing order, which is the order of
iteration from `begin()` to `end()`. -/
def setInsert (x : Nat) : List Nat → List Nat
  | [] => [x]
  | a :: l => if x < a then x :: a :: l else if x = a then a :: l else a :: setInsert x l

/-- Loop state of step 1 of `left_SAI_pattern` and of the size computation of `left_incomplete_SAI_pattern`. -/
structure SaiSizes where
  nVars : List Nat
  nEqns : List Nat
  sairowptr : List Nat
  totalcoeffs : Nat

/-- Body of the loop of step 1 of `left_SAI_pattern`, `src/sai.cpp` lines 30-47. -/
def saiSizeRow (A : SR V) (irow : Nat) (s : SaiSizes) : C SaiSizes := do
  let lo ← rd A.browptr irow
  let hi ← rd A.browendptr irow
  let nVars ← wr s.nVars irow (hi - lo)
  let ct ← forRange lo hi (fun jj (st : List Nat × Nat) => do
    let col ← rd A.bcolind jj
    let b ← rd A.browptr col
    let e ← rd A.browendptr col
    forRange b e (fun kk (st : List Nat × Nat) => do
      let j ← rd A.bcolind kk
      .ok (setInsert j st.1, st.2 + 1)) st) ([], s.totalcoeffs)
  let nEqns ← wr s.nEqns irow ct.1.length
  let v ← rd nVars irow
  let sairowptr ← wr s.sairowptr (irow + 1) v
  .ok ⟨nVars, nEqns, sairowptr, ct.2⟩

/-- Lines 53-56 of `src/sai.cpp`: the debug check of the row pointers. -/
def saiCheckPtr (A : SR V) (sairowptr : List Nat) (totalvars : Nat) : C Unit :=
  forRange 0 A.nbrows (fun irow u => do
    let p ← rd sairowptr irow
    cassert (decide (p < totalvars))
    .ok u) ()

/-- Body of the loop of step 2 of `left_SAI_pattern`, `src/sai.cpp` lines 64-77. -/
def saiCountRow (A : SR V) (sairowptr : List Nat) (irow : Nat) (bcolptr : List Nat) : C (List Nat) := do
  let lo ← rd A.browptr irow
  let hi ← rd A.browendptr irow
  forRange lo hi (fun jj bcolptr => do
    let col ← rd A.bcolind jj
    let b ← rd A.browptr col
    let e ← rd A.browendptr col
    forRange b e (fun _ bcolptr => do
      let p ← rd sairowptr irow
      let q ← rd sairowptr (irow + 1)
      cassert (decide (p + (jj - lo) < q))
      let v ← rd bcolptr (p + (jj - lo) + 1)
      wr bcolptr (p + (jj - lo) + 1) (v + 1)) bcolptr) bcolptr

/-- Lines 89-98 of `src/sai.cpp`: the constraints of the least-squares problem of one row. -/
def saiConstraints (A : SR V) (irow : Nat) : C (List Nat) := do
  let lo ← rd A.browptr irow
  let hi ← rd A.browendptr irow
  forRange lo hi (fun jj cs => do
    let col ← rd A.bcolind jj
    let b ← rd A.browptr col
    let e ← rd A.browendptr col
    forRange b e (fun kk cs => do
      let j ← rd A.bcolind kk
      .ok (setInsert j cs)) cs) []

/-- Lines 101-104 of `src/sai.cpp`: the constraint of the diagonal entry. -/
def saiCentral (nEqns : Nat) (constrvec : List Nat) (irow : Nat) (lcr : List Int) : C (List Int) :=
  forRange 0 nEqns (fun icons lcr => do
    let c ← rd constrvec icons
    if irow = c then wr lcr irow (icons : Int) else .ok lcr) lcr

/-- Lines 112-123 of `src/sai.cpp` for one `jj`: the local row of every entry of row `col` of the matrix. -/
def saiLocalRows (A : SR V) (constrvec : List Nat) (col : Nat) : C (List Int) := do
  let b ← rd A.browptr col
  let e ← rd A.browendptr col
  forRange 0 constrvec.length (fun i lr =>
    forRange b e (fun kk lr => do
      let c ← rd constrvec i
      let j ← rd A.bcolind kk
      if c = j then wr lr (kk - b) (i : Int) else .ok lr) lr) (List.replicate (e - b) (-1))

/-- Lines 126-135 of `src/sai.cpp`: the debug check of the local rows. -/
def saiCheckLocal (A : SR V) (nEqns irow : Nat) (localrowinds : List (List Int)) : C Unit := do
  let lo ← rd A.browptr irow
  let hi ← rd A.browendptr irow
  forRange lo hi (fun jj u => do
    let lr ← rd localrowinds (jj - lo)
    forRange 0 lr.length (fun i u => do
      let v ← rd lr i
      cassert (decide (0 ≤ v))
      cassert (decide (v < (nEqns : Int)))
      .ok u) u) ()

/-- Lines 143-155 of `src/sai.cpp`: positions and local row indices of one row's least-squares problem. The
state is `(bpos, browind)`. -/
def saiStoreRow (A : SR V) (sairowptr bcolptr : List Nat) (irow : Nat) (localrowinds : List (List Int))
    (s : List Nat × List Int) : C (List Nat × List Int) := do
  let lo ← rd A.browptr irow
  let hi ← rd A.browendptr irow
  forRange lo hi (fun jj s => do
    let col ← rd A.bcolind jj
    let b ← rd A.browptr col
    let e ← rd A.browendptr col
    forRange b e (fun kk (s : List Nat × List Int) => do
      let p ← rd sairowptr irow
      let q ← rd bcolptr (p + (jj - lo))
      let bpos ← wr s.1 (q + (kk - b)) kk
      let lr ← rd localrowinds (jj - lo)
      let v ← rd lr (kk - b)
      let browind ← wr s.2 (q + (kk - b)) v
      .ok (bpos, browind)) s) s

/-- Lines 158-168 of `src/sai.cpp`: the final debug check. -/
def saiCheckRow (A : SR V) (sairowptr bcolptr : List Nat) (nEqns irow : Nat) (s : List Nat × List Int) :
    C Unit := do
  let p ← rd sairowptr irow
  let q ← rd sairowptr (irow + 1)
  forRange p q (fun icol u => do
    let st ← rd bcolptr icol
    let en ← rd bcolptr (icol + 1)
    forRange st en (fun j u => do
      let pos ← rd s.1 j
      cassert (decide (pos < A.nbstored))
      let ri ← rd s.2 j
      cassert (decide (0 ≤ ri))
      cassert (decide (ri < (nEqns : Int)))
      .ok u) u) ()

/-- Loop state of step 3 of `left_SAI_pattern`. -/
structure SaiFill where
  localCentralRow : List Int
  bpos : List Nat
  browind : List Int

/-- Body of the loop of step 3 of `left_SAI_pattern`, `src/sai.cpp` lines 85-169. Simplification: each inner
vector of `localrowinds` is built before it is stored in the outer one. -/
def saiFillRow (A : SR V) (z : SaiSizes) (sairowptr bcolptr : List Nat) (irow : Nat) (s : SaiFill) :
    C SaiFill := do
  let constrvec ← saiConstraints A irow
  let ne ← rd z.nEqns irow
  cassert (constrvec.length == ne)
  let lcr ← saiCentral ne constrvec irow s.localCentralRow
  let lc ← rd lcr irow
  cassert (lc != -1)
  let nv ← rd z.nVars irow
  let lo ← rd A.browptr irow
  let hi ← rd A.browendptr irow
  let localrowinds ← forRange lo hi (fun jj lri => do
    let col ← rd A.bcolind jj
    let lr ← saiLocalRows A constrvec col
    wr lri (jj - lo) lr) (List.replicate nv [])
  saiCheckLocal A ne irow localrowinds
  let br ← saiStoreRow A sairowptr bcolptr irow localrowinds (s.bpos, s.browind)
  saiCheckRow A sairowptr bcolptr ne irow br
  .ok ⟨lcr, br.1, br.2⟩

/-- `left_SAI_pattern`, `src/sai.cpp` lines 12-172. -/
def leftSaiPattern (A : SR V) : C SaiPattern := do
  let n := A.nbrows
  let z ← forRange 0 n (saiSizeRow A)
    ⟨List.replicate n 0, List.replicate n 0, List.replicate (n + 1) 0, 0⟩
  let sairowptr ← inclusiveScan z.sairowptr
  let totalvars ← rd sairowptr n
  saiCheckPtr A sairowptr totalvars
  let cnt ← forRange 0 n (saiCountRow A sairowptr) (List.replicate (totalvars + 1) 0)
  let bcolptr ← inclusiveScan cnt
  let last ← rd sairowptr n
  let b ← rd bcolptr last
  cassert (b == z.totalcoeffs)
  let f ← forRange 0 n (saiFillRow A z sairowptr bcolptr)
    ⟨List.replicate n (-1), List.replicate z.totalcoeffs 0, List.replicate z.totalcoeffs 0⟩
  .ok ⟨f.bpos, f.browind, bcolptr, sairowptr, z.nVars, z.nEqns, f.localCentralRow⟩

/-! ### Incomplete SAI -/

/-- The loop nest over the entries `kk` of row `colind` and `ll` of row `irow` with equal columns, lines
203-209, 230-238 and 266-275 of `src/sai.cpp`, with the statement executed for each such pair as a parameter. -/
def isaiPairs {σ : Type _} (A : SR V) (irow colind : Nat) (act : Nat → Nat → σ → C σ) (s : σ) : C σ := do
  let b ← rd A.browptr colind
  let e ← rd A.browendptr colind
  forRange b e (fun kk s => do
    let lo ← rd A.browptr irow
    let hi ← rd A.browendptr irow
    forRange lo hi (fun ll s => do
      let cl ← rd A.bcolind ll
      let ck ← rd A.bcolind kk
      if cl = ck then act kk ll s else .ok s) s) s

/-- Body of the loop computing the sizes, `src/sai.cpp` lines 194-212. -/
def isaiSizeRow (A : SR V) (irow : Nat) (s : SaiSizes) : C SaiSizes := do
  let lo ← rd A.browptr irow
  let hi ← rd A.browendptr irow
  let nVars ← wr s.nVars irow (hi - lo)
  let v ← rd nVars irow
  let nEqns ← wr s.nEqns irow v
  let sairowptr ← wr s.sairowptr (irow + 1) v
  let tot ← forRange lo hi (fun jj t => do
    let colind ← rd A.bcolind jj
    isaiPairs A irow colind (fun _ _ t => .ok (t + 1)) t) s.totalcoeffs
  .ok ⟨nVars, nEqns, sairowptr, tot⟩

/-- Body of the loop computing the column pointers, `src/sai.cpp` lines 222-247. The state is `(bcolptr,
localCentralRow)`. -/
def isaiCountRow (A : SR V) (sairowptr nVars : List Nat) (irow : Nat) (s : List Nat × List Int) :
    C (List Nat × List Int) := do
  let startcol ← rd sairowptr irow
  let lo ← rd A.browptr irow
  let hi ← rd A.browendptr irow
  let s ← forRange lo hi (fun jj (s : List Nat × List Int) => do
    let colind ← rd A.bcolind jj
    let bcolptr ← isaiPairs A irow colind (fun _ _ bcolptr => do
      let q ← rd sairowptr (irow + 1)
      cassert (decide (startcol + (jj - lo) < q))
      let v ← rd bcolptr (startcol + (jj - lo) + 1)
      wr bcolptr (startcol + (jj - lo) + 1) (v + 1)) s.1
    let lcr ← if colind = irow then wr s.2 irow (((jj - lo : Nat)) : Int) else .ok s.2
    .ok (bcolptr, lcr)) s
  let lc ← rd s.2 irow
  cassert (decide (0 ≤ lc))
  let nv ← rd nVars irow
  cassert (decide (lc < (nv : Int)))
  .ok s

/-- Body of the loop computing the pattern, `src/sai.cpp` lines 254-278. The state is `(bpos, browind)`. -/
def isaiFillRow (A : SR V) (sairowptr bcolptr : List Nat) (irow : Nat) (s : List Nat × List Int) :
    C (List Nat × List Int) := do
  let startcol ← rd sairowptr irow
  let lo ← rd A.browptr irow
  let hi ← rd A.browendptr irow
  forRange lo hi (fun jj (s : List Nat × List Int) => do
    let colind ← rd A.bcolind jj
    let saicolpos ← rd bcolptr (startcol + (jj - lo))
    let r ← isaiPairs A irow colind (fun kk ll (r : (List Nat × List Int) × Nat) => do
      let bpos ← wr r.1.1 (saicolpos + r.2) kk
      let browind ← wr r.1.2 (saicolpos + r.2) (((ll - lo : Nat)) : Int)
      .ok ((bpos, browind), r.2 + 1)) (s, 0)
    .ok r.1) s

/-- `left_incomplete_SAI_pattern`, `src/sai.cpp` lines 176-281. `std::vector::resize` of the empty vectors
fills with zeros. -/
def leftIsaiPattern (A : SR V) : C SaiPattern := do
  let n := A.nbrows
  let z ← forRange 0 n (isaiSizeRow A)
    ⟨List.replicate n 0, List.replicate n 0, List.replicate (n + 1) 0, 0⟩
  let sairowptr ← inclusiveScan z.sairowptr
  let totalvars ← rd sairowptr n
  let cl ← forRange 0 n (isaiCountRow A sairowptr z.nVars)
    (List.replicate (totalvars + 1) 0, List.replicate n (-1))
  let bcolptr ← inclusiveScan cl.1
  let b ← rd bcolptr totalvars
  cassert (b == z.totalcoeffs)
  let f ← forRange 0 n (isaiFillRow A sairowptr bcolptr)
    (List.replicate z.totalcoeffs 0, List.replicate z.totalcoeffs 0)
  .ok ⟨f.1, f.2, bcolptr, sairowptr, z.nVars, z.nEqns, cl.2⟩

/-! ### Computing the approximate inverse -/

/-- `LMatrix`, `src/sai.cpp` lines 287-289: a dynamic column-major Eigen matrix. -/
structure LMat (K : Type _) where
  rows : Nat
  cols : Nat
  data : List K
deriving Repr, DecidableEq

/-- `LMatrix::Zero(r, c)`. -/
def LMat.zero [Zero K] (r c : Nat) : LMat K := ⟨r, c, List.replicate (r * c) 0⟩

/-- `m(r, c)` as an rvalue. -/
def LMat.get (m : LMat K) (r c : Nat) : C K :=
  if r < m.rows ∧ c < m.cols then rd m.data (c * m.rows + r) else .error .ub

/-- `m(r, c) = v`. -/
def LMat.put (m : LMat K) (r c : Nat) (v : K) : C (LMat K) := do
  if r < m.rows ∧ c < m.cols then
    let d ← wr m.data (c * m.rows + r) v
    .ok ⟨m.rows, m.cols, d⟩
  else .error .ub

/-- A signed index used to address an array: undefined behaviour if negative. -/
def natIdx (z : Int) : C Nat := if 0 ≤ z then .ok z.toNat else .error .ub

/-- Body of the loop of `gather_lhs_matrix`, `src/sai.cpp` lines 347-365: one block-column of the local matrix.
`asserts`: whether assertions are compiled in. -/
def gatherCol [Zero K] (asserts : Bool) (bs : Nat) (stor : Stor) (A : SR K) (sp : SaiPattern) (row jcol : Nat)
    (lhs : LMat K) : C (LMat K) := do
  let p ← rd sp.sairowptr row
  let start ← rd sp.bcolptr (p + jcol)
  let stop ← rd sp.bcolptr (p + jcol + 1)
  let ne ← rd sp.nEqns row
  cassert (!asserts || stop - start == ne)
  forRange start stop (fun ii lhs => do
    let ri ← rd sp.browind ii
    let lhsrow ← natIdx ri
    let lhspos ← rd sp.bpos ii
    forRange 0 bs (fun ib lhs =>
      forRange 0 bs (fun jb lhs => do
        let v ← rd A.vals (lhspos * (bs * bs) + stor.off bs jb ib)
        lhs.put (lhsrow * bs + ib) (jcol * bs + jb) v) lhs) lhs) lhs

/-- `gather_lhs_matrix`, `src/sai.cpp` lines 337-368. -/
def gatherLhs [Zero K] (asserts : Bool) (bs : Nat) (stor : Stor) (A : SR K) (sp : SaiPattern) (row : Nat) :
    C (LMat K) := do
  let ne ← rd sp.nEqns row
  let nv ← rd sp.nVars row
  forRange 0 nv (gatherCol asserts bs stor A sp row) (LMat.zero (ne * bs) (nv * bs))

/-- `scatter_solution`, `src/sai.cpp` lines 370-387. `S` gives the structure of the approximate inverse,
`vals` are its values. -/
def scatterSolution (asserts : Bool) (bs : Nat) (stor : Stor) (sol : LMat K) (sp : SaiPattern) (row : Nat)
    (S : SR K) (vals : List K) : C (List K) := do
  let nv ← rd sp.nVars row
  let lo ← rd S.browptr row
  let hi ← rd S.browendptr row
  cassert (!asserts || nv == hi - lo)
  forRange lo hi (fun jj vals =>
    forRange 0 bs (fun i vals =>
      forRange 0 bs (fun j vals => do
        let v ← sol.get ((jj - lo) * bs + j) i
        wr vals (jj * (bs * bs) + stor.off bs i j) v) vals) vals) vals

/-- Lines 313-322 of `src/sai.cpp`: the local problem of one row and its solution. `qr`, `lu`: Eigen's
`colPivHouseholderQr().solve` and `partialPivLu().solve`. -/
def saiSolve [Zero K] [One K] (asserts : Bool) (bs : Nat) (stor : Stor) (qr lu : LMat K → LMat K → C (LMat K))
    (fullsai : Bool) (A : SR K) (sp : SaiPattern) (irow : Nat) : C (LMat K) := do
  let lhs ← gatherLhs asserts bs stor A sp irow
  let rhs ← forRange 0 bs (fun i (rhs : LMat K) => do
    let lc ← rd sp.localCentralRow irow
    let lc ← natIdx lc
    rhs.put (lc * bs + i) i 1) (LMat.zero lhs.rows bs)
  if fullsai then qr lhs rhs else lu lhs rhs

/-- Body of the loop of `compute_SAI`, `src/sai.cpp` lines 312-325. -/
def saiRow [Zero K] [One K] (asserts : Bool) (bs : Nat) (stor : Stor) (qr lu : LMat K → LMat K → C (LMat K))
    (fullsai : Bool) (A : SR K) (sp : SaiPattern) (S : SR K) (irow : Nat) (vals : List K) : C (List K) := do
  let ans ← saiSolve asserts bs stor qr lu fullsai A sp irow
  scatterSolution asserts bs stor ans sp irow S vals

/-- `compute_SAI`, `src/sai.cpp` lines 301-326: a parallel loop over the rows, here in the order `ord`. The
iterations read only the matrix and the pattern and write only `sai.vals`. -/
def computeSai [Zero K] [One K] (asserts : Bool) (bs : Nat) (stor : Stor) (qr lu : LMat K → LMat K → C (LMat K))
    (fullsai : Bool) (A : SR K) (sp : SaiPattern) (S : SR K) (ord : List Nat) : C (SR K) := do
  cassert (!asserts || A.nbrows == S.nbrows)
  cassert (!asserts || A.nnzb == S.nnzb)
  let vals ← parFor A.nbrows ord (saiRow asserts bs stor qr lu fullsai A sp S) S.vals
  .ok { S with vals := vals }

end Blasted
