import Verif.Base.SR
import Mathlib.Algebra.Ring.Defs

/-!
# Matrix-vector products: transcription of `src/blas/matvecs.cpp`

Parallel loops take the list `order` of the iterations in the order in which they execute.
Nothing is assumed about the arithmetic operations; `MatVec/Props` instantiates them with those of a ring.
-/

namespace Blasted

variable {K : Type _} [Zero K] [Add K] [Mul K]

/-- Body of the row loop of `BLAS_CSR::matrix_apply`, `src/blas/matvecs.cpp` lines 84-89. -/
def csrApplyRow (A : SR K) (x : List K) (irow : Nat) (y : List K) : C (List K) := do
  let y ← wr y irow 0
  let lo ← rd A.browptr irow
  let hi ← rd A.browptr (irow + 1)
  forRange lo hi (fun jj y => do
    let v ← rd A.vals jj
    let c ← rd A.bcolind jj
    let xv ← rd x c
    let o ← rd y irow
    wr y irow (o + v * xv)) y

/-- `BLAS_CSR::matrix_apply`, `src/blas/matvecs.cpp` lines 77-91, called by `CSRMatrixView::apply`
and `BSRMatrix<.,.,1>::apply` (`src/blockmatrices.ipp` 150-155, 697-702). -/
def csrApply (order : List Nat) (A : SR K) (x y : List K) : C (List K) :=
  parFor A.nbrows order (csrApplyRow A x) y

/-- Body of the row loop of `BLAS_CSR::gemv3`, `src/blas/matvecs.cpp` lines 101-106. `yy = none`
means that the caller passed the same array for `yy` and `zz`. -/
def csrGemv3Row (A : SR K) (a : K) (x : List K) (b : K) (yy : Option (List K)) (irow : Nat)
    (zz : List K) : C (List K) := do
  let yv ← rd (yy.getD zz) irow
  let zz ← wr zz irow (b * yv)
  let lo ← rd A.browptr irow
  let hi ← rd A.browptr (irow + 1)
  forRange lo hi (fun jj zz => do
    let v ← rd A.vals jj
    let c ← rd A.bcolind jj
    let xv ← rd x c
    let o ← rd zz irow
    wr zz irow (o + a * v * xv)) zz

/-- `BLAS_CSR::gemv3`, `src/blas/matvecs.cpp` lines 93-108. -/
def csrGemv3 (order : List Nat) (A : SR K) (a : K) (x : List K) (b : K) (yy : Option (List K))
    (zz : List K) : C (List K) :=
  parFor A.nbrows order (csrGemv3Row A a x b yy) zz

/-- Component `a` of `data[jj] * x[jcol]` (`coef` the identity) or of `a * data[jj] * x[jcol]` (`coef` the multiplication by `a`), where `data` and `x` are the value array and the
vector reinterpreted as arrays of blocks and segments (`src/blas/matvecs.cpp` lines 29-33, 45, 72).
Eigen's product of a fixed-size block with a segment is the sum over `b`. -/
def blkDot (stor : Stor) (bs : Nat) (coef : K → K) (vals : List K) (jj : Nat) (x : List K)
    (jcol a : Nat) : C K :=
  forRange 0 bs (fun b s => do
    let t ← (do
      let v ← rd vals (jj * (bs * bs) + stor.off bs a b)
      let xv ← rd x (jcol * bs + b)
      .ok (coef v * xv))
    .ok (s + t)) 0

/-- Body of the row loop of `BLAS_BSR::matrix_apply`, `src/blas/matvecs.cpp` lines 38-46.
The segment assignments of Eigen are done component by component. -/
def bsrApplyRow (stor : Stor) (bs : Nat) (A : SR K) (x : List K) (irow : Nat) (y : List K) :
    C (List K) := do
  let y ← forRange 0 bs (fun a y => wr y (irow * bs + a) 0) y
  let lo ← rd A.browptr irow
  let hi ← rd A.browptr (irow + 1)
  forRange lo hi (fun jj y => do
    let jcol ← rd A.bcolind jj
    forRange 0 bs (fun a y => do
      let p ← blkDot stor bs id A.vals jj x jcol a
      let o ← rd y (irow * bs + a)
      wr y (irow * bs + a) (o + p)) y) y

/-- `BLAS_BSR::matrix_apply`, `src/blas/matvecs.cpp` lines 24-48. -/
def bsrApply (stor : Stor) (bs : Nat) (order : List Nat) (A : SR K) (x y : List K) : C (List K) :=
  parFor A.nbrows order (bsrApplyRow stor bs A x) y

/-- Body of the row loop of `BLAS_BSR::gemv3`, `src/blas/matvecs.cpp` lines 66-73. -/
def bsrGemv3Row (stor : Stor) (bs : Nat) (A : SR K) (a : K) (x : List K) (b : K)
    (yy : Option (List K)) (irow : Nat) (zz : List K) : C (List K) := do
  let zz ← forRange 0 bs (fun k zz => do
    let yv ← rd (yy.getD zz) (irow * bs + k)
    wr zz (irow * bs + k) (b * yv)) zz
  let lo ← rd A.browptr irow
  let hi ← rd A.browptr (irow + 1)
  forRange lo hi (fun jj zz => do
    let jcol ← rd A.bcolind jj
    forRange 0 bs (fun k zz => do
      let p ← blkDot stor bs (a * ·) A.vals jj x jcol k
      let o ← rd zz (irow * bs + k)
      wr zz (irow * bs + k) (o + p)) zz) zz

/-- `BLAS_BSR::gemv3`, `src/blas/matvecs.cpp` lines 50-75. -/
def bsrGemv3 (stor : Stor) (bs : Nat) (order : List Nat) (A : SR K) (a : K) (x : List K) (b : K)
    (yy : Option (List K)) (zz : List K) : C (List K) :=
  parFor A.nbrows order (bsrGemv3Row stor bs A a x b yy) zz

/-! ### Statement-level interleavings

The row loops above are `omp parallel for`: in reality the individual assignments to
`yy[irow]` of different threads interleave. `csrStmt` is one assignment; a schedule is
any sequence of assignments in which the assignments of each row appear in program order. -/

/-- One assignment statement of the row loop of `BLAS_CSR::gemv3` for row `i`:
`none` is line 101, `some jj` is line 105 for that `jj`. (`matrix_apply`, lines 84 and 88, is
the case where the first statement assigns 0 and `a` is 1.) -/
def csrGemv3Stmt (A : SR K) (a : K) (x : List K) (b : K) (yy : Option (List K))
    (e : Nat × Option Nat) (zz : List K) : C (List K) :=
  match e with
  | (i, none) => do
    let yv ← rd (yy.getD zz) i
    wr zz i (b * yv)
  | (i, some jj) => do
    let v ← rd A.vals jj
    let c ← rd A.bcolind jj
    let xv ← rd x c
    let o ← rd zz i
    wr zz i (o + a * v * xv)

/-- One assignment statement of the row loop of `BLAS_CSR::matrix_apply`:
`none` is line 84, `some jj` is line 88. -/
def csrApplyStmt (A : SR K) (x : List K) (e : Nat × Option Nat) (y : List K) : C (List K) :=
  match e with
  | (i, none) => wr y i 0
  | (i, some jj) => do
    let v ← rd A.vals jj
    let c ← rd A.bcolind jj
    let xv ← rd x c
    let o ← rd y i
    wr y i (o + v * xv)

/-- The statements of row `i` in program order: line 84 (101), then line 88 (105) for each `jj`. -/
def rowStmts (A : SR K) (i : Nat) : List (Option Nat) :=
  none :: (List.range' A.browptr⟦i⟧ (A.browptr⟦i + 1⟧ - A.browptr⟦i⟧)).map some

/-- `sched` is an interleaving of the rows' statement sequences. -/
def IsInterleaving (A : SR K) (sched : List (Nat × Option Nat)) : Prop :=
  (∀ e ∈ sched, e.1 < A.nbrows) ∧
  ∀ i < A.nbrows, ((sched.filter (fun e => e.1 == i)).map Prod.snd) = rowStmts A i

/-- Sparse-column storage, `include/scmatrixdefs.hpp` lines 15-31, 36-52. `diagind` may be -1. -/
structure SC (V : Type _) where
  bcolptr : List Nat
  browind : List Nat
  vals : List V
  diagind : List Int
  nbcols : Nat
deriving Repr, DecidableEq

/-- Line 124 of `bcsc_gemv3` for one `jb`; `yy = none` if `yy` and `zz` are the same array. -/
def bcscInit (b : K) (yy : Option (List K)) (jb : Nat) (zz : List K) : C (List K) := do
  let yv ← rd (yy.getD zz) jb
  wr zz jb (b * yv)

/-- The atomic update of lines 132-138 of `bcsc_gemv3` for column `jcol`, entry `ii`, component `kb`. -/
def bcscAdd (stor : Stor) (bs : Nat) (A : SC K) (a : K) (x : List K) (e : Nat × Nat × Nat)
    (zz : List K) : C (List K) := do
  let irow ← rd A.browind e.2.1
  let p ← blkDot stor bs (a * ·) A.vals e.2.1 x e.1 e.2.2
  let o ← rd zz (irow * bs + e.2.2)
  wr zz (irow * bs + e.2.2) (o + p)

/-- The atomic updates `(jcol, ii, kb)` performed by the second loop of `bcsc_gemv3`
(lines 127-135), in program order. -/
def bcscUpdates (bs : Nat) (A : SC K) : List (Nat × Nat × Nat) :=
  (List.range A.nbcols).flatMap fun jcol =>
    (List.range' A.bcolptr⟦jcol⟧ (A.bcolptr⟦jcol + 1⟧ - A.bcolptr⟦jcol⟧)).flatMap fun ii =>
      (List.range bs).map fun kb => (jcol, ii, kb)

/-- `bcsc_gemv3`, `src/blas/matvecs.cpp` lines 110-142: first loop in order `ord1` (implicit barrier
after it), then the atomic updates in order `ord2`. -/
def bcscGemv3 (stor : Stor) (bs : Nat) (ord1 : List Nat) (ord2 : List (Nat × Nat × Nat)) (A : SC K)
    (a : K) (x : List K) (b : K) (yy : Option (List K)) (zz : List K) : C (List K) := do
  let zz ← parFor (A.nbcols * bs) ord1 (bcscInit b yy) zz
  forList ord2 (bcscAdd stor bs A a x) zz

end Blasted
