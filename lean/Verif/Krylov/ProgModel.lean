import Verif.Krylov.Model
import Verif.Factory.Model
import Verif.Coo.MMModel
import Verif.ILU.Model
import Verif.Solve.Model

/-!
# The solve program

`tests/testsolve.cpp`, `tests/runsolvetest.cpp`: a matrix and a right-hand side are read from files, the requested preconditioner is created by the factory and computed, the system is
solved by the requested solver, and the result is compared with a reference solution. Reading the command line, printing and time measurement are not modelled; the arithmetic is exact.
-/

namespace Blasted

variable {K : Type}

/-- `Params`, `tests/testsolve.hpp` lines 14-35. Simplification: the number of vectors between restarts is a natural number. -/
structure ProgParams (K : Type) where
  solvertype : String
  precontype : String
  factinittype : String
  applyinittype : String
  mattype : String
  blocksize : Int
  storageorder : String
  testtol : K
  tol : K
  maxiter : Int
  solver_restart : Nat
  threadchunksize : Int
  nbuildsweeps : Int
  napplysweeps : Int
  mat_file : String
  x_file : String
  b_file : String

/-- What the program finds in its surroundings: the files; the conversion of words to numbers, the sorting algorithm and a bound on the number of lines (`num`, `srt`, `fuel`); the contents of the
arrays allocated by the two conversions of the matrix; the value of the member `compute_precinfo` of the settings, which the program does not set; the square root and the orders of the
loops of the solver; and the preconditioner objects: `object p A` is the behaviour of an object of class and configuration `p` for the matrix `A` after its `compute`. -/
structure SolveProgEnv (K : Type) where
  files : String → Option (List Char)
  num : List Char → Option K
  srt : (Entry K → Int) → List (Entry K) → List (Entry K)
  gi : Nat → Nat
  gd : Nat → Int
  gv : Nat → K
  gi2 : Nat → Nat
  gd2 : Nat → Int
  gv2 : Nat → K
  fuel : Nat
  info : Bool
  sqrt : K → K
  sched : SolveSched
  object : Prec → SR K → C (PrecFun K)

/-- The settings given to the factory, `tests/testsolve.cpp` lines 71-84. -/
def progSettings (bs : Nat) (info : Bool) (p : ProgParams K) : C Settings := do
  let t ← solverTypeFromString p.precontype
  let f ← getFactInitFromString p.factinittype
  let a ← getApplyInitFromString p.applyinittype
  .ok { prectype := t, bs := bs, blockstorage := if p.storageorder = "rowmajor" then .rowMajor else .colMajor, relax := false,
        thread_chunk_size := p.threadchunksize, scale := false, nbuildsweeps := p.nbuildsweeps, napplysweeps := p.napplysweeps,
        fact_inittype := f, apply_inittype := a, compute_precinfo := info }

/-- The matrix object given to the solver, `tests/testsolve.cpp` lines 43-56. -/
def progView (bs : Nat) (order : String) (A : SR K) : MatView K :=
  if bs = 1 then .csr A else if order = "rowmajor" then .bsr .rowMajor bs A else .bsr .colMajor bs A

section
variable [Field K] [LinearOrder K]

/-- The ILU(0) objects that use no threads: `compute` of a new object, `src/solverops_ilu0.cpp` lines 358-368, and `apply`, lines 370-376 with 240-321. Simplification: the loops that
may be executed in any order are executed in ascending order; the inverse square root `isq` and the previous contents of the memory are parameters. Other objects are left out. -/
def seqIluObject (isq : K → K) (g : Nat → K) : Prec → SR K → C (PrecFun K)
  | .asyncIlu0 conf, A =>
    if conf.threadedfactor ∨ conf.threadedapply then .error .abort
    else do
      let nnz ← rd A.browptr A.nbrows
      let r ← scalarCompute isq ⟨conf.usescaling, conf.nbuildsweeps.toNat, conf.factinittype, conf.compute_precinfo⟩ A (List.range A.nbrows) (List.range nnz)
        ((List.range nnz).map g) ((List.range A.nbrows).map g) ((List.range A.nbrows).map g) {}
      let u ← deref r.2.iluvals
      .ok fun _ b z => do
        let zy ← scalarIluApply A u r.2.scale conf.napplysweeps.toNat conf.applyinittype (fun _ => List.range A.nbrows) b z ((List.range A.nbrows).map g)
        .ok zy.1
  | _, _ => .error .abort

/-- The choice of the solver and the solve, `tests/testsolve.cpp` lines 90-104. -/
def progSolve (p : ProgParams K) (E : SolverEnv K) (b x : List K) : C (SolveInfo K × List K) :=
  if p.solvertype = "richardson" then richardsonSolve E b x
  else if p.solvertype = "bcgs" then bicgstabSolve E b x
  else if p.solvertype = "gcr" then gcrSolve E p.solver_restart b x
  else .error .abort

/-- The distance of the result from the reference solution, `tests/testsolve.cpp` lines 108-113. -/
def progError (sqrt : K → K) (dim : Nat) (x ans : List K) : C K := do
  let s ← forRange 0 dim (fun i s => do
    let a ← rd x i
    let b ← rd ans i
    .ok (s + (a - b) * (a - b))) 0
  .ok (sqrt s)

/-- The comparison with the reference solution, `tests/testsolve.cpp` lines 107-116; the assertion is active in every build (line 7). -/
def progCheck (E : SolveProgEnv K) (p : ProgParams K) (dim : Nat) (x : List K) : C (Option K) :=
  if p.x_file ≠ "NONE" then do
    let ans ← readDenseMatrixMarket E.num E.fuel (E.files p.x_file)
    let e ← progError E.sqrt dim x ans
    cassert (decide (e < p.testtol))
    .ok (some e)
  else .ok none

/-- `test_solve<bs>`, `tests/testsolve.cpp` lines 28-123: what the solver reports, the result, and its distance from the reference solution if there is one. -/
def testSolve (E : SolveProgEnv K) (bs : Nat) (p : ProgParams K) : C (SolveInfo K × List K × Option K) := do
  let coom ← readMatrixMarket E.num E.srt E.gi E.fuel (E.files p.mat_file)
  let b ← readDenseMatrixMarket E.num E.fuel (E.files p.b_file)
  let mat ← getSRMatrixFromCOO bs p.storageorder E.gi E.gd E.gv coom
  let cmat ← getSRMatrixFromCOO bs p.storageorder E.gi2 E.gd2 E.gv2 coom
  let o ← progSettings bs E.info p
  let q ← createPreconditioner (.async o)
  let prec ← E.object q cmat.1
  let view := progView bs p.storageorder mat.1
  let r ← progSolve p ⟨view, prec, E.sqrt, p.maxiter, p.tol, E.sched⟩ b (List.replicate view.dim 0)
  let e ← progCheck E p view.dim r.2
  .ok (r.1, r.2, e)

/-- `main` of `tests/runsolvetest.cpp` lines 25-46 after reading the parameters, for builds without `BUILD_BLOCK_SIZE`; `none` when nothing is solved. -/
def solveMain (E : SolveProgEnv K) (p : ProgParams K) : C (Option (SolveInfo K × List K × Option K)) :=
  if p.maxiter = -1 then .ok none
  else if p.mattype = "bsr" then
    if p.blocksize = 4 then do
      let r ← testSolve E 4 p
      .ok (some r)
    else .error (.throw "std::runtime_error" "unsupported block size!")
  else do
    let r ← testSolve E 1 p
    .ok (some r)

end

end Blasted
