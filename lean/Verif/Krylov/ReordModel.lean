import Verif.Krylov.ProgModel
import Verif.Reorder.Model

/-!
# The solve program with a reordered preconditioner

`tests/testreorderedsolve.cpp`: a system is solved twice, with ILU(0) of its matrix and with ILU(0) of the reordered matrix, and both results are compared with a reference
solution. Printing is not modelled; the arithmetic is exact.
-/

namespace Blasted

variable {K : Type}

/-- Constructor of `ReorderedAsyncILU0_SRPreconditioner`, declaration in `include/solverops_ilu0.hpp` lines 183-189, definition in `src/solverops_ilu0.cpp` lines 398-408: the
arguments of the constructor of the base class are given by position, the constant `true` for the use of scaling, and nothing for the last parameter. -/
def newReorderedAsyncILU0 (nbuildsweeps napplysweeps : Int) (thread_chunk_size : Int) (fact_init_type : FactInit) (apply_init_type : ApplyInit)
    (threadedfactor : Bool := true) (threadedapply : Bool := true) : IluConf :=
  newAsyncILU0 nbuildsweeps napplysweeps true thread_chunk_size fact_init_type apply_init_type threadedfactor threadedapply

/-- The ordering of `createTrivialColReordering`, `tests/testreorderedsolve.cpp` lines 32-38. -/
def trivialOrdering (N : Nat) : C (List Nat) := do
  let v ← forRange 0 N (fun i v => wr v i i) (List.replicate N 0)
  let temp ← rd v 1
  let w ← rd v 3
  let v ← wr v 1 w
  wr v 3 temp

/-- `createTrivialColReordering`, `tests/testreorderedsolve.cpp` lines 30-43. -/
def createTrivialColReordering (N : Nat) : C (RS K) := do
  let v ← trivialOrdering N
  setOrdering (some v) (some v) N {}

/-- The surroundings of the program: those of the other solve program; the contents of the arrays allocated by the third conversion of the matrix; and the behaviour `reordObject c r A` of a
reordered preconditioner with the members `c` and the ordering `r` for the matrix `A` after its `compute`. -/
structure ReordProgEnv (K : Type) extends SolveProgEnv K where
  gi3 : Nat → Nat
  gd3 : Nat → Int
  gv3 : Nat → K
  reordObject : IluConf → RS K → SR K → C (PrecFun K)

section
variable [Field K] [LinearOrder K]

/-- The choice of the solver and the solve, `tests/testreorderedsolve.cpp` lines 82-93 and 121-131. -/
def reordSolve (p : ProgParams K) (E : SolverEnv K) (b x : List K) : C (SolveInfo K × List K) :=
  if p.solvertype = "richardson" then richardsonSolve E b x
  else if p.solvertype = "bcgs" then bicgstabSolve E b x
  else .error .abort

/-- One of the two solves with its comparison, `tests/testreorderedsolve.cpp` lines 82-102 and 121-140; the initial vector is zero (lines 67 and 109). The assertion is active in every build (line 7). -/
def reordRunOne (E : ReordProgEnv K) (p : ProgParams K) (view : MatView K) (prec : PrecFun K) (b ans : List K) : C (SolveInfo K × List K × K) := do
  let r ← reordSolve p ⟨view, prec, E.sqrt, p.maxiter, p.tol, E.sched⟩ b (List.replicate view.dim 0)
  let e ← progError E.sqrt view.dim r.2 ans
  cassert (decide (e < p.testtol))
  .ok (r.1, r.2, e)

/-- The first half, `tests/testreorderedsolve.cpp` lines 69-104: the preconditioner of the matrix itself. The conversion of the matrix and of the words are arguments of one call; here they are
evaluated from left to right. -/
def reordReference (E : ReordProgEnv K) (p : ProgParams K) (coom : COO K) (view : MatView K) (b ans : List K) : C (SolveInfo K × List K × K) := do
  let cmat ← getSRMatrixFromCOO 1 p.storageorder E.gi2 E.gd2 E.gv2 coom
  let f ← getFactInitFromString p.factinittype
  let a ← getApplyInitFromString p.applyinittype
  let prec ← E.object (.asyncIlu0 (newAsyncILU0 p.nbuildsweeps p.napplysweeps false p.threadchunksize f a false false)) cmat.1
  reordRunOne E p view prec b ans

/-- The second half, `tests/testreorderedsolve.cpp` lines 106-143: the preconditioner of the reordered matrix. -/
def reordReordered (E : ReordProgEnv K) (p : ProgParams K) (coom : COO K) (view : MatView K) (b ans : List K) : C (SolveInfo K × List K × K) := do
  let rs ← createTrivialColReordering view.dim
  let cmat ← getSRMatrixFromCOO 1 p.storageorder E.gi3 E.gd3 E.gv3 coom
  let f ← getFactInitFromString p.factinittype
  let a ← getApplyInitFromString p.applyinittype
  let prec ← E.reordObject (newReorderedAsyncILU0 p.nbuildsweeps p.napplysweeps p.threadchunksize f a false false) rs cmat.1
  reordRunOne E p view prec b ans

/-- `testSolve`, `tests/testreorderedsolve.cpp` lines 45-146: for each of the two solves what the solver reports, the result and its distance from the reference solution. -/
def reordTestSolve (E : ReordProgEnv K) (p : ProgParams K) : C ((SolveInfo K × List K × K) × (SolveInfo K × List K × K)) := do
  let coom ← readMatrixMarket E.num E.srt E.gi E.fuel (E.files p.mat_file)
  let ans ← readDenseMatrixMarket E.num E.fuel (E.files p.x_file)
  let b ← readDenseMatrixMarket E.num E.fuel (E.files p.b_file)
  let mat ← getSRMatrixFromCOO 1 p.storageorder E.gi E.gd E.gv coom
  let ref ← reordReference E p coom (.csr mat.1) b ans
  let reo ← reordReordered E p coom (.csr mat.1) b ans
  .ok (ref, reo)

/-- `main`, `tests/testreorderedsolve.cpp` lines 148-185. `stoi` and `stod` are the conversions of the C++ library, which may throw. The second argument, the name of a preconditioner, is not used. The
members of `ProgParams` that this program does not have (block size, restart) are 0. -/
def reordMain (E : ReordProgEnv K) (stoi : String → C Int) (stod : String → C K) (argv : List String) :
    C ((SolveInfo K × List K × K) × (SolveInfo K × List K × K)) :=
  if argv.length < 14 then .error .abort
  else do
    let maxiter ← stoi (argv.getD 12 "")
    let reltol ← stod (argv.getD 10 "")
    let testtol ← stod (argv.getD 11 "")
    let threadchunksize ← stoi (argv.getD 13 "")
    reordTestSolve E
      { solvertype := argv.getD 1 "", precontype := argv.getD 2 "", factinittype := argv.getD 3 "", applyinittype := argv.getD 4 "", mattype := argv.getD 5 "", blocksize := 0
        storageorder := argv.getD 6 "", testtol := testtol, tol := reltol, maxiter := maxiter, solver_restart := 0, threadchunksize := threadchunksize
        nbuildsweeps := 1, napplysweeps := 1, mat_file := argv.getD 7 "", x_file := argv.getD 8 "", b_file := argv.getD 9 "" }

end

end Blasted
