import Verif.PetscIO.OptModel
import Mathlib.Algebra.Order.Field.Basic

/-!
# The comparison of a BLASTed solver with one of PETSc (`tests/testutils.cpp`)

PETSc's linear solvers are parameters: what matters of a solve is why it ended, the number of iterations and the solution. Arithmetic is exact. Printing is left out.
-/

namespace Blasted

/-- The result of a `KSPSolve`: `KSPGetConvergedReason` (positive if it converged), `KSPGetIterationNumber` and the solution. -/
structure KspResult (K : Type) where
  reason : Int
  iters : Int
  sol : List K

/-- The times totalled after a run by `computeTotalTimes`. -/
structure RunTimes (K : Type) where
  factorwall : K
  applywall : K
  factorcpu : K
  applycpu : K

/-- The six entries of `PrecInfo`, `include/preconditioner_diagnostics.hpp` lines 15-30. -/
structure PrecNumbers (K : Type) where
  rem : K
  remInitial : K
  upperMin : K
  upperAvg : K
  lowerMin : K
  lowerAvg : K

section
variable {K : Type} [Field K] [LinearOrder K]

/-- `assert(a/b <= tol)`, `tests/testutils.cpp` lines 82 and 103: with divisor zero the quotient is infinite or not a number, and the assertion fails. -/
def assertQuotient (a b tol : K) : C Unit := if b = 0 then .error .abort else cassert (decide (a / b ≤ tol))

/-- `compareSolverWithRef`, `tests/testutils.cpp` lines 66-106. `eps` is `DBL_EPSILON` and `nrm` is `VecNorm` with `NORM_2`. -/
def compareSolverWithRef (P : PetscSys K) (eps : K) (nrm : List K → K) (refkspiters avgkspiters : Int) (uref u : List K) : C Unit := do
  let testtype ← (parsePetscCmdString P "-test_type" 30).1
  let error_tol ← parseOptionalPetscCmdReal P 0 "-error_tolerance" (2 * eps)
  (if testtype = "compare_its".toList ∨ testtype = "issame".toList then
    assertQuotient (|(refkspiters : K) - (avgkspiters : K)|) (refkspiters : K) error_tol
  else if testtype = "upper_bound_its".toList then cassert (decide (avgkspiters < refkspiters))
  else .ok ())
  let diff := List.zipWith (fun a b => -1 * a + b) u uref
  let refnorm := nrm uref
  let diffnorm := nrm diff
  if testtype = "compare_error".toList ∨ testtype = "issame".toList then assertQuotient diffnorm refnorm error_tol
  else .ok ()

/-- One run, `tests/testutils.cpp` lines 213-262: the sum of the numbers of iterations and of the solutions. Simplification: the sum of the numbers does not overflow. -/
def comparisonRun (eps : K) (run : KspResult K) (t : RunTimes K) (st : Int × List K) : C (Int × List K) := do
  cassert (decide (0 < run.reason))
  cassert (decide (eps < t.factorwall))
  cassert (decide (eps < t.applywall))
  cassert (decide (0 ≤ t.factorcpu))
  cassert (decide (0 ≤ t.applycpu))
  .ok (st.1 + run.iters, List.zipWith (fun a b => a + 1 * b) st.2 run.sol)

/-- The option that asks for the check of the preconditioner, `tests/testutils.cpp` lines 267-272: only the exception for an option that is not there is caught. -/
def testPrecInfo (P : PetscSys K) : C Bool :=
  match parsePetscCmdBool P "-blasted_compute_preconditioner_info" with
  | .error (.throw "InputNotGivenError" _) => .ok false
  | r => r

/-- The checks of one entry, `tests/testutils.cpp` lines 297-308. Exact numbers are always finite. -/
def checkPrecNumbers (nthreads : Nat) (p : PrecNumbers K) : C Unit := do
  cassert (decide (0 < p.remInitial))
  cassert (decide (p.rem < p.remInitial))
  if nthreads = 1 then cassert (decide (p.rem < 1 / 10 ^ 11)) else .ok ()
  cassert (decide (p.upperAvg < 1))
  cassert (decide (p.upperMin ≤ 1))
  cassert (decide (p.lowerAvg < 1))
  cassert (decide (p.lowerMin ≤ 1))

/-- The list of information about the preconditioner, `tests/testutils.cpp` lines 264-313; `none` is the null pointer. -/
def checkInfoList (nthreads : Nat) (nruns : Int) (test : Bool) (pilist : Option (List (PrecNumbers K))) : C Unit :=
  if test then
    match pilist with
    | none => .error .abort
    | some l => do
      cassert (decide ((l.length : Int) = nruns + 1))
      l.foldlM (fun _ p => checkPrecNumbers nthreads p) ()
  else cassert pilist.isNone

/-- `runComparisonVsPetsc_cpp`, `tests/testutils.cpp` lines 131-328: the error code that is returned. `ref` is the solve with PETSc's preconditioner, `run i` the solve number `i` with BLASTed's. The
conversion of a quotient with divisor zero to an integer is undefined. The buffer for the type of the test (lines 136-143) is not used later; calls of PETSc that only create and destroy
objects succeed. -/
def runComparison (P : PetscSys K) (eps : K) (nrm : List K → K) (nthreads n : Nat) (ref : KspResult K) (run : Nat → KspResult K) (times : Nat → RunTimes K)
    (pilist : Option (List (PrecNumbers K))) : C Int := do
  let r := optGetInt P "-num_runs" 0
  if r.1 ≠ 0 then .ok r.1
  else do
    let nruns := if r.2.2 then r.2.1 else 1
    cassert (decide (0 < ref.reason))
    let st ← forRange 0 nruns.toNat (fun i st => comparisonRun eps (run i) (times i) st) (0, List.replicate n 0)
    let test ← testPrecInfo P
    checkInfoList nthreads nruns test pilist
    if nruns = 0 then .error .ub
    else do
      let avg := st.1.tdiv nruns
      let u := st.2.map fun v => (1 / (nruns : K)) * v
      compareSolverWithRef P eps nrm ref.iters avg ref.sol u
      .ok 0

end

/-- The options database after `PetscOptionsSetValue`. -/
def setOption {Real : Type} (P : PetscSys Real) (name : String) (value : List Char) : PetscSys Real :=
  { P with db := fun s => if s = name then some (some value) else P.db s }

/-- `std::to_string(nbswp) + "," + std::to_string(naswp)`, `tests/testutils.cpp` line 358. -/
def sweepsText (nbswp naswp : Int) : List Char := (toString nbswp).toList ++ [','] ++ (toString naswp).toList

/-- `set_blasted_sweeps`, `tests/testutils.cpp` lines 355-371: the options database afterwards. The two numbers read back have no value before; if PETSc finds fewer than two numbers, the
comparison reads one that was never set. `garbage` stands for the values in the uninitialized array, which PETSc does not read. -/
def setBlastedSweeps {Real : Type} (P : PetscSys Real) (garbage : List Int) (nbswp naswp : Int) : C (PetscSys Real) := do
  let P' := setOption P "-blasted_async_sweeps" (sweepsText nbswp naswp)
  let r := optGetIntArray P' "-blasted_async_sweeps" garbage 2
  petscThrow P' r.1
  if r.2.2.1 < 1 then .error .ub
  else if r.2.1.getD 0 0 ≠ nbswp then .error (.throw "std::runtime_error" "Async sweeps not set properly!")
  else if r.2.2.1 < 2 then .error .ub
  else if r.2.1.getD 1 0 ≠ naswp then .error (.throw "std::runtime_error" "Async sweeps not set properly!")
  else .ok P'

/-- `getBlockSize`, `tests/testutils.cpp` lines 330-353: `bsize` is the error code and result of `MatGetBlockSize`, `mattype` that of `MatGetType`. The types are PETSc's values of
`MATSEQAIJ`, `MATSEQAIJMKL`, `MATMPIAIJ`, `MATMPIAIJMKL`, `MATSEQBAIJ`, `MATSEQBAIJMKL`, `MATMPIBAIJ` and `MATMPIBAIJMKL`. -/
def getBlockSize {Real : Type} (P : PetscSys Real) (bsize : Int × Int) (mattype : Int × String) : C Int := do
  petscThrow P bsize.1
  petscThrow P mattype.1
  if mattype.2 = "seqaij" ∨ mattype.2 = "seqaijmkl" ∨ mattype.2 = "mpiaij" ∨ mattype.2 = "mpiaijmkl" then .ok 1
  else if mattype.2 = "seqbaij" ∨ mattype.2 = "seqbaijmkl" ∨ mattype.2 = "mpibaij" ∨ mattype.2 = "mpibaijmkl" then .ok bsize.2
  else .error (.throw "std::runtime_error" ("Unsupported matrix type " ++ mattype.2))

end Blasted
