import Verif.ConvTest.Model
import Verif.Info.Model
import Verif.Solve.Model

/-!
# The convergence test of the asynchronous triangular solves

`tests/solverops/async_triangular_factors_convergence.cpp` for block size 1 (the program is instantiated for 1 and 4). As in `ConvTest/Model.lean` what a parallel region leaves in the array
of the solution is a parameter: `run s x` is the contents after a region with `s + 1` sweeps that has found `x`. Arithmetic is exact, a division by zero ends the program with
`Fail.divzero`. Output is not modelled.
-/

namespace Blasted

variable {K : Type} [Field K] [LinearOrder K]

/-- `lowerSolve` without threads and `getExactLowerSolve`, `tests/solverops/async_triangular_factors_convergence.cpp` lines 288-301 and 347-356. -/
def getExactLowerSolve (A : SR K) (iluvals rhs : List K) : C (List K) := forRange 0 A.nbrows (updRow (unitLowerRow A iluvals rhs)) (List.replicate A.nbrows 0)

/-- `upperSolve` without threads and `getExactUpperSolve`, `tests/solverops/async_triangular_factors_convergence.cpp` lines 317-331 and 358-367. -/
def getExactUpperSolve (A : SR K) (iluvals rhs : List K) : C (List K) := forDown 0 A.nbrows (updRow (upperRow A iluvals rhs)) (List.replicate A.nbrows 0)

/-- `maxnorm_diff`, `tests/solverops/async_triangular_factors_convergence.cpp` lines 369-382; components in the order `ord`. -/
def maxnormDiff (ord : List Nat) (x y : List K) : C K := do
  cassert (decide (x.length = y.length))
  parFor x.length ord (fun i mn => do
    let a ← rd x i
    let b ← rd y i
    .ok (if mn < |a - b| then |a - b| else mn)) 0

/-- The initial guess, `tests/solverops/async_triangular_factors_convergence.cpp` lines 121-126 and 140-145. -/
def triInitial (initialization : String) (exactsoln tsol : List K) : C (List K) :=
  if initialization = "exact" then .ok exactsoln
  else if initialization = "zero" then .ok (tsol.map fun _ => 0)
  else .error (.throw "std::runtime_error" "Invalid initialization!")

/-- The error that is tested, `tests/solverops/async_triangular_factors_convergence.cpp` lines 259-271. -/
def triError (ord : List Nat) (initialization : String) (exactsolnorm : K) (exactsoln tsol : List K) : C K := do
  let d ← maxnormDiff ord tsol exactsoln
  if initialization = "exact" then .ok d else finiteQuot d exactsolnorm

/-- The end of `check_convergence`, `tests/solverops/async_triangular_factors_convergence.cpp` lines 273-286. -/
def triUpdate (tol errnorm : K) (st : ConvState) : C ConvState :=
  if st.converged then do
    cassert (decide (errnorm < tol))
    .ok { st with isweep := st.isweep + 1 }
  else if errnorm < tol then .ok { isweep := st.isweep + 1, curmaxsweeps := (st.isweep + 1 : Nat) + 2, converged := true }
  else .ok { st with isweep := st.isweep + 1 }

/-- `check_convergence`, `tests/solverops/async_triangular_factors_convergence.cpp` lines 253-286. -/
def checkTriConvergence (ord : List Nat) (initialization : String) (tol exactsolnorm : K) (exactsoln tsol : List K) (st : ConvState) : C ConvState := do
  let errnorm ← triError ord initialization exactsolnorm exactsoln tsol
  triUpdate tol errnorm st

/-- `runFullyAsyncTest<1>`, `tests/solverops/async_triangular_factors_convergence.cpp` lines 112-211; `tiny`, `lowest` and `parts` are those of `maxnorm`. Returns the variables of the loop and the solution
compared last. -/
def runFullyAsyncTest (tiny lowest : K) (parts : List Nat → List (List Nat)) (A : SR K) (ord : List Nat) (exactsoln : List K) (initialization : String) (tol : K) (maxsweeps : Int)
    (run : Nat → List K → List K) (fuel : Nat) : C (ConvState × List K) := do
  let tsol ← triInitial initialization exactsoln (List.replicate A.nbrows 0)
  let _ ← maxnormDiff ord exactsoln tsol
  let exactsolnorm ← maxnorm tiny lowest parts exactsoln
  let r ← convLoop (fun s x => do
      let x ← triInitial initialization exactsoln x
      .ok (run s x)) (checkTriConvergence ord initialization tol exactsolnorm exactsoln) fuel
    { isweep := 0, curmaxsweeps := maxsweeps, converged := decide (initialization = "exact") } tsol
  cassert r.1.converged
  .ok r

/-- `test_async_triangular_solve<1>`, `tests/solverops/async_triangular_factors_convergence.cpp` lines 44-80. -/
def testAsyncTriangular (tiny lowest : K) (parts : List Nat → List (List Nat)) (isq : K → K) (usescale : Bool) (A : SR K) (pos : ILUPos) (ord : List Nat) (initialization : String)
    (tol : K) (maxsweeps : Int) (runLower runUpper : Nat → List K → List K) (fuel : Nat) : C Unit := do
  let scale ← testScale isq usescale A ord
  let iluvals ← getExactILU A (scalarScale? scale) pos
  let rhs := List.replicate A.nbrows (11 / 10 : K)
  let exactLow ← getExactLowerSolve A iluvals rhs
  let exactUp ← getExactUpperSolve A iluvals rhs
  let _ ← maxnorm tiny lowest parts exactLow
  let _ ← maxnorm tiny lowest parts exactUp
  let _ ← runFullyAsyncTest tiny lowest parts A ord exactLow initialization tol maxsweeps runLower fuel
  let _ ← runFullyAsyncTest tiny lowest parts A ord exactUp initialization tol maxsweeps runUpper fuel
  .ok ()

end Blasted
