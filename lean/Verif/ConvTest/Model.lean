import Verif.ILU.Model

/-!
# The convergence test of the asynchronous factorization

`tests/solverops/async_ilu_convergence.cpp` for block size 1 (the program is instantiated for 1 and 4). What a parallel region leaves in the array of the factors depends on the schedule;
the models take it as a parameter: `sched s x` is the contents after parallel sweep number `s` has found `x`, and `run s irpt x` those after the parallel region of repetition `irpt` with
`s + 1` sweeps. The theorems quantify over all such functions that belong to executions (`Race/AsyncModel.lean`). Arithmetic is exact: a quotient by zero, NaN or an infinity in the
program, is a separate case. Output is not modelled.
-/

namespace Blasted

variable {K : Type} [Field K] [LinearOrder K]

/-- The norm of one block, for block size 1: `tests/solverops/async_ilu_convergence.cpp` lines 390-398 and 418-426. -/
def entryGap (a b : K) : K := if 0 < |a - b| then |a - b| else 0

/-- `maxnorm_lower`, `tests/solverops/async_ilu_convergence.cpp` lines 378-404; rows in the order `ord`. -/
def maxnormLower (A : SR K) (ord : List Nat) (x y : List K) : C K :=
  parFor A.nbrows ord (fun irow maxnorm => do
    let lo ← rd A.browptr irow
    let hi ← rd A.diagind irow
    forRange lo hi (fun jj maxnorm => do
      let a ← rd x jj
      let b ← rd y jj
      .ok (if maxnorm < entryGap a b then entryGap a b else maxnorm)) maxnorm) 0

/-- `maxnorm_upper`, `tests/solverops/async_ilu_convergence.cpp` lines 406-433; rows in the order `ord`. -/
def maxnormUpper (A : SR K) (ord : List Nat) (x y : List K) : C K :=
  parFor A.nbrows ord (fun irow maxnorm => do
    let lo ← rd A.diagind irow
    let hi ← rd A.browendptr irow
    forRange lo hi (fun jj maxnorm => do
      let a ← rd x jj
      let b ← rd y jj
      .ok (if maxnorm < entryGap a b then entryGap a b else maxnorm)) maxnorm) 0

/-- `getExactILU`, `tests/solverops/async_ilu_convergence.cpp` lines 462-490: one sequential sweep over a new array, which is zero. -/
def getExactILU (A : SR K) (scal : Nat → Nat → K → C K) (pos : ILUPos) : C (List K) :=
  forRange 0 A.nbrows (iluRow A scal pos) (List.replicate A.nnzb 0)

/-- `getScalingVector` and the choice of the caller, `tests/solverops/async_ilu_convergence.cpp` lines 83, 185 and 499-507. An empty vector stands for no scaling. -/
def testScale (isq : K → K) (usescale : Bool) (A : SR K) (ord : List Nat) : C (Option (List K)) :=
  if usescale then do
    let s ← getScalingVector isq A ord (List.replicate A.nbrows 0)
    .ok (some s)
  else .ok none

/-- Copies the first `n` values. -/
def copyVals (n : Nat) (src dst : List K) : C (List K) :=
  forRange 0 n (fun i dst => do
    let v ← rd src i
    wr dst i v) dst

/-- The exception for an initialization other than `orig` and `exact`, `tests/solverops/async_ilu_convergence.cpp` lines 97 and 457. -/
def badInitialization : Fail := .throw "std::runtime_error" "Unsupported initialization requested!"

/-- `initialize_iluvals`, `tests/solverops/async_ilu_convergence.cpp` lines 435-458, and lines 89-97. Simplification: the loops are sequential; their iterations are independent. -/
def initializeIluvals (initialization : String) (A : SR K) (exactilu iluvals : List K) : C (List K) :=
  if initialization = "orig" then copyVals A.nnzb A.vals iluvals
  else if initialization = "exact" then copyVals A.nnzb exactilu iluvals
  else .error badInitialization

/-- A quotient that is then asserted to be finite or to be small: with divisor zero it is infinite or NaN and the assertion fails, `tests/solverops/async_ilu_convergence.cpp` lines 331-332, 353-354 and
574-575. -/
def finiteQuot (a b : K) : C K := if b = 0 then .error .abort else .ok (a / b)

/-- `check_initial`, `tests/solverops/async_ilu_convergence.cpp` lines 514-578. -/
def checkInitial (A : SR K) (scal : Nat → Nat → K → C K) (pos : ILUPos) (ord : List Nat) (initialization : String) (exactilu iluvals : List K) : C Unit := do
  let l ← maxnormLower A ord exactilu exactilu
  cassert (decide (l < 1 / 10 ^ 15))
  let u ← maxnormUpper A ord exactilu exactilu
  cassert (decide (u < 1 / 10 ^ 15))
  let initilures ← iluRes (fun x : K => |x|) A scal pos ord iluvals
  let checkilures ← iluRes (fun x : K => |x|) A scal pos ord exactilu
  if initialization = "exact" then .ok ()
  else do
    let q ← finiteQuot checkilures initilures
    cassert (decide (q < 5 / 10 ^ 16))

/-- The variables of the loop over the numbers of sweeps. -/
structure ConvState where
  isweep : Nat
  curmaxsweeps : Int
  converged : Bool
deriving Repr, DecidableEq

/-- The errors that are tested, `tests/solverops/async_ilu_convergence.cpp` lines 324-333 with the assertions of lines 353-354. -/
def convErrors (initialization : String) (A : SR K) (ord : List Nat) (initLerr initUerr : K) (exactilu iluvals : List K) : C (K × K) := do
  let l ← maxnormLower A ord iluvals exactilu
  let u ← maxnormUpper A ord iluvals exactilu
  if initialization = "exact" then .ok (l, u)
  else do
    let l ← finiteQuot l initLerr
    let u ← finiteQuot u initUerr
    .ok (l, u)

/-- The end of `check_convergence`, `tests/solverops/async_ilu_convergence.cpp` lines 357-375. -/
def convUpdate (tol : K) (maxsweeps : Int) (e : K × K) (st : ConvState) : ConvState :=
  if st.converged then
    if tol < e.1 ∨ tol < e.2 then { isweep := st.isweep + 1, curmaxsweeps := maxsweeps, converged := false }
    else { st with isweep := st.isweep + 1 }
  else
    if e.1 < tol ∧ e.2 < tol then { isweep := st.isweep + 1, curmaxsweeps := (st.isweep + 1 : Nat) + 2, converged := true }
    else { st with isweep := st.isweep + 1 }

/-- `check_convergence`, `tests/solverops/async_ilu_convergence.cpp` lines 316-376. -/
def checkConvergence (A : SR K) (scal : Nat → Nat → K → C K) (pos : ILUPos) (ord : List Nat) (initialization : String) (tol : K) (maxsweeps : Int) (initLerr initUerr : K)
    (exactilu iluvals : List K) (st : ConvState) : C ConvState := do
  let e ← convErrors initialization A ord initLerr initUerr exactilu iluvals
  let _ ← iluRes (fun x : K => |x|) A scal pos ord iluvals
  .ok (convUpdate tol maxsweeps e st)

/-- The loop `while(isweep < curmaxsweeps)` of both tests, `tests/solverops/async_ilu_convergence.cpp` lines 115-161 and 213-287: `next` gives the factors that are compared. -/
def convLoop (next : Nat → List K → C (List K)) (check : List K → ConvState → C ConvState) : Nat → ConvState → List K → C (ConvState × List K)
  | fuel, st, x =>
    if (st.isweep : Int) < st.curmaxsweeps then
      match fuel with
      | 0 => .error .fuel
      | fuel + 1 => do
        let x ← next st.isweep x
        let st ← check x st
        convLoop next check fuel st x
    else .ok (st, x)

/-- The two tests from the initial errors on: lines 99-165 and 189-291 of `tests/solverops/async_ilu_convergence.cpp`. Returns the variables of the loop and the factors compared last. -/
def convTest (A : SR K) (scal : Nat → Nat → K → C K) (pos : ILUPos) (ord : List Nat) (initialization : String) (tol : K) (maxsweeps : Int) (next : Nat → List K → C (List K)) (fuel : Nat)
    (exactilu iluvals : List K) : C (ConvState × List K) := do
  let initLerr ← maxnormLower A ord iluvals exactilu
  let initUerr ← maxnormUpper A ord iluvals exactilu
  checkInitial A scal pos ord initialization exactilu iluvals
  let r ← convLoop next (checkConvergence A scal pos ord initialization tol maxsweeps initLerr initUerr exactilu) fuel
    { isweep := 0, curmaxsweeps := maxsweeps, converged := decide (initialization = "exact") } iluvals
  cassert r.1.converged
  .ok r

/-- `test_partiallyasync_ilu_convergence<1>`, `tests/solverops/async_ilu_convergence.cpp` lines 68-166: every sweep is a parallel loop and goes on from the factors before. -/
def testPartiallyAsync (isq : K → K) (usescale : Bool) (A : SR K) (pos : ILUPos) (ord : List Nat) (initialization : String) (tol : K) (maxsweeps : Int) (sched : Nat → List K → List K)
    (fuel : Nat) : C (ConvState × List K) := do
  let scale ← testScale isq usescale A ord
  let exactilu ← getExactILU A (scalarScale? scale) pos
  let iluvals ← initializeIluvals initialization A exactilu (List.replicate A.nnzb 0)
  convTest A (scalarScale? scale) pos ord initialization tol maxsweeps (fun s x => .ok (sched s x)) fuel exactilu iluvals

/-- `avg_iluvals[i] += iluvals[i]`, `tests/solverops/async_ilu_convergence.cpp` lines 273-276. Simplification: as in `initializeIluvals`. -/
def addVals (n : Nat) (src dst : List K) : C (List K) :=
  forRange 0 n (fun i dst => do
    let a ← rd dst i
    let v ← rd src i
    wr dst i (a + v)) dst

/-- `avg_iluvals[i] /= nrepeats`, `tests/solverops/async_ilu_convergence.cpp` lines 280-282. Without repetitions all values are NaN, which the assertions of lines 353-355 refuse (a maximum is taken with
comparisons that are false for NaN; the residual of line 355 is then NaN). -/
def divVals (n nrepeats : Nat) (dst : List K) : C (List K) :=
  if nrepeats = 0 then .error .abort
  else forRange 0 n (fun i dst => do
    let a ← rd dst i
    wr dst i (a / nrepeats)) dst

/-- One number of sweeps of the fully asynchronous test, `tests/solverops/async_ilu_convergence.cpp` lines 215-282: the average over `nrepeats` executions of `s + 1` sweeps, each from the initial
factors. -/
def averageRuns (initialization : String) (A : SR K) (run : Nat → Nat → List K → List K) (nrepeats : Nat) (exactilu : List K) (s : Nat) : C (List K) := do
  let avg ← forRange 0 nrepeats (fun irpt avg => do
    let iluvals ← initializeIluvals initialization A exactilu (List.replicate A.nnzb 0)
    addVals A.nnzb (run s irpt iluvals) avg) (List.replicate A.nnzb 0)
  divVals A.nnzb nrepeats avg

/-- `test_fullyasync_ilu_convergence<1>`, `tests/solverops/async_ilu_convergence.cpp` lines 171-292. -/
def testFullyAsync (isq : K → K) (usescale : Bool) (A : SR K) (pos : ILUPos) (ord : List Nat) (initialization : String) (tol : K) (maxsweeps : Int) (nrepeats : Nat)
    (run : Nat → Nat → List K → List K) (fuel : Nat) : C (ConvState × List K) := do
  let scale ← testScale isq usescale A ord
  let exactilu ← getExactILU A (scalarScale? scale) pos
  let iluvals ← initializeIluvals initialization A exactilu (List.replicate A.nnzb 0)
  convTest A (scalarScale? scale) pos ord initialization tol maxsweeps (fun s _ => averageRuns initialization A run nrepeats exactilu s) fuel exactilu iluvals

end Blasted
