import Verif.PetscTest.Model

/-!
# The thread-scaling test (`tests/perftest`)

The solves of PETSc with BLASTed's preconditioners are a parameter, a function of the environment: the options and the number of threads that OpenMP uses. Arithmetic is exact, the square root is a
parameter. Calls of PETSc that only create, configure and destroy objects succeed. Printing to the screen is left out.
-/

namespace Blasted

/-- What a solve depends on besides the linear system: the options database and the number of threads of the next parallel region of OpenMP. -/
structure PerfEnv (K : Type) where
  sys : PetscSys K
  threads : Nat

/-- `RunParams`, `tests/perftest/perftesting.hpp` lines 31-37. -/
structure PerfParams where
  ref : Bool
  nbswps : Int
  naswps : Int
  nrepeats : Int
  numthreads : Int
  deriving DecidableEq

/-- `TimingData`, `tests/perftest/perftesting.hpp` lines 39-58, without the members that the program never changes. -/
structure PerfData (K : Type) where
  avgIters : Int
  maxIters : Int
  converged : Bool
  setupWall : K
  applyWall : K
  cpu : K
  deriving DecidableEq

/-- A solve: the iterations, why it ended, and the times totalled afterwards by `computeTotalTimes`. -/
structure PerfSolve (K : Type) where
  iters : Int
  reason : Int
  times : RunTimes K

/-- The columns of a line of the report, `writeTimingToFile`, `tests/perftest/perftesting.cpp` lines 45-59. A quotient with divisor zero, which is printed as infinite or not a number, is `none`. -/
structure PerfLine (K : Type) where
  comment : Bool
  threads : Int
  nbswps : Int
  naswps : Int
  factor : Option K
  apply : Option K
  total : Option K
  deviation : K
  cpu : K
  maxIters : Int
  avgIters : Int
  converged : Bool
  deriving DecidableEq

section
variable {K : Type} [Field K] [DecidableEq K]

/-- The initial values of `TimingData`, `tests/perftest/perftesting.hpp` lines 55-57. -/
def perfData0 : PerfData K := ⟨0, 0, false, 0, 0, 0⟩

/-- A quotient for the report. -/
def perfQuot (a b : K) : Option K := if b = 0 then none else some (a / b)

/-- `set_blasted_sweeps`, `tests/perftest/perftesting.cpp` lines 16-31, as called in line 79, where the error code is dropped: the options database afterwards. What is left of the check
is that reading an element of the array that PETSc did not set is undefined. -/
def perfSetSweeps (P : PetscSys K) (garbage : List Int) (nbswp naswp : Int) : C (PetscSys K) :=
  let P' := setOption P "-blasted_async_sweeps" (sweepsText nbswp naswp)
  let r := optGetIntArray P' "-blasted_async_sweeps" garbage 2
  if r.1 ≠ 0 then .ok P'
  else if r.2.2.1 < 1 then .error .ub
  else if r.2.1.getD 0 0 ≠ nbswp then .ok P'
  else if r.2.2.1 < 2 then .error .ub
  else .ok P'

/-- `std_deviation`, `tests/perftest/perftesting.cpp` lines 61-67. -/
def stdDeviation (sqrt : K → K) (vals : List K) (avg : K) (N : Nat) : C K := do
  let d ← forRange 0 N (fun j s => do
    let v ← rd vals j
    .ok (s + (v - avg) * (v - avg))) 0
  .ok (sqrt (d / (N : K)))

/-- The loop over the repetitions, `tests/perftest/perftesting.cpp` lines 81-125: `fuel` repetitions are left, `irun` is the number of the next one. -/
def perfRuns (solve : Nat → PerfSolve K) : Nat → Nat → PerfData K → List K → Nat × PerfData K × List K
  | 0, irun, d, t => (irun, d, t)
  | fuel + 1, irun, d, t =>
    let s := solve irun
    let d1 := { d with avgIters := d.avgIters + s.iters, maxIters := if d.maxIters < s.iters then s.iters else d.maxIters }
    if s.reason ≤ 0 then (irun, { d1 with converged := false }, t)
    else
      let d2 : PerfData K := { d1 with
        converged := true
        setupWall := d1.setupWall + s.times.factorwall
        applyWall := d1.applyWall + s.times.applywall
        cpu := d1.cpu + (s.times.factorcpu + s.times.applycpu) }
      perfRuns solve fuel (irun + 1) d2 (t.set irun (s.times.factorwall + s.times.applywall))

/-- `run_one_test`, `tests/perftest/perftesting.cpp` lines 69-151: the environment afterwards, the data and the line of the report. `solve env ref i` is repetition number `i`. The conversion of a
quotient with divisor zero to an integer (line 130) is undefined. The average of the iterations is rounded towards zero; the rounding of its operands to `float` is left out. -/
def runOneTest (sqrt : K → K) (solve : PerfEnv K → Bool → Nat → PerfSolve K) (garbage : List Int) (rp : PerfParams) (refdata tdata : PerfData K) (env : PerfEnv K) :
    C (PerfEnv K × PerfData K × PerfLine K) :=
  if rp.nrepeats < 0 then .error (.throw "std::length_error" "cannot create std::vector larger than max_size()")
  else do
    let P' ← perfSetSweeps env.sys garbage rp.nbswps rp.naswps
    let env' : PerfEnv K := { env with sys := P' }
    let r := perfRuns (solve env' rp.ref) rp.nrepeats.toNat 0 tdata (List.replicate rp.nrepeats.toNat 0)
    let irun := r.1
    if irun = 0 then .error .ub
    else do
      let d : PerfData K := { r.2.1 with
        setupWall := r.2.1.setupWall / (irun : K)
        applyWall := r.2.1.applyWall / (irun : K)
        cpu := r.2.1.cpu / (irun : K)
        avgIters := r.2.1.avgIters.tdiv irun }
      let dev ← stdDeviation sqrt r.2.2 (d.setupWall + d.applyWall) irun
      let line : PerfLine K :=
        if rp.ref then
          ⟨rp.ref, rp.numthreads, rp.nbswps, rp.naswps, some d.setupWall, some d.applyWall, some (d.setupWall + d.applyWall), dev, d.cpu, d.maxIters, d.avgIters, d.converged⟩
        else
          ⟨rp.ref, rp.numthreads, rp.nbswps, rp.naswps, perfQuot refdata.setupWall d.setupWall, perfQuot refdata.applyWall d.applyWall,
            perfQuot (refdata.setupWall + refdata.applyWall) (d.setupWall + d.applyWall), dev, d.cpu, d.maxIters, d.avgIters, d.converged⟩
      .ok (env', d, line)

end

/-- `TestParams`, `tests/perftest/perftesting.hpp` lines 18-28. -/
structure PerfTestParams where
  refthreads : Int
  threadslist : List Int
  refnruns : Int
  nruns : Int
  nrefbswps : Int
  nrefaswps : Int
  nbswps : Int
  naswps : Int
  reportfile : List Char
  deriving DecidableEq

/-- The statements for one integer option, for example `tests/perftest/perftesting.cpp` lines 158-162. -/
def perfInt {Real : Type} (P : PetscSys Real) (name msg : String) : C Int :=
  let r := optGetInt P name 0
  if r.1 ≠ 0 ∨ r.2.2 = false then .error (.throw "std::runtime_error" msg) else .ok r.2.1

/-- `getTestParams`, `tests/perftest/perftesting.cpp` lines 153-220. -/
def getTestParams {Real : Type} (P : PetscSys Real) (garbage : List Int) : C PerfTestParams := do
  let refthreads ← perfInt P "-perftest_ref_threads" "Number of ref threads not set!"
  let r := optGetIntArray P "-perftest_test_threadslist" garbage 20
  if r.1 ≠ 0 ∨ r.2.2.2 = false then .error (.throw "std::runtime_error" "Need list of thread counts to test!")
  else do
    let threadslist := r.2.1.take r.2.2.1
    let refnruns ← perfInt P "-perftest_ref_runs" "Number of ref runs not set!"
    let nruns ← perfInt P "-perftest_test_runs" "Number of testing runs not set!"
    let nrefbswps ← perfInt P "-perftest_ref_build_sweeps" "Number of ref build sweeps not set!"
    let nrefaswps ← perfInt P "-perftest_ref_apply_sweeps" "Number of ref apply sweeps not set!"
    let nbswps ← perfInt P "-perftest_test_build_sweeps" "Number of testing build sweeps not set!"
    let naswps ← perfInt P "-perftest_test_apply_sweeps" "Number of testing apply sweeps not set!"
    let f := optGetString P "-perftest_report_file" (List.replicate 500 none) 500
    if f.1 ≠ 0 ∨ f.2.2 = false then .error (.throw "std::runtime_error" "Path to report output not set!")
    else do
      let reportfile ← cString f.2.1
      .ok ⟨refthreads, threadslist, refnruns, nruns, nrefbswps, nrefaswps, nbswps, naswps, reportfile⟩

section
variable {K : Type} [Field K] [DecidableEq K]

/-- The loop over the numbers of threads, `tests/perftest/runperftest.cpp` lines 126-137: the lines of the report. -/
def perfSettings (sqrt : K → K) (solve : PerfEnv K → Bool → Nat → PerfSolve K) (garbage : List Int) (tp : PerfTestParams) (refdata : PerfData K) :
    List Int → PerfEnv K → C (List (PerfLine K))
  | [], _ => .ok []
  | t :: ts, env => do
    let r ← runOneTest sqrt solve garbage ⟨false, tp.nbswps, tp.naswps, tp.nruns, t⟩ refdata perfData0 env
    let ls ← perfSettings sqrt solve garbage tp refdata ts r.1
    .ok (r.2.2 :: ls)

/-- The program, `tests/perftest/runperftest.cpp` lines 74-139, from the parameters on: the lines of the report. Reading the files with the linear system succeeds; the system is part of `solve`. -/
def perfProgram (sqrt : K → K) (solve : PerfEnv K → Bool → Nat → PerfSolve K) (garbage : List Int) (env : PerfEnv K) : C (List (PerfLine K)) := do
  let tp ← getTestParams env.sys garbage
  let r ← runOneTest sqrt solve garbage ⟨true, tp.nrefbswps, tp.nrefaswps, tp.refnruns, tp.refthreads⟩ perfData0 perfData0 env
  let ls ← perfSettings sqrt solve garbage tp r.2.1 tp.threadslist r.1
  .ok (r.2.2 :: ls)

end

end Blasted
