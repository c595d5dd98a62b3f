import Verif.PerfTest.Model
import Mathlib.Algebra.Order.Field.Basic

/-!
# The C programs of the tests: comparison with PETSc and table over numbers of sweeps (`tests/testutils.c`, `tests/runpetscsolver.c`)

As in `PetscTest/Model.lean` the solves are parameters, arithmetic is exact and printing to the screen is left out. The square root and the rounding to the nearest integer are parameters.
-/

namespace Blasted

section
variable {K : Type} [Field K] [LinearOrder K]

/-- `runComparisonVsPetsc`, `tests/testutils.c` lines 114-251: as the version in C++, without the information about the preconditioner. -/
def runComparisonC (P : PetscSys K) (eps : K) (nrm : List K → K) (n : Nat) (ref : KspResult K) (run : Nat → KspResult K) (times : Nat → RunTimes K) : C Int := do
  let r := optGetInt P "-num_runs" 0
  if r.1 ≠ 0 then .ok r.1
  else do
    let nruns := if r.2.2 then r.2.1 else 1
    cassert (decide (0 < ref.reason))
    let st ← forRange 0 nruns.toNat (fun i st => comparisonRun eps (run i) (times i) st) (0, List.replicate n 0)
    if nruns = 0 then .error .ub
    else do
      let avg := st.1.tdiv nruns
      let u := st.2.map fun v => (1 / (nruns : K)) * v
      compareSolverWithRef P eps nrm ref.iters avg ref.sol u
      .ok 0

/-- PETSc's `KSP_DIVERGED_ITS`: the largest number of iterations was reached. -/
def kspDivergedIts : Int := -3

/-- The loop over the runs of one setting, `tests/testutils.c` lines 271-353: `fuel` runs are left, `irun` is the number of the next one, `avg` the sum of the iterations and `l` the numbers of
iterations so far. The result is `irun`, the sum, the numbers and `someRunNotConverged` after the loop. -/
def sweepRuns (eps : K) (solve : Nat → PerfSolve K) : Nat → Nat → K → List Int → C (Nat × K × List Int × Bool)
  | 0, irun, avg, l => .ok (irun, avg, l, false)
  | fuel + 1, irun, avg, l =>
    let s := solve irun
    let avg' := avg + (s.iters : K)
    let l' := l ++ [s.iters]
    if s.reason = kspDivergedIts then .ok (irun + 1, avg', l', true)
    else if s.reason ≤ 0 then .ok (irun + 1, -10 ^ 9, l', true)
    else do
      cassert (decide (eps < s.times.factorwall))
      cassert (decide (eps < s.times.applywall))
      cassert (decide (0 ≤ s.times.factorcpu))
      cassert (decide (0 ≤ s.times.applycpu))
      sweepRuns eps solve fuel (irun + 1) avg' l'

/-- `runPetsc`, `tests/testutils.c` lines 253-379: the number of iterations, the relative deviation (`none` if it is infinite or not a number) and the options afterwards. An array with no or a
negative number of elements (line 268) is undefined. -/
def runPetsc (eps : K) (sqrt : K → K) (rnd : K → Int) (solve : PetscSys K → Nat → PerfSolve K) (garbage : List Int) (P : PetscSys K) (nruns : Int) (buildsweeps applysweeps : Int) :
    C ((Int × Option K) × PetscSys K) := do
  let P' ← setBlastedSweeps P garbage buildsweeps applysweeps
  if nruns ≤ 0 then .error .ub
  else do
    let r ← sweepRuns eps (solve P') nruns.toNat 0 0 []
    let irun := r.1
    let avg := r.2.1 / (irun : K)
    (if r.2.2.2 = false then cassert (decide ((irun : Int) = nruns)) else .ok ())
    let d ← forRange 0 irun (fun i s => do
      let v ← rd r.2.2.1 i
      .ok (s + ((v : K) - avg) * ((v : K) - avg))) 0
    .ok ((rnd avg, perfQuot (sqrt (d / (irun : K))) avg), P')

/-- A row of the two tables, `tests/runpetscsolver.c` lines 116-124, and the options afterwards. -/
def sweepRow (eps : K) (sqrt : K → K) (rnd : K → Int) (solve : PetscSys K → Nat → PerfSolve K) (garbage : List Int) (nruns b : Int) :
    List Int → PetscSys K → C (List (Int × Option K) × PetscSys K)
  | [], P => .ok ([], P)
  | a :: as, P => do
    let r ← runPetsc eps sqrt rnd solve garbage P nruns b a
    let rs ← sweepRow eps sqrt rnd solve garbage nruns b as r.2
    .ok (r.1 :: rs.1, rs.2)

/-- The two tables, `tests/runpetscsolver.c` lines 115-124, and the options afterwards. -/
def sweepTable (eps : K) (sqrt : K → K) (rnd : K → Int) (solve : PetscSys K → Nat → PerfSolve K) (garbage : List Int) (nruns : Int) (as : List Int) :
    List Int → PetscSys K → C (List (List (Int × Option K)) × PetscSys K)
  | [], P => .ok ([], P)
  | b :: bs, P => do
    let r ← sweepRow eps sqrt rnd solve garbage nruns b as P
    let rs ← sweepTable eps sqrt rnd solve garbage nruns as bs r.2
    .ok (r.1 :: rs.1, rs.2)

/-- The main program, `tests/runpetscsolver.c` lines 74-164, from the options on: the numbers of sweeps at the borders of the tables and the tables; `none` if the program exits with a message. Only the error
codes that the program looks at are considered. Reading the linear system and writing the file succeed. -/
def sweepProgram (eps : K) (sqrt : K → K) (rnd : K → Int) (solve : PetscSys K → Nat → PerfSolve K) (garbage : List Int) (P : PetscSys K) :
    C (Option (List Int × List Int × List (List (Int × Option K)))) :=
  let b := optGetIntArray P "-blasted_async_paramsweep_build" garbage 10
  if b.2.2.2 = false then .ok none
  else
    let a := optGetIntArray P "-blasted_async_paramsweep_apply" garbage 10
    if a.2.2.2 = false then .ok none
    else
      let r := optGetInt P "-num_runs" 0
      if r.1 ≠ 0 then .ok none
      else
        let nruns := if r.2.2 then r.2.1 else 1
        if P.db "-blasted_async_paramsweep_outputfile" = none then .ok none
        else do
          let bs := b.2.1.take b.2.2.1
          let as := a.2.1.take a.2.2.1
          let t ← sweepTable eps sqrt rnd solve garbage nruns as bs P
          .ok (some (bs, as, t.1))

end

end Blasted
