import Verif.PetscTest.SweepModel

/-!
# The program that runs a solver several times, and the choice of the linear problem (`tests/runpetscsingle.c`, `tests/poisson3d-fd/poisson_setup.cpp`)

As in `PetscTest/SweepModel.lean` the solves are parameters, arithmetic is exact and the square root is a parameter.
-/

namespace Blasted

section
variable {K : Type} [Field K] [LinearOrder K]

/-- What `tests/runpetscsingle.c` prints at its end: the average (`none`: not a number), whether there is a message about a run that diverged, and the relative deviation (`none`: infinite or not a
number). -/
structure SingleReport (K : Type) where
  /-- `avgkspiters` -/
  average : Option K
  /-- the message -/
  diverged : Bool
  /-- `reldev` -/
  deviation : Option K
  deriving DecidableEq

/-- The loop over the runs, `tests/runpetscsingle.c` lines 92-157: `fuel` runs are left, `irun` is the number of the next one, `avg` the sum of the iterations, `l` the numbers of iterations so far. The
result is `irun`, the sum and the numbers after the loop. -/
def singleRuns (solve : Nat → PerfSolve K) : Nat → Nat → K → List Int → Nat × K × List Int
  | 0, irun, avg, l => (irun, avg, l)
  | fuel + 1, irun, avg, l =>
    let s := solve irun
    let avg' := avg + (s.iters : K)
    let l' := l ++ [s.iters]
    if s.reason ≤ 0 then (irun + 1, -100, l')
    else singleRuns solve fuel (irun + 1) avg' l'

/-- `main` of `tests/runpetscsingle.c`, lines 71-182, from the number of runs on, without reading the linear system. The deviation of no runs and that from an average that is zero or not a number are not numbers. The allocation of a
negative number of elements (line 90) is left out: nothing is stored there. An error code of the option is returned (line 73). -/
def runSingle (sqrt : K → K) (P : PetscSys K) (solve : Nat → PerfSolve K) : C (Except Int (SingleReport K)) := do
  let r := optGetInt P "-num_runs" 0
  if r.1 ≠ 0 then .ok (.error r.1)
  else do
    let nruns := if r.2.2 then r.2.1 else 1
    let s := singleRuns solve nruns.toNat 0 0 []
    let irun := s.1
    if nruns = 0 then .ok (.ok ⟨none, false, none⟩)
    else do
      let avg := s.2.1 / (nruns : K)
      (if avg < 0 then .ok () else cassert (decide ((irun : Int) = nruns)))
      let d ← forRange 0 irun (fun i t => do
        let v ← rd s.2.2 i
        .ok (t + ((v : K) - avg) * ((v : K) - avg))) 0
      .ok (.ok ⟨some avg, decide (avg < 0), perfQuot (sqrt (d / (irun : K))) avg⟩)

end

/-- An argument of the program: `argv[argc]` is a null pointer (`none`), beyond it the access is undefined. -/
def argAt (argv : List (List Char)) (i : Nat) : C (Option (List Char)) :=
  if i < argv.length then .ok argv[i]?
  else if i = argv.length then .ok none
  else .error .ub

/-- Which linear problem is set up. -/
inductive ProblemChoice where
  /-- the program ends with a message -/
  | exit
  /-- `setup_poisson_problem` with this control file -/
  | poisson (confile : Option (List Char))
  /-- `readLinearSystemFromFiles` with these files -/
  | files (mat rhs sol : Option (List Char))
  deriving DecidableEq

/-- `generateDiscreteProblem`, `tests/poisson3d-fd/poisson_setup.cpp` lines 155-181: the call that sets up the problem, with its file names. `strcmp` of a null pointer is undefined. -/
def generateDiscreteProblem (argv : List (List Char)) (argstart : Nat) : C ProblemChoice := do
  let kind ← argAt argv argstart
  match kind with
  | none => .error .ub
  | some w =>
    if w = "poisson".toList then
      if argv.length < 3 then .ok .exit
      else do
        let f ← argAt argv (argstart + 1)
        .ok (.poisson f)
    else if argv.length < 5 then .ok .exit
    else do
      let a ← argAt argv (argstart + 1)
      let b ← argAt argv (argstart + 2)
      let x ← argAt argv (argstart + 3)
      .ok (.files a b x)

end Blasted
