import Verif.PetscTest.SingleModel

/-!
# The program for the convergence tests of iterative preconditioners (`tests/solverops/test_iter_prec_conv.cpp`)

The two tests (modelled in `ConvTest` and `TriTest`) and setting up the linear problem are parameters here.
-/

namespace Blasted

variable {Real : Type}

/-- What the tests are given besides the matrix. -/
structure ConvParams (Real : Type) where
  tol : Real
  maxsweeps : Int
  usescale : Bool
  chunk : Int
  initialization : List Char
  nrepeats : Int
  deriving DecidableEq

/-- The options, `tests/solverops/test_iter_prec_conv.cpp` lines 54-59. `dtol` is the number 1e-25. -/
def convParams (P : PetscSys Real) (zero dtol : Real) : C (ConvParams Real) := do
  let maxsweeps ← parsePetscCmdInt P "-max_sweeps"
  let tol ← parseOptionalPetscCmdReal P zero "-tolerance" dtol
  let chunk ← parsePetscCmdInt P "-blasted_thread_chunk_size"
  let nrepeats ← parsePetscCmdInt P "-num_repeats"
  let initialization ← (parsePetscCmdString P "-initialization" 20).1
  let usescale ← parsePetscCmdBool P "-blasted_use_symmetric_scaling"
  .ok ⟨tol, maxsweeps, usescale, chunk, initialization, nrepeats⟩

/-- The `switch` over the block sizes, `tests/solverops/test_iter_prec_conv.cpp` lines 71-82 and 84-95. -/
def convSwitch (test : Nat → ConvParams Real → C Int) (bs : Nat) (p : ConvParams Real) : C Int :=
  if bs = 1 then test 1 p
  else if bs = 4 then test 4 p
  else .error (.throw "std::out_of_range" ("Block size " ++ toString bs ++ " not supported!"))

/-- `main`, `tests/solverops/test_iter_prec_conv.cpp` lines 31-102: the exit status of the program. `load` sets up the linear problem and gives its block size, `ailu` and `tri` are the tests and
`destroy` and `finalize` the error codes of `destroyDiscreteLinearProblem` and `PetscFinalize`. -/
def convDriver (P : PetscSys Real) (zero dtol : Real) (argv : List (List Char)) (load : ProblemChoice → C Nat) (ailu tri : Nat → ConvParams Real → C Int) (destroy finalize : Int) : C Int := do
  if argv.length < 3 then .ok (-1)
  else do
    let testtype ← rd argv 1
    let choice ← generateDiscreteProblem argv 2
    if choice = .exit then .ok (-1)
    else do
      let bs ← load choice
      let p ← convParams P zero dtol
      let _ierr ← (if testtype = "ailu".toList then convSwitch ailu bs p else if testtype = "triangular".toList then convSwitch tri bs p
        else .error (.throw "std::runtime_error" "Test type not supported!"))
      if destroy ≠ 0 then .ok destroy
      else .ok finalize

end Blasted
