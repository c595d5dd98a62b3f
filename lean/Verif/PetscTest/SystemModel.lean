import Verif.PetscTest.SingleModel

/-!
# Reading the linear system and the comparison program (`tests/testutils.c`, `tests/runpetsctest.c`)

Loading a file with PETSc is a parameter that gives an error code, which is not zero, or the contents. A matrix is the list of its rows, each with its columns and values.
-/

namespace Blasted

section
variable {K : Type} [Field K] [LinearOrder K]

/-- PETSc's `PETSC_ERR_LIB`. -/
def loadErrLib : Int := 76

/-- PETSc's `PETSC_ERR_ARG_SIZ`: vectors of the wrong size. -/
def loadErrArgSiz : Int := 60

/-- `MatMissingDiagonal`, as called in `tests/testutils.c` line 68: a row without a diagonal entry, if there is one. -/
def missingDiagonal (A : List (List (Nat × K))) : Option Nat := (List.range A.length).find? fun i => !((A.getD i []).any fun e => e.1 = i)

/-- `MatMult` and `VecAXPY`, `tests/testutils.c` lines 85-86: an entry of `A x - b`. -/
def residualEntry (A : List (List (Nat × K))) (x b : List K) (i : Nat) : K := ((A.getD i []).map fun e => e.2 * x⟦e.1⟧).sum + -1 * b⟦i⟧

/-- `readLinearSystemFromFiles`, `tests/testutils.c` lines 29-96: an error code, or the matrix, the right-hand side and the solution. `none` is a null pointer. Simplifications: a file that cannot be
opened gives its error when it is loaded; creating and destroying objects succeeds; vectors of the wrong size are found by
`MatMult` and `VecAXPY`. -/
def readLinearSystem (eps : K) (nrm : List K → K) (loadMat : List Char → Except Int (List (List (Nat × K)))) (loadVec : List Char → Except Int (List K)) (matfile bfile : List Char)
    (xfile : Option (List Char)) (testmatmult : Bool) : Except Int (List (List (Nat × K)) × List K × Option (List K)) := do
  let A ← loadMat matfile
  let b ← loadVec bfile
  let x ← (match xfile with
    | none => .ok none
    | some f => (loadVec f).map some)
  match missingDiagonal A with
  | some _ => .error loadErrLib
  | none =>
    match testmatmult, x with
    | true, some v =>
      if v.length ≠ A.length ∨ b.length ≠ A.length then .error loadErrArgSiz
      else if nrm ((List.range A.length).map (residualEntry A v b)) < 500 * eps then .ok (A, b, x)
      else .error (-1)
    | _, _ => .ok (A, b, x)

/-- `main`, `tests/runpetsctest.c` lines 33-92: the exit status. `cmpC` and `cmpCpp` are the two comparisons (`runComparisonC`, `runComparison`), `destroy` and `finalize` the error codes of the
clean-up. Simplification: starting PETSc succeeds; what is printed is left out. -/
def petscTestProgram (eps : K) (nrm : List K → K) (loadMat : List Char → Except Int (List (List (Nat × K)))) (loadVec : List Char → Except Int (List K))
    (cmpC cmpCpp : List (List (Nat × K)) × List K × Option (List K) → C Int) (destroy finalize : Int) (argv : List (List Char)) : C Int := do
  if argv.length < 4 then .ok 0
  else do
    let matfile ← rd argv 1
    let bfile ← rd argv 2
    let xfile ← rd argv 3
    let language ← (if 5 ≤ argv.length then rd argv 4 else .ok "c".toList)
    match readLinearSystem eps nrm loadMat loadVec matfile bfile (some xfile) true with
    | .error e => .ok e
    | .ok lp => do
      let r ← (if language = "c++".toList then cmpCpp lp else cmpC lp)
      if r ≠ 0 then .ok r
      else if destroy ≠ 0 then .ok destroy
      else .ok finalize

end

end Blasted
