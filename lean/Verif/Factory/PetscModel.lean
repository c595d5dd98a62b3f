import Verif.Factory.Model

/-!
# The PETSc interface

`src/blasted_petsc.cpp`. PETSc itself is represented by its options database and by the tree of solvers it has built.
-/

namespace Blasted

/-- `BLASTED_SEQUENTIAL_SYMBOL`, `include/solvertypes.h` line 29. -/
def seqSymbol : Int := -1

/-- The fields of `Blasted_data` (`include/blasted_petsc.h` lines 31-65) that hold settings. Simplification: character arrays are strings;
timings are left out. -/
structure PetscCtx where
  bs : Int
  prectypestr : String
  prectype : SolverType
  scale : Bool
  threadchunksize : Int
  nbuildsweeps : Int
  napplysweeps : Int
  factinittype : String
  applyinittype : String
  compute_precinfo : Bool
  first_setup_done : Bool
deriving Repr, DecidableEq

/-- The options database, as far as BLASTed asks for it: `none` means not set. `async_sweeps` holds the (at most two) integers found. -/
structure PetscOpts where
  pc_type : Option String
  async_sweeps : Option (List Int)
  use_symmetric_scaling : Option Bool
  async_fact_init_type : Option String
  async_apply_init_type : Option String
  thread_chunk_size : Option Int
  compute_preconditioner_info : Option Bool
deriving Repr, DecidableEq

/-- `PetscOptionsGetString` with a buffer of `BLASTED_OPT_STRLEN` (`include/blasted_petsc.h` line 24) characters: the last one is the terminator. -/
def truncated (s : String) : String := String.ofList (s.toList.take 19)

/-- `get_int_petscoptions`, `src/blasted_petsc.cpp` lines 31-41. -/
def optOrAbort {α : Type} : Option α → C α
  | some s => .ok s
  | none => .error .abort

/-- `get_string_petscoptions`, `src/blasted_petsc.cpp` lines 76-85. -/
def stringOrAbort : Option String → C String
  | some s => .ok (truncated s)
  | none => .error .abort

/-- `get_bool_petscoptions`, `src/blasted_petsc.cpp` lines 59-71. -/
def optOrThrow (tag : String) : Option Bool → C Bool
  | some b => .ok b
  | none => .error (.throw "std::runtime_error" ("Bool option " ++ tag ++ " not set!"))

/-- `src/blasted_petsc.cpp` lines 152-163: the two sweep counts. -/
def readSweeps : Option (List Int) → C (Int × Int)
  | some (a :: b :: _) => .ok (a, b)
  | _ => .error .abort

/-- `src/blasted_petsc.cpp` lines 165-173. -/
def readFactOptions (ptype : SolverType) (o : PetscOpts) (ctx : PetscCtx) : C PetscCtx :=
  if ptype = .ilu0 ∨ ptype = .sapilu0 ∨ ptype = .asyncLevelIlu0 then do
    let sc ← optOrThrow "-blasted_use_symmetric_scaling" o.use_symmetric_scaling
    let fi ← stringOrAbort o.async_fact_init_type
    .ok { ctx with scale := sc, factinittype := fi }
  else .ok { ctx with scale := false, factinittype := "NA" }

/-- `src/blasted_petsc.cpp` lines 148-185: the parameters of asynchronous iterations. -/
def readAsyncOptions (ptype : SolverType) (o : PetscOpts) (ctx : PetscCtx) : C (PetscCtx × Int × Int) :=
  if ptype ≠ .jacobi ∧ ptype ≠ .levelSgs ∧ ptype ≠ .noPrec then do
    let sweeps ← readSweeps o.async_sweeps
    let ctx ← readFactOptions ptype o ctx
    let ai ← stringOrAbort o.async_apply_init_type
    let tcs ← optOrAbort o.thread_chunk_size
    .ok ({ ctx with applyinittype := ai, threadchunksize := tcs }, sweeps)
  else .ok (ctx, 1, 1)

/-- `setupDataFromOptions`, `src/blasted_petsc.cpp` lines 136-208, with the factory's `solverTypeFromString`. -/
def setupDataFromOptions (fromString : String → C SolverType) (o : PetscOpts) (ctx : PetscCtx) : C PetscCtx := do
  let s ← stringOrAbort o.pc_type
  let ptype ← fromString s
  let r ← readAsyncOptions ptype o { ctx with prectypestr := s }
  .ok { r.1 with compute_precinfo := o.compute_preconditioner_info.getD false, prectype := ptype,
                 nbuildsweeps := r.2.1, napplysweeps := r.2.2, first_setup_done := true }

/-- `src/blasted_petsc.cpp` lines 115-123. -/
def checkSeqApply (ctx : PetscCtx) (s : Settings) : C Settings :=
  if ctx.napplysweeps = seqSymbol then
    if s.prectype ≠ .ilu0 ∧ s.prectype ≠ .sapilu0 then
      .error (.throw "std::runtime_error" " Seq. appl. only supported with async ILU factorization!")
    else .ok { s with napplysweeps := 1, prectype := .sapilu0 }
  else .ok s

/-- `src/blasted_petsc.cpp` lines 124-132. -/
def checkSeqBuild (ctx : PetscCtx) (s : Settings) : C Settings :=
  if ctx.nbuildsweeps = seqSymbol then
    if s.prectype ≠ .ilu0 ∧ s.prectype ≠ .sfilu0 then
      .error (.throw "std::runtime_error" " Seq. fact. only supported with async triangular application!")
    else .ok { s with nbuildsweeps := 1, prectype := .sfilu0 }
  else .ok s

/-- `setSweeps_checkSeq`, `src/blasted_petsc.cpp` lines 88-133. -/
def setSweepsCheckSeq (ctx : PetscCtx) (s : Settings) : C Settings :=
  let s := { s with nbuildsweeps := ctx.nbuildsweeps, napplysweeps := ctx.napplysweeps }
  if s.prectype = .seqilu0 then .ok s
  else if (ctx.napplysweeps = seqSymbol ∧ ctx.nbuildsweeps = seqSymbol) ∨ (ctx.napplysweeps = seqSymbol ∧ s.prectype = .sfilu0) ∨
      (ctx.nbuildsweeps = seqSymbol ∧ s.prectype = .sapilu0) then
    .ok { s with prectype := .seqilu0, nbuildsweeps := 1, napplysweeps := 1 }
  else do
    let s ← checkSeqApply ctx s
    checkSeqBuild ctx s

/-- `src/blasted_petsc.cpp` lines 266-270. -/
def factInitFor (ctx : PetscCtx) (s : Settings) : C FactInit :=
  if s.prectype = .ilu0 ∨ s.prectype = .sapilu0 ∨ s.prectype = .asyncLevelIlu0 then getFactInitFromString ctx.factinittype
  else .ok .none

/-- `src/blasted_petsc.cpp` lines 263-273. -/
def setInits (ctx : PetscCtx) (s : Settings) : C Settings :=
  if s.prectype ≠ .jacobi ∧ s.prectype ≠ .levelSgs ∧ s.prectype ≠ .noPrec then do
    let fi ← factInitFor ctx s
    let ai ← getApplyInitFromString ctx.applyinittype
    .ok { s with fact_inittype := fi, apply_inittype := ai }
  else .ok s

/-- The settings passed to the factory by `createNewPreconditioner`, `src/blasted_petsc.cpp` lines 249-275. `g` holds the indeterminate values of
the members of the local variable `settings`. -/
def petscSettings (fromString : String → C SolverType) (g : Settings) (ctx : PetscCtx) : C Settings := do
  let t ← fromString ctx.prectypestr
  let s ← setSweepsCheckSeq ctx { g with prectype := t, bs := ctx.bs, blockstorage := .colMajor, scale := ctx.scale }
  let s ← setInits ctx { s with thread_chunk_size := ctx.threadchunksize, compute_precinfo := ctx.compute_precinfo }
  .ok { s with relax := false }

/-- `createNewPreconditioner`, `src/blasted_petsc.cpp` lines 216-311, without the part that takes the matrix from PETSc. Block sizes that
are not supported make the function return a PETSc error. -/
def createNewPreconditioner (fromString : String → C SolverType) (create : SettingsArg → C Prec) (g : Settings) (ctx : PetscCtx) : C Prec := do
  let s ← petscSettings fromString g ctx
  if ctx.bs ≤ 0 ∨ ctx.bs > 5 ∨ ctx.bs = 2 then
    .error (.throw "PetscErrorCode" "PETSC_ERR_SUP")
  else create (.async s)

/-- The first part of `compute_preconditioner_blasted`, `src/blasted_petsc.cpp` lines 411-414: the object in use afterwards. -/
def firstSetup (o : PetscOpts) (g : Settings) (ctx : PetscCtx) : C (PetscCtx × Prec) := do
  let ctx ← setupDataFromOptions solverTypeFromString o ctx
  let p ← createNewPreconditioner solverTypeFromString createPreconditioner g ctx
  .ok (ctx, p)

end Blasted
