import Verif.Factory.PetscModel

/-!
# Setting up BLASTed in a tree of PETSc solvers, and the life of a context

`src/blasted_petsc.cpp`, with the heap objects the functions allocate and delete. PETSc itself is represented by the tree of solvers it has built, the
table of contexts registered with its shell preconditioners, and the calls it makes to the registered functions.
-/

namespace Blasted

/-- A factory pointer: null, an object of the caller, or an object that `setup_blasted_stack` has allocated. -/
inductive FactPtr where
  | null
  | user (k : Nat)
  | heap (obj : Nat)
deriving Repr, DecidableEq

/-- The two virtual functions of a factory, `include/solverfactory.hpp` lines 70-85. -/
structure Factory where
  fromString : String → C SolverType
  create : SettingsArg → C Prec

/-- `SRFactory`. -/
def srFactory : Factory := ⟨solverTypeFromString, createPreconditioner⟩

/-- A KSP object with its PC, as the setup functions see it: block Jacobi or additive Schwarz with its local subdomain solvers; multigrid
(`mg` or `gamg`) with the coarse solver and the smoothers of the levels 1, 2, ...; `ksp` with the inner solver; `shell`
with the number of the PC object and the type and block size of the matrix; any other PC. -/
inductive Ksp where
  | blocks (asm : Bool) (subs : List Ksp)
  | mg (gamg : Bool) (coarse : Ksp) (smoothers : List Ksp)
  | inner (sub : Ksp)
  | shell (pc : Nat) (mtype : String) (matbs : Int)
  | other

/-- `Blasted_node`, `include/blasted_petsc.h` lines 31-65: `obj` is the number of the object itself, `bprec` the number of the preconditioner object and its
configuration, `infolist` the number of the diagnostics object and how many items it holds. Timings are left out. -/
structure Node where
  obj : Nat
  ctx : PetscCtx
  bprec : Option (Nat × Prec)
  infolist : Option (Nat × Nat)
  bfactory : FactPtr
deriving Repr

/-- `Blasted_data_list`, `include/blasted_petsc.h` lines 72-86, with the surrounding state: the live heap objects, the number of the next one, and the
contexts and relaxation functions registered with shell PCs (latest first). -/
structure PState where
  ctxlist : List Node
  size : Int
  bfactory : FactPtr
  defaultfactory : Bool
  live : List Nat
  next : Nat
  reg : List (Nat × Nat)
  richardson : List Nat
deriving Repr

/-- `newBlastedDataList`, `src/blasted_petsc.cpp` lines 331-340, in a program that has not used BLASTed yet. -/
def newBlastedDataList : PState := ⟨[], 0, .null, false, [], 0, [], []⟩

/-- `newBlastedDataContext` and `appendBlastedDataContext`, `src/blasted_petsc.cpp` lines 368-389: `ctx0` holds the indeterminate values of the members that are
not initialized, among them `bfactory`, which is assigned at once at line 647. -/
def appendContext (ctx0 : PetscCtx) (st : PState) : PState :=
  { st with
    ctxlist := ⟨st.next, { ctx0 with first_setup_done := false }, none, none, st.bfactory⟩ :: st.ctxlist
    size := st.size + 1, live := st.next :: st.live, next := st.next + 1 }

/-- Lines 678-683 of `src/blasted_petsc.cpp`. -/
def isBlockMat (mtype : String) : Bool :=
  mtype = "baij" ∨ mtype = "mpibaij" ∨ mtype = "seqbaij" ∨ mtype = "baijmkl" ∨ mtype = "mpibaijmkl" ∨ mtype = "seqbaijmkl"

/-- Lines 684-686 of `src/blasted_petsc.cpp`. -/
def isLocalMat (mtype : String) : Bool :=
  mtype = "seqaij" ∨ mtype = "seqbaij" ∨ mtype = "seqaijmkl" ∨ mtype = "seqbaijmkl"

/-- Lines 704-718 of `src/blasted_petsc.cpp`: the context `nd`, the first of the list `rest`, is registered with the PC. Note that `prectype` has not been set yet. -/
def registerPc (pc : Nat) (mtype : String) (matbs : Int) (nd : Node) (rest : List Node) (st : PState) : PState :=
  { st with
    ctxlist := { nd with ctx := { nd.ctx with bs := if isBlockMat mtype then matbs else 1, first_setup_done := false } } :: rest
    reg := (pc, nd.obj) :: st.reg
    richardson := if nd.ctx.prectype ≠ .ilu0 ∧ nd.ctx.prectype ≠ .cscBgs ∧ nd.ctx.prectype ≠ .noPrec then pc :: st.richardson
                  else st.richardson }

/-- `setup_localpreconditioner_blasted`, `src/blasted_petsc.cpp` lines 663-721, for a KSP with a shell PC and the context at the head of the list. The
second component is true if an error code is returned. -/
def setupLocal (pc : Nat) (mtype : String) (matbs : Int) (st : PState) : PState × Bool :=
  match st.ctxlist with
  | [] => (st, true)
  | nd :: rest => if isLocalMat mtype then (registerPc pc mtype matbs nd rest st, false) else (st, true)

/-- The part of `setup_blasted_stack` before the call, `src/blasted_petsc.cpp` lines 657-659. -/
def allocFactory (st : PState) : PState :=
  { st with bfactory := .heap st.next, defaultfactory := true, live := st.next :: st.live, next := st.next + 1 }

mutual
/-- `setup_blasted_stack_ext`, `src/blasted_petsc.cpp` lines 578-653. The parameter `fctry` is not used by the code and left out here (see `setupStackExt`). The nested
calls of `setup_blasted_stack` are `setupExt` after `allocFactory`. -/
def setupExt (ctx0 : PetscCtx) : Ksp → PState → PState × Bool
  | .blocks _ subs, st => setupOnly ctx0 subs st
  | .mg _ coarse smoothers, st =>
    match setupList ctx0 smoothers st with
    | (st, true) => (st, true)
    | (st, false) => setupExt ctx0 coarse (allocFactory st)
  | .inner sub, st => setupExt ctx0 sub (allocFactory st)
  | .shell pc mtype matbs, st => setupLocal pc mtype matbs (appendContext ctx0 st)
  | .other, st => (st, false)

/-- `src/blasted_petsc.cpp` lines 605-609: exactly one local subdomain is supported. -/
def setupOnly (ctx0 : PetscCtx) : List Ksp → PState → PState × Bool
  | [], st => (st, true)
  | sub :: rest, st => if rest.isEmpty then setupExt ctx0 sub (allocFactory st) else (st, true)

/-- `src/blasted_petsc.cpp` lines 617-628: the smoothers of the levels. -/
def setupList (ctx0 : PetscCtx) : List Ksp → PState → PState × Bool
  | [], st => (st, false)
  | s :: rest, st =>
    match setupExt ctx0 s (allocFactory st) with
    | (st, true) => (st, true)
    | (st, false) => setupList ctx0 rest st
end

/-- `setup_blasted_stack`, `src/blasted_petsc.cpp` lines 655-661. -/
def setupStack (ctx0 : PetscCtx) (k : Ksp) (st : PState) : PState × Bool := setupExt ctx0 k (allocFactory st)

/-- `setup_blasted_stack_ext` with all its parameters: `fctry` is not used, see lines 578-653 of `src/blasted_petsc.cpp`. -/
def setupStackExt (ctx0 : PetscCtx) (k : Ksp) (_fctry : FactPtr) (st : PState) : PState × Bool := setupExt ctx0 k st

/-! ## Calls made by PETSc -/

/-- What the calls of PETSc depend on: the caller's factories, the options database, and the indeterminate initial values of local settings. -/
structure PEnv where
  user : Nat → Factory
  opts : PetscOpts
  g : Settings

/-- The factory behind a pointer; calling through a null pointer or an object that has been deleted is undefined behaviour. -/
def derefFactory (env : PEnv) (st : PState) : FactPtr → C Factory
  | .null => .error .ub
  | .user k => .ok (env.user k)
  | .heap k => if k ∈ st.live then .ok srFactory else .error .ub

/-- The node registered with a PC: `PCShellGetContext`. -/
def PState.nodeOf (st : PState) (pc : Nat) : Option Node :=
  (st.reg.lookup pc).bind fun o => st.ctxlist.find? fun nd => nd.obj = o

/-- Writes through a pointer to the node with object number `o`. -/
def PState.setNode (st : PState) (o : Nat) (f : Node → Node) : PState :=
  { st with ctxlist := st.ctxlist.map fun nd => if nd.obj = o then f nd else nd }

/-- `delete p` for a live object or, with `none`, a null pointer; deleting anything else is undefined behaviour. -/
def PState.del (st : PState) : Option Nat → C PState
  | none => .ok st
  | some k => if k ∈ st.live then .ok { st with live := st.live.erase k } else .error .ub

/-- The fields of a context after a successful `setupDataFromOptions`, `src/blasted_petsc.cpp` lines 195-201. -/
def Node.afterOptions (ctx : PetscCtx) (nd : Node) : Node := { nd with ctx := ctx, bprec := none }

/-- The fields of a context after the end of `createNewPreconditioner`, `src/blasted_petsc.cpp` lines 301-308. -/
def Node.created (k : Nat) (p : Prec) (nd : Node) : Node :=
  { nd with bprec := some (k, p), infolist := if nd.ctx.compute_precinfo then some (k + 1, 0) else none }

/-- Heap effects of `createNewPreconditioner`: the old preconditioner object is deleted before, at line 229, but its pointer is null here. -/
def PState.created (st : PState) (nd : Node) (p : Prec) : PState :=
  let st' := st.setNode nd.obj (Node.created st.next p)
  if nd.ctx.compute_precinfo then { st' with live := st.next :: (st.next + 1) :: st.live, next := st.next + 2 }
  else { st' with live := st.next :: st.live, next := st.next + 1 }

/-- `updatePreconditioner`, `src/blasted_petsc.cpp` lines 314-327: calling `compute` through a null pointer or for an object that has been deleted,
or adding to a diagnostics list that does not exist (any more) is undefined behaviour. Simplification: the numerical computation is not part of this model. -/
def updatePreconditioner (st : PState) (nd : Node) : PState × Option Fail :=
  match nd.bprec with
  | none => (st, some .ub)
  | some b =>
    if b.1 ∉ st.live then (st, some .ub)
    else if nd.ctx.compute_precinfo then
      match nd.infolist with
      | none => (st, some .ub)
      | some i =>
        if i.1 ∉ st.live then (st, some .ub)
        else (st.setNode nd.obj fun nd => { nd with infolist := some (i.1, i.2 + 1) }, none)
    else (st, none)

/-- `compute_preconditioner_blasted`, `src/blasted_petsc.cpp` lines 403-430, for the PC number `pc`: the state afterwards and, if it does not return normally, how it fails. If no
context is registered PETSc does not call it; if the registered context has been deleted, its use is undefined behaviour. -/
def computePc (env : PEnv) (pc : Nat) (st : PState) : PState × Option Fail :=
  match st.nodeOf pc with
  | none => (st, if (st.reg.lookup pc).isSome then some .ub else none)
  | some nd =>
    if nd.ctx.first_setup_done then updatePreconditioner st nd
    else
      match derefFactory env st nd.bfactory with
      | .error e => (st, some e)
      | .ok f =>
        match setupDataFromOptions f.fromString env.opts nd.ctx with
        | .error e => (st, some e)
        | .ok ctx =>
          match createNewPreconditioner f.fromString f.create env.g ctx with
          | .error e => (st.setNode nd.obj (Node.afterOptions ctx), some e)
          | .ok p =>
            let st' := (st.setNode nd.obj (Node.afterOptions ctx)).created (nd.afterOptions ctx) p
            updatePreconditioner st' ((nd.afterOptions ctx).created st.next p)

/-- `cleanup_blasted`, `src/blasted_petsc.cpp` lines 391-401. The pointer is not reset. -/
def cleanupPc (pc : Nat) (st : PState) : C PState :=
  match st.nodeOf pc with
  | none => .error .ub
  | some nd => st.del (nd.bprec.map Prod.fst)

/-- `KSPDestroy` of the outermost solver, as far as BLASTed is concerned: `cleanup_blasted` is called once for each shell PC with a registered context. -/
def kspDestroy (st : PState) : C PState := forList (st.reg.map Prod.fst) cleanupPc st

/-- One round of the loop of `destroyBlastedDataList`, `src/blasted_petsc.cpp` lines 349-362. -/
def destroyNode (nd : Node) (st : PState) : C PState := do
  let st ← st.del (nd.infolist.map Prod.fst)
  let st ← st.del (some nd.obj)
  .ok { st with ctxlist := st.ctxlist.tail, size := st.size - 1 }

/-- The factory is deleted if it is the default one, `src/blasted_petsc.cpp` lines 344-347. -/
def destroyFactory (st : PState) : C PState :=
  if st.defaultfactory then
    match st.bfactory with
    | .null => .ok { st with defaultfactory := false }
    | .user _ => .error .ub
    | .heap k => do
      let st ← st.del (some k)
      .ok { st with defaultfactory := false }
  else .ok st

/-- `destroyBlastedDataList`, `src/blasted_petsc.cpp` lines 342-366. -/
def destroyList (st : PState) : C PState := do
  let st ← destroyFactory st
  let st ← forList st.ctxlist destroyNode st
  if st.size ≠ 0 then .error (.throw "std::logic_error" "Could not delete Blasted_data_list properly!")
  else .ok st

end Blasted
