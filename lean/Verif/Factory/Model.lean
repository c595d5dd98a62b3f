import Verif.Solve.Model

/-!
# Creation of preconditioners from settings

`SRFactory`, `src/solverfactory.cpp` and `include/solverfactory.hpp`; the string conversions of
`include/async_initialization_decl.hpp`; the constructors of the preconditioner classes, as far as their configuration members are concerned.
Simplification: the matrix argument is not part of this model (that it is moved into the object is the subject of the Heap model). The optional build-time block size
`BUILD_BLOCK_SIZE` is taken as undefined, its default (with it, `src/solverfactory.cpp` line 202 passes four template arguments to a template with two).
-/

namespace Blasted

/-- `BlastedSolverType`, `include/solvertypes.h` lines 14-26. -/
inductive SolverType where
  | jacobi | gs | sgs | ilu0 | seqilu0 | sfilu0 | sapilu0 | cscBgs | levelSgs | asyncLevelIlu0 | noPrec | external
deriving Repr, DecidableEq

/-- The exception thrown by `std::invalid_argument`'s constructor with this message. -/
def invalidArg {α : Type} (msg : String) : C α := .error (.throw "std::invalid_argument" msg)

/-- `SRFactory::solverTypeFromString`, `src/solverfactory.cpp` lines 34-64; the strings are those of
`include/solverfactory.hpp` lines 22-43. -/
def solverTypeFromString (s : String) : C SolverType :=
  if s = "jacobi" then .ok .jacobi
  else if s = "gs" then .ok .gs
  else if s = "sgs" then .ok .sgs
  else if s = "ilu0" then .ok .ilu0
  else if s = "seqilu0" then .ok .seqilu0
  else if s = "sfilu0" then .ok .sfilu0
  else if s = "sapilu0" then .ok .sapilu0
  else if s = "cscbgs" then .ok .cscBgs
  else if s = "level_sgs" then .ok .levelSgs
  else if s = "async_level_ilu0" then .ok .asyncLevelIlu0
  else if s = "none" then .ok .noPrec
  else invalidArg "BLASTed: Preconditioner type not available!"

/-- `getFactInitFromString`, `include/async_initialization_decl.hpp` lines 38-49. -/
def getFactInitFromString (s : String) : C FactInit :=
  if s = "init_zero" then .ok .zero
  else if s = "init_original" then .ok .original
  else if s = "init_sgs" then .ok .sgs
  else if s = "init_none" then .ok .none
  else invalidArg "Factor initialization not recongnized!"

/-- `getApplyInitFromString`, `include/async_initialization_decl.hpp` lines 52-61. -/
def getApplyInitFromString (s : String) : C ApplyInit :=
  if s = "init_zero" then .ok .zero
  else if s = "init_jacobi" then .ok .jacobi
  else if s = "init_none" then .ok .none
  else invalidArg "Apply initialization not recongnized!"

/-- The enumerators of Eigen's `StorageOptions`. -/
inductive StorageOptions where
  | colMajor | rowMajor | dontAlign
deriving Repr, DecidableEq

/-- `AsyncSolverSettings`, `include/solverfactory.hpp` lines 47-71. -/
structure Settings where
  prectype : SolverType
  bs : Int
  blockstorage : StorageOptions
  relax : Bool
  thread_chunk_size : Int
  scale : Bool
  nbuildsweeps : Int
  napplysweeps : Int
  fact_inittype : FactInit
  apply_inittype : ApplyInit
  compute_precinfo : Bool
deriving Repr, DecidableEq

/-- The dynamic type of the settings argument: `AsyncSolverSettings`, or some other class derived from `SolverSettings`. -/
inductive SettingsArg where
  | async (s : Settings)
  | other
deriving Repr, DecidableEq

/-- The members of an ILU(0) object that its constructor sets, `include/solverops_ilu0.hpp` lines 70-98 and 142-170. -/
structure IluConf where
  usescaling : Bool
  threadedfactor : Bool
  threadedapply : Bool
  nbuildsweeps : Int
  napplysweeps : Int
  thread_chunk_size : Int
  factinittype : FactInit
  applyinittype : ApplyInit
  compute_precinfo : Bool
deriving Repr, DecidableEq

/-- A preconditioner object: its class and its configuration members. -/
inductive Prec where
  | jacobi
  | chaotic (napplysweeps thread_chunk_size : Int)
  | cscBgs (napplysweeps thread_chunk_size : Int)
  | asyncSgs (napplysweeps : Int) (ainit : ApplyInit) (thread_chunk_size : Int)
  | levelSgs
  | asyncIlu0 (conf : IluConf)
  | asyncLevelIlu0 (conf : IluConf)
  | bjacobi (bs : Nat) (stor : Stor)
  | blockChaotic (bs : Nat) (stor : Stor) (napplysweeps thread_chunk_size : Int)
  | asyncBlockSgs (bs : Nat) (stor : Stor) (napplysweeps : Int) (ainit : ApplyInit) (thread_chunk_size : Int)
  | levelBsgs (bs : Nat) (stor : Stor)
  | asyncBlockIlu0 (bs : Nat) (stor : Stor) (conf : IluConf)
  | asyncLevelBlockIlu0 (bs : Nat) (stor : Stor) (conf : IluConf)
  | noPrec (bs : Nat)
deriving Repr, DecidableEq

/-- Constructor of `AsyncILU0_SRPreconditioner`, `include/solverops_ilu0.hpp` lines 113-118: the parameters are in
the order of the declaration. `src/solverops_ilu0.cpp` lines 220-231. -/
def newAsyncILU0 (nbuildsweeps napplysweeps : Int) (use_scaling : Bool) (thread_chunk_size : Int) (fact_inittype : FactInit)
    (apply_inittype : ApplyInit) (compute_preconditioner_info : Bool) (threadedfactor : Bool := true) (threadedapply : Bool := true) :
    IluConf :=
  { usescaling := use_scaling, threadedfactor := threadedfactor, threadedapply := threadedapply
    nbuildsweeps := nbuildsweeps, napplysweeps := napplysweeps, thread_chunk_size := thread_chunk_size
    factinittype := fact_inittype, applyinittype := apply_inittype, compute_precinfo := compute_preconditioner_info }

/-- Constructor of `AsyncBlockILU0_SRPreconditioner`, `include/solverops_ilu0.hpp` lines 39-44, `src/solverops_ilu0.cpp` lines 20-30: note
the different place of the last three parameters. -/
def newAsyncBlockILU0 (nbuildsweeps napplysweeps : Int) (use_scaling : Bool) (thread_chunk_size : Int) (fact_inittype : FactInit)
    (apply_inittype : ApplyInit) (threadedfactor : Bool := true) (threadedapply : Bool := true) (compute_remainder : Bool := false) :
    IluConf :=
  { usescaling := use_scaling, threadedfactor := threadedfactor, threadedapply := threadedapply
    nbuildsweeps := nbuildsweeps, napplysweeps := napplysweeps, thread_chunk_size := thread_chunk_size
    factinittype := fact_inittype, applyinittype := apply_inittype, compute_precinfo := compute_remainder }

/-- Constructor of `Async_Level_ILU0`, `src/solverops_levels_ilu0.cpp` lines 124-131: the base class constructor is called with
`threadedfactor` in the place of `compute_preconditioner_info` and `true` in the place of `threadedfactor`. -/
def newAsyncLevelILU0 (nbuildsweeps : Int) (use_scaling : Bool) (thread_chunk_size : Int) (fact_inittype : FactInit)
    (threadedfactor : Bool := true) (_compute_remainder : Bool := false) : IluConf :=
  newAsyncILU0 nbuildsweeps 1 use_scaling thread_chunk_size fact_inittype .none threadedfactor true

/-- Constructor of `Async_Level_BlockILU0`, `src/solverops_levels_ilu0.cpp` lines 31-41. -/
def newAsyncLevelBlockILU0 (nbuildsweeps : Int) (use_scaling : Bool) (thread_chunk_size : Int) (fact_inittype : FactInit)
    (threadedfactor : Bool := true) (compute_remainder : Bool := false) : IluConf :=
  newAsyncBlockILU0 nbuildsweeps 1 use_scaling thread_chunk_size fact_inittype .none threadedfactor true compute_remainder

/-- `create_srpreconditioner_of_type<bs,stor>`, `src/solverfactory.cpp` lines 70-123. -/
def createOfType (bs : Nat) (stor : Stor) (o : Settings) : C Prec :=
  if o.prectype = .jacobi then .ok (.bjacobi bs stor)
  else if o.prectype = .gs then .ok (.blockChaotic bs stor o.napplysweeps o.thread_chunk_size)
  else if o.prectype = .sgs then .ok (.asyncBlockSgs bs stor o.napplysweeps o.apply_inittype o.thread_chunk_size)
  else if o.prectype = .ilu0 then
    .ok (.asyncBlockIlu0 bs stor (newAsyncBlockILU0 o.nbuildsweeps o.napplysweeps o.scale o.thread_chunk_size o.fact_inittype
      o.apply_inittype true true o.compute_precinfo))
  else if o.prectype = .seqilu0 then
    .ok (.asyncBlockIlu0 bs stor (newAsyncBlockILU0 o.nbuildsweeps o.napplysweeps o.scale o.thread_chunk_size o.fact_inittype
      o.apply_inittype false false o.compute_precinfo))
  else if o.prectype = .sfilu0 then
    .ok (.asyncBlockIlu0 bs stor (newAsyncBlockILU0 o.nbuildsweeps o.napplysweeps o.scale o.thread_chunk_size o.fact_inittype
      o.apply_inittype false true o.compute_precinfo))
  else if o.prectype = .sapilu0 then
    .ok (.asyncBlockIlu0 bs stor (newAsyncBlockILU0 o.nbuildsweeps o.napplysweeps o.scale o.thread_chunk_size o.fact_inittype
      o.apply_inittype true false o.compute_precinfo))
  else if o.prectype = .levelSgs then .ok (.levelBsgs bs stor)
  else if o.prectype = .asyncLevelIlu0 then
    .ok (.asyncLevelBlockIlu0 bs stor (newAsyncLevelBlockILU0 o.nbuildsweeps o.scale o.thread_chunk_size o.fact_inittype true
      o.compute_precinfo))
  else if o.prectype = .noPrec then .ok (.noPrec bs)
  else invalidArg "Invalid preconditioner!"

/-- The branch for block size 1 of `create_preconditioner`, `src/solverfactory.cpp` lines 139-192. -/
def createScalar (o : Settings) : C Prec :=
  if o.prectype = .jacobi then .ok .jacobi
  else if o.prectype = .gs then .ok (.chaotic o.napplysweeps o.thread_chunk_size)
  else if o.prectype = .cscBgs then .ok (.cscBgs o.napplysweeps o.thread_chunk_size)
  else if o.prectype = .sgs then .ok (.asyncSgs o.napplysweeps o.apply_inittype o.thread_chunk_size)
  else if o.prectype = .levelSgs then .ok .levelSgs
  else if o.prectype = .ilu0 then
    .ok (.asyncIlu0 (newAsyncILU0 o.nbuildsweeps o.napplysweeps o.scale o.thread_chunk_size o.fact_inittype o.apply_inittype
      o.compute_precinfo true true))
  else if o.prectype = .seqilu0 then
    .ok (.asyncIlu0 (newAsyncILU0 o.nbuildsweeps o.napplysweeps o.scale o.thread_chunk_size o.fact_inittype o.apply_inittype
      o.compute_precinfo false false))
  else if o.prectype = .sfilu0 then
    .ok (.asyncIlu0 (newAsyncILU0 o.nbuildsweeps o.napplysweeps o.scale o.thread_chunk_size o.fact_inittype o.apply_inittype
      o.compute_precinfo false true))
  else if o.prectype = .sapilu0 then
    .ok (.asyncIlu0 (newAsyncILU0 o.nbuildsweeps o.napplysweeps o.scale o.thread_chunk_size o.fact_inittype o.apply_inittype
      o.compute_precinfo true false))
  else if o.prectype = .asyncLevelIlu0 then
    .ok (.asyncLevelIlu0 (newAsyncLevelILU0 o.nbuildsweeps o.scale o.thread_chunk_size o.fact_inittype true o.compute_precinfo))
  else if o.prectype = .noPrec then .ok (.noPrec 1)
  else invalidArg "Invalid preconditioner!"

/-- `SRFactory::create_preconditioner`, `src/solverfactory.cpp` lines 131-230. -/
def createPreconditioner : SettingsArg → C Prec
  | .other => .error (.throw "std::bad_cast" "")
  | .async o =>
    if o.bs = 1 then createScalar o
    else if o.blockstorage = .rowMajor then
      if o.bs = 4 then createOfType 4 .rowMajor o
      else invalidArg ("Block size " ++ toString o.bs ++ " not supported for row major!")
    else if o.blockstorage = .colMajor then
      if o.bs = 4 then createOfType 4 .colMajor o
      else if o.bs = 5 then createOfType 5 .colMajor o
      else invalidArg ("Block size " ++ toString o.bs ++ " not supported for column major!")
    else invalidArg "Block ordering must be either rowmajor or colmajor!"

/-- `relaxationAvailable` of each class: `include/solverops_jacobi.hpp` lines 28, 67, `include/solverops_sgs.hpp` lines 44, 91, 133,
`include/solverops_levels_sgs.hpp` lines 22, 57, `include/solverops_ilu0.hpp` lines 51, 125, `include/solverops_base.hpp` line 91; the chaotic relaxations inherit
from Jacobi. -/
def Prec.relaxationAvailable : Prec → Bool
  | .jacobi | .chaotic .. | .asyncSgs .. | .levelSgs => true
  | .bjacobi .. | .blockChaotic .. | .asyncBlockSgs .. | .levelBsgs .. => true
  | .cscBgs .. | .asyncIlu0 .. | .asyncLevelIlu0 .. | .asyncBlockIlu0 .. | .asyncLevelBlockIlu0 .. | .noPrec .. => false

end Blasted
