import Verif.Relax.Model
import Verif.Factory.Model

/-!
# The Richardson callback for PETSc

`relax_local_blasted` and `computeTotalTimes` of `src/blasted_petsc.cpp`, on top of the relaxations of
`Relax/Model.lean`. Vectors are the local arrays PETSc hands out; timing calls are left out of the callback.
-/

namespace Blasted

variable {R M K : Type}

/-- What a preconditioner object holds after `compute`: the matrix, the inverse diagonal and the levels
(`include/solverops_jacobi.hpp`, `include/solverops_sgs.hpp`, `include/solverops_levels_sgs.hpp`; scalar and block classes
are the two instances). `sqrt` and `sq` belong to the norm of the Jacobi stopping rule, `mix` to the memory. -/
structure RelaxObj (R M K : Type) where
  A : SR R
  dinv : List R
  levels : List Nat
  sqrt : K → K
  sq : M → K
  mix : Set M → Set M

section
variable [Ring R] [AddCommGroup M] [Module R M] [Field K] [LinearOrder K]

/-- The possible outcomes of the virtual function `apply_relax` with parameters `p`, for each class:
`src/solverops_jacobi.cpp` lines 66-121 and 174-220, `src/relaxation_chaotic.cpp` lines 48-71 and 109-123,
`src/solverops_sgs.cpp` lines 85-115, 179-202 and 268-272, `src/solverops_levels_sgs.cpp` lines 90-126 and 191-220,
`src/solverops_ilu0.cpp` lines 211-215 and 378-382, `src/solverops_levels_ilu0.cpp` lines 107-111 and 194-198,
`src/solverops_base.cpp` lines 40-42. -/
inductive ApplyRelax (o : RelaxObj R M K) (p : SolveParams K) (b x : List M) : Prec → C (List M) → Prop
  | jacobi (ord : Nat → List Nat) (g : List M) (hord : ∀ t, (ord t).Perm (List.range o.A.nbrows))
      (hg : g.length = o.A.nbrows) :
      ApplyRelax o p b x .jacobi (jacobiRelax o.sqrt o.sq p o.A o.dinv b ord g x)
  | bjacobi (bs : Nat) (stor : Stor) (ord : Nat → List Nat) (g : List M)
      (hord : ∀ t, (ord t).Perm (List.range o.A.nbrows)) (hg : g.length = o.A.nbrows) :
      ApplyRelax o p b x (.bjacobi bs stor) (jacobiRelax o.sqrt o.sq p o.A o.dinv b ord g x)
  | chaotic (k c : Int) (x' : List M) (h : AsyncChaoticRelax o.A o.dinv o.mix p.maxits b x x') :
      ApplyRelax o p b x (.chaotic k c) (.ok x')
  | blockChaotic (bs : Nat) (stor : Stor) (k c : Int) (x' : List M)
      (h : AsyncChaoticRelax o.A o.dinv o.mix p.maxits b x x') :
      ApplyRelax o p b x (.blockChaotic bs stor k c) (.ok x')
  | sgs (k : Int) (i : ApplyInit) (c : Int) (x' : List M) (h : AsyncSgsRelax o.A o.dinv o.mix p.maxits b x x') :
      ApplyRelax o p b x (.asyncSgs k i c) (.ok x')
  | blockSgs (bs : Nat) (stor : Stor) (k : Int) (i : ApplyInit) (c : Int) (x' : List M)
      (h : AsyncSgsRelax o.A o.dinv o.mix p.maxits b x x') :
      ApplyRelax o p b x (.asyncBlockSgs bs stor k i c) (.ok x')
  | levelSgs (x' : List M) (h : AsyncLevelSgsRelax o.A o.dinv o.mix o.levels b p.maxits x x') :
      ApplyRelax o p b x .levelSgs (.ok x')
  | levelBsgs (bs : Nat) (stor : Stor) (x' : List M)
      (h : AsyncLevelSgsRelax o.A o.dinv o.mix o.levels b p.maxits x x') :
      ApplyRelax o p b x (.levelBsgs bs stor) (.ok x')
  | cscBgs (k c : Int) : ApplyRelax o p b x (.cscBgs k c)
      (.error (.throw "std::runtime_error" "CSC_BGS relaxation not implemented!"))
  | ilu (c : IluConf) : ApplyRelax o p b x (.asyncIlu0 c)
      (.error (.throw "std::runtime_error" "ILU relaxation not implemented!"))
  | levelIlu (c : IluConf) : ApplyRelax o p b x (.asyncLevelIlu0 c)
      (.error (.throw "std::runtime_error" "ILU relaxation not implemented!"))
  | blockIlu (bs : Nat) (stor : Stor) (c : IluConf) : ApplyRelax o p b x (.asyncBlockIlu0 bs stor c)
      (.error (.throw "std::runtime_error" "ILU relaxation not implemented!"))
  | levelBlockIlu (bs : Nat) (stor : Stor) (c : IluConf) : ApplyRelax o p b x (.asyncLevelBlockIlu0 bs stor c)
      (.error (.throw "std::runtime_error" "ILU relaxation not implemented!"))
  | noPrec (bs : Nat) : ApplyRelax o p b x (.noPrec bs) (.ok x)

/-- What the Richardson callback leaves behind: the vector, the number of iterations it reports and whether it reports
`PCRICHARDSON_CONVERGED_ITS`. -/
structure RichardsonOut (M : Type) where
  x : List M
  outits : Int
  convergedIts : Bool

/-- The parameters set by the callback, `src/blasted_petsc.cpp` line 532. A negative iteration count makes no step
(`step < maxits`). -/
def petscRelaxParams (rtol abstol dtol : K) (it : Int) : SolveParams K := ⟨rtol, abstol, dtol, false, it.toNat⟩

/-- The initial guess, `src/blasted_petsc.cpp` lines 534-536. -/
def petscGuess (guesszero : Bool) (x : List M) : List M := if guesszero then List.replicate x.length 0 else x

/-- `relax_local_blasted`, `src/blasted_petsc.cpp` lines 519-576. An exception of the preconditioner escapes. -/
def PetscRichardson (o : RelaxObj R M K) (prec : Prec) (rtol abstol dtol : K) (it : Int) (guesszero : Bool)
    (b x : List M) (res : C (RichardsonOut M)) : Prop :=
  ∃ r, ApplyRelax o (petscRelaxParams rtol abstol dtol it) b (petscGuess guesszero x) prec r ∧
    res = (do
      let x' ← r
      .ok ⟨x', it, true⟩)

end

/-- The timings of a `Blasted_data` or of the list, `include/blasted_petsc.h` lines 58-61 and 80-83. -/
structure Times (K : Type) where
  factorwall : K
  applywall : K
  factorcpu : K
  applycpu : K
deriving DecidableEq, Repr

/-- `computeTotalTimes`, `src/blasted_petsc.cpp` lines 723-735: `nodes` are the timings of the contexts in list order and `old`
the members of the list object before the call. -/
def computeTotalTimes [Zero K] [Add K] (nodes : List (Times K)) (_old : Times K) : Times K :=
  nodes.foldl (fun s nd => ⟨s.factorwall + nd.factorwall, s.applywall + nd.applywall, s.factorcpu + nd.factorcpu,
    s.applycpu + nd.applycpu⟩) ⟨0, 0, 0, 0⟩

end Blasted
