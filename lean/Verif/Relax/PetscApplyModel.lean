import Verif.Relax.PetscModel
import Verif.Solve.BgsModel

/-!
# The application callback for PETSc

`apply_local_blasted` of `src/blasted_petsc.cpp`, on top of the applications of `Solve/Model.lean`, `Solve/BgsModel.lean` and
`Relax/Model.lean`. Vectors are the local arrays PETSc hands out. The clocks are parameters: the values they return at the four calls.
-/

namespace Blasted

variable {R M K : Type}

/-- What a scalar preconditioner object holds after `compute`, besides the work vector `ytemp`: the matrix, the inverse diagonal
(`include/solverops_jacobi.hpp` lines 60-85), the levels (`include/solverops_levels_sgs.hpp` lines 40-75,
`include/solverops_levels_ilu0.hpp`), the factors and the scaling vector (`include/solverops_ilu0.hpp` lines 129-160) and the compressed
columns (`include/solverops_sgs.hpp` lines 137-155). Each class has some of them. `mix` belongs to the memory. -/
structure ScalarPC (K : Type) where
  A : SR K
  dinv : List K
  levels : List Nat
  ilu : List K
  scale : Option (List K)
  csc : SC K
  mix : Set K → Set K

/-- What a block preconditioner object holds after `compute`, besides `ytemp`: `include/solverops_jacobi.hpp` lines 20-50,
`include/solverops_levels_sgs.hpp` lines 10-40, `include/solverops_levels_ilu0.hpp`, `include/solverops_ilu0.hpp` lines 54-90. -/
structure BlockPC (K : Type) (bs : Nat) where
  A : SR (Matrix (Fin bs) (Fin bs) K)
  dinv : List (Matrix (Fin bs) (Fin bs) K)
  levels : List Nat
  ilu : List (Matrix (Fin bs) (Fin bs) K)
  scale : Option (List K)
  mix : Set (Fin bs → K) → Set (Fin bs → K)

section scalar
variable [Field K] [DecidableEq K]

/-- The outcomes of a threaded ILU application that asks for no initialisation: the lower sweeps run, then the second `switch` throws
(`src/solverops_ilu0.cpp` lines 122-134 and 283-298). -/
def iluInitThrow : Fail := .throw "std::runtime_error" " scalar_ilu0_apply: Invalid init type!"

/-- The possible outcomes (result and work vector) of the virtual function `apply` of the scalar classes, with argument `r`, old contents
`z` of the result and `y` of the work vector `ytemp`: `src/solverops_jacobi.cpp` lines 165-171, `src/relaxation_chaotic.cpp` lines 84-106,
`src/solverops_sgs.cpp` lines 148-177 and 231-266, `src/solverops_levels_sgs.cpp` lines 160-189, `src/solverops_ilu0.cpp` lines 371-376,
`src/solverops_levels_ilu0.cpp` lines 148-192, `src/solverops_base.cpp` lines 31-37. A negative number of sweeps makes none. The
column-oriented Gauss-Seidel is that of one thread. -/
inductive ScalarApply (o : ScalarPC K) (r z y : List K) : Prec → C (List K × List K) → Prop
  | jacobi (ord : List Nat) (hord : ord.Perm (List.range o.A.nbrows)) :
      ScalarApply o r z y .jacobi (do
        let z' ← jacobiApply o.A.nbrows o.dinv ord r z
        .ok (z', y))
  | chaotic (k c : Int) (z' : List K) (h : AsyncChaoticRelax o.A o.dinv o.mix k.toNat r z z') :
      ScalarApply o r z y (.chaotic k c) (.ok (z', y))
  | cscBgs (k c : Int) (ord0 : List Nat) (ord : Nat → List Nat) (g : List K) (h0 : ord0.Perm (List.range o.A.nbrows))
      (hord : ∀ t, (ord t).Perm (List.range o.A.nbrows)) (hg : g.length = o.A.nbrows) :
      ScalarApply o r z y (.cscBgs k c) (do
        let z' ← cscBgsApply o.csc o.dinv k.toNat ord0 ord g r z
        .ok (z', y))
  | sgs (k : Int) (i : ApplyInit) (c : Int) (ord : Nat → List Nat) (z' y' : List K)
      (hord : ∀ t, (ord t).Perm (List.range o.A.nbrows)) (h : AsyncSgsApply o.A o.dinv o.mix k.toNat i ord r z y z' y') :
      ScalarApply o r z y (.asyncSgs k i c) (.ok (z', y'))
  | levelSgs (z' y' : List K) (h : AsyncLevelSgsApply o.A o.dinv o.mix o.levels r z y z' y') :
      ScalarApply o r z y .levelSgs (.ok (z', y'))
  | seqIlu (c : IluConf) (hc : c.threadedapply = false) (ord : Nat → List Nat)
      (hord : ∀ t, (ord t).Perm (List.range o.A.nbrows)) :
      ScalarApply o r z y (.asyncIlu0 c) (scalarIluApply o.A o.ilu o.scale c.napplysweeps.toNat c.applyinittype ord r z y)
  | ilu (c : IluConf) (hc : c.threadedapply = true) (ord : Nat → List Nat) (z' y' : List K)
      (hord : ∀ t, (ord t).Perm (List.range o.A.nbrows))
      (h : AsyncIluApply (unitLowerRow o.A o.ilu) (upperRow o.A o.ilu) o.A.nbrows o.mix (o.scale.map scalarSeg) c.napplysweeps.toNat
        c.applyinittype ord r z y z' y') :
      ScalarApply o r z y (.asyncIlu0 c) (.ok (z', y'))
  | iluThrow (c : IluConf) (hc : c.threadedapply = true) (hi : c.applyinittype = .none) :
      ScalarApply o r z y (.asyncIlu0 c) (.error iluInitThrow)
  | levelIlu (c : IluConf) (ord : Nat → List Nat) (z' y' : List K) (hord : ∀ t, (ord t).Perm (List.range o.A.nbrows))
      (h : AsyncLevelIluApply (unitLowerRow o.A o.ilu) (upperRow o.A o.ilu) o.A.nbrows o.mix (o.scale.map scalarSeg) o.levels ord
        r z y z' y') :
      ScalarApply o r z y (.asyncLevelIlu0 c) (.ok (z', y'))
  | noPrec (bs : Nat) (ord : List Nat) (hord : ord.Perm (List.range o.A.nbrows)) :
      ScalarApply o r z y (.noPrec bs) (do
        let z' ← noPrecApply o.A.nbrows ord r z
        .ok (z', y))

end scalar

section block
open scoped Matrix.Module
variable [Field K] {bs : Nat}

/-- The possible outcomes of the virtual function `apply` of the block classes: `src/solverops_jacobi.cpp` lines 51-63,
`src/relaxation_chaotic.cpp` lines 21-46, `src/solverops_sgs.cpp` lines 48-83, `src/solverops_levels_sgs.cpp` lines 54-87,
`src/solverops_ilu0.cpp` lines 203-209, `src/solverops_levels_ilu0.cpp` lines 58-105, `src/solverops_base.cpp` lines 31-37 (a copy of
`nbrows * bs` numbers, here of the segments). -/
inductive BlockApply (o : BlockPC K bs) (r z y : List (Fin bs → K)) :
    Prec → C (List (Fin bs → K) × List (Fin bs → K)) → Prop
  | jacobi (b : Nat) (stor : Stor) (ord : List Nat) (hord : ord.Perm (List.range o.A.nbrows)) :
      BlockApply o r z y (.bjacobi b stor) (do
        let z' ← jacobiApply o.A.nbrows o.dinv ord r z
        .ok (z', y))
  | chaotic (b : Nat) (stor : Stor) (k c : Int) (z' : List (Fin bs → K))
      (h : AsyncChaoticRelax o.A o.dinv o.mix k.toNat r z z') :
      BlockApply o r z y (.blockChaotic b stor k c) (.ok (z', y))
  | sgs (b : Nat) (stor : Stor) (k : Int) (i : ApplyInit) (c : Int) (ord : Nat → List Nat) (z' y' : List (Fin bs → K))
      (hord : ∀ t, (ord t).Perm (List.range o.A.nbrows)) (h : AsyncSgsApply o.A o.dinv o.mix k.toNat i ord r z y z' y') :
      BlockApply o r z y (.asyncBlockSgs b stor k i c) (.ok (z', y'))
  | levelSgs (b : Nat) (stor : Stor) (z' y' : List (Fin bs → K)) (h : AsyncLevelSgsApply o.A o.dinv o.mix o.levels r z y z' y') :
      BlockApply o r z y (.levelBsgs b stor) (.ok (z', y'))
  | seqIlu (b : Nat) (stor : Stor) (c : IluConf) (hc : c.threadedapply = false) (ord : Nat → List Nat)
      (hord : ∀ t, (ord t).Perm (List.range o.A.nbrows)) :
      BlockApply o r z y (.asyncBlockIlu0 b stor c)
        (blockIluApply o.A o.ilu o.scale c.napplysweeps.toNat c.applyinittype ord r z y)
  | ilu (b : Nat) (stor : Stor) (c : IluConf) (hc : c.threadedapply = true) (ord : Nat → List Nat) (z' y' : List (Fin bs → K))
      (hord : ∀ t, (ord t).Perm (List.range o.A.nbrows))
      (h : AsyncIluApply (unitLowerRow o.A o.ilu) (blockUpperRow o.A o.ilu) o.A.nbrows o.mix (o.scale.map (blockSeg bs))
        c.napplysweeps.toNat c.applyinittype ord r z y z' y') :
      BlockApply o r z y (.asyncBlockIlu0 b stor c) (.ok (z', y'))
  | iluThrow (b : Nat) (stor : Stor) (c : IluConf) (hc : c.threadedapply = true) (hi : c.applyinittype = .none) :
      BlockApply o r z y (.asyncBlockIlu0 b stor c) (.error iluInitThrow)
  | levelIlu (b : Nat) (stor : Stor) (c : IluConf) (ord : Nat → List Nat) (z' y' : List (Fin bs → K))
      (hord : ∀ t, (ord t).Perm (List.range o.A.nbrows))
      (h : AsyncLevelIluApply (unitLowerRow o.A o.ilu) (blockUpperRow o.A o.ilu) o.A.nbrows o.mix (o.scale.map (blockSeg bs)) o.levels
        ord r z y z' y') :
      BlockApply o r z y (.asyncLevelBlockIlu0 b stor c) (.ok (z', y'))
  | noPrec (b : Nat) (ord : List Nat) (hord : ord.Perm (List.range o.A.nbrows)) :
      BlockApply o r z y (.noPrec b) (do
        let z' ← noPrecApply o.A.nbrows ord r z
        .ok (z', y))

end block

/-- The values of the clocks around the application, `src/blasted_petsc.cpp` lines 497-499 and 503-507, in seconds. -/
structure Clocks (K : Type) where
  w0 : K
  c0 : K
  w1 : K
  c1 : K

/-- What a call of the callback leaves behind: the error code, the vector, the work vector of the object and the timings of the context. -/
structure PetscApplyOut (M K : Type) where
  ierr : Int
  z : List M
  y : List M
  times : Times K

/-- `PETSC_ERR_ARG_SIZ` of PETSc's `petscerror.h`. -/
def petscErrArgSiz : Int := 60

/-- The timings after an application, `src/blasted_petsc.cpp` lines 504-507. -/
def addApplyTimes [Add K] [Sub K] (t : Times K) (c : Clocks K) : Times K :=
  { t with applywall := t.applywall + (c.w1 - c.w0), applycpu := t.applycpu + (c.c1 - c.c0) }

/-- `apply_local_blasted`, `src/blasted_petsc.cpp` lines 474-517. `Apply` relates the work vector and the vector before the call to the
outcomes of the virtual `apply`, `dim` is the dimension the object reports and `len` the local size of `r`; the dimensions are compared only
in a debug build. An exception of the preconditioner escapes. -/
def PetscApply [Add K] [Sub K] (Apply : List M → List M → C (List M × List M) → Prop) (debug : Bool) (dim len : Int) (clk : Clocks K)
    (z y : List M) (t : Times K) (res : C (PetscApplyOut M K)) : Prop :=
  if debug = true ∧ dim ≠ len then res = .ok ⟨petscErrArgSiz, z, y, t⟩
  else ∃ p, Apply z y p ∧ res = (do
    let zy ← p
    .ok ⟨0, zy.1, zy.2, addApplyTimes t clk⟩)

/-- The dimension a scalar or a block object reports: `include/solverops_jacobi.hpp` lines 26 and 65, `include/solverops_sgs.hpp` lines
42, 89 and 131, `include/solverops_ilu0.hpp` lines 49 and 123, `include/solverops_base.hpp` line 89. -/
def precDim (nbrows bs : Nat) : Int := nbrows * bs

/-- The calls a Krylov method makes: each with its own right-hand side, clocks and old contents of the result vector. The work vector and
the timings are carried from one call to the next. -/
structure ApplyCall (M K : Type) where
  r : List M
  z : List M
  clk : Clocks K

/-- A sequence of applications of one object by `apply_local_blasted`; the last argument lists the results. -/
inductive PetscApplies [Add K] [Sub K] (Apply : List M → List M → List M → C (List M × List M) → Prop) (debug : Bool) (dim : Int)
    (lenOf : List M → Int) : List (ApplyCall M K) → List M → Times K → List (List M) → Times K → Prop
  | nil (y : List M) (t : Times K) : PetscApplies Apply debug dim lenOf [] y t [] t
  | cons {c : ApplyCall M K} {cs : List (ApplyCall M K)} {y : List M} {t t' : Times K} {out : PetscApplyOut M K} {zs : List (List M)}
      (h : PetscApply (Apply c.r) debug dim (lenOf c.r) c.clk c.z y t (.ok out)) (he : out.ierr = 0)
      (hs : PetscApplies Apply debug dim lenOf cs out.y out.times zs t') :
      PetscApplies Apply debug dim lenOf (c :: cs) y t (out.z :: zs) t'

end Blasted
