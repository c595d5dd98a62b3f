import Verif.Krylov.ProgSpec

/-!
# Contracting preconditioners and the behaviour of block ILU(0) objects
-/

namespace Blasted

open Finset

section
variable {K : Type} [Field K] [LinearOrder K]

/-- `z` is a good correction for the residual `r`: for every error vector `e` with `M e = r`, the largest error relative to the weights `d` is reduced to the part `rho` by subtracting `z`. -/
def Contracting (n : Nat) (M : Nat → Nat → K) (d : Nat → K) (rho : K) (r z : List K) : Prop :=
  ∀ e : Nat → K, (∀ i < n, ∑ j ∈ range n, M i j * e j = r⟦i⟧) → ∀ c, 0 ≤ c → (∀ i < n, |e i| ≤ c * d i) → ∀ i < n, |e i - z⟦i⟧| ≤ c * rho * d i

/-- The surroundings provide a contracting preconditioner: whatever arrays hold the matrix of the file, the settings of the program are accepted by the factory, the object can be computed, and all its
applications are contracting. -/
def ProvidesContraction (E : SolveProgEnv K) (bs : Nat) (p : ProgParams K) (n : Nat) (es : List (Nat × Nat × K)) (d : Nat → K) (rho : K) : Prop :=
  ∃ o q, progSettings bs E.info p = .ok o ∧ createPreconditioner (.async o) = .ok q ∧
    ∀ A, HoldsFile bs p.storageorder n es A → ∃ f, E.object q A = .ok f ∧
      ∀ k r z, r.length = n → z.length = n → ∃ z', f k r z = .ok z' ∧ z'.length = n ∧ Contracting n (fileEntry es) d rho r z'

/-- The blocks an array of numbers is read as: `Block_t`, `include/blasted_config.hpp` lines 30-31, with the casts of `src/solverops_ilu0.cpp` lines 63-69. -/
def SR.blocks (stor : Stor) (bs : Nat) (A : SR K) : SR (Matrix (Fin bs) (Fin bs) K) :=
  { browptr := A.browptr, bcolind := A.bcolind
    vals := (List.range (A.vals.length / (bs * bs))).map fun k => Matrix.of fun a c => A.vals⟦k * (bs * bs) + stor.off bs a c⟧
    diagind := A.diagind, browendptr := A.browendptr, nbrows := A.nbrows, nnzb := A.nnzb, nbstored := A.nbstored }

/-- The segments an array of numbers is read as: `Segment_t`, `include/blasted_config.hpp`, with the casts of `src/solverops_ilu0.cpp` lines 63-69. -/
def segs (bs : Nat) (v : List K) : List (Fin bs → K) := (List.range (v.length / bs)).map fun i a => v⟦i * bs + a⟧

/-- The array of numbers which is read as these segments. -/
def unsegs {bs : Nat} (s : List (Fin bs → K)) : List K := s.flatMap List.ofFn

/-- The array of factors a block ILU(0) object without scaling can hold after its `compute`: with threads that of `nbuildsweeps` rounds of asynchronous updates from any initial factors, with the diagonal blocks
inverted afterwards; without threads that of the sequential factorization, for any contents of the memory. -/
def BlockIluFactors {bs : Nat} (conf : IluConf) (A : SR (Matrix (Fin bs) (Fin bs) K)) (y : List (Matrix (Fin bs) (Fin bs) K)) : Prop :=
  if conf.threadedfactor then
    ∃ pos mix x log last ord, computeILUPositions A = .ok pos ∧ MixOk mix ∧ x.length = A.browptr⟦A.nbrows⟧ ∧
      ARounds (iluComp A (blockScale? bs none) pos) mix x conf.nbuildsweeps.toNat log last ∧ ord.Perm (List.range A.nbrows) ∧
      blockInvertDiag A ord (applyLog x log) = .ok y
  else
    ∃ isq ord ord2 ordc gilu gdblks gscale inf st', ord.Perm (List.range A.nbrows) ∧ ord2.Perm (List.range A.nbrows) ∧ ordc.Perm (List.range A.browptr⟦A.nbrows⟧) ∧
      gilu.length = A.browptr⟦A.nbrows⟧ ∧ gdblks.length = A.nbrows ∧ gscale.length = A.nbrows * bs ∧
      blockCompute isq ⟨conf.usescaling, conf.nbuildsweeps.toNat, conf.factinittype, conf.compute_precinfo⟩ A ord ord2 ordc gilu gdblks gscale {} = .ok (inf, st') ∧
      st'.iluvals = some y

open scoped Matrix.Module in
/-- The vectors `z` which an application of the object to `r` can give. -/
def BlockIluApplies {bs : Nat} (conf : IluConf) (A : SR (Matrix (Fin bs) (Fin bs) K)) (y : List (Matrix (Fin bs) (Fin bs) K)) (r z : List (Fin bs → K)) : Prop :=
  ∃ (ord : Nat → List Nat) (z₀ t t' : List (Fin bs → K)), (∀ m, (ord m).Perm (List.range A.nbrows)) ∧ z₀.length = A.nbrows ∧ t.length = A.nbrows ∧
    if conf.threadedapply then
      ∃ mix, MixOk mix ∧
        AsyncIluApply (unitLowerRow A y) (blockUpperRow A y) A.nbrows mix ((none : Option (List K)).map (blockSeg bs)) conf.napplysweeps.toNat conf.applyinittype ord r z₀ t z t'
    else blockIluApply A y none conf.napplysweeps.toNat conf.applyinittype ord r z₀ t = .ok (z, t')

/-- `f` is the behaviour of a block ILU(0) object without scaling, for the matrix in the arrays `A`. -/
def BlockIluRuns (conf : IluConf) (stor : Stor) (bs : Nat) (A : SR K) (f : PrecFun K) : Prop :=
  ∃ y, BlockIluFactors conf (A.blocks stor bs) y ∧ ∀ k r z, r.length = A.nbrows * bs → z.length = A.nbrows * bs →
    ∃ z', f k r z = .ok (unsegs z') ∧ BlockIluApplies conf (A.blocks stor bs) y (segs bs r) z'

/-- The block ILU(0) objects that use no threads: `compute` of a new object, `src/solverops_ilu0.cpp` lines 150-201, and `apply`, lines 56-148. Simplification: the loops that may be executed in any order are executed in
ascending order; the inverse square root `isq` and the previous contents of the memory are parameters. Other objects are left out. -/
def seqBlockIluObject (isq : K → K) (g : Nat → K) : Prec → SR K → C (PrecFun K)
  | .asyncBlockIlu0 bs stor conf, A =>
    if conf.threadedfactor ∨ conf.threadedapply then .error .abort
    else do
      let nnz ← rd A.browptr A.nbrows
      let r ← blockCompute isq ⟨conf.usescaling, conf.nbuildsweeps.toNat, conf.factinittype, conf.compute_precinfo⟩ (A.blocks stor bs) (List.range A.nbrows) (List.range A.nbrows)
        (List.range nnz) ((List.range nnz).map fun k => Matrix.of fun a c => g (k * (bs * bs) + stor.off bs a c))
        ((List.range A.nbrows).map fun k => Matrix.of fun a c => g (k * (bs * bs) + stor.off bs a c)) ((List.range (A.nbrows * bs)).map g) {}
      let y ← deref r.2.iluvals
      .ok fun _ b z => do
        let zt ← blockIluApply (A.blocks stor bs) y r.2.scale conf.napplysweeps.toNat conf.applyinittype (fun _ => List.range A.nbrows) (segs bs b) (segs bs z)
          ((List.range A.nbrows).map fun i a => g (i * bs + a))
        .ok (unsegs zt.1)
  | _, _ => .error .abort

end

end Blasted
