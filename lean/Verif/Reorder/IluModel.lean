import Verif.Reorder.Model
import Verif.Solve.Model

/-!
# Model of the ILU(0) preconditioner on a reordered matrix

`ReorderedAsyncILU0_SRPreconditioner`, `src/solverops_ilu0.cpp` lines 398-474. The matrix is scalar
(block size 1). The concrete reordering algorithm (`reord->compute`, a virtual function) is not modelled:
the theorems are about every reordering object `r` it may leave.
-/

namespace Blasted

variable {K : Type}

/-- A default-constructed `RawBSRMatrix`, `include/srmatrixdefs.hpp` lines 147-150: null pointers, no rows and no entries. Simplification: the number of stored
blocks, which is not initialized, is 0 here. -/
def emptyRaw (V : Type) : SR V :=
  { browptr := [], bcolind := [], vals := [], diagind := [], browendptr := [], nbrows := 0, nnzb := 0, nbstored := 0 }

/-- The members of the object that `compute` changes: those of the base class and the reordered copy of
the matrix (`rsmat`, `include/solverops_ilu0.hpp` line 219). -/
structure ReordState (K : Type) where
  base : ILUState K K := {}
  rsmat : SR K := emptyRaw K

section
variable [Field K] [DecidableEq K] [LinearOrder K]

/-- `setup_storage` is called on the first `compute` only; it sees the original matrix
(`src/solverops_ilu0.cpp` lines 421-423). -/
def reordStorage (conf : ILUConf) (A : SR K) (ord ordc : List Nat) (gilu gy gscale : List K)
    (st : ILUState K K) : C (ILUState K K) :=
  if st.iluvals.isNone then scalarSetupStorage conf A ord ordc gilu gy gscale st else .ok st

/-- `ReorderedAsyncILU0_SRPreconditioner::compute`, `src/solverops_ilu0.cpp` lines 418-436, without threads.
`r` is the reordering object after `reord->compute(mat)`. The copy of the matrix is taken by value
(`copyRawBSRMatrix`); `ordp` is the order of the parallel column loop. The information about the
factorization is switched off. In the constructor (lines 399-408) the argument for `use_scaling` is the
constant `true`; the theorems hold for both values. -/
def reordCompute (isq : K → K) (conf : ILUConf) (A : SR K) (r : RS K) (ordp ord ordc : List Nat)
    (gilu gy gscale : List K) (st : ReordState K) : C (ReordState K) := do
  let b ← reordStorage conf A ord ordc gilu gy gscale st.base
  let B ← applyOrdering 1 r .forward ordp A
  let plist ← computeILUPositions B
  let ilu ← deref b.iluvals
  let (_, ilu, scale) ← scalarIlu0Factorize isq B plist conf.nbuildsweeps conf.factinit false ord ordc
    ilu b.scale
  .ok { base := { b with iluvals := some ilu, scale := scale, plist := plist }, rsmat := B }

/-- The right-hand side used by `apply`: reordered if there is a row reordering,
`src/solverops_ilu0.cpp` lines 443-451. `ords 0`: order of the copy loop (into an uninitialised buffer
`g`), `ords 1`, `ords 2`: order of the loops of `applyOrdering`. -/
def reordRhs (n : Nat) (r : RS K) (ords : Nat → List Nat) (ra g : List K) : C (List K) :=
  if r.isRowReordering then do
    let rb ← parFor n (ords 0) (fun i rb => do
      let v ← rd ra i
      wr rb i v) g
    applyOrderingVec 1 r .forward .row (ords 1) (ords 2) rb
  else .ok ra

/-- `ReorderedAsyncILU0_SRPreconditioner::apply`, `src/solverops_ilu0.cpp` lines 438-467, without threads. The
result is reordered by `applyOrdering(za, FORWARD, COLUMN)`. A null pointer is an array without elements. -/
def reordApply (k : Nat) (init : ApplyInit) (r : RS K) (st : ReordState K) (ords : Nat → List Nat)
    (orda : Nat → List Nat) (ra za g : List K) : C (List K × ReordState K) := do
  let rb ← reordRhs st.rsmat.nbrows r ords ra g
  let (z, y) ← scalarIluApply st.rsmat (st.base.iluvals.getD []) st.base.scale k init orda rb za (st.base.ytemp.getD [])
  let z ← applyOrderingVec 1 r .forward .column (ords 3) (ords 4) z
  .ok (z, { st with base := { st.base with ytemp := st.base.ytemp.map fun _ => y } })

/-- The same `apply` with threads: the triangular sweeps are asynchronous. -/
def ReordApplyAsync (mix : Set K → Set K) (k : Nat) (init : ApplyInit) (r : RS K) (st : ReordState K)
    (ords : Nat → List Nat) (orda : Nat → List Nat) (ra za g z : List K) : Prop :=
  ∃ B ilu y rb z₁ y', st.rsmat = B ∧ st.base.iluvals = some ilu ∧ st.base.ytemp = some y ∧
    reordRhs B.nbrows r ords ra g = .ok rb ∧
    AsyncIluApply (unitLowerRow B ilu) (upperRow B ilu) B.nbrows mix (st.base.scale.map scalarSeg) k init orda rb za y
      z₁ y' ∧
    applyOrderingVec 1 r .forward .column (ords 3) (ords 4) z₁ = .ok z

end

end Blasted
