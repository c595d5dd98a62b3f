import Verif.Krylov.ProgModel
import Verif.Krylov.Spec
import Verif.Coo.MMSpec
import Verif.ILU.Model
import Verif.Solve.Model
import Verif.PetscIO.Props

/-!
# What the solve program is given and what it should deliver

The files, in terms of the numbers written in them; the residual of a vector, in terms of these numbers; and the behaviour of ILU(0) objects.
-/

namespace Blasted

open Finset

section
variable {K : Type} [Field K]

/-- `∑ vᵢ²` over the first `n` numbers. -/
def norm2 (n : Nat) (v : List K) : K := ∑ i ∈ range n, v⟦i⟧ ^ 2

/-- `|vs - M x|²` for the matrix `M` of order `n` with the entries `es` (positions counted from 1). -/
def fileResid2 (n : Nat) (es : List (Nat × Nat × K)) (vs x : List K) : K :=
  ∑ i ∈ range n, (vs⟦i⟧ - ∑ j ∈ range n, fileEntry es i j * x⟦j⟧) ^ 2

/-- The file with name `f` is an array file which holds the numbers `vs`. -/
def HoldsArray (E : SolveProgEnv K) (f : String) (vs : List K) : Prop :=
  ∃ text r c, E.files f = some text ∧ ArrayFile E.num text r c vs ∧ text.length ≤ E.fuel

/-- The matrix file is a coordinate file of a square matrix of order `n` with the entries `es` at different positions, no row is empty, and the file of the right-hand side holds
the numbers `vs`. -/
structure SolveFiles (E : SolveProgEnv K) (p : ProgParams K) (n : Nat) (es : List (Nat × Nat × K)) (vs : List K) : Prop where
  size : 0 < n
  sort : IsSort E.srt
  mat : ∃ text, E.files p.mat_file = some text ∧ CoordinateFile E.num text n n es ∧ text.length ≤ E.fuel
  rhs : HoldsArray E p.b_file vs
  rows : ∀ i, 1 ≤ i → i ≤ n → ∃ e ∈ es, e.1 = i
  distinct : DistinctPositions es

/-- The view describes the matrix of the file. -/
structure ViewOf (es : List (Nat × Nat × K)) (n : Nat) (v : MatView K) : Prop where
  ready : v.Ready
  dim : v.dim = n
  entry : ∀ i < n, ∀ j, v.entry i j = fileEntry es i j

/-- Every block of size `bs` with an entry in the file has one in its first row; for block size 1 this holds for every file. -/
def BlocksTouched (bs : Nat) (es : List (Nat × Nat × K)) : Prop :=
  ∀ e ∈ es, ∃ e' ∈ es, e'.1 - 1 = bs * ((e.1 - 1) / bs) ∧ (e'.2.1 - 1) / bs = (e.2.1 - 1) / bs

/-- The matrix object holds the matrix of the file in rows of blocks of size `bs`; if every block has an entry in its first row and the diagonal has no zeros then the rows are sorted and have all
diagonal blocks. -/
structure HoldsFile (bs : Nat) (order : String) (n : Nat) (es : List (Nat × Nat × K)) (B : SR K) : Prop where
  view : ViewOf es n (progView bs order B)
  rows : B.nbrows * bs = n
  sorted : BlocksTouched bs es → (∀ i < n, fileEntry es i i ≠ 0) → B.Full (bs * bs) ∧ B.Sorted ∧ B.HasDiag

/-- The block size divides the order of the matrix, and for blocks the storage order is one of the two words that name one. -/
def BlocksOk (bs n : Nat) (order : String) : Prop :=
  bs = 1 ∨ (1 < bs ∧ n % bs = 0 ∧ (order = "rowmajor" ∨ order = "colmajor"))

/-- All parallel loops of the solver execute each of their iterations once, in some order. -/
def ProgSched (E : SolveProgEnv K) (bs n : Nat) : Prop :=
  (∀ k m, (E.sched.rows k m).Perm (List.range (n / bs))) ∧ ∀ k m, (E.sched.cells k m).Perm (List.range n)

end

section
variable {K : Type} [Field K] [LinearOrder K]

/-- The factors an ILU(0) object of this configuration can hold after its `compute`: with threads those of `nbuildsweeps` rounds of asynchronous updates from any initial factors (a sweep is a round if the threads begin it
together, see C22); without threads those of the sequential factorization, for any contents of the memory. -/
def IluFactors (conf : IluConf) (A : SR K) (u : List K) : Prop :=
  if conf.threadedfactor then
    ∃ pos mix x log last, computeILUPositions A = .ok pos ∧ MixOk mix ∧ x.length = A.browptr⟦A.nbrows⟧ ∧
      ARounds (iluComp A (scalarScale? none) pos) mix x conf.nbuildsweeps.toNat log last ∧ u = applyLog x log
  else
    ∃ isq ord ordc gilu gy gscale inf st', ord.Perm (List.range A.nbrows) ∧ ordc.Perm (List.range A.browptr⟦A.nbrows⟧) ∧
      gilu.length = A.browptr⟦A.nbrows⟧ ∧ gy.length = A.nbrows ∧ gscale.length = A.nbrows ∧
      scalarCompute isq ⟨conf.usescaling, conf.nbuildsweeps.toNat, conf.factinittype, conf.compute_precinfo⟩ A ord ordc gilu gy gscale {} = .ok (inf, st') ∧
      st'.iluvals = some u

/-- The vectors `z` which an application of the object to `r` can give. -/
def IluApplies (conf : IluConf) (A : SR K) (u r z : List K) : Prop :=
  ∃ (ord : Nat → List Nat) (z₀ y y' : List K), (∀ t, (ord t).Perm (List.range A.nbrows)) ∧ z₀.length = A.nbrows ∧ y.length = A.nbrows ∧
    if conf.threadedapply then
      ∃ mix, MixOk mix ∧
        AsyncIluApply (unitLowerRow A u) (upperRow A u) A.nbrows mix none conf.napplysweeps.toNat conf.applyinittype ord r z₀ y z y'
    else scalarIluApply A u none conf.napplysweeps.toNat conf.applyinittype ord r z₀ y = .ok (z, y')

/-- `f` is the behaviour of an ILU(0) object without scaling. -/
def IluRuns (conf : IluConf) (A : SR K) (f : PrecFun K) : Prop :=
  ∃ u, IluFactors conf A u ∧ ∀ k r z, r.length = A.nbrows → z.length = A.nbrows → ∃ z', f k r z = .ok z' ∧ IluApplies conf A u r z'

/-- What the words on the command line mean for an ILU(0) preconditioner: `ilu0` uses threads for the factorization and the application, `seqilu0` for neither, `sfilu0` only for
the application and `sapilu0` only for the factorization. -/
def iluMeaning (p : ProgParams K) (info : Bool) (f : FactInit) (a : ApplyInit) : IluConf :=
  { usescaling := false
    threadedfactor := p.precontype = "ilu0" ∨ p.precontype = "sapilu0"
    threadedapply := p.precontype = "ilu0" ∨ p.precontype = "sfilu0"
    nbuildsweeps := p.nbuildsweeps
    napplysweeps := p.napplysweeps
    thread_chunk_size := p.threadchunksize
    factinittype := f
    applyinittype := a
    compute_precinfo := info }

end

end Blasted
