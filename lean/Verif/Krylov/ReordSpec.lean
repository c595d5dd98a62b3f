import Verif.Krylov.ReordModel
import Verif.Krylov.ProgSpec
import Verif.Reorder.IluModel

/-!
# What the solve program with a reordered preconditioner should do
-/

namespace Blasted

open Finset

section
variable {K : Type} [Field K] [LinearOrder K]

/-- Exchange of 1 and 3. -/
def swap13 (i : Nat) : Nat := if i = 1 then 3 else if i = 3 then 1 else i

/-- The ordering exchanges rows 1 and 3 and columns 1 and 3 of a matrix of order `n`; nothing is scaled. -/
structure SwapsTwo (r : RS K) (n : Nat) : Prop where
  rows : r.rp = (List.range n).map swap13
  rows_inv : r.irp = (List.range n).map swap13
  cols : r.cp = (List.range n).map swap13
  cols_inv : r.icp = (List.range n).map swap13
  rowscale : r.rowscale = []
  colscale : r.colscale = []

/-- The files of the program: a matrix, a right-hand side `vs` and a reference solution `ans`. -/
structure ReordFiles (E : ReordProgEnv K) (p : ProgParams K) (n : Nat) (es : List (Nat × Nat × K)) (vs ans : List K) : Prop where
  system : SolveFiles E.toSolveProgEnv p n es vs
  answer : HoldsArray E.toSolveProgEnv p.x_file ans

/-- The first object of the program: no scaling. The two `false` at the end of its call stand for the information about the factorization and the threads of the factorization, so that the
application uses threads. -/
def plainConf (p : ProgParams K) (f : FactInit) (a : ApplyInit) : IluConf :=
  { usescaling := false, threadedfactor := false, threadedapply := true, nbuildsweeps := p.nbuildsweeps, napplysweeps := p.napplysweeps
    thread_chunk_size := p.threadchunksize, factinittype := f, applyinittype := a, compute_precinfo := false }

/-- The object the program gets for the reordered matrix: scaling, and threads for the application although it asks for none. -/
def reordConf (p : ProgParams K) (f : FactInit) (a : ApplyInit) : IluConf :=
  { usescaling := true, threadedfactor := false, threadedapply := true, nbuildsweeps := p.nbuildsweeps, napplysweeps := p.napplysweeps
    thread_chunk_size := p.threadchunksize, factinittype := f, applyinittype := a, compute_precinfo := false }

/-- Every application of the object returns a vector of length `n` with property `P`. -/
def Applies (n : Nat) (P : List K → List K → Prop) (F : PrecFun K) : Prop :=
  ∀ k r z, r.length = n → z.length = n → ∃ z', F k r z = .ok z' ∧ z'.length = n ∧ P r z'

/-- `z` solves the system with the matrix of the file and the right-hand side `r`. -/
def SolvesFile (n : Nat) (es : List (Nat × Nat × K)) (r z : List K) : Prop :=
  ∀ i < n, ∑ j ∈ range n, fileEntry es i j * z⟦j⟧ = r⟦i⟧

/-- What one of the two solves of the program has delivered: a vector, `v` is its distance from the reference solution and below the tolerance of the test, and if the solver
ended before `maxiter` iterations then the residual is below the tolerance of the solver. -/
structure RunGood (p : ProgParams K) (n : Nat) (es : List (Nat × Nat × K)) (vs ans : List K) (r : SolveInfo K × List K × K) : Prop where
  length : r.2.1.length = n
  bnorm : 0 ≤ r.1.bnorm ∧ r.1.bnorm ^ 2 = norm2 n vs
  small : r.1.iters < p.maxiter → fileResid2 n es vs r.2.1 < p.tol ^ 2 * norm2 n vs
  resnorm : r.1.iters < p.maxiter → 0 ≤ r.1.resnorm ∧ r.1.resnorm ^ 2 = fileResid2 n es vs r.2.1
  compared : n ≤ ans.length
  error : 0 ≤ r.2.2 ∧ r.2.2 ^ 2 = ∑ i ∈ range n, (r.2.1⟦i⟧ - ans⟦i⟧) ^ 2
  passed : r.2.2 < p.testtol

end

section
variable {K : Type} [Field K] [DecidableEq K] [LinearOrder K]

/-- The vectors `z` that an application of a reordered ILU(0) object with members `c`, ordering `r` and computed state `st` to `ra` can give, for a matrix of order `n`. -/
def ReordApplies (c : IluConf) (r : RS K) (n : Nat) (st : ReordState K) (ra z : List K) : Prop :=
  ∃ (ords orda : Nat → List Nat) (za g : List K), (∀ t, (ords t).Perm (List.range n)) ∧ (∀ t, (orda t).Perm (List.range n)) ∧ za.length = n ∧ g.length = n ∧
    if c.threadedapply then ∃ mix, MixOk mix ∧ ReordApplyAsync mix c.napplysweeps.toNat c.applyinittype r st ords orda ra za g z
    else ∃ st', reordApply c.napplysweeps.toNat c.applyinittype r st ords orda ra za g = .ok (z, st')

end

end Blasted
