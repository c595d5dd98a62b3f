import Verif.ILU.Model

/-!
# The factorization without scaling
-/

namespace Blasted

variable {K : Type}

/-- The initialisation switch of `scalar_ilu0_factorize_noscale`, `src/async_ilu_factor.cpp` lines 248-263 (the case `INIT_F_ZERO` has no `break`). -/
def noscaleFactInit [Zero K] [Mul K] [PInvOp K] (A : SR K) (ft : FactInit) (ord ordc : List Nat) (ilu : List K) : C (List K) :=
  match ft with
  | .zero => do
    let ilu ← parCells A ordc (fun i ilu => wr ilu i 0) ilu
    parCells A ordc (fun i ilu => do
      let v ← rd A.vals i
      wr ilu i v) ilu
  | .original => parCells A ordc (fun i ilu => do
      let v ← rd A.vals i
      wr ilu i v) ilu
  | .sgs => factInitSgs A none ord ilu
  | .none => .ok ilu

/-- `scalar_ilu0_factorize_noscale`, `src/async_ilu_factor.cpp` lines 236-268 with `usethreads = false`. -/
def scalarIlu0FactorizeNoscale [Field K] [DecidableEq K] (A : SR K) (pos : ILUPos) (nbuildsweeps : Nat) (ft : FactInit) (ord ordc : List Nat) (ilu : List K) : C (List K) := do
  let ilu ← noscaleFactInit A ft ord ordc ilu
  iluSweeps A noScale pos nbuildsweeps ilu

end Blasted
