import Verif.Race.Model
import Verif.Async.Model
import Verif.ILU.Model

/-!
# Asynchronous sweeps access by access

`Verif/Async` describes an asynchronous execution by the log of its component writes. Here the sweeps are programs that load and store single components, and
a machine executes them. The machine allows more than interleaving: a load may return any value that the component has held, unless a write that the loading
computation is ordered after has replaced it.
-/

namespace Blasted

open Prog

variable {V α β σ ι : Type}

/-! ### The machine -/

/-- The writes so far, in order (which job has written which value), and what every job has still to do. A job is the update of one component in one sweep: with `n`
components, job `q` is the update of component `q % n` in sweep `q / n`. -/
abbrev AConf (V : Type) := List (Nat × V) × (Nat → Prog V Unit)

/-- After the writes `log`, a load of component `l` by job `q` may return `v`: any value written to `l` which is not older than the writes to `l` of the jobs that `q` is ordered after; or
the initial value if there is no such job. `G q q'`: job `q` is ordered after job `q'`. There are `N` jobs. -/
def Visible (G : Nat → Nat → Prop) (n N : Nat) (m₀ : List V) (log : List (Nat × V)) (q l : Nat) (v : V) : Prop :=
  (∃ (t q₁ : Nat), log[t]? = some (q₁, v) ∧ q₁ % n = l ∧ ∀ q' < N, G q q' → q' % n = l → ∃ t' : Nat, t' ≤ t ∧ ∃ v', log[t']? = some (q', v')) ∨
    (m₀[l]? = some v ∧ ∀ q' < N, G q q' → q' % n ≠ l)

/-- One access by job `q`. It must wait until the jobs that it is ordered after are at their end. A job that has divided by zero stores a value of which nothing is known. -/
inductive AStep (G : Nat → Nat → Prop) (n N : Nat) (m₀ : List V) : AConf V → AConf V → Prop where
  | load {log : List (Nat × V)} {ps : Nat → Prog V Unit} {l : Nat} {k : V → Prog V Unit} {v : V} (q : Nat) (h : ps q = .load l k) (hl : l < n)
      (hg : ∀ q', G q q' → ps q' = .ret ()) (hv : Visible G n N m₀ log q l v) : AStep G n N m₀ (log, ps) (log, Function.update ps q (k v))
  | store {log : List (Nat × V)} {ps : Nat → Prog V Unit} {l : Nat} {v : V} {k : Prog V Unit} (q : Nat) (h : ps q = .store l v k) (hl : l = q % n)
      (hg : ∀ q', G q q' → ps q' = .ret ()) : AStep G n N m₀ (log, ps) (log ++ [(q, v)], Function.update ps q k)
  | junk {log : List (Nat × V)} {ps : Nat → Prog V Unit} (v : V) (q : Nat) (h : ps q = .fail .divzero)
      (hg : ∀ q', G q q' → ps q' = .ret ()) : AStep G n N m₀ (log, ps) (log ++ [(q, v)], Function.update ps q (.ret ()))

/-- `k` accesses. -/
inductive ASteps (G : Nat → Nat → Prop) (n N : Nat) (m₀ : List V) : Nat → AConf V → AConf V → Prop where
  | refl (c : AConf V) : ASteps G n N m₀ 0 c c
  | tail {k : Nat} {c d e : AConf V} (h : ASteps G n N m₀ k c d) (s : AStep G n N m₀ d e) : ASteps G n N m₀ (k + 1) c e

/-- The beginning of `N` jobs: nothing has been written, and job `q` has to compute and to store component `q % n`. -/
def startSweeps (n N : Nat) (p : Nat → Prog V V) : AConf V := ([], fun q => if q < N then (p (q % n)).bind (Prog.wr (q % n)) else .ret ())

/-- The writes of a log, by component. -/
def comps (n : Nat) (log : List (Nat × V)) : List (Nat × V) := log.map fun e => (e.1 % n, e.2)

/-- The jobs of a sweep begin when all jobs of the sweep `L` before have ended. With `L = 1` there is a barrier between the sweeps. The loops of the code are `omp for ... nowait` loops in a
loop over sweeps: the language imposes no order (`NoWait`); a run-time system that lets no thread be `L` loops ahead of another imposes `Lag`. -/
def Lag (n L : Nat) (q q' : Nat) : Prop := q' / n + L ≤ q / n

/-- No order. -/
def NoWait (_ _ : Nat) : Prop := False

/-- A complete execution of `N` jobs takes the array from `m₀` to `m`. -/
def AsyncExec (G : Nat → Nat → Prop) (n N : Nat) (p : Nat → Prog V V) (m₀ m : List V) : Prop :=
  ∃ k log ps, ASteps G n N m₀ k (startSweeps n N p) (log, ps) ∧ (∀ q, ps q = .ret ()) ∧ m = applyLog m₀ (comps n log)

/-! ### Interleavings -/

/-- One access by any one of the jobs that need not wait: every load returns the current contents. -/
inductive GStep (G : Nat → Nat → Prop) (n : Nat) : Conf V → Conf V → Prop where
  | load {m : List V} {ps : Nat → Prog V Unit} {l : Nat} {k : V → Prog V Unit} {v : V} (q : Nat) (h : ps q = .load l k) (hv : m[l]? = some v)
      (hg : ∀ q', G q q' → ps q' = .ret ()) : GStep G n (m, ps) (m, Function.update ps q (k v))
  | store {m : List V} {ps : Nat → Prog V Unit} {l : Nat} {v : V} {k : Prog V Unit} (q : Nat) (h : ps q = .store l v k) (hl : l < m.length)
      (hg : ∀ q', G q q' → ps q' = .ret ()) : GStep G n (m, ps) (m.set l v, Function.update ps q k)
  | junk {m : List V} {ps : Nat → Prog V Unit} (v : V) (q : Nat) (h : ps q = .fail .divzero)
      (hg : ∀ q', G q q' → ps q' = .ret ()) : GStep G n (m, ps) (m.set (q % n) v, Function.update ps q (.ret ()))

/-- `k` accesses. -/
inductive GSteps (G : Nat → Nat → Prop) (n : Nat) : Nat → Conf V → Conf V → Prop where
  | refl (c : Conf V) : GSteps G n 0 c c
  | tail {k : Nat} {c d e : Conf V} (h : GSteps G n k c d) (s : GStep G n d e) : GSteps G n (k + 1) c e

/-! ### The kernels of the asynchronous loops -/

/-- `block_relax_kernel` and `scalar_relax`, `src/kernels/kernels_relaxation.hpp` lines 17-37 and 38-54. -/
def relaxP {R M : Type} [Zero M] [Add M] [Sub M] [SMul R M] (A : SR R) (dinv : List R) (rhs : List M) (i : Nat) : Prog M M := do
  let lo ← lift (rd A.browptr i)
  let d ← lift (rd A.diagind i)
  let hi ← lift (rd A.browptr (i + 1))
  let di ← lift (rd dinv i)
  let b ← lift (rd rhs i)
  let s ← rowSumP A.bcolind A.vals lo d 0
  let s ← rowSumP A.bcolind A.vals (d + 1) hi s
  pure (di • (b - s))

/-- The last statement of the loop over the entries of a row: `async_ilu0_factorize_kernel` lines 47-51 and `async_block_ilu0_factorize` lines 89-96 of
`src/kernels/kernels_ilu0_factorize.hpp`. -/
def iluLastP {R : Type} [PInvOp R] [Mul R] (A : SR R) (irow column : Nat) (sum : R) : Prog R R :=
  if irow > column then do
    let d ← lift (rd A.diagind column)
    let u ← Prog.rd d
    lift (pdiv sum u)
  else pure sum

/-- The loop over the pairs of positions, lines 41-45 and 86-87 of `src/kernels/kernels_ilu0_factorize.hpp`. -/
def iluSumP {R : Type} [Sub R] [Mul R] (pos : ILUPos) (lo hi : Nat) (sum : R) : Prog R R :=
  Prog.forRange lo hi (fun k sum => do
    let l ← lift (rd pos.lowerp k)
    let u ← lift (rd pos.upperp k)
    let a ← Prog.rd l
    let b ← Prog.rd u
    pure (sum - a * b)) sum

/-- One entry: `async_ilu0_factorize_kernel` lines 26-52, `async_block_ilu0_factorize` lines 78-97 of `src/kernels/kernels_ilu0_factorize.hpp`. -/
def iluCompP {R : Type} [Zero R] [Sub R] [Mul R] [PInvOp R] (A : SR R) (scal : Nat → Nat → R → C R) (pos : ILUPos) (j : Nat) : Prog R R := do
  let column ← lift (rd A.bcolind j)
  let v ← lift (rd A.vals j)
  let sum ← lift (scal (A.rowOf j) column v)
  let lo ← lift (rd pos.posptr j)
  let hi ← lift (rd pos.posptr (j + 1))
  let sum ← iluSumP pos lo hi sum
  iluLastP A (A.rowOf j) column sum

end Blasted
