import Verif.Race.AsyncModel
import Mathlib.Data.List.FinRange
import Mathlib.Logic.Equiv.Fin.Basic

/-!
# Asynchronous sweeps coefficient by coefficient

In `AsyncModel.lean` a component of the shared array, be it a number, a segment of a vector or a block, is loaded and stored as a whole. The program loads and stores single numbers: a thread
can see a block of which another thread has stored some coefficients and not yet the others, and a statement such as `inter += vals[jj]*x[bcolind[jj]]` may load a coefficient of the segment
again for every row of the block. Here a component consists of `w` cells, every access is to one cell, and every coefficient of the value of an expression is computed from loads of its own.
-/

namespace Blasted

open Prog

variable {K V R M α : Type} {w : Nat}

/-! ### The machine -/

/-- What a job has still to do: compute its component (`run`), or store the coefficients in `left` of the value that it has computed, in any order (`put`). `over` for jobs that do not exist. -/
inductive TJob (K : Type) (w : Nat) : Type where
  | run (r : Prog K (Fin w → K))
  | put (v : Fin w → K) (left : List (Fin w))
  | over

/-- The job is at its end. -/
def TJob.Done : TJob K w → Prop
  | .run _ => False
  | .put _ left => left = []
  | .over => True

/-- The writes so far, in order (the job, the cell and the value), and the jobs. With `n` components, job `q` is the update of component `q % n` in sweep `q / n`. Component `l` has the cells
`l * w`, ..., `l * w + w - 1`. -/
abbrev TConf (K : Type) (w : Nat) := List (Nat × Nat × K) × (Nat → TJob K w)

/-- After the writes `log`, a load of cell `c` by job `q` may return `v`: any value written to `c` which is not older than the writes to `c` of the jobs that `q` is ordered after; or the initial
value if there is no such job. -/
def TVisible (G : Nat → Nat → Prop) (n N w : Nat) (m₀ : List K) (log : List (Nat × Nat × K)) (q c : Nat) (v : K) : Prop :=
  (∃ (t q₁ : Nat), log[t]? = some (q₁, c, v) ∧ ∀ q' < N, G q q' → q' % n = c / w → ∃ t' : Nat, t' ≤ t ∧ ∃ v', log[t']? = some (q', c, v')) ∨
    (m₀[c]? = some v ∧ ∀ q' < N, G q q' → q' % n ≠ c / w)

/-- One step of job `q`. It must wait until the jobs that it is ordered after are at their end. A job that has divided by zero stores coefficients of which nothing is known. -/
inductive TStep (G : Nat → Nat → Prop) (n N w : Nat) (m₀ : List K) : TConf K w → TConf K w → Prop where
  | load {log : List (Nat × Nat × K)} {st : Nat → TJob K w} {c : Nat} {k : K → Prog K (Fin w → K)} {v : K} (q : Nat) (h : st q = .run (.load c k)) (hc : c < n * w)
      (hg : ∀ q', G q q' → (st q').Done) (hv : TVisible G n N w m₀ log q c v) : TStep G n N w m₀ (log, st) (log, Function.update st q (.run (k v)))
  | value {log : List (Nat × Nat × K)} {st : Nat → TJob K w} {v : Fin w → K} (q : Nat) (h : st q = .run (.ret v))
      (hg : ∀ q', G q q' → (st q').Done) : TStep G n N w m₀ (log, st) (log, Function.update st q (.put v (List.finRange w)))
  | junk {log : List (Nat × Nat × K)} {st : Nat → TJob K w} (v : Fin w → K) (q : Nat) (h : st q = .run (.fail .divzero))
      (hg : ∀ q', G q q' → (st q').Done) : TStep G n N w m₀ (log, st) (log, Function.update st q (.put v (List.finRange w)))
  | store {log : List (Nat × Nat × K)} {st : Nat → TJob K w} {v : Fin w → K} {left : List (Fin w)} (q : Nat) (a : Fin w) (h : st q = .put v left) (ha : a ∈ left)
      (hg : ∀ q', G q q' → (st q').Done) :
      TStep G n N w m₀ (log, st) (log ++ [(q, q % n * w + a, v a)], Function.update st q (.put v (left.erase a)))

/-- `k` steps. -/
inductive TSteps (G : Nat → Nat → Prop) (n N w : Nat) (m₀ : List K) : Nat → TConf K w → TConf K w → Prop where
  | refl (c : TConf K w) : TSteps G n N w m₀ 0 c c
  | tail {k : Nat} {c d e : TConf K w} (h : TSteps G n N w m₀ k c d) (s : TStep G n N w m₀ d e) : TSteps G n N w m₀ (k + 1) c e

/-- The beginning of `N` jobs. -/
def startTorn (n N : Nat) (p : Nat → Prog K (Fin w → K)) : TConf K w := ([], fun q => if q < N then .run (p (q % n)) else .over)

/-- The writes of a log, by cell. -/
def cells (log : List (Nat × Nat × K)) : List (Nat × K) := log.map Prod.snd

/-- A complete execution of `N` jobs takes the cells from `m₀` to `m`. -/
def TornExec (G : Nat → Nat → Prop) (n N w : Nat) (p : Nat → Prog K (Fin w → K)) (m₀ m : List K) : Prop :=
  ∃ k log st, TSteps G n N w m₀ k (startTorn n N p) (log, st) ∧ (∀ q, (st q).Done) ∧ m = applyLog m₀ (cells log)

/-! ### Interleavings -/

/-- One step by any one of the jobs that need not wait: the memory is one array, and every load returns its current contents. -/
inductive TGStep (G : Nat → Nat → Prop) (n w : Nat) : List K × (Nat → TJob K w) → List K × (Nat → TJob K w) → Prop where
  | load {m : List K} {st : Nat → TJob K w} {c : Nat} {k : K → Prog K (Fin w → K)} {v : K} (q : Nat) (h : st q = .run (.load c k)) (hv : m[c]? = some v)
      (hg : ∀ q', G q q' → (st q').Done) : TGStep G n w (m, st) (m, Function.update st q (.run (k v)))
  | value {m : List K} {st : Nat → TJob K w} {v : Fin w → K} (q : Nat) (h : st q = .run (.ret v))
      (hg : ∀ q', G q q' → (st q').Done) : TGStep G n w (m, st) (m, Function.update st q (.put v (List.finRange w)))
  | junk {m : List K} {st : Nat → TJob K w} (v : Fin w → K) (q : Nat) (h : st q = .run (.fail .divzero))
      (hg : ∀ q', G q q' → (st q').Done) : TGStep G n w (m, st) (m, Function.update st q (.put v (List.finRange w)))
  | store {m : List K} {st : Nat → TJob K w} {v : Fin w → K} {left : List (Fin w)} (q : Nat) (a : Fin w) (h : st q = .put v left) (ha : a ∈ left)
      (hg : ∀ q', G q q' → (st q').Done) :
      TGStep G n w (m, st) (m.set (q % n * w + a) (v a), Function.update st q (.put v (left.erase a)))

/-- Any number of steps. -/
inductive TGSteps (G : Nat → Nat → Prop) (n w : Nat) : List K × (Nat → TJob K w) → List K × (Nat → TJob K w) → Prop where
  | refl (c : List K × (Nat → TJob K w)) : TGSteps G n w c c
  | tail {c d e : List K × (Nat → TJob K w)} (h : TGSteps G n w c d) (s : TGStep G n w d e) : TGSteps G n w c e

/-! ### Expressions -/

/-- A family of computations, one after the other. -/
def tabP : {w : Nat} → (Fin w → Prog K α) → Prog K (Fin w → α)
  | 0, _ => .ret Fin.elim0
  | _ + 1, f => do
    let a ← f 0
    let v ← tabP fun i => f i.succ
    pure (Fin.cons a v)

/-- The coefficients of component `l`, loaded one after the other. `e` says how a component is laid out in its `w` cells. -/
def loadP (e : V ≃ (Fin w → K)) (l : Nat) : Prog K V := do
  let v ← tabP fun a : Fin w => Prog.rd (l * w + a)
  pure (e.symm v)

/-- The value of an expression whose coefficients are computed one after the other, every one with loads of its own. -/
def coefP (e : V ≃ (Fin w → K)) (f : Prog K V) : Prog K V := do
  let v ← tabP fun a : Fin w => do
    let x ← f
    pure (e x a)
  pure (e.symm v)

/-- The cells of an array of components. -/
def flat (e : V ≃ (Fin w → K)) (x : List V) : List K := x.flatMap fun v => List.ofFn (e v)

/-! ### The block kernels -/

section rows
variable [Zero M] [Add M] [Sub M] [SMul R M]

/-- The loop `for(jj = lo; jj < hi; jj++) inter += vals[jj]*x[bcolind[jj]]` of the block kernels, where `x` is the shared vector. -/
def rowSumT (e : M ≃ (Fin w → K)) (colind : List Nat) (vals : List R) (lo hi : Nat) (s : M) : Prog K M :=
  Prog.forRange lo hi (fun jj s => do
    let v ← lift (rd vals jj)
    let c ← lift (rd colind jj)
    coefP e (do
      let xj ← loadP e c
      pure (s + v • xj))) s

/-- `block_unit_lower_triangular`, `src/kernels/kernels_ilu_apply.hpp` lines 55-67. -/
def unitLowerT (e : M ≃ (Fin w → K)) (A : SR V) (ilu : List R) (rhs : List M) (i : Nat) : Prog K (Fin w → K) := do
  let lo ← lift (rd A.browptr i)
  let d ← lift (rd A.diagind i)
  let b ← lift (rd rhs i)
  let s ← rowSumT e A.bcolind ilu lo d 0
  pure (e (b - s))

/-- `block_upper_triangular`, `src/kernels/kernels_ilu_apply.hpp` lines 80-94. -/
def blockUpperT (e : M ≃ (Fin w → K)) (A : SR V) (ilu : List R) (rhs : List M) (i : Nat) : Prog K (Fin w → K) := do
  let d ← lift (rd A.diagind i)
  let hi ← lift (rd A.browptr (i + 1))
  let b ← lift (rd rhs i)
  let s ← rowSumT e A.bcolind ilu (d + 1) hi 0
  let v ← lift (rd ilu d)
  pure (e (v • (b - s)))

/-- `block_bgs`, `src/kernels/kernels_sgs.hpp` lines 64-79. -/
def bgsT (e : M ≃ (Fin w → K)) (A : SR R) (dinv : List R) (rhs : List M) (i : Nat) : Prog K (Fin w → K) := do
  let d ← lift (rd A.diagind i)
  let hi ← lift (rd A.browptr (i + 1))
  let di ← lift (rd dinv i)
  let b ← lift (rd rhs i)
  let s ← rowSumT e A.bcolind A.vals (d + 1) hi 0
  pure (e (b - di • s))

/-- `block_relax_kernel`, `src/kernels/kernels_relaxation.hpp` lines 17-37. -/
def relaxT (e : M ≃ (Fin w → K)) (A : SR R) (dinv : List R) (rhs : List M) (i : Nat) : Prog K (Fin w → K) := do
  let lo ← lift (rd A.browptr i)
  let d ← lift (rd A.diagind i)
  let hi ← lift (rd A.browptr (i + 1))
  let di ← lift (rd dinv i)
  let b ← lift (rd rhs i)
  let s ← rowSumT e A.bcolind A.vals lo d 0
  let s ← rowSumT e A.bcolind A.vals (d + 1) hi s
  pure (e (di • (b - s)))

end rows

/-- The loop over the pairs of positions, lines 86-87 of `src/kernels/kernels_ilu0_factorize.hpp`. -/
def iluSumT [Sub R] [Mul R] (e : R ≃ (Fin w → K)) (pos : ILUPos) (lo hi : Nat) (sum : R) : Prog K R :=
  Prog.forRange lo hi (fun k sum => do
    let l ← lift (rd pos.lowerp k)
    let u ← lift (rd pos.upperp k)
    coefP e (do
      let a ← loadP e l
      let b ← loadP e u
      pure (sum - a * b))) sum

/-- Lines 89-96 of `src/kernels/kernels_ilu0_factorize.hpp`. Within the computation of one coefficient of the product the diagonal block is loaded once. -/
def iluLastT [PInvOp R] [Mul R] (e : R ≃ (Fin w → K)) (A : SR R) (irow column : Nat) (sum : R) : Prog K R :=
  if irow > column then do
    let d ← lift (rd A.diagind column)
    coefP e (do
      let u ← loadP e d
      lift (pdiv sum u))
  else pure sum

/-- One entry of `async_block_ilu0_factorize`, `src/kernels/kernels_ilu0_factorize.hpp` lines 78-97. -/
def iluCompT [Zero R] [Sub R] [Mul R] [PInvOp R] (e : R ≃ (Fin w → K)) (A : SR R) (scal : Nat → Nat → R → C R) (pos : ILUPos) (j : Nat) : Prog K (Fin w → K) := do
  let column ← lift (rd A.bcolind j)
  let v ← lift (rd A.vals j)
  let sum ← lift (scal (A.rowOf j) column v)
  let lo ← lift (rd pos.posptr j)
  let hi ← lift (rd pos.posptr (j + 1))
  let sum ← iluSumT e pos lo hi sum
  let x ← iluLastT e A (A.rowOf j) column sum
  pure (e x)

end Blasted
