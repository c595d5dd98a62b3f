import Verif.Solve.Model
import Mathlib.Algebra.Order.Field.Basic

/-!
# Relaxations

Transcription of the `apply_relax` functions of `src/solverops_jacobi.cpp`, `src/solverops_sgs.cpp`,
`src/solverops_levels_sgs.cpp` and of `src/relaxation_chaotic.cpp`. As in `Verif.Solve.Model`, the
scalar and the block code are the two instances of the definitions, and the coefficient-wise loops over
`nbrows*bs` scalars are written segment-wise.
-/

namespace Blasted

variable {R M K : Type}

/-- `SolveParams`, `include/solverops_base.hpp` lines 18-25. -/
structure SolveParams (K : Type) where
  rtol : K
  atol : K
  dtol : K
  ctol : Bool
  maxits : Nat

/-- `diffnorm/refdiffnorm < tol` in floating-point arithmetic: false if the quotient is infinite or not a number. -/
def ratioLt [Field K] [LinearOrder K] (d ref tol : K) : Bool :=
  if ref = 0 then false else decide (d / ref < tol)

/-- `diffnorm/refdiffnorm > tol` in floating-point arithmetic, for finite `tol`: true if the quotient is infinite, false
if it is not a number. -/
def ratioGt [Field K] [LinearOrder K] (d ref tol : K) : Bool :=
  if ref = 0 then decide (d ≠ 0) else decide (tol < d / ref)

section jacobi
variable [Zero M] [Add M] [Sub M] [SMul R M]

/-- The loop over rows of one step, `src/solverops_jacobi.cpp` lines 86-92 and 183-189. -/
def relaxInto (A : SR R) (dinv : List R) (b x : List M) (ord : List Nat) (xtemp : List M) : C (List M) :=
  parFor A.nbrows ord (fun i xt => do
    let v ← relaxRow A dinv b i (rd x)
    wr xt i v) xtemp

/-- The loop that accumulates the squared norm of the difference and copies the new iterate,
`src/solverops_jacobi.cpp` lines 96-103 and 193-200. `sq` is the sum of the squares of the coefficients of a
component. -/
def diffCopy [Zero K] [Add K] (n : Nat) (sq : M → K) (ord : List Nat) (xtemp x : List M) : C (K × List M) :=
  parFor n ord (fun i s => do
    let t ← rd xtemp i
    let xi ← rd s.2 i
    let x' ← wr s.2 i t
    .ok (s.1 + sq (t - xi), x')) (0, x)

/-- The loop that copies the new iterate, `src/solverops_jacobi.cpp` lines 115-118 and 212-215. -/
def copyInto (n : Nat) (ord : List Nat) (xtemp x : List M) : C (List M) :=
  parFor n ord (fun i x => do
    let t ← rd xtemp i
    wr x i t) x

/-- The loop over steps of `apply_relax`, `src/solverops_jacobi.cpp` lines 84-120 and 181-217, with `left` steps left. The
arguments after it are the number of the step, `refdiffnorm`, `x` and `xtemp`. -/
def jacobiRelaxLoop [Field K] [LinearOrder K] (sqrt : K → K) (sq : M → K) (p : SolveParams K) (A : SR R) (dinv : List R)
    (b : List M) (ord : Nat → List Nat) : (left step : Nat) → K → List M → List M → C (List M)
  | 0, _, _, x, _ => .ok x
  | left + 1, step, ref, x, xtemp => do
    let xtemp ← relaxInto A dinv b x (ord (2 * step)) xtemp
    if p.ctol then do
      let s ← diffCopy A.nbrows sq (ord (2 * step + 1)) xtemp x
      let diffnorm := sqrt s.1
      let ref := if step = 0 then diffnorm else ref
      if decide (diffnorm < p.atol) || ratioLt diffnorm ref p.rtol || ratioGt diffnorm ref p.dtol then .ok s.2
      else jacobiRelaxLoop sqrt sq p A dinv b ord left (step + 1) ref s.2 xtemp
    else do
      let x ← copyInto A.nbrows (ord (2 * step + 1)) xtemp x
      jacobiRelaxLoop sqrt sq p A dinv b ord left (step + 1) ref x xtemp

/-- `apply_relax` of the Jacobi preconditioners, `src/solverops_jacobi.cpp` lines 66-121 and 174-220. `g` is the
contents of the newly allocated `xtemp`. -/
def jacobiRelax [Field K] [LinearOrder K] (sqrt : K → K) (sq : M → K) (p : SolveParams K) (A : SR R) (dinv : List R)
    (b : List M) (ord : Nat → List Nat) (g x : List M) : C (List M) :=
  jacobiRelaxLoop sqrt sq p A dinv b ord p.maxits 0 1 x g

/-- `apply` and `apply_relax` of `ChaoticRelaxation` and `ChaoticBlockRelaxation` with one thread and `k` sweeps
(`napplysweeps` resp. `maxits`), `src/relaxation_chaotic.cpp` lines 22-71 and 91-123. The old contents of `x`
are the initial guess also for `apply`. -/
def chaoticRelax (A : SR R) (dinv : List R) (k : Nat) (b x : List M) : C (List M) :=
  fwdSweeps (relaxRow A dinv b) A.nbrows k x

/-- `apply_relax` of the SGS preconditioners with one thread, `src/solverops_sgs.cpp` lines 85-115 and 179-202. -/
def sgsRelax (A : SR R) (dinv : List R) (maxits : Nat) (b x : List M) : C (List M) :=
  forRange 0 maxits (fun _ x => do
    let x ← forRange 0 A.nbrows (updRow (relaxRow A dinv b)) x
    forDown 0 A.nbrows (updRow (relaxRow A dinv b)) x) x

/-- `apply_relax` of the level-scheduled SGS preconditioners, `src/solverops_levels_sgs.cpp` lines 90-126 and 191-220. -/
def levelSgsRelax (A : SR R) (dinv : List R) (levels : List Nat) (sched sched' : Nat → Nat → List Nat → List Nat)
    (maxits : Nat) (b x : List M) : C (List M) :=
  forRange 0 maxits (fun s x => do
    let x ← levelUp (relaxRow A dinv b) levels (sched s) x
    levelDown (relaxRow A dinv b) levels (sched' s) x) x

/-- `apply` and `apply_relax` of the chaotic relaxations with threads: `k` overlapping asynchronous sweeps. -/
def AsyncChaoticRelax (A : SR R) (dinv : List R) (mix : Set M → Set M) (k : Nat) (b x x' : List M) : Prop :=
  (k = 0 ∧ x' = x) ∨ ARun (relaxRow A dinv b) mix k x x'

/-- `apply_relax` of the SGS preconditioners with threads: every step is two overlapping asynchronous sweeps. The order
in which the iterations of a parallel loop are listed does not matter for an asynchronous sweep. -/
def AsyncSgsRelax (A : SR R) (dinv : List R) (mix : Set M → Set M) (maxits : Nat) (b x x' : List M) : Prop :=
  (maxits = 0 ∧ x' = x) ∨ ARun (relaxRow A dinv b) mix (2 * maxits) x x'

/-- `apply_relax` of the level-scheduled SGS preconditioners with parallel loops over the rows of each level in which no
assumption is made on the reads within a level. -/
inductive AsyncLevelSgsRelax (A : SR R) (dinv : List R) (mix : Set M → Set M) (levels : List Nat) (b : List M) :
    Nat → List M → List M → Prop
  | zero (x : List M) : AsyncLevelSgsRelax A dinv mix levels b 0 x x
  | succ {s : Nat} {x y z w : List M} : AsyncLevelSgsRelax A dinv mix levels b s x y →
      ALevels (relaxRow A dinv b) mix (levelRows levels) y z →
      ALevels (relaxRow A dinv b) mix (levelRows levels).reverse z w → AsyncLevelSgsRelax A dinv mix levels b (s + 1) x w

end jacobi

/-- `apply` of `NoPreconditioner`, `src/solverops_base.cpp` lines 31-37. -/
def noPrecApply (n : Nat) (ord : List Nat) (x y : List K) : C (List K) :=
  parFor n ord (fun i y => do
    let v ← rd x i
    wr y i v) y

end Blasted
