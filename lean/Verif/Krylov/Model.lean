import Verif.MatVec.Model
import Verif.Info.Model

/-!
# Krylov and Richardson solvers: transcription of `tests/solvers.cpp`

The solvers which the executables under `tests/` use: they call `apply` and `gemv3` of a matrix view and `apply` of a
preconditioner, and nothing else of the library.

Simplifications, common to the whole file:

* exact arithmetic over an ordered field `K`, with the square root function `sqrt` as a parameter. A division by zero
  which yields inf or NaN is the outcome `divzero`. (The quotient `resnorm/bnorm` is different, see `relLt`.)
* a `reduction(+)` is a sum in the order of the indices. In exact arithmetic the order does not matter. The order of the
  iterations of every other parallel loop is a parameter.
* the preconditioner is a function of the number of the call, of the vector it is applied to and of the previous
  contents of the result: it may be different in every call, as the asynchronous ones are.
* printing and the measurement of times are left out.
-/

namespace Blasted

/-! ### Vector operations -/

section vec
variable {K : Type} [Zero K] [Add K] [Mul K]

/-- `axpby`, `tests/solvers.cpp` lines 20-27: `z <- p z + q x`. -/
def axpby (n : Nat) (ord : List Nat) (p : K) (z : List K) (q : K) (x : List K) : C (List K) :=
  parFor n ord (fun i z => do
    let zi ← rd z i
    let xi ← rd x i
    wr z i (p * zi + q * xi)) z

/-- `axpbypcz`, `tests/solvers.cpp` lines 31-39: `z <- p z + q x + r y`. -/
def axpbypcz (n : Nat) (ord : List Nat) (p : K) (z : List K) (q : K) (x : List K) (r : K) (y : List K) : C (List K) :=
  parFor n ord (fun i z => do
    let zi ← rd z i
    let xi ← rd x i
    let yi ← rd y i
    wr z i (p * zi + q * xi + r * yi)) z

/-- `dot`, `tests/solvers.cpp` lines 42-51. -/
def dotp (n : Nat) (a b : List K) : C K :=
  forRange 0 n (fun i s => do
    let t ← (do
      let x ← rd a i
      let y ← rd b i
      .ok (x * y))
    .ok (s + t)) 0

/-- `vecassign`, `tests/solvers.cpp` lines 53-60: `b <- a`. -/
def vecassign (n : Nat) (ord : List Nat) (a b : List K) : C (List K) :=
  parFor n ord (fun i b => do
    let v ← rd a i
    wr b i v) b

/-! ### The matrix -/

/-- The views of a matrix that can be behind the reference `A` of a solver: `CSRMatrixView` and `BSRMatrixView`,
`include/blockmatrices.hpp` lines 68-110 and 116-160. -/
inductive MatView (K : Type) where
  | csr (A : SR K)
  | bsr (stor : Stor) (bs : Nat) (A : SR K)

/-- `dim()`, `include/blockmatrices.hpp` lines 106 and 152. -/
def MatView.dim : MatView K → Nat
  | .csr A => A.nbrows
  | .bsr _ bs A => A.nbrows * bs

/-- `apply(x, y)`: `src/blockmatrices.ipp` lines 150-155 and 118-123. -/
def MatView.apply (A : MatView K) (ord : List Nat) (x y : List K) : C (List K) :=
  match A with
  | .csr A => csrApply ord A x y
  | .bsr stor bs A => bsrApply stor bs ord A x y

/-- `gemv3(a, x, b, y, z)` with `y` and `z` different arrays: `src/blockmatrices.ipp` lines 157-162 and 125-131. -/
def MatView.gemv3 (A : MatView K) (ord : List Nat) (a : K) (x : List K) (b : K) (y z : List K) : C (List K) :=
  match A with
  | .csr A => csrGemv3 ord A a x b (some y) z
  | .bsr stor bs A => bsrGemv3 stor bs ord A a x b (some y) z

end vec

/-- Orders of the iterations of the parallel loops of a solve: `rows k m` of the `m`-th matrix operation in iteration
`k`, `cells k m` of the `m`-th vector operation in iteration `k`. (In the Gram-Schmidt loop of `GCR::solve`, `m` also
counts the passes of that loop.) -/
structure SolveSched where
  rows : Nat → Nat → List Nat
  cells : Nat → Nat → List Nat

/-- A preconditioner as a solver sees it: `prec k r z` is the array `z` after the call `prec.apply(r, z)` of number
`k`. `Preconditioner::apply`, `include/solverops_base.hpp` lines 40-60. -/
abbrev PrecFun (K : Type) := Nat → List K → List K → C (List K)

/-- `SolveInfo`, `tests/solvers.hpp` lines 19-27, without the times. -/
structure SolveInfo (K : Type) where
  converged : Bool
  iters : Int
  resnorm : K
  bnorm : K
deriving DecidableEq

/-- The parameters `maxiter` and `tol` of `IterativeSolverBase` (`tests/solvers.hpp` lines 33-34, set by `setParams`,
`tests/solvers.cpp` lines 68-70), the matrix, the preconditioner, and what the environment decides. -/
structure SolverEnv (K : Type) where
  A : MatView K
  prec : PrecFun K
  sqrt : K → K
  maxiter : Int
  tol : K
  sched : SolveSched

section solvers
variable {K : Type} [Field K] [LinearOrder K]

/-- `resnorm/bnorm < tol`. IEEE arithmetic: if `bnorm` is 0 then the quotient is inf or NaN and the comparison is false. -/
def relLt (resnorm bnorm tol : K) : Bool := decide (bnorm ≠ 0 ∧ resnorm / bnorm < tol)

/-- `resnorm/bnorm <= tol`, as `relLt`. -/
def relLe (resnorm bnorm tol : K) : Bool := decide (bnorm ≠ 0 ∧ resnorm / bnorm ≤ tol)

/-- `while(step < maxiter) { body; step++; }` where `body` may `break`: it returns `true` then. The first argument is
the number of remaining iterations `maxiter - step`. The last value of `step` is returned with the state. -/
def loopBreak {σ : Type} : Nat → Nat → (Nat → σ → C (σ × Bool)) → σ → C (σ × Nat)
  | 0, step, _, s => .ok (s, step)
  | f + 1, step, body, s => do
    let r ← body step s
    if r.2 then .ok (r.1, step) else loopBreak f (step + 1) body r.1

/-! ### `RichardsonSolver` -/

/-- The variables of `RichardsonSolver::solve` which its loop changes, `tests/solvers.cpp` lines 98-102. -/
structure RichState (K : Type) where
  du : List K
  s : List K
  ddu : List K
  resnorm : K

/-- Body of the loop of `RichardsonSolver::solve`, `tests/solvers.cpp` lines 109-118. -/
def richBody (E : SolverEnv K) (res : List K) (bnorm : K) (step : Nat) (st : RichState K) : C (RichState K × Bool) := do
  let s ← E.A.gemv3 (E.sched.rows step 0) (-1) st.du 1 res st.s
  let d ← dotp E.A.dim s s
  if relLt (E.sqrt d) bnorm E.tol then
    .ok (⟨st.du, s, st.ddu, E.sqrt d⟩, true)
  else do
    let ddu ← E.prec step s st.ddu
    let du ← axpby E.A.dim (E.sched.cells step 0) 1 st.du 1 ddu
    .ok (⟨du, s, ddu, E.sqrt d⟩, false)

/-- `RichardsonSolver::solve(res, du)`, `tests/solvers.cpp` lines 90-133. `info.converged` is never assigned. -/
def richardsonSolve (E : SolverEnv K) (res du : List K) : C (SolveInfo K × List K) := do
  let bb ← dotp E.A.dim res res
  let r ← loopBreak E.maxiter.toNat 0 (richBody E res (E.sqrt bb))
    ⟨du, List.replicate E.A.dim 0, List.replicate E.A.dim 0, 0⟩
  .ok (⟨false, r.2, r.1.resnorm, E.sqrt bb⟩, r.1.du)

/-! ### `BiCGSTAB` -/

/-- The variables of `BiCGSTAB::solve` which its loop changes, `tests/solvers.cpp` lines 142-161. -/
structure BicgState (K : Type) where
  x : List K
  r : List K
  p : List K
  v : List K
  y : List K
  z : List K
  t : List K
  omega : K
  rhoold : K
  alpha : K
  resnorm : K

/-- Body of the loop of `BiCGSTAB::solve`, `tests/solvers.cpp` lines 184-227. -/
def bicgBody (E : SolverEnv K) (bnorm : K) (rhat : List K) (step : Nat) (st : BicgState K) :
    C (BicgState K × Bool) := do
  let rho ← dotp E.A.dim rhat st.r
  let beta ← fdiv (rho * st.alpha) (st.rhoold * st.omega)
  let p ← axpbypcz E.A.dim (E.sched.cells step 0) beta st.p 1 st.r (-beta * st.omega) st.v
  let y ← E.prec (2 * step) p st.y
  let v ← E.A.apply (E.sched.rows step 0) y st.v
  let rv ← dotp E.A.dim rhat v
  let alpha ← fdiv rho rv
  let s ← axpby E.A.dim (E.sched.cells step 1) 1 st.r (-alpha) v
  let z ← E.prec (2 * step + 1) s st.z
  let t ← E.A.apply (E.sched.rows step 1) z st.t
  let ts ← dotp E.A.dim t s
  let tt ← dotp E.A.dim t t
  let omega ← fdiv ts tt
  let x ← axpbypcz E.A.dim (E.sched.cells step 2) 1 st.x alpha y omega z
  let r ← axpby E.A.dim (E.sched.cells step 3) 1 s (-omega) t
  let d ← dotp E.A.dim r r
  .ok (⟨x, r, p, v, y, z, t, omega, if relLt (E.sqrt d) bnorm E.tol then st.rhoold else rho, alpha, E.sqrt d⟩,
    relLt (E.sqrt d) bnorm E.tol)

/-- `BiCGSTAB::solve(rhs, xsol)`, `tests/solvers.cpp` lines 140-244. `info.converged` is never assigned. -/
def bicgstabSolve (E : SolverEnv K) (rhs xsol : List K) : C (SolveInfo K × List K) := do
  let zero := List.replicate E.A.dim (0 : K)
  let r ← E.A.gemv3 (E.sched.rows 0 2) (-1) xsol 1 rhs zero
  let bb ← dotp E.A.dim rhs rhs
  let rhat ← vecassign E.A.dim (E.sched.cells 0 4) r zero
  let q ← loopBreak E.maxiter.toNat 0 (bicgBody E (E.sqrt bb) rhat)
    ⟨xsol, r, zero, zero, zero, zero, zero, 1, 1, 1, 100⟩
  .ok (⟨false, q.2 + 1, q.1.resnorm, E.sqrt bb⟩, q.1.x)

/-! ### `GCR` -/

/-- The variables of `GCR::solve` which its loops change, `tests/solvers.cpp` lines 264-279. -/
structure GcrState (K : Type) where
  x : List K
  res : List K
  z : List K
  beta : List K
  p : List (List K)
  q : List (List K)
  resnorm : K
  step : Nat

/-- The computation of `beta`, `tests/solvers.cpp` lines 321-323. -/
def gcrBeta (n k : Nat) (q : List (List K)) (beta : List K) : C (List K) :=
  forRange 0 (k + 1) (fun i beta => do
    let qn ← rd q (k + 1)
    let qi ← rd q i
    let num ← dotp n qn qi
    let den ← dotp n qi qi
    let b ← fdiv (-num) den
    wr beta i b) beta

/-- The two assignments of lines 328-329 of `tests/solvers.cpp`, for one `l` and all `i`. The loop over `i` assigns
`p[k+1][i]` and `q[k+1][i]` in one iteration. Simplification: the two arrays are updated one after the other. -/
def gcrOrth (n : Nat) (ord : List Nat) (k l : Nat) (b : K) (p : List (List K)) : C (List (List K)) := do
  let pn ← rd p (k + 1)
  let pl ← rd p l
  let pn ← axpby n ord 1 pn b pl
  wr p (k + 1) pn

/-- The rest of an iteration of the inner loop of `GCR::solve` after its `break`s, `tests/solvers.cpp` lines 315-331.
`st.step` has been incremented. -/
def gcrNext (E : SolverEnv K) (k : Nat) (st : GcrState K) : C (GcrState K) := do
  let z ← E.prec st.step st.res st.z
  let qn ← rd st.q (k + 1)
  let qn ← E.A.apply (E.sched.rows st.step 0) z qn
  let q ← wr st.q (k + 1) qn
  let pn ← rd st.p (k + 1)
  let pn ← vecassign E.A.dim (E.sched.cells st.step 0) z pn
  let p ← wr st.p (k + 1) pn
  let beta ← gcrBeta E.A.dim k q st.beta
  let pq ← forRange 0 (k + 1) (fun l (pq : List (List K) × List (List K)) => do
    let b ← rd beta l
    let p ← gcrOrth E.A.dim (E.sched.cells st.step (3 + l)) k l b pq.1
    let q ← gcrOrth E.A.dim (E.sched.cells st.step (3 + l)) k l b pq.2
    .ok (p, q)) (p, q)
  .ok { st with z := z, beta := beta, p := pq.1, q := pq.2 }

/-- Lines 293-306 of `tests/solvers.cpp`: the update of `x` and `res` with the `k`-th directions. -/
def gcrStep (E : SolverEnv K) (k : Nat) (st : GcrState K) : C (GcrState K) := do
  let pk ← rd st.p k
  let qk ← rd st.q k
  let num ← dotp E.A.dim st.res qk
  let den ← dotp E.A.dim qk qk
  let alpha ← fdiv num den
  let x ← axpby E.A.dim (E.sched.cells st.step 1) 1 st.x alpha pk
  let res ← axpby E.A.dim (E.sched.cells st.step 2) 1 st.res (-alpha) qk
  let d ← dotp E.A.dim res res
  .ok { st with x := x, res := res, resnorm := E.sqrt d, step := st.step + 1 }

/-- The loop `for(int k = 0; k < nrestart; k++)`, `tests/solvers.cpp` lines 291-332. The first argument is the number
of remaining iterations `nrestart - k`. -/
def gcrInner (E : SolverEnv K) (bnorm : K) (nrestart : Nat) : Nat → Nat → GcrState K → C (GcrState K)
  | 0, _, st => .ok st
  | f + 1, k, st => do
    let st ← gcrStep E k st
    if relLt st.resnorm bnorm E.tol || (k + 1 == nrestart) || decide (E.maxiter ≤ st.step) then .ok st
    else do
      let st ← gcrNext E k st
      gcrInner E bnorm nrestart f (k + 1) st

/-- Lines 284-332 of `tests/solvers.cpp`: one restart cycle. With `nrestart = 0` the access `p[0]` to an empty vector is
undefined. -/
def gcrCycle (E : SolverEnv K) (bnorm : K) (nrestart : Nat) (b : List K) (st : GcrState K) : C (GcrState K) := do
  let res ← E.A.gemv3 (E.sched.rows st.step 1) (-1) st.x 1 b st.res
  let d ← dotp E.A.dim res res
  let p0 ← rd st.p 0
  let p0 ← E.prec st.step res p0
  let p ← wr st.p 0 p0
  let q0 ← rd st.q 0
  let q0 ← E.A.apply (E.sched.rows st.step 0) p0 q0
  let q ← wr st.q 0 q0
  gcrInner E bnorm nrestart nrestart 0 { st with res := res, p := p, q := q, resnorm := d }

/-- The outer loop of `GCR::solve`, `tests/solvers.cpp` lines 281-337. The first argument bounds the number of cycles. -/
def gcrOuter (E : SolverEnv K) (bnorm : K) (nrestart : Nat) (b : List K) : Nat → GcrState K → C (GcrState K)
  | f, st =>
    if (st.step : Int) < E.maxiter then
      match f with
      | 0 => .error .fuel
      | f + 1 => do
        let st ← gcrCycle E bnorm nrestart b st
        if relLt st.resnorm bnorm E.tol then .ok st else gcrOuter E bnorm nrestart b f st
    else .ok st

/-- `GCR::solve(b, x)`, `tests/solvers.cpp` lines 252-352. A negative `nrestart` (for which the constructors of the
vectors throw) is not modelled. -/
def gcrSolve (E : SolverEnv K) (nrestart : Nat) (b x : List K) : C (SolveInfo K × List K) := do
  let zero := List.replicate E.A.dim (0 : K)
  let bb ← dotp E.A.dim b b
  let st ← gcrOuter E (E.sqrt bb) nrestart b E.maxiter.toNat
    ⟨x, zero, zero, List.replicate (nrestart + 1) 0, List.replicate nrestart zero, List.replicate nrestart zero, 1, 0⟩
  .ok (⟨relLe st.resnorm (E.sqrt bb) E.tol, st.step, st.resnorm, E.sqrt bb⟩, st.x)

end solvers

end Blasted
