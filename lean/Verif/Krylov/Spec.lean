import Verif.Krylov.Model
import Mathlib.LinearAlgebra.Matrix.DotProduct

/-!
# What is solved: vectors, residuals and norms

A small vocabulary for the statements about the solvers of `tests/solvers.cpp`: arrays are vectors of `Fin n → K`,
matrices are those of Mathlib.
-/

namespace Blasted

open Matrix

section
variable {K : Type} [Field K] [LinearOrder K]

/-- The vector stored in an array. -/
def vecN (n : Nat) (l : List K) : Fin n → K := fun i => l⟦i⟧

/-- The coefficient of the matrix at row `I` and column `J`. -/
def MatView.entry (A : MatView K) (I J : Nat) : K :=
  match A with
  | .csr A => A.entry I J
  | .bsr stor bs A => A.bentry stor bs I J

/-- The matrix behind a view. -/
def MatView.mat (A : MatView K) : Matrix (Fin A.dim) (Fin A.dim) K := fun I J => A.entry I J

/-- The arrays of the view describe a matrix. -/
def MatView.Ready (A : MatView K) : Prop :=
  match A with
  | .csr A => A.Full
  | .bsr _ bs A => 0 < bs ∧ A.Full (bs * bs)

/-- Number of iterations of the row loops. -/
def MatView.rows (A : MatView K) : Nat :=
  match A with
  | .csr A => A.nbrows
  | .bsr _ _ A => A.nbrows

/-- Every parallel loop executes each of its iterations once, in some order. -/
def SolveSched.Valid (s : SolveSched) (A : MatView K) : Prop :=
  (∀ k m, (s.rows k m).Perm (List.range A.rows)) ∧ ∀ k m, (s.cells k m).Perm (List.range A.dim)

/-- Every application of the preconditioner succeeds and the vector `z` it yields for `r` satisfies `P r z`. Nothing
else is required: the calls need not agree with each other. -/
def PrecFun.Meets (prec : PrecFun K) (n : Nat) (P : (Fin n → K) → (Fin n → K) → Prop) : Prop :=
  ∀ k r z, r.length = n → z.length = n → ∃ z', prec k r z = .ok z' ∧ z'.length = n ∧ P (vecN n r) (vecN n z')

/-- The residual `b - A x`. -/
def MatView.resid (A : MatView K) (b : List K) (x : Fin A.dim → K) : Fin A.dim → K := vecN A.dim b - A.mat *ᵥ x

/-- Square of the 2-norm. -/
def nrm2 {n : Nat} (v : Fin n → K) : K := v ⬝ᵥ v

/-- `std::sqrt` in exact arithmetic. -/
def SqrtOk (sqrt : K → K) : Prop := ∀ a, 0 ≤ a → 0 ≤ sqrt a ∧ sqrt a * sqrt a = a

/-- A complete and consistent solver object and call: the matrix, the orders of the loops, the preconditioner and the
two arrays. -/
structure SolverEnv.Ready (E : SolverEnv K) (P : (Fin E.A.dim → K) → (Fin E.A.dim → K) → Prop) (b x : List K) : Prop where
  mat : E.A.Ready
  sched : E.sched.Valid E.A
  prec : E.prec.Meets E.A.dim P
  b_len : b.length = E.A.dim
  x_len : x.length = E.A.dim

/-- The residual of `x` is below the tolerance relative to the right hand side: `|b - A x| < tol |b|`. -/
def SolverEnv.Small (E : SolverEnv K) (b : List K) (x : Fin E.A.dim → K) : Prop :=
  vecN E.A.dim b ≠ 0 ∧ 0 < E.tol ∧ nrm2 (E.A.resid b x) < E.tol * E.tol * nrm2 (vecN E.A.dim b)

/-- `resnorm` is the 2-norm of the residual of `x`. -/
def SolverEnv.NormOf (E : SolverEnv K) (b : List K) (x : Fin E.A.dim → K) (resnorm : K) : Prop :=
  0 ≤ resnorm ∧ resnorm * resnorm = nrm2 (E.A.resid b x)

end

end Blasted
