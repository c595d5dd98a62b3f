import Verif.ConvTest.Spec

/-!
# What the convergence test of the triangular solves is about
-/

namespace Blasted

open Finset

variable {K V : Type} [Field K] [LinearOrder K]

/-- `L y` is the vector with all components 1.1, where `L` is the unit lower triangular factor stored in `ilu`. -/
def LowerSolved (A : SR V) (ilu y : List K) : Prop := y.length = A.nbrows ∧ ∀ i < A.nbrows, ∑ j ∈ range A.nbrows, lowerFactor A ilu i j * y⟦j⟧ = 11 / 10

/-- `U y` is the vector with all components 1.1, where `U` is the upper triangular factor stored in `ilu`. -/
def UpperSolved (A : SR V) (ilu y : List K) : Prop := y.length = A.nbrows ∧ ∀ i < A.nbrows, ∑ j ∈ range A.nbrows, upperFactor A ilu i j * y⟦j⟧ = 11 / 10

/-- The largest modulus of a component, but at least `tiny`. -/
def normAbove (tiny : K) (y : List K) : K := (range y.length).fold max tiny fun i => |y⟦i⟧|

/-- The error of `x` against the solution `y`: the largest difference of a component, relative to the largest component of `y` unless the run has begun with `y`. -/
def solveError (tiny : K) (initialization : String) (y x : List K) : K :=
  if initialization = "exact" then maxDiff (range y.length) x y else maxDiff (range y.length) x y / normAbove tiny y

/-- With `e s` the error after `s + 1` sweeps: the first number of sweeps with an error below the tolerance is among the first `M`, and the errors of the next two runs are below it too. -/
def Settles (tol : K) (M : Int) (e : Nat → K) : Prop := ∃ s : Nat, (s : Int) < M ∧ (∀ t < s, tol ≤ e t) ∧ e s < tol ∧ e (s + 1) < tol ∧ e (s + 2) < tol

/-- The initial guess that belongs to the name. -/
def guess (initialization : String) (y : List K) : List K := if initialization = "exact" then y else List.replicate y.length 0

end Blasted
