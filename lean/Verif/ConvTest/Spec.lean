import Verif.ILU.Spec
import Mathlib.Algebra.Order.Field.Basic
import Mathlib.Data.Finset.Fold

/-!
# What the convergence test is about

The distance of two sets of factors, separately for the stored positions below the diagonal and for the others.
-/

namespace Blasted

variable {K V : Type} [Field K] [LinearOrder K]

/-- The stored positions below the diagonal. -/
def lowerPos (A : SR V) : Finset Nat := (Finset.range A.browptr⟦A.nbrows⟧).filter fun p => A.bcolind⟦p⟧ < A.rowOf p

/-- The stored positions on or above the diagonal. -/
def upperPos (A : SR V) : Finset Nat := (Finset.range A.browptr⟦A.nbrows⟧).filter fun p => A.rowOf p ≤ A.bcolind⟦p⟧

/-- The largest modulus of a difference over the positions in `P`, zero if there are none. -/
def maxDiff (P : Finset Nat) (x y : List K) : K := P.fold max 0 fun p => |x⟦p⟧ - y⟦p⟧|

/-- The factors after `s` sweeps, each of which takes the factors of the sweep before to what `sched` says. -/
def sweepsOf (sched : Nat → List K → List K) (x0 : List K) : Nat → List K
  | 0 => x0
  | s + 1 => sched s (sweepsOf sched x0 s)

end Blasted
