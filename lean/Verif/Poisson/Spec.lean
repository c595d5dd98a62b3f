import Verif.Poisson.Model

/-!
# Specification of the Poisson test problem
-/

namespace Blasted
open Finset

variable {K : Type} [Field K] [LinearOrder K]

/-- The coordinate of the `i`-th point along the axis `d`. -/
def CartMesh.x (m : CartMesh K) (d : Fin 3) (i : Nat) : K := (m.coords d)⟦i⟧

/-- A grid with at least one interior point, whose coordinates increase along every axis. -/
structure CartMesh.Good (m : CartMesh K) : Prop where
  three : ∀ d, 3 ≤ m.npoind d
  len : ∀ d, (m.coords d).length = m.npoind d
  incr : ∀ d i, i + 1 < m.npoind d → m.x d i < m.x d (i + 1)

/-- The interior points are numbered from 0 along every axis. -/
def CartMesh.Interior (m : CartMesh K) (k j i : Nat) : Prop := i + 2 < m.npoind 0 ∧ j + 2 < m.npoind 1 ∧ k + 2 < m.npoind 2

/-- The interior points that belong to a process. -/
def Corners.Has (b : Corners) (k j i : Nat) : Prop :=
  b.start 0 ≤ i ∧ i < b.start 0 + b.lsize 0 ∧ b.start 1 ≤ j ∧ j < b.start 1 + b.lsize 1 ∧ b.start 2 ≤ k ∧ k < b.start 2 + b.lsize 2

/-- A distribution of the interior points among processes. -/
structure CartMesh.Distributed (m : CartMesh K) (procs : List Corners) : Prop where
  inside : ∀ b ∈ procs, ∀ k j i, b.Has k j i → m.Interior k j i
  all : ∀ k j i, m.Interior k j i → ∃ b ∈ procs, b.Has k j i

/-- The second derivative of a function with the values `u0`, `u1`, `u2` at `x0 < x1 < x2`, by divided differences. -/
def secondDiff (x0 x1 x2 u0 u1 u2 : K) : K := 2 / (x2 - x0) * ((u2 - u1) / (x2 - x1) - (u1 - u0) / (x1 - x0))

/-- A function on the interior points as a function on all points of the grid, with zeros on the boundary. -/
def CartMesh.ext (m : CartMesh K) (u : Nat → Nat → Nat → K) : Nat → Nat → Nat → K
  | k + 1, j + 1, i + 1 => if i + 2 < m.npoind 0 ∧ j + 2 < m.npoind 1 ∧ k + 2 < m.npoind 2 then u k j i else 0
  | _, _, _ => 0

/-- The discrete Laplacian at an interior point, with zeros on the boundary. -/
def CartMesh.laplacian (m : CartMesh K) (u : Nat → Nat → Nat → K) (k j i : Nat) : K :=
  secondDiff (m.x 0 i) (m.x 0 (i + 1)) (m.x 0 (i + 2)) (m.ext u (k + 1) (j + 1) i) (m.ext u (k + 1) (j + 1) (i + 1)) (m.ext u (k + 1) (j + 1) (i + 2)) +
  secondDiff (m.x 1 j) (m.x 1 (j + 1)) (m.x 1 (j + 2)) (m.ext u (k + 1) j (i + 1)) (m.ext u (k + 1) (j + 1) (i + 1)) (m.ext u (k + 1) (j + 2) (i + 1)) +
  secondDiff (m.x 2 k) (m.x 2 (k + 1)) (m.x 2 (k + 2)) (m.ext u k (j + 1) (i + 1)) (m.ext u (k + 1) (j + 1) (i + 1)) (m.ext u (k + 2) (j + 1) (i + 1))

/-- The product of the matrix with a function on the interior points. -/
def CartMesh.mul (m : CartMesh K) (A : DAMat K) (u : Nat → Nat → Nat → K) (k j i : Nat) : K :=
  ∑ k' ∈ range (m.npoind 2 - 2), ∑ j' ∈ range (m.npoind 1 - 2), ∑ i' ∈ range (m.npoind 0 - 2), (A ⟨k, j, i⟩ ⟨k', j', i'⟩).getD 0 * u k' j' i'

/-- Two points are equal or neighbours along an axis. -/
def Adjacent (p q : MatStencil) : Prop := |p.i - q.i| + |p.j - q.j| + |p.k - q.k| ≤ 1

/-- The number of interior points. -/
def CartMesh.size (m : CartMesh K) : Nat := (m.npoind 2 - 2) * (m.npoind 1 - 2) * (m.npoind 0 - 2)

/-- The matrix of a single process, which numbers the points along the first axis first: the entry in row `I` and column `J`. -/
def CartMesh.flat (m : CartMesh K) (A : DAMat K) (I J : Nat) : K :=
  let M := m.npoind 0 - 2
  let N := m.npoind 1 - 2
  (A ⟨(I / M / N : Nat), (I / M % N : Nat), (I % M : Nat)⟩ ⟨(J / M / N : Nat), (J / M % N : Nat), (J % M : Nat)⟩).getD 0

end Blasted
