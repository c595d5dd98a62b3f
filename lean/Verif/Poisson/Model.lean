import Verif.Info.Model
import Mathlib.Data.Fin.VecNotation

/-!
# The Poisson test problem

`tests/poisson3d-fd/cartmesh.cpp` and `tests/poisson3d-fd/poisson3d_fd.cpp`. The distributed array of PETSc (DMDA) has one value per interior point of the grid. Simplifications: arithmetic is exact and
division by zero is a distinct outcome; the cosine, the sine, the square root and the constant `PI` are parameters; printing is left out; the checks of `CartMesh::gcoords` (lines 95-106 of
`cartmesh.hpp`), which exist only if `DEBUG` is 1 and do not check for negative indices, are left out.
-/

namespace Blasted

/-- `CartMesh`, `tests/poisson3d-fd/cartmesh.hpp` lines 35-60: the number of points along every axis, boundary points included, and their coordinates. -/
structure CartMesh (K : Type) where
  npoind : Fin 3 → Nat
  coords : Fin 3 → List K

/-- The part of the distributed array that belongs to one process: the result of `DMDAGetCorners`, `tests/poisson3d-fd/poisson3d_fd.cpp` lines 51-54. -/
structure Corners where
  start : Fin 3 → Nat
  lsize : Fin 3 → Nat

/-- `MatStencil` of PETSc: a point of the distributed array (the fourth member, the component, is always 0 and left out). -/
structure MatStencil where
  k : Int
  j : Int
  i : Int
deriving DecidableEq

/-- A PETSc matrix made by `DMCreateMatrix`: the values set so far. -/
abbrev DAMat (K : Type) := MatStencil → MatStencil → Option K

/-- The array of arrays of arrays made by `DMDAVecGetArray`. Simplification: no checks, the caller only accesses the points that belong to it. -/
abbrev DAVec (K : Type) := Nat → Nat → Nat → K

/-- `v[k][j][i] = x`. -/
def DAVec.set {K : Type} (v : DAVec K) (k j i : Nat) (x : K) : DAVec K := fun k' j' i' => if k' = k ∧ j' = j ∧ i' = i then x else v k' j' i'

/-- Is this a point of the distributed array? -/
def daHas (dims : Fin 3 → Nat) (p : MatStencil) : Bool :=
  0 ≤ p.i ∧ p.i < dims 0 ∧ 0 ≤ p.j ∧ p.j < dims 1 ∧ 0 ≤ p.k ∧ p.k < dims 2

/-- `MatSetValuesStencil` of PETSc for one row with `INSERT_VALUES`: rows and columns outside of the distributed array are ignored. -/
def matSetValuesStencil {K : Type} (dims : Fin 3 → Nat) (A : DAMat K) (r : MatStencil) (cols : List (MatStencil × K)) : DAMat K :=
  cols.foldl (fun A cv => if daHas dims r ∧ daHas dims cv.1 then fun r' c' => if r' = r ∧ c' = cv.1 then some cv.2 else A r' c' else A) A

section
variable {K : Type}

/-- `CartMesh::gcoords`, `tests/poisson3d-fd/cartmesh.hpp` lines 89-109. -/
def CartMesh.gcoords (m : CartMesh K) (idim : Fin 3) (ipoin : Int) : C K :=
  if 0 ≤ ipoin then rd (m.coords idim) ipoin.toNat else .error .ub

/-- The size of the distributed array: the arguments of `DMDACreate3d`, `tests/poisson3d-fd/cartmesh.cpp` lines 114-117. -/
def CartMesh.dims (m : CartMesh K) : Fin 3 → Nat := fun d => m.npoind d - 2

/-- The numbers of points and of interior points, `tests/poisson3d-fd/cartmesh.cpp` lines 103-109 (and 61-67). Simplification: no overflow. -/
def meshPoints (n : Fin 3 → Int) : Int × Int :=
  let npointotal := 1 * n 0 * n 1 * n 2
  let nbpoints := n 0 * n 1 * 2 + (n 2 - 2) * n 0 * 2 + (n 1 - 2) * (n 2 - 2) * 2
  (npointotal, npointotal - nbpoints)

end

section
variable {K : Type} [Field K] [LinearOrder K]

/-- `CartMesh::computeMeshSize`, `tests/poisson3d-fd/cartmesh.cpp` lines 22-45. -/
def computeMeshSize (sqrt : K → K) (m : CartMesh K) : C K :=
  forRange 0 (m.npoind 2 - 1) (fun k h => do
    let z1 ← rd (m.coords 2) (k + 1)
    let z0 ← rd (m.coords 2) k
    forRange 0 (m.npoind 1 - 1) (fun j h => do
      let y1 ← rd (m.coords 1) (j + 1)
      let y0 ← rd (m.coords 1) j
      forRange 0 (m.npoind 0 - 1) (fun i h => do
        let x1 ← rd (m.coords 0) (i + 1)
        let x0 ← rd (m.coords 0) i
        let diam := sqrt (0 + (x1 - x0) * (x1 - x0) + (y1 - y0) * (y1 - y0) + (z1 - z0) * (z1 - z0))
        .ok (if h < diam then diam else h)) h) h) 0

/-- One axis of `CartMesh::generateMesh_UniformDistribution`, `tests/poisson3d-fd/cartmesh.cpp` lines 173-178; `g` is the array allocated in lines 138-140. -/
def uniformAxis (n : Nat) (rmin rmax : K) (g : List K) : C (List K) :=
  forRange 0 n (fun i c => do
    let q ← fdiv ((rmax - rmin) * i) ((n : K) - 1)
    wr c i (rmin + q)) g

/-- One axis of `CartMesh::generateMesh_ChebyshevDistribution`, `tests/poisson3d-fd/cartmesh.cpp` lines 151-158. -/
def chebyshevAxis (cos : K → K) (pi : K) (n : Nat) (rmin rmax : K) (g : List K) : C (List K) := do
  let theta ← fdiv pi ((n : K) - 1)
  forRange 0 n (fun i c => wr c i ((rmax + rmin) * (1 / 2) + (rmax - rmin) * (1 / 2) * cos (pi - i * theta))) g

/-- `test::createMesh` with `CartMesh::createMeshAndDMDA`, `tests/poisson3d-fd/poisson_setup.cpp` lines 65-90. Simplification: the three axes are independent; PETSc calls succeed. -/
def createMesh (cos : K → K) (pi : K) (gridtype : String) (np : Fin 3 → Nat) (rmin rmax : Fin 3 → K) (g : Nat → K) : C (CartMesh K) := do
  let axis (d : Fin 3) : C (List K) :=
    if gridtype = "chebyshev" then chebyshevAxis cos pi (np d) (rmin d) (rmax d) ((List.range (np d)).map g) else uniformAxis (np d) (rmin d) (rmax d) ((List.range (np d)).map g)
  let x ← axis 0
  let y ← axis 1
  let z ← axis 2
  .ok ⟨np, ![x, y, z]⟩

/-- The stencil of one row with its values, `tests/poisson3d-fd/poisson3d_fd.cpp` lines 100-137. -/
def lhsRow (m : CartMesh K) (k j i : Nat) : C (List (MatStencil × K)) := do
  let I : Int := i + 1
  let J : Int := j + 1
  let L : Int := k + 1
  let x0 ← m.gcoords 0 (I - 1)
  let x1 ← m.gcoords 0 I
  let x2 ← m.gcoords 0 (I + 1)
  let y0 ← m.gcoords 1 (J - 1)
  let y1 ← m.gcoords 1 J
  let y2 ← m.gcoords 1 (J + 1)
  let z0 ← m.gcoords 2 (L - 1)
  let z1 ← m.gcoords 2 L
  let z2 ← m.gcoords 2 (L + 1)
  let v2 ← fdiv (-1) ((x1 - x0) * (1 / 2) * (x2 - x0))
  let v1 ← fdiv (-1) ((y1 - y0) * (1 / 2) * (y2 - y0))
  let v0 ← fdiv (-1) ((z1 - z0) * (1 / 2) * (z2 - z0))
  let a1 ← fdiv 2 (x2 - x0)
  let a2 ← fdiv 1 (x2 - x1)
  let a3 ← fdiv 1 (x1 - x0)
  let b1 ← fdiv 2 (y2 - y0)
  let b2 ← fdiv 1 (y2 - y1)
  let b3 ← fdiv 1 (y1 - y0)
  let c1 ← fdiv 2 (z2 - z0)
  let c2 ← fdiv 1 (z2 - z1)
  let c3 ← fdiv 1 (z1 - z0)
  let v3 := a1 * (a2 + a3) + b1 * (b2 + b3) + c1 * (c2 + c3)
  let v4 ← fdiv (-1) ((x2 - x1) * (1 / 2) * (x2 - x0))
  let v5 ← fdiv (-1) ((y2 - y1) * (1 / 2) * (y2 - y0))
  let v6 ← fdiv (-1) ((z2 - z1) * (1 / 2) * (z2 - z0))
  .ok [(⟨k - 1, j, i⟩, v0), (⟨k, j - 1, i⟩, v1), (⟨k, j, i - 1⟩, v2), (⟨k, j, i⟩, v3), (⟨k, j, i + 1⟩, v4), (⟨k, j + 1, i⟩, v5), (⟨k + 1, j, i⟩, v6)]

/-- `computeLHS` on one process, `tests/poisson3d-fd/poisson3d_fd.cpp` lines 83-149. -/
def computeLHS (m : CartMesh K) (b : Corners) (A : DAMat K) : C (DAMat K) :=
  forRange (b.start 2) (b.start 2 + b.lsize 2) (fun k A =>
    forRange (b.start 1) (b.start 1 + b.lsize 1) (fun j A =>
      forRange (b.start 0) (b.start 0 + b.lsize 0) (fun i A => do
        let row ← lhsRow m k j i
        .ok (matSetValuesStencil m.dims A ⟨k, j, i⟩ row)) A) A) A

/-- `computeLHS` on all processes, one after another, followed by the assembly, `tests/poisson3d-fd/poisson_setup.cpp` lines 133-138. -/
def assembleLHS (m : CartMesh K) (procs : List Corners) : C (DAMat K) := forList procs (fun b A => computeLHS m b A) fun _ _ => none

/-- `computeRHS` on one process, `tests/poisson3d-fd/poisson3d_fd.cpp` lines 43-78: the right-hand side and the exact solution. -/
def computeRHS (sin : K → K) (pi : K) (m : CartMesh K) (b : Corners) (f uexact : DAVec K) : C (DAVec K × DAVec K) :=
  forRange (b.start 2) (b.start 2 + b.lsize 2) (fun k s =>
    forRange (b.start 1) (b.start 1 + b.lsize 1) (fun j s =>
      forRange (b.start 0) (b.start 0 + b.lsize 0) (fun i s => do
        let x ← m.gcoords 0 i
        let y ← m.gcoords 1 j
        let z ← m.gcoords 2 k
        .ok (s.1.set k j i (12 * pi * pi * sin (2 * pi * x) * sin (2 * pi * y) * sin (2 * pi * z)),
          s.2.set k j i (sin (2 * pi * x) * sin (2 * pi * y) * sin (2 * pi * z)))) s) s) (f, uexact)

/-- The local part of `computeNorm`, `tests/poisson3d-fd/poisson3d_fd.cpp` lines 154-177. -/
def computeNorm (m : CartMesh K) (b : Corners) (v : DAVec K) : C K :=
  forRange (b.start 2) (b.start 2 + b.lsize 2) (fun k norm =>
    forRange (b.start 1) (b.start 1 + b.lsize 1) (fun j norm =>
      forRange (b.start 0) (b.start 0 + b.lsize 0) (fun i norm => do
        let x2 ← m.gcoords 0 (i + 1)
        let x0 ← m.gcoords 0 (i - 1)
        let y2 ← m.gcoords 1 (j + 1)
        let y0 ← m.gcoords 1 (j - 1)
        let z2 ← m.gcoords 2 (k + 1)
        let z0 ← m.gcoords 2 (k - 1)
        let vol := 1 / 8 * (x2 - x0) * (y2 - y0) * (z2 - z0)
        .ok (norm + v k j i * v k j i * vol)) norm) norm) 0

end

end Blasted
