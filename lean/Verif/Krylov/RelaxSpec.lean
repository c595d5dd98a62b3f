import Verif.Krylov.BlockSpec
import Verif.Solve.BgsModel

/-!
# The behaviour of Jacobi and Gauss-Seidel objects in the solve program
-/

namespace Blasted

section
variable {K R M : Type}

/-- The array of inverted diagonal entries or blocks that `compute` of a new Jacobi or SGS object can leave. -/
def DiagArray [Ring R] [PInv R] (A : SR R) (dinv : List R) : Prop :=
  ∃ ord g, ord.Perm (List.range A.nbrows) ∧ g.length = A.nbrows ∧ jacobiCompute A ord g none = .ok dinv

/-- The vectors `z` which an application of a Jacobi object to `r` can give. -/
def JacobiApplies [Zero M] [SMul R M] (A : SR R) (dinv : List R) (r z : List M) : Prop :=
  ∃ ord z₀, ord.Perm (List.range A.nbrows) ∧ z₀.length = A.nbrows ∧ jacobiApply A.nbrows dinv ord r z₀ = .ok z

/-- The vectors `z` which an application of an SGS object to `r` can give, with several threads or with one. -/
def SgsApplies [AddCommGroup M] [SMul R M] (threads : Bool) (k : Nat) (init : ApplyInit) (A : SR R) (dinv : List R) (r z : List M) : Prop :=
  ∃ (ord : Nat → List Nat) (z₀ y y' : List M), (∀ t, (ord t).Perm (List.range A.nbrows)) ∧ z₀.length = A.nbrows ∧ y.length = A.nbrows ∧
    if threads then ∃ mix, MixOk mix ∧ AsyncSgsApply A dinv mix k init ord r z₀ y z y' else sgsApply A dinv k init ord r z₀ y = .ok (z, y')

/-- The compressed columns and inverted diagonal that `compute` of a new column-oriented Gauss-Seidel object can leave. -/
def CscArrays [Field K] [DecidableEq K] (A : SR K) (dinv : List K) (c : SC K) : Prop :=
  ∃ (ord : List Nat) (g : List K) (srt : List (CSEntry K) → List (CSEntry K)) (gptr gind : List Nat) (gvals : List K) (gdiag : List Int),
    ord.Perm (List.range A.nbrows) ∧ g.length = A.nbrows ∧ SortsByRow srt ∧ gptr.length = A.nbrows + 1 ∧ gind.length = A.browptr⟦A.nbrows⟧ ∧ gvals.length = A.browptr⟦A.nbrows⟧ ∧
    gdiag.length = A.nbrows ∧ cscBgsCompute A ord g none srt gptr gind gvals gdiag = .ok (dinv, c)

/-- The vectors `z` which an application of a column-oriented Gauss-Seidel object to `r` can give, with one thread. -/
def CscApplies [Field K] (k n : Nat) (dinv : List K) (c : SC K) (r z : List K) : Prop :=
  ∃ (ord0 : List Nat) (ord : Nat → List Nat) (g z₀ : List K), ord0.Perm (List.range n) ∧ (∀ t, (ord t).Perm (List.range n)) ∧ g.length = n ∧ z₀.length = n ∧
    cscBgsApply c dinv k ord0 ord g r z₀ = .ok z

end

section
variable {K : Type} [Field K] [LinearOrder K]

/-- `f` is the behaviour of an object of the scalar class `q` for the matrix in the arrays `A`, for the Jacobi, SGS and column-oriented Gauss-Seidel classes. -/
def RelaxRuns (threads : Bool) (q : Prec) (A : SR K) (f : PrecFun K) : Prop :=
  match q with
  | .jacobi => ∃ dinv, DiagArray A dinv ∧ ∀ k r z, r.length = A.nbrows → z.length = A.nbrows → ∃ z', f k r z = .ok z' ∧ JacobiApplies A dinv r z'
  | .asyncSgs s init _ => ∃ dinv, DiagArray A dinv ∧ ∀ k r z, r.length = A.nbrows → z.length = A.nbrows →
      ∃ z', f k r z = .ok z' ∧ SgsApplies threads s.toNat init A dinv r z'
  | .cscBgs s _ => ∃ dinv c, CscArrays A dinv c ∧ ∀ k r z, r.length = A.nbrows → z.length = A.nbrows → ∃ z', f k r z = .ok z' ∧ CscApplies s.toNat A.nbrows dinv c r z'
  | _ => False

open scoped Matrix.Module in
/-- The same for the block Jacobi and SGS classes. -/
def BlockRelaxRuns (threads : Bool) (q : Prec) (A : SR K) (f : PrecFun K) : Prop :=
  match q with
  | .bjacobi bs stor => ∃ dinv, DiagArray (A.blocks stor bs) dinv ∧ ∀ k r z, r.length = A.nbrows * bs → z.length = A.nbrows * bs →
      ∃ z', f k r z = .ok (unsegs z') ∧ JacobiApplies (A.blocks stor bs) dinv (segs bs r) z'
  | .asyncBlockSgs bs stor s init _ => ∃ dinv, DiagArray (A.blocks stor bs) dinv ∧ ∀ k r z, r.length = A.nbrows * bs → z.length = A.nbrows * bs →
      ∃ z', f k r z = .ok (unsegs z') ∧ SgsApplies threads s.toNat init (A.blocks stor bs) dinv (segs bs r) z'
  | _ => False

open scoped Matrix.Module in
/-- The Jacobi, SGS and column-oriented Gauss-Seidel objects run by one thread: `compute` of a new object, `src/solverops_jacobi.cpp` lines 31-48 and 150-162, `src/solverops_sgs.cpp` lines 33-45, 133-145 and 219-228, and `apply`,
`src/solverops_jacobi.cpp` lines 51-63 and 165-171, `src/solverops_sgs.cpp` lines 48-83, 148-177 and 231-266. Simplification: the loops that may be executed in any order are executed in ascending order; the previous contents of the
memory (`g`, `gi`) and the algorithm that sorts the columns are parameters, and the work vector has them in every application. Other objects are left out. -/
def seqRelaxObject (g : Nat → K) (gi : Nat → Nat) (srt : List (CSEntry K) → List (CSEntry K)) : Prec → SR K → C (PrecFun K)
  | .jacobi, A => do
    let d ← jacobiCompute A (List.range A.nbrows) ((List.range A.nbrows).map g) none
    .ok fun _ b z => jacobiApply A.nbrows d (List.range A.nbrows) b z
  | .asyncSgs k init _, A => do
    let d ← jacobiCompute A (List.range A.nbrows) ((List.range A.nbrows).map g) none
    .ok fun _ b z => do
      let zy ← sgsApply A d k.toNat init (fun _ => List.range A.nbrows) b z ((List.range A.nbrows).map g)
      .ok zy.1
  | .cscBgs k _, A => do
    let nnz ← rd A.browptr A.nbrows
    let dc ← cscBgsCompute A (List.range A.nbrows) ((List.range A.nbrows).map g) none srt ((List.range (A.nbrows + 1)).map gi) ((List.range nnz).map gi) ((List.range nnz).map g)
      ((List.range A.nbrows).map fun i => (gi i : Int))
    .ok fun _ b z => cscBgsApply dc.2 dc.1 k.toNat (List.range A.nbrows) (fun _ => List.range A.nbrows) ((List.range A.nbrows).map g) b z
  | .bjacobi bs stor, A => do
    let d ← jacobiCompute (A.blocks stor bs) (List.range A.nbrows) ((List.range A.nbrows).map fun k => Matrix.of fun a c => g (k * (bs * bs) + stor.off bs a c)) none
    .ok fun _ b z => do
      let z' ← jacobiApply A.nbrows d (List.range A.nbrows) (segs bs b) (segs bs z)
      .ok (unsegs z')
  | .asyncBlockSgs bs stor k init _, A => do
    let d ← jacobiCompute (A.blocks stor bs) (List.range A.nbrows) ((List.range A.nbrows).map fun k => Matrix.of fun a c => g (k * (bs * bs) + stor.off bs a c)) none
    .ok fun _ b z => do
      let zy ← sgsApply (A.blocks stor bs) d k.toNat init (fun _ => List.range A.nbrows) (segs bs b) (segs bs z) ((List.range A.nbrows).map fun i a => g (i * bs + a))
      .ok (unsegs zy.1)
  | _, _ => .error .abort

end

end Blasted
