import Verif.ILU.Model
import Verif.Async.Model
import Mathlib.Algebra.Module.Defs
import Mathlib.LinearAlgebra.Matrix.Module

/-!
# Triangular solves: ILU application, SGS, relaxations, level scheduling

Transcription of `src/kernels/kernels_ilu_apply.hpp`, `src/kernels/kernels_sgs.hpp`,
`src/kernels/kernels_relaxation.hpp`, `src/solverops_ilu0.cpp` (apply), `src/solverops_sgs.cpp`,
`src/solverops_jacobi.cpp`, `src/relaxation_chaotic.cpp`, `src/solverops_levels_sgs.cpp`,
`src/solverops_levels_ilu0.cpp`.

`R` is the type of a stored matrix entry and `M` the type of a vector component: for the scalar code both are the
scalars, for the block code an entry is a `bs × bs` matrix and a component a segment of `bs` scalars, and
`•` is `vals[jj]*x[...]`. The coefficient-wise loops over `nbrows*bs` scalars of the block code are written
segment-wise. The `omp simd` reductions add in the order of the loop.
-/

namespace Blasted

variable {V R M K : Type}

/-- `ApplyInit`, `include/async_initialization_decl.hpp` lines 27-35. -/
inductive ApplyInit where
  | none | zero | jacobi
deriving Repr, DecidableEq

section kernels
variable [Zero M] [Add M] [Sub M] [SMul R M]

/-- The loop `for(jj = lo; jj < hi; jj++) inter += vals[jj]*x[colind[jj]]` of all the kernels. -/
def rowSum (colind : List Nat) (vals : List R) (lo hi : Nat) (x : Nat → C M) (s : M) : C M :=
  forRange lo hi (fun jj s => do
    let t ← (do
      let v ← rd vals jj
      let c ← rd colind jj
      let xj ← x c
      .ok (v • xj))
    .ok (s + t)) s

/-- `scalar_unit_lower_triangular` and `block_unit_lower_triangular`
(`src/kernels/kernels_ilu_apply.hpp` lines 18-27 and 55-67) as called for row `i`
(`src/solverops_ilu0.cpp` lines 105-106, 280-281). -/
def unitLowerRow (A : SR V) (ilu : List R) (rhs : List M) (i : Nat) (x : Nat → C M) : C M := do
  let lo ← rd A.browptr i
  let d ← rd A.diagind i
  let b ← rd rhs i
  let s ← rowSum A.bcolind ilu lo d x 0
  .ok (b - s)

/-- `scalar_upper_triangular` (`src/kernels/kernels_ilu_apply.hpp` lines 31-42) as called for row `i`
(`src/solverops_ilu0.cpp` lines 311-312): the diagonal entry is inverted on the fly. -/
def upperRow [PInvOp R] (A : SR V) (ilu : List R) (rhs : List M) (i : Nat) (x : Nat → C M) : C M := do
  let d ← rd A.diagind i
  let hi ← rd A.browptr (i + 1)
  let v ← rd ilu d
  let dinv ← pinv v
  let b ← rd rhs i
  let s ← rowSum A.bcolind ilu (d + 1) hi x 0
  .ok (dinv • (b - s))

/-- `block_upper_triangular` (`src/kernels/kernels_ilu_apply.hpp` lines 80-94) as called for row `i`
(`src/solverops_ilu0.cpp` lines 138-139): the diagonal block is stored inverted. -/
def blockUpperRow (A : SR V) (ilu : List R) (rhs : List M) (i : Nat) (x : Nat → C M) : C M := do
  let d ← rd A.diagind i
  let hi ← rd A.browptr (i + 1)
  let b ← rd rhs i
  let s ← rowSum A.bcolind ilu (d + 1) hi x 0
  let v ← rd ilu d
  .ok (v • (b - s))

/-- `scalar_fgs` and `block_fgs` (`src/kernels/kernels_sgs.hpp` lines 18-29 and 48-61) as called for row
`i` (lines 88-89, 125-126). -/
def fgsRow (A : SR R) (dinv : List R) (rhs : List M) (i : Nat) (x : Nat → C M) : C M := do
  let lo ← rd A.browptr i
  let d ← rd A.diagind i
  let di ← rd dinv i
  let b ← rd rhs i
  let s ← rowSum A.bcolind A.vals lo d x 0
  .ok (di • (b - s))

/-- `scalar_bgs` and `block_bgs` (`src/kernels/kernels_sgs.hpp` lines 33-45 and 64-79) as called for row
`i` (lines 104-105, 152-153). The diagonal entry passed to `scalar_bgs` is not used by it. -/
def bgsRow (A : SR R) (dinv : List R) (rhs : List M) (i : Nat) (x : Nat → C M) : C M := do
  let d ← rd A.diagind i
  let hi ← rd A.browptr (i + 1)
  let di ← rd dinv i
  let b ← rd rhs i
  let s ← rowSum A.bcolind A.vals (d + 1) hi x 0
  .ok (b - di • s)

/-- `scalar_relax` and `block_relax_kernel` (`src/kernels/kernels_relaxation.hpp` lines 19-37 and 41-54)
for row `i`. Both vector arguments `xL` and `xU` are the same vector in all callers. -/
def relaxRow (A : SR R) (dinv : List R) (rhs : List M) (i : Nat) (x : Nat → C M) : C M := do
  let lo ← rd A.browptr i
  let d ← rd A.diagind i
  let hi ← rd A.browptr (i + 1)
  let di ← rd dinv i
  let b ← rd rhs i
  let s ← rowSum A.bcolind A.vals lo d x 0
  let s ← rowSum A.bcolind A.vals (d + 1) hi x s
  .ok (di • (b - s))

end kernels

/-! ### Loops over rows -/

/-- Update row `i` in place, reading the vector through its current contents: one iteration of a row loop run
by a single thread. -/
def updRow (upd : Nat → (Nat → C M) → C M) (i : Nat) (x : List M) : C (List M) := do
  let v ← upd i (rd x)
  wr x i v

/-- `k` sweeps `for(i = 0; i < n; i++)`, by one thread. -/
def fwdSweeps (upd : Nat → (Nat → C M) → C M) (n k : Nat) (x : List M) : C (List M) :=
  forRange 0 k (fun _ x => forRange 0 n (updRow upd) x) x

/-- `k` sweeps `for(i = n-1; i >= 0; i--)`, by one thread. -/
def bwdSweeps (upd : Nat → (Nat → C M) → C M) (n k : Nat) (x : List M) : C (List M) :=
  forRange 0 k (fun _ x => forDown 0 n (updRow upd) x) x

/-- The loop over levels with a parallel loop over the rows of each level, forward
(`src/solverops_levels_ilu0.cpp` lines 80-88, 166-174; `src/solverops_levels_sgs.cpp` lines 67-75,
166-175). `sched t rows` is the order in which the threads process the rows of level `t`. -/
def levelUp (upd : Nat → (Nat → C M) → C M) (levels : List Nat) (sched : Nat → List Nat → List Nat)
    (x : List M) : C (List M) :=
  forRange 0 (levels.length - 1) (fun t x => do
    let lo ← rd levels t
    let hi ← rd levels (t + 1)
    forList (sched t (List.range' lo (hi - lo))) (updRow upd) x) x

/-- The loop over levels backward (`src/solverops_levels_ilu0.cpp` lines 90-98, 176-185;
`src/solverops_levels_sgs.cpp` lines 78-86, 178-188). -/
def levelDown (upd : Nat → (Nat → C M) → C M) (levels : List Nat) (sched : Nat → List Nat → List Nat)
    (x : List M) : C (List M) :=
  forDown 1 (levels.length - 1 + 1) (fun t x => do
    let hi ← rd levels t
    let lo ← rd levels (t - 1)
    forList (sched t (List.range' lo (hi - lo))) (updRow upd) x) x

/-! ### ILU application -/

/-- `scale[i]*r[i]` of the scalar code. -/
def scalarSeg [Mul K] (s : List K) (i : Nat) (v : K) : C K := do
  let si ← rd s i
  .ok (si * v)

/-- `scale[i]*r[i]` of the block code, for the `bs` scalars of segment `i`. -/
def blockSeg [Zero K] [Mul K] (bs : Nat) (s : List K) (i : Nat) (v : Fin bs → K) : C (Fin bs → K) := do
  let si ← readBlock bs s i
  .ok (fun a => si⟦a.val⟧ * v a)

section apply
variable [Zero M]

/-- `z := S r` or `z := r`, `src/solverops_ilu0.cpp` lines 71-81, 248-257, in the order `ord`. -/
def applyScaleIn (n : Nat) (scale : Option (Nat → M → C M)) (ord : List Nat) (r z : List M) : C (List M) :=
  match scale with
  | some s => parFor n ord (fun i z => do
      let ri ← rd r i
      let v ← s i ri
      wr z i v) z
  | none => parFor n ord (fun i z => do
      let ri ← rd r i
      wr z i ri) z

/-- The initialisation of the intermediate vector, `src/solverops_ilu0.cpp` lines 83-94, 259-269. -/
def applyInitY (n : Nat) (init : ApplyInit) (ord : List Nat) (y : List M) : C (List M) :=
  match init with
  | .jacobi => parFor n ord (fun i y => wr y i 0) y
  | .zero => parFor n ord (fun i y => wr y i 0) y
  | .none => .ok y

/-- The initialisation of the result, `src/solverops_ilu0.cpp` lines 110-127, 285-300. -/
def applyInitZ (n : Nat) (init : ApplyInit) (ord : List Nat) (y z : List M) : C (List M) :=
  match init with
  | .jacobi => parFor n ord (fun i z => do
      let yi ← rd y i
      wr z i yi) z
  | .zero => parFor n ord (fun i z => wr z i 0) z
  | .none => .error (.throw "std::runtime_error" " scalar_ilu0_apply: Invalid init type!")

/-- `z := S z`, `src/solverops_ilu0.cpp` lines 144-147, 316-320. -/
def applyScaleOut (n : Nat) (scale : Option (Nat → M → C M)) (ord : List Nat) (z : List M) : C (List M) :=
  match scale with
  | some s => parFor n ord (fun i z => do
      let zi ← rd z i
      let v ← s i zi
      wr z i v) z
  | none => .ok z

/-- `scalar_ilu0_apply` and `block_ilu0_apply` without threads, `src/solverops_ilu0.cpp` lines 56-148 and
240-321. `lower` and `upper` are the row kernels, taking the right-hand side vector, and
`ord t` is the order of the `t`-th loop over independent iterations. Returns the
result `z` and the work vector. -/
def iluApplyWith (lower upper : List M → Nat → (Nat → C M) → C M) (n : Nat)
    (scale : Option (Nat → M → C M)) (k : Nat) (init : ApplyInit) (ord : Nat → List Nat)
    (r z y : List M) : C (List M × List M) := do
  let z ← applyScaleIn n scale (ord 0) r z
  let y ← applyInitY n init (ord 1) y
  let y ← fwdSweeps (lower z) n k y
  let z ← applyInitZ n init (ord 2) y z
  let z ← bwdSweeps (upper y) n k z
  let z ← applyScaleOut n scale (ord 3) z
  .ok (z, y)

/-- The level-scheduled application, `src/solverops_levels_ilu0.cpp` lines 58-105 and 148-192: the same
with loops over levels, one sweep, and no initialisation of the vectors. -/
def levelIluApplyWith (lower upper : List M → Nat → (Nat → C M) → C M) (n : Nat) (levels : List Nat)
    (sched sched' : Nat → List Nat → List Nat) (scale : Option (Nat → M → C M)) (ord : Nat → List Nat)
    (r z y : List M) : C (List M × List M) := do
  let z ← applyScaleIn n scale (ord 0) r z
  let y ← levelUp (lower z) levels sched y
  let z ← levelDown (upper y) levels sched' z
  let z ← applyScaleOut n scale (ord 3) z
  .ok (z, y)

end apply

/-- `scalar_ilu0_apply`, `src/solverops_ilu0.cpp` lines 240-321, sequential (`usethreads == false`). -/
def scalarIluApply [Zero K] [Add K] [Sub K] [Mul K] [PInvOp K] (A : SR V) (ilu : List K) (scale : Option (List K)) (k : Nat)
    (init : ApplyInit) (ord : Nat → List Nat) (r z y : List K) : C (List K × List K) :=
  iluApplyWith (unitLowerRow A ilu) (upperRow A ilu) A.nbrows (scale.map scalarSeg) k init ord r z y

section
open scoped Matrix.Module

/-- `block_ilu0_apply`, `src/solverops_ilu0.cpp` lines 56-148, sequential. -/
def blockIluApply {bs : Nat} [Field K] (A : SR V) (ilu : List (Matrix (Fin bs) (Fin bs) K))
    (scale : Option (List K)) (k : Nat) (init : ApplyInit) (ord : Nat → List Nat) (r z y : List (Fin bs → K)) :
    C (List (Fin bs → K) × List (Fin bs → K)) :=
  iluApplyWith (unitLowerRow A ilu) (blockUpperRow A ilu) A.nbrows (scale.map (blockSeg bs)) k init ord r z y

/-- `Async_Level_BlockILU0::apply`, `src/solverops_levels_ilu0.cpp` lines 58-105. -/
def levelBlockIluApply {bs : Nat} [Field K] (A : SR V) (ilu : List (Matrix (Fin bs) (Fin bs) K))
    (scale : Option (List K)) (levels : List Nat) (sched sched' : Nat → List Nat → List Nat)
    (ord : Nat → List Nat) (r z y : List (Fin bs → K)) : C (List (Fin bs → K) × List (Fin bs → K)) :=
  levelIluApplyWith (unitLowerRow A ilu) (blockUpperRow A ilu) A.nbrows levels sched sched' (scale.map (blockSeg bs))
    ord r z y

end

/-- `Async_Level_ILU0::apply`, `src/solverops_levels_ilu0.cpp` lines 148-192. -/
def levelScalarIluApply [Zero K] [Add K] [Sub K] [Mul K] [PInvOp K] (A : SR V) (ilu : List K) (scale : Option (List K))
    (levels : List Nat) (sched sched' : Nat → List Nat → List Nat) (ord : Nat → List Nat) (r z y : List K) :
    C (List K × List K) :=
  levelIluApplyWith (unitLowerRow A ilu) (upperRow A ilu) A.nbrows levels sched sched' (scale.map scalarSeg)
    ord r z y

/-! ### Jacobi and SGS -/

section sgs

/-- Body of the loop over rows, `src/solverops_jacobi.cpp` lines 44-45 and 145-146. -/
def jacobiSetupRow [PInvOp R] (A : SR R) (i : Nat) (dblocks : List R) : C (List R) := do
  let d ← rd A.diagind i
  let v ← rd A.vals d
  let w ← pinv v
  wr dblocks i w

/-- `BJacobiSRPreconditioner::compute` and `scalar_jacobi_setup` (`src/solverops_jacobi.cpp` lines 43-45,
141-147): invert the diagonal entries, rows in the order `ord`. -/
def jacobiSetup [PInvOp R] (A : SR R) (ord : List Nat) (dblocks : List R) : C (List R) :=
  parFor A.nbrows ord (jacobiSetupRow A) dblocks

/-- `compute` of the Jacobi preconditioners, `src/solverops_jacobi.cpp` lines 31-48, 150-162: the array is
allocated, with contents `g`, in the first call. -/
def jacobiCompute [PInvOp R] (A : SR R) (ord : List Nat) (g : List R) (dblocks : Option (List R)) : C (List R) :=
  match dblocks with
  | none => jacobiSetup A ord g
  | some d => jacobiSetup A ord d

/-- `compute` of the SGS preconditioners, `src/solverops_sgs.cpp` lines 33-45, 133-145: in the first call the
work vector is allocated, with contents `gy`, and set to zero. The state is the array of inverted diagonal
blocks and the work vector. -/
def sgsCompute [PInvOp R] [Zero M] (A : SR R) (ord ord2 : List Nat) (g : List R) (gy : List M)
    (st : Option (List R × List M)) : C (List R × List M) :=
  match st with
  | none => do
    let d ← jacobiSetup A ord g
    let y ← parFor A.nbrows ord2 (fun i y => wr y i 0) gy
    .ok (d, y)
  | some (d, y) => do
    let d ← jacobiSetup A ord d
    .ok (d, y)

/-- `apply` of the Jacobi preconditioners, `src/solverops_jacobi.cpp` lines 51-63, 165-171. -/
def jacobiApply [SMul R M] (n : Nat) (dblocks : List R) (ord : List Nat) (r z : List M) : C (List M) :=
  parFor n ord (fun i z => do
    let d ← rd dblocks i
    let ri ← rd r i
    wr z i (d • ri)) z

/-- The initialisation of the intermediate vector in the SGS application, `src/solverops_sgs.cpp` lines 57-60,
151-154. -/
def sgsInitY [Zero M] (n : Nat) (init : ApplyInit) (ord : List Nat) (y : List M) : C (List M) := applyInitY n init ord y

/-- The initialisation of the result in the SGS application, `src/solverops_sgs.cpp` lines 68-75, 162-169:
unlike in the ILU application, without initialisation the old contents are kept. -/
def sgsInitZ [Zero M] (n : Nat) (init : ApplyInit) (ord : List Nat) (y z : List M) : C (List M) :=
  match init with
  | .jacobi => parFor n ord (fun i z => do
      let yi ← rd y i
      wr z i yi) z
  | .zero => parFor n ord (fun i z => wr z i 0) z
  | .none => .ok z

/-- `apply` of the SGS preconditioners with one thread, `src/solverops_sgs.cpp` lines 48-83, 148-177. -/
def sgsApply [Zero M] [Add M] [Sub M] [SMul R M] (A : SR R) (dinv : List R) (k : Nat) (init : ApplyInit) (ord : Nat → List Nat)
    (r z y : List M) : C (List M × List M) := do
  let y ← sgsInitY A.nbrows init (ord 0) y
  let y ← fwdSweeps (fgsRow A dinv r) A.nbrows k y
  let z ← sgsInitZ A.nbrows init (ord 1) y z
  let z ← bwdSweeps (bgsRow A dinv y) A.nbrows k z
  .ok (z, y)

/-- `Level_SGS::apply` and `Level_BSGS::apply`, `src/solverops_levels_sgs.cpp` lines 54-87, 160-189. -/
def levelSgsApply [Zero M] [Add M] [Sub M] [SMul R M] (A : SR R) (dinv : List R) (levels : List Nat) (sched sched' : Nat → List Nat → List Nat)
    (r z y : List M) : C (List M × List M) := do
  let y ← levelUp (fgsRow A dinv r) levels sched y
  let z ← levelDown (bgsRow A dinv y) levels sched' z
  .ok (z, y)

end sgs

/-! ### Asynchronous application -/

section async
variable [Zero M]

/-- `k` rounds of asynchronous sweeps take the vector from `x` to `x'`: a parallel region with a loop over
sweeps, each an `omp for ... nowait`. See `ARounds`. -/
def ARun (upd : Nat → (Nat → C M) → C M) (mix : Set M → Set M) (k : Nat) (x x' : List M) : Prop :=
  ∃ log last, ARounds upd mix x k log last ∧ x' = applyLog x log

/-- `scalar_ilu0_apply` and `block_ilu0_apply` with threads, `src/solverops_ilu0.cpp` lines 56-148 and
240-321: both triangular solves are asynchronous sweeps (`usethreads == true`). `z` and `y` are the vectors
before and `z'`, `y'` after the call. -/
def AsyncIluApply (lower upper : List M → Nat → (Nat → C M) → C M) (n : Nat) (mix : Set M → Set M)
    (scale : Option (Nat → M → C M)) (k : Nat) (init : ApplyInit) (ord : Nat → List Nat)
    (r z y z' y' : List M) : Prop :=
  ∃ z₁ y₁ z₂ z₃, applyScaleIn n scale (ord 0) r z = .ok z₁ ∧ applyInitY n init (ord 1) y = .ok y₁ ∧
    ARun (lower z₁) mix k y₁ y' ∧ applyInitZ n init (ord 2) y' z₁ = .ok z₂ ∧
    ARun (upper y') mix k z₂ z₃ ∧ applyScaleOut n scale (ord 3) z₃ = .ok z'

/-- `apply` of the SGS preconditioners with threads, `src/solverops_sgs.cpp` lines 48-83, 148-177. The
forward sweeps are outside of the parallel region, so that the `omp for` in `perform_scalar_fgs` is
executed by one thread; only the backward sweeps are asynchronous. -/
def AsyncSgsApply [Add M] [Sub M] [SMul R M] (A : SR R) (dinv : List R) (mix : Set M → Set M) (k : Nat)
    (init : ApplyInit) (ord : Nat → List Nat) (r z y z' y' : List M) : Prop :=
  ∃ y₁ z₁, sgsInitY A.nbrows init (ord 0) y = .ok y₁ ∧ fwdSweeps (fgsRow A dinv r) A.nbrows k y₁ = .ok y' ∧
    sgsInitZ A.nbrows init (ord 1) y' z = .ok z₁ ∧ ARun (bgsRow A dinv y') mix k z₁ z'

/-- The parallel loop over the rows `rows` of one level, without assumption on the order in
which the threads process the rows or on which values of the rows of this level they see. -/
def ALevel (upd : Nat → (Nat → C M) → C M) (mix : Set M → Set M) (rows : List Nat) (x x' : List M) : Prop :=
  ∃ log, ALog upd mix x.length (memOf x) log ∧ (∀ w ∈ log, w.1 ∈ rows) ∧ (∀ i ∈ rows, ∃ v, (i, v) ∈ log) ∧
    x' = applyLog x log

/-- One after another, the levels of the list `ls`. -/
inductive ALevels (upd : Nat → (Nat → C M) → C M) (mix : Set M → Set M) :
    List (List Nat) → List M → List M → Prop
  | nil (x : List M) : ALevels upd mix [] x x
  | cons {rows : List Nat} {ls : List (List Nat)} {x y z : List M} : ALevel upd mix rows x y →
      ALevels upd mix ls y z → ALevels upd mix (rows :: ls) x z

/-- The rows of the levels, in order: level `t` consists of the rows from `levels[t]` to `levels[t+1]-1`
(`src/solverops_levels_ilu0.cpp` lines 80-84). -/
def levelRows (levels : List Nat) : List (List Nat) :=
  (List.range (levels.length - 1)).map fun t => List.range' levels⟦t⟧ (levels⟦t + 1⟧ - levels⟦t⟧)

/-- The level-scheduled ILU application (`src/solverops_levels_ilu0.cpp` lines 58-105 and 148-192) with parallel
loops over the rows of each level in which no assumption is made on the reads within a level. -/
def AsyncLevelIluApply (lower upper : List M → Nat → (Nat → C M) → C M) (n : Nat) (mix : Set M → Set M)
    (scale : Option (Nat → M → C M)) (levels : List Nat) (ord : Nat → List Nat)
    (r z y z' y' : List M) : Prop :=
  ∃ z₁ z₃, applyScaleIn n scale (ord 0) r z = .ok z₁ ∧ ALevels (lower z₁) mix (levelRows levels) y y' ∧
    ALevels (upper y') mix (levelRows levels).reverse z₁ z₃ ∧ applyScaleOut n scale (ord 3) z₃ = .ok z'

/-- The level-scheduled SGS application (`src/solverops_levels_sgs.cpp` lines 54-87 and 160-189) with parallel
loops over the rows of each level in which no assumption is made on the reads within a level. -/
def AsyncLevelSgsApply [Add M] [Sub M] [SMul R M] (A : SR R) (dinv : List R) (mix : Set M → Set M)
    (levels : List Nat) (r z y z' y' : List M) : Prop :=
  ALevels (fgsRow A dinv r) mix (levelRows levels) y y' ∧
    ALevels (bgsRow A dinv y') mix (levelRows levels).reverse z z'

end async

end Blasted
