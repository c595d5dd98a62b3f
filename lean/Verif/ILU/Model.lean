import Verif.Algo.Model
import Verif.Base.Block
import Mathlib.Algebra.Order.Field.Basic
import Mathlib.Algebra.Order.Group.Unbundled.Abs

/-!
# ILU(0): position lists, factorization kernels, initialisation, residual

Transcription of `src/ilu_pattern.cpp`, `src/kernels/kernels_ilu0_factorize.hpp`,
`src/async_ilu_factor.cpp` and `src/async_blockilu_factor.cpp`.

`R` is the type of one stored entry of the factors: a scalar or a block.
-/

namespace Blasted

variable {V R K σ : Type}

/-- `ILUPositions`, `include/ilu_pattern.hpp` lines 37-49. -/
structure ILUPos where
  lowerp : List Nat
  upperp : List Nat
  posptr : List Nat
deriving Repr, DecidableEq

/-- The search loops of `compute_ILU_positions_CSR_CSR` for the entry stored at `j` in row `irow`,
`src/ilu_pattern.cpp` lines 47-80 (first pass) and 107-152 (second pass). `found k ipos` is what is
done with the result `ipos` of the search. -/
def iluScan (A : SR V) (irow j : Nat) (found : Nat → Int → σ → C σ) (s : σ) : C σ := do
  let cj ← rd A.bcolind j
  let lo ← rd A.browptr irow
  let hi ← rd A.browptr (irow + 1)
  let body := fun k s => do
    let ck ← rd A.bcolind k
    let st ← rd A.diagind ck
    let en ← rd A.browptr (ck + 1)
    let ipos ← innerSearch A.bcolind st en cj (-1)
    found k ipos s
  if irow > cj then
    forWhile lo hi (fun k => do let ck ← rd A.bcolind k; .ok (decide (ck < cj))) body s
  else
    forWhile lo hi (fun k => do let ck ← rd A.bcolind k; .ok (decide (ck < irow))) body s

/-- `compute_ILU_positions_CSR_CSR`, `src/ilu_pattern.cpp` lines 31-163. `std::accumulate` is `List.sum`. -/
def computeILUPositions (A : SR V) : C ILUPos := do
  let pattern_size ← rd A.browptr A.nbrows
  let numpos := List.replicate pattern_size 0
  let posptr := List.replicate (pattern_size + 1) 0
  let posptr ← wr posptr 0 0
  let (numpos, posptr) ← forRange 0 A.nbrows (fun irow (s : List Nat × List Nat) => do
    let lo ← rd A.browptr irow
    let hi ← rd A.browptr (irow + 1)
    forRange lo hi (fun j (s : List Nat × List Nat) => do
      let numpos ← iluScan A irow j (fun _ ipos numpos => do
        if ipos > -1 then
          let v ← rd numpos j
          wr numpos j (v + 1)
        else .ok numpos) s.1
      let v ← rd numpos j
      let posptr ← wr s.2 (j + 1) v
      .ok (numpos, posptr)) s) (numpos, posptr)
  let totallen := numpos.sum
  let posptr ← inclusiveScan posptr
  let last ← rd posptr pattern_size
  cassert (last = totallen)
  let lowerp := List.replicate totallen 0
  let upperp := List.replicate totallen 0
  let (lowerp, upperp) ← forRange 0 A.nbrows (fun irow (s : List Nat × List Nat) => do
    let lo ← rd A.browptr irow
    let hi ← rd A.browptr (irow + 1)
    forRange lo hi (fun j (s : List Nat × List Nat) => do
      let r ← iluScan A irow j (fun k ipos (r : Nat × List Nat × List Nat) => do
        if ipos ≠ -1 then
          let p ← rd posptr j
          let lowerp ← wr r.2.1 (p + r.1) k
          let upperp ← wr r.2.2 (p + r.1) ipos.toNat
          .ok (r.1 + 1, lowerp, upperp)
        else .ok r) (0, s.1, s.2)
      let n ← rd numpos j
      cassert (r.1 = n)
      .ok (r.2.1, r.2.2)) s) (lowerp, upperp)
  .ok ⟨lowerp, upperp, posptr⟩

/-! ### Scaling -/

/-- No scaling (`needscalerow = needscalecol = false`, `usescaling = false`). -/
def noScale (_irow _icol : Nat) (v : R) : C R := .ok v

/-- `sum *= rowscale[irow]; sum *= colscale[mat->bcolind[j]]`,
`src/kernels/kernels_ilu0_factorize.hpp` lines 29-32; all callers pass the same vector for
both (`src/async_ilu_factor.cpp` lines 67, 74, 83). -/
def scalarScale [Mul K] (scale : List K) (irow icol : Nat) (v : K) : C K := do
  let a ← rd scale irow
  let v := v * a
  let b ← rd scale icol
  .ok (v * b)

/-- `scaleBlock`, `src/kernels/kernels_ilu0_factorize.hpp` lines 62-69. The loop over
the coefficients is written as a matrix; the `bs` scale factors of the two segments are read first. -/
def blockScale [Zero K] [Mul K] (bs : Nat) (scale : List K) (blockrow blockcol : Nat)
    (val : Matrix (Fin bs) (Fin bs) K) : C (Matrix (Fin bs) (Fin bs) K) := do
  let sr ← readBlock bs scale blockrow
  let sc ← readBlock bs scale blockcol
  .ok (Matrix.of fun i j => val i j * (sr⟦i.val⟧ * sc⟦j.val⟧))

/-- The scaling statement for an optional `scale` array (null pointer: no scaling). -/
def scalarScale? [Mul K] : Option (List K) → Nat → Nat → K → C K
  | some s => scalarScale s
  | none => noScale

@[inherit_doc scalarScale?]
def blockScale? [Zero K] [Mul K] (bs : Nat) :
    Option (List K) → Nat → Nat → Matrix (Fin bs) (Fin bs) K → C (Matrix (Fin bs) (Fin bs) K)
  | some s => blockScale bs s
  | none => noScale

/-- `getScalingVector` for block size 1, `src/rawsrmatrixutils.cpp` lines 344-350, rows in the order `ord`.
`isq` stands for `1.0/std::sqrt(.)`. -/
def getScalingVector (isq : K → K) (A : SR K) (ord : List Nat) (scale : List K) : C (List K) :=
  parFor A.nbrows ord (fun i scale => do
    let d ← rd A.diagind i
    let v ← rd A.vals d
    wr scale i (isq v)) scale

/-- `getScalingVector` for blocks, `src/rawsrmatrixutils.cpp` lines 344-350. Value `j*bs+j` of a block
is its diagonal coefficient `(j,j)` in both layouts. -/
def getBlockScalingVector {bs : Nat} (isq : K → K) (A : SR (Matrix (Fin bs) (Fin bs) K))
    (ord : List Nat) (scale : List K) : C (List K) :=
  parFor A.nbrows ord (fun i scale =>
    forList (List.finRange bs) (fun j scale => do
      let d ← rd A.diagind i
      let v ← rd A.vals d
      wr scale (i * bs + j.val) (isq (v j j))) scale) scale

/-- A parallel loop `for(i = 0; i < mat->browptr[mat->nbrows]; i++)` over the stored entries, in the order `ordc`. -/
def parCells {σ : Type} (A : SR V) (ordc : List Nat) (body : Nat → σ → C σ) (s : σ) : C σ := do
  let n ← rd A.browptr A.nbrows
  parFor n ordc body s

section kernels
variable [Sub R] [Mul R] [PInvOp R]

/-- The body of the loop over the entries of a row in `async_ilu0_factorize_kernel`
(`src/kernels/kernels_ilu0_factorize.hpp` lines 26-52) and `async_block_ilu0_factorize`
(lines 78-97): the value computed for the entry at `j` in row `irow`. `scal` is the scaling statement, `r`
reads the factor array; `pdiv` is `sum / u` (line 49) in the scalar and `sum * u.inverse()` (line 91) in the block code. -/
def iluUpd (A : SR R) (scal : Nat → Nat → R → C R) (pos : ILUPos) (irow j : Nat) (r : Nat → C R) :
    C R := do
  let column ← rd A.bcolind j
  let v ← rd A.vals j
  let sum ← scal irow column v
  let lo ← rd pos.posptr j
  let hi ← rd pos.posptr (j + 1)
  let sum ← forRange lo hi (fun k sum => do
    let l ← rd pos.lowerp k
    let u ← rd pos.upperp k
    let a ← r l
    let b ← r u
    .ok (sum - a * b)) sum
  if irow > column then
    let d ← rd A.diagind column
    let u ← r d
    pdiv sum u
  else .ok sum

/-- One row: `async_ilu0_factorize_kernel` lines 20-53, `async_block_ilu0_factorize` lines 72-98 of
`src/kernels/kernels_ilu0_factorize.hpp`. -/
def iluRow (A : SR R) (scal : Nat → Nat → R → C R) (pos : ILUPos) (irow : Nat) (ilu : List R) :
    C (List R) := do
  let lo ← rd A.browptr irow
  let hi ← rd A.browptr (irow + 1)
  forRange lo hi (fun j ilu => do
    let v ← iluUpd A scal pos irow j (rd ilu)
    wr ilu j v) ilu

/-- The factorization sweeps executed by one thread: `executeILU0Factorization`
(`src/async_ilu_factor.cpp` lines 154-177) and `async_bilu0_sweeps`
(`src/async_blockilu_factor.cpp` lines 187-204) with `usethreads = false`. -/
def iluSweeps (A : SR R) (scal : Nat → Nat → R → C R) (pos : ILUPos) (nbuildsweeps : Nat)
    (ilu : List R) : C (List R) :=
  forRange 0 nbuildsweeps (fun _ ilu =>
    forRange 0 A.nbrows (iluRow A scal pos) ilu) ilu

/-- The component update of the asynchronous sweeps, `src/async_ilu_factor.cpp` lines 164-176 and
`src/async_blockilu_factor.cpp` lines 191-203: the value computed for the stored entry at position `p`, whose
row is `A.rowOf p`, when the factor array is read through `r`. -/
def iluComp (A : SR R) (scal : Nat → Nat → R → C R) (pos : ILUPos) (p : Nat) (r : Nat → C R) : C R :=
  iluUpd A scal pos (A.rowOf p) p r

/-- The entry of the nonlinear residual at `j` in row `irow`: `scalar_ilu0_nonlinear_res`
(`src/async_ilu_factor.cpp` lines 197-210), `block_ilu0_nonlinear_res`
(`src/async_blockilu_factor.cpp` lines 275-286). -/
def iluResEntry (A : SR R) (scal : Nat → Nat → R → C R) (pos : ILUPos) (ilu : List R) (irow j : Nat) :
    C R := do
  let column ← rd A.bcolind j
  let v ← rd A.vals j
  let sum ← scal irow column v
  let lo ← rd pos.posptr j
  let hi ← rd pos.posptr (j + 1)
  let sum ← forRange lo hi (fun k sum => do
    let l ← rd pos.lowerp k
    let u ← rd pos.upperp k
    let a ← rd ilu l
    let b ← rd ilu u
    .ok (sum - a * b)) sum
  if irow > column then
    let d ← rd A.diagind column
    let a ← rd ilu j
    let u ← rd ilu d
    .ok (sum - a * u)
  else
    let a ← rd ilu j
    .ok (sum - a)

/-- `scalar_ilu0_nonlinear_res` (`src/async_ilu_factor.cpp` lines 180-217) and
`block_ilu0_nonlinear_res` (`src/async_blockilu_factor.cpp` lines 257-297); `ord` is the order in which rows
are reduced. `norm` is `std::abs` resp. the sum of the moduli of the coefficients. Simplification: the partial sums of
the threads are combined in the order `ord` (addition is exact). -/
def iluRes [Zero K] [Add K] (norm : R → K) (A : SR R) (scal : Nat → Nat → R → C R) (pos : ILUPos)
    (ord : List Nat) (ilu : List R) : C K :=
  parFor A.nbrows ord (fun irow resnorm => do
    let lo ← rd A.browptr irow
    let hi ← rd A.browptr (irow + 1)
    forRange lo hi (fun j resnorm => do
      let sum ← iluResEntry A scal pos ilu irow j
      .ok (resnorm + norm sum)) resnorm) 0

end kernels

/-- The vector 1-norm of the coefficients of a block, `src/async_blockilu_factor.cpp` lines 289-293. -/
def blockNorm1 [AddCommGroup K] [Lattice K] {bs : Nat} (B : Matrix (Fin bs) (Fin bs) K) : K :=
  (List.finRange bs).foldl (fun s i => (List.finRange bs).foldl (fun s j => s + |B i j|) s) 0

/-! ### Initialisation -/

/-- `FactInit`, `include/async_initialization_decl.hpp` lines 15-25. -/
inductive FactInit where
  | none | zero | sgs | original
deriving Repr, DecidableEq

section scalarinit
variable [Zero K] [Mul K] [PInvOp K]

/-- `fact_init_original` (scalar), `src/async_ilu_factor.cpp` lines 136-151. `ord`: order of the rows,
`ordc`: order of the cells in the unscaled loop. -/
def factInitOriginal (A : SR K) (scale : Option (List K)) (ord ordc : List Nat) (ilu : List K) :
    C (List K) :=
  match scale with
  | some scale =>
    parFor A.nbrows ord (fun i ilu => do
      let lo ← rd A.browptr i
      let hi ← rd A.browptr (i + 1)
      forRange lo hi (fun j ilu => do
        let si ← rd scale i
        let v ← rd A.vals j
        let c ← rd A.bcolind j
        let sc ← rd scale c
        wr ilu j (si * v * sc)) ilu) ilu
  | none =>
    parCells A ordc (fun i ilu => do
      let v ← rd A.vals i
      wr ilu i v) ilu

/-- `fact_init_sgs` (scalar), `src/async_ilu_factor.cpp` lines 110-133. Note the index used with `scale` in
the scaled branch (lines 121-122): `scale[mat->diagind[mat->bcolind[j]]]`. -/
def factInitSgs (A : SR K) (scale : Option (List K)) (ord : List Nat) (ilu : List K) :
    C (List K) :=
  match scale with
  | some scale =>
    parFor A.nbrows ord (fun i ilu => do
      let lo ← rd A.browptr i
      let hi ← rd A.browptr (i + 1)
      let ilu ← forRange lo hi (fun j ilu => do
        let si ← rd scale i
        let v ← rd A.vals j
        let c ← rd A.bcolind j
        let sc ← rd scale c
        wr ilu j (si * v * sc)) ilu
      let d ← rd A.diagind i
      forRange lo d (fun j ilu => do
        let c ← rd A.bcolind j
        let dc ← rd A.diagind c
        let v ← rd A.vals dc
        let s ← rd scale dc
        let w ← pinv (v * s * s)
        let a ← rd ilu j
        wr ilu j (a * w)) ilu) ilu
  | none =>
    parFor A.nbrows ord (fun i ilu => do
      let lo ← rd A.browptr i
      let hi ← rd A.browptr (i + 1)
      let ilu ← forRange lo hi (fun j ilu => do
        let v ← rd A.vals j
        wr ilu j v) ilu
      let d ← rd A.diagind i
      forRange lo d (fun j ilu => do
        let c ← rd A.bcolind j
        let dc ← rd A.diagind c
        let v ← rd A.vals dc
        let w ← pinv v
        let a ← rd ilu j
        wr ilu j (a * w)) ilu) ilu

/-- The initialisation switch of `scalar_ilu0_factorize`, `src/async_ilu_factor.cpp` lines 47-60
(the case `INIT_F_ZERO` has no `break`). -/
def scalarFactInit (A : SR K) (ft : FactInit) (scale : Option (List K)) (ord ordc : List Nat)
    (ilu : List K) : C (List K) :=
  match ft with
  | .zero => do
    let ilu ← parCells A ordc (fun i ilu => wr ilu i 0) ilu
    factInitOriginal A scale ord ordc ilu
  | .original => factInitOriginal A scale ord ordc ilu
  | .sgs => factInitSgs A scale ord ilu
  | .none => .ok ilu

/-- The part of `PrecInfo` that `scalar_ilu0_factorize` and `block_ilu0_factorize` fill with remainder norms. -/
structure RemInfo (K : Type) where
  initial : K
  final : K
deriving Repr, DecidableEq

/-- The scaling vector is recomputed if there is one, `src/async_ilu_factor.cpp` lines 43-45. -/
def updScale (isq : K → K) (A : SR K) (ord : List Nat) : Option (List K) → C (Option (List K))
  | some s => do let s ← getScalingVector isq A ord s; .ok (some s)
  | none => .ok none

/-- A residual is computed only if `compute_info` is set, `src/async_ilu_factor.cpp` lines 65-68 and 81-88. -/
def resIf {L : Type} (info : Bool) (r : C L) : C (Option L) :=
  if info then do let r ← r; .ok (some r)
  else .ok none

/-- Both residuals make up the information. -/
def remInfo {L : Type} : Option L → Option L → Option (RemInfo L)
  | some a, some b => some ⟨a, b⟩
  | _, _ => none

end scalarinit

/-- `scalar_ilu0_factorize`, `src/async_ilu_factor.cpp` lines 37-98 with `usethreads = false`. Returns
the remainder norms (if asked for), `iluvals` and `scale`. `scale = none` is the null pointer.
Simplification: the diagonal dominance part of the information is modelled separately. -/
def scalarIlu0Factorize [Field K] [DecidableEq K] [LinearOrder K] (isq : K → K) (A : SR K) (pos : ILUPos)
    (nbuildsweeps : Nat) (ft : FactInit) (info : Bool) (ord ordc : List Nat) (ilu : List K)
    (scale : Option (List K)) : C (Option (RemInfo K) × List K × Option (List K)) := do
  let scale ← updScale isq A ord scale
  let ilu ← scalarFactInit A ft scale ord ordc ilu
  let r0 ← resIf info (iluRes (fun x : K => |x|) A (scalarScale? scale) pos ord ilu)
  let ilu ← iluSweeps A (scalarScale? scale) pos nbuildsweeps ilu
  let r1 ← resIf info (iluRes (fun x : K => |x|) A (scalarScale? scale) pos ord ilu)
  .ok (remInfo r0 r1, ilu, scale)

section blockinit
variable [Zero R] [Sub R] [Mul R] [PInvOp R]

/-- `fact_init_sgs` (block), `src/async_blockilu_factor.cpp` lines 207-254. `gdblks`: the uninitialised
contents of `dblks`. `ord1`, `ord2`: orders of the rows in the two parallel loops. -/
def blockFactInitSgs (A : SR R) (scal : Nat → Nat → R → C R) (gdblks : List R) (ord1 ord2 : List Nat)
    (ilu : List R) : C (List R) := do
  let (dblks, ilu) ← parFor A.nbrows ord1 (fun i (s : List R × List R) => do
    let d ← rd A.diagind i
    let v ← rd A.vals d
    let tempblk ← scal i i v
    let w ← pinv tempblk
    let dblks ← wr s.1 i w
    let lo ← rd A.browptr i
    let hi ← rd A.browptr (i + 1)
    let ilu ← forRange lo hi (fun j ilu => do
      let v ← rd A.vals j
      let c ← rd A.bcolind j
      let v ← scal i c v
      wr ilu j v) s.2
    .ok (dblks, ilu)) (gdblks, ilu)
  parFor A.nbrows ord2 (fun i ilu => do
    let lo ← rd A.browptr i
    let d ← rd A.diagind i
    forRange lo d (fun j ilu => do
      let a ← rd ilu j
      let c ← rd A.bcolind j
      let w ← rd dblks c
      wr ilu j (a * w)) ilu) ilu

/-- The initialisation switch of `block_ilu0_factorize`, `src/async_blockilu_factor.cpp` lines
63-94. `scaled` says whether `scale` is non-null. In the scaled `INIT_F_ORIGINAL` branch rows end at
`browendptr`. Simplification: the coefficient-wise loops are written block-wise. -/
def blockFactInit (A : SR R) (ft : FactInit) (scaled : Bool) (scal : Nat → Nat → R → C R)
    (gdblks : List R) (ord ord2 ordc : List Nat) (ilu : List R) : C (List R) :=
  match ft with
  | .zero => parCells A ordc (fun i ilu => wr ilu i 0) ilu
  | .original =>
    if scaled then
      parFor A.nbrows ord (fun irow ilu => do
        let lo ← rd A.browptr irow
        let hi ← rd A.browendptr irow
        forRange lo hi (fun jj ilu => do
          let v ← rd A.vals jj
          let c ← rd A.bcolind jj
          let v ← scal irow c v
          wr ilu jj v) ilu) ilu
    else
      parCells A ordc (fun i ilu => do
        let v ← rd A.vals i
        wr ilu i v) ilu
  | .sgs => blockFactInitSgs A scal gdblks ord ord2 ilu
  | .none => .ok ilu

/-- Body of the final loop over the rows, `src/async_blockilu_factor.cpp` lines 144-145. -/
def blockInvertDiagRow (A : SR R) (irow : Nat) (ilu : List R) : C (List R) := do
  let d ← rd A.diagind irow
  let v ← rd ilu d
  let w ← pinv v
  wr ilu d w

/-- The final inversion of the diagonal blocks, `src/async_blockilu_factor.cpp` lines 143-146. -/
def blockInvertDiag (A : SR R) (ord : List Nat) (ilu : List R) : C (List R) :=
  parFor A.nbrows ord (blockInvertDiagRow A) ilu

/-- `block_ilu0_factorize`, `src/async_blockilu_factor.cpp` lines 47-149 with `usethreads = false`,
after the scaling vector has been computed. Returns the remainder norms (if asked for) and `iluvals`. -/
def blockIlu0Factorize [Zero K] [Add K] (norm : R → K) (A : SR R) (pos : ILUPos)
    (nbuildsweeps : Nat) (ft : FactInit) (scaled : Bool) (scal : Nat → Nat → R → C R) (info : Bool)
    (gdblks : List R) (ord ord2 ordc : List Nat) (ilu : List R) :
    C (Option (RemInfo K) × List R) := do
  let ilu ← blockFactInit A ft scaled scal gdblks ord ord2 ordc ilu
  let r0 ← resIf info (iluRes norm A scal pos ord ilu)
  let ilu ← iluSweeps A scal pos nbuildsweeps ilu
  let r1 ← resIf info (iluRes norm A scal pos ord ilu)
  let ilu ← blockInvertDiag A ord ilu
  .ok (remInfo r0 r1, ilu)

end blockinit

/-! ### The preconditioner objects -/

/-- The configuration members of the ILU(0) preconditioners that matter for `compute` in
sequential mode, `include/solverops_ilu0.hpp`. -/
structure ILUConf where
  usescaling : Bool
  nbuildsweeps : Nat
  factinit : FactInit
  precinfo : Bool
deriving Repr, DecidableEq

/-- The mutable members of `AsyncILU0_SRPreconditioner` and `AsyncBlockILU0_SRPreconditioner`;
`none` is a null pointer. -/
structure ILUState (R K : Type) where
  iluvals : Option (List R) := none
  scale : Option (List K) := none
  ytemp : Option (List K) := none
  plist : ILUPos := ⟨[], [], []⟩
deriving Repr, DecidableEq

section objects

/-- Dereferencing a pointer. -/
def deref {α : Type} : Option α → C α
  | some x => .ok x
  | none => .error .ub

/-- The allocation of `ytemp` in `setup_storage`, `src/solverops_ilu0.cpp` lines 335-343. -/
def allocY [Zero K] (nbrows : Nat) (ord : List Nat) (gy : List K) : Option (List K) → C (Option (List K))
  | none => do let y ← parFor nbrows ord (fun i y => wr y i 0) gy; .ok (some y)
  | some y => .ok (some y)

/-- The allocation of `scale` in `setup_storage`, `src/solverops_ilu0.cpp` lines 345-353 and 172-181. -/
def allocScale (conf : ILUConf) (gscale : List K) (scale : Option (List K)) : Option (List K) :=
  if conf.usescaling then some (scale.getD gscale) else scale

/-- `AsyncILU0_SRPreconditioner::setup_storage`, `src/solverops_ilu0.cpp` lines 323-355. `gilu`, `gy`, `gscale`:
contents of the fresh allocations. -/
def scalarSetupStorage [Zero K] (conf : ILUConf) (A : SR K) (ord ordc : List Nat)
    (gilu gy gscale : List K) (st : ILUState K K) : C (ILUState K K) := do
  let ilu ← parCells A ordc (fun j ilu => do
    let v ← rd A.vals j
    wr ilu j v) gilu
  let ytemp ← allocY A.nbrows ord gy st.ytemp
  .ok { st with iluvals := some ilu, ytemp := ytemp, scale := allocScale conf gscale st.scale }

/-- `AsyncILU0_SRPreconditioner::compute`, `src/solverops_ilu0.cpp` lines 358-368, sequential. -/
def scalarCompute [Field K] [DecidableEq K] [LinearOrder K] (isq : K → K) (conf : ILUConf) (A : SR K)
    (ord ordc : List Nat) (gilu gy gscale : List K) (st : ILUState K K) :
    C (Option (RemInfo K) × ILUState K K) := do
  let st ← if st.iluvals.isNone then do
      let st ← scalarSetupStorage conf A ord ordc gilu gy gscale st
      let plist ← computeILUPositions A
      .ok { st with plist := plist }
    else .ok st
  let ilu ← deref st.iluvals
  let (inf, ilu, scale) ← scalarIlu0Factorize isq A st.plist conf.nbuildsweeps conf.factinit
    conf.precinfo ord ordc ilu st.scale
  .ok (inf, { st with iluvals := some ilu, scale := scale })

/-- The scaling vector of the block preconditioner is recomputed if there is one,
`src/async_blockilu_factor.cpp` lines 57-59. -/
def updBlockScale {bs : Nat} (isq : K → K) (A : SR (Matrix (Fin bs) (Fin bs) K)) (ord : List Nat) :
    Option (List K) → C (Option (List K))
  | some s => do let s ← getBlockScalingVector isq A ord s; .ok (some s)
  | none => .ok none

/-- `AsyncBlockILU0_SRPreconditioner::compute` with its `setup_storage`,
`src/solverops_ilu0.cpp` lines 150-201, sequential. The coefficient-wise copy loop is written block-wise and the
work vector `ytemp` is left out. -/
def blockCompute {bs : Nat} [Field K] [DecidableEq K] [LinearOrder K] (isq : K → K) (conf : ILUConf)
    (A : SR (Matrix (Fin bs) (Fin bs) K)) (ord ord2 ordc : List Nat)
    (gilu gdblks : List (Matrix (Fin bs) (Fin bs) K)) (gscale : List K)
    (st : ILUState (Matrix (Fin bs) (Fin bs) K) K) :
    C (Option (RemInfo K) × ILUState (Matrix (Fin bs) (Fin bs) K) K) := do
  let st ← if st.iluvals.isNone then do
      let ilu ← parCells A ordc (fun j ilu => do
        let v ← rd A.vals j
        wr ilu j v) gilu
      let plist ← computeILUPositions A
      .ok { st with iluvals := some ilu, scale := allocScale conf gscale st.scale, plist := plist }
    else .ok st
  let ilu ← deref st.iluvals
  let scale ← updBlockScale isq A ord st.scale
  let (inf, ilu) ← blockIlu0Factorize blockNorm1 A st.plist conf.nbuildsweeps conf.factinit
    scale.isSome (blockScale? bs scale) conf.precinfo gdblks ord ord2 ordc ilu
  .ok (inf, { st with iluvals := some ilu, scale := scale })

end objects

end Blasted
