import Verif.Solve.Model
import Verif.Transpose.Model

/-!
# Backward Gauss-Seidel on compressed columns

Transcription of `CSC_BGS_Preconditioner`, `src/solverops_sgs.cpp` lines 205-266.
-/

namespace Blasted

variable {K : Type}

/-- Lines 254-260: subtract the contributions of `zz[j]` from the entries of column `j` above the
diagonal, last entry first. -/
def cscBgsColumn [Field K] (c : SC K) (dblocks zz : List K) (j : Nat) (temp : List K) : C (List K) := do
  let d ← rd c.diagind j
  let lo ← rd c.bcolptr j
  forDown lo d.toNat (fun ii temp => do
    let irow ← rd c.browind ii
    let v ← rd c.vals ii
    let z ← rd zz j
    let di ← rd dblocks irow
    let t ← rd temp irow
    wr temp irow (t - v * z * di)) temp

/-- Lines 246-261, one sweep by one thread: `ord` is the order of the iterations of the loop that sets `temp`. -/
def cscBgsSweep [Field K] (c : SC K) (dblocks rr : List K) (ord : List Nat) (s : List K × List K) :
    C (List K × List K) := do
  let temp ← parFor c.nbcols ord (fun j temp => do
    let r ← rd rr j
    let d ← rd dblocks j
    wr temp j (r * d)) s.1
  forDown 0 c.nbcols (fun j s => do
    let t ← rd s.1 j
    let zz ← wr s.2 j t
    let temp ← cscBgsColumn c dblocks zz j s.1
    .ok (temp, zz)) (temp, s.2)

/-- `CSC_BGS_Preconditioner::apply`, `src/solverops_sgs.cpp` lines 231-266, by one thread with `k` sweeps.
`gtemp` is the contents of the allocated work array, `ord0` the order of the first loop and `ord t` that of the loop
setting `temp` in sweep `t`. -/
def cscBgsApply [Field K] (c : SC K) (dblocks : List K) (k : Nat) (ord0 : List Nat) (ord : Nat → List Nat)
    (gtemp rr zz : List K) : C (List K) := do
  let temp ← parFor c.nbcols ord0 (fun i temp => wr temp i 0) gtemp
  let s ← forRange 0 k (fun t s => cscBgsSweep c dblocks rr (ord t) s) (temp, zz)
  .ok s.2

/-- `CSC_BGS_Preconditioner::compute`, `src/solverops_sgs.cpp` lines 219-228: invert the diagonal and convert the matrix
to compressed columns, discarding the result of an earlier conversion. -/
def cscBgsCompute [Field K] [DecidableEq K] (A : SR K) (ord : List Nat) (g : List K) (dblocks : Option (List K))
    (srt : List (CSEntry K) → List (CSEntry K)) (gptr gind : List Nat) (gvals : List K) (gdiag : List Int) :
    C (List K × SC K) := do
  let d ← jacobiCompute A ord g dblocks
  let c ← convertBSC 1 srt A gptr gind gvals gdiag
  .ok (d, c)

end Blasted
