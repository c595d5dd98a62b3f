import Verif.Reorder.Model
import Verif.Transpose.Model

/-!
# The wrapper around HSL MC64

Transcription of `MC64::compute` and `getWorkSizes`, `src/reorderingscaling.cpp` lines 376-504 (compiled with
`HAVE_MC64`). The Fortran routine itself is a parameter; what is assumed of it is stated separately
(`MC64Contract` in `Reorder/Mc64Spec.lean`).
-/

namespace Blasted

variable {K : Type}

/-- What the Fortran routine `mc64ad_` leaves in `info[0]`, `cperm` and `scalevec`
(`src/reorderingscaling.cpp` lines 387-392, 471-473). `num_diag` only goes into a message (lines 483-487). -/
structure MC64Out (K : Type) where
  info0 : Int
  cperm : List Int
  dw : List K
deriving Repr, DecidableEq

/-- The Fortran routine `mc64ad_` with default options (`src/reorderingscaling.cpp` lines 387-394,
463-473), as a function of the job, the order, the number of entries, the column pointers, the row
indices, the values and the two work sizes. -/
abbrev MC64Fn (K : Type) :=
  (job : Int) → (n ne : Nat) → (colptr rowind : List Nat) → (a : List K) → (liw ldw : Nat) → MC64Out K

/-- `getWorkSizes`, `src/reorderingscaling.cpp` lines 409-443, in unbounded integers (`getWorkSizesI` for `int`). -/
def getWorkSizes (job : Int) (nrows nnz : Nat) : C (Nat × Nat) :=
  if job = 1 then .ok (5 * nrows, 0)
  else if job = 2 then .ok (4 * nrows, nrows)
  else if job = 3 then .ok (10 * nrows + nnz, nnz)
  else if job = 4 then .ok (5 * nrows, 2 * nrows + nnz)
  else if job = 5 then .ok (5 * nrows, 3 * nrows + nnz)
  else .error (.throw "std::runtime_error" "Invalid MC64 job!")

/-- `&v[0]` (`src/reorderingscaling.cpp` lines 472-473): forming a reference to element 0 of an empty `std::vector`
is undefined behaviour. -/
def addrFirst (len : Nat) : C Unit := if len = 0 then .error .ub else .ok ()

/-- The check of `info[0]`, `src/reorderingscaling.cpp` lines 476-481. -/
def mc64Check (info0 : Int) : C Unit :=
  if info0 = 0 then .ok ()
  else if info0 = 1 then .error (.throw "std::runtime_error" "MC64: Matrix was structurally singular!")
  else .error (.throw "std::runtime_error" ("MC64 failed! Error code = " ++ toString info0))

/-- Lines 494-497 of `src/reorderingscaling.cpp` for row `i`; the state is (`rowscale`, `colscale`). -/
def mc64Scale (exp : K → K) (job : Int) (n : Nat) (dw : List K) (i : Nat)
    (s : List K × List K) : C (List K × List K) :=
  if job = 5 then do
    let u ← rd dw i
    let rs ← wr s.1 i (exp u)
    let v ← rd dw (n + i)
    let cs ← wr s.2 i (exp v)
    .ok (rs, cs)
  else .ok s

/-- The loop of `src/reorderingscaling.cpp` lines 493-500; the state is (`rowscale`, `colscale`, `cp`). -/
def mc64Finish (exp : K → K) (job : Int) (n : Nat) (dw : List K) (rs cs : List K) (cp : List Int) :
    C ((List K × List K) × List Int) :=
  forRange 0 n (fun i (s : (List K × List K) × List Int) => do
    let sc ← mc64Scale exp job n dw i s.1
    let c ← rd s.2 i
    let cp ← wr s.2 i (((c.natAbs : Nat) : Int) - 1)
    .ok (sc, cp)) ((rs, cs), cp)

/-- `invertPermutationVector` (`src/reorderingscaling.cpp` lines 32-39) on a vector of `int`: a negative
index is out of bounds. -/
def invertPermutationZ (p : List Int) : C (List Nat) :=
  forRange 0 p.length (fun i invp => do
    let pi ← rd p i
    if pi < 0 then .error .ub else wr invp pi.toNat i) (List.replicate p.length 0)

/-- `std::vector<double>::resize`: old contents are kept, new cells are 0. -/
def vresizeK [Zero K] (v : List K) (length : Nat) : List K :=
  v.take length ++ List.replicate (length - v.length) 0

/-- `MC64::compute`, `src/reorderingscaling.cpp` lines 445-504. `srt`, `gptr`, `gind`, `gvals`, `gdiag` belong to
`convert_BSR_to_BSC_1based` (`Transpose/Model.lean`), `mc` is the Fortran routine and `exp` is `std::exp`. The new
contents of `cp` are those the routine wrote. The message about `num_diag` (lines 483-487) and the
release of the temporary matrix (line 489) are left out. -/
def mc64Compute [Zero K] (srt : List (CSEntry K) → List (CSEntry K)) (gptr gind : List Nat) (gvals : List K)
    (gdiag : List Int) (mc : MC64Fn K) (exp : K → K) (job : Int) (A : SR K) (r : RS K) : C (RS K) := do
  let c ← convertBSC1 1 srt A gptr gind gvals gdiag
  cassert (A.nbrows == c.nbcols)
  let nnz ← rd A.browptr A.nbrows
  let last ← rd c.bcolptr c.nbcols
  cassert (nnz + 1 == last)
  let w ← getWorkSizes job A.nbrows nnz
  addrFirst A.nbrows
  addrFirst w.1
  addrFirst w.2
  let o := mc job c.nbcols nnz c.bcolptr c.browind c.vals w.1 w.2
  mc64Check o.info0
  let rs := if job = 5 then vresizeK r.rowscale A.nbrows else r.rowscale
  let cs := if job = 5 then vresizeK r.colscale A.nbrows else r.colscale
  let s ← mc64Finish exp job A.nbrows o.dw rs cs o.cperm
  let icp ← invertPermutationZ s.2
  .ok { r with cp := s.2.map Int.toNat, icp := icp, rowscale := s.1.1, colscale := s.1.2 }

end Blasted
