import Verif.Race.Prog
import Verif.MatVec.Model
import Verif.Solve.Model

/-!
# The bodies of the parallel loops, access by access

The same statements as in `MatVec/Model.lean` and `Solve/Model.lean`, but as sequences of single loads and stores of the vector that the loop writes. The matrix and the
other vectors are only read in these loops. That the two transcriptions say the same is proved after each one.
-/

namespace Blasted

open Prog

section matvec
variable {K : Type} [Zero K] [Add K] [Mul K]

/-- Body of the row loop of `BLAS_CSR::matrix_apply`, `src/blas/matvecs.cpp` lines 84-89. -/
def csrApplyRowP (A : SR K) (x : List K) (irow : Nat) : Prog K Unit := do
  Prog.wr irow 0
  let lo ← lift (rd A.browptr irow)
  let hi ← lift (rd A.browptr (irow + 1))
  loop lo hi (fun jj => do
    let v ← lift (rd A.vals jj)
    let c ← lift (rd A.bcolind jj)
    let xv ← lift (rd x c)
    let o ← Prog.rd irow
    Prog.wr irow (o + v * xv))

theorem exec_csrApplyRowP (A : SR K) (x : List K) (i : Nat) (y : List K) : exec (csrApplyRowP A x i) y = csrApplyRow A x i y := by
  unfold csrApplyRowP csrApplyRow
  simp only [exec_do, exec_wr, exec_lift_bind, exec_loop, exec_rd_bind]

/-- Body of the row loop of `BLAS_CSR::gemv3`, `src/blas/matvecs.cpp` lines 101-106; `yy = none` when the caller passed one array for `yy` and `zz`. -/
def csrGemv3RowP (A : SR K) (a : K) (x : List K) (b : K) (yy : Option (List K)) (irow : Nat) : Prog K Unit := do
  let yv ← (match yy with
    | some yy => lift (rd yy irow)
    | none => Prog.rd irow)
  Prog.wr irow (b * yv)
  let lo ← lift (rd A.browptr irow)
  let hi ← lift (rd A.browptr (irow + 1))
  loop lo hi (fun jj => do
    let v ← lift (rd A.vals jj)
    let c ← lift (rd A.bcolind jj)
    let xv ← lift (rd x c)
    let o ← Prog.rd irow
    Prog.wr irow (o + a * v * xv))

omit [Zero K] in
theorem exec_csrGemv3RowP (A : SR K) (a : K) (x : List K) (b : K) (yy : Option (List K)) (i : Nat) (zz : List K) :
    exec (csrGemv3RowP A a x b yy i) zz = csrGemv3Row A a x b yy i zz := by
  unfold csrGemv3RowP csrGemv3Row
  cases yy <;> simp only [exec_do, exec_wr, exec_lift_bind, exec_loop, exec_rd_bind, Option.getD]

/-- Body of the row loop of `BLAS_BSR::matrix_apply`, `src/blas/matvecs.cpp` lines 38-46. -/
def bsrApplyRowP (stor : Stor) (bs : Nat) (A : SR K) (x : List K) (irow : Nat) : Prog K Unit := do
  loop 0 bs (fun a => Prog.wr (irow * bs + a) 0)
  let lo ← lift (rd A.browptr irow)
  let hi ← lift (rd A.browptr (irow + 1))
  loop lo hi (fun jj => do
    let jcol ← lift (rd A.bcolind jj)
    loop 0 bs (fun a => do
      let p ← lift (blkDot stor bs id A.vals jj x jcol a)
      let o ← Prog.rd (irow * bs + a)
      Prog.wr (irow * bs + a) (o + p)))

theorem exec_bsrApplyRowP (stor : Stor) (bs : Nat) (A : SR K) (x : List K) (i : Nat) (y : List K) :
    exec (bsrApplyRowP stor bs A x i) y = bsrApplyRow stor bs A x i y := by
  unfold bsrApplyRowP bsrApplyRow
  simp only [exec_do, exec_wr, exec_lift_bind, exec_loop, exec_rd_bind]

/-- Body of the row loop of `BLAS_BSR::gemv3`, `src/blas/matvecs.cpp` lines 66-73. -/
def bsrGemv3RowP (stor : Stor) (bs : Nat) (A : SR K) (a : K) (x : List K) (b : K) (yy : Option (List K)) (irow : Nat) : Prog K Unit := do
  loop 0 bs (fun k => do
    let yv ← (match yy with
      | some yy => lift (rd yy (irow * bs + k))
      | none => Prog.rd (irow * bs + k))
    Prog.wr (irow * bs + k) (b * yv))
  let lo ← lift (rd A.browptr irow)
  let hi ← lift (rd A.browptr (irow + 1))
  loop lo hi (fun jj => do
    let jcol ← lift (rd A.bcolind jj)
    loop 0 bs (fun k => do
      let p ← lift (blkDot stor bs (a * ·) A.vals jj x jcol k)
      let o ← Prog.rd (irow * bs + k)
      Prog.wr (irow * bs + k) (o + p)))

theorem exec_bsrGemv3RowP (stor : Stor) (bs : Nat) (A : SR K) (a : K) (x : List K) (b : K) (yy : Option (List K)) (i : Nat) (zz : List K) :
    exec (bsrGemv3RowP stor bs A a x b yy i) zz = bsrGemv3Row stor bs A a x b yy i zz := by
  unfold bsrGemv3RowP bsrGemv3Row
  cases yy <;> simp only [exec_do, exec_wr, exec_lift_bind, exec_loop, exec_rd_bind, Option.getD]

end matvec

section rows
variable {V R M : Type} [Zero M] [Add M] [Sub M] [SMul R M]

/-- The loop `for(jj = lo; jj < hi; jj++) inter += vals[jj]*x[colind[jj]]` of the kernels, where `x` is the shared vector. -/
def rowSumP (colind : List Nat) (vals : List R) (lo hi : Nat) (s : M) : Prog M M :=
  Prog.forRange lo hi (fun jj s => do
    let v ← lift (rd vals jj)
    let c ← lift (rd colind jj)
    let xj ← Prog.rd c
    pure (s + v • xj)) s

/-- A kernel that only reads the shared vector, and the computation of the same value access by access. -/
def Reads (p : Prog M M) (upd : (Nat → C M) → C M) : Prop := ∀ m, run p m = (do let v ← upd (rd m); .ok (v, m))

omit [Zero M] [Sub M] in
theorem reads_rowSumP (colind : List Nat) (vals : List R) (lo hi : Nat) (s : M) :
    Reads (rowSumP colind vals lo hi s) (fun x => rowSum colind vals lo hi x s) := by
  intro m
  unfold rowSumP rowSum Prog.forRange Blasted.forRange
  generalize List.range' lo (hi - lo) = l
  rw [run_forList]
  simp only [run_lift_bind, run_rd_bind, run_pure]
  induction l generalizing s with
  | nil => rfl
  | cons j l ih =>
    rw [forList_cons, forList_cons]
    cases h1 : rd vals j with
    | error e => rfl
    | ok v =>
      cases h2 : rd colind j with
      | error e => rfl
      | ok c =>
        simp only [ok_bind]
        cases h3 : rd m c with
        | error e => rfl
        | ok xj => exact ih (s + v • xj)

/-- `scalar_unit_lower_triangular`, `block_unit_lower_triangular`, `src/kernels/kernels_ilu_apply.hpp` lines 18-27 and 55-67. -/
def unitLowerP (A : SR V) (ilu : List R) (rhs : List M) (i : Nat) : Prog M M := do
  let lo ← lift (rd A.browptr i)
  let d ← lift (rd A.diagind i)
  let b ← lift (rd rhs i)
  let s ← rowSumP A.bcolind ilu lo d 0
  pure (b - s)

/-- `scalar_upper_triangular`, `src/kernels/kernels_ilu_apply.hpp` lines 31-42. -/
def upperP [PInvOp R] (A : SR V) (ilu : List R) (rhs : List M) (i : Nat) : Prog M M := do
  let d ← lift (rd A.diagind i)
  let hi ← lift (rd A.browptr (i + 1))
  let v ← lift (rd ilu d)
  let dinv ← lift (pinv v)
  let b ← lift (rd rhs i)
  let s ← rowSumP A.bcolind ilu (d + 1) hi 0
  pure (dinv • (b - s))

/-- `block_upper_triangular`, `src/kernels/kernels_ilu_apply.hpp` lines 80-94. -/
def blockUpperP (A : SR V) (ilu : List R) (rhs : List M) (i : Nat) : Prog M M := do
  let d ← lift (rd A.diagind i)
  let hi ← lift (rd A.browptr (i + 1))
  let b ← lift (rd rhs i)
  let s ← rowSumP A.bcolind ilu (d + 1) hi 0
  let v ← lift (rd ilu d)
  pure (v • (b - s))

/-- `scalar_fgs`, `block_fgs`, `src/kernels/kernels_sgs.hpp` lines 18-29 and 48-61. -/
def fgsP (A : SR R) (dinv : List R) (rhs : List M) (i : Nat) : Prog M M := do
  let lo ← lift (rd A.browptr i)
  let d ← lift (rd A.diagind i)
  let di ← lift (rd dinv i)
  let b ← lift (rd rhs i)
  let s ← rowSumP A.bcolind A.vals lo d 0
  pure (di • (b - s))

/-- `scalar_bgs`, `block_bgs`, `src/kernels/kernels_sgs.hpp` lines 33-45 and 64-79. -/
def bgsP (A : SR R) (dinv : List R) (rhs : List M) (i : Nat) : Prog M M := do
  let d ← lift (rd A.diagind i)
  let hi ← lift (rd A.browptr (i + 1))
  let di ← lift (rd dinv i)
  let b ← lift (rd rhs i)
  let s ← rowSumP A.bcolind A.vals (d + 1) hi 0
  pure (b - di • s)

theorem bind_assoc_C {α β γ : Type} (c : C α) (f : α → C β) (g : β → C γ) : ((do let b ← (do let a ← c; f a); g b) : C γ) = (do let a ← c; let b ← f a; g b) := by
  cases c <;> rfl

theorem reads_unitLowerP (A : SR V) (ilu : List R) (rhs : List M) (i : Nat) : Reads (unitLowerP A ilu rhs i) (unitLowerRow A ilu rhs i) := by
  intro m
  unfold unitLowerP unitLowerRow
  simp only [run_lift_bind, run_do (rowSumP _ _ _ _ _), reads_rowSumP _ _ _ _ _ m, run_pure, bind_assoc_C, ok_bind]

theorem reads_upperP [PInvOp R] (A : SR V) (ilu : List R) (rhs : List M) (i : Nat) : Reads (upperP A ilu rhs i) (upperRow A ilu rhs i) := by
  intro m
  unfold upperP upperRow
  simp only [run_lift_bind, run_do (rowSumP _ _ _ _ _), reads_rowSumP _ _ _ _ _ m, run_pure, bind_assoc_C, ok_bind]

theorem reads_blockUpperP (A : SR V) (ilu : List R) (rhs : List M) (i : Nat) : Reads (blockUpperP A ilu rhs i) (blockUpperRow A ilu rhs i) := by
  intro m
  unfold blockUpperP blockUpperRow
  simp only [run_lift_bind, run_do (rowSumP _ _ _ _ _), reads_rowSumP _ _ _ _ _ m, run_pure, bind_assoc_C, ok_bind]

theorem reads_fgsP (A : SR R) (dinv : List R) (rhs : List M) (i : Nat) : Reads (fgsP A dinv rhs i) (fgsRow A dinv rhs i) := by
  intro m
  unfold fgsP fgsRow
  simp only [run_lift_bind, run_do (rowSumP _ _ _ _ _), reads_rowSumP _ _ _ _ _ m, run_pure, bind_assoc_C, ok_bind]

theorem reads_bgsP (A : SR R) (dinv : List R) (rhs : List M) (i : Nat) : Reads (bgsP A dinv rhs i) (bgsRow A dinv rhs i) := by
  intro m
  unfold bgsP bgsRow
  simp only [run_lift_bind, run_do (rowSumP _ _ _ _ _), reads_rowSumP _ _ _ _ _ m, run_pure, bind_assoc_C, ok_bind]

/-- One iteration of a row loop: the kernel's value for row `i` is stored in component `i`. -/
def rowP (p : Nat → Prog M M) (i : Nat) : Prog M Unit := do
  let v ← p i
  Prog.wr i v

omit [Zero M] [Add M] [Sub M] in
theorem exec_rowP {p : Nat → Prog M M} {upd : Nat → (Nat → C M) → C M} {i : Nat} (h : Reads (p i) (upd i)) (x : List M) : exec (rowP p i) x = updRow upd i x := by
  unfold rowP updRow exec
  rw [run_do, h x]
  cases h1 : upd i (rd x) with
  | error e => rfl
  | ok v => exact exec_wr i v x

/-- Body of the loop of the Jacobi application, `src/solverops_jacobi.cpp` lines 51-63, 165-171. -/
def jacobiApplyRowP (dblocks : List R) (r : List M) (i : Nat) : Prog M Unit := do
  let d ← lift (rd dblocks i)
  let ri ← lift (rd r i)
  Prog.wr i (d • ri)

end rows

end Blasted
