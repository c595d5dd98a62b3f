import Verif.Solve.SymLemmas
import Verif.Async.Simultaneous

/-!
# Symmetric matrices give symmetric preconditioners (C73)

Conjugate gradients need a preconditioner `r ↦ z` that is symmetric, `(s, z(r)) = (r, z(s))`, and positive definite, `(r, z(r)) > 0` for `r ≠ 0`.
The specification consists of these two inner products, of the symmetry of the entries (blocks) of the matrix, and of its positive definiteness.
-/

namespace Blasted

open Finset

variable {R M K V : Type}

/-! ### Inner products -/

/-- The scalar matrix is symmetric. -/
def SymEntries (A : SR K) [AddCommMonoid K] : Prop := ∀ i < A.nbrows, ∀ j < A.nbrows, A.entry i j = A.entry j i

/-- The block matrix is symmetric: block `(i,j)` is the transpose of block `(j,i)`. -/
def SymBlocks {bs : Nat} [AddCommMonoid K] (A : SR (Matrix (Fin bs) (Fin bs) K)) : Prop :=
  ∀ i < A.nbrows, ∀ j < A.nbrows, A.entry i j = (A.entry j i).transpose

/-- The scalar matrix is positive definite. -/
def PosEntries (A : SR K) [Field K] [LinearOrder K] : Prop :=
  ∀ x : Nat → K, (∃ i < A.nbrows, x i ≠ 0) → 0 < ∑ i ∈ range A.nbrows, ∑ j ∈ range A.nbrows, x i * A.entry i j * x j

/-- The block matrix is positive definite. -/
def PosBlocks {bs : Nat} [Field K] [LinearOrder K] (A : SR (Matrix (Fin bs) (Fin bs) K)) : Prop :=
  ∀ x : Nat → Fin bs → K, (∃ i < A.nbrows, x i ≠ 0) →
    0 < ∑ i ∈ range A.nbrows, ∑ j ∈ range A.nbrows, x i ⬝ᵥ (A.entry i j).mulVec (x j)

/-- The inner product of two vectors. -/
def inner1 [Semiring K] (n : Nat) (x y : List K) : K := ∑ i ∈ range n, x⟦i⟧ * y⟦i⟧

/-- The inner product of two block vectors. -/
def innerB [Semiring K] {bs : Nat} (n : Nat) (x y : List (Fin bs → K)) : K := ∑ i ∈ range n, x⟦i⟧ ⬝ᵥ y⟦i⟧

section forms
variable [Field K]

theorem mulForm_comm (x y : K) : LinearMap.mul K K x y = LinearMap.mul K K y x := mul_comm x y

theorem vdot_mul (n : Nat) (x y : List K) : vdot (LinearMap.mul K K) n (get0 x) (get0 y) = inner1 n x y := rfl

theorem symMat_scalar {n : Nat} {G : Nat → Nat → K} (h : ∀ i < n, ∀ j < n, G i j = G j i) : SymMat (LinearMap.mul K K) n G := by
  intro i hi j hj x y
  rw [h i hi j hj]
  show G j i * x * y = x * (G j i * y)
  ring

theorem posMat_scalar [LinearOrder K] {A : SR K} (h : PosEntries A) : PosMat (LinearMap.mul K K) A.nbrows A.entry := by
  intro x hx
  have e : vdot (LinearMap.mul K K) A.nbrows x (mulV A.nbrows A.entry x) =
      ∑ i ∈ range A.nbrows, ∑ j ∈ range A.nbrows, x i * A.entry i j * x j := by
    rw [vdot_mulV]
    exact sum_congr rfl fun i _ => sum_congr rfl fun j _ => (mul_assoc _ _ _).symm
  rw [e]
  exact h x hx

/-- The inner product of the segments of block vectors. -/
def segForm (K : Type) [Field K] (bs : Nat) : LinearMap.BilinForm K (Fin bs → K) := dotForm (LinearMap.mul K K) bs

variable {bs : Nat}

theorem segForm_apply (x y : Fin bs → K) : segForm K bs x y = x ⬝ᵥ y := rfl

theorem segForm_comm (x y : Fin bs → K) : segForm K bs x y = segForm K bs y x := dotProduct_comm x y

theorem vdot_seg (n : Nat) (x y : List (Fin bs → K)) : vdot (segForm K bs) n (get0 x) (get0 y) = innerB n x y := rfl

open scoped Matrix.Module

theorem segForm_adj (a : Matrix (Fin bs) (Fin bs) K) : Adj (segForm K bs) a a.transpose := fun x y => by
  show a.mulVec x ⬝ᵥ y = x ⬝ᵥ a.transpose.mulVec y
  rw [Matrix.mulVec_transpose, dotProduct_comm, Matrix.dotProduct_mulVec, dotProduct_comm]

theorem symMat_block {n : Nat} {G : Nat → Nat → Matrix (Fin bs) (Fin bs) K} (h : ∀ i < n, ∀ j < n, G i j = (G j i).transpose) :
    SymMat (segForm K bs) n G := by
  intro i hi j hj
  rw [h j hj i hi]
  exact segForm_adj (G i j)

theorem posMat_block [LinearOrder K] {A : SR (Matrix (Fin bs) (Fin bs) K)} (h : PosBlocks A) : PosMat (segForm K bs) A.nbrows A.entry := by
  intro x hx
  rw [vdot_mulV]
  exact h x hx

end forms

/-! ### Solutions with scaling -/

section scaled
variable [Ring R] [AddCommGroup M] [Module R M] [Field K] [Module K M] {B : LinearMap.BilinForm K M} {n : Nat} {G : Nat → Nat → R} {T : Nat → M → M}

theorem scaled_sym (hB : ∀ x y, B x y = B y x) (hG : SymMat B n G) (hT : ∀ i < n, ∀ x y, B (T i x) y = B x (T i y))
    {r s z z' w w' : Nat → M} (hz : ∀ i < n, z i = T i (w i)) (hw : ∀ i < n, mulV n G w i = T i (r i))
    (hz' : ∀ i < n, z' i = T i (w' i)) (hw' : ∀ i < n, mulV n G w' i = T i (s i)) : vdot B n s z = vdot B n r z' := by
  have e1 : vdot B n s z = vdot B n (fun i => T i (s i)) w := sum_congr rfl fun i hi => by
    rw [mem_range] at hi; rw [hz i hi, hT i hi]
  have e2 : vdot B n r z' = vdot B n (fun i => T i (r i)) w' := sum_congr rfl fun i hi => by
    rw [mem_range] at hi; rw [hz' i hi, hT i hi]
  rw [e1, e2]
  exact hG.solve hB hw hw'

theorem scaled_pos [LinearOrder K] (hB : ∀ x y, B x y = B y x) (hG : PosMat B n G) (hT : ∀ i < n, ∀ x y, B (T i x) y = B x (T i y))
    (hT0 : ∀ i < n, ∀ x, T i x = 0 → x = 0)
    {r z w : Nat → M} (hz : ∀ i < n, z i = T i (w i)) (hw : ∀ i < n, mulV n G w i = T i (r i)) (hr : ∃ i < n, r i ≠ 0) : 0 < vdot B n r z := by
  have e1 : vdot B n r z = vdot B n w (mulV n G w) := by
    rw [vdot_comm hB w]
    refine sum_congr rfl fun i hi => ?_
    rw [mem_range] at hi
    rw [hz i hi, ← hT i hi, hw i hi]
  rw [e1]
  refine hG w ?_
  by_contra h
  push Not at h
  obtain ⟨i, hi, hne⟩ := hr
  refine hne (hT0 i hi _ ?_)
  rw [← hw i hi]
  exact sum_eq_zero fun j hj => by rw [h j (mem_range.mp hj), smul_zero]

end scaled

/-! ### SGS and Jacobi -/

section sgs
variable [Ring R] [AddCommGroup M] [Module R M]

/-- The vector `z` is a result of applying the SGS preconditioner to `r`: sequentially, with a level schedule, or asynchronously with at least as many sweeps as rows. -/
inductive SgsOutcome (A : SR R) (dinv : List R) (r z : List M) : Prop
  | sequential (k : Nat) (hk : 1 ≤ k) (init : ApplyInit) (ord : Nat → List Nat)
      (hord : ∀ t, (ord t).Perm (List.range A.nbrows)) (z₀ y y' : List M) (hz : z₀.length = A.nbrows) (hy : y.length = A.nbrows)
      (h : sgsApply A dinv k init ord r z₀ y = .ok (z, y'))
  | level (levels : List Nat) (hL : LevelsOk A levels) (mix : Set M → Set M) (hm : MixOk mix)
      (z₀ y y' : List M) (hz : z₀.length = A.nbrows) (hy : y.length = A.nbrows)
      (h : AsyncLevelSgsApply A dinv mix levels r z₀ y z y')
  | async (k : Nat) (hk1 : 1 ≤ k) (hk : A.nbrows ≤ k) (init : ApplyInit) (mix : Set M → Set M) (hm : MixOk mix) (ord : Nat → List Nat)
      (hord : ∀ t, (ord t).Perm (List.range A.nbrows)) (z₀ y y' : List M) (hz : z₀.length = A.nbrows) (hy : y.length = A.nbrows)
      (h : AsyncSgsApply A dinv mix k init ord r z₀ y z y')

variable {A : SR R} {dinv : List R}

theorem SgsOutcome.solved (hA : A.Full) (hS : A.Sorted) (hD : A.HasDiag) (hI : DiagInv A dinv) {r z : List M} (hr : r.length = A.nbrows)
    (h : SgsOutcome A dinv r z) :
    z.length = A.nbrows ∧ ∀ i < A.nbrows, ∑ j ∈ range A.nbrows, sgsMat A dinv i j • z⟦j⟧ = r⟦i⟧ := by
  cases h with
  | sequential k hk init ord hord z₀ y y' hz hy h =>
    obtain ⟨z₁, y₁, e, _, h1⟩ := sgs_apply_correct hA hS hD hI hk hord hr hz hy
    rw [e] at h
    injection h with h
    injection h with h3 _
    subst h3
    exact h1
  | level levels hL mix hm z₀ y y' hz hy h => exact sgs_apply_levels_async hA hS hD hI hL hm hr hz hy h
  | async k hk1 hk init mix hm ord hord z₀ y y' hz hy h => exact sgs_apply_async_exact hA hS hD hI hm hk1 hk hord hr hz hy h

variable [Field K] [Module K M] {B : LinearMap.BilinForm K M}

theorem sgs_sym (hA : A.Full) (hS : A.Sorted) (hD : A.HasDiag) (hI : DiagInv A dinv) (hB : ∀ x y, B x y = B y x)
    (hsym : SymMat B A.nbrows A.entry) {r s z w : List M} (hr : r.length = A.nbrows) (hs : s.length = A.nbrows)
    (hz : SgsOutcome A dinv r z) (hw : SgsOutcome A dinv s w) :
    vdot B A.nbrows (get0 s) (get0 z) = vdot B A.nbrows (get0 r) (get0 w) :=
  (sgsMat_sym hsym hI).solve hB (hz.solved hA hS hD hI hr).2 (hw.solved hA hS hD hI hs).2

theorem sgs_pos [LinearOrder K] [IsStrictOrderedRing K] (hA : A.Full) (hS : A.Sorted) (hD : A.HasDiag) (hI : DiagInv A dinv)
    (hB : ∀ x y, B x y = B y x) (hsym : SymMat B A.nbrows A.entry) (hpos : ∀ i < A.nbrows, ∀ x : M, x ≠ 0 → 0 < B x (A.entry i i • x))
    {r z : List M} (hr : r.length = A.nbrows) (hz : SgsOutcome A dinv r z) (hne : ∃ i < A.nbrows, r⟦i⟧ ≠ 0) :
    0 < vdot B A.nbrows (get0 r) (get0 z) :=
  scaled_pos (T := fun _ x => x) hB (sgsMat_pos hB hsym hI hpos) (fun _ _ _ _ => rfl) (fun _ _ _ h => h) (w := get0 z) (fun _ _ => rfl)
    (hz.solved hA hS hD hI hr).2 hne

end sgs

section scalar
variable [Field K] {A : SR K} {dinv : List K}

/-- **C73** For a symmetric matrix the SGS preconditioner is symmetric: `(s, z(r)) = (r, z(s))`, for every way of applying it, which may differ for `r` and `s`. -/
theorem sgs_apply_symmetric (hA : A.Full) (hS : A.Sorted) (hD : A.HasDiag) (hI : DiagInv A dinv) (hsym : SymEntries A)
    {r s z w : List K} (hr : r.length = A.nbrows) (hs : s.length = A.nbrows) (hz : SgsOutcome A dinv r z) (hw : SgsOutcome A dinv s w) :
    inner1 A.nbrows s z = inner1 A.nbrows r w :=
  sgs_sym (B := LinearMap.mul K K) hA hS hD hI mulForm_comm (symMat_scalar hsym) hr hs hz hw

/-- **C73** If moreover the diagonal is positive, the SGS preconditioner is positive definite. The matrix itself need not be. -/
theorem sgs_apply_positive [LinearOrder K] [IsStrictOrderedRing K] (hA : A.Full) (hS : A.Sorted) (hD : A.HasDiag) (hI : DiagInv A dinv) (hsym : SymEntries A)
    (hpos : ∀ i < A.nbrows, 0 < A.entry i i) {r z : List K} (hr : r.length = A.nbrows) (hz : SgsOutcome A dinv r z) (hne : ∃ i < A.nbrows, r⟦i⟧ ≠ 0) :
    0 < inner1 A.nbrows r z :=
  sgs_pos (B := LinearMap.mul K K) hA hS hD hI mulForm_comm (symMat_scalar hsym) (fun i hi x hx => by
    show 0 < x * (A.entry i i * x)
    rw [mul_left_comm]
    exact mul_pos (hpos i hi) (mul_self_pos.mpr hx)) hr hz hne

/-- **C73** The Jacobi preconditioner is symmetric, and positive definite if the diagonal is positive. -/
theorem jacobi_apply_symmetric [LinearOrder K] [IsStrictOrderedRing K] (hI : DiagInv A dinv) {ord ord' : List Nat} (hord : ord.Perm (List.range A.nbrows))
    (hord' : ord'.Perm (List.range A.nbrows)) {r s z w z₀ w₀ : List K} (hr : r.length = A.nbrows) (hs : s.length = A.nbrows)
    (hz₀ : z₀.length = A.nbrows) (hw₀ : w₀.length = A.nbrows) (hz : jacobiApply A.nbrows dinv ord r z₀ = .ok z)
    (hw : jacobiApply A.nbrows dinv ord' s w₀ = .ok w) :
    inner1 A.nbrows s z = inner1 A.nbrows r w ∧
      ((∀ i < A.nbrows, 0 < A.entry i i) → (∃ i < A.nbrows, r⟦i⟧ ≠ 0) → 0 < inner1 A.nbrows r z) := by
  obtain ⟨z', e, _, h1⟩ := jacobi_apply_correct hI hord hr hz₀
  rw [e] at hz; injection hz with hz; subst hz
  obtain ⟨w', e, _, h2⟩ := jacobi_apply_correct hI hord' hs hw₀
  rw [e] at hw; injection hw with hw; subst hw
  refine ⟨sum_congr rfl fun i hi => ?_, fun hpos hne => ?_⟩
  · rw [mem_range] at hi
    rw [← h1 i hi, ← h2 i hi]
    simp only [smul_eq_mul]
    ring
  · have hn : ∀ i < A.nbrows, r⟦i⟧ * z'⟦i⟧ = A.entry i i * (z'⟦i⟧ * z'⟦i⟧) := fun i hi => by
      rw [← h1 i hi, smul_eq_mul]; ring
    obtain ⟨i, hi, hri⟩ := hne
    refine sum_pos' (fun j hj => ?_) ⟨i, mem_range.mpr hi, ?_⟩
    · rw [mem_range] at hj
      rw [hn j hj]
      exact mul_nonneg (hpos j hj).le (mul_self_nonneg _)
    · rw [hn i hi]
      refine mul_pos (hpos i hi) (mul_self_pos.mpr fun h => hri ?_)
      rw [← h1 i hi, h, smul_zero]

end scalar

section block
open scoped Matrix.Module
variable [Field K] {bs : Nat} {A : SR (Matrix (Fin bs) (Fin bs) K)} {dinv : List (Matrix (Fin bs) (Fin bs) K)}

/-- **C73**, block SGS. -/
theorem block_sgs_apply_symmetric (hA : A.Full) (hS : A.Sorted) (hD : A.HasDiag) (hI : DiagInv A dinv) (hsym : SymBlocks A)
    {r s z w : List (Fin bs → K)} (hr : r.length = A.nbrows) (hs : s.length = A.nbrows) (hz : SgsOutcome A dinv r z) (hw : SgsOutcome A dinv s w) :
    innerB A.nbrows s z = innerB A.nbrows r w :=
  sgs_sym (B := segForm K bs) hA hS hD hI segForm_comm (symMat_block hsym) hr hs hz hw

/-- **C73**, block SGS: positive definite if the diagonal blocks are. -/
theorem block_sgs_apply_positive [LinearOrder K] [IsStrictOrderedRing K] (hA : A.Full) (hS : A.Sorted) (hD : A.HasDiag) (hI : DiagInv A dinv) (hsym : SymBlocks A)
    (hpos : ∀ i < A.nbrows, ∀ x : Fin bs → K, x ≠ 0 → 0 < x ⬝ᵥ (A.entry i i).mulVec x) {r z : List (Fin bs → K)} (hr : r.length = A.nbrows)
    (hz : SgsOutcome A dinv r z) (hne : ∃ i < A.nbrows, r⟦i⟧ ≠ 0) : 0 < innerB A.nbrows r z :=
  sgs_pos (B := segForm K bs) hA hS hD hI segForm_comm (symMat_block hsym) hpos hr hz hne

end block

/-! ### Incomplete factorization -/

section ilu
variable [Field K] [LinearOrder K] [IsStrictOrderedRing K] [DecidableEq K]

omit [LinearOrder K] [IsStrictOrderedRing K] [DecidableEq K] in
theorem scaledEntry_symm {isq : K → K} {us : Bool} {A : SR K} (h : SymEntries A) :
    ∀ i < A.nbrows, ∀ j < A.nbrows, scaledEntry isq us A i j = scaledEntry isq us A j i := by
  intro i hi j hj
  unfold scaledEntry
  rw [h i hi j hj]
  ring

omit [IsStrictOrderedRing K] in
/-- **C73** For a symmetric matrix with symmetric sparsity pattern the ILU(0) preconditioner is symmetric: after `compute`, `(s, z(r)) = (r, z(s))`,
with or without scaling, for every way of applying it. -/
theorem ilu_apply_symmetric {isq : K → K} {conf : ILUConf} {A : SR K} {ord ordc : List Nat}
    {gilu gy gscale : List K} {st st' : ILUState K K} {inf : Option (RemInfo K)}
    (hc : CompSetting conf.usescaling A ord ordc gilu gy gscale st) (hk : 1 ≤ conf.nbuildsweeps) (hpat : SymPattern A) (hsym : SymEntries A)
    (h : scalarCompute isq conf A ord ordc gilu gy gscale st = .ok (inf, st')) {u : List K} (hu : st'.iluvals = some u) (hp : PivotsOk A u)
    {r s z w : List K} (hr : r.length = A.nbrows) (hs : s.length = A.nbrows) (hz : ScalarIluOutcome A u st'.scale r z)
    (hw : ScalarIluOutcome A u st'.scale s w) : inner1 A.nbrows s z = inner1 A.nbrows r w := by
  obtain ⟨_, hsc, u', hu', hl, hex, _⟩ := scalar_ilu_compute_exact hc hk h
  rw [hu] at hu'
  injection hu' with hu'
  subst hu'
  obtain ⟨_, v, h1, h2⟩ := hz.solved hc.full hc.sorted hc.diag hl hp hsc.length hr
  obtain ⟨_, v', h1', h2'⟩ := hw.solved hc.full hc.sorted hc.diag hl hp hsc.length hs
  exact scaled_sym (B := LinearMap.mul K K) (T := fun i x => scaleAt st'.scale i * x) mulForm_comm
    (luProd_sym hc.full hc.diag hpat hl mulForm_comm (symMat_scalar (scaledEntry_symm hsym)) hex hp)
    (fun i _ x y => by show _ * x * y = x * (_ * y); ring) h1 h2 h1' h2'

/-- **C73** If moreover the pivots are positive, the ILU(0) preconditioner is positive definite. -/
theorem ilu_apply_positive {isq : K → K} {conf : ILUConf} {A : SR K} {ord ordc : List Nat}
    {gilu gy gscale : List K} {st st' : ILUState K K} {inf : Option (RemInfo K)}
    (hc : CompSetting conf.usescaling A ord ordc gilu gy gscale st) (hk : 1 ≤ conf.nbuildsweeps)
    (hisq : conf.usescaling = true → ∀ i < A.nbrows, isq (A.entry i i) ≠ 0) (hpat : SymPattern A) (hsym : SymEntries A)
    (h : scalarCompute isq conf A ord ordc gilu gy gscale st = .ok (inf, st')) {u : List K} (hu : st'.iluvals = some u)
    (hpos : ∀ i < A.nbrows, 0 < upperFactor A u i i)
    {r z : List K} (hr : r.length = A.nbrows) (hz : ScalarIluOutcome A u st'.scale r z) (hne : ∃ i < A.nbrows, r⟦i⟧ ≠ 0) :
    0 < inner1 A.nbrows r z := by
  obtain ⟨_, hsc, u', hu', hl, hex, _⟩ := scalar_ilu_compute_exact hc hk h
  rw [hu] at hu'
  injection hu' with hu'
  subst hu'
  have hp : PivotsOk A u := fun i hi => isUnit_iff_ne_zero.mpr (hpos i hi).ne'
  obtain ⟨_, v, h1, h2⟩ := hz.solved hc.full hc.sorted hc.diag hl hp hsc.length hr
  refine scaled_pos (B := LinearMap.mul K K) (T := fun i x => scaleAt st'.scale i * x) mulForm_comm
    (luProd_pos hc.full hc.diag hpat hl mulForm_comm (symMat_scalar (scaledEntry_symm hsym)) hex hp fun i hi x hx => by
      show 0 < x * (upperFactor A u i i * x)
      rw [mul_left_comm]
      exact mul_pos (hpos i hi) (mul_self_pos.mpr hx))
    (fun i _ x y => by show _ * x * y = x * (_ * y); ring) (fun i hi x h0 => ?_) h1 h2 hne
  refine (mul_eq_zero.mp h0).resolve_left ?_
  rw [hsc.scaleAt hi]
  unfold scaleFac
  split
  · rename_i hus; exact hisq hus i hi
  · exact one_ne_zero

/-- **C73** For a symmetric (weighted) strictly diagonally dominant matrix with positive diagonal, `compute` does not break down and the ILU(0) preconditioner
is symmetric and positive definite. -/
theorem ilu_apply_spd_dominant {isq : K → K} {conf : ILUConf} {A : SR K} {ord ordc : List Nat}
    {gilu gy gscale : List K} {st st' : ILUState K K} {inf : Option (RemInfo K)}
    (hc : CompSetting conf.usescaling A ord ordc gilu gy gscale st) (hk : 1 ≤ conf.nbuildsweeps)
    (hisq : conf.usescaling = true → ∀ i < A.nbrows, isq (A.entry i i) ≠ 0) (hpat : SymPattern A) (hsym : SymEntries A)
    {d : Nat → K} {rho : K} (hdom : WDominant A.nbrows A.entry d rho) (h1 : rho < 1) (hdiag : ∀ i < A.nbrows, 0 < A.entry i i)
    (h : scalarCompute isq conf A ord ordc gilu gy gscale st = .ok (inf, st')) {u : List K} (hu : st'.iluvals = some u)
    {r s z w : List K} (hr : r.length = A.nbrows) (hs : s.length = A.nbrows) (hz : ScalarIluOutcome A u st'.scale r z)
    (hw : ScalarIluOutcome A u st'.scale s w) :
    inner1 A.nbrows s z = inner1 A.nbrows r w ∧ ((∃ i < A.nbrows, r⟦i⟧ ≠ 0) → 0 < inner1 A.nbrows r z) := by
  obtain ⟨_, hsc, u', hu', hl, hex, _⟩ := scalar_ilu_compute_exact hc hk h
  rw [hu] at hu'
  injection hu' with hu'
  subst hu'
  have hpos : ∀ i < A.nbrows, 0 < upperFactor A u i i := by
    intro i hi
    refine pivot_pos hc.full hc.diag hl (hdom.scaled (isq := isq) hisq) h1 hex hi ?_
    unfold scaledEntry
    rw [mul_right_comm]
    refine mul_pos (mul_self_pos.mpr ?_) (hdiag i hi)
    unfold scaleFac
    split
    · rename_i hus; exact hisq hus i hi
    · exact one_ne_zero
  exact ⟨ilu_apply_symmetric hc hk hpat hsym h hu (fun i hi => isUnit_iff_ne_zero.mpr (hpos i hi).ne') hr hs hz hw,
    ilu_apply_positive hc hk hisq hpat hsym h hu hpos hr hz⟩

end ilu

section blockilu
open scoped Matrix.Module
variable [Field K] {bs : Nat}

local notation "Blk" => Matrix (Fin bs) (Fin bs) K
local notation "Seg" => Fin bs → K

/-- The vector `z` is a result of applying the block ILU preconditioner with the stored array `ilu` to `r`: sequentially, with a level schedule, or asynchronously with at
least as many sweeps as block rows. -/
inductive BlockIluOutcome (A : SR Blk) (ilu : List Blk) (scale : Option (List K)) (r z : List Seg) : Prop
  | sequential (k : Nat) (hk : 1 ≤ k) (init : ApplyInit) (hi : init ≠ .none) (ord : Nat → List Nat)
      (hord : ∀ t, (ord t).Perm (List.range A.nbrows)) (z₀ y y' : List Seg) (hz : z₀.length = A.nbrows) (hy : y.length = A.nbrows)
      (h : blockIluApply A ilu scale k init ord r z₀ y = .ok (z, y'))
  | level (levels : List Nat) (hL : LevelsOk A levels) (mix : Set Seg → Set Seg) (hm : MixOk mix) (ord : Nat → List Nat)
      (hord : ∀ t, (ord t).Perm (List.range A.nbrows)) (z₀ y y' : List Seg) (hz : z₀.length = A.nbrows) (hy : y.length = A.nbrows)
      (h : AsyncLevelIluApply (unitLowerRow A ilu) (blockUpperRow A ilu) A.nbrows mix (scale.map (blockSeg bs)) levels ord r z₀ y z y')
  | async (k : Nat) (hk : A.nbrows ≤ k) (init : ApplyInit) (hi : init ≠ .none) (mix : Set Seg → Set Seg) (hm : MixOk mix)
      (ord : Nat → List Nat) (hord : ∀ t, (ord t).Perm (List.range A.nbrows)) (z₀ y y' : List Seg) (hz : z₀.length = A.nbrows)
      (hy : y.length = A.nbrows)
      (h : AsyncIluApply (unitLowerRow A ilu) (blockUpperRow A ilu) A.nbrows mix (scale.map (blockSeg bs)) k init ord r z₀ y z y')

theorem BlockIluOutcome.solved {A : SR Blk} (hA : A.Full) (hS : A.Sorted) (hD : A.HasDiag) {u ilu : List Blk} (hu : DiagInverted A u ilu)
    {scale : Option (List K)} (hs : ScaleLen scale (A.nbrows * bs)) {r z : List Seg} (hr : r.length = A.nbrows) (h : BlockIluOutcome A ilu scale r z) :
    BlockIluSolved A u scale r z := by
  cases h with
  | sequential k hk init hi ord hord z₀ y y' hz hy h =>
    obtain ⟨z₁, y₁, e, _, h1⟩ := block_ilu_apply_correct hA hS hD hu hs hk hi hord hr hz hy
    rw [e] at h
    injection h with h
    injection h with h3 _
    subst h3
    exact h1
  | level levels hL mix hm ord hord z₀ y y' hz hy h => exact block_ilu_apply_levels_async hA hS hD hu hs hL hm hord hr hz hy h
  | async k hk init hi mix hm ord hord z₀ y y' hz hy h => exact block_ilu_apply_async_exact hA hS hD hu hs hm hk hi hord hr hz hy h

theorem blockScaledEntry_symm {isq : K → K} {us : Bool} {A : SR Blk} (h : SymBlocks A) :
    ∀ i < A.nbrows, ∀ j < A.nbrows, blockScaledEntry isq us A i j = (blockScaledEntry isq us A j i).transpose := by
  intro i hi j hj
  ext a b
  show blockScaleFac isq us A i a * A.entry i j a b * blockScaleFac isq us A j b =
    blockScaleFac isq us A j b * A.entry j i b a * blockScaleFac isq us A i a
  rw [h i hi j hj, Matrix.transpose_apply]
  ring

theorem blockScaleAt_adj (scale : Option (List K)) (i : Nat) (x y : Seg) :
    segForm K bs (blockScaleAt scale i x) y = segForm K bs x (blockScaleAt scale i y) := by
  rw [segForm_apply, segForm_apply]
  unfold dotProduct blockScaleAt
  exact sum_congr rfl fun a _ => by ring

theorem BlockScaleIs.length {isq : K → K} {us : Bool} {A : SR Blk} {o : Option (List K)} (h : BlockScaleIs isq us A o) : ScaleLen o (A.nbrows * bs) := by
  unfold BlockScaleIs at h
  intro t ht
  split at h
  · obtain ⟨s, rfl, hl, _⟩ := h
    injection ht with ht
    rw [← ht]; exact hl
  · rw [h] at ht; cases ht

theorem BlockScaleIs.scaleAt {isq : K → K} {us : Bool} {A : SR Blk} {o : Option (List K)} (h : BlockScaleIs isq us A o) {i : Nat} (hi : i < A.nbrows) (a : Fin bs) :
    Blasted.scaleAt o (i * bs + a.val) = blockScaleFac isq us A i a := by
  unfold BlockScaleIs at h
  unfold Blasted.scaleAt blockScaleFac
  split at h
  · rename_i hu
    obtain ⟨s, rfl, _, hs⟩ := h
    rw [if_pos hu]; exact hs i hi a
  · rename_i hu
    rw [h, if_neg hu]

variable [LinearOrder K] [IsStrictOrderedRing K] [DecidableEq K]

omit [IsStrictOrderedRing K] in
/-- **C73**, block ILU(0): symmetric for a symmetric block matrix with symmetric sparsity pattern. -/
theorem block_ilu_apply_symmetric {isq : K → K} {conf : ILUConf} {A : SR Blk} {ord ord2 ordc : List Nat}
    {gilu gdblks : List Blk} {gscale : List K} {st st' : ILUState Blk K} {inf : Option (RemInfo K)}
    (hc : BlockSetting conf.usescaling A ord ord2 ordc gilu gdblks gscale st) (hk : 1 ≤ conf.nbuildsweeps) (hpat : SymPattern A) (hsym : SymBlocks A)
    (h : blockCompute isq conf A ord ord2 ordc gilu gdblks gscale st = .ok (inf, st')) {ilu : List Blk} (hu : st'.iluvals = some ilu)
    {r s z w : List Seg} (hr : r.length = A.nbrows) (hs : s.length = A.nbrows) (hz : BlockIluOutcome A ilu st'.scale r z)
    (hw : BlockIluOutcome A ilu st'.scale s w) : innerB A.nbrows s z = innerB A.nbrows r w := by
  obtain ⟨_, hsc, u, y, hy, hex, hp, hdi⟩ := block_ilu_compute_exact hc hk h
  rw [hu] at hy
  injection hy with hy
  subst hy
  obtain ⟨_, v, h1, h2⟩ := hz.solved hc.full hc.sorted hc.diag hdi hsc.length hr
  obtain ⟨_, v', h1', h2'⟩ := hw.solved hc.full hc.sorted hc.diag hdi hsc.length hs
  exact scaled_sym (B := segForm K bs) (T := blockScaleAt st'.scale) segForm_comm
    (luProd_sym hc.full hc.diag hpat hdi.len segForm_comm (symMat_block (blockScaledEntry_symm hsym)) hex hp)
    (fun i _ x y => blockScaleAt_adj _ i x y) h1 h2 h1' h2'

/-- **C73**, block ILU(0): positive definite if the stored inverses of the pivot blocks are. -/
theorem block_ilu_apply_positive {isq : K → K} {conf : ILUConf} {A : SR Blk} {ord ord2 ordc : List Nat}
    {gilu gdblks : List Blk} {gscale : List K} {st st' : ILUState Blk K} {inf : Option (RemInfo K)}
    (hc : BlockSetting conf.usescaling A ord ord2 ordc gilu gdblks gscale st) (hk : 1 ≤ conf.nbuildsweeps)
    (hisq : conf.usescaling = true → ∀ i < A.nbrows, ∀ a, isq (A.entry i i a a) ≠ 0) (hpat : SymPattern A) (hsym : SymBlocks A)
    (h : blockCompute isq conf A ord ord2 ordc gilu gdblks gscale st = .ok (inf, st')) {ilu : List Blk} (hu : st'.iluvals = some ilu)
    (hpos : ∀ i < A.nbrows, ∀ x : Seg, x ≠ 0 → 0 < x ⬝ᵥ (ilu⟦A.diagind⟦i⟧⟧).mulVec x)
    {r z : List Seg} (hr : r.length = A.nbrows) (hz : BlockIluOutcome A ilu st'.scale r z) (hne : ∃ i < A.nbrows, r⟦i⟧ ≠ 0) :
    0 < innerB A.nbrows r z := by
  obtain ⟨_, hsc, u, y, hy, hex, hp, hdi⟩ := block_ilu_compute_exact hc hk h
  rw [hu] at hy
  injection hy with hy
  subst hy
  obtain ⟨_, v, h1, h2⟩ := hz.solved hc.full hc.sorted hc.diag hdi hsc.length hr
  have hS := symMat_block (blockScaledEntry_symm (isq := isq) (us := conf.usescaling) hsym)
  refine scaled_pos (B := segForm K bs) (T := blockScaleAt st'.scale) segForm_comm
    (luProd_pos hc.full hc.diag hpat hdi.len segForm_comm hS hex hp fun i hi x hx => ?_)
    (fun i _ x y => blockScaleAt_adj _ i x y) (fun i hi x h0 => ?_) h1 h2 hne
  · have hkk := exact_adj hc.full hc.diag hpat hdi.len segForm_comm hS hex hp i i le_rfl hi
    rw [lowerFactor_self, one_mul] at hkk
    have hd := hdi.diag i hi
    rw [← upperFactor_diag hc.full hc.sorted hc.diag hdi.len hi] at hd
    exact inv_pos_def (Adj.inv hkk hd.1) (hpos i hi) hd.2 hx
  · funext a
    have h3 := congrFun h0 a
    unfold blockScaleAt at h3
    refine (mul_eq_zero.mp h3).resolve_left ?_
    rw [hsc.scaleAt hi a]
    unfold blockScaleFac
    split
    · rename_i hus; exact hisq hus i hi a
    · exact one_ne_zero

end blockilu

/-! ### Concrete cases -/

theorem exM_sym : SymEntries exM := by
  intro i hi j hj
  have h1 : i < 4 := hi
  have h2 : j < 4 := hj
  interval_cases i <;> interval_cases j <;> decide +kernel

theorem exM_pattern : SymPattern exM := by
  intro i hi j hj
  have h1 : i < 4 := hi
  have h2 : j < 4 := hj
  interval_cases i <;> interval_cases j <;> decide

/-- Every result of a computation that succeeds, from a check. -/
theorem exists_ok {α β : Type} {m : C (α × β)} (h : m.isOk = true) : ∃ a b, m = .ok (a, b) := by
  match m with
  | .ok (a, b) => exact ⟨a, b, rfl⟩
  | .error _ => exact Bool.noConfusion h

/-- Non-vacuity of the theorems on scalar ILU(0): the symmetric matrix `exM`, with scaling, two right-hand sides, and different ways of applying. -/
example : ∃ u z w : List ℚ, exMstate.iluvals = some u ∧ ScalarIluOutcome exM u exMstate.scale [1, 0, 2, 0] z ∧
    ScalarIluOutcome exM u exMstate.scale [0, 1, 0, -5] w ∧ inner1 4 [0, 1, 0, -5] z = inner1 4 [1, 0, 2, 0] w ∧ 0 < inner1 4 [1, 0, 2, 0] z := by
  have hu : exMstate.iluvals = some (exMstate.iluvals.getD []) := by decide +kernel
  obtain ⟨z, y', hz⟩ := exists_ok (m := scalarIluApply exM (exMstate.iluvals.getD []) exMstate.scale 1 .zero (fun _ => [3, 1, 2, 0])
    [1, 0, 2, 0] [7, 7, 7, 7] [9, 9, 9, 9]) (by decide +kernel)
  obtain ⟨w, y'', hw⟩ := exists_ok (m := scalarIluApply exM (exMstate.iluvals.getD []) exMstate.scale 2 .jacobi (fun _ => [0, 1, 2, 3])
    [0, 1, 0, -5] [7, 7, 7, 7] [9, 9, 9, 9]) (by decide +kernel)
  have hoz : ScalarIluOutcome exM (exMstate.iluvals.getD []) exMstate.scale [1, 0, 2, 0] z :=
    .sequential 1 le_rfl .zero (by decide) _ (fun _ => by decide) _ _ _ rfl rfl hz
  have how : ScalarIluOutcome exM (exMstate.iluvals.getD []) exMstate.scale [0, 1, 0, -5] w :=
    .sequential 2 (by decide) .jacobi (by decide) _ (fun _ => by decide) _ _ _ rfl rfl hw
  obtain ⟨h1, h2⟩ := ilu_apply_spd_dominant (conf := ⟨true, 2, .original, false⟩) (exM_setting true) (by decide)
    (fun _ i hi => inv_ne_zero (exM_dominant.diag i hi)) exM_pattern exM_sym exM_dominant (by norm_num) (by decide +kernel) exM_compute hu rfl rfl hoz how
  exact ⟨_, z, w, hu, hoz, how, h1, h2 ⟨0, by decide, by decide⟩⟩

theorem exM_diagInv : DiagInv exM [1/3, 1/2, 1/3, 1/2] := by
  constructor
  · rfl
  · intro i hi
    have h1 : i < 4 := hi
    interval_cases i <;> decide +kernel
  · intro i hi
    have h1 : i < 4 := hi
    interval_cases i <;> decide +kernel

/-- Non-vacuity of the theorems on scalar SGS. -/
example : ∃ z w : List ℚ, SgsOutcome exM [1/3, 1/2, 1/3, 1/2] [1, 0, 2, (0 : ℚ)] z ∧ SgsOutcome exM [1/3, 1/2, 1/3, 1/2] [0, 1, 0, (-5 : ℚ)] w ∧
    inner1 4 [0, 1, 0, (-5 : ℚ)] z = inner1 4 [1, 0, 2, (0 : ℚ)] w ∧ 0 < inner1 4 [1, 0, 2, (0 : ℚ)] z := by
  obtain ⟨z, y', hz⟩ := exists_ok (m := sgsApply exM [1/3, 1/2, 1/3, 1/2] 1 .zero (fun _ => [3, 1, 2, 0])
    [1, 0, 2, (0 : ℚ)] [7, 7, 7, 7] [9, 9, 9, 9]) (by decide +kernel)
  obtain ⟨w, y'', hw⟩ := exists_ok (m := sgsApply exM [1/3, 1/2, 1/3, 1/2] 2 .none (fun _ => [0, 1, 2, 3])
    [0, 1, 0, (-5 : ℚ)] [7, 7, 7, 7] [9, 9, 9, 9]) (by decide +kernel)
  have hoz : SgsOutcome exM [1/3, 1/2, 1/3, 1/2] [1, 0, 2, (0 : ℚ)] z := .sequential 1 le_rfl .zero _ (fun _ => by decide) _ _ _ rfl rfl hz
  have how : SgsOutcome exM [1/3, 1/2, 1/3, 1/2] [0, 1, 0, (-5 : ℚ)] w := .sequential 2 (by decide) .none _ (fun _ => by decide) _ _ _ rfl rfl hw
  have hs := exM_setting false
  exact ⟨z, w, hoz, how, sgs_apply_symmetric hs.full hs.sorted hs.diag exM_diagInv exM_sym rfl rfl hoz how,
    sgs_apply_positive hs.full hs.sorted hs.diag exM_diagInv exM_sym (by decide +kernel) rfl hoz ⟨0, by decide, by decide⟩⟩

/-- A symmetric block tridiagonal matrix with `2 × 2` blocks that do not commute; its off-diagonal blocks are not symmetric. -/
def exBS : SR (Matrix (Fin 2) (Fin 2) ℚ) :=
  { exB with vals := [mk2 4 1 1 3, mk2 1 0 2 1, mk2 1 2 0 1, mk2 9 1 1 8, mk2 1 1 0 1, mk2 1 0 1 1, mk2 5 2 2 4] }

theorem exBS_setting (us : Bool) : BlockSetting us exBS [2, 0, 1] [0, 1, 2] (List.range 7)
    (List.replicate 7 (mk2 7 7 7 7)) (List.replicate 3 (mk2 7 7 7 7)) (List.replicate 6 7) {} where
  full := by constructor <;> decide
  sorted := SR.sorted_of_check (by decide)
  diag := by constructor <;> decide
  ord_perm := by decide
  ord2_perm := by decide
  ordc_perm := by decide
  gilu_len := by decide
  gdblks_len := by decide
  gscale_len := by decide
  state := Or.inl rfl

theorem exBS_sym : SymBlocks exBS := by
  intro i hi j hj
  have h1 : i < 3 := hi
  have h2 : j < 3 := hj
  interval_cases i <;> interval_cases j <;> decide +kernel

theorem exBS_pattern : SymPattern exBS := by
  intro i hi j hj
  have h1 : i < 3 := hi
  have h2 : j < 3 := hj
  interval_cases i <;> interval_cases j <;> decide

/-- A symmetric `2 × 2` block with positive determinant and trace is positive definite. -/
theorem pos2 {g : Matrix (Fin 2) (Fin 2) ℚ} (h : g 1 0 = g 0 1) (h0 : 0 < g 0 0) (hd : g 0 1 * g 0 1 < g 0 0 * g 1 1) (x : Fin 2 → ℚ) (hx : x ≠ 0) :
    0 < x ⬝ᵥ g.mulVec x := by
  have e : x ⬝ᵥ g.mulVec x = (g 0 0 * x 0 + g 0 1 * x 1) ^ 2 / g 0 0 + (g 0 0 * g 1 1 - g 0 1 * g 0 1) / g 0 0 * x 1 ^ 2 := by
    simp only [dotProduct, Matrix.mulVec, Fin.sum_univ_two, h]
    field_simp
    ring
  rw [e]
  have hd' : 0 < (g 0 0 * g 1 1 - g 0 1 * g 0 1) / g 0 0 := div_pos (by linarith) h0
  by_cases h1 : x 1 = 0
  · have h2 : x 0 ≠ 0 := fun h2 => hx (funext fun a => by fin_cases a <;> assumption)
    rw [h1]
    have : 0 < (g 0 0 * x 0) ^ 2 := by positivity
    have := div_pos this h0
    simpa using this
  · have h3 : 0 < x 1 ^ 2 := by positivity
    have := mul_pos hd' h3
    have h4 : 0 ≤ (g 0 0 * x 0 + g 0 1 * x 1) ^ 2 / g 0 0 := div_nonneg (sq_nonneg _) h0.le
    linarith

/-- The state `compute` leaves for `exBS`. -/
def exBSstate : ILUState (Matrix (Fin 2) (Fin 2) ℚ) ℚ :=
  match blockCompute (fun x : ℚ => x⁻¹) ⟨true, 2, .original, false⟩ exBS [2, 0, 1] [0, 1, 2] (List.range 7)
    (List.replicate 7 (mk2 7 7 7 7)) (List.replicate 3 (mk2 7 7 7 7)) (List.replicate 6 7) {} with
  | .ok (_, st) => st
  | .error _ => {}

theorem exBS_compute : ∃ inf, blockCompute (fun x : ℚ => x⁻¹) ⟨true, 2, .original, false⟩ exBS [2, 0, 1] [0, 1, 2] (List.range 7)
    (List.replicate 7 (mk2 7 7 7 7)) (List.replicate 3 (mk2 7 7 7 7)) (List.replicate 6 7) {} = .ok (inf, exBSstate) := by
  obtain ⟨inf, st, e⟩ := exists_ok (m := blockCompute (fun x : ℚ => x⁻¹) ⟨true, 2, .original, false⟩ exBS [2, 0, 1] [0, 1, 2] (List.range 7)
    (List.replicate 7 (mk2 7 7 7 7)) (List.replicate 3 (mk2 7 7 7 7)) (List.replicate 6 7) {}) (by decide +kernel)
  refine ⟨inf, ?_⟩
  unfold exBSstate
  rw [e]

/-- Non-vacuity of the theorems on block ILU(0), with scaling. -/
example : ∃ ilu z w, exBSstate.iluvals = some ilu ∧ BlockIluOutcome exBS ilu exBSstate.scale [![1, 0], ![2, 1], ![0, 3]] z ∧
    BlockIluOutcome exBS ilu exBSstate.scale [![0, 1], ![1, 1], ![-5, 1]] w ∧
    innerB 3 [![0, 1], ![1, 1], ![-5, 1]] z = innerB 3 [![1, 0], ![2, 1], ![0, 3]] w ∧ 0 < innerB 3 [![1, 0], ![2, 1], ![0, 3]] z := by
  obtain ⟨inf, hcomp⟩ := exBS_compute
  have hu : exBSstate.iluvals = some (exBSstate.iluvals.getD []) := by decide +kernel
  obtain ⟨z, y', hz⟩ := exists_ok (m := blockIluApply exBS (exBSstate.iluvals.getD []) exBSstate.scale 1 .zero (fun _ => [1, 2, 0])
    [![1, 0], ![2, 1], ![0, 3]] [![7, 7], ![7, 7], ![7, 7]] [![7, 7], ![7, 7], ![7, 7]]) (by decide +kernel)
  obtain ⟨w, y'', hw⟩ := exists_ok (m := blockIluApply exBS (exBSstate.iluvals.getD []) exBSstate.scale 2 .jacobi (fun _ => [0, 1, 2])
    [![0, 1], ![1, 1], ![-5, 1]] [![7, 7], ![7, 7], ![7, 7]] [![7, 7], ![7, 7], ![7, 7]]) (by decide +kernel)
  have hoz : BlockIluOutcome exBS (exBSstate.iluvals.getD []) exBSstate.scale [![1, 0], ![2, 1], ![0, 3]] z :=
    .sequential 1 le_rfl .zero (by decide) _ (fun _ => by decide) _ _ _ rfl rfl hz
  have how : BlockIluOutcome exBS (exBSstate.iluvals.getD []) exBSstate.scale [![0, 1], ![1, 1], ![-5, 1]] w :=
    .sequential 2 (by decide) .jacobi (by decide) _ (fun _ => by decide) _ _ _ rfl rfl hw
  refine ⟨_, z, w, hu, hoz, how, block_ilu_apply_symmetric (conf := ⟨true, 2, .original, false⟩) (exBS_setting true) (by decide) exBS_pattern exBS_sym hcomp hu rfl rfl
    hoz how, block_ilu_apply_positive (conf := ⟨true, 2, .original, false⟩) (exBS_setting true) (by decide) (fun _ i hi a => ?_) exBS_pattern exBS_sym hcomp hu
    (fun i hi x hx => ?_) rfl hoz ⟨0, by decide, fun h => ?_⟩⟩
  · have h1 : i < 3 := hi
    interval_cases i <;> fin_cases a <;> decide +kernel
  · have h1 : i < 3 := hi
    interval_cases i
    all_goals exact pos2 (by decide +kernel) (by decide +kernel) (by decide +kernel) x hx
  · have := congrFun h 0
    exact absurd this (by decide +kernel)

/-! ### What fails -/

/-- Kershaw's matrix. -/
def exKershaw : SR ℚ := { exQ with vals := [3, -2, 2, -2, 3, -2, -2, 3, -2, 2, -2, 3] }

theorem exKershaw_setting (us : Bool) : CompSetting us exKershaw [2, 0, 1, 3] (List.range 12)
    (List.replicate 12 7) (List.replicate 4 7) (List.replicate 4 7) {} where
  full := by constructor <;> decide
  sorted := SR.sorted_of_check (by decide)
  diag := by constructor <;> decide
  ord_perm := by decide
  ordc_perm := by decide
  gilu_len := by decide
  gy_len := by decide
  gscale_len := by decide
  state := Or.inl rfl

theorem exKershaw_sym : SymEntries exKershaw := by
  intro i hi j hj
  have h1 : i < 4 := hi
  have h2 : j < 4 := hj
  interval_cases i <;> interval_cases j <;> decide +kernel

theorem exKershaw_pos : PosEntries exKershaw := by
  rintro x ⟨i, hi, hne⟩
  have e : ∑ i ∈ range 4, ∑ j ∈ range 4, x i * exKershaw.entry i j * x j =
      3 * (x 0 - 2/3 * x 1 + 2/3 * x 3) ^ 2 + 5/3 * (x 1 - 6/5 * x 2 + 4/5 * x 3) ^ 2 + 3/5 * (x 2 - 2/3 * x 3) ^ 2 + 1/3 * x 3 ^ 2 := by
    simp only [sum_range_succ, sum_range_zero,
      show exKershaw.entry 0 0 = 3 by decide +kernel, show exKershaw.entry 0 1 = -2 by decide +kernel, show exKershaw.entry 0 2 = 0 by decide +kernel,
      show exKershaw.entry 0 3 = 2 by decide +kernel, show exKershaw.entry 1 0 = -2 by decide +kernel, show exKershaw.entry 1 1 = 3 by decide +kernel,
      show exKershaw.entry 1 2 = -2 by decide +kernel, show exKershaw.entry 1 3 = 0 by decide +kernel, show exKershaw.entry 2 0 = 0 by decide +kernel,
      show exKershaw.entry 2 1 = -2 by decide +kernel, show exKershaw.entry 2 2 = 3 by decide +kernel, show exKershaw.entry 2 3 = -2 by decide +kernel,
      show exKershaw.entry 3 0 = 2 by decide +kernel, show exKershaw.entry 3 1 = 0 by decide +kernel, show exKershaw.entry 3 2 = -2 by decide +kernel,
      show exKershaw.entry 3 3 = 3 by decide +kernel]
    ring
  show 0 < ∑ i ∈ range 4, ∑ j ∈ range 4, x i * exKershaw.entry i j * x j
  rw [e]
  by_contra hc
  have h3 : x 3 = 0 := by nlinarith [sq_nonneg (x 0 - 2/3 * x 1 + 2/3 * x 3), sq_nonneg (x 1 - 6/5 * x 2 + 4/5 * x 3), sq_nonneg (x 2 - 2/3 * x 3), sq_nonneg (x 3)]
  have h2 : x 2 = 0 := by
    rw [h3] at hc
    nlinarith [sq_nonneg (x 0 - 2/3 * x 1 + 2/3 * 0), sq_nonneg (x 1 - 6/5 * x 2 + 4/5 * 0), sq_nonneg (x 2)]
  have h1 : x 1 = 0 := by
    rw [h3, h2] at hc
    nlinarith [sq_nonneg (x 0 - 2/3 * x 1 + 2/3 * 0), sq_nonneg (x 1)]
  have h0 : x 0 = 0 := by
    rw [h3, h2, h1] at hc
    nlinarith [sq_nonneg (x 0)]
  have h4 : i < 4 := hi
  interval_cases i <;> exact hne (by assumption)

/-- **C73**, finding: for a matrix that is symmetric positive definite but not dominant the ILU(0) preconditioner need not be positive definite: for Kershaw's matrix
`compute` succeeds without any warning, and `(r, z(r))` is negative for the residual `r = (0, 0, 0, 1)`. -/
theorem ilu_apply_indefinite : SymEntries exKershaw ∧ PosEntries exKershaw ∧ ∃ st' u z,
    scalarCompute (fun x : ℚ => x) ⟨false, 1, .original, false⟩ exKershaw [2, 0, 1, 3] (List.range 12)
      (List.replicate 12 7) (List.replicate 4 7) (List.replicate 4 7) {} = .ok (none, st') ∧ st'.iluvals = some u ∧
    ScalarIluOutcome exKershaw u st'.scale [0, 0, 0, 1] z ∧ inner1 4 [0, 0, 0, 1] z < 0 := by
  obtain ⟨inf, st', e⟩ := exists_ok (m := scalarCompute (fun x : ℚ => x) ⟨false, 1, .original, false⟩ exKershaw [2, 0, 1, 3] (List.range 12)
      (List.replicate 12 7) (List.replicate 4 7) (List.replicate 4 7) {}) (by decide +kernel)
  have h1 : (scalarCompute (fun x : ℚ => x) ⟨false, 1, .original, false⟩ exKershaw [2, 0, 1, 3] (List.range 12)
      (List.replicate 12 7) (List.replicate 4 7) (List.replicate 4 7) {}).map (fun p => (p.1.isNone, p.2.scale, p.2.iluvals)) =
      .ok (true, none, some [3, -2, 2, -2/3, 5/3, -2, -6/5, 3/5, -2, 2/3, -10/3, -5]) := by decide +kernel
  rw [e] at h1
  injection h1 with h1
  injection h1 with h1 h2
  injection h2 with h2 h3
  dsimp only at h1 h2 h3
  obtain rfl : inf = none := by cases inf with
    | none => rfl
    | some _ => cases h1
  have h4 : scalarIluApply exKershaw [(3 : ℚ), -2, 2, -2/3, 5/3, -2, -6/5, 3/5, -2, 2/3, -10/3, -5] none 1 .zero (fun _ => [0, 1, 2, 3])
      [0, 0, 0, (1 : ℚ)] [7, 7, 7, 7] [9, 9, 9, 9] = .ok ([-2/5, -4/5, -2/3, -1/5], [0, 0, 0, 1]) := by decide +kernel
  refine ⟨exKershaw_sym, exKershaw_pos, st', _, [-2/5, -4/5, -2/3, -1/5], e, h3, ?_, ?_⟩
  · rw [h2]
    exact .sequential 1 le_rfl .zero (by decide) _ (fun _ => by decide) _ _ _ rfl rfl h4
  · decide +kernel

/-- A symmetric positive definite matrix with two rows. -/
def exS2 : SR ℚ :=
  { browptr := [0, 2, 4], bcolind := [0, 1, 0, 1], vals := [2, 1, 1, 2], diagind := [0, 3],
    browendptr := [2, 4], nbrows := 2, nnzb := 4, nbstored := 4 }

/-- **C73**, finding: with fewer asynchronous sweeps than rows the SGS preconditioner is not symmetric. For the matrix `[2 1; 1 2]` and one sweep, there are executions
for `r = (1, 0)` and `s = (0, 1)`, with the same schedule, for which `(s, z(r)) = -1/4` and `(r, z(s)) = 0`. -/
theorem sgs_apply_async_unsymmetric : SymEntries exS2 ∧ DiagInv exS2 [1/2, 1/2] ∧
    AsyncSgsApply exS2 [1/2, 1/2] mixWhole 1 .zero (fun _ => [0, 1]) [1, (0 : ℚ)] [7, 7] [7, 7] [1/2, -1/4] [1/2, -1/4] ∧
    AsyncSgsApply exS2 [1/2, 1/2] mixWhole 1 .zero (fun _ => [0, 1]) [0, (1 : ℚ)] [7, 7] [7, 7] [0, 1/2] [0, 1/2] ∧
    inner1 2 [0, 1] [1/2, -1/4] ≠ inner1 2 [1, 0] [0, (1/2 : ℚ)] := by
  have run : ∀ y' v : List ℚ, v.length = 2 → (∀ i < 2, bgsRow exS2 [1/2, 1/2] y' i (readView 2 fun _ => 0) = .ok v⟦i⟧) →
      ARun (bgsRow exS2 [1/2, 1/2] y') mixWhole 1 [0, 0] v := by
    intro y' v hv h
    refine ⟨_, _, .first (.simultaneous (n := 2) (fun _ => subset_rfl) (view := fun _ => 0) (v := get0 v) (fun j hj => ?_) (fun i hi => Or.inl (h i hi)) 2 le_rfl)
      (covers_range _), ?_⟩
    · interval_cases j <;> rfl
    · rw [applyLog_range (n := 2) rfl]
      exact (ext_get0 (by simp [hv]) fun i hi => by rw [get0_map_range _ (by simpa [hv] using hi)]).symm
  refine ⟨?_, ?_, ⟨[0, 0], [0, 0], by decide +kernel, by decide +kernel, by decide +kernel, run _ _ rfl ?_⟩,
    ⟨[0, 0], [0, 0], by decide +kernel, by decide +kernel, by decide +kernel, run _ _ rfl ?_⟩, by decide +kernel⟩
  · intro i hi j hj
    have h1 : i < 2 := hi
    have h2 : j < 2 := hj
    interval_cases i <;> interval_cases j <;> decide +kernel
  · constructor
    · rfl
    · intro i hi
      have h1 : i < 2 := hi
      interval_cases i <;> decide +kernel
    · intro i hi
      have h1 : i < 2 := hi
      interval_cases i <;> decide +kernel
  · decide +kernel
  · decide +kernel

end Blasted
