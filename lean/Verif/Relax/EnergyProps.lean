import Mathlib.LinearAlgebra.Matrix.NonsingularInverse
import Mathlib.LinearAlgebra.Matrix.ToLinearEquiv
import Verif.Async.Simultaneous
import Verif.Base.Dot
import Verif.Relax.PetscProps
import Verif.Solve.SymProps

/-!
# Relaxations of symmetric positive definite matrices (C74)

The specification is the energy of the error, `(x - s, A (x - s))`, for an inner product of vectors.
-/

namespace Blasted

open Finset

variable {R M K : Type}

section energy
variable [Ring R] [AddCommGroup M] [Module R M] [Field K] [Module K M]

/-- The energy `(x - s, A (x - s))` of the difference of `x` and `s`. -/
def energyErr (B : LinearMap.BilinForm K M) (A : SR R) (s x : Nat → M) : K :=
  vdot B A.nbrows (fun i => x i - s i) (mulV A.nbrows A.entry (fun i => x i - s i))

/-- The sum of `(y_i - x_i, A_ii (y_i - x_i))` over the rows. -/
def energyDrop (B : LinearMap.BilinForm K M) (A : SR R) (x y : Nat → M) : K :=
  ∑ i ∈ range A.nbrows, B (y i - x i) (A.entry i i • (y i - x i))

omit [Ring R] [AddCommGroup M] [Module R M] [Module K M] in
/-- Twice the sum of one triangle of a symmetric array, with its diagonal. -/
theorem two_triangle {n : Nat} {f : Nat → Nat → K} (hf : ∀ i < n, ∀ j < n, f i j = f j i) {le : Nat → Nat → Prop} [DecidableRel le]
    (hle : ∀ i j, i ≠ j → (le i j ↔ ¬ le j i)) (hrefl : ∀ i, le i i) :
    2 * ∑ i ∈ range n, ∑ j ∈ range n, (if le j i then f i j else 0) =
      ∑ i ∈ range n, ∑ j ∈ range n, f i j + ∑ i ∈ range n, f i i := by
  have h1 : ∑ i ∈ range n, ∑ j ∈ range n, (if le j i then f i j else 0) =
      ∑ i ∈ range n, ∑ j ∈ range n, (if le i j then f i j else 0) := by
    rw [sum_comm]
    refine sum_congr rfl fun i hi => sum_congr rfl fun j hj => ?_
    rw [hf j (mem_range.mp hj) i (mem_range.mp hi)]
  have h2 : ∑ i ∈ range n, f i i = ∑ i ∈ range n, ∑ j ∈ range n, (if j = i then f i j else 0) := by
    refine sum_congr rfl fun i hi => ?_
    rw [sum_ite_eq' (range n) i (fun j => f i j), if_pos hi]
  rw [two_mul]
  conv_lhs => rw [h1]; arg 1; rw [← h1]
  rw [h2, ← sum_add_distrib, ← sum_add_distrib]
  refine sum_congr rfl fun i _ => ?_
  rw [← sum_add_distrib, ← sum_add_distrib]
  refine sum_congr rfl fun j _ => ?_
  by_cases hij : j = i
  · subst hij
    rw [if_pos (hrefl j), if_pos rfl]
  · rw [if_neg hij]
    have := hle i j (fun h => hij h.symm)
    by_cases h : le i j
    · rw [if_pos h, if_neg (this.mp h), zero_add, add_zero]
    · rw [if_neg h, if_pos (by by_contra h'; exact h (this.mpr h'))]

variable {B : LinearMap.BilinForm K M} {A : SR R} {b : List M} {s x y : Nat → M}

/-- The change of the energy by a step `d = y - x` with `T d = b - A x`, where `T` is a triangle of `A` with the diagonal. -/
theorem triangle_energy (hB : ∀ x y, B x y = B y x) (hsym : SymMat B A.nbrows A.entry) (hs : Solves A b s)
    {le : Nat → Nat → Prop} [DecidableRel le] (hle : ∀ i j, i ≠ j → (le i j ↔ ¬ le j i)) (hrefl : ∀ i, le i i)
    (h : ∀ i < A.nbrows, ∑ j ∈ range A.nbrows, (if le j i then A.entry i j • y j else A.entry i j • x j) = b⟦i⟧) :
    (∀ i < A.nbrows, mulV A.nbrows A.entry (fun j => x j - s j) i =
      - mulV A.nbrows (fun i j => if le j i then A.entry i j else 0) (fun j => y j - x j) i) ∧
    energyErr B A s y = energyErr B A s x - energyDrop B A x y := by
  set n := A.nbrows with hn
  have hT : ∀ i < n, mulV n A.entry (fun j => x j - s j) i =
      - mulV n (fun i j => if le j i then A.entry i j else 0) (fun j => y j - x j) i := by
    intro i hi
    have h1 := h i hi
    have h2 := hs i hi
    rw [← h2] at h1
    unfold mulV
    rw [eq_neg_iff_add_eq_zero, ← sum_add_distrib, ← sub_eq_zero.mpr h1, ← sum_sub_distrib]
    refine sum_congr rfl fun j _ => ?_
    dsimp only
    split
    · rw [smul_sub, smul_sub]; abel
    · rw [smul_sub, zero_smul]; abel
  refine ⟨hT, ?_⟩
  have e1 : energyErr B A s y = energyErr B A s x + 2 * vdot B n (fun j => y j - x j) (mulV n A.entry (fun j => x j - s j)) +
      vdot B n (fun j => y j - x j) (mulV n A.entry (fun j => y j - x j)) := by
    have hy : ∀ i < n, y i - s i = (x i - s i) + (y i - x i) := fun i _ => by abel
    unfold energyErr
    rw [← hn, vdot_congr hy (fun i hi => mulV_congr hy i), vdot_add_left,
      vdot_congr (x := fun i => x i - s i) (fun i _ => rfl) (fun i _ => mulV_add _ _ i),
      vdot_congr (x := fun i => y i - x i) (fun i _ => rfl) (fun i _ => mulV_add _ _ i), vdot_add_right, vdot_add_right,
      ← hsym.vdot (fun i => x i - s i) (fun i => y i - x i), vdot_comm hB (mulV n A.entry fun i => x i - s i)]
    ring
  rw [e1, vdot_congr (fun i _ => rfl) hT, vdot_neg_right]
  have e2 := two_triangle (n := n) (f := fun i j => B (y i - x i) (A.entry i j • (y j - x j))) (fun i hi j hj => by
    rw [← hsym j hj i hi, hB]) hle hrefl
  have e3 : vdot B n (fun j => y j - x j) (mulV n (fun i j => if le j i then A.entry i j else 0) (fun j => y j - x j)) =
      ∑ i ∈ range n, ∑ j ∈ range n, (if le j i then B (y i - x i) (A.entry i j • (y j - x j)) else 0) := by
    rw [vdot_mulV]
    refine sum_congr rfl fun i _ => sum_congr rfl fun j _ => ?_
    split
    · rfl
    · rw [zero_smul, map_zero]
  rw [e3, vdot_mulV]
  unfold energyDrop
  rw [← hn]
  linear_combination -e2

/-- **C74** A Gauss-Seidel sweep reduces the energy of the error by the sum of `(d_i, A_ii d_i)`, `d` the change of the vector. -/
theorem forward_energy (hB : ∀ x y, B x y = B y x) (hsym : SymMat B A.nbrows A.entry) (hs : Solves A b s) (h : ForwardGS A b x y) :
    energyErr B A s y = energyErr B A s x - energyDrop B A x y :=
  (triangle_energy (le := fun j i => j ≤ i) hB hsym hs (fun i j _ => by omega) (fun i => le_rfl) h).2

theorem backward_energy (hB : ∀ x y, B x y = B y x) (hsym : SymMat B A.nbrows A.entry) (hs : Solves A b s) (h : BackwardGS A b x y) :
    energyErr B A s y = energyErr B A s x - energyDrop B A x y :=
  (triangle_energy (le := fun j i => i ≤ j) hB hsym hs (fun i j _ => by omega) (fun i => le_rfl) h).2

section order
variable [LinearOrder K] [IsStrictOrderedRing K]

omit [IsStrictOrderedRing K] in
/-- The diagonal entries of a positive definite matrix are positive definite. -/
theorem PosMat.diag (hpos : PosMat B A.nbrows A.entry) {i : Nat} (hi : i < A.nbrows) {v : M} (hv : v ≠ 0) : 0 < B v (A.entry i i • v) := by
  classical
  have h := hpos (fun j => if j = i then v else 0) ⟨i, hi, by simpa using hv⟩
  rw [vdot_mulV, sum_eq_single i (fun j _ hj => by simp [hj]) (fun h => absurd (mem_range.mpr hi) h),
    sum_eq_single i (fun j _ hj => by simp [hj]) (fun h => absurd (mem_range.mpr hi) h)] at h
  simpa using h

omit [IsStrictOrderedRing K] in
theorem PosMat.diag_nonneg (hpos : PosMat B A.nbrows A.entry) {i : Nat} (hi : i < A.nbrows) (v : M) : 0 ≤ B v (A.entry i i • v) := by
  by_cases hv : v = 0
  · subst hv; simp
  · exact (hpos.diag hi hv).le

theorem PosMat.drop_nonneg (hpos : PosMat B A.nbrows A.entry) (x y : Nat → M) : 0 ≤ energyDrop B A x y :=
  sum_nonneg fun _ hi => hpos.diag_nonneg (mem_range.mp hi) _

/-- No change of the energy, no change of the vector. -/
theorem PosMat.drop_pos (hpos : PosMat B A.nbrows A.entry) {x y : Nat → M} (h : ∃ i < A.nbrows, x i ≠ y i) : 0 < energyDrop B A x y := by
  obtain ⟨i, hi, hne⟩ := h
  exact sum_pos' (fun j hj => hpos.diag_nonneg (mem_range.mp hj) _) ⟨i, mem_range.mpr hi, hpos.diag hi (sub_ne_zero.mpr hne.symm)⟩

omit [IsStrictOrderedRing K] in
theorem PosMat.energy_nonneg (hpos : PosMat B A.nbrows A.entry) (s x : Nat → M) : 0 ≤ energyErr B A s x := by
  by_cases h : ∃ i < A.nbrows, x i - s i ≠ 0
  · exact (hpos _ h).le
  · push Not at h
    unfold energyErr
    rw [vdot_congr h (fun _ _ => rfl)]
    simp [vdot]

variable [SMulCommClass R K M] [FiniteDimensional K M]

/-- A sweep with a triangle contracts the energy of the error, by a factor that depends on the matrix only. -/
theorem triangle_contracts (hB : ∀ x y, B x y = B y x) (hsym : SymMat B A.nbrows A.entry) (hpos : PosMat B A.nbrows A.entry)
    {le : Nat → Nat → Prop} [DecidableRel le] (hle : ∀ i j, i ≠ j → (le i j ↔ ¬ le j i)) (hrefl : ∀ i, le i i) :
    ∃ c : K, 0 ≤ c ∧ c < 1 ∧ ∀ (b : List M) (s x y : Nat → M), Solves A b s →
      (∀ i < A.nbrows, ∑ j ∈ range A.nbrows, (if le j i then A.entry i j • y j else A.entry i j • x j) = b⟦i⟧) →
      energyErr B A s y ≤ c * energyErr B A s x := by
  obtain ⟨c, hc, hb⟩ := energy_bound hpos hB (fun i => A.entry i i) (fun i hi v hv => hpos.diag hi hv)
    (fun i hi u v => hsym i hi i hi u v) (fun i j => if le j i then A.entry i j else 0)
  have hc1 : (0 : K) < c + 1 := by linarith
  refine ⟨c / (c + 1), div_nonneg hc hc1.le, (div_lt_one hc1).mpr (by linarith), fun b s x y hs h => ?_⟩
  obtain ⟨h1, h2⟩ := triangle_energy hB hsym hs hle hrefl h
  have h3 : energyErr B A s x ≤ c * energyDrop B A x y := hb _ _ h1
  have h4 := hpos.energy_nonneg s x
  have h5 := hpos.drop_nonneg x y
  rw [h2, div_mul_eq_mul_div, le_div_iff₀ hc1]
  have : (energyErr B A s x - energyDrop B A x y) * (c + 1) =
      c * energyErr B A s x + (energyErr B A s x - c * energyDrop B A x y) - energyDrop B A x y := by ring
  rw [this]
  linarith

/-- **C74** For a symmetric positive definite matrix every Gauss-Seidel sweep, forward or backward, multiplies the energy of the error by at most a factor less
than one, which depends on the matrix only. -/
theorem gs_contracts (hB : ∀ x y, B x y = B y x) (hsym : SymMat B A.nbrows A.entry) (hpos : PosMat B A.nbrows A.entry) :
    ∃ c : K, 0 ≤ c ∧ c < 1 ∧ ∀ (b : List M) (s x y : Nat → M), Solves A b s → (ForwardGS A b x y ∨ BackwardGS A b x y) →
      energyErr B A s y ≤ c * energyErr B A s x := by
  obtain ⟨c, hc, hc1, h⟩ := triangle_contracts hB hsym hpos (le := fun j i => j ≤ i) (fun i j _ => by omega) (fun i => le_rfl)
  obtain ⟨c', hc', hc1', h'⟩ := triangle_contracts hB hsym hpos (le := fun j i => i ≤ j) (fun i j _ => by omega) (fun i => le_rfl)
  refine ⟨max c c', le_max_of_le_left hc, max_lt hc1 hc1', fun b s x y hs hgs => ?_⟩
  have h4 := hpos.energy_nonneg s x
  rcases hgs with hgs | hgs
  · exact (h b s x y hs hgs).trans (mul_le_mul_of_nonneg_right (le_max_left _ _) h4)
  · exact (h' b s x y hs hgs).trans (mul_le_mul_of_nonneg_right (le_max_right _ _) h4)

/-! ### The programs -/

/-- The outcomes of `k` steps of the relaxations that are executed as Gauss-Seidel sweeps: with one thread, or level-scheduled with any schedule. -/
inductive GSRelaxed (A : SR R) (dinv : List R) (k : Nat) (b x x' : List M) : Prop
  | chaotic (h : chaoticRelax A dinv k b x = .ok x')
  | sgs (h : sgsRelax A dinv k b x = .ok x')
  | level (levels : List Nat) (hL : LevelsOk A levels) (mix : Set M → Set M) (hm : MixOk mix)
      (h : AsyncLevelSgsRelax A dinv mix levels b k x x')

omit [Field K] [Module K M] [LinearOrder K] [IsStrictOrderedRing K] [SMulCommClass R K M] [FiniteDimensional K M] in
theorem GSRelaxed.sweeps (hA : A.Full) (hS : A.Sorted) (hD : A.HasDiag) {dinv : List R} (hI : DiagInv A dinv) (hb : b.length = A.nbrows) {k : Nat} {x x' : List M}
    (hx : x.length = A.nbrows) (h : GSRelaxed A dinv k b x x') :
    x'.length = A.nbrows ∧ (ForwardGSs A b k (get0 x) (get0 x') ∨ SymmetricGSs A b k (get0 x) (get0 x')) := by
  cases h with
  | chaotic h =>
    obtain ⟨y, e, h1, h2⟩ := chaotic_relax_correct hA hS hD hI hb k hx
    rw [e] at h
    injection h with h
    subst h
    exact ⟨h1, .inl h2⟩
  | sgs h =>
    obtain ⟨y, e, h1, h2⟩ := sgs_relax_correct hA hS hD hI hb k hx
    rw [e] at h
    injection h with h
    subst h
    exact ⟨h1, .inr h2⟩
  | level levels hL mix hm h =>
    obtain ⟨h1, h2⟩ := level_sgs_relax_async hA hS hD hI hb hL hm hx h
    exact ⟨h1, .inr h2⟩

/-- Sweeps contract the energy of the error. -/
theorem gs_sweeps_converge (hB : ∀ x y, B x y = B y x)
    (hsym : SymMat B A.nbrows A.entry) (hpos : PosMat B A.nbrows A.entry) :
    ∃ c C : K, 0 ≤ c ∧ c < 1 ∧ 0 ≤ C ∧ ∀ (b : List M) (x x' : Nat → M) (s : Nat → M) (k : Nat), Solves A b s →
      (ForwardGSs A b k x x' ∨ SymmetricGSs A b k x x') → energyErr B A s x' ≤ c ^ k * energyErr B A s x ∧
        ∑ i ∈ range A.nbrows, B (x' i - s i) (x' i - s i) ≤ C * c ^ k * energyErr B A s x := by
  obtain ⟨c, hc, hc1, hcon⟩ := gs_contracts hB hsym hpos
  obtain ⟨C, hC, hnorm⟩ := norm_bound hpos hsym hB
  refine ⟨c, C, hc, hc1, hC, fun b x x' s k hs hsw => ?_⟩
  have key : energyErr B A s x' ≤ c ^ k * energyErr B A s x := by
    rcases hsw with hsw | hsw
    · induction hsw with
      | zero => simp
      | @succ k u v w h1 h2 ih =>
        calc energyErr B A s w ≤ c * energyErr B A s v := hcon b s v w hs (.inl h2)
          _ ≤ c * (c ^ k * energyErr B A s u) := mul_le_mul_of_nonneg_left ih hc
          _ = c ^ (k + 1) * energyErr B A s u := by ring
    · induction hsw with
      | zero => simp
      | @succ k u v z w h1 h2 h3 ih =>
        calc energyErr B A s w ≤ c * energyErr B A s z := hcon b s z w hs (.inr h3)
          _ ≤ c * (c * energyErr B A s v) := mul_le_mul_of_nonneg_left (hcon b s v z hs (.inl h2)) hc
          _ ≤ 1 * (c * energyErr B A s v) := mul_le_mul_of_nonneg_right hc1.le (mul_nonneg hc (hpos.energy_nonneg _ _))
          _ ≤ 1 * (c * (c ^ k * energyErr B A s u)) := by
            rw [one_mul, one_mul]; exact mul_le_mul_of_nonneg_left ih hc
          _ = c ^ (k + 1) * energyErr B A s u := by ring
  refine ⟨key, (hnorm _).trans ?_⟩
  rw [mul_assoc]
  exact mul_le_mul_of_nonneg_left key hC

/-! ### The iteration preconditioned with SGS -/

omit [Field K] [Module K M] [LinearOrder K] [IsStrictOrderedRing K] [SMulCommClass R K M] [FiniteDimensional K M] in
/-- `k` steps of the iteration that corrects `x` by the residual preconditioned with SGS. -/
inductive SgsIteration (A : SR R) (dinv : List R) (b : List M) : Nat → List M → List M → Prop
  | zero (x : List M) : SgsIteration A dinv b 0 x x
  | succ {k : Nat} {x y r z : List M} (prev : SgsIteration A dinv b k x y) (hr : r.length = A.nbrows)
      (hres : ∀ i < A.nbrows, r⟦i⟧ = b⟦i⟧ - ∑ j ∈ range A.nbrows, A.entry i j • y⟦j⟧) (hz : SgsOutcome A dinv r z) :
      SgsIteration A dinv b (k + 1) x (List.zipWith (· + ·) y z)

omit [SMulCommClass R K M] [FiniteDimensional K M] in
/-- A step of the preconditioned iteration is a symmetric sweep. -/
theorem sgs_step_sweep (hA : A.Full) (hS : A.Sorted) (hD : A.HasDiag) {dinv : List R} (hI : DiagInv A dinv) (hB : ∀ x y, B x y = B y x)
    (hsym : SymMat B A.nbrows A.entry) (hpos : PosMat B A.nbrows A.entry) (hb : b.length = A.nbrows) {y r z : List M} (hy : y.length = A.nbrows)
    (hr : r.length = A.nbrows) (hres : ∀ i < A.nbrows, r⟦i⟧ = b⟦i⟧ - ∑ j ∈ range A.nbrows, A.entry i j • y⟦j⟧) (hz : SgsOutcome A dinv r z) :
    ∃ v w : Nat → M, ForwardGS A b (get0 y) v ∧ BackwardGS A b v w ∧ z.length = A.nbrows ∧ ∀ i < A.nbrows, w i = y⟦i⟧ + z⟦i⟧ := by
  obtain ⟨x', _, _, h1⟩ := sgs_relax_correct hA hS hD hI hb 1 hy
  obtain ⟨hzl, hzs⟩ := hz.solved hA hS hD hI hr
  cases h1 with
  | @succ _ _ v w _ h0 hf hb' =>
    cases h0
    refine ⟨_, _, hf, hb', hzl, ?_⟩
    have h2 := symmetric_sweep hA hS hD hI hf hb'
    have hP := sgsMat_pos hB hsym hI (fun i hi x hx => hpos.diag hi hx)
    have h3 : ∀ i < A.nbrows, mulV A.nbrows (sgsMat A dinv) (fun j => (get0 x' j - y⟦j⟧) - z⟦j⟧) i = 0 := by
      intro i hi
      rw [mulV_sub (fun j => get0 x' j - y⟦j⟧) (get0 z) i]
      have e1 : mulV A.nbrows (sgsMat A dinv) (fun j => get0 x' j - y⟦j⟧) i = _ := h2 i hi
      have e2 : mulV A.nbrows (sgsMat A dinv) (get0 z) i = _ := hzs i hi
      rw [e1, e2, hres i hi, sub_self]
    by_contra hc
    push Not at hc
    obtain ⟨i, hi, hne⟩ := hc
    have h4 := hP (fun j => (get0 x' j - y⟦j⟧) - z⟦j⟧) ⟨i, hi, fun h => hne (by rw [sub_sub, sub_eq_zero] at h; exact h)⟩
    rw [vdot_congr (fun _ _ => rfl) h3] at h4
    simp [vdot] at h4

/-- The outcomes of `k` steps of the methods of C74: relaxations executed as Gauss-Seidel sweeps, or the iteration preconditioned with SGS. -/
def GSMethod (A : SR R) (dinv : List R) (k : Nat) (b x x' : List M) : Prop := GSRelaxed A dinv k b x x' ∨ SgsIteration A dinv b k x x'

omit [Field K] [Module K M] [LinearOrder K] [IsStrictOrderedRing K] [SMulCommClass R K M] [FiniteDimensional K M] in
theorem forwardGS_congr {x x' y y' : Nat → M} (hx : ∀ i < A.nbrows, x i = x' i) (hy : ∀ i < A.nbrows, y i = y' i) (h : ForwardGS A b x y) : ForwardGS A b x' y' := by
  intro i hi
  rw [← h i hi]
  refine sum_congr rfl fun j hj => ?_
  rw [hx j (mem_range.mp hj), hy j (mem_range.mp hj)]

omit [Field K] [Module K M] [LinearOrder K] [IsStrictOrderedRing K] [SMulCommClass R K M] [FiniteDimensional K M] in
theorem backwardGS_congr {x x' y y' : Nat → M} (hx : ∀ i < A.nbrows, x i = x' i) (hy : ∀ i < A.nbrows, y i = y' i) (h : BackwardGS A b x y) : BackwardGS A b x' y' := by
  intro i hi
  rw [← h i hi]
  refine sum_congr rfl fun j hj => ?_
  rw [hx j (mem_range.mp hj), hy j (mem_range.mp hj)]

omit [SMulCommClass R K M] [FiniteDimensional K M] in
theorem GSMethod.sweeps (hA : A.Full) (hS : A.Sorted) (hD : A.HasDiag) {dinv : List R} (hI : DiagInv A dinv) (hB : ∀ x y, B x y = B y x)
    (hsym : SymMat B A.nbrows A.entry) (hpos : PosMat B A.nbrows A.entry) (hb : b.length = A.nbrows) {k : Nat} {x x' : List M}
    (hx : x.length = A.nbrows) (h : GSMethod A dinv k b x x') :
    x'.length = A.nbrows ∧ (ForwardGSs A b k (get0 x) (get0 x') ∨ SymmetricGSs A b k (get0 x) (get0 x')) := by
  rcases h with h | h
  · exact h.sweeps hA hS hD hI hb hx
  · suffices x'.length = A.nbrows ∧ SymmetricGSs A b k (get0 x) (get0 x') from ⟨this.1, .inr this.2⟩
    induction h with
    | zero => exact ⟨hx, .zero _⟩
    | @succ k x y r z _ hr hres hz ih =>
      obtain ⟨hy, hs⟩ := ih hx
      obtain ⟨v, w, hf, hw, hzl, he⟩ := sgs_step_sweep hA hS hD hI hB hsym hpos hb hy hr hres hz
      refine ⟨by simp [hy, hzl], .succ hs hf (backwardGS_congr (fun _ _ => rfl) (fun i hi => ?_) hw)⟩
      rw [he i hi, get0_eq_getElem (a := List.zipWith _ _ _) (by simp [hy, hzl, hi]), get0_eq_getElem (a := y) (by omega), get0_eq_getElem (a := z) (by omega), List.getElem_zipWith]

theorem gs_method_converges (hA : A.Full) (hS : A.Sorted) (hD : A.HasDiag) {dinv : List R} (hI : DiagInv A dinv) (hB : ∀ x y, B x y = B y x)
    (hsym : SymMat B A.nbrows A.entry) (hpos : PosMat B A.nbrows A.entry) :
    ∃ c C : K, 0 ≤ c ∧ c < 1 ∧ 0 ≤ C ∧ ∀ (b x x' : List M) (s : Nat → M) (k : Nat), b.length = A.nbrows → x.length = A.nbrows → Solves A b s →
      GSMethod A dinv k b x x' → x'.length = A.nbrows ∧ energyErr B A s (get0 x') ≤ c ^ k * energyErr B A s (get0 x) ∧
        ∑ i ∈ range A.nbrows, B (x'⟦i⟧ - s i) (x'⟦i⟧ - s i) ≤ C * c ^ k * energyErr B A s (get0 x) := by
  obtain ⟨c, C, hc, hc1, hC, h⟩ := gs_sweeps_converge hB hsym hpos
  refine ⟨c, C, hc, hc1, hC, fun b x x' s k hb hx hs hr => ?_⟩
  obtain ⟨hl, hsw⟩ := hr.sweeps hA hS hD hI hB hsym hpos hb hx
  exact ⟨hl, h b _ _ s k hs hsw⟩

/-- In particular every accuracy is reached after some number of steps. -/
theorem gs_method_limit [Archimedean K] (hA : A.Full) (hS : A.Sorted) (hD : A.HasDiag) {dinv : List R} (hI : DiagInv A dinv) (hB : ∀ x y, B x y = B y x)
    (hsym : SymMat B A.nbrows A.entry) (hpos : PosMat B A.nbrows A.entry) {b x : List M} {s : Nat → M} (hb : b.length = A.nbrows) (hx : x.length = A.nbrows)
    (hs : Solves A b s) {ε : K} (hε : 0 < ε) :
    ∃ k₀, ∀ k ≥ k₀, ∀ x', GSMethod A dinv k b x x' → ∑ i ∈ range A.nbrows, B (x'⟦i⟧ - s i) (x'⟦i⟧ - s i) < ε := by
  obtain ⟨c, C, hc, hc1, hC, h⟩ := gs_method_converges hA hS hD hI hB hsym hpos
  set E := C * energyErr B A s (get0 x) with hE
  have hE0 : 0 ≤ E := mul_nonneg hC (hpos.energy_nonneg _ _)
  have hE1 : (0 : K) < E + 1 := by linarith
  obtain ⟨k₀, hk⟩ : ∃ k₀ : Nat, c ^ k₀ < ε / (E + 1) := exists_pow_lt_of_lt_one (div_pos hε hE1) hc1
  refine ⟨k₀, fun k hkk x' hr => ?_⟩
  have h1 := (h b x x' s k hb hx hs hr).2.2
  calc _ ≤ C * c ^ k * energyErr B A s (get0 x) := h1
    _ = c ^ k * E := by rw [hE]; ring
    _ ≤ c ^ k₀ * E := mul_le_mul_of_nonneg_right (pow_le_pow_of_le_one hc hc1.le hkk) hE0
    _ ≤ c ^ k₀ * (E + 1) := mul_le_mul_of_nonneg_left (by linarith) (pow_nonneg hc _)
    _ < ε / (E + 1) * (E + 1) := mul_lt_mul_of_pos_right hk hE1
    _ = ε := div_mul_cancel₀ _ hE1.ne'

/-- A step strictly reduces the energy of the error unless the vector is the solution already. -/
theorem gs_method_strict (hA : A.Full) (hS : A.Sorted) (hD : A.HasDiag) {dinv : List R} (hI : DiagInv A dinv) (hB : ∀ x y, B x y = B y x)
    (hsym : SymMat B A.nbrows A.entry) (hpos : PosMat B A.nbrows A.entry) {b x x' : List M} {s : Nat → M} {k : Nat} (hk : 1 ≤ k) (hb : b.length = A.nbrows)
    (hx : x.length = A.nbrows) (hs : Solves A b s) (h : GSMethod A dinv k b x x') (hne : ¬ Solves A b (get0 x)) :
    energyErr B A s (get0 x') < energyErr B A s (get0 x) := by
  obtain ⟨c, C, hc, hc1, hC, hcon⟩ := gs_method_converges hA hS hD hI hB hsym hpos
  have h1 := (hcon b x x' s k hb hx hs h).2.1
  have h2 : 0 < energyErr B A s (get0 x) := by
    refine hpos _ ?_
    by_contra hc
    push Not at hc
    refine hne fun i hi => ?_
    rw [← hs i hi]
    exact sum_congr rfl fun j hj => by rw [sub_eq_zero.mp (hc j (mem_range.mp hj))]
  have h3 : c ^ k < 1 := pow_lt_one₀ hc hc1 (by omega)
  nlinarith

end order
end energy

/-! ### Scalar matrices -/

section scalar
variable [Field K] [LinearOrder K] [IsStrictOrderedRing K] {A : SR K} {dinv : List K}

/-- The energy of the error of `x`. -/
def energy1 (A : SR K) (s : Nat → K) (x : List K) : K :=
  ∑ i ∈ range A.nbrows, ∑ j ∈ range A.nbrows, (x⟦i⟧ - s i) * A.entry i j * (x⟦j⟧ - s j)

omit [LinearOrder K] [IsStrictOrderedRing K] in
theorem energy1_eq (A : SR K) (s : Nat → K) (x : List K) : energyErr (LinearMap.mul K K) A s (get0 x) = energy1 A s x := by
  unfold energyErr
  rw [vdot_mulV]
  exact sum_congr rfl fun i _ => sum_congr rfl fun j _ => (mul_assoc _ _ _).symm

omit [IsStrictOrderedRing K] in
/-- **C74**, setup: for a positive definite matrix `compute` succeeds. -/
theorem spd_setup (hA : A.Full) (hS : A.Sorted) (hD : A.HasDiag) (hpos : PosEntries A) {ord : List Nat} (hord : ord.Perm (List.range A.nbrows)) {g : List K}
    (hg : g.length = A.nbrows) {d : Option (List K)} (hd : ∀ l, d = some l → l.length = A.nbrows) :
    ∃ dinv, jacobiCompute A ord g d = .ok dinv ∧ DiagInv A dinv := by
  refine jacobi_setup_correct hA hS hD hord (fun i hi => isUnit_iff_ne_zero.mpr fun h0 => ?_) hg hd
  have h1 := (posMat_scalar hpos).diag hi (v := (1 : K)) one_ne_zero
  rw [h0, zero_smul, map_zero] at h1
  exact lt_irrefl _ h1

/-- **C74** For a symmetric positive definite matrix, whatever the right-hand side and the initial guess, every step of the sequential relaxations, of the level-scheduled
relaxation with any schedule, and of the iteration preconditioned with SGS multiplies the energy of the error by at most a factor less than one, which depends on the matrix only;
and the error itself converges in the same way. -/
theorem spd_method_converges (hA : A.Full) (hS : A.Sorted) (hD : A.HasDiag) (hI : DiagInv A dinv) (hsym : SymEntries A) (hpos : PosEntries A) :
    ∃ c C : K, 0 ≤ c ∧ c < 1 ∧ 0 ≤ C ∧ ∀ (b x x' : List K) (s : Nat → K) (k : Nat), b.length = A.nbrows → x.length = A.nbrows → Solves A b s →
      GSMethod A dinv k b x x' → x'.length = A.nbrows ∧ energy1 A s x' ≤ c ^ k * energy1 A s x ∧
        ∑ i ∈ range A.nbrows, (x'⟦i⟧ - s i) * (x'⟦i⟧ - s i) ≤ C * c ^ k * energy1 A s x := by
  have := gs_method_converges (B := LinearMap.mul K K) hA hS hD hI mulForm_comm (symMat_scalar hsym) (posMat_scalar hpos)
  simp only [energy1_eq] at this
  exact this

/-- **C74** In particular every accuracy is reached after some number of steps. -/
theorem spd_method_limit [Archimedean K] (hA : A.Full) (hS : A.Sorted) (hD : A.HasDiag) (hI : DiagInv A dinv) (hsym : SymEntries A) (hpos : PosEntries A)
    {b x : List K} {s : Nat → K} (hb : b.length = A.nbrows) (hx : x.length = A.nbrows) (hs : Solves A b s) {ε : K} (hε : 0 < ε) :
    ∃ k₀, ∀ k ≥ k₀, ∀ x', GSMethod A dinv k b x x' → ∑ i ∈ range A.nbrows, (x'⟦i⟧ - s i) * (x'⟦i⟧ - s i) < ε :=
  gs_method_limit (B := LinearMap.mul K K) hA hS hD hI mulForm_comm (symMat_scalar hsym) (posMat_scalar hpos) hb hx hs hε

/-- **C74** A step strictly reduces the energy of the error unless the vector is the solution already. -/
theorem spd_method_strict (hA : A.Full) (hS : A.Sorted) (hD : A.HasDiag) (hI : DiagInv A dinv) (hsym : SymEntries A) (hpos : PosEntries A)
    {b x x' : List K} {s : Nat → K} {k : Nat} (hk : 1 ≤ k) (hb : b.length = A.nbrows) (hx : x.length = A.nbrows) (hs : Solves A b s)
    (h : GSMethod A dinv k b x x') (hne : ¬ Solves A b (get0 x)) : energy1 A s x' < energy1 A s x := by
  have := gs_method_strict (B := LinearMap.mul K K) hA hS hD hI mulForm_comm (symMat_scalar hsym) (posMat_scalar hpos) hk hb hx hs h hne
  simpa only [energy1_eq] using this

/-- **C74** The PETSc Richardson callback with the level-scheduled SGS preconditioner. -/
theorem spd_petsc_richardson (o : RelaxObj K K K) (ho : o.Ready) (hsym : SymEntries o.A) (hpos : PosEntries o.A) :
    ∃ c C : K, 0 ≤ c ∧ c < 1 ∧ 0 ≤ C ∧ ∀ (rtol abstol dtol : K) (it : Int) (b x : List K) (s : Nat → K) (res : Except Fail (RichardsonOut K)),
      b.length = o.A.nbrows → x.length = o.A.nbrows → Solves o.A b s → PetscRichardson o .levelSgs rtol abstol dtol it false b x res →
      ∃ out, res = .ok out ∧ out.outits = it ∧ energy1 o.A s out.x ≤ c ^ it.toNat * energy1 o.A s x ∧
        ∑ i ∈ range o.A.nbrows, (out.x⟦i⟧ - s i) * (out.x⟦i⟧ - s i) ≤ C * c ^ it.toNat * energy1 o.A s x := by
  obtain ⟨c, C, hc, hc1, hC, hcon⟩ := gs_sweeps_converge (B := LinearMap.mul K K) mulForm_comm (symMat_scalar hsym) (posMat_scalar hpos)
  refine ⟨c, C, hc, hc1, hC, fun rtol abstol dtol it b x s res hb hx hs h => ?_⟩
  obtain ⟨x', rfl, hl, hr⟩ := petsc_richardson_correct o ho rfl rtol abstol dtol it false hb hx h
  rw [if_neg (by simp)] at hr
  have := hcon b (get0 x) (get0 x') s it.toNat hs (.inr hr)
  rw [energy1_eq, energy1_eq] at this
  exact ⟨_, rfl, rfl, this⟩

end scalar

/-! ### Block matrices -/

section block
open scoped Matrix.Module
variable [Field K] {bs : Nat} {A : SR (Matrix (Fin bs) (Fin bs) K)} {dinv : List (Matrix (Fin bs) (Fin bs) K)}

/-- The energy of the error of `x`. -/
def energyB (A : SR (Matrix (Fin bs) (Fin bs) K)) (s : Nat → Fin bs → K) (x : List (Fin bs → K)) : K :=
  ∑ i ∈ range A.nbrows, ∑ j ∈ range A.nbrows, (x⟦i⟧ - s i) ⬝ᵥ (A.entry i j).mulVec (x⟦j⟧ - s j)

theorem energyB_eq (A : SR (Matrix (Fin bs) (Fin bs) K)) (s : Nat → Fin bs → K) (x : List (Fin bs → K)) :
    energyErr (segForm K bs) A s (get0 x) = energyB A s x := by
  unfold energyErr
  rw [vdot_mulV]
  rfl

local instance : SMulCommClass (Matrix (Fin bs) (Fin bs) K) K (Fin bs → K) where
  smul_comm a c v := Matrix.mulVec_smul a c v

variable [LinearOrder K] [IsStrictOrderedRing K]

omit [IsStrictOrderedRing K] in
/-- **C74**, setup, block: for a positive definite matrix `compute` succeeds. -/
theorem block_spd_setup [DecidableEq K] (hA : A.Full) (hS : A.Sorted) (hD : A.HasDiag) (hpos : PosBlocks A) {ord : List Nat} (hord : ord.Perm (List.range A.nbrows))
    {g : List (Matrix (Fin bs) (Fin bs) K)}
    (hg : g.length = A.nbrows) {d : Option (List (Matrix (Fin bs) (Fin bs) K))} (hd : ∀ l, d = some l → l.length = A.nbrows) :
    ∃ dinv, jacobiCompute A ord g d = .ok dinv ∧ DiagInv A dinv := by
  refine jacobi_setup_correct hA hS hD hord (fun i hi => ?_) hg hd
  rw [Matrix.isUnit_iff_isUnit_det, isUnit_iff_ne_zero]
  intro h0
  obtain ⟨v, hv, hv0⟩ := Matrix.exists_mulVec_eq_zero_iff.mpr h0
  have h1 := (posMat_block hpos).diag hi hv
  have e : A.entry i i • v = 0 := hv0
  rw [e, map_zero] at h1
  exact lt_irrefl _ h1

/-- **C74**, block. -/
theorem block_spd_method_converges (hA : A.Full) (hS : A.Sorted) (hD : A.HasDiag) (hI : DiagInv A dinv) (hsym : SymBlocks A) (hpos : PosBlocks A) :
    ∃ c C : K, 0 ≤ c ∧ c < 1 ∧ 0 ≤ C ∧ ∀ (b x x' : List (Fin bs → K)) (s : Nat → Fin bs → K) (k : Nat), b.length = A.nbrows → x.length = A.nbrows →
      (∀ i < A.nbrows, ∑ j ∈ range A.nbrows, (A.entry i j).mulVec (s j) = b⟦i⟧) →
      GSMethod A dinv k b x x' → x'.length = A.nbrows ∧ energyB A s x' ≤ c ^ k * energyB A s x ∧
        ∑ i ∈ range A.nbrows, (x'⟦i⟧ - s i) ⬝ᵥ (x'⟦i⟧ - s i) ≤ C * c ^ k * energyB A s x := by
  have := gs_method_converges (B := segForm K bs) hA hS hD hI segForm_comm (symMat_block hsym) (posMat_block hpos)
  simp only [energyB_eq] at this
  exact this

/-- **C74**, block: every accuracy is reached. -/
theorem block_spd_method_limit [Archimedean K] (hA : A.Full) (hS : A.Sorted) (hD : A.HasDiag) (hI : DiagInv A dinv) (hsym : SymBlocks A) (hpos : PosBlocks A)
    {b x : List (Fin bs → K)} {s : Nat → Fin bs → K} (hb : b.length = A.nbrows) (hx : x.length = A.nbrows)
    (hs : ∀ i < A.nbrows, ∑ j ∈ range A.nbrows, (A.entry i j).mulVec (s j) = b⟦i⟧) {ε : K} (hε : 0 < ε) :
    ∃ k₀, ∀ k ≥ k₀, ∀ x', GSMethod A dinv k b x x' → ∑ i ∈ range A.nbrows, (x'⟦i⟧ - s i) ⬝ᵥ (x'⟦i⟧ - s i) < ε :=
  gs_method_limit (B := segForm K bs) hA hS hD hI segForm_comm (symMat_block hsym) (posMat_block hpos) hb hx hs hε

/-- **C74**, block: the PETSc Richardson callback with the level-scheduled block SGS preconditioner. -/
theorem block_spd_petsc_richardson (o : RelaxObj (Matrix (Fin bs) (Fin bs) K) (Fin bs → K) K) (ho : o.Ready) (hsym : SymBlocks o.A) (hpos : PosBlocks o.A) :
    ∃ c C : K, 0 ≤ c ∧ c < 1 ∧ 0 ≤ C ∧ ∀ (k : Nat) (stor : Stor) (rtol abstol dtol : K) (it : Int) (b x : List (Fin bs → K)) (s : Nat → Fin bs → K)
      (res : Except Fail (RichardsonOut (Fin bs → K))), b.length = o.A.nbrows → x.length = o.A.nbrows →
      (∀ i < o.A.nbrows, ∑ j ∈ range o.A.nbrows, (o.A.entry i j).mulVec (s j) = b⟦i⟧) → PetscRichardson o (.levelBsgs k stor) rtol abstol dtol it false b x res →
      ∃ out, res = .ok out ∧ out.outits = it ∧ energyB o.A s out.x ≤ c ^ it.toNat * energyB o.A s x ∧
        ∑ i ∈ range o.A.nbrows, (out.x⟦i⟧ - s i) ⬝ᵥ (out.x⟦i⟧ - s i) ≤ C * c ^ it.toNat * energyB o.A s x := by
  obtain ⟨c, C, hc, hc1, hC, hcon⟩ := gs_sweeps_converge (B := segForm K bs) segForm_comm (symMat_block hsym) (posMat_block hpos)
  refine ⟨c, C, hc, hc1, hC, fun k stor rtol abstol dtol it b x s res hb hx hs h => ?_⟩
  obtain ⟨x', rfl, hl, hr⟩ := petsc_richardson_correct o ho rfl rtol abstol dtol it false hb hx h
  rw [if_neg (by simp)] at hr
  have := hcon b (get0 x) (get0 x') s it.toNat hs (.inr hr)
  rw [energyB_eq, energyB_eq] at this
  exact ⟨_, rfl, rfl, this⟩

end block

/-! ### Non-vacuity -/

theorem exKershaw_diagInv : DiagInv exKershaw [1/3, 1/3, 1/3, 1/3] := by
  constructor
  · rfl
  · intro i hi
    have h1 : i < 4 := hi
    interval_cases i <;> decide +kernel
  · intro i hi
    have h1 : i < 4 := hi
    interval_cases i <;> decide +kernel

/-- Non-vacuity of C74: a positive definite matrix that is not diagonally dominant. -/
example : ∃ c C : ℚ, 0 ≤ c ∧ c < 1 ∧ 0 ≤ C ∧ ∀ (b x x' : List ℚ) (s : Nat → ℚ) (k : Nat), b.length = 4 → x.length = 4 → Solves exKershaw b s →
    GSMethod exKershaw [1/3, 1/3, 1/3, 1/3] k b x x' → x'.length = 4 ∧ energy1 exKershaw s x' ≤ c ^ k * energy1 exKershaw s x ∧
      ∑ i ∈ range 4, (x'⟦i⟧ - s i) * (x'⟦i⟧ - s i) ≤ C * c ^ k * energy1 exKershaw s x :=
  spd_method_converges (exKershaw_setting false).full (exKershaw_setting false).sorted (exKershaw_setting false).diag exKershaw_diagInv exKershaw_sym exKershaw_pos

/-- An outcome of one relaxation step, not the solution. -/
example : GSMethod exKershaw [1/3, 1/3, 1/3, 1/3] 1 [3, -1, -1, (3 : ℚ)] [0, 0, 0, 0] [1, 1/3, -1/9, 7/27] ∧
    energy1 exKershaw (fun _ => 1) [1, 1/3, -1/9, 7/27] < energy1 exKershaw (fun _ => 1) [0, 0, 0, 0] := by
  have h : GSMethod exKershaw [1/3, 1/3, 1/3, 1/3] 1 [3, -1, -1, (3 : ℚ)] [0, 0, 0, 0] [1, 1/3, -1/9, 7/27] := .inl (.chaotic (by decide +kernel))
  refine ⟨h, spd_method_strict (exKershaw_setting false).full (exKershaw_setting false).sorted (exKershaw_setting false).diag exKershaw_diagInv exKershaw_sym
    exKershaw_pos le_rfl rfl rfl ?_ h ?_⟩
  · intro i hi
    have h1 : i < 4 := hi
    interval_cases i <;> decide +kernel
  · intro hc
    exact absurd (hc 0 (by decide)) (by decide +kernel)

/-- `[2 1 0 1; 1 2 0 0; 0 0 2 1; 1 0 1 2]` in `2 × 2` blocks, not dominant. -/
def exS4 : SR (Matrix (Fin 2) (Fin 2) ℚ) :=
  { browptr := [0, 2, 4], bcolind := [0, 1, 0, 1], vals := [mk2 2 1 1 2, mk2 0 1 0 0, mk2 0 0 1 0, mk2 2 1 1 2], diagind := [0, 3],
    browendptr := [2, 4], nbrows := 2, nnzb := 4, nbstored := 4 }

theorem exS4_pos : PosBlocks exS4 := by
  rintro x ⟨i, hi, hne⟩
  have e : ∑ i ∈ range 2, ∑ j ∈ range 2, x i ⬝ᵥ (exS4.entry i j).mulVec (x j) =
      (x 0 0 + x 0 1) ^ 2 + (x 1 0 + x 1 1) ^ 2 + (x 0 0 + x 1 1) ^ 2 + x 0 1 ^ 2 + x 1 0 ^ 2 := by
    simp only [sum_range_succ, sum_range_zero, show exS4.entry 0 0 = mk2 2 1 1 2 by decide +kernel, show exS4.entry 0 1 = mk2 0 1 0 0 by decide +kernel,
      show exS4.entry 1 0 = mk2 0 0 1 0 by decide +kernel, show exS4.entry 1 1 = mk2 2 1 1 2 by decide +kernel, mk2, dotProduct, Matrix.mulVec, Fin.sum_univ_two,
      Matrix.of_apply, Matrix.cons_val_zero, Matrix.cons_val_one]
    ring
  show 0 < ∑ i ∈ range 2, ∑ j ∈ range 2, x i ⬝ᵥ (exS4.entry i j).mulVec (x j)
  rw [e]
  by_contra hc
  have h1 : x 0 1 = 0 := by nlinarith [sq_nonneg (x 0 0 + x 0 1), sq_nonneg (x 1 0 + x 1 1), sq_nonneg (x 0 0 + x 1 1), sq_nonneg (x 0 1), sq_nonneg (x 1 0)]
  have h2 : x 1 0 = 0 := by nlinarith [sq_nonneg (x 0 0 + x 0 1), sq_nonneg (x 1 0 + x 1 1), sq_nonneg (x 0 0 + x 1 1), sq_nonneg (x 0 1), sq_nonneg (x 1 0)]
  rw [h1, h2] at hc
  have h3 : x 0 0 = 0 := by nlinarith [sq_nonneg (x 0 0), sq_nonneg (x 1 1), sq_nonneg (x 0 0 + x 1 1)]
  have h4 : x 1 1 = 0 := by nlinarith [sq_nonneg (x 0 0), sq_nonneg (x 1 1), sq_nonneg (x 0 0 + x 1 1)]
  have h5 : i < 2 := hi
  interval_cases i <;> exact hne (funext fun a => by fin_cases a <;> assumption)

open scoped Matrix.Module in
/-- Non-vacuity of C74, block: `compute` succeeds and the methods converge. -/
example : ∃ dinv, jacobiCompute exS4 [1, 0] (List.replicate 2 (mk2 7 7 7 7)) none = .ok dinv ∧
    ∃ c C : ℚ, 0 ≤ c ∧ c < 1 ∧ 0 ≤ C ∧ ∀ (b x x' : List (Fin 2 → ℚ)) (s : Nat → Fin 2 → ℚ) (k : Nat), b.length = 2 → x.length = 2 →
      (∀ i < 2, ∑ j ∈ range 2, (exS4.entry i j).mulVec (s j) = b⟦i⟧) →
      GSMethod exS4 dinv k b x x' → x'.length = 2 ∧ energyB exS4 s x' ≤ c ^ k * energyB exS4 s x ∧
        ∑ i ∈ range 2, (x'⟦i⟧ - s i) ⬝ᵥ (x'⟦i⟧ - s i) ≤ C * c ^ k * energyB exS4 s x := by
  have hA : exS4.Full := by constructor <;> decide
  have hS : exS4.Sorted := SR.sorted_of_check (by decide)
  have hD : exS4.HasDiag := by constructor <;> decide
  obtain ⟨dinv, h1, h2⟩ := block_spd_setup hA hS hD exS4_pos (ord := [1, 0]) (by decide) (g := List.replicate 2 (mk2 7 7 7 7)) rfl (d := none) (fun _ h => by cases h)
  refine ⟨dinv, h1, block_spd_method_converges hA hS hD h2 ?_ exS4_pos⟩
  intro i hi j hj
  have h1 : i < 2 := hi
  have h2 : j < 2 := hj
  interval_cases i <;> interval_cases j <;> decide +kernel

/-! ### What fails -/

/-- The updates of the rows of an asynchronous relaxation may all read the values of the sweep before: the Jacobi iterates are outcomes of the threaded relaxations. -/
theorem jacobi_is_async [Ring R] [AddCommGroup M] [Module R M] {A : SR R} {dinv : List R} {b x : List M} {mix : Set M → Set M} (hsub : ∀ S, S ⊆ mix S)
    (hA : A.Full) (hS : A.Sorted) (hD : A.HasDiag) (hI : DiagInv A dinv) (hb : b.length = A.nbrows) (hx : x.length = A.nbrows) (k : Nat) :
    AsyncChaoticRelax A dinv mix k b x ((List.range A.nbrows).map (jacobiIter A dinv b (get0 x) k)) ∧
    AsyncSgsRelax A dinv mix k b x ((List.range A.nbrows).map (jacobiIter A dinv b (get0 x) (2 * k))) := by
  have run : ∀ k, ARun (relaxRow A dinv b) mix (k + 1) x ((List.range A.nbrows).map (jacobiIter A dinv b (get0 x) (k + 1))) := by
    intro k
    obtain ⟨log, h1, h2⟩ := ARounds.simultaneous (upd := relaxRow A dinv b) hsub (x := x) (X := jacobiIter A dinv b (get0 x))
      (fun j h => get0_eq_getElem h) (fun t i hi => Or.inl ((rowUpd_relaxVal hA hS hD hI hb).eval i (by omega) _ _ fun j hj => by
        unfold readView; rw [if_pos (by omega)])) k
    exact ⟨log, _, h1, by rw [h2, hx]⟩
  have e0 : x = (List.range A.nbrows).map (get0 x) := ext_get0 (by simp [hx]) fun i hi => by rw [get0_map_range _ (by omega)]
  cases k with
  | zero => exact ⟨.inl ⟨rfl, e0.symm⟩, .inl ⟨rfl, e0.symm⟩⟩
  | succ k => exact ⟨.inr (run k), .inr (run (2 * k + 1))⟩

/-- `[10 9 9; 9 10 9; 9 9 10]`. -/
def exN3 : SR ℚ :=
  { browptr := [0, 3, 6, 9], bcolind := [0, 1, 2, 0, 1, 2, 0, 1, 2], vals := [10, 9, 9, 9, 10, 9, 9, 9, 10], diagind := [0, 4, 8],
    browendptr := [3, 6, 9], nbrows := 3, nnzb := 9, nbstored := 9 }

theorem exN3_full : exN3.Full := by constructor <;> decide
theorem exN3_sorted : exN3.Sorted := SR.sorted_of_check (by decide)
theorem exN3_diag : exN3.HasDiag := by constructor <;> decide

theorem exN3_diagInv : DiagInv exN3 [1/10, 1/10, 1/10] := by
  constructor
  · rfl
  · intro i hi
    have h1 : i < 3 := hi
    interval_cases i <;> decide +kernel
  · intro i hi
    have h1 : i < 3 := hi
    interval_cases i <;> decide +kernel

theorem exN3_entry : ∀ i < 3, ∀ j < 3, exN3.entry i j = if i = j then 10 else 9 := by decide +kernel

theorem exN3_sym : SymEntries exN3 := by
  intro i hi j hj
  rw [exN3_entry i hi j hj, exN3_entry j hj i hi]
  simp only [eq_comm]

theorem exN3_pos : PosEntries exN3 := by
  rintro x ⟨i, hi, hne⟩
  have e : ∑ i ∈ range 3, ∑ j ∈ range 3, x i * exN3.entry i j * x j = 9 * (x 0 + x 1 + x 2) ^ 2 + x 0 ^ 2 + x 1 ^ 2 + x 2 ^ 2 := by
    simp only [sum_range_succ, sum_range_zero, exN3_entry 0 (by decide) 0 (by decide), exN3_entry 0 (by decide) 1 (by decide), exN3_entry 0 (by decide) 2 (by decide),
      exN3_entry 1 (by decide) 0 (by decide), exN3_entry 1 (by decide) 1 (by decide), exN3_entry 1 (by decide) 2 (by decide),
      exN3_entry 2 (by decide) 0 (by decide), exN3_entry 2 (by decide) 1 (by decide), exN3_entry 2 (by decide) 2 (by decide)]
    norm_num
    ring
  show 0 < ∑ i ∈ range 3, ∑ j ∈ range 3, x i * exN3.entry i j * x j
  rw [e]
  have h4 : i < 3 := hi
  have h5 : 0 < x i ^ 2 := by positivity
  interval_cases i <;> nlinarith [sq_nonneg (x 0 + x 1 + x 2), sq_nonneg (x 0), sq_nonneg (x 1), sq_nonneg (x 2)]

theorem exN3_jacobi (k : Nat) : ∀ i < 3, jacobiIter exN3 [1/10, 1/10, 1/10] [0, 0, (0 : ℚ)] (get0 [1, 1, 1]) k i = (-9/5) ^ k := by
  induction k with
  | zero => decide +kernel
  | succ k ih =>
    intro i hi
    show relaxVal _ _ _ _ i = _
    unfold relaxVal
    have e : ∑ j ∈ (range exN3.nbrows).erase i, exN3.entry i j • jacobiIter exN3 [1/10, 1/10, 1/10] [0, 0, (0 : ℚ)] (get0 [1, 1, 1]) k j = 18 * (-9/5) ^ k := by
      rw [sum_congr rfl (g := fun _ => (9 : ℚ) * (-9/5) ^ k)]
      · have hc : ((range exN3.nbrows).erase i).card = 2 := by interval_cases i <;> decide
        rw [sum_const, hc]
        ring
      · intro j hj
        rw [mem_erase, mem_range] at hj
        rw [exN3_entry i hi j hj.2, if_neg (Ne.symm hj.1), ih j hj.2, smul_eq_mul]
    rw [e]
    have h1 : get0 [1/10, 1/10, (1/10 : ℚ)] i = 1/10 := by interval_cases i <;> rfl
    have h2 : get0 [0, 0, (0 : ℚ)] i = 0 := by interval_cases i <;> rfl
    rw [h1, h2, smul_eq_mul, pow_succ]
    ring

/-- **C74**, finding: the Jacobi relaxation, and with threads also the chaotic relaxation and the SGS relaxation, may diverge for a symmetric positive definite matrix.
For the matrix `[10 9 9; 9 10 9; 9 9 10]`, the right-hand side 0 and the initial guess `(1, 1, 1)`, `k` Jacobi steps always give `((-9/5)^k, …)`, and there are executions
of the asynchronous relaxations with `k` steps that give `((-9/5)^k, …)` and `((-9/5)^(2k), …)`, even when a read returns the value of a component as it was written. -/
theorem spd_relax_diverges : SymEntries exN3 ∧ PosEntries exN3 ∧ DiagInv exN3 [1/10, 1/10, 1/10] ∧ ∀ k : Nat,
    (∀ (sqrt sq : ℚ → ℚ) (rtol abstol dtol : ℚ) (ord : Nat → List Nat) (g : List ℚ), (∀ t, (ord t).Perm (List.range 3)) → g.length = 3 →
      jacobiRelax sqrt sq ⟨rtol, abstol, dtol, false, k⟩ exN3 [1/10, 1/10, 1/10] [0, 0, 0] ord g [1, 1, 1] = .ok [(-9/5) ^ k, (-9/5) ^ k, (-9/5) ^ k]) ∧
    AsyncChaoticRelax exN3 [1/10, 1/10, 1/10] mixWhole k [0, 0, (0 : ℚ)] [1, 1, 1] [(-9/5) ^ k, (-9/5) ^ k, (-9/5) ^ k] ∧
    AsyncSgsRelax exN3 [1/10, 1/10, 1/10] mixWhole k [0, 0, (0 : ℚ)] [1, 1, 1] [(-9/5) ^ (2 * k), (-9/5) ^ (2 * k), (-9/5) ^ (2 * k)] := by
  have e : ∀ k, (List.range exN3.nbrows).map (jacobiIter exN3 [1/10, 1/10, 1/10] [0, 0, (0 : ℚ)] (get0 [1, 1, 1]) k) = [(-9/5) ^ k, (-9/5) ^ k, (-9/5) ^ k] := by
    intro k
    show [_, _, _] = _
    rw [exN3_jacobi k 0 (by decide), exN3_jacobi k 1 (by decide), exN3_jacobi k 2 (by decide)]
  refine ⟨exN3_sym, exN3_pos, exN3_diagInv, fun k => ⟨fun sqrt sq rtol abstol dtol ord g hord hg => ?_, ?_⟩⟩
  · obtain ⟨x', T, h1, h2, _, h3, h4, _⟩ := jacobi_relax_correct (sqrt := sqrt) (sq := sq) (p := ⟨rtol, abstol, dtol, false, k⟩) exN3_full exN3_sorted exN3_diag exN3_diagInv
      (b := [0, 0, (0 : ℚ)]) rfl hord hg (x := [1, 1, 1]) rfl
    have h5 : T = k := h4 rfl
    subst h5
    rw [h1, ← e T]
    congr 1
    refine ext_get0 (by simp [h2]) fun i hi => ?_
    have hi' : i < exN3.nbrows := by omega
    rw [h3 i hi', get0_map_range _ hi']
  · have h := jacobi_is_async (mix := mixWhole) (fun _ => subset_rfl) exN3_full exN3_sorted exN3_diag exN3_diagInv (b := [0, 0, (0 : ℚ)]) rfl (x := [1, 1, 1]) rfl k
    rw [e, e] at h
    exact h

end Blasted
