import Verif.Base.SR
import Mathlib.LinearAlgebra.BilinearForm.Properties
import Mathlib.LinearAlgebra.SesquilinearForm.Basic
import Mathlib.LinearAlgebra.FiniteDimensional.Basic
import Mathlib.LinearAlgebra.Matrix.Module
import Mathlib.Tactic.Linarith
import Mathlib.Tactic.Ring
import Mathlib.Tactic.Positivity

/-!
# Inner products of vectors

Scalar and block vectors have segments in a module `M`; an inner product of segments gives one of vectors.
-/

namespace Blasted

open Finset

variable {R M K V : Type}

/-! ### Quadratic forms on spaces of finite dimension -/

/-- Every quadratic form is bounded by a multiple of a given positive definite one. -/
theorem form_bound [Field K] [LinearOrder K] [IsStrictOrderedRing K] [AddCommGroup V] [Module K V] [FiniteDimensional K V]
    (P Q : LinearMap.BilinForm K V) (hP : ∀ v, v ≠ 0 → 0 < P v v) (hs : ∀ v w, P v w = P w v) :
    ∃ c, 0 ≤ c ∧ ∀ v, Q v v ≤ c * P v v := by
  classical
  have hP0 : ∀ v, 0 ≤ P v v := fun v => by
    by_cases h : v = 0
    · subst h; simp
    · exact (hP v h).le
  have hsy : LinearMap.IsSymm P := ⟨fun v w => by simpa using hs v w⟩
  have hnd : P.Nondegenerate := (LinearMap.BilinForm.nondegenerate_iff P hP0 hsy).mpr fun v =>
    ⟨fun h => by
      by_contra hv
      exact (hP v hv).ne' h, fun h => by subst h; simp⟩
  let e := Module.finBasis K V
  let p : Fin (Module.finrank K V) → V := fun a => (P.toDual hnd).symm (e.coord a)
  have hp : ∀ a v, P (p a) v = e.repr v a := by
    intro a v
    have : P.toDual hnd (p a) v = e.coord a v := by
      show P.toDual hnd ((P.toDual hnd).symm (e.coord a)) v = _
      rw [LinearEquiv.apply_symm_apply]
    exact this
  have hc : ∀ a v, (e.repr v a) ^ 2 ≤ P (p a) (p a) * P v v := by
    intro a v
    rw [← hp a v]
    exact LinearMap.BilinForm.apply_sq_le_of_symm P hP0 hsy _ _
  refine ⟨∑ a, ∑ c, |Q (e a) (e c)| * (P (p a) (p a) + P (p c) (p c)),
    sum_nonneg fun a _ => sum_nonneg fun c _ => mul_nonneg (abs_nonneg _) (add_nonneg (hP0 _) (hP0 _)), fun v => ?_⟩
  have hv : Q v v = ∑ a, ∑ c, e.repr v a * (e.repr v c * Q (e a) (e c)) := by
    conv_lhs => rw [← e.sum_repr v]
    simp only [map_sum, LinearMap.sum_apply, map_smul, LinearMap.smul_apply, smul_eq_mul]
    rw [sum_comm]
    refine sum_congr rfl fun a _ => ?_
    rw [mul_sum]
    refine sum_congr rfl fun c _ => ?_
    ring
  rw [hv, sum_mul]
  refine sum_le_sum fun a _ => ?_
  rw [sum_mul]
  refine sum_le_sum fun c _ => ?_
  have h1 := hc a v
  have h2 := hc c v
  have h3 : e.repr v a * (e.repr v c * Q (e a) (e c)) ≤ |Q (e a) (e c)| * (|e.repr v a| * |e.repr v c|) := by
    refine (le_abs_self _).trans_eq ?_
    rw [abs_mul, abs_mul]; ring
  refine h3.trans ?_
  rw [mul_assoc]
  refine mul_le_mul_of_nonneg_left ?_ (abs_nonneg _)
  have h4 : |e.repr v a| * |e.repr v c| ≤ |e.repr v a| ^ 2 + |e.repr v c| ^ 2 := by
    nlinarith [sq_nonneg (|e.repr v a| - |e.repr v c|), sq_nonneg (|e.repr v a| + |e.repr v c|), abs_nonneg (e.repr v a), abs_nonneg (e.repr v c)]
  rw [sq_abs, sq_abs] at h4
  rw [add_mul]
  linarith

/-! ### Vectors -/

section vec
variable [Ring R] [AddCommGroup M] [Module R M] [Field K] [Module K M]

/-- The inner product of two vectors with `n` segments, from an inner product of segments. -/
def vdot (B : LinearMap.BilinForm K M) (n : Nat) (x y : Nat → M) : K := ∑ i ∈ range n, B (x i) (y i)

/-- Row `i` of the product of a matrix and a vector. -/
def mulV (n : Nat) (G : Nat → Nat → R) (x : Nat → M) (i : Nat) : M := ∑ j ∈ range n, G i j • x j

/-- The matrix is symmetric: `(G x, y) = (x, G y)` entry by entry. -/
def SymMat (B : LinearMap.BilinForm K M) (n : Nat) (G : Nat → Nat → R) : Prop :=
  ∀ i < n, ∀ j < n, ∀ x y : M, B (G i j • x) y = B x (G j i • y)

/-- The matrix is positive definite: `(x, G x) > 0` for every vector that is not zero. -/
def PosMat [LinearOrder K] (B : LinearMap.BilinForm K M) (n : Nat) (G : Nat → Nat → R) : Prop :=
  ∀ x : Nat → M, (∃ i < n, x i ≠ 0) → 0 < vdot B n x (mulV n G x)

variable {B : LinearMap.BilinForm K M} {n : Nat} {G : Nat → Nat → R}

omit [Ring R] [Module R M] in
theorem vdot_comm (hB : ∀ x y, B x y = B y x) (x y : Nat → M) : vdot B n x y = vdot B n y x :=
  sum_congr rfl fun _ _ => hB _ _

omit [Ring R] [Module R M] in
theorem vdot_congr {x x' y y' : Nat → M} (hx : ∀ i < n, x i = x' i) (hy : ∀ i < n, y i = y' i) : vdot B n x y = vdot B n x' y' :=
  sum_congr rfl fun i hi => by rw [hx i (mem_range.mp hi), hy i (mem_range.mp hi)]

omit [Ring R] [Module R M] in
theorem vdot_add_left (x x' y : Nat → M) : vdot B n (fun i => x i + x' i) y = vdot B n x y + vdot B n x' y := by
  unfold vdot
  rw [← sum_add_distrib]
  exact sum_congr rfl fun i _ => by rw [map_add, LinearMap.add_apply]

omit [Ring R] [Module R M] in
theorem vdot_add_right (x y y' : Nat → M) : vdot B n x (fun i => y i + y' i) = vdot B n x y + vdot B n x y' := by
  unfold vdot
  rw [← sum_add_distrib]
  exact sum_congr rfl fun i _ => by rw [map_add]

omit [Ring R] [Module R M] in
theorem vdot_neg_right (x y : Nat → M) : vdot B n x (fun i => - y i) = - vdot B n x y := by
  unfold vdot
  rw [← sum_neg_distrib]
  exact sum_congr rfl fun i _ => by rw [map_neg]

theorem mulV_congr {x x' : Nat → M} (hx : ∀ i < n, x i = x' i) (i : Nat) : mulV n G x i = mulV n G x' i :=
  sum_congr rfl fun j hj => by rw [hx j (mem_range.mp hj)]

theorem mulV_add (x x' : Nat → M) (i : Nat) : mulV n G (fun j => x j + x' j) i = mulV n G x i + mulV n G x' i := by
  unfold mulV
  rw [← sum_add_distrib]
  exact sum_congr rfl fun j _ => smul_add _ _ _

theorem mulV_sub (x x' : Nat → M) (i : Nat) : mulV n G (fun j => x j - x' j) i = mulV n G x i - mulV n G x' i := by
  unfold mulV
  rw [← sum_sub_distrib]
  exact sum_congr rfl fun j _ => smul_sub _ _ _

theorem vdot_mulV (x y : Nat → M) : vdot B n x (mulV n G y) = ∑ i ∈ range n, ∑ j ∈ range n, B (x i) (G i j • y j) :=
  sum_congr rfl fun i _ => by rw [mulV, map_sum]

theorem SymMat.vdot (hG : SymMat B n G) (x y : Nat → M) : vdot B n (mulV n G x) y = vdot B n x (mulV n G y) := by
  rw [vdot_mulV]
  have : Blasted.vdot B n (mulV n G x) y = ∑ i ∈ range n, ∑ j ∈ range n, B (G i j • x j) (y i) :=
    sum_congr rfl fun i _ => by rw [mulV, map_sum, LinearMap.sum_apply]
  rw [this, sum_comm]
  exact sum_congr rfl fun i hi => sum_congr rfl fun j hj => hG j (mem_range.mp hj) i (mem_range.mp hi) _ _

/-- The solution operator of a symmetric matrix is symmetric. -/
theorem SymMat.solve (hG : SymMat B n G) (hB : ∀ x y, B x y = B y x) {r s z w : Nat → M} (hz : ∀ i < n, mulV n G z i = r i)
    (hw : ∀ i < n, mulV n G w i = s i) : Blasted.vdot B n s z = Blasted.vdot B n r w := by
  rw [vdot_congr (fun i hi => (hw i hi).symm) (fun i _ => rfl), hG.vdot, vdot_comm hB, vdot_congr hz fun i _ => rfl]

end vec

/-! ### Linear maps -/

section lin
variable [Ring R] [AddCommGroup M] [Module R M] [Field K] [Module K M] [SMulCommClass R K M]

/-- A matrix as linear map. -/
def matLin (n : Nat) (G : Nat → Nat → R) : (Fin n → M) →ₗ[K] (Fin n → M) where
  toFun v i := ∑ j : Fin n, G i j • v j
  map_add' v w := by
    funext i
    simp [smul_add, sum_add_distrib]
  map_smul' c v := by
    funext i
    simp only [Pi.smul_apply, RingHom.id_apply, smul_sum]
    exact sum_congr rfl fun j _ => smul_comm _ _ _

omit [Ring R] [Module R M] [SMulCommClass R K M] in
/-- The inner product as bilinear form. -/
def dotForm (B : LinearMap.BilinForm K M) (n : Nat) : LinearMap.BilinForm K (Fin n → M) :=
  LinearMap.mk₂ K (fun v w => ∑ i, B (v i) (w i))
    (fun v v' w => by simp [sum_add_distrib]) (fun c v w => by simp [mul_sum])
    (fun v w w' => by simp [sum_add_distrib]) (fun c v w => by simp [mul_sum])

theorem matLin_apply (n : Nat) (G : Nat → Nat → R) (x : Nat → M) (i : Fin n) :
    matLin (K := K) n G (fun j => x j) i = mulV n G x i := by
  show ∑ j : Fin n, G i j • x j = _
  rw [mulV, sum_range]

omit [Ring R] [Module R M] [SMulCommClass R K M] in
theorem dotForm_apply (B : LinearMap.BilinForm K M) (n : Nat) (x y : Nat → M) :
    dotForm B n (fun i => x i) (fun i => y i) = vdot B n x y := by
  show ∑ i : Fin n, B (x i) (y i) = _
  rw [vdot, sum_range]

omit [Field K] [Module K M] [SMulCommClass R K M] [Ring R] [Module R M] in
theorem exists_ext {n : Nat} (v : Fin n → M) : ∃ x : Nat → M, v = fun i : Fin n => x i :=
  ⟨fun i => if h : i < n then v ⟨i, h⟩ else 0, by funext i; simp⟩

variable [LinearOrder K] [IsStrictOrderedRing K] [FiniteDimensional K M]

/-- If the matrix `G` is symmetric and positive definite and so are the entries of the diagonal matrix `D`, then for every matrix `T` there is a constant with
`(e, G e) ≤ c (d, D d)` whenever `G e = - T d`. -/
theorem energy_bound {B : LinearMap.BilinForm K M} {n : Nat} {G : Nat → Nat → R} (hG : PosMat B n G)
    (hB : ∀ x y, B x y = B y x) (D : Nat → R) (hD : ∀ i < n, ∀ x : M, x ≠ 0 → 0 < B x (D i • x))
    (hDs : ∀ i < n, ∀ x y : M, B (D i • x) y = B x (D i • y)) (T : Nat → Nat → R) :
    ∃ c : K, 0 ≤ c ∧ ∀ e d : Nat → M, (∀ i < n, mulV n G e i = - mulV n T d i) →
      vdot B n e (mulV n G e) ≤ c * ∑ i ∈ range n, B (d i) (D i • d i) := by
  have hinj : Function.Injective (matLin (K := K) (M := M) n G) := by
    rw [injective_iff_map_eq_zero]
    intro v hv
    obtain ⟨x, rfl⟩ := exists_ext v
    by_contra hne
    have hx : ∃ i < n, x i ≠ 0 := by
      by_contra h
      push Not at h
      exact hne (funext fun i => h i i.2)
    have h1 := hG x hx
    have h2 : vdot B n x (mulV n G x) = 0 := by
      refine sum_eq_zero fun i hi => ?_
      have := congrFun hv ⟨i, mem_range.mp hi⟩
      rw [matLin_apply] at this
      rw [this]; simp
    exact h1.ne' h2
  let Gi := (LinearEquiv.ofInjectiveEndo (matLin (K := K) (M := M) n G) hinj).symm
  have hGi : ∀ v w, matLin (K := K) (M := M) n G v = w → Gi w = v := by
    intro v w h
    rw [← h]
    exact (LinearEquiv.ofInjectiveEndo (matLin (K := K) (M := M) n G) hinj).symm_apply_apply v
  let P : LinearMap.BilinForm K (Fin n → M) := LinearMap.mk₂ K (fun v w => ∑ i : Fin n, B (v i) (D i • w i))
    (fun v v' w => by simp [sum_add_distrib]) (fun c v w => by simp [mul_sum])
    (fun v w w' => by simp [sum_add_distrib]) (fun c v w => by
      rw [smul_eq_mul, mul_sum]
      refine sum_congr rfl fun i _ => ?_
      rw [Pi.smul_apply, smul_comm, map_smul, smul_eq_mul])
  let Q : LinearMap.BilinForm K (Fin n → M) := (dotForm B n).compl₁₂ (Gi.toLinearMap ∘ₗ matLin (K := K) n T) (matLin (K := K) n T)
  have hterm : ∀ i : Fin n, ∀ x : M, 0 ≤ B x (D i • x) := fun i x => by
    by_cases h : x = 0
    · subst h; simp
    · exact (hD i i.2 x h).le
  obtain ⟨c, hc, hle⟩ := form_bound P Q (fun v hv => by
      obtain ⟨i, hi⟩ : ∃ i, v i ≠ 0 := by
        by_contra h
        push Not at h
        exact hv (funext h)
      exact sum_pos' (fun j _ => hterm j _) ⟨i, mem_univ _, hD i i.2 _ hi⟩)
    (fun v w => by
      show ∑ i : Fin n, B (v i) (D i • w i) = ∑ i : Fin n, B (w i) (D i • v i)
      refine sum_congr rfl fun i _ => ?_
      rw [← hDs i i.2, hB])
  refine ⟨c, hc, fun e d h => ?_⟩
  have h1 := hle (fun i => d i)
  have hP : P (fun i : Fin n => d i) (fun i : Fin n => d i) = ∑ i ∈ range n, B (d i) (D i • d i) := by
    rw [sum_range]; rfl
  have hGe : matLin (K := K) n G (fun j : Fin n => e j) = - matLin (K := K) n T (fun j : Fin n => d j) := by
    funext i
    rw [matLin_apply, h i i.2, Pi.neg_apply, matLin_apply]
  have hQ : Q (fun i : Fin n => d i) (fun i : Fin n => d i) = vdot B n e (mulV n G e) := by
    have hT : matLin (K := K) n T (fun j : Fin n => d j) = - matLin (K := K) n G (fun j : Fin n => e j) := by rw [hGe, neg_neg]
    show dotForm B n (Gi (matLin (K := K) n T (fun j : Fin n => d j))) (matLin (K := K) n T (fun j : Fin n => d j)) = _
    rw [hT, map_neg, map_neg Gi, hGi _ _ rfl, map_neg, LinearMap.neg_apply, neg_neg]
    rw [← dotForm_apply]
    congr 1
    funext i
    exact matLin_apply n G e i
  rw [hP, hQ] at h1
  exact h1

/-- The inner product is bounded by a multiple of the energy. -/
theorem norm_bound {B : LinearMap.BilinForm K M} {n : Nat} {G : Nat → Nat → R} (hG : PosMat B n G)
    (hGs : SymMat B n G) (hB : ∀ x y, B x y = B y x) :
    ∃ c : K, 0 ≤ c ∧ ∀ e : Nat → M, vdot B n e e ≤ c * vdot B n e (mulV n G e) := by
  have hval : ∀ x y : Nat → M, (dotForm B n).compl₂ (matLin (K := K) n G) (fun i : Fin n => x i) (fun i : Fin n => y i) = vdot B n x (mulV n G y) := by
    intro x y
    show dotForm B n _ (matLin (K := K) n G (fun j : Fin n => y j)) = _
    rw [← dotForm_apply]
    congr 1
    funext i
    exact matLin_apply n G y i
  obtain ⟨c, hc, hle⟩ := form_bound ((dotForm B n).compl₂ (matLin (K := K) n G)) (dotForm B n)
    (fun v hv => by
      obtain ⟨x, rfl⟩ := exists_ext v
      rw [hval]
      refine hG x ?_
      by_contra h
      push Not at h
      exact hv (funext fun i => h i i.2))
    (fun v w => by
      obtain ⟨x, rfl⟩ := exists_ext v
      obtain ⟨y, rfl⟩ := exists_ext w
      rw [hval, hval, ← hGs.vdot, vdot_comm hB])
  refine ⟨c, hc, fun e => ?_⟩
  have := hle (fun i => e i)
  rwa [hval, dotForm_apply] at this

end lin

end Blasted
