import Verif.Krylov.Lemmas
import Mathlib.LinearAlgebra.FiniteDimensional.Lemmas

/-!
# Orthogonal directions: one restart cycle of `GCR::solve`
-/

namespace Blasted

open Matrix Finset

variable {K : Type} [Field K] [LinearOrder K]

/-! ### Arrays of vectors -/

/-- The array `p` of `nr` vectors holds `f 0, ..., f (d-1)`. -/
def Dirs (n nr d : Nat) (p : List (List K)) (f : Nat → Fin n → K) : Prop :=
  p.length = nr ∧ ∀ i < nr, ∃ l, p[i]? = some l ∧ l.length = n ∧ (i < d → vecN n l = f i)

omit [LinearOrder K] in
theorem Dirs.rd {n nr d : Nat} {p : List (List K)} {f : Nat → Fin n → K} (h : Dirs n nr d p f) {i : Nat} (hi : i < nr) :
    Ok (rd p i) (fun l => l.length = n ∧ (i < d → vecN n l = f i)) := by
  obtain ⟨l, e, h1, h2⟩ := h.2 i hi
  exact ⟨l, by unfold Blasted.rd; rw [e], h1, h2⟩

omit [LinearOrder K] in
theorem Dirs.wr {n nr d : Nat} {p : List (List K)} {f : Nat → Fin n → K} (h : Dirs n nr d p f) {i : Nat} (hi : i < nr)
    {l : List K} (hl : l.length = n) (d' : Nat) (f' : Nat → Fin n → K) (hf : ∀ j < d', j ≠ i → j < d ∧ f' j = f j)
    (hv : vecN n l = f' i) : Ok (wr p i l) (fun p' => Dirs n nr d' p' f') := by
  refine ⟨p.set i l, wr_eq (by rw [h.1]; exact hi), by rw [List.length_set]; exact h.1, fun j hj => ?_⟩
  by_cases e : i = j
  · subst e
    exact ⟨l, by rw [List.getElem?_set_self (by rw [h.1]; exact hi)], hl, fun _ => hv⟩
  · obtain ⟨l', e', h1, h2⟩ := h.2 j hj
    refine ⟨l', by rw [List.getElem?_set_ne e]; exact e', h1, fun hd => ?_⟩
    obtain ⟨h3, h4⟩ := hf j hd (Ne.symm e)
    rw [h4]; exact h2 h3

omit [LinearOrder K] in
theorem Dirs.start (n nr : Nat) (f : Nat → Fin n → K) : Dirs n nr 0 (List.replicate nr (List.replicate n (0 : K))) f :=
  ⟨List.length_replicate, fun i hi => ⟨List.replicate n 0, by rw [List.getElem?_replicate, if_pos hi],
    List.length_replicate, fun h => absurd h (Nat.not_lt_zero i)⟩⟩

/-! ### The invariant of a cycle -/

/-- `k` steps of a cycle that began at iterate `X m` have been taken, and `d` directions `Pv` computed, from the
preconditioned residuals `Z m, Z (m+1), ...`. -/
structure GcrInv (A : MatView K) (b : List K) (m k d : Nat) (X Z Pv : Nat → Fin A.dim → K) : Prop where
  zspan : ∀ i < d, Z (m + i) - Pv i ∈ Submodule.span K (Pv '' Set.Iio i)
  orth : ∀ j < d, ∀ i < j, (A.mat *ᵥ Pv j) ⬝ᵥ (A.mat *ᵥ Pv i) = 0
  pos : ∀ i < k, (A.mat *ᵥ Pv i) ⬝ᵥ (A.mat *ᵥ Pv i) ≠ 0
  xspan : X (m + k) - X m ∈ Submodule.span K (Pv '' Set.Iio k)
  rorth : ∀ i < k, A.resid b (X (m + k)) ⬝ᵥ (A.mat *ᵥ Pv i) = 0

section
variable {A : MatView K} {b : List K} {m k d : Nat} {X Z Pv : Nat → Fin A.dim → K}

omit [LinearOrder K] in
theorem GcrInv.start (hz : Z m = Pv 0) : GcrInv A b m 0 1 X Z Pv where
  zspan := fun i hi => by
    obtain rfl : i = 0 := by omega
    rw [Nat.add_zero, hz, sub_self]; exact Submodule.zero_mem _
  orth := fun j hj i hi => absurd hi (by omega)
  pos := fun i hi => absurd hi (Nat.not_lt_zero i)
  xspan := by rw [Nat.add_zero, sub_self]; exact Submodule.zero_mem _
  rorth := fun i hi => absurd hi (Nat.not_lt_zero i)

omit [Field K] [LinearOrder K] in
theorem image_congr_Iio {f g : Nat → Fin A.dim → K} {i : Nat} (h : ∀ j < i, g j = f j) :
    g '' Set.Iio i = f '' Set.Iio i := Set.image_congr fun j hj => h j hj

omit [LinearOrder K] in
theorem GcrInv.congr (h : GcrInv A b m k d X Z Pv) (hkd : k ≤ d) {X' Z' Pv' : Nat → Fin A.dim → K}
    (hX : ∀ i ≤ m + k, X' i = X i) (hZ : ∀ i < m + d, Z' i = Z i) (hP : ∀ i < d, Pv' i = Pv i) :
    GcrInv A b m k d X' Z' Pv' where
  zspan := fun i hi => by
    rw [hZ _ (by omega), hP i hi, image_congr_Iio fun j hj => hP j (by omega)]; exact h.zspan i hi
  orth := fun j hj i hi => by rw [hP j hj, hP i (by omega)]; exact h.orth j hj i hi
  pos := fun i hi => by rw [hP i (by omega)]; exact h.pos i hi
  xspan := by
    rw [hX _ le_rfl, hX m (by omega), image_congr_Iio fun j hj => hP j (by omega)]; exact h.xspan
  rorth := fun i hi => by rw [hX _ le_rfl, hP i (by omega)]; exact h.rorth i hi

omit [LinearOrder K] in
/-- The update of `x` and `res`. -/
theorem GcrInv.step (h : GcrInv A b m k (k + 1) X Z Pv) {alpha : K}
    (hden : (A.mat *ᵥ Pv k) ⬝ᵥ (A.mat *ᵥ Pv k) ≠ 0)
    (ha : alpha * ((A.mat *ᵥ Pv k) ⬝ᵥ (A.mat *ᵥ Pv k)) = A.resid b (X (m + k)) ⬝ᵥ (A.mat *ᵥ Pv k))
    (hX : X (m + (k + 1)) = X (m + k) + alpha • Pv k) : GcrInv A b m (k + 1) (k + 1) X Z Pv where
  zspan := h.zspan
  orth := h.orth
  pos := fun i hi => by
    by_cases e : i = k
    · rw [e]; exact hden
    · exact h.pos i (by omega)
  xspan := by
    rw [hX, add_sub_right_comm]
    refine Submodule.add_mem _ (Submodule.span_mono (Set.image_mono fun i (hi : i < k) => (show i < k + 1 by omega)) h.xspan) ?_
    exact Submodule.smul_mem _ _ (Submodule.subset_span ⟨k, Nat.lt_succ_self k, rfl⟩)
  rorth := fun i hi => by
    rw [hX, resid_add, mulVec_smul, sub_dotProduct, smul_dotProduct, smul_eq_mul]
    by_cases e : i = k
    · rw [e, ← ha, sub_self]
    · rw [h.rorth i (by omega), h.orth k (by omega) i (by omega), mul_zero, sub_zero]

omit [LinearOrder K] in
/-- The next direction. -/
theorem GcrInv.next (h : GcrInv A b m (k + 1) (k + 1) X Z Pv) (beta : Nat → K)
    (hbeta : ∀ i < k + 1, beta i * ((A.mat *ᵥ Pv i) ⬝ᵥ (A.mat *ᵥ Pv i)) = -((A.mat *ᵥ Z (m + (k + 1))) ⬝ᵥ (A.mat *ᵥ Pv i)))
    (hP : Pv (k + 1) = Z (m + (k + 1)) + ∑ l ∈ range (k + 1), beta l • Pv l) :
    GcrInv A b m (k + 1) (k + 2) X Z Pv where
  zspan := fun i hi => by
    by_cases e : i = k + 1
    · subst e
      rw [hP, sub_add_cancel_left]
      refine Submodule.neg_mem _ (Submodule.sum_mem _ fun l hl => Submodule.smul_mem _ _ (Submodule.subset_span ⟨l, ?_, rfl⟩))
      exact mem_range.mp hl
    · exact h.zspan i (by omega)
  orth := fun j hj i hi => by
    by_cases e : j = k + 1
    · subst e
      rw [hP, mulVec_add, mulVec_sum, add_dotProduct, sum_dotProduct, sum_eq_single i]
      · rw [mulVec_smul, smul_dotProduct, smul_eq_mul, hbeta i hi, add_neg_cancel]
      · intro l hl hne
        rw [mulVec_smul, smul_dotProduct]
        rcases lt_or_gt_of_ne hne with hlt | hgt
        · rw [dotProduct_comm, h.orth i hi l hlt, smul_zero]
        · rw [h.orth l (mem_range.mp hl) i hgt, smul_zero]
      · intro hn; exact absurd (mem_range.mpr hi) hn
    · exact h.orth j (by omega) i hi
  pos := h.pos
  xspan := h.xspan
  rorth := h.rorth

omit [LinearOrder K] in
/-- The directions span the same spaces as the preconditioned residuals. -/
theorem GcrInv.span_eq (h : GcrInv A b m k d X Z Pv) : ∀ i ≤ d,
    Submodule.span K (Z '' Set.Ico m (m + i)) = Submodule.span K (Pv '' Set.Iio i) := by
  intro i
  induction i with
  | zero => intro _; rw [Nat.add_zero, Set.Ico_self, Set.image_empty]; congr 1; ext v; simp
  | succ i ih =>
    intro hi
    have ih := ih (by omega)
    have h1 := h.zspan i (by omega)
    have hm1 : Submodule.span K (Pv '' Set.Iio i) ≤ Submodule.span K (Pv '' Set.Iio (i + 1)) :=
      Submodule.span_mono (Set.image_mono fun l (hl : l < i) => (show l < i + 1 by omega))
    have hm2 : Submodule.span K (Z '' Set.Ico m (m + i)) ≤ Submodule.span K (Z '' Set.Ico m (m + (i + 1))) :=
      Submodule.span_mono (Set.image_mono fun l (hl : m ≤ l ∧ l < m + i) => (show m ≤ l ∧ l < m + (i + 1) by omega))
    apply le_antisymm
    · refine Submodule.span_le.mpr ?_
      rintro v ⟨l, ⟨hl1, hl2⟩, rfl⟩
      by_cases e : l = m + i
      · subst e
        have := Submodule.add_mem _ (hm1 h1) (Submodule.subset_span (s := Pv '' Set.Iio (i + 1)) ⟨i, Nat.lt_succ_self i, rfl⟩)
        rwa [sub_add_cancel] at this
      · refine hm1 ?_
        rw [← ih]
        exact Submodule.subset_span ⟨l, ⟨hl1, by omega⟩, rfl⟩
    · refine Submodule.span_le.mpr ?_
      rintro v ⟨l, hl, rfl⟩
      have hl' : l < i + 1 := hl
      by_cases e : l = i
      · subst e
        rw [← ih] at h1
        have := Submodule.sub_mem _ (Submodule.subset_span (s := Z '' Set.Ico m (m + (l + 1))) ⟨m + l, ⟨by omega, by omega⟩, rfl⟩) (hm2 h1)
        rwa [sub_sub_cancel] at this
      · refine hm2 ?_
        rw [ih]
        exact Submodule.subset_span ⟨l, (show l < i by omega), rfl⟩

omit [LinearOrder K] in
theorem GcrInv.rorth_span (h : GcrInv A b m k d X Z Pv) {u : Fin A.dim → K} (hu : u ∈ Submodule.span K (Pv '' Set.Iio k)) :
    A.resid b (X (m + k)) ⬝ᵥ (A.mat *ᵥ u) = 0 := by
  induction hu using Submodule.span_induction with
  | mem v hv => obtain ⟨i, hi, rfl⟩ := hv; exact h.rorth i hi
  | zero => rw [mulVec_zero, dotProduct_zero]
  | add v w _ _ h1 h2 => rw [mulVec_add, dotProduct_add, h1, h2, add_zero]
  | smul a v _ h1 => rw [mulVec_smul, dotProduct_smul, h1, smul_zero]

omit [LinearOrder K] in
theorem GcrInv.orth_span (h : GcrInv A b m k d X Z Pv) {j : Nat} (hj : j < d) {u : Fin A.dim → K}
    (hu : u ∈ Submodule.span K (Pv '' Set.Iio j)) : (A.mat *ᵥ Pv j) ⬝ᵥ (A.mat *ᵥ u) = 0 := by
  induction hu using Submodule.span_induction with
  | mem v hv => obtain ⟨i, hi, rfl⟩ := hv; exact h.orth j hj i hi
  | zero => rw [mulVec_zero, dotProduct_zero]
  | add v w _ _ h1 h2 => rw [mulVec_add, dotProduct_add, h1, h2, add_zero]
  | smul a v _ h1 => rw [mulVec_smul, dotProduct_smul, h1, smul_zero]

/-- The residual is the smallest of the whole space that has been searched in this cycle. -/
theorem GcrInv.optimal [IsStrictOrderedRing K] (h : GcrInv A b m k d X Z Pv) {u : Fin A.dim → K}
    (hu : u ∈ Submodule.span K (Pv '' Set.Iio k)) : nrm2 (A.resid b (X (m + k))) ≤ nrm2 (A.resid b (X m + u)) := by
  have e : A.resid b (X m + u) = A.resid b (X (m + k)) - (-1 : K) • (A.mat *ᵥ (X (m + k) - X m - u)) := by
    have : X m + u = X (m + k) + (-(X (m + k) - X m - u)) := by
      funext i; simp only [Pi.add_apply, Pi.neg_apply, Pi.sub_apply]; ring
    rw [this, resid_add, mulVec_neg, neg_one_smul]
  rw [e, nrm2_sub_smul, h.rorth_span (Submodule.sub_mem _ h.xspan hu)]
  nlinarith [nrm2_nonneg (A.mat *ᵥ (X (m + k) - X m - u))]

/-- If the direction is zero then the preconditioned residual is useless. -/
theorem GcrInv.breakdown [IsStrictOrderedRing K] (h : GcrInv A b m k (k + 1) X Z Pv)
    (h0 : (A.mat *ᵥ Pv k) ⬝ᵥ (A.mat *ᵥ Pv k) = 0) : A.resid b (X (m + k)) ⬝ᵥ (A.mat *ᵥ Z (m + k)) = 0 := by
  have h1 := h.rorth_span (h.zspan k (by omega))
  rw [mulVec_sub, dotProduct_sub, dotProduct_self_eq_zero.mp h0, dotProduct_zero, sub_zero] at h1
  exact h1

omit [LinearOrder K] in
/-- If the direction is not zero then the preconditioned residual was a new one. -/
theorem GcrInv.fresh (h : GcrInv A b m k (k + 1) X Z Pv)
    (h0 : (A.mat *ᵥ Pv k) ⬝ᵥ (A.mat *ᵥ Pv k) ≠ 0) :
    A.mat *ᵥ Z (m + k) ∉ Submodule.span K ((fun j => A.mat *ᵥ Z j) '' Set.Ico m (m + k)) := by
  intro hin
  have himg : (fun j => A.mat *ᵥ Z j) '' Set.Ico m (m + k) = A.mat.mulVecLin '' (Z '' Set.Ico m (m + k)) := by
    rw [Set.image_image]; rfl
  rw [himg, ← Submodule.map_span, h.span_eq k (by omega)] at hin
  obtain ⟨u, hu, e⟩ := hin
  have e : A.mat *ᵥ u = A.mat *ᵥ Z (m + k) := e
  refine h0 ?_
  have h2 := h.orth_span (by omega) (Submodule.sub_mem _ (h.zspan k (by omega)) hu)
  rw [mulVec_sub, mulVec_sub, e, sub_sub_cancel_left, dotProduct_neg, neg_eq_zero] at h2
  exact h2

end

end Blasted
