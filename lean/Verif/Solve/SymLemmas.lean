import Verif.Base.Dot
import Verif.Solve.DomProps
import Verif.Levels.Props

/-!
# Symmetric matrices: the SGS matrix and the incomplete factors
-/

namespace Blasted

open Finset

variable {R M K V : Type}

section adj
variable [Ring R] [AddCommGroup M] [Module R M] [Field K] [Module K M]

/-- `b` is the transpose of `a`. -/
def Adj (B : LinearMap.BilinForm K M) (a b : R) : Prop := ∀ x y : M, B (a • x) y = B x (b • y)

variable {B : LinearMap.BilinForm K M} {a a' b b' c : R}

theorem Adj.zero : Adj B (0 : R) 0 := fun x y => by simp
theorem Adj.one : Adj B (1 : R) 1 := fun x y => by simp

theorem Adj.add (h : Adj B a b) (h' : Adj B a' b') : Adj B (a + a') (b + b') := fun x y => by
  rw [add_smul, add_smul, map_add, map_add, LinearMap.add_apply, h, h']

theorem Adj.sub (h : Adj B a b) (h' : Adj B a' b') : Adj B (a - a') (b - b') := fun x y => by
  rw [sub_smul, sub_smul, map_sub, map_sub, LinearMap.sub_apply, h, h']

theorem Adj.mul (h : Adj B a b) (h' : Adj B a' b') : Adj B (a * a') (b' * b) := fun x y => by
  rw [mul_smul, mul_smul, h, h']

theorem Adj.sum {ι : Type} {s : Finset ι} {f g : ι → R} (h : ∀ i ∈ s, Adj B (f i) (g i)) : Adj B (∑ i ∈ s, f i) (∑ i ∈ s, g i) := fun x y => by
  rw [sum_smul, sum_smul, map_sum, map_sum, LinearMap.sum_apply]
  exact sum_congr rfl fun i hi => h i hi x y

theorem Adj.symm (hB : ∀ x y, B x y = B y x) (h : Adj B a b) : Adj B b a := fun x y => by
  rw [hB, ← h, hB]

/-- The inverse of a symmetric entry is symmetric. -/
theorem Adj.inv (h : Adj B a a) (h1 : a * c = 1) : Adj B c c := fun x y => by
  have e : y = (a * c) • y := by rw [h1, one_smul]
  conv_lhs => rw [e]
  rw [mul_smul, ← h, smul_smul, h1, one_smul]

/-- The inverse of a positive definite entry is positive definite. -/
theorem inv_pos_def [LinearOrder K] (h : Adj B a a) (hp : ∀ x : M, x ≠ 0 → 0 < B x (a • x)) (h1 : a * c = 1) {x : M} (hx : x ≠ 0) :
    0 < B x (c • x) := by
  have e : a • c • x = x := by rw [smul_smul, h1, one_smul]
  have hne : c • x ≠ 0 := fun h0 => hx (by rw [← e, h0, smul_zero])
  have := hp _ hne
  rw [← h, e] at this
  exact this

/-! ### The SGS matrix -/

variable {A : SR R} {dinv : List R}

theorem sgsMat_sym (hsym : SymMat B A.nbrows A.entry) (hI : DiagInv A dinv) : SymMat B A.nbrows (sgsMat A dinv) := by
  intro i hi j hj
  refine Adj.sum (B := B) fun k hk => ?_
  rw [mem_range] at hk
  have h1 : Adj B (if k ≤ i then A.entry i k else 0) (if k ≤ i then A.entry k i else 0) := by
    split
    · exact hsym i hi k hk
    · exact Adj.zero
  have h2 : Adj B (if k ≤ j then A.entry k j else 0) (if k ≤ j then A.entry j k else 0) := by
    split
    · exact hsym k hk j hj
    · exact Adj.zero
  have h3 : Adj B dinv⟦k⟧ dinv⟦k⟧ := Adj.inv (hsym k hk k hk) (hI.right k hk)
  have := (h1.mul h3).mul h2
  rwa [← mul_assoc] at this

/-- `(z, M z)` for a product `M = ∑ k, P k * E k * Q k` with `P k i` the transpose of `Q k i`. -/
theorem vdot_factored {n : Nat} {G : Nat → Nat → R} {P Q : Nat → Nat → R} {E : Nat → R} (hB : ∀ x y, B x y = B y x)
    (hG : ∀ i < n, ∀ j < n, G i j = ∑ k ∈ range n, P i k * E k * Q k j) (hPQ : ∀ i < n, ∀ k < n, Adj B (P i k) (Q k i)) (z : Nat → M) :
    vdot B n z (mulV n G z) = ∑ k ∈ range n, B (mulV n Q z k) (E k • mulV n Q z k) := by
  have e1 : vdot B n z (mulV n G z) = ∑ i ∈ range n, ∑ j ∈ range n, ∑ k ∈ range n, B (Q k i • z i) (E k • Q k j • z j) := by
    rw [vdot_mulV]
    refine sum_congr rfl fun i hi => sum_congr rfl fun j hj => ?_
    rw [mem_range] at hi hj
    rw [hG i hi j hj, sum_smul, map_sum]
    refine sum_congr rfl fun k hk => ?_
    rw [mem_range] at hk
    rw [mul_smul, mul_smul, ← (hPQ i hi k hk).symm hB]
  have e2 : ∀ k, B (mulV n Q z k) (E k • mulV n Q z k) = ∑ i ∈ range n, ∑ j ∈ range n, B (Q k i • z i) (E k • Q k j • z j) := by
    intro k
    unfold mulV
    rw [map_sum, LinearMap.sum_apply]
    refine sum_congr rfl fun i _ => ?_
    rw [smul_sum, map_sum]
  rw [e1, sum_congr rfl fun k _ => e2 k]
  exact (sum_congr rfl fun i _ => sum_comm).trans sum_comm

/-- The SGS matrix is positive definite if the diagonal entries are. -/
theorem sgsMat_pos [LinearOrder K] [IsStrictOrderedRing K] (hB : ∀ x y, B x y = B y x) (hsym : SymMat B A.nbrows A.entry) (hI : DiagInv A dinv)
    (hpos : ∀ i < A.nbrows, ∀ x : M, x ≠ 0 → 0 < B x (A.entry i i • x)) : PosMat B A.nbrows (sgsMat A dinv) := by
  intro z hz
  rw [vdot_factored (G := sgsMat A dinv) (P := fun i k => if k ≤ i then A.entry i k else 0) (Q := fun k j => if k ≤ j then A.entry k j else 0)
    (E := get0 dinv) hB (fun i _ j _ => rfl) (fun i hi k hk => by
      split
      · exact hsym i hi k hk
      · exact Adj.zero)]
  set u := mulV A.nbrows (fun k j => if k ≤ j then A.entry k j else 0) z with hu
  have hE : ∀ k < A.nbrows, ∀ x : M, x ≠ 0 → 0 < B x (dinv⟦k⟧ • x) := fun k hk x hx =>
    inv_pos_def (hsym k hk k hk) (hpos k hk) (hI.right k hk) hx
  have hE0 : ∀ k < A.nbrows, ∀ x : M, 0 ≤ B x (dinv⟦k⟧ • x) := fun k hk x => by
    by_cases h : x = 0
    · subst h; simp
    · exact (hE k hk x h).le
  obtain ⟨k, hk, hne⟩ : ∃ k < A.nbrows, u k ≠ 0 := by
    by_contra h
    push Not at h
    -- back substitution: all segments of `z` vanish
    have hz0 : ∀ t i, A.nbrows - i = t → i < A.nbrows → z i = 0 := by
      intro t
      induction t using Nat.strong_induction_on with
      | _ t ih =>
        rintro i rfl hi
        have h1 := h i hi
        rw [hu, mulV, sum_eq_single i (fun j hj hne => by
          rw [mem_range] at hj
          rcases Nat.lt_or_gt_of_ne hne with hlt | hgt
          · rw [if_neg (by omega), zero_smul]
          · rw [ih (A.nbrows - j) (by omega) j rfl hj, smul_zero]) (fun h => absurd (mem_range.mpr hi) h), if_pos le_rfl] at h1
        have h2 : dinv⟦i⟧ • A.entry i i • z i = 0 := by rw [h1, smul_zero]
        rwa [smul_smul, hI.left i hi, one_smul] at h2
    obtain ⟨i, hi, hne⟩ := hz
    exact hne (hz0 _ i rfl hi)
  exact sum_pos' (fun j hj => hE0 j (mem_range.mp hj) _) ⟨k, mem_range.mpr hk, hE k hk _ hne⟩

end adj

/-! ### Incomplete factors -/

section ilu
variable [Ring R] [AddCommGroup M] [Module R M] [Field K] [Module K M] {B : LinearMap.BilinForm K M}
variable {A : SR V} {m : Nat} {u : List R} {S : Nat → Nat → R}

theorem lowerFactor_above (A : SR V) (u : List R) {i k : Nat} (h : i < k) : lowerFactor A u i k = 0 := by
  unfold lowerFactor; rw [if_neg (by omega), if_neg (by omega)]

theorem lowerFactor_self (A : SR V) (u : List R) (i : Nat) : lowerFactor A u i i = 1 := by
  unfold lowerFactor; rw [if_neg (by omega), if_pos rfl]

theorem upperFactor_below (A : SR V) (u : List R) {k j : Nat} (h : j < k) : upperFactor A u k j = 0 := by
  unfold upperFactor; rw [if_neg (by omega)]

/-- The product up to the smaller of the two indices. -/
theorem luProd_split (A : SR V) (u : List R) {i j μ : Nat} (hμ : μ < A.nbrows) (h : i ≤ μ ∨ j ≤ μ) :
    luProd A u i j = ∑ k ∈ range μ, lowerFactor A u i k * upperFactor A u k j + lowerFactor A u i μ * upperFactor A u μ j := by
  unfold luProd
  rw [← sum_range_add_sum_Ico (fun k => lowerFactor A u i k * upperFactor A u k j) hμ, sum_range_succ,
    sum_eq_zero (s := Ico (μ + 1) A.nbrows) (fun k hk => by
      rw [mem_Ico] at hk
      rcases h with h | h
      · rw [lowerFactor_above A u (by omega), zero_mul]
      · rw [upperFactor_below A u (by omega), mul_zero]), add_zero]

/-- For a symmetric matrix the column of `L` below a pivot, multiplied by the pivot, is the transpose of the row of `U`. -/
theorem exact_adj (hA : A.Full m) (hD : A.HasDiag) (hpat : SymPattern A) (hl : u.length = A.browptr⟦A.nbrows⟧)
    (hB : ∀ x y, B x y = B y x) (hS : SymMat B A.nbrows S) (hex : ExactILU A S u) (hp : PivotsOk A u) :
    ∀ j i, j ≤ i → i < A.nbrows → Adj B (lowerFactor A u i j * upperFactor A u j j) (upperFactor A u j i) := by
  intro j
  induction j using Nat.strong_induction_on with
  | _ j ih =>
    intro i hji hi
    have hj : j < A.nbrows := by omega
    have hprod : ∀ k < j, ∀ a b, j ≤ a → j ≤ b → a < A.nbrows → b < A.nbrows →
        Adj B (lowerFactor A u a k * upperFactor A u k b) (lowerFactor A u b k * upperFactor A u k a) := by
      intro k hk a b ha hb han hbn
      obtain ⟨v, hv⟩ := hp k (by omega)
      have hkk : Adj B (upperFactor A u k k) (upperFactor A u k k) := by
        have := ih k hk k le_rfl (by omega)
        rwa [lowerFactor_self, one_mul] at this
      have hvi : Adj B (↑v⁻¹ : R) (↑v⁻¹ : R) := Adj.inv hkk (by rw [← hv]; exact v.mul_inv)
      have h1 := ((ih k hk a (by omega) han).mul hvi).mul ((ih k hk b (by omega) hbn).symm hB)
      rw [← hv, Units.mul_inv_cancel_right, mul_assoc, Units.mul_inv_cancel_left] at h1
      exact h1
    by_cases hst : Nbr A i j
    · obtain ⟨p, hpr, hpc⟩ := id hst
      obtain ⟨q, hqr, hqc⟩ := hpat i hi j hj hst
      have e1 := hex i hi p hpr
      have e2 := hex j hj q hqr
      rw [hpc, luProd_split A u hj (.inr le_rfl)] at e1
      rw [hqc, luProd_split A u hj (.inl le_rfl), lowerFactor_self, one_mul] at e2
      rw [← eq_sub_iff_add_eq'] at e1 e2
      rw [e1, e2]
      refine Adj.sub (hS i hi j hj) (Adj.sum fun k hk => ?_)
      exact hprod k (mem_range.mp hk) i j hji le_rfl hi hj
    · have h1 : facEntry A u i j = 0 := facEntry_unstored hA hl hi fun k hk hc => hst ⟨k, hk, hc⟩
      have h2 : facEntry A u j i = 0 := facEntry_unstored hA hl hj fun k hk hc => hst (hpat j hj i hi ⟨k, hk, hc⟩)
      have hne : j ≠ i := by
        rintro rfl
        exact hst ⟨_, hD.inRow hi, hD.diag_col _ hi⟩
      have h3 : lowerFactor A u i j = 0 := by unfold lowerFactor; rw [if_pos (by omega), h1]
      have h4 : upperFactor A u j i = 0 := by unfold upperFactor; rw [if_pos hji, h2]
      rw [h3, h4, zero_mul]
      exact Adj.zero

/-- The products of the factors of a symmetric matrix are symmetric term by term. -/
theorem lu_terms_adj (hA : A.Full m) (hD : A.HasDiag) (hpat : SymPattern A) (hl : u.length = A.browptr⟦A.nbrows⟧)
    (hB : ∀ x y, B x y = B y x) (hS : SymMat B A.nbrows S) (hex : ExactILU A S u) (hp : PivotsOk A u) {i j k : Nat}
    (hi : i < A.nbrows) (hj : j < A.nbrows) (hk : k < A.nbrows) :
    Adj B (lowerFactor A u i k * upperFactor A u k j) (lowerFactor A u j k * upperFactor A u k i) := by
  have had := exact_adj hA hD hpat hl hB hS hex hp
  rcases lt_or_ge i k with h | h
  · rw [lowerFactor_above A u h, upperFactor_below A u h, zero_mul, mul_zero]
    exact Adj.zero
  rcases lt_or_ge j k with h' | h'
  · rw [lowerFactor_above A u h', upperFactor_below A u h', zero_mul, mul_zero]
    exact Adj.zero
  obtain ⟨v, hv⟩ := hp k hk
  have hkk : Adj B (upperFactor A u k k) (upperFactor A u k k) := by
    have := had k k le_rfl hk
    rwa [lowerFactor_self, one_mul] at this
  have hvi : Adj B (↑v⁻¹ : R) (↑v⁻¹ : R) := Adj.inv hkk (by rw [← hv]; exact v.mul_inv)
  have h1 := ((had k i h hi).mul hvi).mul ((had k j h' hj).symm hB)
  rw [← hv, Units.mul_inv_cancel_right, mul_assoc, Units.mul_inv_cancel_left] at h1
  exact h1

theorem luProd_sym (hA : A.Full m) (hD : A.HasDiag) (hpat : SymPattern A) (hl : u.length = A.browptr⟦A.nbrows⟧)
    (hB : ∀ x y, B x y = B y x) (hS : SymMat B A.nbrows S) (hex : ExactILU A S u) (hp : PivotsOk A u) :
    SymMat B A.nbrows (luProd A u) := fun _ hi _ hj =>
  Adj.sum (B := B) fun _ hk => lu_terms_adj hA hD hpat hl hB hS hex hp hi hj (mem_range.mp hk)

/-- The product of the factors of a symmetric matrix is positive definite if the pivots are. -/
theorem luProd_pos [LinearOrder K] [IsStrictOrderedRing K] (hA : A.Full m) (hD : A.HasDiag) (hpat : SymPattern A)
    (hl : u.length = A.browptr⟦A.nbrows⟧)
    (hB : ∀ x y, B x y = B y x) (hS : SymMat B A.nbrows S) (hex : ExactILU A S u) (hp : PivotsOk A u)
    (hpos : ∀ i < A.nbrows, ∀ x : M, x ≠ 0 → 0 < B x (upperFactor A u i i • x)) : PosMat B A.nbrows (luProd A u) := by
  intro z hz
  have had := exact_adj hA hD hpat hl hB hS hex hp
  have hkk : ∀ k < A.nbrows, Adj B (upperFactor A u k k) (upperFactor A u k k) := fun k hk => by
    have := had k k le_rfl hk
    rwa [lowerFactor_self, one_mul] at this
  choose! v hv using hp
  rw [vdot_factored (G := luProd A u) (P := fun i k => lowerFactor A u i k * upperFactor A u k k) (Q := upperFactor A u)
    (E := fun k => (↑(v k)⁻¹ : R)) hB (fun i _ j _ => sum_congr rfl fun k hk => by
      rw [← hv k (mem_range.mp hk), Units.mul_inv_cancel_right]) (fun i hi k hk => by
      rcases lt_or_ge i k with h | h
      · rw [lowerFactor_above A u h, upperFactor_below A u h, zero_mul]
        exact Adj.zero
      · exact had k i h hi)]
  set w := mulV A.nbrows (upperFactor A u) z with hw
  have hE : ∀ k < A.nbrows, ∀ x : M, x ≠ 0 → 0 < B x ((↑(v k)⁻¹ : R) • x) := fun k hk x hx =>
    inv_pos_def (hkk k hk) (hpos k hk) (by rw [← hv k hk]; exact (v k).mul_inv) hx
  have hE0 : ∀ k < A.nbrows, ∀ x : M, 0 ≤ B x ((↑(v k)⁻¹ : R) • x) := fun k hk x => by
    by_cases h : x = 0
    · subst h; simp
    · exact (hE k hk x h).le
  obtain ⟨k, hk, hne⟩ : ∃ k < A.nbrows, w k ≠ 0 := by
    by_contra h
    push Not at h
    have hz0 : ∀ t i, A.nbrows - i = t → i < A.nbrows → z i = 0 := by
      intro t
      induction t using Nat.strong_induction_on with
      | _ t ih =>
        rintro i rfl hi
        have h1 := h i hi
        rw [hw, mulV, sum_eq_single i (fun j hj hne => by
          rw [mem_range] at hj
          rcases Nat.lt_or_gt_of_ne hne with hlt | hgt
          · rw [upperFactor_below A u hlt, zero_smul]
          · rw [ih (A.nbrows - j) (by omega) j rfl hj, smul_zero]) (fun h => absurd (mem_range.mpr hi) h), ← hv i hi] at h1
        have h2 : (↑(v i)⁻¹ : R) • (v i : R) • z i = 0 := by rw [h1, smul_zero]
        rwa [smul_smul, (v i).inv_mul, one_smul] at h2
    obtain ⟨i, hi, hne⟩ := hz
    exact hne (hz0 _ i rfl hi)
  exact sum_pos' (fun j hj => hE0 j (mem_range.mp hj) _) ⟨k, mem_range.mpr hk, hE k hk _ hne⟩

end ilu

/-! ### The signs of the pivots of dominant matrices -/

section dom
variable [Field K] [LinearOrder K] [IsStrictOrderedRing K]

/-- The pivots of a (weighted) strictly dominant matrix have the signs of its diagonal entries; they are positive for a positive diagonal. -/
theorem pivot_pos {A : SR V} {m : Nat} (hA : A.Full m) (hD : A.HasDiag) {u : List K}
    (hl : u.length = A.browptr⟦A.nbrows⟧) {S : Nat → Nat → K} {d : Nat → K} {rho : K} (hS : WDominant A.nbrows S d rho)
    (h1 : rho < 1) (he : ExactILU A S u) {i : Nat} (hi : i < A.nbrows) (hpos : 0 < S i i) : 0 < upperFactor A u i i := by
  set n := A.nbrows with hn
  set L := lowerFactor A u with hL
  set U := upperFactor A u with hUd
  have hrow : RowFac n (fun i j => ∃ p, A.InRow i p ∧ A.bcolind⟦p⟧ = j) S L U i := rowFac_of_exact hA hD hl hi (he i hi)
  have hU : ∀ k j, j < k → U k j = 0 := upperFactor_zero A u
  have hex : ∀ k < n, 0 ≤ excess n U d k := fun k hk =>
    le_trans (mul_nonneg (sub_nonneg.mpr h1.le) (mul_nonneg (abs_nonneg _) (hS.pos k hk).le))
      (exact_excess hA hD hl hS h1 hk fun k' _ p hp => he k' (by omega) p hp)
  classical
  set d' : Nat → K := fun j => if j < i then d j else 0 with hd'
  have hd0 : ∀ j < n, 0 ≤ d' j := fun j hj => by
    rw [hd']; dsimp only
    split
    · exact (hS.pos j hj).le
    · exact le_rfl
  have hest := hrow.estimate hi hU hd0 (t := 0) le_rfl zero_le_one
    (N := fun j => if ∃ p, A.InRow i p ∧ A.bcolind⟦p⟧ = j then 0 else ∑ k ∈ range n, L i k * U k j)
    (fun j _ h => if_pos h) (fun j _ h => if_neg h)
  -- the excess with the truncated weights
  have hexc : ∀ k < i, |U k i| * d i ≤ excess n U d' k := by
    intro k hk
    have h2 := hex k (by omega)
    unfold excess at h2 ⊢
    rw [← sum_Ico_consecutive (fun j => |U k j| * d j) (show k + 1 ≤ i by omega) hi.le,
      sum_eq_sum_Ico_succ_bot hi] at h2
    rw [← sum_Ico_consecutive (fun j => |U k j| * d' j) (show k + 1 ≤ i by omega) hi.le,
      sum_congr (s₁ := Ico (k + 1) i) rfl (g := fun j => |U k j| * d j) fun j hj => by
        rw [mem_Ico] at hj; rw [hd']; dsimp only; rw [if_pos hj.2],
      sum_eq_zero (s := Ico i n) fun j hj => by
        rw [mem_Ico] at hj; rw [hd']; dsimp only; rw [if_neg (by omega), mul_zero]]
    have h3 : d' k = d k := by rw [hd']; exact if_pos hk
    rw [h3]
    have h4 : 0 ≤ ∑ j ∈ Ico (i + 1) n, |U k j| * d j :=
      sum_nonneg fun j hj => mul_nonneg (abs_nonneg _) (hS.pos j (mem_Ico.mp hj).2).le
    linarith
  have hsub : subSum L U i i * d i ≤ ∑ j ∈ range i, |S i j| * d j := by
    have h2 : subSum L U i i * d i ≤ ∑ k ∈ range i, |L i k| * excess n U d' k := by
      unfold subSum
      rw [sum_mul]
      refine sum_le_sum fun k hk => ?_
      rw [mem_range] at hk
      rw [if_pos hk, mul_assoc]
      exact mul_le_mul_of_nonneg_left (hexc k hk) (abs_nonneg _)
    have h3 : 0 ≤ ∑ j ∈ range n, |if ∃ p, A.InRow i p ∧ A.bcolind⟦p⟧ = j then 0 else ∑ k ∈ range n, L i k * U k j| * d' j :=
      sum_nonneg fun j hj => mul_nonneg (abs_nonneg _) (hd0 j (mem_range.mp hj))
    have h4 : ∑ j ∈ range i, |S i j| * d' j = ∑ j ∈ range i, |S i j| * d j := sum_congr rfl fun j hj => by
      rw [hd']; dsimp only; rw [if_pos (mem_range.mp hj)]
    rw [h4] at hest
    linarith
  have hdom : ∑ j ∈ range i, |S i j| * d j < S i i * d i := by
    have h2 := hS.dom i hi
    rw [sum_erase_split hi] at h2
    have h3 : 0 ≤ ∑ j ∈ Ico (i + 1) n, |S i j| * d j :=
      sum_nonneg fun j hj => mul_nonneg (abs_nonneg _) (hS.pos j (mem_Ico.mp hj).2).le
    rw [abs_of_pos hpos] at h2
    have h4 : rho * (S i i * d i) < 1 * (S i i * d i) := mul_lt_mul_of_pos_right h1 (mul_pos hpos (hS.pos i hi))
    linarith
  have hlt : subSum L U i i < S i i := lt_of_mul_lt_mul_right (hsub.trans_lt hdom) (hS.pos i hi).le
  obtain ⟨e, hb⟩ := hrow.split_up hi le_rfl
  have hp := hrow.prod i hi hrow.diag
  rw [e] at hp
  have := (abs_le.mp hb).2
  linarith

end dom

end Blasted
