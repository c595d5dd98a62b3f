import Verif.Arith.FlSolveProps
import Verif.Arith.FlFacProps

/-!
# C66: factorization and application together, in rounded arithmetic
-/

namespace Blasted

open Finset

section
variable {K : Type} [Field K] [LinearOrder K] [IsStrictOrderedRing K] {u : K}

theorem gam_add_le (h0 : 0 ≤ u) (h1 : u < 1) (j k : Nat) : gam u j + gam u k ≤ gam u (j + k) := by
  have a := gam_nonneg h0 h1 j
  have b := gam_nonneg h0 h1 k
  have e : gam u (j + k) = (1 + gam u j) * (1 + gam u k) - 1 := by
    unfold gam; rw [pow_add, mul_inv]; ring
  rw [e]
  nlinarith [mul_nonneg a b]

end

section
variable {V R : Type} [Ring R] {A : SR V} {m : Nat}

/-- Without fill, the product of the factors vanishes outside of the pattern. -/
theorem luProd_off_pattern (hA : A.Full m) (hN : NoFill A) {ilu : List R} (hl : ilu.length = A.browptr⟦A.nbrows⟧) {i j : Nat} (hi : i < A.nbrows)
    (hn : ¬ Nbr A i j) : luProd A ilu i j = 0 := by
  refine sum_eq_zero fun k hk => ?_
  have hk' := mem_range.mp hk
  unfold lowerFactor upperFactor
  by_cases hki : k < i
  · rw [if_pos hki]
    by_cases h1 : Nbr A i k
    · by_cases hkj : k ≤ j
      · rw [if_pos hkj]
        rcases Nat.eq_or_lt_of_le hkj with rfl | hkj
        · exact absurd h1 hn
        · rw [facEntry_eq_zero hA hl hk' (fun h2 => hn (hN i hi k hki j hkj h1 h2)), mul_zero]
      · rw [if_neg hkj, mul_zero]
    · rw [facEntry_eq_zero hA hl hi h1, zero_mul]
  · rw [if_neg hki]
    by_cases hki' : k = i
    · subst hki'
      by_cases hkj : k ≤ j
      · rw [if_pos hkj, facEntry_eq_zero hA hl hi hn, mul_zero]
      · rw [if_neg hkj, mul_zero]
    · rw [if_neg hki', zero_mul]

end

variable {F K : Type} [Zero F] [Add F] [Sub F] [Mul F] [PInvOp F] [Field K] [LinearOrder K] [IsStrictOrderedRing K] (ρ : Rounding F K)

omit [LinearOrder K] [IsStrictOrderedRing K] in
theorem facEntry_fuzz {V : Type} {A : SR V} {m : Nat} (hA : A.Full m) (hS : A.Sorted) {a a' : List K} (hl : a.length = A.browptr⟦A.nbrows⟧)
    (hl' : a'.length = A.browptr⟦A.nbrows⟧) {θ : Nat → K} {P : K → Prop} (h1 : P 1) (h : ∀ p < a.length, P (θ p) ∧ a'⟦p⟧ = a⟦p⟧ * θ p) {i : Nat} (hi : i < A.nbrows) (j : Nat) :
    ∃ η, P η ∧ facEntry A a' i j = facEntry A a i j * η := by
  by_cases hn : Nbr A i j
  · obtain ⟨p, hp, rfl⟩ := hn
    have hlt := hA.lt_nnz hi hp.2
    refine ⟨θ p, (h p (by omega)).1, ?_⟩
    rw [facEntry_stored hA hS hl' hi hp, facEntry_stored hA hS hl hi hp, (h p (by omega)).2]
  · exact ⟨1, h1, by rw [facEntry_eq_zero hA hl' hi hn, facEntry_eq_zero hA hl hi hn, zero_mul]⟩

/-- **C66** For a matrix whose elimination creates no fill, the residual of the vector computed by factorizing `A` and applying the factors to `r` is at most `gam u 2 |r| + gam u (3k+3) |L| |U| |x|`, componentwise, where
`k` bounds the number of entries of a row and `L`, `U` are the computed factors. With a symmetric scaling the same holds for the scaled system. -/
theorem scalar_ilu_residual {A : SR F} (hA : A.Full) (hS : A.Sorted) (hD : A.HasDiag) (hN : NoFill A) {pos : ILUPos} (hpos : computeILUPositions A = .ok pos) {scale : Option (List F)}
    (hs : ScaleLen scale A.nbrows) (hs0 : ∀ i < A.nbrows, scaleAt (scale.map (List.map ρ.val)) i ≠ 0)
    {ks : Nat} (hks : 1 ≤ ks) {x₀ ilu : List F} (hl : x₀.length = A.browptr⟦A.nbrows⟧) (hseq : iluSweeps A (scalarScale? scale) pos ks x₀ = .ok ilu)
    (hd : ∀ i < A.nbrows, ∃ w, pinv ilu⟦A.diagind⟦i⟧⟧ = .ok w) {r x : List F} (hr : r.length = A.nbrows)
    {k : Nat} (h3 : 3 ≤ k) (hk : ∀ i < A.nbrows, A.browptr⟦i + 1⟧ - A.browptr⟦i⟧ ≤ k) (h : ScalarIluResult A ilu scale r x) {i : Nat} (hi : i < A.nbrows) :
    |scaleAt (scale.map (List.map ρ.val)) i| * |ρ.val r⟦i⟧ - ∑ j ∈ range A.nbrows, (ρ.mat A).entry i j * ρ.val x⟦j⟧| ≤
      gam ρ.u 2 * (|scaleAt (scale.map (List.map ρ.val)) i| * |ρ.val r⟦i⟧|) +
      gam ρ.u (3 * k + 3) * ∑ j ∈ range A.nbrows, (∑ q ∈ range A.nbrows, |lowerFactor A (ilu.map ρ.val) i q| * |upperFactor A (ilu.map ρ.val) q j|) *
        (|ρ.val x⟦j⟧| / |scaleAt (scale.map (List.map ρ.val)) j|) := by
  obtain ⟨pos', h1, hposOk⟩ := compute_ILU_positions_correct A hA hS hD
  rw [hpos] at h1; cases h1
  obtain ⟨hle, -⟩ := iluSweeps_fixed hA hS hD hposOk hks hl hseq
  have hlv : (ilu.map ρ.val).length = A.browptr⟦A.nbrows⟧ := by simpa using hle
  obtain ⟨ilu', θ, δ, t, w, g1, g2, g3, g4⟩ := scalar_ilu_apply_fuzz ρ hA hS hD hle hd hs hr h3 hk h
  have hl' : ilu'.length = A.browptr⟦A.nbrows⟧ := by omega
  generalize hS' : scaleAt (scale.map (List.map ρ.val)) = s at *
  have hfac : ∀ a, a < A.nbrows → ∀ b, ∃ η, Fuzz ρ.u k η ∧ facEntry A ilu' a b = facEntry A (ilu.map ρ.val) a b * η := fun a ha b =>
    facEntry_fuzz (P := Fuzz ρ.u k) hA hS hlv hl' (ρ.one k) (fun p hp => by rw [get0_map _ ρ.zero]; exact g2 p (by simpa using hp)) ha b
  -- the perturbed product
  have hlow : ∀ q, ∃ η, Fuzz ρ.u k η ∧ lowerFactor A ilu' i q = lowerFactor A (ilu.map ρ.val) i q * η := by
    intro q
    unfold lowerFactor
    split
    · exact hfac i hi q
    · exact ⟨1, ρ.one k, (mul_one _).symm⟩
  have hup : ∀ q, q < A.nbrows → ∀ j, ∃ η, Fuzz ρ.u k η ∧ upperFactor A ilu' q j = upperFactor A (ilu.map ρ.val) q j * η := by
    intro q hq j
    unfold upperFactor
    split
    · exact hfac q hq j
    · exact ⟨1, ρ.one k, (mul_one _).symm⟩
  have hterm : ∀ j, j < A.nbrows → |luProd A ilu' i j * w j - (ρ.mat A).entry i j * s i * ρ.val x⟦j⟧| ≤
      gam ρ.u (3 * k + 3) * ((∑ q ∈ range A.nbrows, |lowerFactor A (ilu.map ρ.val) i q| * |upperFactor A (ilu.map ρ.val) q j|) * (|ρ.val x⟦j⟧| / |s j|)) := by
    intro j hj
    have ht := (g4 j hj).1
    have hsj := hs0 j hj
    have hw : w j = ρ.val x⟦j⟧ / s j * (t j)⁻¹ := by
      rw [(g4 j hj).2]
      have := ht.ne'
      field_simp
    -- the error of the factorization
    have hE : |luProd A (ilu.map ρ.val) i j - (ρ.mat A).entry i j * s i * s j| ≤
        gam ρ.u (k + 2) * ∑ q ∈ range A.nbrows, |lowerFactor A (ilu.map ρ.val) i q| * |upperFactor A (ilu.map ρ.val) q j| := by
      by_cases hn : Nbr A i j
      · obtain ⟨p, hp, rfl⟩ := hn
        have := scalar_ilu_rounding ρ hA hS hD hpos hs hks hl hseq hk hi hp
        rwa [hS'] at this
      · have e1 := luProd_off_pattern hA hN hlv hi hn
        have e2 : (ρ.mat A).entry i j = 0 := by
          exact (ρ.mat_full hA).entry_unstored hi fun p hp hc => hn ⟨p, hp, hc⟩
        rw [e1, e2, zero_mul, zero_mul, sub_zero, abs_zero]
        exact mul_nonneg (gam_nonneg ρ.u_nonneg ρ.u_lt_one _) (sum_nonneg fun q _ => mul_nonneg (abs_nonneg _) (abs_nonneg _))
    -- the error of the application
    have hF : |luProd A ilu' i j * (t j)⁻¹ - luProd A (ilu.map ρ.val) i j| ≤
        gam ρ.u (2 * k + 1) * ∑ q ∈ range A.nbrows, |lowerFactor A (ilu.map ρ.val) i q| * |upperFactor A (ilu.map ρ.val) q j| := by
      choose η hη eη using hlow
      choose! ζ hζ eζ using hup
      have e : luProd A ilu' i j * (t j)⁻¹ = ∑ q ∈ range A.nbrows, lowerFactor A (ilu.map ρ.val) i q * upperFactor A (ilu.map ρ.val) q j * (η q * ζ q j * (t j)⁻¹) := by
        unfold luProd
        rw [sum_mul]
        refine sum_congr rfl fun q hq => ?_
        rw [eη q, eζ q (mem_range.mp hq) j]
        ring
      rw [e]
      refine (abs_sum_fuzz_le ρ.u_nonneg ρ.u_lt_one (k := 2 * k + 1) fun q hq => ?_).trans (le_of_eq ?_)
      · have := ((hη q).mul' (hζ q (mem_range.mp hq) j)).mul' ht.inv'
        rwa [← two_mul] at this
      · simp only [abs_mul]
    have hsum := add_le_add hF hE
    rw [← add_mul] at hsum
    have hg : gam ρ.u (2 * k + 1) + gam ρ.u (k + 2) ≤ gam ρ.u (3 * k + 3) := by
      have := gam_add_le ρ.u_nonneg ρ.u_lt_one (2 * k + 1) (k + 2)
      rwa [show 2 * k + 1 + (k + 2) = 3 * k + 3 by omega] at this
    have hP : 0 ≤ ∑ q ∈ range A.nbrows, |lowerFactor A (ilu.map ρ.val) i q| * |upperFactor A (ilu.map ρ.val) q j| :=
      sum_nonneg fun q _ => mul_nonneg (abs_nonneg _) (abs_nonneg _)
    have e : luProd A ilu' i j * w j - (ρ.mat A).entry i j * s i * ρ.val x⟦j⟧ =
        ((luProd A ilu' i j * (t j)⁻¹ - luProd A (ilu.map ρ.val) i j) + (luProd A (ilu.map ρ.val) i j - (ρ.mat A).entry i j * s i * s j)) * (ρ.val x⟦j⟧ / s j) := by
      rw [hw]; field_simp; ring
    rw [e, abs_mul, abs_div, ← mul_assoc]
    refine mul_le_mul_of_nonneg_right ((abs_add_le _ _).trans (hsum.trans (mul_le_mul_of_nonneg_right hg hP))) (div_nonneg (abs_nonneg _) (abs_nonneg _))
  rw [← abs_mul]
  have e : s i * (ρ.val r⟦i⟧ - ∑ j ∈ range A.nbrows, (ρ.mat A).entry i j * ρ.val x⟦j⟧) =
      (s i * ρ.val r⟦i⟧ - s i * ρ.val r⟦i⟧ * δ i) + ∑ j ∈ range A.nbrows, (luProd A ilu' i j * w j - (ρ.mat A).entry i j * s i * ρ.val x⟦j⟧) := by
    rw [sum_sub_distrib, (g3 i hi).2, mul_sub, mul_sum]
    have : ∀ j, s i * ((ρ.mat A).entry i j * ρ.val x⟦j⟧) = (ρ.mat A).entry i j * s i * ρ.val x⟦j⟧ := fun j => by ring
    simp only [this]
    ring
  rw [e]
  refine (abs_add_le _ _).trans (add_le_add ?_ ?_)
  · rw [abs_sub_comm, ← abs_mul]
    exact (g3 i hi).1.rel (ρ := ρ) _
  · rw [mul_sum]
    exact (abs_sum_le_sum_abs _ _).trans (sum_le_sum fun j hj => hterm j (mem_range.mp hj))

/-- **C66** The same without scaling, and for the factors of asynchronous sweeps too. -/
theorem async_scalar_ilu_residual {A : SR F} (hA : A.Full) (hS : A.Sorted) (hD : A.HasDiag) (hN : NoFill A) {pos : ILUPos} (hpos : computeILUPositions A = .ok pos)
    {mix : Set F → Set F} (hm : MixOk mix) {ks : Nat} (hks : 1 ≤ ks) {x₀ ilu : List F} (hl : x₀.length = A.browptr⟦A.nbrows⟧)
    (hseq : iluSweeps A (scalarScale? none) pos ks x₀ = .ok ilu) {v : List F} (hv : v.length = A.browptr⟦A.nbrows⟧) {rounds : Nat} (hrounds : 2 * A.nbrows - 1 ≤ rounds)
    {log last : List (Nat × F)} (hrun : ARounds (iluComp A (scalarScale? none) pos) mix v rounds log last)
    (hd : ∀ i < A.nbrows, ∃ w, pinv ilu⟦A.diagind⟦i⟧⟧ = .ok w) {r x : List F} (hr : r.length = A.nbrows)
    {k : Nat} (h3 : 3 ≤ k) (hk : ∀ i < A.nbrows, A.browptr⟦i + 1⟧ - A.browptr⟦i⟧ ≤ k) (h : ScalarIluResult A (applyLog v log) none r x) {i : Nat} (hi : i < A.nbrows) :
    |ρ.val r⟦i⟧ - ∑ j ∈ range A.nbrows, (ρ.mat A).entry i j * ρ.val x⟦j⟧| ≤ gam ρ.u 2 * |ρ.val r⟦i⟧| +
      gam ρ.u (3 * k + 3) * ∑ j ∈ range A.nbrows, (∑ q ∈ range A.nbrows, |lowerFactor A (ilu.map ρ.val) i q| * |upperFactor A (ilu.map ρ.val) q j|) * |ρ.val x⟦j⟧| := by
  rw [async_ilu_same_bits hm hA hS hD hpos hks hl hseq hv hrounds hrun] at h
  have := scalar_ilu_residual ρ hA hS hD hN hpos (scale := none) (fun _ h => by cases h) (fun i _ => one_ne_zero) hks hl hseq hd hr h3 hk h hi
  simpa only [Option.map_none, scaleAt, abs_one, one_mul, div_one] using this

end Blasted
