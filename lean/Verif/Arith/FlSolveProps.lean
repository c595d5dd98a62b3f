import Verif.Arith.FlMatVecProps
import Verif.Arith.SolveProps

/-!
# Rounding errors of the triangular solves (C64)

The computed vector is the exact result for factors and a right-hand side that differ from the given ones by small relative
perturbations of the single entries.
-/

namespace Blasted

open Finset

section results
variable {K V : Type} [Zero K] [Add K] [Sub K] [Mul K] [PInvOp K]

/-- `x` is the result of some execution of one of the scalar ILU applications to `r`: sequential; level-scheduled; asynchronous within levels; asynchronous with at least as many sweeps as rows. -/
inductive ScalarIluResult (A : SR V) (ilu : List K) (scale : Option (List K)) (r : List K) : List K → Prop
  | sequential {k init ord z y x y'} : 1 ≤ k → init ≠ ApplyInit.none → (∀ t, (ord t).Perm (List.range A.nbrows)) → z.length = A.nbrows → y.length = A.nbrows →
      scalarIluApply A ilu scale k init ord r z y = .ok (x, y') → ScalarIluResult A ilu scale r x
  | levels {levels sched sched' ord z y x y'} : LevelsOk A levels → (∀ t l, (sched t l).Perm l) → (∀ t l, (sched' t l).Perm l) →
      (∀ t, (ord t).Perm (List.range A.nbrows)) → z.length = A.nbrows → y.length = A.nbrows →
      levelScalarIluApply A ilu scale levels sched sched' ord r z y = .ok (x, y') → ScalarIluResult A ilu scale r x
  | asyncLevels {levels mix ord z y x y'} : LevelsOk A levels → MixOk mix → (∀ t, (ord t).Perm (List.range A.nbrows)) → z.length = A.nbrows → y.length = A.nbrows →
      AsyncLevelIluApply (unitLowerRow A ilu) (upperRow A ilu) A.nbrows mix (scale.map scalarSeg) levels ord r z y x y' → ScalarIluResult A ilu scale r x
  | async {k init mix ord z y x y'} : A.nbrows ≤ k → init ≠ ApplyInit.none → MixOk mix → (∀ t, (ord t).Perm (List.range A.nbrows)) → z.length = A.nbrows →
      y.length = A.nbrows → AsyncIluApply (unitLowerRow A ilu) (upperRow A ilu) A.nbrows mix (scale.map scalarSeg) k init ord r z y x y' → ScalarIluResult A ilu scale r x

/-- `x` is the result of some execution of one of the SGS applications to `r`. -/
inductive SgsResult (A : SR K) (dinv : List K) (r : List K) : List K → Prop
  | sequential {k init ord z y x y'} : 1 ≤ k → (∀ t, (ord t).Perm (List.range A.nbrows)) → z.length = A.nbrows → y.length = A.nbrows →
      sgsApply A dinv k init ord r z y = .ok (x, y') → SgsResult A dinv r x
  | levels {levels sched sched' z y x y'} : LevelsOk A levels → (∀ t l, (sched t l).Perm l) → (∀ t l, (sched' t l).Perm l) → z.length = A.nbrows → y.length = A.nbrows →
      levelSgsApply A dinv levels sched sched' r z y = .ok (x, y') → SgsResult A dinv r x
  | asyncLevels {levels mix z y x y'} : LevelsOk A levels → MixOk mix → z.length = A.nbrows → y.length = A.nbrows →
      AsyncLevelSgsApply A dinv mix levels r z y x y' → SgsResult A dinv r x
  | async {k init mix ord z y x y'} : 1 ≤ k → A.nbrows ≤ k → MixOk mix → (∀ t, (ord t).Perm (List.range A.nbrows)) → z.length = A.nbrows → y.length = A.nbrows →
      AsyncSgsApply A dinv mix k init ord r z y x y' → SgsResult A dinv r x

omit [Add K] [Sub K] [Mul K] in
theorem exists_dinv_any {A : SR V} {ilu : List K} (hd : ∀ i < A.nbrows, ∃ w, pinv ilu⟦A.diagind⟦i⟧⟧ = .ok w) :
    ∃ dinv : List K, dinv.length = A.nbrows ∧ ∀ i < A.nbrows, pinv ilu⟦A.diagind⟦i⟧⟧ = .ok dinv⟦i⟧ := by
  choose! w hw using hd
  exact ⟨(List.range A.nbrows).map w, by simp, fun i hi => by rw [get0_map_range _ hi]; exact hw i hi⟩

theorem ScalarIluResult.solved {A : SR V} {m : Nat} (hA : A.Full m) (hS : A.Sorted) (hD : A.HasDiag) {ilu dinv : List K}
    (hl : ilu.length = A.browptr⟦A.nbrows⟧) (hd : ∀ i < A.nbrows, pinv ilu⟦A.diagind⟦i⟧⟧ = .ok dinv⟦i⟧) {scale : Option (List K)} (hs : ScaleLen scale A.nbrows) {r x : List K}
    (hr : r.length = A.nbrows) (h : ScalarIluResult A ilu scale r x) :
    IluSolved (fun b i x => b i - lowAdd A ilu i x) (fun b i x => dinv⟦i⟧ • (b i - upAdd A ilu i x)) (scaleAny scale) A.nbrows r x := by
  obtain ⟨x₀, h0, h1, h2, h3, h4⟩ := ilu_apply_same (triAny_unitLower (M := K) hA hS hD hl) (triAny_upper (M := K) hA hS hD hl hd) (segOk_any hs) hr
  suffices x = x₀ by rw [this]; exact h0
  cases h with
  | sequential a b c d e f =>
    obtain ⟨y', h⟩ := h1 _ _ _ _ _ a b c d e
    rw [show scalarIluApply A ilu scale _ _ _ r _ _ = _ from h] at f
    cases f; rfl
  | levels a b c d e f g =>
    obtain ⟨y', h⟩ := h2 _ _ _ _ _ _ a b c d e f
    rw [show levelScalarIluApply A ilu scale _ _ _ _ r _ _ = _ from h] at g
    cases g; rfl
  | asyncLevels a b c d e f => exact h3 _ _ _ _ _ _ _ a b c d e f
  | async a b c d e f g => exact h4 _ _ _ _ _ _ _ _ a b c d e f g

omit [PInvOp K] in
theorem SgsResult.solved {A : SR K} (hA : A.Full) (hS : A.Sorted) (hD : A.HasDiag) {dinv : List K} (hd : dinv.length = A.nbrows) {r x : List K}
    (hr : r.length = A.nbrows) (h : SgsResult A dinv r x) :
    x.length = A.nbrows ∧ ∃ y : List K, (∀ i < A.nbrows, y⟦i⟧ = dinv⟦i⟧ • (r⟦i⟧ - lowAdd A A.vals i (get0 y))) ∧
      ∀ i < A.nbrows, x⟦i⟧ = y⟦i⟧ - dinv⟦i⟧ • upAdd A A.vals i (get0 x) := by
  obtain ⟨y₀, x₀, h0, h1, h2, h3, h4⟩ := sgs_apply_same (M := K) hA hS hD hd hr
  suffices x = x₀ by rw [this]; exact ⟨h0.1, y₀, h0.2⟩
  cases h with
  | sequential a b c d e =>
    obtain ⟨y', h⟩ := h1 _ _ _ _ _ a b c d
    rw [h] at e
    cases e; rfl
  | levels a b c d e f =>
    obtain ⟨y', h⟩ := h2 _ _ _ _ _ a b c d e
    rw [h] at f
    cases f; rfl
  | asyncLevels a b c d e => exact h3 _ _ _ _ _ _ a b c d e
  | async a b c d e f g => exact h4 _ _ _ _ _ _ _ _ a b c d e f g

end results

variable {F K V : Type} [Zero F] [Add F] [Sub F] [Mul F] [PInvOp F] [Field K] [LinearOrder K] [IsStrictOrderedRing K] {ρ : Rounding F K}

theorem Fuzz.rel {k : Nat} {θ : K} (h : Fuzz ρ.u k θ) (c : K) : |c * θ - c| ≤ gam ρ.u k * |c| := by
  rw [show c * θ - c = (θ - 1) * c by ring, abs_mul]
  exact mul_le_mul_of_nonneg_right (h.bound ρ.u_nonneg ρ.u_lt_one) (abs_nonneg _)

theorem Rounding.inv_fl {a b : F} (h : pinv a = .ok b) : ∃ θ, Fuzz ρ.u 1 θ ∧ ρ.val a ≠ 0 ∧ ρ.val b = (ρ.val a)⁻¹ * θ := by
  obtain ⟨h1, h2⟩ := ρ.inv h
  obtain ⟨θ, h3, h4⟩ := fuzz_of_rel ρ.u_nonneg ρ.u_lt_one h2
  exact ⟨θ, h3, h1, h4⟩

theorem Rounding.div_fl {a b c : F} (h : pdiv a b = .ok c) : ∃ θ, Fuzz ρ.u 1 θ ∧ ρ.val b ≠ 0 ∧ ρ.val c = ρ.val a / ρ.val b * θ := by
  obtain ⟨h1, h2⟩ := ρ.div h
  obtain ⟨θ, h3, h4⟩ := fuzz_of_rel ρ.u_nonneg ρ.u_lt_one h2
  exact ⟨θ, h3, h1, h4⟩

/-- The rounded scaling. -/
theorem scale_fl (scale : Option (List F)) (i : Nat) (v : F) :
    ∃ θ, Fuzz ρ.u 1 θ ∧ ρ.val (scaleAny scale i v) = scaleAt (scale.map (List.map ρ.val)) i * ρ.val v * θ := by
  cases scale with
  | none => exact ⟨1, ρ.one 1, by simp [scaleAny, scaleAt]⟩
  | some s =>
    obtain ⟨θ, h1, h2⟩ := ρ.mul_fl s⟦i⟧ v
    refine ⟨θ, h1, ?_⟩
    show ρ.val (s⟦i⟧ * v) = (s.map ρ.val)⟦i⟧ * _ * θ
    rw [h2, get0_map _ ρ.zero]

omit [LinearOrder K] [IsStrictOrderedRing K] in
/-- An array whose entries are given row by row. -/
theorem exists_rowwise {A : SR V} {m : Nat} (hA : A.Full m) (f : Nat → Nat → K) :
    ∃ l : List K, l.length = A.browptr⟦A.nbrows⟧ ∧ ∀ i < A.nbrows, ∀ p, A.InRow i p → l⟦p⟧ = f i p := by
  refine ⟨(List.range A.browptr⟦A.nbrows⟧).map fun p => f (A.rowOf p) p, by simp, fun i hi p hp => ?_⟩
  rw [get0_map_range _ (hA.lt_nnz hi hp.2), hA.rowOf_eq hi hp]

variable (ρ)

/-- The scalar ILU application with the factors of all roundings: `θ` for the entries of the factors, `δ` for the right-hand side, `t` for the final scaling. -/
theorem scalar_ilu_apply_fuzz {A : SR V} {m : Nat} (hA : A.Full m) (hS : A.Sorted) (hD : A.HasDiag) {ilu : List F} (hl : ilu.length = A.browptr⟦A.nbrows⟧)
    (hd : ∀ i < A.nbrows, ∃ w, pinv ilu⟦A.diagind⟦i⟧⟧ = .ok w) {scale : Option (List F)} (hs : ScaleLen scale A.nbrows) {r x : List F} (hr : r.length = A.nbrows)
    {k : Nat} (h3 : 3 ≤ k) (hk : ∀ i < A.nbrows, A.browptr⟦i + 1⟧ - A.browptr⟦i⟧ ≤ k) (h : ScalarIluResult A ilu scale r x) :
    ∃ (ilu' : List K) (θ δ t w : Nat → K), ilu'.length = ilu.length ∧ (∀ p < ilu.length, Fuzz ρ.u k (θ p) ∧ ilu'⟦p⟧ = ρ.val ilu⟦p⟧ * θ p) ∧
      (∀ i < A.nbrows, Fuzz ρ.u 2 (δ i) ∧ ∑ j ∈ range A.nbrows, luProd A ilu' i j * w j = scaleAt (scale.map (List.map ρ.val)) i * ρ.val r⟦i⟧ * δ i) ∧
      ∀ i < A.nbrows, Fuzz ρ.u 1 (t i) ∧ ρ.val x⟦i⟧ = scaleAt (scale.map (List.map ρ.val)) i * w i * t i := by
  obtain ⟨dinv, -, hd'⟩ := exists_dinv_any hd
  obtain ⟨hx, y, w, hy, hw, hz⟩ := h.solved hA hS hD hl hd' hs hr
  choose s hs1 hs2 using fun i => scale_fl (ρ := ρ) scale i r⟦i⟧
  choose t ht1 ht2 using fun i => scale_fl (ρ := ρ) scale i (w i)
  have hlow : ∀ i, i < A.nbrows → ∃ (δ : K) (θ : Nat → K), Fuzz ρ.u 1 δ ∧ (∀ p, Fuzz ρ.u k (θ p)) ∧
      ρ.val (y i) = ρ.val (scaleAny scale i r⟦i⟧) * δ - ∑ p ∈ Ico A.browptr⟦i⟧ A.diagind⟦i⟧, ρ.val ilu⟦p⟧ * θ p * ρ.val (y A.bcolind⟦p⟧) := by
    intro i hi
    obtain ⟨θ, g1, g2⟩ := dot_fl (ρ := ρ) (fun p => ilu⟦p⟧) (fun p => y A.bcolind⟦p⟧) (hD.diag_ge i hi)
    obtain ⟨δ, g3, g4⟩ := ρ.sub_fl (scaleAny scale i r⟦i⟧) (lowAdd A ilu i y)
    refine ⟨δ, fun p => θ p * δ, g3, fun p => ((g1 p).mul' g3).mono' ?_, ?_⟩
    · have := hk i hi; have := hD.diag_lt i hi; omega
    · rw [hy i hi, g4, show ρ.val (lowAdd A ilu i y) = _ from g2, sub_mul, sum_mul]
      congr 1
      exact sum_congr rfl fun p _ => by ring
  have hup : ∀ i, i < A.nbrows → ∃ (δ : K) (θ : Nat → K), Fuzz ρ.u k δ ∧ (∀ p, Fuzz ρ.u k (θ p)) ∧
      ρ.val ilu⟦A.diagind⟦i⟧⟧ * δ * ρ.val (w i) + ∑ p ∈ Ico (A.diagind⟦i⟧ + 1) A.browptr⟦i + 1⟧, ρ.val ilu⟦p⟧ * θ p * ρ.val (w A.bcolind⟦p⟧) = ρ.val (y i) := by
    intro i hi
    obtain ⟨θ, g1, g2⟩ := dot_fl (ρ := ρ) (fun p => ilu⟦p⟧) (fun p => w A.bcolind⟦p⟧) (hD.diag_lt i hi)
    obtain ⟨δ, g3, g4⟩ := ρ.sub_fl (y i) (upAdd A ilu i w)
    obtain ⟨ε, g5, g6⟩ := ρ.mul_fl dinv⟦i⟧ (y i - upAdd A ilu i w)
    obtain ⟨η, g7, g8, g9⟩ := Rounding.inv_fl (ρ := ρ) (hd' i hi)
    refine ⟨(η * δ * ε)⁻¹, θ, (((g7.mul' g3).mul' g5).inv').mono' h3, fun p => (g1 p).mono' ?_, ?_⟩
    · have := hk i hi; have := hD.diag_ge i hi; omega
    · have e : ρ.val (w i) = (ρ.val ilu⟦A.diagind⟦i⟧⟧)⁻¹ * η * ((ρ.val (y i) - ρ.val (upAdd A ilu i w)) * δ) * ε := by
        rw [hw i hi]
        show ρ.val (dinv⟦i⟧ * (y i - upAdd A ilu i w)) = _
        rw [g6, g4, g9]
      rw [show ρ.val (upAdd A ilu i w) = _ from g2] at e
      have n1 := g7.ne'
      have n2 := g3.ne'
      have n3 := g5.ne'
      rw [e]
      have e2 : ∑ p ∈ Ico (A.diagind⟦i⟧ + 1) A.browptr⟦i + 1⟧, ρ.val ilu⟦p⟧ * θ p * ρ.val (w A.bcolind⟦p⟧) =
          ∑ p ∈ Ico (A.diagind⟦i⟧ + 1) A.browptr⟦i + 1⟧, ρ.val ilu⟦p⟧ * ρ.val (w A.bcolind⟦p⟧) * θ p := sum_congr rfl fun p _ => by ring
      rw [e2]
      field_simp
      ring
  choose! δ θ a1 a2 a3 using hlow
  choose! δ' θ' b1 b2 b3 using hup
  obtain ⟨ilu', hl', hv⟩ := exists_rowwise hA (fun i p => ρ.val ilu⟦p⟧ * (if p < A.diagind⟦i⟧ then θ i p else if p = A.diagind⟦i⟧ then δ' i else θ' i p))
  refine ⟨ilu', fun p => if p < A.diagind⟦A.rowOf p⟧ then θ (A.rowOf p) p else if p = A.diagind⟦A.rowOf p⟧ then δ' (A.rowOf p) else θ' (A.rowOf p) p, fun i => s i * δ i, t, fun i => ρ.val (w i),
    by omega, fun p hp => ?_, fun i hi => ⟨(hs1 i).mul' (a1 i hi), ?_⟩, fun i hi => ⟨ht1 i, by rw [hz i hi, ht2]⟩⟩
  · obtain ⟨hi, hrow⟩ := hA.rowOf_spec (p := p) (by omega)
    refine ⟨?_, hv _ hi p hrow⟩
    dsimp only
    split
    · exact a2 _ hi p
    · split
      · exact b1 _ hi
      · exact b2 _ hi p
  · have e := luProd_mul (A := A) (ilu := ilu') (M := K) (fun j => ρ.val (w j)) i
    simp only [smul_eq_mul] at e
    rw [e]
    have e2 : ∀ q ∈ range A.nbrows, lowerFactor A ilu' i q * ∑ j ∈ range A.nbrows, upperFactor A ilu' q j * ρ.val (w j) = lowerFactor A ilu' i q * ρ.val (y q) := by
      intro q hq
      rw [mem_range] at hq
      congr 1
      have := upperFactor_mul (M := K) hA hS hD hl' hq (fun j => ρ.val (w j))
      simp only [smul_eq_mul] at this
      rw [this, ← b3 q hq, hv q hq _ (hD.inRow hq), if_neg (lt_irrefl _), if_pos rfl]
      unfold upSum
      congr 1
      refine sum_congr rfl fun p hp => ?_
      rw [mem_Ico] at hp
      have := hD.diag_ge q hq
      rw [hv q hq p ⟨by omega, hp.2⟩, if_neg (by omega), if_neg (by omega), smul_eq_mul]
    rw [sum_congr rfl e2]
    have := lowerFactor_mul (M := K) hA hS hD hl' hi (fun j => ρ.val (y j))
    simp only [smul_eq_mul] at this
    rw [this, a3 i hi]
    have e3 : lowSum A ilu' i (fun j => ρ.val (y j)) = ∑ p ∈ Ico A.browptr⟦i⟧ A.diagind⟦i⟧, ρ.val ilu⟦p⟧ * θ i p * ρ.val (y A.bcolind⟦p⟧) := by
      unfold lowSum
      refine sum_congr rfl fun p hp => ?_
      rw [mem_Ico] at hp
      have := hD.diag_lt i hi
      rw [hv i hi p ⟨hp.1, by omega⟩, if_pos hp.2, smul_eq_mul]
    rw [e3, hs2]
    ring

/-- **C64** Scalar ILU application. Whichever variant computes it, the result is the exact one for factors whose entries have been changed by a relative amount of at most `gam u k`, where `k` bounds the number of
entries of a row, for a right-hand side changed by at most `gam u 2`, and up to `gam u 1` in the final scaling. -/
theorem scalar_ilu_apply_rounding {A : SR V} {m : Nat} (hA : A.Full m) (hS : A.Sorted) (hD : A.HasDiag) {ilu : List F} (hl : ilu.length = A.browptr⟦A.nbrows⟧)
    (hd : ∀ i < A.nbrows, ∃ w, pinv ilu⟦A.diagind⟦i⟧⟧ = .ok w) {scale : Option (List F)} (hs : ScaleLen scale A.nbrows) {r x : List F} (hr : r.length = A.nbrows)
    {k : Nat} (h3 : 3 ≤ k) (hk : ∀ i < A.nbrows, A.browptr⟦i + 1⟧ - A.browptr⟦i⟧ ≤ k) (h : ScalarIluResult A ilu scale r x) :
    ∃ (ilu' : List K) (r' w : Nat → K), ilu'.length = ilu.length ∧ (∀ p < ilu.length, |ilu'⟦p⟧ - ρ.val ilu⟦p⟧| ≤ gam ρ.u k * |ρ.val ilu⟦p⟧|) ∧
      (∀ i < A.nbrows, |r' i - scaleAt (scale.map (List.map ρ.val)) i * ρ.val r⟦i⟧| ≤ gam ρ.u 2 * |scaleAt (scale.map (List.map ρ.val)) i * ρ.val r⟦i⟧|) ∧
      (∀ i < A.nbrows, ∑ j ∈ range A.nbrows, luProd A ilu' i j * w j = r' i) ∧
      ∀ i < A.nbrows, |ρ.val x⟦i⟧ - scaleAt (scale.map (List.map ρ.val)) i * w i| ≤ gam ρ.u 1 * |scaleAt (scale.map (List.map ρ.val)) i * w i| := by
  obtain ⟨ilu', θ, δ, t, w, h1, h2, h3, h4⟩ := scalar_ilu_apply_fuzz ρ hA hS hD hl hd hs hr h3 hk h
  refine ⟨ilu', fun i => scaleAt (scale.map (List.map ρ.val)) i * ρ.val r⟦i⟧ * δ i, w, h1, fun p hp => ?_, fun i hi => (h3 i hi).1.rel (ρ := ρ) _, fun i hi => (h3 i hi).2,
    fun i hi => ?_⟩
  · rw [(h2 p hp).2]; exact (h2 p hp).1.rel (ρ := ρ) _
  · rw [(h4 i hi).2]; exact (h4 i hi).1.rel (ρ := ρ) _

/-- **C64** Symmetric Gauss-Seidel. Whichever variant computes it, the result solves exactly a forward and a backward system whose coefficients differ from those of the matrix by a relative amount of at
most `gam u (k+1)`; the diagonal entries, which enter three times, by `gam u 3`, `gam u 1` and not at all. -/
theorem sgs_apply_rounding {A : SR F} (hA : A.Full) (hS : A.Sorted) (hD : A.HasDiag) {dinv : List F} (hdl : dinv.length = A.nbrows)
    (hd : ∀ i < A.nbrows, pinv A.vals⟦A.diagind⟦i⟧⟧ = .ok dinv⟦i⟧) {r x : List F} (hr : r.length = A.nbrows) {k : Nat} (hk : ∀ i < A.nbrows, A.browptr⟦i + 1⟧ - A.browptr⟦i⟧ ≤ k)
    (h : SgsResult A dinv r x) :
    ∃ (vals' : List K) (d₁ d₂ y : Nat → K), vals'.length = A.vals.length ∧ (∀ p < A.vals.length, |vals'⟦p⟧ - ρ.val A.vals⟦p⟧| ≤ gam ρ.u (k + 1) * |ρ.val A.vals⟦p⟧|) ∧
      (∀ i < A.nbrows, |d₁ i - (ρ.mat A).entry i i| ≤ gam ρ.u 3 * |(ρ.mat A).entry i i|) ∧
      (∀ i < A.nbrows, |d₂ i - (ρ.mat A).entry i i| ≤ gam ρ.u 1 * |(ρ.mat A).entry i i|) ∧
      (∀ i < A.nbrows, ∑ j ∈ range A.nbrows, (if j < i then facEntry A vals' i j else 0) * y j + d₁ i * y i = ρ.val r⟦i⟧) ∧
      ∀ i < A.nbrows, d₂ i * ρ.val x⟦i⟧ + ∑ j ∈ range A.nbrows, (if i < j then facEntry A vals' i j else 0) * ρ.val x⟦j⟧ = (ρ.mat A).entry i i * y i := by
  obtain ⟨hx, y, hy, hz⟩ := h.solved hA hS hD hdl hr
  have hv := hA.val_len
  have hent : ∀ i < A.nbrows, (ρ.mat A).entry i i = ρ.val A.vals⟦A.diagind⟦i⟧⟧ := fun i hi => by
    have := (ρ.mat_full hA).entry_stored (A := ρ.mat A) hS hi (hD.inRow hi)
    rw [ρ.mat_vals] at this
    rw [← this]
    show _ = (ρ.mat A).entry i A.bcolind⟦A.diagind⟦i⟧⟧
    rw [hD.diag_col i hi]
  have hlow : ∀ i, i < A.nbrows → ∃ (δ : K) (θ : Nat → K), Fuzz ρ.u 3 δ ∧ (∀ p, Fuzz ρ.u (k + 1) (θ p)) ∧
      ∑ p ∈ Ico A.browptr⟦i⟧ A.diagind⟦i⟧, ρ.val A.vals⟦p⟧ * θ p * ρ.val y⟦A.bcolind⟦p⟧⟧ + ρ.val A.vals⟦A.diagind⟦i⟧⟧ * δ * ρ.val y⟦i⟧ = ρ.val r⟦i⟧ := by
    intro i hi
    obtain ⟨θ, g1, g2⟩ := dot_fl (ρ := ρ) (fun p => A.vals⟦p⟧) (fun p => y⟦A.bcolind⟦p⟧⟧) (hD.diag_ge i hi)
    obtain ⟨δ, g3, g4⟩ := ρ.sub_fl r⟦i⟧ (lowAdd A A.vals i (get0 y))
    obtain ⟨ε, g5, g6⟩ := ρ.mul_fl dinv⟦i⟧ (r⟦i⟧ - lowAdd A A.vals i (get0 y))
    obtain ⟨η, g7, g8, g9⟩ := Rounding.inv_fl (ρ := ρ) (hd i hi)
    refine ⟨(η * δ * ε)⁻¹, θ, ((g7.mul' g3).mul' g5).inv', fun p => (g1 p).mono' ?_, ?_⟩
    · have := hk i hi; have := hD.diag_lt i hi; omega
    · have e : ρ.val y⟦i⟧ = (ρ.val A.vals⟦A.diagind⟦i⟧⟧)⁻¹ * η * ((ρ.val r⟦i⟧ - ρ.val (lowAdd A A.vals i (get0 y))) * δ) * ε := by
        rw [hy i hi]
        show ρ.val (dinv⟦i⟧ * (r⟦i⟧ - lowAdd A A.vals i (get0 y))) = _
        rw [g6, g4, g9]
      rw [show ρ.val (lowAdd A A.vals i (get0 y)) = _ from g2] at e
      have n1 := g7.ne'
      have n2 := g3.ne'
      have n3 := g5.ne'
      rw [e]
      have e2 : ∑ p ∈ Ico A.browptr⟦i⟧ A.diagind⟦i⟧, ρ.val A.vals⟦p⟧ * θ p * ρ.val y⟦A.bcolind⟦p⟧⟧ =
          ∑ p ∈ Ico A.browptr⟦i⟧ A.diagind⟦i⟧, ρ.val A.vals⟦p⟧ * ρ.val y⟦A.bcolind⟦p⟧⟧ * θ p := sum_congr rfl fun p _ => by ring
      rw [e2]
      field_simp
      ring
  have hup : ∀ i, i < A.nbrows → ∃ (δ : K) (θ : Nat → K), Fuzz ρ.u 1 δ ∧ (∀ p, Fuzz ρ.u (k + 1) (θ p)) ∧
      ρ.val A.vals⟦A.diagind⟦i⟧⟧ * δ * ρ.val x⟦i⟧ + ∑ p ∈ Ico (A.diagind⟦i⟧ + 1) A.browptr⟦i + 1⟧, ρ.val A.vals⟦p⟧ * θ p * ρ.val x⟦A.bcolind⟦p⟧⟧ =
        ρ.val A.vals⟦A.diagind⟦i⟧⟧ * ρ.val y⟦i⟧ := by
    intro i hi
    obtain ⟨θ, g1, g2⟩ := dot_fl (ρ := ρ) (fun p => A.vals⟦p⟧) (fun p => x⟦A.bcolind⟦p⟧⟧) (hD.diag_lt i hi)
    obtain ⟨ε, g5, g6⟩ := ρ.mul_fl dinv⟦i⟧ (upAdd A A.vals i (get0 x))
    obtain ⟨δ, g3, g4⟩ := ρ.sub_fl y⟦i⟧ (dinv⟦i⟧ * upAdd A A.vals i (get0 x))
    obtain ⟨η, g7, g8, g9⟩ := Rounding.inv_fl (ρ := ρ) (hd i hi)
    refine ⟨δ⁻¹, fun p => θ p * η * ε, g3.inv', fun p => (((g1 p).mul' g7).mul' g5).mono' ?_, ?_⟩
    · have := hk i hi; have := hD.diag_ge i hi; have := hD.diag_lt i hi; omega
    · have e : ρ.val x⟦i⟧ = (ρ.val y⟦i⟧ - (ρ.val A.vals⟦A.diagind⟦i⟧⟧)⁻¹ * η * ρ.val (upAdd A A.vals i (get0 x)) * ε) * δ := by
        rw [hz i hi]
        show ρ.val (y⟦i⟧ - dinv⟦i⟧ * upAdd A A.vals i (get0 x)) = _
        rw [g4, g6, g9]
      rw [show ρ.val (upAdd A A.vals i (get0 x)) = _ from g2] at e
      have n2 := g3.ne'
      have e2 : ∑ p ∈ Ico (A.diagind⟦i⟧ + 1) A.browptr⟦i + 1⟧, ρ.val A.vals⟦p⟧ * (θ p * η * ε) * ρ.val x⟦A.bcolind⟦p⟧⟧ =
          (∑ p ∈ Ico (A.diagind⟦i⟧ + 1) A.browptr⟦i + 1⟧, ρ.val A.vals⟦p⟧ * ρ.val x⟦A.bcolind⟦p⟧⟧ * θ p) * (η * ε) := by
        rw [sum_mul]; exact sum_congr rfl fun p _ => by ring
      rw [e2, e]
      field_simp
      ring
  choose! δ θ a1 a2 a3 using hlow
  choose! δ' θ' b1 b2 b3 using hup
  obtain ⟨vals', hl', hw⟩ := exists_rowwise hA (fun i p => ρ.val A.vals⟦p⟧ * (if p < A.diagind⟦i⟧ then θ i p else θ' i p))
  refine ⟨vals', fun i => ρ.val A.vals⟦A.diagind⟦i⟧⟧ * δ i, fun i => ρ.val A.vals⟦A.diagind⟦i⟧⟧ * δ' i, fun i => ρ.val y⟦i⟧, by omega, fun p hp => ?_,
    fun i hi => ?_, fun i hi => ?_, fun i hi => ?_, fun i hi => ?_⟩
  · obtain ⟨hi, hrow⟩ := hA.rowOf_spec (p := p) (by omega)
    rw [hw _ hi p hrow]
    refine Fuzz.rel (ρ := ρ) (k := k + 1) ?_ _
    split
    · exact a2 _ hi p
    · exact b2 _ hi p
  · rw [hent i hi]; exact (a1 i hi).rel (ρ := ρ) _
  · rw [hent i hi]; exact (b1 i hi).rel (ρ := ρ) _
  · have := low_mul (M := K) hA hS hD hl' hi (fun j => ρ.val y⟦j⟧)
    simp only [smul_eq_mul] at this
    rw [this, ← a3 i hi]
    congr 1
    unfold lowSum
    refine sum_congr rfl fun p hp => ?_
    rw [mem_Ico] at hp
    have := hD.diag_lt i hi
    rw [hw i hi p ⟨hp.1, by omega⟩, if_pos hp.2, smul_eq_mul]
  · have := up_mul (M := K) hA hS hD hl' hi (fun j => ρ.val x⟦j⟧)
    simp only [smul_eq_mul] at this
    rw [this, hent i hi, ← b3 i hi]
    congr 1
    unfold upSum
    refine sum_congr rfl fun p hp => ?_
    rw [mem_Ico] at hp
    have := hD.diag_ge i hi
    rw [hw i hi p ⟨by omega, hp.2⟩, if_neg (by omega), smul_eq_mul]

/-- **C64** Jacobi: each component has a relative error of at most `gam u 2`. -/
theorem jacobi_apply_rounding {A : SR F} (hA : A.Full) (hS : A.Sorted) (hD : A.HasDiag) {dinv : List F} (hdl : dinv.length = A.nbrows)
    (hd : ∀ i < A.nbrows, pinv A.vals⟦A.diagind⟦i⟧⟧ = .ok dinv⟦i⟧) {ord : List Nat} (ho : ord.Perm (List.range A.nbrows)) {r z : List F} (hr : r.length = A.nbrows)
    (hz : z.length = A.nbrows) :
    ∃ z', jacobiApply A.nbrows dinv ord r z = .ok z' ∧ z'.length = A.nbrows ∧ ∀ i < A.nbrows, (ρ.mat A).entry i i ≠ 0 ∧
      |ρ.val z'⟦i⟧ - ρ.val r⟦i⟧ / (ρ.mat A).entry i i| ≤ gam ρ.u 2 * |ρ.val r⟦i⟧ / (ρ.mat A).entry i i| := by
  obtain ⟨z', h1, h2, h3⟩ := jacobi_apply_any (A := A) (M := F) hdl hr hz
  refine ⟨z', h1 _ ho, h2, fun i hi => ?_⟩
  have hent : (ρ.mat A).entry i i = ρ.val A.vals⟦A.diagind⟦i⟧⟧ := by
    have := (ρ.mat_full hA).entry_stored (A := ρ.mat A) hS hi (hD.inRow hi)
    rw [ρ.mat_vals] at this
    rw [← this]
    show _ = (ρ.mat A).entry i A.bcolind⟦A.diagind⟦i⟧⟧
    rw [hD.diag_col i hi]
  obtain ⟨ε, g5, g6⟩ := ρ.mul_fl dinv⟦i⟧ r⟦i⟧
  obtain ⟨η, g7, g8, g9⟩ := Rounding.inv_fl (ρ := ρ) (hd i hi)
  rw [hent]
  refine ⟨g8, ?_⟩
  have e : ρ.val z'⟦i⟧ = ρ.val r⟦i⟧ / ρ.val A.vals⟦A.diagind⟦i⟧⟧ * (η * ε) := by
    rw [h3 i hi]
    show ρ.val (dinv⟦i⟧ * r⟦i⟧) = _
    rw [g6, g9]; field_simp
  rw [e]
  exact (g7.mul' g5).rel (ρ := ρ) _

end Blasted
