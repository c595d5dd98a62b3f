import Verif.ILU.DomLemmas
import Verif.ILU.AsyncProps
import Verif.Solve.IluProps
import Verif.Race.AsyncProps

/-!
# ILU(0) of diagonally dominant matrices (C71, C72)
-/

namespace Blasted

open Finset

variable {K : Type} [Field K] [LinearOrder K] [IsStrictOrderedRing K]

/-- Symmetric scaling keeps dominance, with other weights. -/
theorem WDominant.scaled {isq : K → K} {us : Bool} {A : SR K} {d : Nat → K} {rho : K} (h : WDominant A.nbrows A.entry d rho)
    (hisq : us = true → ∀ i < A.nbrows, isq (A.entry i i) ≠ 0) :
    WDominant A.nbrows (scaledEntry isq us A) (fun j => d j / |scaleFac isq us A j|) rho := by
  have hne : ∀ i < A.nbrows, scaleFac isq us A i ≠ 0 := by
    intro i hi
    unfold scaleFac
    split
    · rename_i hu; exact hisq hu i hi
    · exact one_ne_zero
  have key : ∀ i < A.nbrows, ∀ j < A.nbrows, |scaledEntry isq us A i j| * (d j / |scaleFac isq us A j|) =
      |scaleFac isq us A i| * (|A.entry i j| * d j) := by
    intro i _ j hj
    have := abs_pos.mpr (hne j hj)
    unfold scaledEntry
    rw [abs_mul, abs_mul]
    field_simp
  refine ⟨fun i hi => div_pos (h.pos i hi) (abs_pos.mpr (hne i hi)), fun i hi => ?_, fun i hi => ?_⟩
  · exact mul_ne_zero (mul_ne_zero (hne i hi) (h.diag i hi)) (hne i hi)
  · rw [sum_congr rfl fun j hj => key i hi j (mem_range.mp (mem_of_mem_erase hj)), ← mul_sum, key i hi i hi]
    have := mul_le_mul_of_nonneg_left (h.dom i hi) (abs_nonneg (scaleFac isq us A i))
    linarith

/-- **C71** For a (weighted) strictly diagonally dominant matrix the sequential factorization never breaks down: `compute` succeeds, with or without scaling, for
any number of sweeps, initialisation, history of the object and order of the parallel loops; the factors are exact on the pattern, all pivots are
invertible, and the upper factor is dominant: its diagonal entries exceed the others by at least what those of the (scaled) matrix do. -/
theorem scalar_ilu_dominant_compute {isq : K → K} {conf : ILUConf} {A : SR K} {ord ordc : List Nat}
    {gilu gy gscale : List K} {st : ILUState K K} (hc : CompSetting conf.usescaling A ord ordc gilu gy gscale st)
    (hk : 1 ≤ conf.nbuildsweeps) (hft : conf.factinit ≠ .sgs ∨ conf.usescaling = false)
    (hisq : conf.usescaling = true → ∀ i < A.nbrows, isq (A.entry i i) ≠ 0)
    {d : Nat → K} {rho : K} (hdom : WDominant A.nbrows A.entry d rho) (h1 : rho < 1) :
    ∃ inf st' u, scalarCompute isq conf A ord ordc gilu gy gscale st = .ok (inf, st') ∧ st'.iluvals = some u ∧
      u.length = A.browptr⟦A.nbrows⟧ ∧ ScaleIs isq conf.usescaling A st'.scale ∧
      ExactILU A (scaledEntry isq conf.usescaling A) u ∧ PivotsOk A u ∧
      ∀ i < A.nbrows, (1 - rho) * (|scaleFac isq conf.usescaling A i| * (|A.entry i i| * d i)) ≤
        |upperFactor A u i i| * (d i / |scaleFac isq conf.usescaling A i|) -
          ∑ j ∈ Ico (i + 1) A.nbrows, |upperFactor A u i j| * (d j / |scaleFac isq conf.usescaling A j|) := by
  have hA := hc.full
  obtain ⟨pos, _, hpos⟩ := compute_ILU_positions_correct A hA hc.sorted hc.diag
  have hdom' := hdom.scaled (isq := isq) hisq
  obtain ⟨u, hl, hex, hp⟩ := exists_exact_ilu hA hc.sorted hc.diag hpos hdom' h1
  obtain ⟨inf, st', e, hu⟩ := scalar_ilu_compute_complete hc hk (hft.imp id fun h => ⟨h, hdom.diag⟩) hl hex fun i hi p hq hlt => hp _ (by omega)
  refine ⟨inf, st', u, e, hu, hl, (scalar_ilu_compute_exact hc hk e).2.1, hex, hp, fun i hi => ?_⟩
  have := exact_excess hA hc.diag hl hdom' h1 hi fun k hk => hex k (by omega)
  unfold excess at this
  refine le_trans (le_of_eq ?_) this
  have hne : scaleFac isq conf.usescaling A i ≠ 0 := by
    unfold scaleFac
    split
    · rename_i hu; exact hisq hu i hi
    · exact one_ne_zero
  have := abs_pos.mpr hne
  unfold scaledEntry
  rw [abs_mul, abs_mul]
  field_simp

/-- **C71** Likewise for the asynchronous factorization: there are factors with invertible pivots such that every execution of `2 n - 1` or more rounds
gives them, from every initial guess. -/
theorem scalar_ilu_dominant_async {A : SR K} (hA : A.Full) (hS : A.Sorted) (hD : A.HasDiag) {pos : ILUPos}
    (hpos : computeILUPositions A = .ok pos) {scal : Nat → Nat → K → C K} {S : Nat → Nat → K} (hscal : Scales A scal S)
    {d : Nat → K} {rho : K} (hdom : WDominant A.nbrows S d rho) (h1 : rho < 1) :
    ∃ u, u.length = A.browptr⟦A.nbrows⟧ ∧ ExactILU A S u ∧ PivotsOk A u ∧
      (∀ (mix : Set K → Set K), MixOk mix → ∀ x : List K, x.length = A.browptr⟦A.nbrows⟧ → ∀ k, 2 * A.nbrows - 1 ≤ k →
        ∀ log last, ARounds (iluComp A scal pos) mix x k log last → applyLog x log = u) ∧
      (∀ L s, 1 ≤ L → (2 * A.nbrows - 1) * (2 * L - 1) ≤ s → ∀ x x' : List K, x.length = A.browptr⟦A.nbrows⟧ →
        AsyncExec (Lag A.browptr⟦A.nbrows⟧ L) A.browptr⟦A.nbrows⟧ (s * A.browptr⟦A.nbrows⟧) (iluCompP A scal pos) x x' →
        x' = u) := by
  obtain ⟨pos', e, hposOk⟩ := compute_ILU_positions_correct A hA hS hD
  rw [hpos] at e; cases e
  obtain ⟨u, hl, hex, hp⟩ := exists_exact_ilu hA hS hD hposOk hdom h1
  have hseq : iluSweeps A scal pos 1 u = .ok u :=
    iluSweeps_complete hA hS hD hposOk (hscal.scalOk hA) one_pos hl hl
      (exact_pos hA hex fun i hi p hq hlt => hp _ (by omega))
  exact ⟨u, hl, hex, hp,
    fun mix hm x hx k hk log last h => async_ilu_rounds_exact hm hA hS hD hpos hscal le_rfl hl hseq hx hk h,
    fun L s hL hs x x' hx h => async_ilu_exec_exact hA hS hD hpos le_rfl hl hseq hL hs hx h⟩

/-! ### Convergence -/

/-- What the applications of the scalar ILU preconditioner deliver (C25, C27, C28): `z = D w` with `L U w = D r`, `D` the scaling. -/
def ScalarIluSolved (A : SR K) (u : List K) (scale : Option (List K)) (r z : List K) : Prop :=
  ∃ w : Nat → K, (∀ i < A.nbrows, z⟦i⟧ = scaleAt scale i * w i) ∧
    ∀ i < A.nbrows, ∑ j ∈ range A.nbrows, luProd A u i j * w j = scaleAt scale i * r⟦i⟧

omit [LinearOrder K] [IsStrictOrderedRing K] in
theorem ScaleIs.scaleAt {isq : K → K} {us : Bool} {A : SR K} {o : Option (List K)} (h : ScaleIs isq us A o) {i : Nat} (hi : i < A.nbrows) :
    scaleAt o i = scaleFac isq us A i := by
  unfold ScaleIs at h
  unfold Blasted.scaleAt scaleFac
  split at h
  · rename_i hu
    obtain ⟨s, rfl, _, hs⟩ := h
    rw [if_pos hu]; exact hs i hi
  · rename_i hu
    subst h
    rw [if_neg hu]

/-- **C72** Correcting an approximation `x` of the solution `s` by the preconditioned residual reduces the largest (weighted) error at least by the
dominance ratio: with exact factors, for every application that solves the factored system. -/
theorem ilu_correction_contracts {isq : K → K} {us : Bool} {A : SR K} (hA : A.Full) (hD : A.HasDiag) {u : List K}
    (hl : u.length = A.browptr⟦A.nbrows⟧) {scale : Option (List K)} (hsc : ScaleIs isq us A scale)
    (hex : ExactILU A (scaledEntry isq us A) u) (hisq : us = true → ∀ i < A.nbrows, isq (A.entry i i) ≠ 0)
    {d : Nat → K} {rho : K} (hdom : WDominant A.nbrows A.entry d rho) (h0 : 0 ≤ rho) (h1 : rho < 1)
    {b r z x : List K} {s : Nat → K} (hs : ∀ i < A.nbrows, ∑ j ∈ range A.nbrows, A.entry i j * s j = b⟦i⟧)
    (hr : ∀ i < A.nbrows, r⟦i⟧ = b⟦i⟧ - ∑ j ∈ range A.nbrows, A.entry i j * x⟦j⟧) (hz : ScalarIluSolved A u scale r z)
    {c : K} (hc : 0 ≤ c) (hx : ∀ i < A.nbrows, |x⟦i⟧ - s i| ≤ c * d i) :
    ∀ i < A.nbrows, |x⟦i⟧ + z⟦i⟧ - s i| ≤ c * rho * d i := by
  obtain ⟨w, hw, heq⟩ := hz
  set σ := scaleFac isq us A with hσ
  have hne : ∀ i < A.nbrows, σ i ≠ 0 := by
    intro i hi
    rw [hσ]; unfold scaleFac
    split
    · rename_i hu; exact hisq hu i hi
    · exact one_ne_zero
  have hdom' := hdom.scaled (isq := isq) hisq
  rw [← hσ] at hdom'
  have hcon := exact_contract hA hD hl hdom' h0 h1 hex (e := fun j => (s j - x⟦j⟧) / σ j) (e' := fun j => (s j - x⟦j⟧) / σ j - w j) (c := c)
    (fun i hi j hj hoff => by
      unfold scaledEntry
      rw [hA.entry_unstored hi hoff, mul_zero, zero_mul]) hc
    (fun j hj => by
      rw [abs_div, mul_div_assoc', abs_sub_comm]
      exact div_le_div_of_nonneg_right (hx j hj) (abs_nonneg _))
    (fun i hi => by
      simp only [mul_sub, sub_mul, sum_sub_distrib]
      rw [heq i hi, hsc.scaleAt hi, hr i hi, ← hs i hi, ← sum_sub_distrib, mul_sum]
      congr 1
      refine sum_congr rfl fun j hj => ?_
      have := hne j (mem_range.mp hj)
      unfold scaledEntry
      rw [← hσ]
      field_simp)
  intro i hi
  have h2 := hcon i hi
  have h3 : x⟦i⟧ + z⟦i⟧ - s i = -(σ i * ((s i - x⟦i⟧) / σ i - w i)) := by
    rw [hw i hi, hsc.scaleAt hi, mul_sub, mul_div_cancel₀ _ (hne i hi)]
    ring
  rw [h3, abs_neg, abs_mul]
  have h4 := mul_le_mul_of_nonneg_left h2 (abs_nonneg (σ i))
  refine h4.trans_eq ?_
  have := abs_pos.mpr (hne i hi)
  field_simp

/-- The applications of the scalar ILU preconditioner to `r` with result `z`: sequential with at least one sweep, level-scheduled in any order within the levels, or
asynchronous with at least as many sweeps as rows; with any old contents of the vectors. -/
inductive ScalarIluOutcome (A : SR K) (u : List K) (scale : Option (List K)) (r z : List K) : Prop
  | sequential (k : Nat) (hk : 1 ≤ k) (init : ApplyInit) (hi : init ≠ .none) (ord : Nat → List Nat)
      (hord : ∀ t, (ord t).Perm (List.range A.nbrows)) (z₀ y y' : List K) (hz : z₀.length = A.nbrows) (hy : y.length = A.nbrows)
      (h : scalarIluApply A u scale k init ord r z₀ y = .ok (z, y'))
  | level (levels : List Nat) (hL : LevelsOk A levels) (mix : Set K → Set K) (hm : MixOk mix) (ord : Nat → List Nat)
      (hord : ∀ t, (ord t).Perm (List.range A.nbrows)) (z₀ y y' : List K) (hz : z₀.length = A.nbrows) (hy : y.length = A.nbrows)
      (h : AsyncLevelIluApply (unitLowerRow A u) (upperRow A u) A.nbrows mix (scale.map scalarSeg) levels ord r z₀ y z y')
  | async (k : Nat) (hk : A.nbrows ≤ k) (init : ApplyInit) (hi : init ≠ .none) (mix : Set K → Set K) (hm : MixOk mix)
      (ord : Nat → List Nat) (hord : ∀ t, (ord t).Perm (List.range A.nbrows)) (z₀ y y' : List K) (hz : z₀.length = A.nbrows)
      (hy : y.length = A.nbrows)
      (h : AsyncIluApply (unitLowerRow A u) (upperRow A u) A.nbrows mix (scale.map scalarSeg) k init ord r z₀ y z y')

omit [IsStrictOrderedRing K] in
/-- All applications solve the factored system. -/
theorem ScalarIluOutcome.solved {A : SR K} (hA : A.Full) (hS : A.Sorted) (hD : A.HasDiag) {u : List K}
    (hl : u.length = A.browptr⟦A.nbrows⟧) (hp : PivotsOk A u) {scale : Option (List K)} (hs : ScaleLen scale A.nbrows) {r z : List K}
    (hr : r.length = A.nbrows) (h : ScalarIluOutcome A u scale r z) : z.length = A.nbrows ∧ ScalarIluSolved A u scale r z := by
  cases h with
  | sequential k hk init hi ord hord z₀ y y' hz hy h =>
    obtain ⟨z₁, y₁, e, _, h1, h2⟩ := scalar_ilu_apply_correct hA hS hD hl hp hs hk hi hord hr hz hy
    rw [e] at h
    injection h with h
    injection h with h3 _
    subst h3
    exact ⟨h1, h2⟩
  | level levels hL mix hm ord hord z₀ y y' hz hy h => exact scalar_ilu_apply_levels_async hA hS hD hl hp hs hL hm hord hr hz hy h
  | async k hk init hi mix hm ord hord z₀ y y' hz hy h => exact scalar_ilu_apply_async_exact hA hS hD hl hp hs hm hk hi hord hr hz hy h

/-- `k` steps of the iteration that corrects `x` by the preconditioned residual. -/
inductive IluIteration (A : SR K) (u : List K) (scale : Option (List K)) (b : List K) : Nat → List K → List K → Prop
  | zero (x : List K) : IluIteration A u scale b 0 x x
  | succ {k : Nat} {x y r z : List K} (h : IluIteration A u scale b k x y) (hr : r.length = A.nbrows)
      (hres : ∀ i < A.nbrows, r⟦i⟧ = b⟦i⟧ - ∑ j ∈ range A.nbrows, A.entry i j * y⟦j⟧) (hz : ScalarIluOutcome A u scale r z) :
      IluIteration A u scale b (k + 1) x (List.zipWith (· + ·) y z)

/-- **C72** The iteration preconditioned with ILU(0) converges for every (weighted) strictly diagonally dominant matrix, at least as fast as the bound for
Jacobi's method: after `compute`, `k` steps reduce the largest weighted error to `rho ^ k` of that of the initial guess; with or without scaling, and for every way of
applying the preconditioner. -/
theorem ilu_iteration_converges {isq : K → K} {conf : ILUConf} {A : SR K} {ord ordc : List Nat}
    {gilu gy gscale : List K} {st st' : ILUState K K} {inf : Option (RemInfo K)}
    (hc : CompSetting conf.usescaling A ord ordc gilu gy gscale st) (hk : 1 ≤ conf.nbuildsweeps)
    (hisq : conf.usescaling = true → ∀ i < A.nbrows, isq (A.entry i i) ≠ 0)
    {d : Nat → K} {rho : K} (hdom : WDominant A.nbrows A.entry d rho) (h0 : 0 ≤ rho) (h1 : rho < 1)
    (h : scalarCompute isq conf A ord ordc gilu gy gscale st = .ok (inf, st')) {u : List K} (hu : st'.iluvals = some u)
    {b x y : List K} {s : Nat → K} (hs : ∀ i < A.nbrows, ∑ j ∈ range A.nbrows, A.entry i j * s j = b⟦i⟧)
    (hx : x.length = A.nbrows) {c : K} (hc0 : 0 ≤ c) (hb : ∀ i < A.nbrows, |x⟦i⟧ - s i| ≤ c * d i) {k : Nat}
    (hit : IluIteration A u st'.scale b k x y) :
    y.length = A.nbrows ∧ ∀ i < A.nbrows, |y⟦i⟧ - s i| ≤ c * rho ^ k * d i := by
  obtain ⟨_, hsc, u', hu', hl, hex, _⟩ := scalar_ilu_compute_exact hc hk h
  rw [hu] at hu'
  injection hu' with hu'
  subst hu'
  have hdom' := hdom.scaled (isq := isq) hisq
  have hp : PivotsOk A u := fun i hi => isUnit_iff_ne_zero.mpr
    (pivot_ne_zero hdom' h1 hi (exact_excess hc.full hc.diag hl hdom' h1 hi fun k hk => hex k (by omega)))
  induction hit with
  | zero x => simpa using ⟨hx, hb⟩
  | @succ k x y r z _ hr hres hz ih =>
    obtain ⟨hy, hyb⟩ := ih hx hb
    obtain ⟨hzl, hzs⟩ := hz.solved hc.full hc.sorted hc.diag hl hp hsc.length hr
    refine ⟨by simp [hy, hzl], fun i hi => ?_⟩
    have := ilu_correction_contracts hc.full hc.diag hl hsc hex hisq hdom h0 h1 hs hres hzs (mul_nonneg hc0 (pow_nonneg h0 k)) hyb i hi
    have hzip : (List.zipWith (· + ·) y z)⟦i⟧ = y⟦i⟧ + z⟦i⟧ := by
      rw [get0_eq_getElem (by simp [hy, hzl, hi]), get0_eq_getElem (by omega), get0_eq_getElem (by omega), List.getElem_zipWith]
    rw [hzip, pow_succ]
    refine this.trans_eq ?_
    ring

/-! ### M-matrices -/

/-- The signs of the factors of an M-matrix. -/
theorem exact_signs {V : Type} {A : SR V} {m : Nat} (hA : A.Full m) (hD : A.HasDiag) {u : List K}
    (hl : u.length = A.browptr⟦A.nbrows⟧) {S : Nat → Nat → K} {d : Nat → K} (hd : ∀ i < A.nbrows, 0 < d i)
    (hoff : ∀ i < A.nbrows, ∀ j < A.nbrows, i ≠ j → S i j ≤ 0)
    (hz : ∀ i < A.nbrows, ∀ j < A.nbrows, (∀ p, A.InRow i p → A.bcolind⟦p⟧ ≠ j) → S i j = 0)
    (hdom : ∀ i < A.nbrows, 0 < ∑ j ∈ range A.nbrows, S i j * d j) (he : ExactILU A S u) :
    ∀ i < A.nbrows, (∀ k < i, lowerFactor A u i k ≤ 0) ∧ (∀ j < A.nbrows, i < j → upperFactor A u i j ≤ 0) ∧
      0 < upperFactor A u i i ∧ 0 < ∑ j ∈ range A.nbrows, upperFactor A u i j * d j := by
  set n := A.nbrows with hn
  set L := lowerFactor A u with hL
  set U := upperFactor A u with hUd
  have hU : ∀ k j, j < k → U k j = 0 := upperFactor_zero A u
  intro i
  induction i using Nat.strong_induction_on with
  | _ i ih =>
    intro hi
    have hrow : RowFac n (fun i j => ∃ p, A.InRow i p ∧ A.bcolind⟦p⟧ = j) S L U i := rowFac_of_exact hA hD hl hi (he i hi)
    have hlow : ∀ k < i, L i k ≤ 0 := by
      intro k
      induction k using Nat.strong_induction_on with
      | _ k ihk =>
        intro hki
        by_cases hst : ∃ p, A.InRow i p ∧ A.bcolind⟦p⟧ = k
        · have h1 := hrow.prod k (by omega) hst
          rw [(hrow.split_low hi hU hki).1] at h1
          have h2 : 0 ≤ ∑ k' ∈ range k, L i k' * U k' k := sum_nonneg fun k' hk' => by
            rw [mem_range] at hk'
            exact mul_nonneg_of_nonpos_of_nonpos (ihk k' hk' (by omega)) ((ih k' (by omega) (by omega)).2.1 k (by omega) hk')
          have h3 := hoff i hi k (by omega) (by omega)
          have h4 := (ih k hki (by omega)).2.2.1
          by_contra hpos
          have := mul_pos (not_le.mp hpos) h4
          linarith
        · rw [hrow.low k hki hst]
    have hprod : ∀ j < n, i ≤ j → 0 ≤ ∑ k ∈ range i, L i k * U k j := fun j hj hij =>
      sum_nonneg fun k hk => by
        rw [mem_range] at hk
        exact mul_nonneg_of_nonpos_of_nonpos (hlow k hk) ((ih k hk (by omega)).2.1 j hj (by omega))
    have hup : ∀ j < n, i < j → U i j ≤ 0 := by
      intro j hj hij
      by_cases hst : ∃ p, A.InRow i p ∧ A.bcolind⟦p⟧ = j
      · have h1 := hrow.prod j hj hst
        rw [(hrow.split_up hi hij.le).1] at h1
        linarith [hoff i hi j hj (by omega), hprod j hj hij.le]
      · rw [hrow.up j hij hst]
    have hge : ∀ j < n, S i j ≤ ∑ k ∈ range n, L i k * U k j := by
      intro j hj
      by_cases hst : ∃ p, A.InRow i p ∧ A.bcolind⟦p⟧ = j
      · rw [hrow.prod j hj hst]
      · rw [hz i hi j hj fun p hp hc => hst ⟨p, hp, hc⟩]
        rcases lt_trichotomy j i with hji | rfl | hji
        · rw [(hrow.split_low hi hU hji).1, hrow.low j hji hst, zero_mul, zero_add]
          exact sum_nonneg fun k hk => by
            rw [mem_range] at hk
            exact mul_nonneg_of_nonpos_of_nonpos (hlow k (by omega)) ((ih k (by omega) (by omega)).2.1 j hj hk)
        · exact absurd hrow.diag hst
        · rw [(hrow.split_up hi hji.le).1, hrow.up j hji hst, zero_add]
          exact hprod j hj hji.le
    have hv : 0 < ∑ j ∈ range n, U i j * d j := by
      have h1 : ∑ j ∈ range n, S i j * d j ≤ ∑ j ∈ range n, (∑ k ∈ range n, L i k * U k j) * d j :=
        sum_le_sum fun j hj => mul_le_mul_of_nonneg_right (hge j (mem_range.mp hj)) (hd j (mem_range.mp hj)).le
      have h2 : ∑ j ∈ range n, (∑ k ∈ range n, L i k * U k j) * d j = ∑ k ∈ range n, L i k * ∑ j ∈ range n, U k j * d j := by
        simp only [mul_sum, sum_mul]
        rw [sum_comm]
        exact sum_congr rfl fun j _ => sum_congr rfl fun k _ => by ring
      rw [h2, ← sum_range_add_sum_Ico (fun k => L i k * ∑ j ∈ range n, U k j * d j) hi, sum_range_succ, hrow.one, one_mul,
        sum_eq_zero (s := Ico (i + 1) n) fun k hk => by rw [hrow.above k (by rw [mem_Ico] at hk; omega), zero_mul], add_zero] at h1
      have h3 : ∑ k ∈ range i, L i k * ∑ j ∈ range n, U k j * d j ≤ 0 := sum_nonpos fun k hk => by
        rw [mem_range] at hk
        exact mul_nonpos_of_nonpos_of_nonneg (hlow k hk) (ih k hk (by omega)).2.2.2.le
      linarith [hdom i hi]
    refine ⟨hlow, hup, ?_, hv⟩
    have h1 := hv
    rw [← sum_range_add_sum_Ico _ hi, sum_range_succ,
      sum_eq_zero (s := range i) fun j hj => by rw [hU i j (mem_range.mp hj), zero_mul], zero_add] at h1
    have h2 : ∑ j ∈ Ico (i + 1) n, U i j * d j ≤ 0 := sum_nonpos fun j hj => by
      rw [mem_Ico] at hj
      exact mul_nonpos_of_nonpos_of_nonneg (hup j hj.2 hj.1) (hd j hj.2).le
    exact (pos_iff_pos_of_mul_pos (show 0 < U i i * d i by linarith)).mpr (hd i hi)

/-- What is needed of a matrix for the signs of its factors: nonpositive off-diagonal entries and `S d > 0` for some positive `d`. Such matrices are the nonsingular
M-matrices. -/
structure MMat (n : Nat) (S : Nat → Nat → K) (d : Nat → K) : Prop where
  pos : ∀ i < n, 0 < d i
  off : ∀ i < n, ∀ j < n, i ≠ j → S i j ≤ 0
  semi : ∀ i < n, 0 < ∑ j ∈ range n, S i j * d j

theorem MMat.scaled {isq : K → K} {us : Bool} {A : SR K} {d : Nat → K} (h : MMat A.nbrows A.entry d)
    (hσ : ∀ i < A.nbrows, 0 < scaleFac isq us A i) :
    MMat A.nbrows (scaledEntry isq us A) (fun j => d j / scaleFac isq us A j) where
  pos := fun i hi => div_pos (h.pos i hi) (hσ i hi)
  off := fun i hi j hj hij => by
    unfold scaledEntry
    exact mul_nonpos_of_nonpos_of_nonneg (mul_nonpos_of_nonneg_of_nonpos (hσ i hi).le (h.off i hi j hj hij)) (hσ j hj).le
  semi := fun i hi => by
    have h1 : ∀ j ∈ range A.nbrows, scaledEntry isq us A i j * (d j / scaleFac isq us A j) =
        scaleFac isq us A i * (A.entry i j * d j) := fun j hj => by
      have := (hσ j (mem_range.mp hj)).ne'
      unfold scaledEntry
      field_simp
    rw [sum_congr rfl h1, ← mul_sum]
    exact mul_pos (hσ i hi) (h.semi i hi)

/-- An M-matrix is dominant with the weights `d`. -/
theorem MMat.wdominant {n : Nat} {S : Nat → Nat → K} {d : Nat → K} (h : MMat n S d) : ∃ rho < 1, 0 ≤ rho ∧ WDominant n S d rho := by
  have hpos : ∀ i < n, 0 < S i i ∧ ∑ j ∈ (range n).erase i, |S i j| * d j < S i i * d i := by
    intro i hi
    have h1 := h.semi i hi
    rw [← sum_erase_add _ _ (mem_range.mpr hi)] at h1
    have h2 : ∑ j ∈ (range n).erase i, |S i j| * d j = -∑ j ∈ (range n).erase i, S i j * d j := by
      rw [← sum_neg_distrib]
      refine sum_congr rfl fun j hj => ?_
      rw [mem_erase, mem_range] at hj
      rw [abs_of_nonpos (h.off i hi j hj.2 (Ne.symm hj.1)), neg_mul]
    have h3 : 0 ≤ ∑ j ∈ (range n).erase i, |S i j| * d j :=
      sum_nonneg fun j hj => mul_nonneg (abs_nonneg _) (h.pos j (mem_range.mp (mem_of_mem_erase hj))).le
    have h4 : ∑ j ∈ (range n).erase i, |S i j| * d j < S i i * d i := by linarith
    exact ⟨(pos_iff_pos_of_mul_pos (lt_of_le_of_lt h3 h4)).mpr (h.pos i hi), h4⟩
  have hrho : ∀ m ≤ n, ∃ rho : K, rho < 1 ∧ 0 ≤ rho ∧ ∀ i < m, ∑ j ∈ (range n).erase i, |S i j| * d j ≤ rho * (|S i i| * d i) := by
    intro m
    induction m with
    | zero => exact fun _ => ⟨0, one_pos, le_rfl, fun i hi => absurd hi (by omega)⟩
    | succ m ih =>
      intro hm
      obtain ⟨rho, h1, h0, hr⟩ := ih (by omega)
      obtain ⟨hp, hlt⟩ := hpos m (by omega)
      have hq : 0 < S m m * d m := mul_pos hp (h.pos m (by omega))
      refine ⟨max rho ((∑ j ∈ (range n).erase m, |S m j| * d j) / (S m m * d m)), max_lt h1 ((div_lt_one hq).mpr hlt), le_max_of_le_left h0,
        fun i hi => ?_⟩
      rcases Nat.lt_succ_iff_lt_or_eq.mp hi with h' | rfl
      · exact (hr i h').trans (mul_le_mul_of_nonneg_right (le_max_left _ _) (mul_nonneg (abs_nonneg _) (h.pos i (by omega)).le))
      · rw [abs_of_pos hp]
        refine le_trans (le_of_eq ?_) (mul_le_mul_of_nonneg_right (le_max_right _ _) hq.le)
        rw [div_mul_cancel₀ _ hq.ne']
  obtain ⟨rho, h1, h0, hr⟩ := hrho n le_rfl
  exact ⟨rho, h1, h0, h.pos, fun i hi => (hpos i hi).1.ne', hr⟩

/-- The product of the factors of an M-matrix is monotone, and nowhere below the matrix. -/
theorem exact_monotone {V : Type} {A : SR V} {m : Nat} (hA : A.Full m) (hD : A.HasDiag) {u : List K}
    (hl : u.length = A.browptr⟦A.nbrows⟧) {S : Nat → Nat → K} {d : Nat → K} (hM : MMat A.nbrows S d)
    (hz : ∀ i < A.nbrows, ∀ j < A.nbrows, (∀ p, A.InRow i p → A.bcolind⟦p⟧ ≠ j) → S i j = 0) (he : ExactILU A S u) :
    (∀ i < A.nbrows, ∀ j < A.nbrows, S i j ≤ luProd A u i j) ∧
    ∀ w : Nat → K, (∀ i < A.nbrows, 0 ≤ ∑ j ∈ range A.nbrows, luProd A u i j * w j) → ∀ i < A.nbrows, 0 ≤ w i := by
  have hsg := exact_signs hA hD hl hM.pos hM.off hz hM.semi he
  set n := A.nbrows with hn
  refine ⟨fun i hi j hj => ?_, fun w hw => ?_⟩
  · have hrow : RowFac n _ S (lowerFactor A u) (upperFactor A u) i := rowFac_of_exact hA hD hl hi (he i hi)
    by_cases hst : ∃ p, A.InRow i p ∧ A.bcolind⟦p⟧ = j
    · exact (hrow.prod j hj hst).ge
    · rw [hz i hi j hj fun p hp hc => hst ⟨p, hp, hc⟩]
      unfold luProd
      refine sum_nonneg fun k hk => ?_
      rw [mem_range] at hk
      rcases lt_trichotomy k i with hki | rfl | hki
      · rcases lt_trichotomy k j with hkj | rfl | hkj
        · exact mul_nonneg_of_nonpos_of_nonpos ((hsg i hi).1 k hki) ((hsg k hk).2.1 j hj hkj)
        · rw [hrow.low k hki hst, zero_mul]
        · rw [upperFactor_zero A u k j hkj, mul_zero]
      · rcases lt_trichotomy k j with hkj | rfl | hkj
        · rw [hrow.up j hkj hst, mul_zero]
        · exact absurd hrow.diag hst
        · rw [upperFactor_zero A u k j hkj, mul_zero]
      · rw [hrow.above k hki, zero_mul]
  · set y : Nat → K := fun i => ∑ j ∈ range n, upperFactor A u i j * w j with hy
    have hLy : ∀ i < n, ∑ k ∈ range n, lowerFactor A u i k * y k = ∑ j ∈ range n, luProd A u i j * w j := by
      intro i hi
      simp only [hy, mul_sum, luProd, sum_mul]
      rw [sum_comm]
      exact sum_congr rfl fun j _ => sum_congr rfl fun k _ => by ring
    have hy0 : ∀ i < n, 0 ≤ y i := by
      intro i
      induction i using Nat.strong_induction_on with
      | _ i ih =>
        intro hi
        have hrow := rowFac_of_exact hA hD hl hi (he i hi)
        have h1 := hLy i hi
        rw [← sum_range_add_sum_Ico (fun k => lowerFactor A u i k * y k) hi, sum_range_succ, hrow.one, one_mul,
          sum_eq_zero (s := Ico (i + 1) n) fun k hk => by rw [hrow.above k (by rw [mem_Ico] at hk; omega), zero_mul], add_zero] at h1
        have h2 : ∑ k ∈ range i, lowerFactor A u i k * y k ≤ 0 := sum_nonpos fun k hk => by
          rw [mem_range] at hk
          exact mul_nonpos_of_nonpos_of_nonneg ((hsg i hi).1 k hk) (ih k hk (by omega))
        linarith [hw i hi]
    have key : ∀ t i, i < n → n - i = t → 0 ≤ w i := by
      intro t
      induction t using Nat.strong_induction_on with
      | _ t ih =>
        intro i hi ht
        have h1 : y i = upperFactor A u i i * w i + ∑ j ∈ Ico (i + 1) n, upperFactor A u i j * w j := by
          simp only [hy]
          rw [← sum_range_add_sum_Ico _ hi, sum_range_succ,
            sum_eq_zero (s := range i) fun j hj => by rw [upperFactor_zero A u i j (mem_range.mp hj), zero_mul], zero_add]
        have h2 : ∑ j ∈ Ico (i + 1) n, upperFactor A u i j * w j ≤ 0 := sum_nonpos fun j hj => by
          rw [mem_Ico] at hj
          exact mul_nonpos_of_nonpos_of_nonneg ((hsg i hi).2.1 j hj.2 hj.1) (ih _ (by omega) j hj.2 rfl)
        have h3 := hy0 i hi
        by_contra hneg
        have := mul_neg_of_pos_of_neg (hsg i hi).2.2.1 (not_le.mp hneg)
        linarith
    exact fun i hi => key _ i hi rfl

/-- What `compute` leaves for an M-matrix. -/
theorem mmat_compute {isq : K → K} {conf : ILUConf} {A : SR K} {ord ordc : List Nat}
    {gilu gy gscale : List K} {st st' : ILUState K K} {inf : Option (RemInfo K)}
    (hc : CompSetting conf.usescaling A ord ordc gilu gy gscale st) (hk : 1 ≤ conf.nbuildsweeps)
    (hisq : conf.usescaling = true → ∀ i < A.nbrows, 0 < isq (A.entry i i)) {d : Nat → K} (hM : MMat A.nbrows A.entry d)
    (h : scalarCompute isq conf A ord ordc gilu gy gscale st = .ok (inf, st')) {u : List K} (hu : st'.iluvals = some u) :
    u.length = A.browptr⟦A.nbrows⟧ ∧ ScaleIs isq conf.usescaling A st'.scale ∧ PivotsOk A u ∧
    (∀ i < A.nbrows, 0 < scaleFac isq conf.usescaling A i) ∧
    (∀ i < A.nbrows, ∀ j < A.nbrows, scaledEntry isq conf.usescaling A i j ≤ luProd A u i j) ∧
    ∀ w : Nat → K, (∀ i < A.nbrows, 0 ≤ ∑ j ∈ range A.nbrows, luProd A u i j * w j) → ∀ i < A.nbrows, 0 ≤ w i := by
  obtain ⟨_, hsc, u', hu', hl, hex, _⟩ := scalar_ilu_compute_exact hc hk h
  rw [hu] at hu'
  injection hu' with hu'
  subst hu'
  have hσ : ∀ i < A.nbrows, 0 < scaleFac isq conf.usescaling A i := by
    intro i hi
    unfold scaleFac
    split
    · rename_i hu; exact hisq hu i hi
    · exact one_pos
  have hM' := hM.scaled hσ
  have hz : ∀ i < A.nbrows, ∀ j < A.nbrows, (∀ p, A.InRow i p → A.bcolind⟦p⟧ ≠ j) → scaledEntry isq conf.usescaling A i j = 0 :=
    fun i hi j hj hst => by
      unfold scaledEntry
      rw [hc.full.entry_unstored hi hst, mul_zero, zero_mul]
  obtain ⟨h1, h2⟩ := exact_monotone hc.full hc.diag hl hM' hz hex
  exact ⟨hl, hsc, fun i hi => isUnit_iff_ne_zero.mpr (exact_signs hc.full hc.diag hl hM'.pos hM'.off hz hM'.semi hex i hi).2.2.1.ne', hσ, h1, h2⟩

/-- **C72** For an M-matrix (nonpositive off-diagonal entries and `A d > 0` for some positive `d`) the preconditioner preserves signs: every application maps a nonnegative
vector to a nonnegative vector. -/
theorem ilu_apply_nonneg {isq : K → K} {conf : ILUConf} {A : SR K} {ord ordc : List Nat}
    {gilu gy gscale : List K} {st st' : ILUState K K} {inf : Option (RemInfo K)}
    (hc : CompSetting conf.usescaling A ord ordc gilu gy gscale st) (hk : 1 ≤ conf.nbuildsweeps)
    (hisq : conf.usescaling = true → ∀ i < A.nbrows, 0 < isq (A.entry i i)) {d : Nat → K} (hM : MMat A.nbrows A.entry d)
    (h : scalarCompute isq conf A ord ordc gilu gy gscale st = .ok (inf, st')) {u : List K} (hu : st'.iluvals = some u)
    {r z : List K} (hr : r.length = A.nbrows) (hr0 : ∀ i < A.nbrows, 0 ≤ r⟦i⟧) (hz : ScalarIluOutcome A u st'.scale r z) :
    ∀ i < A.nbrows, 0 ≤ z⟦i⟧ := by
  obtain ⟨hl, hsc, hp, hσ, _, hmono⟩ := mmat_compute hc hk hisq hM h hu
  obtain ⟨_, w, hw, heq⟩ := hz.solved hc.full hc.sorted hc.diag hl hp hsc.length hr
  intro i hi
  rw [hw i hi, hsc.scaleAt hi]
  refine mul_nonneg (hσ i hi).le (hmono w (fun i hi => ?_) i hi)
  rw [heq i hi, hsc.scaleAt hi]
  exact mul_nonneg (hσ i hi).le (hr0 i hi)

/-- **C72** For an M-matrix the iteration is monotone: an approximation below the solution is corrected to one that is still below it, and not below the previous one if the
residual is nonnegative; and the residual stays nonnegative. -/
theorem ilu_correction_monotone {isq : K → K} {conf : ILUConf} {A : SR K} {ord ordc : List Nat}
    {gilu gy gscale : List K} {st st' : ILUState K K} {inf : Option (RemInfo K)}
    (hc : CompSetting conf.usescaling A ord ordc gilu gy gscale st) (hk : 1 ≤ conf.nbuildsweeps)
    (hisq : conf.usescaling = true → ∀ i < A.nbrows, 0 < isq (A.entry i i)) {d : Nat → K} (hM : MMat A.nbrows A.entry d)
    (h : scalarCompute isq conf A ord ordc gilu gy gscale st = .ok (inf, st')) {u : List K} (hu : st'.iluvals = some u)
    {b r z x : List K} {s : Nat → K} (hs : ∀ i < A.nbrows, ∑ j ∈ range A.nbrows, A.entry i j * s j = b⟦i⟧)
    (hr : r.length = A.nbrows) (hres : ∀ i < A.nbrows, r⟦i⟧ = b⟦i⟧ - ∑ j ∈ range A.nbrows, A.entry i j * x⟦j⟧)
    (hz : ScalarIluOutcome A u st'.scale r z) :
    ((∀ i < A.nbrows, x⟦i⟧ ≤ s i) → ∀ i < A.nbrows, x⟦i⟧ + z⟦i⟧ ≤ s i) ∧
    ((∀ i < A.nbrows, 0 ≤ r⟦i⟧) → ∀ i < A.nbrows, x⟦i⟧ ≤ x⟦i⟧ + z⟦i⟧ ∧
      0 ≤ b⟦i⟧ - ∑ j ∈ range A.nbrows, A.entry i j * (x⟦j⟧ + z⟦j⟧)) := by
  obtain ⟨hl, hsc, hp, hσ, hge, hmono⟩ := mmat_compute hc hk hisq hM h hu
  have hz0 := fun h0 => ilu_apply_nonneg hc hk hisq hM h hu hr h0 hz
  obtain ⟨_, w, hw, heq⟩ := hz.solved hc.full hc.sorted hc.diag hl hp hsc.length hr
  set σ := scaleFac isq conf.usescaling A with hσd
  refine ⟨fun hx i hi => ?_, fun h0 i hi => ⟨le_add_of_nonneg_right (hz0 h0 i hi), ?_⟩⟩
  · have h1 := hmono (fun j => (s j - x⟦j⟧) / σ j - w j) (fun i hi => by
      have h2 : ∑ j ∈ range A.nbrows, luProd A u i j * ((s j - x⟦j⟧) / σ j - w j) =
          ∑ j ∈ range A.nbrows, (luProd A u i j - scaledEntry isq conf.usescaling A i j) * ((s j - x⟦j⟧) / σ j) := by
        simp only [mul_sub, sub_mul, sum_sub_distrib]
        rw [heq i hi, hsc.scaleAt hi, hres i hi, ← hs i hi, ← sum_sub_distrib, mul_sum]
        congr 1
        refine sum_congr rfl fun j hj => ?_
        have := (hσ j (mem_range.mp hj)).ne'
        unfold scaledEntry
        rw [← hσd]
        field_simp
      rw [h2]
      exact sum_nonneg fun j hj => mul_nonneg (sub_nonneg.mpr (hge i hi j (mem_range.mp hj)))
        (div_nonneg (sub_nonneg.mpr (hx j (mem_range.mp hj))) (hσ j (mem_range.mp hj)).le)) i hi
    have h2 := mul_nonneg (hσ i hi).le h1
    rw [mul_sub, mul_div_cancel₀ _ (hσ i hi).ne'] at h2
    rw [hw i hi, hsc.scaleAt hi, ← hσd]
    linarith
  · have hw0 : ∀ j < A.nbrows, 0 ≤ w j := hmono w fun i hi => by
      rw [heq i hi, hsc.scaleAt hi]
      exact mul_nonneg (hσ i hi).le (h0 i hi)
    have h1 : σ i * (b⟦i⟧ - ∑ j ∈ range A.nbrows, A.entry i j * (x⟦j⟧ + z⟦j⟧)) =
        ∑ j ∈ range A.nbrows, (luProd A u i j - scaledEntry isq conf.usescaling A i j) * w j := by
      simp only [mul_add, sub_mul, sum_add_distrib, sum_sub_distrib]
      rw [heq i hi, hsc.scaleAt hi, hres i hi, ← sub_sub, mul_sub]
      congr 1
      rw [mul_sum]
      refine sum_congr rfl fun j hj => ?_
      rw [hw j (mem_range.mp hj), hsc.scaleAt (mem_range.mp hj)]
      unfold scaledEntry
      rw [← hσd]
      ring
    have h2 : 0 ≤ σ i * (b⟦i⟧ - ∑ j ∈ range A.nbrows, A.entry i j * (x⟦j⟧ + z⟦j⟧)) := by
      rw [h1]
      exact sum_nonneg fun j hj => mul_nonneg (sub_nonneg.mpr (hge i hi j (mem_range.mp hj))) (hw0 j (mem_range.mp hj))
    exact nonneg_of_mul_nonneg_right h2 (hσ i hi)

/-! ### A concrete case -/

/-- An M-matrix on a ring of four nodes. It is not diagonally dominant with equal weights, and its elimination creates fill. -/
def exM : SR ℚ :=
  { exQ with vals := [3, -1, -1, -1, 2, -1, -1, 3, -1, -1, -1, 2] }

theorem exM_setting (us : Bool) : CompSetting us exM [2, 0, 1, 3] (List.range 12)
    (List.replicate 12 7) (List.replicate 4 7) (List.replicate 4 7) {} where
  full := by constructor <;> decide
  sorted := SR.sorted_of_check (by decide)
  diag := by constructor <;> decide
  ord_perm := by decide
  ordc_perm := by decide
  gilu_len := by decide
  gy_len := by decide
  gscale_len := by decide
  state := Or.inl rfl

theorem exM_dominant : WDominant 4 exM.entry (get0 [4, 5, 4, (5 : ℚ)]) (5/6) := by
  constructor <;> intro i hi <;> interval_cases i <;> decide +kernel

/-- With equal weights it is not dominant. -/
example : ¬ ∃ rho : ℚ, rho < 1 ∧ WDominant 4 exM.entry (fun _ => 1) rho := by
  rintro ⟨rho, h1, h⟩
  have h2 := h.dom 1 (by norm_num)
  rw [show ∑ j ∈ (range 4).erase 1, |exM.entry 1 j| * 1 = 2 by decide +kernel, show |exM.entry 1 1| * 1 = 2 by decide +kernel] at h2
  linarith

theorem exM_mmat : MMat 4 exM.entry (get0 [4, 5, 4, (5 : ℚ)]) where
  pos := fun i hi => by interval_cases i <;> decide +kernel
  off := fun i hi j hj => by interval_cases i <;> interval_cases j <;> decide +kernel
  semi := fun i hi => by interval_cases i <;> decide +kernel

/-- The state `compute` leaves for `exM`. -/
def exMstate : ILUState ℚ ℚ :=
  match scalarCompute (fun x : ℚ => x⁻¹) ⟨true, 2, .original, false⟩ exM [2, 0, 1, 3] (List.range 12)
    (List.replicate 12 7) (List.replicate 4 7) (List.replicate 4 7) {} with
  | .ok (_, st) => st
  | .error _ => {}

theorem exM_compute : scalarCompute (fun x : ℚ => x⁻¹) ⟨true, 2, .original, false⟩ exM [2, 0, 1, 3] (List.range 12)
    (List.replicate 12 7) (List.replicate 4 7) (List.replicate 4 7) {} = .ok (none, exMstate) := by
  unfold exMstate
  obtain ⟨inf, st', u, e, -⟩ := scalar_ilu_dominant_compute (conf := ⟨true, 2, .original, false⟩) (isq := fun x : ℚ => x⁻¹) (exM_setting true)
    (by decide) (Or.inl (by decide)) (fun _ i hi => inv_ne_zero (exM_dominant.diag i hi)) exM_dominant (by norm_num)
  have h : (scalarCompute (fun x : ℚ => x⁻¹) ⟨true, 2, .original, false⟩ exM [2, 0, 1, 3] (List.range 12)
    (List.replicate 12 7) (List.replicate 4 7) (List.replicate 4 7) {}).map Prod.fst = .ok none := by decide +kernel
  rw [e] at h ⊢
  injection h with h
  dsimp only at h ⊢
  rw [h]

/-- Non-vacuity of the theorems of this file: one step of the iteration on `exM` with scaling, for a right-hand side with the solution `1`, from `0`. -/
example : ∃ u z : List ℚ, exMstate.iluvals = some u ∧ ScalarIluOutcome exM u exMstate.scale [1, 0, 1, 0] z ∧
    IluIteration exM u exMstate.scale [1, 0, 1, 0] 1 [0, 0, 0, 0] (List.zipWith (· + ·) [0, 0, 0, 0] z) ∧
    (∀ i < 4, |(List.zipWith (· + ·) [0, 0, 0, 0] z)⟦i⟧ - 1| ≤ 1/4 * (5/6) ^ 1 * ([4, 5, 4, (5 : ℚ)])⟦i⟧) ∧
    ∀ i < 4, 0 ≤ z⟦i⟧ ∧ 0 + z⟦i⟧ ≤ 1 := by
  have hu : exMstate.iluvals = some (exMstate.iluvals.getD []) := by decide +kernel
  obtain ⟨z, y', hz⟩ : ∃ z y', scalarIluApply exM (exMstate.iluvals.getD []) exMstate.scale 1 .zero (fun _ => [3, 1, 2, 0]) [1, 0, 1, 0] [7, 7, 7, 7] [9, 9, 9, 9] = .ok (z, y') := by
    have : (scalarIluApply exM (exMstate.iluvals.getD []) exMstate.scale 1 .zero (fun _ => [3, 1, 2, 0]) [1, 0, 1, 0] [7, 7, 7, 7] [9, 9, 9, 9]).isOk = true := by
      decide +kernel
    revert this
    generalize scalarIluApply exM (exMstate.iluvals.getD []) exMstate.scale 1 .zero (fun _ => [3, 1, 2, 0]) [1, 0, 1, 0] [7, 7, 7, 7] [9, 9, 9, 9] = m
    match m with
    | .ok (z, y') => exact fun _ => ⟨z, y', rfl⟩
    | .error _ => exact fun h => Bool.noConfusion h
  have ho : ScalarIluOutcome exM (exMstate.iluvals.getD []) exMstate.scale [1, 0, 1, 0] z :=
    .sequential 1 le_rfl .zero (by decide) _ (fun _ => by decide) _ _ _ rfl rfl hz
  have hres : ∀ i < 4, ([1, 0, 1, (0 : ℚ)])⟦i⟧ = ([1, 0, 1, (0 : ℚ)])⟦i⟧ - ∑ j ∈ range 4, exM.entry i j * ([0, 0, 0, (0 : ℚ)])⟦j⟧ := by
    decide +kernel
  have hs : ∀ i < 4, ∑ j ∈ range 4, exM.entry i j * 1 = ([1, 0, 1, (0 : ℚ)])⟦i⟧ := by decide +kernel
  have hit : IluIteration exM (exMstate.iluvals.getD []) exMstate.scale [1, 0, 1, 0] 1 [0, 0, 0, 0] (List.zipWith (· + ·) [0, 0, 0, 0] z) :=
    .succ (.zero _) rfl hres ho
  refine ⟨_, z, hu, ho, hit, ?_, fun i hi => ⟨?_, ?_⟩⟩
  · exact (ilu_iteration_converges (exM_setting true) (conf := ⟨true, 2, .original, false⟩) (by decide)
      (fun _ i hi => inv_ne_zero (exM_dominant.diag i hi)) exM_dominant (by norm_num) (by norm_num) exM_compute hu (s := fun _ => 1) hs rfl
      (by norm_num) (c := 1/4) (by decide +kernel) hit).2
  · exact ilu_apply_nonneg (exM_setting true) (conf := ⟨true, 2, .original, false⟩) (by decide)
      (fun _ i hi => by revert i hi; decide +kernel) exM_mmat exM_compute hu rfl (by decide +kernel) ho i hi
  · have := (ilu_correction_monotone (exM_setting true) (conf := ⟨true, 2, .original, false⟩) (by decide)
      (fun _ i hi => by revert i hi; decide +kernel) exM_mmat exM_compute hu (s := fun _ => 1) (x := [0, 0, 0, 0]) hs rfl hres ho).1 (by decide +kernel) i hi
    refine le_trans (le_of_eq ?_) this
    rw [show ([0, 0, 0, (0 : ℚ)])⟦i⟧ = 0 by interval_cases i <;> rfl]

/-- Non-vacuity of `scalar_ilu_dominant_async`: an execution of 21 sweeps on `exM` in which threads may be one sweep apart, from zeros, gives exact factors. -/
example : ∃ pos x', computeILUPositions exM = .ok pos ∧
    AsyncExec (Lag 12 2) 12 (21 * 12) (iluCompP exM (scalarScale? none) pos) (List.replicate 12 0) x' ∧ ExactILU exM exM.entry x' ∧ PivotsOk exM x' := by
  have hc := exM_setting false
  obtain ⟨pos, hpos, -⟩ := compute_ILU_positions_correct exM hc.full hc.sorted hc.diag
  have hsc : Scales exM (scalarScale? none) exM.entry := by
    intro i hi p hp
    rw [hc.full.entry_stored hc.sorted hi hp]; rfl
  obtain ⟨u, hl, hex, hp, -, h⟩ := scalar_ilu_dominant_async hc.full hc.sorted hc.diag hpos hsc exM_dominant (by norm_num)
  obtain ⟨k, ⟨log, ps⟩, -, h1, h2⟩ := (async_ilu_exec_terminates (s := 21) (x := List.replicate 12 0) hc.full hc.sorted hc.diag hpos hsc
    (lag_lt (n := 12) (L := 2) (by decide)) rfl (.refl _)).2
  have he : AsyncExec (Lag 12 2) 12 (21 * 12) (iluCompP exM (scalarScale? none) pos) (List.replicate 12 0) _ := ⟨k, log, ps, h1, h2, rfl⟩
  have := h 2 21 (by decide) (by decide) _ _ rfl he
  exact ⟨pos, _, hpos, he, by rw [this]; exact hex, by rw [this]; exact hp⟩

end Blasted
