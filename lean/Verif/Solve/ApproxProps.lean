import Verif.Solve.ApproxLemmas

/-!
# Few asynchronous sweeps of everything (C100)

The factors are computed with few asynchronous sweeps (C99) and applied with few asynchronous sweeps (C98). The preconditioned iteration still converges, with a factor as close to the ratio of
dominance as wanted, and the numbers of sweeps needed depend neither on the size of the matrix nor on its pattern nor on the schedules.
-/

namespace Blasted

open Finset

variable {K : Type} [Field K] [LinearOrder K] [IsStrictOrderedRing K]

section near
variable {isq : K → K} {us : Bool} {A : SR K} {ex u : List K} {scale : Option (List K)} {d : Nat → K} {rho rho' ε : K}

omit [LinearOrder K] [IsStrictOrderedRing K] in
theorem luProd_sum (A : SR K) (u : List K) (i : Nat) (z : Nat → K) :
    ∑ j ∈ range A.nbrows, luProd A u i j * z j = ∑ k ∈ range A.nbrows, lowerFactor A u i k * ∑ j ∈ range A.nbrows, upperFactor A u k j * z j := by
  simp only [mul_sum, luProd, sum_mul]
  rw [sum_comm]
  exact sum_congr rfl fun j _ => sum_congr rfl fun k _ => by ring

/-- **C100** The iteration with factors close to the exact ones and `k` asynchronous sweeps per triangular solve. -/
theorem ilu_near_iteration_converges (hA : A.Full) (hSo : A.Sorted) (hD : A.HasDiag) (hsc : ScaleIs isq us A scale)
    (hisq : us = true → ∀ i < A.nbrows, isq (A.entry i i) ≠ 0) (hdom : WDominant A.nbrows A.entry d rho) (h0 : 0 ≤ rho) (hr : rho < rho') (h1 : rho' < 1)
    (hlex : ex.length = A.browptr⟦A.nbrows⟧) (hex : ExactILU A (scaledEntry isq us A) ex) (hl : u.length = A.browptr⟦A.nbrows⟧) (he : 0 ≤ ε)
    (hε : 8 * ε ≤ (rho' - rho) * (1 - rho) ^ 2)
    (hN : NearFac A.nbrows (scaledEntry isq us A) (lowerFactor A ex) (upperFactor A ex) (lowerFactor A u) (upperFactor A u) (fun j => d j / |scaleFac isq us A j|) ε)
    {init : ApplyInit} (hi : init ≠ .none) {g : K} (hg0 : 0 ≤ g) (hg : init = .jacobi → ∀ i < A.nbrows, |scaledEntry isq us A i i| ≤ g)
    {b x y : List K} {s : Nat → K} (hs : ∀ i < A.nbrows, ∑ j ∈ range A.nbrows, A.entry i j * s j = b⟦i⟧)
    (hx : x.length = A.nbrows) {c : K} (hc0 : 0 ≤ c) (hxs : ∀ i < A.nbrows, |x⟦i⟧ - s i| ≤ c * d i) {k t : Nat}
    (hit : FewIteration A u scale k init b t x y) :
    PivotsOk A u ∧ y.length = A.nbrows ∧ ∀ i < A.nbrows,
      |y⟦i⟧ - s i| ≤ c * (rho + 12 * ε / ((1 - rho) * (1 - rho')) + (2 + 4 * g) * rho' ^ k * (1 + rho) / (1 - rho')) ^ t * d i := by
  have h1r : rho < 1 := hr.trans h1
  have h0' : 0 ≤ rho' := h0.trans hr.le
  have hdom' := hdom.scaled (isq := isq) hisq
  have hF := fewFac_of_exact hA hD hlex hdom' h0 h1r hex
  have hF' := hF.perturb hN h0 hr h1.le he hε
  have hpex : PivotsOk A ex := fun i hi => isUnit_iff_ne_zero.mpr (hF.piv i hi)
  have hpu : PivotsOk A u := fun i hi => isUnit_iff_ne_zero.mpr (hF'.piv i hi)
  refine ⟨hpu, ?_⟩
  have hrho : 0 < 1 - rho := sub_pos.mpr h1r
  have hrho' : 0 < 1 - rho' := sub_pos.mpr h1
  have hne : ∀ i < A.nbrows, scaleFac isq us A i ≠ 0 := by
    intro i hi
    unfold scaleFac
    split
    · rename_i hu; exact hisq hu i hi
    · exact one_ne_zero
  set q := rho + 12 * ε / ((1 - rho) * (1 - rho')) + (2 + 4 * g) * rho' ^ k * (1 + rho) / (1 - rho') with hq
  have hq0 : 0 ≤ q := by
    have := pow_nonneg h0' k
    positivity
  induction hit with
  | zero x => simpa using ⟨hx, hxs⟩
  | @succ t x y r z z₀ y₀ y₁ ord _ hr hres hz hy hord hap ih =>
    obtain ⟨hyl, hyb⟩ := ih hx hxs
    have hM : 0 ≤ c * q ^ t := mul_nonneg hc0 (pow_nonneg hq0 t)
    set M := c * q ^ t with hMd
    -- the exact applications of the exact factors and of the others
    obtain ⟨ze, -, -, -, -, hsol⟩ := scalar_ilu_apply_correct hA hSo hD hlex hpex hsc.length (k := 1) le_rfl hi hord hr hz hy
    obtain ⟨zu, -, -, -, -, hsolu⟩ := scalar_ilu_apply_correct hA hSo hD hl hpu hsc.length (k := 1) le_rfl hi hord hr hz hy
    have hcon := ilu_correction_contracts hA hD hlex hsc hex hisq hdom h0 h1r hs hres hsol hM hyb
    have hzeb : ∀ i < A.nbrows, |ze⟦i⟧| ≤ 2 * M * d i := by
      intro i hi
      rw [show ze⟦i⟧ = (y⟦i⟧ + ze⟦i⟧ - s i) - (y⟦i⟧ - s i) by ring]
      refine (abs_sub _ _).trans ?_
      have e1 := hcon i hi
      have e2 := hyb i hi
      have e3 : M * rho * d i ≤ M * d i := mul_le_mul_of_nonneg_right (mul_le_of_le_one_right hM h1r.le) (hdom.pos i hi).le
      linarith
    have hclose : ∀ i < A.nbrows, |zu⟦i⟧ - ze⟦i⟧| ≤ 12 * M * ε / ((1 - rho) * (1 - rho')) * d i := by
      obtain ⟨we, hwe, heqe⟩ := hsol
      obtain ⟨wu, hwu, hequ⟩ := hsolu
      have key := hF.near_solution hN hF' h0 h1r h1 he (z := we) (z' := wu) (b := fun i => scaleAt scale i * r⟦i⟧) (c := 2 * M) (by positivity)
        (fun i hi => by
          have hs := abs_pos.mpr (hne i hi)
          have e1 := hzeb i hi
          rw [hwe i hi, hsc.scaleAt hi, abs_mul] at e1
          rw [← mul_div_assoc, le_div_iff₀ hs]
          linarith)
        (fun i hi => by rw [← luProd_sum]; exact heqe i hi) (fun i hi => by rw [← luProd_sum]; exact hequ i hi)
      intro i hi
      have hs := abs_pos.mpr (hne i hi)
      rw [hwu i hi, hwe i hi, ← mul_sub, abs_mul, hsc.scaleAt hi]
      refine (mul_le_mul_of_nonneg_left (key i hi) hs.le).trans_eq ?_
      field_simp
      ring
    -- the residual
    have hres' : ∀ i < A.nbrows, |r⟦i⟧| ≤ M * (1 + rho) / (1 - rho') * ((1 - rho') * (|A.entry i i| * d i)) := by
      intro i hi
      have e : r⟦i⟧ = -∑ j ∈ range A.nbrows, A.entry i j * (y⟦j⟧ - s j) := by
        simp only [mul_sub, sum_sub_distrib]
        rw [hres i hi, ← hs i hi]
        ring
      rw [e, abs_neg]
      refine (FewFac.abs_sum_le (v := d) (c := M) fun j hj => hyb j (mem_range.mp hj)).trans ?_
      have e2 := hdom.dom i hi
      have e3 := sum_erase_add (range A.nbrows) (fun j => |A.entry i j| * d j) (mem_range.mpr hi)
      have e4 : ∑ j ∈ range A.nbrows, |A.entry i j| * d j ≤ (1 + rho) * (|A.entry i i| * d i) := by linarith
      refine (mul_le_mul_of_nonneg_left e4 hM).trans_eq ?_
      field_simp
    obtain ⟨hzl, hzb⟩ := ilu_few_sweeps_fac hA hSo hD hl hsc hisq hF' h0' h1 hi hg0 hg hord hr hz hy hap
      (R := M * (1 + rho) / (1 - rho')) (by positivity) hres' hsolu
    refine ⟨by simp [hyl, hzl], fun i hi => ?_⟩
    have hzip : (List.zipWith (· + ·) y z)⟦i⟧ = y⟦i⟧ + z⟦i⟧ := by
      rw [get0_eq_getElem (by simp [hyl, hzl, hi]), get0_eq_getElem (by omega), get0_eq_getElem (by omega), List.getElem_zipWith]
    rw [hzip, show y⟦i⟧ + z⟦i⟧ - s i = (y⟦i⟧ + ze⟦i⟧ - s i) + (zu⟦i⟧ - ze⟦i⟧) + (z⟦i⟧ - zu⟦i⟧) by ring]
    refine (abs_add_three _ _ _).trans ((add_le_add (add_le_add (hcon i hi) (hclose i hi)) (hzb i hi)).trans_eq ?_)
    rw [pow_succ, ← mul_assoc c, ← hMd, hq]
    field_simp

end near

/-! ### From the first sweep of the factorization to the last step of the iteration -/

/-- `t` steps of the iteration that corrects `x` by the preconditioned residual, each with `s` asynchronous sweeps of the triangular solves in which threads may be up to `L - 1` sweeps apart,
at the level of the accesses of the threads. -/
inductive ExecIteration (A : SR K) (u : List K) (scale : Option (List K)) (L s : Nat) (init : ApplyInit) (b : List K) : Nat → List K → List K → Prop
  | zero (x : List K) : ExecIteration A u scale L s init b 0 x x
  | succ {t : Nat} {x y r z z₀ y₀ y₁ : List K} {ord : Nat → List Nat} (h : ExecIteration A u scale L s init b t x y) (hr : r.length = A.nbrows)
      (hres : ∀ i < A.nbrows, r⟦i⟧ = b⟦i⟧ - ∑ j ∈ range A.nbrows, A.entry i j * y⟦j⟧) (hz : z₀.length = A.nbrows) (hy : y₀.length = A.nbrows)
      (hord : ∀ t, (ord t).Perm (List.range A.nbrows))
      (hap : AsyncIluExec (unitLowerP A u) (upperP A u) A.nbrows (Lag A.nbrows L) (scale.map scalarSeg) s init ord r z₀ y₀ z y₁) :
      ExecIteration A u scale L s init b (t + 1) x (List.zipWith (· + ·) y z)

omit [IsStrictOrderedRing K] in
theorem ExecIteration.few {A : SR K} (hSo : A.Sorted) (hD : A.HasDiag) {u : List K} {scale : Option (List K)} (hs : ScaleLen scale A.nbrows) {L s k : Nat} (hL : 1 ≤ L)
    (hk : 1 ≤ k) (hks : k * (2 * L - 1) ≤ s) {init : ApplyInit} (hi : init ≠ .none) {b : List K} {t : Nat} {x y : List K} (h : ExecIteration A u scale L s init b t x y) :
    FewIteration A u scale k init b t x y := by
  induction h with
  | zero x => exact .zero x
  | succ _ hr hres hz hy hord hap ih =>
    exact .succ ih hr hres hz hy hord (hap.apply (fun b => ⟨evals_unitLowerP A u b, fun _ hi => once_unitLowerP hSo hD u b hi⟩)
      (fun b => ⟨evals_upperP A u b, fun _ hi => once_upperP hSo hD u b hi⟩) (segOk_scalar hs) hL hk (fun _ => hks) hi hord hr hz hy)

/-- **C100** For every ratio of dominance `rho < 1` and every `θ > rho` there are two numbers of sweeps such that, for every matrix that is dominant with that ratio, whatever its size and pattern:
after that many asynchronous sweeps of the factorization no pivot is zero, and every step of the iteration with the preconditioner whose triangular solves do that many asynchronous sweeps reduces
the largest weighted error by the factor `θ`. The sweeps count for `1 / (2 L - 1)` if threads may be `L - 1` sweeps apart. -/
theorem async_ilu_iteration_converges [Archimedean K] {rho θ g : K} (h0 : 0 ≤ rho) (h1 : rho < 1) (hθ : rho < θ) (hg0 : 0 ≤ g) :
    ∃ kb ka : Nat, ∀ (isq : K → K) (us : Bool) (A : SR K) (pos : ILUPos) (scale : Option (List K)) (d : Nat → K) (ft : FactInit) (ord ordc : List Nat) (g₀ x₀ u : List K) (L sb L' sa : Nat),
      A.Full → A.Sorted → A.HasDiag → computeILUPositions A = .ok pos → ScaleIs isq us A scale → (us = true → ∀ i < A.nbrows, isq (A.entry i i) ≠ 0) →
      WDominant A.nbrows A.entry d rho → ord.Perm (List.range A.nbrows) → ordc.Perm (List.range A.browptr⟦A.nbrows⟧) → g₀.length = A.browptr⟦A.nbrows⟧ →
      (ft = .sgs ∧ us = false ∨ (ft = .original ∨ ft = .zero) ∧ ∀ i < A.nbrows, |scaledEntry isq us A i i| ≤ 1) →
      scalarFactInit A ft scale ord ordc g₀ = .ok x₀ → 1 ≤ L → kb * (2 * L - 1) ≤ sb →
      AsyncExec (Lag A.browptr⟦A.nbrows⟧ L) A.browptr⟦A.nbrows⟧ (sb * A.browptr⟦A.nbrows⟧) (iluCompP A (scalarScale? scale) pos) x₀ u →
      1 ≤ L' → ka * (2 * L' - 1) ≤ sa → PivotsOk A u ∧
      ∀ (init : ApplyInit) (b x y : List K) (s : Nat → K) (c : K) (t : Nat), init ≠ .none → (init = .jacobi → ∀ i < A.nbrows, |scaledEntry isq us A i i| ≤ g) →
        (∀ i < A.nbrows, ∑ j ∈ range A.nbrows, A.entry i j * s j = b⟦i⟧) → x.length = A.nbrows → (∀ i < A.nbrows, |x⟦i⟧ - s i| ≤ c * d i) → 0 ≤ c →
        ExecIteration A u scale L' sa init b t x y → y.length = A.nbrows ∧ ∀ i < A.nbrows, |y⟦i⟧ - s i| ≤ c * θ ^ t * d i := by
  -- the ratio for the factors left by the sweeps
  set rho' : K := (1 + rho) / 2 with hrho'
  have hr : rho < rho' := by rw [hrho']; linarith
  have h1' : rho' < 1 := by rw [hrho']; linarith
  have h0' : 0 < rho' := lt_of_le_of_lt h0 hr
  have a0 : 0 < 1 - rho := by linarith
  have a0' : 0 < 1 - rho' := by linarith
  have hgap : 0 < θ - rho := by linarith
  -- the accuracy of the factors
  set ε : K := min ((rho' - rho) * (1 - rho) ^ 2 / 8) ((θ - rho) * ((1 - rho) * (1 - rho')) / 24) with hε
  have hε0 : 0 < ε := by
    have : 0 < rho' - rho := by linarith
    rw [hε]
    exact lt_min (by positivity) (by positivity)
  have hε1 : 8 * ε ≤ (rho' - rho) * (1 - rho) ^ 2 := by
    have := min_le_left ((rho' - rho) * (1 - rho) ^ 2 / 8) ((θ - rho) * ((1 - rho) * (1 - rho')) / 24)
    rw [← hε] at this
    linarith
  have hε2 : 12 * ε / ((1 - rho) * (1 - rho')) ≤ (θ - rho) / 2 := by
    have := min_le_right ((rho' - rho) * (1 - rho) ^ 2 / 8) ((θ - rho) * ((1 - rho) * (1 - rho')) / 24)
    rw [← hε] at this
    rw [div_le_iff₀ (mul_pos a0 a0')]
    linarith
  obtain ⟨kb, hkb⟩ := async_ilu_sweeps_needed h0 h1 hε0
  -- the sweeps of the solves
  obtain ⟨ka, hka⟩ := exists_pow_lt_of_lt_one (show 0 < (θ - rho) / 2 * (1 - rho') / ((2 + 4 * g) * (1 + rho)) by positivity) h1'
  have hka' : (2 + 4 * g) * rho' ^ (ka + 1) * (1 + rho) / (1 - rho') ≤ (θ - rho) / 2 := by
    rw [lt_div_iff₀ (by positivity)] at hka
    rw [div_le_iff₀ a0', pow_succ]
    have e1 : rho' ^ ka * rho' ≤ rho' ^ ka := mul_le_of_le_one_right (pow_nonneg h0'.le _) h1'.le
    have e2 := mul_le_mul_of_nonneg_right e1 (show 0 ≤ (2 + 4 * g) * (1 + rho) by positivity)
    linarith
  refine ⟨kb + 1, ka + 1, ?_⟩
  intro isq us A pos scale d ft ord ordc g₀ x₀ u L sb L' sa hA hSo hD hpos hsc hisq hdom hord hordc hg₀ hft hx₀ hL hsb hrun hL' hsa
  obtain ⟨pos', e1, hpo⟩ := compute_ILU_positions_correct A hA hSo hD
  have hpo : ILUPosOk A pos := by rw [hpos] at e1; cases e1; exact hpo
  have hdom' := hdom.scaled (isq := isq) hisq
  obtain ⟨ex, hlex, hex, -⟩ := exists_exact_ilu hA hSo hD hpo hdom' h1
  have hx : SafeGuess A (scaledEntry isq us A) x₀ := by
    rcases hft with ⟨rfl, rfl⟩ | ⟨hft, hone⟩
    · have : scale = none := by simpa [ScaleIs] using hsc
      subst this
      exact safeGuess_sgs hA hSo hD hdom.diag hord hg₀ hx₀
    · exact safeGuess_original hA hSo hD hsc hone hord hordc hg₀ hft hx₀
  have hscal : Scales A (scalarScale? scale) (scaledEntry isq us A) := by
    intro i hi p hp
    have := hsc.scalOk hA hSo p (hA.lt_nnz hi hp.2)
    dsimp only at this
    rw [hA.rowOf_eq hi hp] at this
    exact this
  have hz : ∀ i < A.nbrows, ∀ j < A.nbrows, (∀ p, A.InRow i p → A.bcolind⟦p⟧ ≠ j) → scaledEntry isq us A i j = 0 := by
    intro i hi j _ hst
    unfold scaledEntry
    rw [hA.entry_unstored hi hst, mul_zero, zero_mul]
  have hR := hrun.rounds (isKernel_ilu hA hSo hD hpos) hx.len hL (k := kb + 1) (by omega) fun _ => hsb
  have hl : u.length = A.browptr⟦A.nbrows⟧ := by
    obtain ⟨log, last, -, rfl⟩ := hR
    rw [applyLog_length, hx.len]
  have hnear := hkb A (scalarScale? scale) pos (scaledEntry isq us A) _ ex x₀ u (kb + 1) hA hSo hD hpos hscal hdom' hz hlex hex hx (by omega) hR
  have hN : NearFac A.nbrows (scaledEntry isq us A) (lowerFactor A ex) (upperFactor A ex) (lowerFactor A u) (upperFactor A u) (fun j => d j / |scaleFac isq us A j|) ε := {
    one := fun i _ => lowerFactor_self A u i
    above := fun i _ k hk => by
      unfold lowerFactor
      rw [if_neg (by omega), if_neg (by omega)]
    below := fun i _ j hj => upperFactor_zero A u i j hj
    up := fun i hi => (hnear i hi).1
    low := fun i hi => (hnear i hi).2 }
  refine ⟨?_, ?_⟩
  · intro i hi
    have := ((fewFac_of_exact hA hD hlex hdom' h0 h1 hex).perturb hN h0 hr h1'.le hε0.le hε1).piv i hi
    exact isUnit_iff_ne_zero.mpr this
  · intro init b x y s c t hi hg hs hxl hxs hc0 hit
    obtain ⟨-, hyl, hyb⟩ := ilu_near_iteration_converges hA hSo hD hsc hisq hdom h0 hr h1' hlex hex hl hε0.le hε1 hN hi hg0 hg hs hxl hc0 hxs
      (hit.few hSo hD hsc.length hL' (k := ka + 1) (by omega) hsa hi)
    refine ⟨hyl, fun i hi => (hyb i hi).trans (mul_le_mul_of_nonneg_right (mul_le_mul_of_nonneg_left (pow_le_pow_left₀ ?_ ?_ t) hc0) (hdom.pos i hi).le)⟩
    · have := pow_nonneg h0'.le (ka + 1)
      positivity
    · linarith

/-! ### Non-vacuity -/

omit [IsStrictOrderedRing K] in
/-- Executions of the application with every number of sweeps exist. -/
theorem exists_asyncIluExec {V : Type} {A : SR V} {m : Nat} {u : List K} {scale : Option (List K)} (hA : A.Full m) (hSo : A.Sorted) (hD : A.HasDiag)
    (hl : u.length = A.browptr⟦A.nbrows⟧) (hp : PivotsOk A u) (hs : ScaleLen scale A.nbrows) {L : Nat} (hL : 1 ≤ L) (s : Nat) {init : ApplyInit} (hi : init ≠ .none)
    {ord : Nat → List Nat} (hord : ∀ t, (ord t).Perm (List.range A.nbrows)) {r z y : List K} (hr : r.length = A.nbrows) (hz : z.length = A.nbrows)
    (hy : y.length = A.nbrows) :
    ∃ z' y', z'.length = A.nbrows ∧ AsyncIluExec (unitLowerP A u) (upperP A u) A.nbrows (Lag A.nbrows L) (scale.map scalarSeg) s init ord r z y z' y' := by
  obtain ⟨dinv, hd⟩ := exists_dinv hA hSo hD hl hp
  have hlen : ∀ {p : Nat → Prog K K} {x x' : List K}, AsyncExec (Lag A.nbrows L) A.nbrows (s * A.nbrows) p x x' → x'.length = x.length := by
    rintro p x x' ⟨k, log, ps, -, -, rfl⟩
    exact applyLog_length ..
  have hS := segOk_scalar (K := K) hs
  obtain ⟨z₁, e1, hz1, -⟩ := applyScaleIn_ok hS (hord 0) hr hz
  obtain ⟨y₁, e2, hy1⟩ := applyInitY_ok init (hord 1) hy
  obtain ⟨y', h1⟩ := (((triAny_unitLower (M := K) hA hSo hD hl).upd z₁ hz1)).exec_exists
    ⟨evals_unitLowerP A u _, fun i hi => once_unitLowerP hSo hD _ _ hi⟩ hy1 (lag_lt hL) s
  have hy' := (hlen h1).trans hy1
  obtain ⟨z₂, e4, hz2⟩ := applyInitZ_ok hi (hord 2) hy' hz1
  obtain ⟨z₃, h2⟩ := (((triAny_upper (M := K) hA hSo hD hl hd).upd y' hy')).exec_exists
    ⟨evals_upperP A u _, fun i hi => once_upperP hSo hD _ _ hi⟩ hz2 (lag_lt hL) s
  obtain ⟨z', e6, hz'⟩ := applyScaleOut_ok hS (hord 3) ((hlen h2).trans hz2)
  exact ⟨z', y', hz'.1, z₁, y₁, z₂, z₃, e1, e2, h1, e4, h2, e6⟩

omit [IsStrictOrderedRing K] in
/-- The iteration never gets stuck: for every number of steps there is an execution. -/
theorem exists_execIteration {A : SR K} {u : List K} {scale : Option (List K)} (hA : A.Full) (hSo : A.Sorted) (hD : A.HasDiag)
    (hl : u.length = A.browptr⟦A.nbrows⟧) (hp : PivotsOk A u) (hs : ScaleLen scale A.nbrows) {L : Nat} (hL : 1 ≤ L) (s : Nat) {init : ApplyInit} (hi : init ≠ .none)
    (b : List K) {x : List K} (hx : x.length = A.nbrows) (t : Nat) : ∃ y, y.length = A.nbrows ∧ ExecIteration A u scale L s init b t x y := by
  induction t with
  | zero => exact ⟨x, hx, .zero x⟩
  | succ t ih =>
    obtain ⟨y, hy, h⟩ := ih
    set r : List K := (List.range A.nbrows).map fun i => b⟦i⟧ - ∑ j ∈ range A.nbrows, A.entry i j * y⟦j⟧ with hr
    have hrl : r.length = A.nbrows := by rw [hr]; simp
    obtain ⟨z, y₁, hz, hap⟩ := exists_asyncIluExec (ord := fun _ => List.range A.nbrows) hA hSo hD hl hp hs hL s hi (fun _ => .refl _) hrl (z := x) (y := x) hx hx
    exact ⟨_, by simp [hy, hz], .succ h hrl (fun i hi => by rw [hr, get0_map_range _ hi]) hx hx (fun _ => .refl _) hap⟩

/-- Non-vacuity of `async_ilu_iteration_converges`: a matrix that is dominant with ratio 3/4 in the weights 3, 4, 3, the factor 4/5, threads that may be one sweep apart in the factorization and two in
the solves. -/
example : ∃ sb sa u y, AsyncExec (Lag 7 2) 7 (sb * 7) (iluCompP exTri (scalarScale? none) ⟨[2, 5], [1, 4], [0, 0, 0, 0, 1, 1, 1, 2]⟩) [2, -1, -1/2, 2, -1, -1/2, 2] u ∧
    ExecIteration exTri u none 3 sa .zero [1, 0, 1] 20 [0, 0, (0 : ℚ)] y ∧ ∀ i < 3, |y⟦i⟧ - 1| ≤ 1/3 * (4/5) ^ 20 * ([3, 4, (3 : ℚ)])⟦i⟧ := by
  obtain ⟨kb, ka, key⟩ := async_ilu_iteration_converges (K := ℚ) (rho := 3/4) (θ := 4/5) (g := 0) (by norm_num) (by norm_num) (by norm_num) le_rfl
  have ho : ScaleIs id false exTri none := rfl
  have hsc : Scales exTri (scalarScale? none) (scaledEntry id false exTri) := by
    intro i hi p hp
    have := ho.scalOk exTri_full exTri_sorted p (exTri_full.lt_nnz hi hp.2)
    dsimp only at this
    rw [exTri_full.rowOf_eq hi hp] at this
    exact this
  obtain ⟨k, ⟨log, ps⟩, -, h1, h2⟩ := (async_ilu_exec_terminates (s := kb * 3) (x := [2, -1, -1/2, 2, -1, -1/2, 2]) exTri_full exTri_sorted exTri_diag exTri_ilupos hsc
    (lag_lt (n := 7) (L := 2) (by decide)) rfl (.refl _)).2
  have h : AsyncExec (Lag 7 2) 7 (kb * 3 * 7) (iluCompP exTri (scalarScale? none) ⟨[2, 5], [1, 4], [0, 0, 0, 0, 1, 1, 1, 2]⟩) [2, -1, -1/2, 2, -1, -1/2, 2] _ :=
    ⟨k, log, ps, h1, h2, rfl⟩
  have hg : scalarFactInit exTri .sgs none [2, 0, 1] [0, 1, 2, 3, 4, 5, 6] [9, 9, 9, 9, 9, 9, 9] = .ok [2, -1, -1/2, 2, -1, -1/2, 2] := by decide +kernel
  obtain ⟨hp, hit⟩ := key id false exTri _ none _ .sgs [2, 0, 1] [0, 1, 2, 3, 4, 5, 6] [9, 9, 9, 9, 9, 9, 9] _ _ 2 (kb * 3) 3 (ka * 5) exTri_full exTri_sorted exTri_diag exTri_ilupos ho
    (by decide) exTri_wdominant (by decide) (by decide) rfl (.inl ⟨rfl, rfl⟩) hg (by decide) le_rfl h (by decide) le_rfl
  obtain ⟨y, -, hy⟩ := exists_execIteration (scale := none) (L := 3) exTri_full exTri_sorted exTri_diag (by rw [applyLog_length]; rfl) hp scaleLen_none (by decide) (ka * 5) (init := .zero) (by decide)
    [1, 0, 1] (x := [0, 0, 0]) rfl 20
  exact ⟨_, _, _, y, h, hy, (hit .zero [1, 0, 1] [0, 0, 0] y (fun _ => 1) (1/3) 20 (by decide) (by decide) (by decide +kernel) rfl (by decide +kernel) (by norm_num) hy).2⟩

end Blasted
