import Verif.ILU.BlockDomLemmas
import Verif.Solve.DomProps
import Verif.Solve.DepthProps
import Verif.Solve.SymProps
import Mathlib.Algebra.BigOperators.Field

/-!
# Block ILU(0) of block diagonally dominant matrices (C86, C87)
-/

namespace Blasted

open Finset

variable {K : Type} [Field K] [LinearOrder K] [IsStrictOrderedRing K] {bs : Nat}

local notation "Blk" => Matrix (Fin bs) (Fin bs) K

omit [LinearOrder K] [IsStrictOrderedRing K] in
theorem blockScaledEntry_diagonal (isq : K → K) (us : Bool) (A : SR Blk) (i j : Nat) :
    blockScaledEntry isq us A i j = Matrix.diagonal (blockScaleFac isq us A i) * A.entry i j * Matrix.diagonal (blockScaleFac isq us A j) := by
  ext a b
  rw [Matrix.mul_diagonal, Matrix.diagonal_mul]
  rfl

omit [LinearOrder K] [IsStrictOrderedRing K] in
theorem blockScaleFac_ne {isq : K → K} {us : Bool} {A : SR Blk} (hisq : us = true → ∀ i < A.nbrows, ∀ a, isq (A.entry i i a a) ≠ 0) {i : Nat}
    (hi : i < A.nbrows) (a : Fin bs) : blockScaleFac isq us A i a ≠ 0 := by
  unfold blockScaleFac
  split
  · rename_i hu; exact hisq hu i hi a
  · exact one_ne_zero

/-- Symmetric scaling keeps dominance, with other weights. -/
theorem WBlockDominant.scaled {isq : K → K} {us : Bool} {A : SR Blk} {d : Nat → Fin bs → K} {rho : K} (h : WBlockDominant A.nbrows A.entry d rho)
    (hisq : us = true → ∀ i < A.nbrows, ∀ a, isq (A.entry i i a a) ≠ 0) :
    WBlockDominant A.nbrows (blockScaledEntry isq us A) (fun j a => d j a / |blockScaleFac isq us A j a|) rho := by
  have hne := fun i hi a => blockScaleFac_ne (A := A) hisq (i := i) hi a
  have hu : ∀ i < A.nbrows, IsUnit (Matrix.diagonal (blockScaleFac isq us A i)) := fun i hi => by
    refine ⟨⟨Matrix.diagonal (blockScaleFac isq us A i), Matrix.diagonal fun a => (blockScaleFac isq us A i a)⁻¹, ?_, ?_⟩, rfl⟩
    · rw [Matrix.diagonal_mul_diagonal, ← Matrix.diagonal_one]
      exact congrArg Matrix.diagonal (funext fun a => mul_inv_cancel₀ (hne i hi a))
    · rw [Matrix.diagonal_mul_diagonal, ← Matrix.diagonal_one]
      exact congrArg Matrix.diagonal (funext fun a => inv_mul_cancel₀ (hne i hi a))
  refine ⟨fun i hi a => div_pos (h.pos i hi a) (abs_pos.mpr (hne i hi a)), fun i hi => ?_, fun i hi G hG a => ?_⟩
  · rw [blockScaledEntry_diagonal]
    exact ((hu i hi).mul (h.diag i hi)).mul (hu i hi)
  · have hG' : Matrix.diagonal (blockScaleFac isq us A i) * (G * Matrix.diagonal (blockScaleFac isq us A i)) * A.entry i i = 1 := by
      rw [blockScaledEntry_diagonal, ← mul_assoc, ← mul_assoc] at hG
      rw [mul_assoc]
      exact mul_eq_one_comm.mp hG
    have hdom := h.dom i hi _ hG' a
    have hs := abs_pos.mpr (hne i hi a)
    have e : ∀ j ∈ (range A.nbrows).erase i, ∑ c, |(G * blockScaledEntry isq us A i j) a c| * (d j c / |blockScaleFac isq us A j c|) =
        (∑ c, |(Matrix.diagonal (blockScaleFac isq us A i) * (G * Matrix.diagonal (blockScaleFac isq us A i)) * A.entry i j) a c| * d j c) /
          |blockScaleFac isq us A i a| := by
      intro j hj
      rw [sum_div]
      refine sum_congr rfl fun c _ => ?_
      have hsj := abs_pos.mpr (hne j (mem_range.mp (mem_of_mem_erase hj)) c)
      rw [blockScaledEntry_diagonal, ← mul_assoc, ← mul_assoc, Matrix.mul_diagonal, mul_assoc (Matrix.diagonal _) (G * _), Matrix.diagonal_mul,
        abs_mul, abs_mul]
      field_simp
    rw [sum_congr rfl e, ← sum_div, mul_div_assoc']
    exact div_le_div_of_nonneg_right hdom hs.le

/-- **C86** For a (weighted) block diagonally dominant matrix the block factorization never breaks down: `compute` succeeds, with or without scaling, for any number of
sweeps, initialisation, history of the object and order of the parallel loops; the factors are exact on the pattern, all pivot blocks are invertible, and the upper
factor is dominant with the same ratio. -/
theorem block_ilu_dominant_compute {isq : K → K} {conf : ILUConf} {A : SR Blk} {ord ord2 ordc : List Nat}
    {gilu gdblks : List Blk} {gscale : List K} {st : ILUState Blk K}
    (hc : BlockSetting conf.usescaling A ord ord2 ordc gilu gdblks gscale st) (hk : 1 ≤ conf.nbuildsweeps)
    (hisq : conf.usescaling = true → ∀ i < A.nbrows, ∀ a, isq (A.entry i i a a) ≠ 0)
    {d : Nat → Fin bs → K} {rho : K} (hdom : WBlockDominant A.nbrows A.entry d rho) (h1 : rho < 1) :
    ∃ inf st' u y, blockCompute isq conf A ord ord2 ordc gilu gdblks gscale st = .ok (inf, st') ∧ st'.iluvals = some y ∧
      BlockScaleIs isq conf.usescaling A st'.scale ∧ DiagInverted A u y ∧ ExactILU A (blockScaledEntry isq conf.usescaling A) u ∧ PivotsOk A u ∧
      ∀ i < A.nbrows, ∀ G, G * upperFactor A u i i = 1 → ∀ a,
        ∑ j ∈ Ico (i + 1) A.nbrows, ∑ c, |(G * upperFactor A u i j) a c| * (d j c / |blockScaleFac isq conf.usescaling A j c|) ≤
          rho * (d i a / |blockScaleFac isq conf.usescaling A i a|) := by
  have hA := hc.full
  obtain ⟨pos, _, hpos⟩ := compute_ILU_positions_correct A hA hc.sorted hc.diag
  have hdom' := hdom.scaled (isq := isq) hisq
  obtain ⟨u, hl, hex, hp⟩ := exists_exact_block_ilu hA hc.sorted hc.diag hpos hdom' h1
  obtain ⟨inf, st', y, e, hy, hu⟩ := block_ilu_compute_complete hc hk (fun _ => hdom'.diag) hl hex hp
  refine ⟨inf, st', u, y, e, hy, (block_ilu_compute_exact hc hk e).2.1, hu, hex, hp, fun i hi G hG a => ?_⟩
  have h2 := (block_exact_row hA hc.diag hl hdom' h1 hi fun k hk => hex k (by omega)).2 a
  have hGe : G = Ring.inverse (upperFactor A u i i) := by
    rw [← mul_one G, ← Ring.mul_inverse_cancel _ (hp i hi), ← mul_assoc, hG, one_mul]
  subst hGe
  exact h2

/-- **C86** In particular for every matrix that is (weighted) strictly diagonally dominant by scalar rows, whatever the block size it is stored with. -/
theorem block_ilu_scalar_dominant_compute {isq : K → K} {conf : ILUConf} {A : SR Blk} {ord ord2 ordc : List Nat}
    {gilu gdblks : List Blk} {gscale : List K} {st : ILUState Blk K}
    (hc : BlockSetting conf.usescaling A ord ord2 ordc gilu gdblks gscale st) (hk : 1 ≤ conf.nbuildsweeps)
    (hisq : conf.usescaling = true → ∀ i < A.nbrows, ∀ a, isq (A.entry i i a a) ≠ 0)
    {d : Nat → Fin bs → K} {rho : K} (h1 : rho < 1) (hd : ∀ i < A.nbrows, ∀ a, 0 < d i a) (h0 : ∀ i < A.nbrows, ∀ a, A.entry i i a a ≠ 0)
    (hdom : ∀ i < A.nbrows, ∀ a, ∑ j ∈ (range A.nbrows).erase i, ∑ c, |A.entry i j a c| * d j c + ∑ c ∈ univ.erase a, |A.entry i i a c| * d i c ≤
      rho * (|A.entry i i a a| * d i a)) :
    ∃ inf st' u y, blockCompute isq conf A ord ord2 ordc gilu gdblks gscale st = .ok (inf, st') ∧ st'.iluvals = some y ∧
      BlockScaleIs isq conf.usescaling A st'.scale ∧ DiagInverted A u y ∧ ExactILU A (blockScaledEntry isq conf.usescaling A) u ∧ PivotsOk A u := by
  obtain ⟨inf, st', u, y, h2, h3, h4, h5, h6, h7, _⟩ := block_ilu_dominant_compute hc hk hisq (WBlockDominant.of_scalar h1 hd h0 hdom) h1
  exact ⟨inf, st', u, y, h2, h3, h4, h5, h6, h7⟩

/-- **C86** Likewise for the asynchronous factorization: there are factors with invertible pivot blocks such that every execution of `2 n - 1` or more rounds
gives them, from every initial guess. -/
theorem block_ilu_dominant_async {A : SR Blk} (hA : A.Full) (hS : A.Sorted) (hD : A.HasDiag) {pos : ILUPos}
    (hpos : computeILUPositions A = .ok pos) {scal : Nat → Nat → Blk → Except Fail Blk} {S : Nat → Nat → Blk} (hscal : Scales A scal S)
    {d : Nat → Fin bs → K} {rho : K} (hdom : WBlockDominant A.nbrows S d rho) (h1 : rho < 1) :
    ∃ u, u.length = A.browptr⟦A.nbrows⟧ ∧ ExactILU A S u ∧ PivotsOk A u ∧
      (∀ (mix : Set Blk → Set Blk), MixOk mix → ∀ x : List Blk, x.length = A.browptr⟦A.nbrows⟧ → ∀ k, 2 * A.nbrows - 1 ≤ k →
        ∀ log last, ARounds (iluComp A scal pos) mix x k log last → applyLog x log = u) ∧
      (∀ L s, 1 ≤ L → (2 * A.nbrows - 1) * (2 * L - 1) ≤ s → ∀ x x' : List Blk, x.length = A.browptr⟦A.nbrows⟧ →
        AsyncExec (Lag A.browptr⟦A.nbrows⟧ L) A.browptr⟦A.nbrows⟧ (s * A.browptr⟦A.nbrows⟧) (iluCompP A scal pos) x x' →
        x' = u) := by
  obtain ⟨pos', e, hposOk⟩ := compute_ILU_positions_correct A hA hS hD
  rw [hpos] at e; cases e
  obtain ⟨u, hl, hex, hp⟩ := exists_exact_block_ilu hA hS hD hposOk hdom h1
  have hseq : iluSweeps A scal pos 1 u = .ok u :=
    iluSweeps_complete hA hS hD hposOk (hscal.scalOk hA) one_pos hl hl
      (exact_pos hA hex fun i hi p hq hlt => hp _ (by omega))
  exact ⟨u, hl, hex, hp,
    fun mix hm x hx k hk log last h => async_ilu_rounds_exact hm hA hS hD hpos hscal le_rfl hl hseq hx hk h,
    fun L s hL hs x x' hx h => async_ilu_exec_exact hA hS hD hpos le_rfl hl hseq hL hs hx h⟩

/-! ### Convergence -/

/-- **C87** Correcting an approximation `x` of the solution `s` by the preconditioned residual reduces the largest (weighted) error of a coefficient at least by the
dominance ratio: with exact block factors, for every application that solves the factored system. -/
theorem block_ilu_correction_contracts {isq : K → K} {us : Bool} {A : SR Blk} (hA : A.Full) (hD : A.HasDiag) {u : List Blk}
    (hl : u.length = A.browptr⟦A.nbrows⟧) {scale : Option (List K)} (hsc : BlockScaleIs isq us A scale)
    (hex : ExactILU A (blockScaledEntry isq us A) u) (hisq : us = true → ∀ i < A.nbrows, ∀ a, isq (A.entry i i a a) ≠ 0)
    {d : Nat → Fin bs → K} {rho : K} (hdom : WBlockDominant A.nbrows A.entry d rho) (h0 : 0 ≤ rho) (h1 : rho < 1)
    {b r z x : List (Fin bs → K)} {s : Nat → Fin bs → K} (hs : ∀ i < A.nbrows, ∑ j ∈ range A.nbrows, (A.entry i j).mulVec (s j) = b⟦i⟧)
    (hr : ∀ i < A.nbrows, r⟦i⟧ = b⟦i⟧ - ∑ j ∈ range A.nbrows, (A.entry i j).mulVec x⟦j⟧) (hz : BlockIluSolved A u scale r z)
    {c : K} (hc : 0 ≤ c) (hx : ∀ i < A.nbrows, ∀ a, |x⟦i⟧ a - s i a| ≤ c * d i a) :
    ∀ i < A.nbrows, ∀ a, |x⟦i⟧ a + z⟦i⟧ a - s i a| ≤ c * rho * d i a := by
  obtain ⟨_, w, hw, heq⟩ := hz
  set σ := blockScaleFac isq us A with hσ
  have hne := fun i hi a => blockScaleFac_ne (A := A) hisq (i := i) hi a
  rw [← hσ] at hne
  have hdom' := hdom.scaled (isq := isq) hisq
  rw [← hσ] at hdom'
  have hcon := block_exact_contract hA hD hl hdom' h0 h1 hex (e := fun j a => (s j a - x⟦j⟧ a) / σ j a)
    (e' := fun j a => (s j a - x⟦j⟧ a) / σ j a - w j a) (c := c)
    (fun i hi j hj hoff => by
      rw [blockScaledEntry_diagonal, hA.entry_unstored hi hoff, mul_zero, zero_mul]) hc
    (fun j hj a => by
      rw [abs_div, mul_div_assoc', abs_sub_comm]
      exact div_le_div_of_nonneg_right (hx j hj a) (abs_nonneg _))
    (fun i hi => by
      have e1 : ∀ j, (fun a => (s j a - x⟦j⟧ a) / σ j a - w j a) = (fun a => (s j a - x⟦j⟧ a) / σ j a) - w j := fun j => rfl
      simp only [e1, Matrix.mulVec_sub, Matrix.sub_mulVec, sum_sub_distrib]
      rw [heq i hi]
      congr 1
      funext a
      unfold blockScaleAt
      rw [hsc.scaleAt hi, hr i hi, ← hs i hi, ← sum_sub_distrib, Finset.sum_apply, Finset.sum_apply, mul_sum]
      refine sum_congr rfl fun j hj => ?_
      rw [← Matrix.mulVec_sub]
      unfold Matrix.mulVec dotProduct
      rw [mul_sum]
      refine sum_congr rfl fun e _ => ?_
      have := hne j (mem_range.mp hj) e
      unfold blockScaledEntry
      rw [← hσ]
      dsimp only [Matrix.of_apply, Pi.sub_apply]
      field_simp)
  intro i hi a
  have h2 := hcon i hi a
  have h3 : x⟦i⟧ a + z⟦i⟧ a - s i a = -(σ i a * ((s i a - x⟦i⟧ a) / σ i a - w i a)) := by
    rw [hw i hi]
    unfold blockScaleAt
    rw [hsc.scaleAt hi, mul_sub, mul_div_cancel₀ _ (hne i hi a)]
    ring
  rw [h3, abs_neg, abs_mul]
  have h4 := mul_le_mul_of_nonneg_left h2 (abs_nonneg (σ i a))
  refine h4.trans_eq ?_
  have := abs_pos.mpr (hne i hi a)
  field_simp

/-- `k` steps of the iteration that corrects `x` by the preconditioned residual. -/
inductive BlockIluIteration (A : SR (Matrix (Fin bs) (Fin bs) K)) (ilu : List (Matrix (Fin bs) (Fin bs) K)) (scale : Option (List K)) (b : List (Fin bs → K)) :
    Nat → List (Fin bs → K) → List (Fin bs → K) → Prop
  | zero (x : List (Fin bs → K)) : BlockIluIteration A ilu scale b 0 x x
  | succ {k : Nat} {x y r z : List (Fin bs → K)} (h : BlockIluIteration A ilu scale b k x y) (hr : r.length = A.nbrows)
      (hres : ∀ i < A.nbrows, r⟦i⟧ = b⟦i⟧ - ∑ j ∈ range A.nbrows, (A.entry i j).mulVec y⟦j⟧) (hz : BlockIluOutcome A ilu scale r z) :
      BlockIluIteration A ilu scale b (k + 1) x (List.zipWith (· + ·) y z)

/-- **C87** The iteration preconditioned with block ILU(0) converges for every (weighted) block diagonally dominant matrix, at least as fast as the bound for
the block Jacobi method: after `compute`, `k` steps reduce the largest weighted error to `rho ^ k` of that of the initial guess; with or without scaling, and for every
way of applying the preconditioner. -/
theorem block_ilu_iteration_converges {isq : K → K} {conf : ILUConf} {A : SR Blk} {ord ord2 ordc : List Nat}
    {gilu gdblks : List Blk} {gscale : List K} {st st' : ILUState Blk K} {inf : Option (RemInfo K)}
    (hc : BlockSetting conf.usescaling A ord ord2 ordc gilu gdblks gscale st) (hk : 1 ≤ conf.nbuildsweeps)
    (hisq : conf.usescaling = true → ∀ i < A.nbrows, ∀ a, isq (A.entry i i a a) ≠ 0)
    {d : Nat → Fin bs → K} {rho : K} (hdom : WBlockDominant A.nbrows A.entry d rho) (h0 : 0 ≤ rho) (h1 : rho < 1)
    (h : blockCompute isq conf A ord ord2 ordc gilu gdblks gscale st = .ok (inf, st')) {ilu : List Blk} (hu : st'.iluvals = some ilu)
    {b x y : List (Fin bs → K)} {s : Nat → Fin bs → K} (hs : ∀ i < A.nbrows, ∑ j ∈ range A.nbrows, (A.entry i j).mulVec (s j) = b⟦i⟧)
    (hx : x.length = A.nbrows) {c : K} (hc0 : 0 ≤ c) (hb : ∀ i < A.nbrows, ∀ a, |x⟦i⟧ a - s i a| ≤ c * d i a) {k : Nat}
    (hit : BlockIluIteration A ilu st'.scale b k x y) :
    y.length = A.nbrows ∧ ∀ i < A.nbrows, ∀ a, |y⟦i⟧ a - s i a| ≤ c * rho ^ k * d i a := by
  obtain ⟨_, hsc, u, ilu', hu', hex, _, hinv⟩ := block_ilu_compute_exact hc hk h
  rw [hu] at hu'
  injection hu' with hu'
  subst hu'
  induction hit with
  | zero x => simpa using ⟨hx, hb⟩
  | @succ k x y r z _ hr hres hz ih =>
    obtain ⟨hy, hyb⟩ := ih hx hb
    have hzs := hz.solved hc.full hc.sorted hc.diag hinv hsc.length hr
    refine ⟨by simp [hy, hzs.1], fun i hi a => ?_⟩
    have := block_ilu_correction_contracts hc.full hc.diag hinv.len hsc hex hisq hdom h0 h1 hs hres hzs (mul_nonneg hc0 (pow_nonneg h0 k)) hyb i hi a
    have hzip : (List.zipWith (· + ·) y z)⟦i⟧ = y⟦i⟧ + z⟦i⟧ := by
      have := hzs.1
      rw [get0_eq_getElem (by simp [hy, hzs.1, hi]), get0_eq_getElem (by omega), get0_eq_getElem (by omega), List.getElem_zipWith]
    rw [hzip, Pi.add_apply, pow_succ]
    refine this.trans_eq ?_
    ring

/-! ### Examples -/

/-- A block matrix with fill: the first block row and block column are full, and diagonal blocks that do not commute with the others. -/
def exBD : SR (Matrix (Fin 2) (Fin 2) ℚ) :=
  { browptr := [0, 3, 5, 7], bcolind := [0, 1, 2, 0, 1, 0, 2],
    vals := [mk2 4 1 0 4, mk2 1 0 0 1, mk2 0 1 1 0, mk2 0 1 1 0, mk2 5 0 1 4, mk2 1 0 0 (-1), mk2 4 0 0 4],
    diagind := [0, 4, 6], browendptr := [3, 5, 7], nbrows := 3, nnzb := 7, nbstored := 7 }

theorem exBD_setting (us : Bool) : BlockSetting us exBD [2, 0, 1] [0, 1, 2] (List.range 7)
    (List.replicate 7 (mk2 7 7 7 7)) (List.replicate 3 (mk2 7 7 7 7)) (List.replicate 6 7) {} where
  full := by constructor <;> decide
  sorted := SR.sorted_of_check (by decide)
  diag := by constructor <;> decide
  ord_perm := by decide
  ord2_perm := by decide
  ordc_perm := by decide
  gilu_len := by decide
  gdblks_len := by decide
  gscale_len := by decide
  state := Or.inl rfl

/-- The inverse diagonal blocks. -/
def exBDinv : List (Matrix (Fin 2) (Fin 2) ℚ) := [mk2 (1/4) (-1/16) 0 (1/4), mk2 (1/5) 0 (-1/20) (1/4), mk2 (1/4) 0 0 (1/4)]

theorem exBD_dominant : WBlockDominant 3 exBD.entry (fun _ _ => 1) (5/8) := by
  have hu : ∀ i < 3, exBDinv⟦i⟧ * exBD.entry i i = 1 ∧ exBD.entry i i * exBDinv⟦i⟧ = 1 := by decide +kernel
  refine ⟨fun _ _ _ => one_pos, fun i hi => ⟨⟨_, _, (hu i hi).2, (hu i hi).1⟩, rfl⟩, fun i hi G hG => ?_⟩
  have : G = exBDinv⟦i⟧ := by rw [← mul_one G, ← (hu i hi).2, ← mul_assoc, hG, one_mul]
  subst this
  clear hG
  revert i
  decide +kernel

/-- Non-vacuity of C86: the matrix is dominant, the factorization has fill that is discarded, and `compute` succeeds. -/
example : ∃ inf st', blockCompute (fun x : ℚ => x⁻¹) ⟨true, 2, .sgs, false⟩ exBD [2, 0, 1] [0, 1, 2] (List.range 7)
    (List.replicate 7 (mk2 7 7 7 7)) (List.replicate 3 (mk2 7 7 7 7)) (List.replicate 6 7) {} = .ok (inf, st') := by
  obtain ⟨inf, st', u, y, e, -⟩ := block_ilu_dominant_compute (conf := ⟨true, 2, .sgs, false⟩) (isq := fun x : ℚ => x⁻¹) (exBD_setting true) (by decide)
    (fun _ => by decide +kernel) exBD_dominant (by norm_num)
  exact ⟨inf, st', e⟩

/-- Non-vacuity of `block_ilu_scalar_dominant_compute`: the matrix is also dominant by scalar rows. -/
example : ∃ inf st', blockCompute (fun x : ℚ => x⁻¹) ⟨true, 2, .sgs, false⟩ exBD [2, 0, 1] [0, 1, 2] (List.range 7)
    (List.replicate 7 (mk2 7 7 7 7)) (List.replicate 3 (mk2 7 7 7 7)) (List.replicate 6 7) {} = .ok (inf, st') := by
  obtain ⟨inf, st', u, y, e, -⟩ := block_ilu_scalar_dominant_compute (conf := ⟨true, 2, .sgs, false⟩) (isq := fun x : ℚ => x⁻¹) (exBD_setting true)
    (by decide) (fun _ => by decide +kernel) (d := fun _ _ => 1) (rho := 3/4) (by norm_num) (fun _ _ _ => one_pos) (by decide +kernel) (by decide +kernel)
  exact ⟨inf, st', e⟩

/-- The state `compute` leaves for `exBD`. -/
def exBDstate : ILUState (Matrix (Fin 2) (Fin 2) ℚ) ℚ :=
  match blockCompute (fun x : ℚ => x⁻¹) ⟨true, 2, .sgs, false⟩ exBD [2, 0, 1] [0, 1, 2] (List.range 7)
    (List.replicate 7 (mk2 7 7 7 7)) (List.replicate 3 (mk2 7 7 7 7)) (List.replicate 6 7) {} with
  | .ok (_, st) => st
  | .error _ => {}

theorem exBD_compute : blockCompute (fun x : ℚ => x⁻¹) ⟨true, 2, .sgs, false⟩ exBD [2, 0, 1] [0, 1, 2] (List.range 7)
    (List.replicate 7 (mk2 7 7 7 7)) (List.replicate 3 (mk2 7 7 7 7)) (List.replicate 6 7) {} = .ok (none, exBDstate) := by
  unfold exBDstate
  obtain ⟨inf, st', u, y, e, -⟩ := block_ilu_dominant_compute (conf := ⟨true, 2, .sgs, false⟩) (isq := fun x : ℚ => x⁻¹) (exBD_setting true) (by decide)
    (fun _ => by decide +kernel) exBD_dominant (by norm_num)
  have h : (blockCompute (fun x : ℚ => x⁻¹) ⟨true, 2, .sgs, false⟩ exBD [2, 0, 1] [0, 1, 2] (List.range 7)
    (List.replicate 7 (mk2 7 7 7 7)) (List.replicate 3 (mk2 7 7 7 7)) (List.replicate 6 7) {}).map Prod.fst = .ok none := by decide +kernel
  rw [e] at h ⊢
  injection h with h
  dsimp only at h ⊢
  rw [h]

/-- The right-hand side for which the solution is `1`. -/
def exBDb : List (Fin 2 → ℚ) := [![7, 6], ![6, 6], ![5, 3]]

/-- Non-vacuity of C87: one step of the iteration on `exBD` with scaling, for a right-hand side with the solution `1`, from `0`. -/
example : ∃ (ilu : List (Matrix (Fin 2) (Fin 2) ℚ)) (z : List (Fin 2 → ℚ)), exBDstate.iluvals = some ilu ∧ BlockIluOutcome exBD ilu exBDstate.scale exBDb z ∧
    BlockIluIteration exBD ilu exBDstate.scale exBDb 1 [0, 0, 0] (List.zipWith (· + ·) [0, 0, 0] z) ∧
    (∀ i < 3, ∀ a, |(List.zipWith (· + ·) ([0, 0, 0] : List (Fin 2 → ℚ)) z)⟦i⟧ a - 1| ≤ 1 * (5/8) ^ 1 * 1) := by
  have hu : exBDstate.iluvals = some (exBDstate.iluvals.getD []) := by decide +kernel
  obtain ⟨z, y', hz⟩ : ∃ z y', blockIluApply exBD (exBDstate.iluvals.getD []) exBDstate.scale 1 .zero (fun _ => [1, 2, 0]) exBDb [![7, 7], ![7, 7], ![7, 7]]
      [![9, 9], ![9, 9], ![9, 9]] = .ok (z, y') := by
    have : (blockIluApply exBD (exBDstate.iluvals.getD []) exBDstate.scale 1 .zero (fun _ => [1, 2, 0]) exBDb [![7, 7], ![7, 7], ![7, 7]]
      [![9, 9], ![9, 9], ![9, 9]]).isOk = true := by
      decide +kernel
    revert this
    generalize blockIluApply exBD (exBDstate.iluvals.getD []) exBDstate.scale 1 .zero (fun _ => [1, 2, 0]) exBDb [![7, 7], ![7, 7], ![7, 7]]
      [![9, 9], ![9, 9], ![9, 9]] = m
    match m with
    | .ok (z, y') => exact fun _ => ⟨z, y', rfl⟩
    | .error _ => exact fun h => Bool.noConfusion h
  have ho : BlockIluOutcome exBD (exBDstate.iluvals.getD []) exBDstate.scale exBDb z :=
    .sequential 1 le_rfl .zero (by decide) _ (fun _ => by decide) _ _ _ rfl rfl hz
  have hs : ∀ i < 3, ∑ j ∈ range 3, (exBD.entry i j).mulVec (fun _ => 1) = exBDb⟦i⟧ := by decide +kernel
  have hit : BlockIluIteration exBD (exBDstate.iluvals.getD []) exBDstate.scale exBDb 1 [0, 0, 0] (List.zipWith (· + ·) [0, 0, 0] z) :=
    .succ (.zero _) rfl (fun i hi => by
      rw [sum_eq_zero fun j _ => ?_, sub_zero]
      rw [show ([0, 0, 0] : List (Fin 2 → ℚ))⟦j⟧ = 0 by
        rcases j with _ | _ | _ | j <;> rfl, Matrix.mulVec_zero]) ho
  exact ⟨_, z, hu, ho, hit, (block_ilu_iteration_converges (exBD_setting true) (conf := ⟨true, 2, .sgs, false⟩) (by decide)
      (fun _ => by decide +kernel) exBD_dominant (by norm_num) (by norm_num) exBD_compute hu (s := fun _ _ => 1) hs rfl
      (by norm_num) (c := 1) (by decide +kernel) hit).2⟩

/-- Non-vacuity of `block_ilu_dominant_async`: an execution of 15 sweeps on `exBD` in which threads may be one sweep apart, from zeros, gives exact factors. -/
example : ∃ pos x', computeILUPositions exBD = .ok pos ∧
    AsyncExec (Lag 7 2) 7 (15 * 7) (iluCompP exBD (blockScale? 2 (none : Option (List ℚ))) pos) (List.replicate 7 0) x' ∧ ExactILU exBD exBD.entry x' ∧ PivotsOk exBD x' := by
  have hc := exBD_setting false
  obtain ⟨pos, hpos, -⟩ := compute_ILU_positions_correct exBD hc.full hc.sorted hc.diag
  have hsc : Scales exBD (blockScale? 2 (none : Option (List ℚ))) exBD.entry := by
    intro i hi p hp
    rw [hc.full.entry_stored hc.sorted hi hp]; rfl
  obtain ⟨u, hl, hex, hp, -, h⟩ := block_ilu_dominant_async hc.full hc.sorted hc.diag hpos hsc exBD_dominant (by norm_num)
  obtain ⟨k, ⟨log, ps⟩, -, h1, h2⟩ := (async_ilu_exec_terminates (s := 15) (x := List.replicate 7 0) hc.full hc.sorted hc.diag hpos hsc
    (lag_lt (n := 7) (L := 2) (by decide)) rfl (.refl _)).2
  have he : AsyncExec (Lag 7 2) 7 (15 * 7) (iluCompP exBD (blockScale? 2 none) pos) (List.replicate 7 0) _ := ⟨k, log, ps, h1, h2, rfl⟩
  have := h 2 15 (by decide) (by decide) _ _ rfl he
  exact ⟨pos, _, hpos, he, by rw [this]; exact hex, by rw [this]; exact hp⟩

end Blasted
