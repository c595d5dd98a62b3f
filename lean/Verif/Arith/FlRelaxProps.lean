import Verif.Arith.FlSolveProps
import Verif.Relax.Shrink
import Verif.Relax.WeightProps

/-!
# Relaxations in rounded arithmetic (C83)

If the matrix, seen as a matrix of exact numbers, is weighted dominant, then all relaxations approach the exact solution of the system up to a level that is proportional to the
unit roundoff, under every schedule.
-/

namespace Blasted

open Finset

/-- `x'` is a possible result of `k` steps of the method applied to right-hand side `b` and initial guess `x`, in any arithmetic, and without stopping test for Jacobi. -/
def RelaxMethod.Result {F : Type} [Zero F] [Add F] [Sub F] [Mul F] (A : SR F) (dinv : List F) (levels : List Nat) : RelaxMethod → Nat → List F → List F → List F → Prop
  | .chaotic, k, b, x, x' => chaoticRelax A dinv k b x = .ok x'
  | .chaoticThreads, k, b, x, x' => AsyncChaoticRelax A dinv mixWhole k b x x'
  | .sgs, k, b, x, x' => sgsRelax A dinv k b x = .ok x'
  | .sgsThreads, k, b, x, x' => AsyncSgsRelax A dinv mixWhole k b x x'
  | .levelSgs, k, b, x, x' => ∃ sched sched' : Nat → Nat → List Nat → List Nat, (∀ s t l, (sched s t l).Perm l) ∧ (∀ s t l, (sched' s t l).Perm l) ∧
      levelSgsRelax A dinv levels sched sched' k b x = .ok x'
  | .levelSgsThreads, k, b, x, x' => AsyncLevelSgsRelax A dinv mixWhole levels b k x x'
  | .jacobi, k, b, x, x' => ∃ (sqrt : ℚ → ℚ) (sq : F → ℚ) (p : SolveParams ℚ) (ord : Nat → List Nat) (g : List F), p.ctol = false ∧ p.maxits = k ∧
      (∀ t, (ord t).Perm (List.range A.nbrows)) ∧ g.length = A.nbrows ∧ jacobiRelax sqrt sq p A dinv b ord g x = .ok x'

variable {F K : Type} [Zero F] [Add F] [Sub F] [Mul F] [PInvOp F] [Field K] [LinearOrder K] [IsStrictOrderedRing K]

/-- What the code computes for one row. -/
def relaxAny (A : SR F) (dinv b : List F) (x : Nat → F) (i : Nat) : F :=
  dinv⟦i⟧ * (b⟦i⟧ - addUp (fun p => A.vals⟦p⟧ * x A.bcolind⟦p⟧) (A.diagind⟦i⟧ + 1) A.browptr⟦i + 1⟧ (lowAdd A A.vals i x))

omit [PInvOp F] in
theorem relaxRow_any {A : SR F} (hA : A.Full) (hD : A.HasDiag) {dinv b : List F} (hd : dinv.length = A.nbrows) (hb : b.length = A.nbrows) {i : Nat} (hi : i < A.nbrows)
    {r : Nat → C F} {x : Nat → F} (hr : ∀ j < A.nbrows, r j = .ok (x j)) : relaxRow A dinv b i r = .ok (relaxAny A dinv b x i) := by
  have h1 := hA.ptr_len
  have h2 := hD.diag_len
  have h3 := hA.val_len
  have h4 := hA.ind_len
  have h5 := hA.ptr_le (i := i + 1) (j := A.nbrows) hi (Nat.le_refl _)
  unfold relaxRow
  rw [rd_eq (by omega), ok_bind, rd_eq (by omega), ok_bind, rd_eq (by omega), ok_bind, rd_eq (by omega), ok_bind,
    rd_eq (by omega), ok_bind, lowAdd_eval hA hD (by omega) hi hr, ok_bind,
    rowSum_any (n := A.nbrows) (by omega) (by omega) (fun p _ hp => hA.col_lt p (by omega)) hr, ok_bind]
  rfl

variable (ρ : Rounding F K)

omit [IsStrictOrderedRing K] in
theorem Rounding.mat_diag {A : SR F} (hA : A.Full) (hS : A.Sorted) (hD : A.HasDiag) {i : Nat} (hi : i < A.nbrows) :
    (ρ.mat A).entry i i = ρ.val A.vals⟦A.diagind⟦i⟧⟧ := by
  have := (ρ.mat_full hA).entry_stored (A := ρ.mat A) hS hi (hD.inRow hi)
  rw [ρ.mat_vals] at this
  rw [← this]
  show _ = (ρ.mat A).entry i A.bcolind⟦A.diagind⟦i⟧⟧
  rw [hD.diag_col i hi]

/-- The absolute values of the entries of a row, off the diagonal. -/
theorem Rounding.mat_abs_off {A : SR F} (hA : A.Full) (hS : A.Sorted) (hD : A.HasDiag) {i : Nat} (hi : i < A.nbrows) (w : Nat → K) :
    ∑ p ∈ Ico A.browptr⟦i⟧ A.diagind⟦i⟧, |ρ.val A.vals⟦p⟧| * w A.bcolind⟦p⟧ + ∑ p ∈ Ico (A.diagind⟦i⟧ + 1) A.browptr⟦i + 1⟧, |ρ.val A.vals⟦p⟧| * w A.bcolind⟦p⟧ =
      ∑ j ∈ (range A.nbrows).erase i, |(ρ.mat A).entry i j| * w j := by
  let B : SR K := { A with vals := A.vals.map fun v => |ρ.val v| }
  have hB : B.Full := hA.withVals (ilu := A.vals.map fun v => |ρ.val v|) (by rw [List.length_map]; have := hA.val_len; omega)
  have hBv : ∀ p, B.vals⟦p⟧ = |ρ.val A.vals⟦p⟧| := fun p => get0_map (fun v => |ρ.val v|) (by rw [ρ.zero, abs_zero]) _ _
  have hent : ∀ j, B.entry i j = |(ρ.mat A).entry i j| := by
    intro j
    by_cases hst : ∃ p, A.InRow i p ∧ A.bcolind⟦p⟧ = j
    · obtain ⟨p, hp, rfl⟩ := hst
      have e1 : B.entry i A.bcolind⟦p⟧ = B.vals⟦p⟧ := hB.entry_stored hS hi hp
      have e2 : (ρ.mat A).entry i A.bcolind⟦p⟧ = (ρ.mat A).vals⟦p⟧ := (ρ.mat_full hA).entry_stored hS hi hp
      rw [e1, e2, hBv, ρ.mat_vals]
    · push Not at hst
      have e1 : B.entry i j = 0 := hB.entry_unstored hi hst
      have e2 : (ρ.mat A).entry i j = 0 := (ρ.mat_full hA).entry_unstored hi hst
      rw [e1, e2, abs_zero]
  have hDB : B.HasDiag := ⟨hD.diag_len, hD.diag_ge, hD.diag_lt, hD.diag_col⟩
  have := off_sum (M := K) hB hS hDB hi w
  simp only [smul_eq_mul, hent] at this
  rw [← this]
  unfold lowSum upSum
  simp only [hBv, smul_eq_mul]
  rfl

/-- **C83**, one row: the computed value differs from the exact one for the values read by a small multiple of `(|bᵢ| + ∑ |aᵢⱼ| |xⱼ|) / |aᵢᵢ|`. -/
theorem relax_row_rounding {A : SR F} (hA : A.Full) (hS : A.Sorted) (hD : A.HasDiag) {dinv b : List F} (hd : ∀ i < A.nbrows, pinv A.vals⟦A.diagind⟦i⟧⟧ = .ok dinv⟦i⟧)
    (hl : dinv.length = A.nbrows) (hb : b.length = A.nbrows) {k i : Nat} (hi : i < A.nbrows) (hk : A.browptr⟦i + 1⟧ - A.browptr⟦i⟧ ≤ k)
    {r : Nat → C F} {x : Nat → F} (hr : ∀ j < A.nbrows, r j = .ok (x j)) :
    ∃ v, relaxRow A dinv b i r = .ok v ∧ (ρ.mat A).entry i i ≠ 0 ∧
      |ρ.val v - (ρ.val b⟦i⟧ - ∑ j ∈ (range A.nbrows).erase i, (ρ.mat A).entry i j * ρ.val (x j)) / (ρ.mat A).entry i i| ≤
        gam ρ.u (k + 3) * ((|ρ.val b⟦i⟧| + ∑ j ∈ (range A.nbrows).erase i, |(ρ.mat A).entry i j| * |ρ.val (x j)|) / |(ρ.mat A).entry i i|) := by
  refine ⟨_, relaxRow_any hA hD hl hb hi hr, ?_⟩
  have hge := hD.diag_ge i hi
  have hlt := hD.diag_lt i hi
  obtain ⟨θ, g1, g2⟩ := dot_fl (ρ := ρ) (fun p => A.vals⟦p⟧) (fun p => x A.bcolind⟦p⟧) hge
  obtain ⟨η, θ', g3, g4, g5⟩ := addUp_fl (ρ := ρ) (fun p => A.vals⟦p⟧ * x A.bcolind⟦p⟧) (lowAdd A A.vals i x) hlt
  choose ε g6 g7 using fun p => ρ.mul_fl A.vals⟦p⟧ (x A.bcolind⟦p⟧)
  set S := addUp (fun p => A.vals⟦p⟧ * x A.bcolind⟦p⟧) (A.diagind⟦i⟧ + 1) A.browptr⟦i + 1⟧ (lowAdd A A.vals i x) with hSd
  obtain ⟨δ, g8, g9⟩ := ρ.sub_fl b⟦i⟧ S
  obtain ⟨μ, g10, g11⟩ := ρ.mul_fl dinv⟦i⟧ (b⟦i⟧ - S)
  obtain ⟨ν, g12, g13, g14⟩ := Rounding.inv_fl (ρ := ρ) (hd i hi)
  have hdg := ρ.mat_diag hA hS hD hi
  refine ⟨by rw [hdg]; exact g13, ?_⟩
  set a := ρ.val A.vals⟦A.diagind⟦i⟧⟧ with ha
  set t : Nat → K := fun p => ρ.val A.vals⟦p⟧ * ρ.val (x A.bcolind⟦p⟧) with ht
  -- the value with all roundings
  have hval : ρ.val (relaxAny A dinv b x i) = a⁻¹ * (ρ.val b⟦i⟧ * (δ * μ * ν) +
      (∑ p ∈ Ico A.browptr⟦i⟧ A.diagind⟦i⟧, -t p * (θ p * η * δ * μ * ν) + ∑ p ∈ Ico (A.diagind⟦i⟧ + 1) A.browptr⟦i + 1⟧, -t p * (ε p * θ' p * δ * μ * ν))) := by
    show ρ.val (dinv⟦i⟧ * (b⟦i⟧ - S)) = _
    rw [g11, g9, g14, g5, show ρ.val (lowAdd A A.vals i x) = _ from g2]
    have e1 : ∑ p ∈ Ico A.browptr⟦i⟧ A.diagind⟦i⟧, -t p * (θ p * η * δ * μ * ν) =
        -((∑ p ∈ Ico A.browptr⟦i⟧ A.diagind⟦i⟧, ρ.val A.vals⟦p⟧ * ρ.val (x A.bcolind⟦p⟧) * θ p) * (η * δ * μ * ν)) := by
      rw [sum_mul, ← sum_neg_distrib]
      exact sum_congr rfl fun p _ => by rw [ht]; ring
    have e2 : ∑ p ∈ Ico (A.diagind⟦i⟧ + 1) A.browptr⟦i + 1⟧, -t p * (ε p * θ' p * δ * μ * ν) =
        -((∑ p ∈ Ico (A.diagind⟦i⟧ + 1) A.browptr⟦i + 1⟧, ρ.val (A.vals⟦p⟧ * x A.bcolind⟦p⟧) * θ' p) * (δ * μ * ν)) := by
      rw [sum_mul, ← sum_neg_distrib]
      exact sum_congr rfl fun p _ => by rw [ht, g7 p]; ring
    rw [e1, e2]
    ring
  -- the exact value and the bound in terms of the stored entries
  have hoff : ∑ j ∈ (range A.nbrows).erase i, (ρ.mat A).entry i j * ρ.val (x j) =
      ∑ p ∈ Ico A.browptr⟦i⟧ A.diagind⟦i⟧, t p + ∑ p ∈ Ico (A.diagind⟦i⟧ + 1) A.browptr⟦i + 1⟧, t p := by
    have := off_sum (M := K) (A := ρ.mat A) (ρ.mat_full hA) hS ⟨hD.diag_len, hD.diag_ge, hD.diag_lt, hD.diag_col⟩ hi (fun j => ρ.val (x j))
    simp only [smul_eq_mul] at this
    refine Eq.trans this.symm ?_
    unfold lowSum upSum
    simp only [ρ.mat_vals, smul_eq_mul]
    rfl
  have habs := ρ.mat_abs_off hA hS hD hi (fun j => |ρ.val (x j)|)
  have f1 : Fuzz ρ.u (k + 3) (δ * μ * ν) := ((g8.mul' g10).mul' g12).mono' (by omega)
  have f2 : ∀ p, Fuzz ρ.u (k + 3) (θ p * η * δ * μ * ν) := fun p => (((((g1 p).mul' g3).mul' g8).mul' g10).mul' g12).mono' (by omega)
  have f3 : ∀ p, Fuzz ρ.u (k + 3) (ε p * θ' p * δ * μ * ν) := fun p => (((((g6 p).mul' (g4 p)).mul' g8).mul' g10).mul' g12).mono' (by omega)
  have b1 := abs_add_sum_fuzz_le (f := fun p => -t p) (s := Ico A.browptr⟦i⟧ A.diagind⟦i⟧) ρ.u_nonneg ρ.u_lt_one (c := ρ.val b⟦i⟧) f1 (fun p _ => f2 p)
  have b2 := abs_sum_fuzz_le (f := fun p => -t p) (s := Ico (A.diagind⟦i⟧ + 1) A.browptr⟦i + 1⟧) ρ.u_nonneg ρ.u_lt_one (fun p _ => f3 p)
  simp only [abs_neg] at b1 b2
  rw [hval, hdg, ← habs, hoff]
  set P := ∑ p ∈ Ico A.browptr⟦i⟧ A.diagind⟦i⟧, -t p * (θ p * η * δ * μ * ν)
  set P' := ∑ p ∈ Ico (A.diagind⟦i⟧ + 1) A.browptr⟦i + 1⟧, -t p * (ε p * θ' p * δ * μ * ν)
  have hP : ∀ s : Finset Nat, ∑ p ∈ s, -t p = -∑ p ∈ s, t p := fun s => sum_neg_distrib _
  have hT : ∀ s : Finset Nat, ∑ p ∈ s, |t p| = ∑ p ∈ s, |ρ.val A.vals⟦p⟧| * |ρ.val (x A.bcolind⟦p⟧)| := fun s => sum_congr rfl fun p _ => abs_mul _ _
  rw [hP, hT] at b1 b2
  have hpos : 0 < |a| := abs_pos.mpr g13
  rw [show a⁻¹ * (ρ.val b⟦i⟧ * (δ * μ * ν) + (P + P')) - (ρ.val b⟦i⟧ - (∑ p ∈ Ico A.browptr⟦i⟧ A.diagind⟦i⟧, t p + ∑ p ∈ Ico (A.diagind⟦i⟧ + 1) A.browptr⟦i + 1⟧, t p)) / a =
    ((ρ.val b⟦i⟧ * (δ * μ * ν) + P - (ρ.val b⟦i⟧ + -∑ p ∈ Ico A.browptr⟦i⟧ A.diagind⟦i⟧, t p)) + (P' - -∑ p ∈ Ico (A.diagind⟦i⟧ + 1) A.browptr⟦i + 1⟧, t p)) / a by
      field_simp; ring, abs_div, ← mul_div_assoc]
  refine div_le_div_of_nonneg_right ((abs_add_le _ _).trans ((add_le_add b1 b2).trans_eq ?_)) hpos.le
  ring

/-! ### Convergence up to a level -/

/-- The level, relative to the weights, that the errors approach: `g` is the relative error of one row, `rho` the ratio of dominance, `S` the size of the solution. -/
def roundingLevel (g rho S : K) : K := g * (1 + 2 * rho) * S / (1 - (1 + g) * rho)

section relax
variable {ρ} {A : SR F} {dinv b : List F} {rho S E : K} {s d : Nat → K} {k : Nat}

theorem shrinks_rounding (hA : A.Full) (hS : A.Sorted) (hD : A.HasDiag) (hd : ∀ i < A.nbrows, pinv A.vals⟦A.diagind⟦i⟧⟧ = .ok dinv⟦i⟧)
    (hl : dinv.length = A.nbrows) (hb : b.length = A.nbrows) (hk : ∀ i < A.nbrows, A.browptr⟦i + 1⟧ - A.browptr⟦i⟧ ≤ k)
    (hdom : WDominant A.nbrows (ρ.mat A).entry d rho) (hr : 0 ≤ rho) (h1 : (1 + gam ρ.u (k + 3)) * rho < 1)
    (hs : ∀ i < A.nbrows, ∑ j ∈ range A.nbrows, (ρ.mat A).entry i j * s j = ρ.val b⟦i⟧) (hsS : ∀ i < A.nbrows, |s i| ≤ S * d i) :
    Shrinks (relaxRow A dinv b) A.nbrows (fun e i v => |ρ.val v - s i| ≤ (roundingLevel (gam ρ.u (k + 3)) rho S + e) * d i) ((1 + gam ρ.u (k + 3)) * rho) where
  nonneg := mul_nonneg (add_nonneg zero_le_one (gam_nonneg ρ.u_nonneg ρ.u_lt_one _)) hr
  le_one := h1.le
  mono e e' j v hj hle h := h.trans (mul_le_mul_of_nonneg_right (by linarith) (hdom.pos j hj).le)
  step e he i hi r view hrv hv := by
    have hg := gam_nonneg ρ.u_nonneg ρ.u_lt_one (k + 3)
    set g := gam ρ.u (k + 3) with hgd
    set c := roundingLevel g rho S with hc
    obtain ⟨v, h2, h3, h4⟩ := relax_row_rounding ρ hA hS hD hd hl hb hi (hk i hi) hrv
    refine ⟨v, h2, ?_⟩
    set a := (ρ.mat A).entry i i with ha
    have hapos : 0 < |a| := abs_pos.mpr h3
    have hdi := hdom.pos i hi
    have hS0 : 0 ≤ S := by
      by_contra hneg
      have := (abs_nonneg _).trans (hsS i hi)
      nlinarith
    have hdom' := hdom.dom i hi
    have hlev : c * (1 - (1 + g) * rho) = g * (1 + 2 * rho) * S := by
      rw [hc]; unfold roundingLevel
      exact div_mul_cancel₀ _ (by linarith)
    have hc0 : 0 ≤ c := by
      rw [hc]; unfold roundingLevel
      exact div_nonneg (mul_nonneg (mul_nonneg hg (by linarith)) hS0) (by linarith)
    -- the equation of row `i`
    have hrow := hs i hi
    rw [← add_sum_erase _ _ (mem_range.mpr hi), ← ha] at hrow
    -- sums over the row
    have hsum : ∀ (w : Nat → K) (m : K), 0 ≤ m → (∀ j < A.nbrows, |w j| ≤ m * d j) → ∑ j ∈ (range A.nbrows).erase i, |(ρ.mat A).entry i j| * |w j| ≤ rho * m * (|a| * d i) := by
      intro w m hm hw
      calc _ ≤ ∑ j ∈ (range A.nbrows).erase i, m * (|(ρ.mat A).entry i j| * d j) := sum_le_sum fun j hj => by
            refine (mul_le_mul_of_nonneg_left (hw j (mem_range.mp (mem_of_mem_erase hj))) (abs_nonneg _)).trans_eq ?_
            ring
        _ = m * ∑ j ∈ (range A.nbrows).erase i, |(ρ.mat A).entry i j| * d j := by rw [mul_sum]
        _ ≤ m * (rho * (|a| * d i)) := mul_le_mul_of_nonneg_left hdom' hm
        _ = rho * m * (|a| * d i) := by ring
    have habs : ∀ w : Nat → K, |∑ j ∈ (range A.nbrows).erase i, (ρ.mat A).entry i j * w j| ≤ ∑ j ∈ (range A.nbrows).erase i, |(ρ.mat A).entry i j| * |w j| := fun w =>
      (abs_sum_le_sum_abs _ _).trans_eq (sum_congr rfl fun j _ => abs_mul _ _)
    have hbi : |ρ.val b⟦i⟧| ≤ (1 + rho) * S * (|a| * d i) := by
      rw [← hrow]
      refine (abs_add_le _ _).trans ((add_le_add (b := |a| * (S * d i)) ?_ ((habs s).trans (hsum s S hS0 hsS))).trans_eq (by ring))
      rw [abs_mul]
      exact mul_le_mul_of_nonneg_left (hsS i hi) hapos.le
    have hview : ∀ j < A.nbrows, |ρ.val (view j)| ≤ (S + (c + e)) * d j := fun j hj => by
      have := abs_add_le (ρ.val (view j) - s j) (s j)
      rw [sub_add_cancel] at this
      have := hv j hj
      have := hsS j hj
      rw [add_mul]; linarith
    have hx := hsum (fun j => ρ.val (view j)) _ (by linarith) hview
    have herr := hsum (fun j => ρ.val (view j) - s j) (c + e) (by linarith) hv
    -- the exact update contracts
    have hex : (ρ.val b⟦i⟧ - ∑ j ∈ (range A.nbrows).erase i, (ρ.mat A).entry i j * ρ.val (view j)) / a - s i =
        -(∑ j ∈ (range A.nbrows).erase i, (ρ.mat A).entry i j * (ρ.val (view j) - s j)) / a := by
      rw [div_sub' h3]
      congr 1
      simp only [mul_sub, sum_sub_distrib]
      rw [← hrow]; ring
    have h5 : |(ρ.val b⟦i⟧ - ∑ j ∈ (range A.nbrows).erase i, (ρ.mat A).entry i j * ρ.val (view j)) / a - s i| ≤ rho * (c + e) * d i := by
      rw [hex, abs_div, abs_neg, div_le_iff₀ hapos]
      refine (habs _).trans (herr.trans_eq (by ring))
    have h6 : |ρ.val v - (ρ.val b⟦i⟧ - ∑ j ∈ (range A.nbrows).erase i, (ρ.mat A).entry i j * ρ.val (view j)) / a| ≤ g * (((1 + rho) * S + rho * (S + (c + e))) * d i) := by
      refine h4.trans (mul_le_mul_of_nonneg_left ?_ hg)
      rw [div_le_iff₀ hapos]
      refine (add_le_add hbi hx).trans_eq (by ring)
    have h7 := abs_add_le (ρ.val v - (ρ.val b⟦i⟧ - ∑ j ∈ (range A.nbrows).erase i, (ρ.mat A).entry i j * ρ.val (view j)) / a)
      ((ρ.val b⟦i⟧ - ∑ j ∈ (range A.nbrows).erase i, (ρ.mat A).entry i j * ρ.val (view j)) / a - s i)
    rw [sub_add_sub_cancel] at h7
    refine h7.trans ((add_le_add h6 h5).trans_eq ?_)
    linear_combination (-d i) * hlev

/-- **C83**, arbitrary staleness: whatever the order of the row updates and however old the values they read, no value in memory is ever farther from the solution than the farthest initial value, or
than the level of the rounding errors. -/
theorem relax_rounding_bounded (hA : A.Full) (hS : A.Sorted) (hD : A.HasDiag) (hd : ∀ i < A.nbrows, pinv A.vals⟦A.diagind⟦i⟧⟧ = .ok dinv⟦i⟧)
    (hl : dinv.length = A.nbrows) (hb : b.length = A.nbrows) (hk : ∀ i < A.nbrows, A.browptr⟦i + 1⟧ - A.browptr⟦i⟧ ≤ k)
    (hdom : WDominant A.nbrows (ρ.mat A).entry d rho) (hr : 0 ≤ rho) (h1 : (1 + gam ρ.u (k + 3)) * rho < 1)
    (hs : ∀ i < A.nbrows, ∑ j ∈ range A.nbrows, (ρ.mat A).entry i j * s j = ρ.val b⟦i⟧) (hsS : ∀ i < A.nbrows, |s i| ≤ S * d i) (hE : 0 ≤ E)
    {x : List F} (hx : x.length = A.nbrows) (h0 : ∀ i < A.nbrows, |ρ.val x⟦i⟧ - s i| ≤ (roundingLevel (gam ρ.u (k + 3)) rho S + E) * d i)
    {log : List (Nat × F)} (h : ALog (relaxRow A dinv b) mixWhole A.nbrows (memOf x) log) :
    (∀ w ∈ log, |ρ.val w.2 - s w.1| ≤ (roundingLevel (gam ρ.u (k + 3)) rho S + (1 + gam ρ.u (k + 3)) * rho * E) * d w.1) ∧
      ∀ i < A.nbrows, |ρ.val (applyLog x log)⟦i⟧ - s i| ≤ (roundingLevel (gam ρ.u (k + 3)) rho S + E) * d i :=
  let hsh := (shrinks_rounding hA hS hD hd hl hb hk hdom hr h1 hs hsS).alog hE hx h0 h
  ⟨hsh.1, fun i hi => (hsh.2 i hi).1⟩

/-- **C83** `m` steps of any relaxation, in rounded arithmetic and under every schedule: the error, in the weighted maximum norm, is at most the level of the rounding errors plus
`((1+g) rho)^m` times the initial error, where `g = gam u (k+3)` and `k` bounds the number of entries of a row. -/
theorem relax_rounding_converges {levels : List Nat} (hA : A.Full) (hS : A.Sorted) (hD : A.HasDiag) (hd : ∀ i < A.nbrows, pinv A.vals⟦A.diagind⟦i⟧⟧ = .ok dinv⟦i⟧)
    (hl : dinv.length = A.nbrows) (hL : LevelsOk A levels) (hb : b.length = A.nbrows) (hk : ∀ i < A.nbrows, A.browptr⟦i + 1⟧ - A.browptr⟦i⟧ ≤ k)
    (hdom : WDominant A.nbrows (ρ.mat A).entry d rho) (hr : 0 ≤ rho) (h1 : (1 + gam ρ.u (k + 3)) * rho < 1)
    (hs : ∀ i < A.nbrows, ∑ j ∈ range A.nbrows, (ρ.mat A).entry i j * s j = ρ.val b⟦i⟧) (hsS : ∀ i < A.nbrows, |s i| ≤ S * d i) (hE : 0 ≤ E)
    {x x' : List F} (hx : x.length = A.nbrows) (h0 : ∀ i < A.nbrows, |ρ.val x⟦i⟧ - s i| ≤ E * d i) (M : RelaxMethod) {m : Nat}
    (h : M.Result A dinv levels m b x x') :
    ∀ i < A.nbrows, |ρ.val x'⟦i⟧ - s i| ≤ (roundingLevel (gam ρ.u (k + 3)) rho S + ((1 + gam ρ.u (k + 3)) * rho) ^ m * E) * d i := by
  have hg := gam_nonneg ρ.u_nonneg ρ.u_lt_one (k + 3)
  have hsh := shrinks_rounding hA hS hD hd hl hb hk hdom hr h1 hs hsS
  set g := gam ρ.u (k + 3) with hgd
  set c := roundingLevel g rho S with hc
  have h0' : ∀ i < A.nbrows, |ρ.val x⟦i⟧ - s i| ≤ (c + E) * d i := fun i hi => by
    have hS0 : 0 ≤ S := by
      by_contra hneg
      have := (abs_nonneg _).trans (hsS i hi)
      have := hdom.pos i hi
      nlinarith
    have hc0 : 0 ≤ c := by
      rw [hc]; unfold roundingLevel
      exact div_nonneg (mul_nonneg (mul_nonneg hg (by linarith)) hS0) (by linarith)
    exact (h0 i hi).trans (mul_le_mul_of_nonneg_right (by linarith) (hdom.pos i hi).le)
  have hle2 : ∀ {y : List F}, (∀ i < A.nbrows, |ρ.val y⟦i⟧ - s i| ≤ (c + ((1 + g) * rho) ^ (2 * m) * E) * d i) →
      ∀ i < A.nbrows, |ρ.val y⟦i⟧ - s i| ≤ (c + ((1 + g) * rho) ^ m * E) * d i := fun hy i hi =>
    (hy i hi).trans (mul_le_mul_of_nonneg_right (add_le_add le_rfl (mul_le_mul_of_nonneg_right (pow_le_pow_of_le_one hsh.nonneg hsh.le_one (by omega)) hE)) (hdom.pos i hi).le)
  have hokk : ∀ {z : C (List F)} {P : List F → Prop}, Ok z P → z = .ok x' → P x' := fun ⟨y, e, hp⟩ e' => by
    rw [e] at e'; injection e' with e'; rwa [← e']
  cases M with
  | chaotic => exact (hokk (hsh.fwdSweeps hE m hx h0') h).2
  | chaoticThreads =>
    rcases h with ⟨rfl, rfl⟩ | h
    · simpa using h0'
    · exact hsh.arun hE hx h0' h
  | sgs => exact hle2 (hokk (hsh.sgsRelax hE m hx h0') h).2
  | sgsThreads =>
    rcases h with ⟨rfl, rfl⟩ | h
    · simpa using h0'
    · exact hle2 (hsh.arun hE hx h0' h)
  | levelSgs =>
    obtain ⟨sched, sched', h3, h4, h⟩ := h
    exact hle2 (hokk (hsh.levelSgsRelax hE hL h3 h4 m hx h0') h).2
  | levelSgsThreads => exact hle2 (hsh.asyncLevelSgsRelax hE hL hx h0' h).2
  | jacobi =>
    obtain ⟨sqrt, sq, p, ord, g', h3, h4, h5, h6, h⟩ := h
    rw [← h4]
    exact (hokk (hsh.jacobiRelax hE h3 h5 h6 hx h0') h).2

/-- **C83** From every initial guess, and uniformly over the schedules, the results get arbitrarily close to the level of the rounding errors. -/
theorem relax_rounding_limit [Archimedean K] {levels : List Nat} (hA : A.Full) (hS : A.Sorted) (hD : A.HasDiag) (hd : ∀ i < A.nbrows, pinv A.vals⟦A.diagind⟦i⟧⟧ = .ok dinv⟦i⟧)
    (hl : dinv.length = A.nbrows) (hL : LevelsOk A levels) (hb : b.length = A.nbrows) (hk : ∀ i < A.nbrows, A.browptr⟦i + 1⟧ - A.browptr⟦i⟧ ≤ k)
    (hdom : WDominant A.nbrows (ρ.mat A).entry d rho) (hr : 0 ≤ rho) (h1 : (1 + gam ρ.u (k + 3)) * rho < 1)
    (hs : ∀ i < A.nbrows, ∑ j ∈ range A.nbrows, (ρ.mat A).entry i j * s j = ρ.val b⟦i⟧) (hsS : ∀ i < A.nbrows, |s i| ≤ S * d i)
    {x : List F} (hx : x.length = A.nbrows) {ε : K} (hε : 0 < ε) :
    ∃ m₀, ∀ m ≥ m₀, ∀ (M : RelaxMethod) (x' : List F), M.Result A dinv levels m b x x' →
      ∀ i < A.nbrows, |ρ.val x'⟦i⟧ - s i| ≤ (roundingLevel (gam ρ.u (k + 3)) rho S + ε) * d i := by
  have hg := gam_nonneg ρ.u_nonneg ρ.u_lt_one (k + 3)
  obtain ⟨E, hE, h0⟩ : ∃ E : K, 0 ≤ E ∧ ∀ i < A.nbrows, |ρ.val x⟦i⟧ - s i| ≤ E * d i := by
    refine ⟨∑ j ∈ range A.nbrows, |ρ.val x⟦j⟧ - s j| / d j, sum_nonneg fun j hj => div_nonneg (abs_nonneg _) (hdom.pos j (mem_range.mp hj)).le, fun i hi => ?_⟩
    rw [← div_le_iff₀ (hdom.pos i hi)]
    exact single_le_sum (f := fun j => |ρ.val x⟦j⟧ - s j| / d j) (fun j hj => div_nonneg (abs_nonneg _) (hdom.pos j (mem_range.mp hj)).le) (mem_range.mpr hi)
  have hq0 : 0 ≤ (1 + gam ρ.u (k + 3)) * rho := mul_nonneg (by linarith) hr
  obtain ⟨m₀, hm⟩ := exists_pow_lt_of_lt_one (div_pos hε (show 0 < E + 1 by linarith)) h1
  refine ⟨m₀, fun m hmm M x' h i hi => ?_⟩
  refine (relax_rounding_converges hA hS hD hd hl hL hb hk hdom hr h1 hs hsS hE hx h0 M h i hi).trans
    (mul_le_mul_of_nonneg_right (add_le_add le_rfl ?_) (hdom.pos i hi).le)
  have h2 := pow_le_pow_of_le_one hq0 h1.le hmm
  have h3 : ((1 + gam ρ.u (k + 3)) * rho) ^ m * (E + 1) < ε := by
    rw [← lt_div_iff₀ (by linarith)]; exact lt_of_le_of_lt h2 hm
  have h4 : 0 ≤ ((1 + gam ρ.u (k + 3)) * rho) ^ m := pow_nonneg hq0 m
  nlinarith

omit [PInvOp F] in
/-- **C83** None of this is empty: no method fails, and every number of steps has a result. -/
theorem relax_rounding_exists {levels : List Nat} (hA : A.Full) (hD : A.HasDiag) (hl : dinv.length = A.nbrows) (hL : LevelsOk A levels) (hb : b.length = A.nbrows) {x : List F} (hx : x.length = A.nbrows) (M : RelaxMethod) (m : Nat) :
    ∃ x', M.Result A dinv levels m b x x' := by
  have hsh : Shrinks (relaxRow A dinv b) A.nbrows (fun (_ : ℚ) _ _ => True) 1 :=
    ⟨zero_le_one, le_rfl, fun _ _ _ _ _ _ _ => trivial, fun _ _ i hi r view hr _ => ⟨_, relaxRow_any hA hD hl hb hi hr, trivial⟩⟩
  have h0 : ∀ i < A.nbrows, (fun (_ : ℚ) _ (_ : F) => True) 0 i x⟦i⟧ := fun _ _ => trivial
  cases M with
  | chaotic => exact let ⟨y, h, _⟩ := hsh.fwdSweeps le_rfl m hx h0; ⟨y, h⟩
  | chaoticThreads =>
    rcases Nat.eq_zero_or_pos m with rfl | hm
    · exact ⟨x, .inl ⟨rfl, rfl⟩⟩
    · exact let ⟨y, h⟩ := hsh.exists_arun le_rfl hm hx h0; ⟨y, .inr h⟩
  | sgs => exact let ⟨y, h, _⟩ := hsh.sgsRelax le_rfl m hx h0; ⟨y, h⟩
  | sgsThreads =>
    rcases Nat.eq_zero_or_pos m with rfl | hm
    · exact ⟨x, .inl ⟨rfl, rfl⟩⟩
    · exact let ⟨y, h⟩ := hsh.exists_arun (k := 2 * m) le_rfl (by omega) hx h0; ⟨y, .inr h⟩
  | levelSgs =>
    exact let ⟨y, h, _⟩ := hsh.levelSgsRelax le_rfl hL (sched := fun _ _ l => l) (sched' := fun _ _ l => l) (fun _ _ l => .refl l) (fun _ _ l => .refl l) m hx h0
      ⟨y, _, _, fun _ _ l => .refl l, fun _ _ l => .refl l, h⟩
  | levelSgsThreads => exact let ⟨y, h, _⟩ := hsh.exists_asyncLevelSgsRelax le_rfl hL m hx h0; ⟨y, h⟩
  | jacobi =>
    exact let ⟨y, h, _⟩ := hsh.jacobiRelax (sqrt := id) (sq := fun _ => 0) (p := ⟨0, 0, 0, false, m⟩) le_rfl rfl (ord := fun _ => List.range A.nbrows) (fun _ => .refl _) hx hx h0
      ⟨y, id, fun _ => 0, ⟨0, 0, 0, false, m⟩, fun _ => List.range A.nbrows, x, rfl, rfl, fun _ => .refl _, hx, h⟩

end relax

end Blasted
