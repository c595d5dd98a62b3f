import Verif.Krylov.RichProps
import Verif.Krylov.BicgProps
import Verif.Krylov.GcrProps
import Verif.Solve.DomProps
import Verif.Relax.WeightProps
import Mathlib.Analysis.Real.Sqrt

/-!
# The solvers with a preconditioner of the library, and concrete cases
-/

namespace Blasted

open Matrix Finset

section ilu
variable {K : Type} [Field K] [LinearOrder K] [IsStrictOrderedRing K]

omit [LinearOrder K] [IsStrictOrderedRing K] in
theorem ofFn_vecN {n : Nat} {l : List K} (h : l.length = n) : List.ofFn (vecN n l) = l := by
  refine List.ext_getElem (by simp [h]) fun i h1 h2 => ?_
  rw [List.getElem_ofFn]
  exact get0_eq_getElem h2

omit [LinearOrder K] [IsStrictOrderedRing K] in
theorem get0_ofFn {n : Nat} (v : Fin n → K) {i : Nat} (h : i < n) : (List.ofFn v)⟦i⟧ = v ⟨i, h⟩ := by
  rw [get0_eq_getElem (by simpa using h), List.getElem_ofFn]

omit [LinearOrder K] [IsStrictOrderedRing K] in
theorem csr_mulVec {A : SR K} (v : Fin A.nbrows → K) (i : Fin A.nbrows) :
    ((MatView.csr A).mat *ᵥ v) i = ∑ j ∈ range A.nbrows, A.entry i j * (List.ofFn v)⟦j⟧ := by
  rw [← Fin.sum_univ_eq_sum_range (fun j => (A.entry i j * (List.ofFn v)⟦j⟧ : K))]
  show ∑ j, (MatView.csr A).mat i j * v j = _
  refine Finset.sum_congr rfl fun j _ => ?_
  rw [get0_ofFn v j.2]
  rfl

/-- **C78**, with exact factors: for a matrix in CSR format that is strictly diagonally dominant with some weights, `RichardsonSolver::solve` with factors that are exact on the
pattern, however they were computed, with or without scaling, applied in any of the ways the library offers, reaches every tolerance. -/
theorem richardson_exact_ilu_converges [Archimedean K] {isq : K → K} {us : Bool} {A : SR K} (hA : A.Full) (hS : A.Sorted) (hD : A.HasDiag) {u : List K}
    (hl : u.length = A.browptr⟦A.nbrows⟧) {scale : Option (List K)} (hsc : ScaleIs isq us A scale) (hex : ExactILU A (scaledEntry isq us A) u)
    (hisq : us = true → ∀ i < A.nbrows, isq (A.entry i i) ≠ 0)
    {d : Nat → K} {rho : K} (hdom : WDominant A.nbrows A.entry d rho) (h0 : 0 ≤ rho) (h1 : rho < 1)
    (prec : PrecFun K) (hprec : ∀ k r z, r.length = A.nbrows → z.length = A.nbrows →
      ∃ z', prec k r z = .ok z' ∧ ScalarIluOutcome A u scale r z')
    (sqrt : K → K) (hs : SqrtOk sqrt) (tol : K) (ht : 0 < tol) (sched : SolveSched) (hsched : sched.Valid (.csr A))
    (b x : List K) (hbl : b.length = A.nbrows) (hxl : x.length = A.nbrows) (hb : ∃ i < A.nbrows, b⟦i⟧ ≠ 0) :
    ∃ m0 : Nat, ∀ maxiter : Int, m0 < maxiter →
      ∃ info x', richardsonSolve ⟨.csr A, prec, sqrt, maxiter, tol, sched⟩ b x = .ok (info, x') ∧ info.iters ≤ m0 ∧ x'.length = A.nbrows ∧
        ∑ i ∈ range A.nbrows, (b⟦i⟧ - ∑ j ∈ range A.nbrows, A.entry i j * x'⟦j⟧) ^ 2 <
          tol ^ 2 * ∑ i ∈ range A.nbrows, b⟦i⟧ ^ 2 := by
  have hdom' := hdom.scaled (isq := isq) hisq
  have hp : PivotsOk A u := fun i hi => isUnit_iff_ne_zero.mpr
    (pivot_ne_zero hdom' h1 hi (exact_excess hA hD hl hdom' h1 hi fun k hk => hex k (by omega)))
  obtain ⟨s, hsol⟩ := exists_solution (fun v hv => hdom.injective h1 v hv) (fun i => b⟦i⟧)
  -- a bound for the initial error
  let c : K := ∑ i ∈ range A.nbrows, |x⟦i⟧ - s i| / d i
  have hc0 : 0 ≤ c := Finset.sum_nonneg fun i hi => div_nonneg (abs_nonneg _) (hdom.pos i (mem_range.mp hi)).le
  have hcx : ∀ i < A.nbrows, |x⟦i⟧ - s i| ≤ c * d i := fun i hi => by
    rw [← div_le_iff₀ (hdom.pos i hi)]
    exact Finset.single_le_sum (f := fun i => |x⟦i⟧ - s i| / d i)
      (fun j hj => div_nonneg (abs_nonneg _) (hdom.pos j (mem_range.mp hj)).le) (mem_range.mpr hi)
  let M : Nat → K := fun i => ∑ j ∈ range A.nbrows, |A.entry i j| * d j
  have hM0 : ∀ i, 0 ≤ M i := fun i => Finset.sum_nonneg fun j hj => mul_nonneg (abs_nonneg _) (hdom.pos j (mem_range.mp hj)).le
  let S : K := ∑ i : Fin A.nbrows, M i * M i
  have hS0 : 0 ≤ S := Finset.sum_nonneg fun i _ => mul_self_nonneg _
  have hbne : vecN A.nbrows b ≠ 0 := by
    obtain ⟨i, hi, hb⟩ := hb
    exact fun e => hb (congrFun e ⟨i, hi⟩)
  have hB : 0 < tol * tol * nrm2 (vecN A.nbrows b) := mul_pos (mul_pos ht ht) (nrm2_pos hbne)
  obtain ⟨m0, hm0⟩ : ∃ m0 : Nat, rho ^ m0 * (c * c * S) < tol * tol * nrm2 (vecN A.nbrows b) := by
    rcases (mul_nonneg (mul_nonneg hc0 hc0) hS0).eq_or_lt with e | e
    · exact ⟨0, by rw [← e, mul_zero]; exact hB⟩
    · obtain ⟨m0, h⟩ := exists_pow_lt_of_lt_one (div_pos hB e) h1
      exact ⟨m0, (lt_div_iff₀ e).mp h⟩
  refine ⟨m0, fun maxiter hmax => ?_⟩
  let E : SolverEnv K := ⟨.csr A, prec, sqrt, maxiter, tol, sched⟩
  have hE : E.Ready (fun r z => ScalarIluSolved A u scale (List.ofFn r) (List.ofFn z)) b x := by
    refine ⟨hA, hsched, fun k r z hr hz => ?_, hbl, hxl⟩
    obtain ⟨z', e, ho⟩ := hprec k r z hr hz
    obtain ⟨hzl, hzs⟩ := ho.solved hA hS hD hl hp hsc.length hr
    refine ⟨z', e, hzl, ?_⟩
    rwa [ofFn_vecN hr, ofFn_vecN (n := E.A.dim) hzl]
  have hL : ∀ (v : Fin E.A.dim → K) (i : Nat) (hi : i < A.nbrows), (List.ofFn v)⟦i⟧ = v ⟨i, hi⟩ := fun v i hi => get0_ofFn v hi
  have hRes : ∀ (y : Fin E.A.dim → K) (i : Nat) (hi : i < A.nbrows),
      E.A.resid b y ⟨i, hi⟩ = b⟦i⟧ - ∑ j ∈ range A.nbrows, A.entry i j * (List.ofFn y)⟦j⟧ := fun y i hi =>
    congrArg (b⟦i⟧ - ·) (csr_mulVec y ⟨i, hi⟩)
  obtain ⟨info, x', m, e, hit, hm, -, hsm, -⟩ := richardson_reaches E _ b x hE hs
    (fun k y => ∀ i : Fin A.nbrows, |y i - s i| ≤ c * rho ^ k * d i) m0
    (fun i => by rw [pow_zero, mul_one]; exact hcx i i.2)
    (fun k _ y z hy hz i => by
      have hr : ∀ i < A.nbrows, (List.ofFn (E.A.resid b y))⟦i⟧ = b⟦i⟧ - ∑ j ∈ range A.nbrows, A.entry i j * (List.ofFn y)⟦j⟧ := by
        intro i hi
        rw [hL _ i hi, hRes y i hi]
      have := ilu_correction_contracts hA hD hl hsc hex hisq hdom h0 h1 hsol hr hz
        (mul_nonneg hc0 (pow_nonneg h0 k)) (fun i hi => by rw [hL y i hi]; exact hy ⟨i, hi⟩) i i.2
      rw [hL y i i.2, hL z i i.2] at this
      refine le_trans this (le_of_eq ?_)
      ring)
    (fun y hy => ⟨hbne, ht, by
      refine lt_of_le_of_lt ?_ hm0
      have hEb : 0 ≤ c * rho ^ m0 := mul_nonneg hc0 (pow_nonneg h0 _)
      have hri : ∀ i : Fin A.nbrows, |E.A.resid b y i| ≤ c * rho ^ m0 * M i := by
        intro i
        have e1 : E.A.resid b y i = ∑ j ∈ range A.nbrows, A.entry i j * (s j - (List.ofFn y)⟦j⟧) := by
          refine (hRes y i i.2).trans ?_
          rw [← hsol i i.2, ← Finset.sum_sub_distrib]
          exact Finset.sum_congr rfl fun j _ => (mul_sub _ _ _).symm
        rw [e1, Finset.mul_sum]
        refine (Finset.abs_sum_le_sum_abs _ _).trans (Finset.sum_le_sum fun j hj => ?_)
        have hj := mem_range.mp hj
        rw [abs_mul, hL y j hj, abs_sub_comm, mul_left_comm]
        exact mul_le_mul_of_nonneg_left (hy ⟨j, hj⟩) (abs_nonneg _)
      have h2 : nrm2 (E.A.resid b y) ≤ c * rho ^ m0 * (c * rho ^ m0) * S := by
        show ∑ i, E.A.resid b y i * E.A.resid b y i ≤ _
        rw [Finset.mul_sum]
        refine Finset.sum_le_sum fun i _ => ?_
        rw [← abs_mul_abs_self]
        refine (mul_self_le_mul_self (abs_nonneg _) (hri i)).trans_eq ?_
        ring
      refine h2.trans ?_
      have h3 : rho ^ m0 * rho ^ m0 ≤ rho ^ m0 := mul_le_of_le_one_left (pow_nonneg h0 _) (pow_le_one₀ h0 h1.le)
      calc c * rho ^ m0 * (c * rho ^ m0) * S = rho ^ m0 * rho ^ m0 * (c * c * S) := by ring
        _ ≤ _ := mul_le_mul_of_nonneg_right h3 (mul_nonneg (mul_nonneg hc0 hc0) hS0)⟩) hmax
  refine ⟨info, x', e, by rw [hit]; exact_mod_cast hm, ?_, ?_⟩
  · obtain ⟨info2, x2, -, -, e2, hlen, -⟩ := richardson_correct E _ b x hE hs
    rw [e] at e2
    injection e2 with e2
    cases e2
    exact hlen
  have h3 : nrm2 (E.A.resid b (vecN A.nbrows x')) < tol * tol * nrm2 (vecN A.nbrows b) := hsm.2.2
  have e1 : ∀ f : Nat → K, ∑ i ∈ range A.nbrows, f i ^ 2 = ∑ i : Fin A.nbrows, f i * f i := fun f => by
    rw [← Fin.sum_univ_eq_sum_range (fun i => f i ^ 2)]
    exact Finset.sum_congr rfl fun i _ => sq _
  rw [e1 (fun i => b⟦i⟧ - ∑ j ∈ range A.nbrows, A.entry i j * x'⟦j⟧), e1 (fun i => b⟦i⟧), sq]
  refine lt_of_le_of_lt (le_of_eq ?_) h3
  refine Finset.sum_congr rfl fun i _ => ?_
  have e2 : E.A.resid b (vecN A.nbrows x') i = b⟦i⟧ - ∑ j ∈ range A.nbrows, A.entry i j * x'⟦j⟧ := by
    refine (hRes _ i i.2).trans ?_
    congr 1
    refine Finset.sum_congr rfl fun j hj => ?_
    exact congrArg (A.entry i j * ·) (hL _ j (mem_range.mp hj))
  rw [e2]

/-- **C78**, end to end: for a matrix in CSR format that is strictly diagonally dominant with some weights (every M-matrix
is), `RichardsonSolver::solve` with the ILU(0) preconditioner of the library, computed sequentially, with or without
scaling, and applied in any of the ways the library offers, reaches every tolerance. -/
theorem richardson_ilu_converges [Archimedean K] {isq : K → K} {conf : ILUConf} {A : SR K} {ord ordc : List Nat}
    {gilu gy gscale : List K} {st st' : ILUState K K} {inf : Option (RemInfo K)}
    (hc : CompSetting conf.usescaling A ord ordc gilu gy gscale st) (hk : 1 ≤ conf.nbuildsweeps)
    (hisq : conf.usescaling = true → ∀ i < A.nbrows, isq (A.entry i i) ≠ 0)
    {d : Nat → K} {rho : K} (hdom : WDominant A.nbrows A.entry d rho) (h0 : 0 ≤ rho) (h1 : rho < 1)
    (h : scalarCompute isq conf A ord ordc gilu gy gscale st = .ok (inf, st')) {u : List K} (hu : st'.iluvals = some u)
    (prec : PrecFun K) (hprec : ∀ k r z, r.length = A.nbrows → z.length = A.nbrows →
      ∃ z', prec k r z = .ok z' ∧ ScalarIluOutcome A u st'.scale r z')
    (sqrt : K → K) (hs : SqrtOk sqrt) (tol : K) (ht : 0 < tol) (sched : SolveSched) (hsched : sched.Valid (.csr A))
    (b x : List K) (hbl : b.length = A.nbrows) (hxl : x.length = A.nbrows) (hb : ∃ i < A.nbrows, b⟦i⟧ ≠ 0) :
    ∃ m0 : Nat, ∀ maxiter : Int, m0 < maxiter →
      ∃ info x', richardsonSolve ⟨.csr A, prec, sqrt, maxiter, tol, sched⟩ b x = .ok (info, x') ∧ info.iters ≤ m0 ∧
        ∑ i ∈ range A.nbrows, (b⟦i⟧ - ∑ j ∈ range A.nbrows, A.entry i j * x'⟦j⟧) ^ 2 <
          tol ^ 2 * ∑ i ∈ range A.nbrows, b⟦i⟧ ^ 2 := by
  obtain ⟨_, hsc, u', hu', hl, hex, _⟩ := scalar_ilu_compute_exact hc hk h
  rw [hu] at hu'
  injection hu' with hu'
  subst hu'
  obtain ⟨m0, h2⟩ := richardson_exact_ilu_converges hc.full hc.sorted hc.diag hl hsc hex hisq hdom h0 h1 prec hprec sqrt hs tol ht sched hsched b x hbl hxl hb
  refine ⟨m0, fun maxiter hmax => ?_⟩
  obtain ⟨info, x', e1, e2, -, e3⟩ := h2 maxiter hmax
  exact ⟨info, x', e1, e2, e3⟩

end ilu

/-! ### Concrete cases -/

/-- The square root of the real numbers. -/
theorem real_sqrt_ok : SqrtOk Real.sqrt := fun a ha => ⟨Real.sqrt_nonneg a, Real.mul_self_sqrt ha⟩

/-- The matrix `[2 1; 1 2]`. -/
noncomputable def exKry : SR ℝ :=
  { browptr := [0, 2, 4], bcolind := [0, 1, 0, 1], vals := [2, 1, 1, 2], diagind := [0, 3],
    browendptr := [2, 4], nbrows := 2, nnzb := 4, nbstored := 4 }

theorem exKry_full : exKry.Full := by constructor <;> decide

/-- The same matrix as one block. -/
noncomputable def exKryB : SR ℝ :=
  { browptr := [0, 1], bcolind := [0], vals := [2, 1, 1, 2], diagind := [0],
    browendptr := [1], nbrows := 1, nnzb := 1, nbstored := 1 }

theorem exKryB_full : exKryB.Full 4 := by constructor <;> decide

/-- Alternating orders of the loops. -/
def exKrySched : SolveSched := ⟨fun k _ => if k % 2 = 0 then [0, 1] else [1, 0], fun _ m => if m % 2 = 0 then [1, 0] else [0, 1]⟩

theorem exKrySched_valid : exKrySched.Valid (.csr exKry) := by
  refine ⟨fun k m => ?_, fun k m => ?_⟩ <;> (show (ite _ _ _ : List Nat).Perm [0, 1]; split <;> decide)

/-- Jacobi's preconditioner for `exKry`: division by the diagonal. -/
noncomputable def exKryPrec : PrecFun ℝ := fun _ r _ => .ok (r.map (· / 2))

noncomputable def exKryEnv : SolverEnv ℝ := ⟨.csr exKry, exKryPrec, Real.sqrt, 100, 1/1000, exKrySched⟩

theorem exKry_ready {b x : List ℝ} (hb : b.length = 2) (hx : x.length = 2) :
    exKryEnv.Ready (fun r z => ∀ i, z i = r i / 2) b x := by
  refine ⟨exKry_full, exKrySched_valid, fun k r z hr hz => ⟨_, rfl, by simpa using hr, fun i => ?_⟩, hb, hx⟩
  have hi : (i : Nat) < r.length := by rw [hr]; exact i.2
  show (r.map (· / 2))⟦i⟧ = r⟦i⟧ / 2
  rw [get0_eq_getElem (by simpa using hi), get0_eq_getElem hi, List.getElem_map]

theorem exKry_entry : exKry.entry 0 0 = 2 ∧ exKry.entry 0 1 = 1 ∧ exKry.entry 1 0 = 1 ∧ exKry.entry 1 1 = 2 := by
  refine ⟨?_, ?_, ?_, ?_⟩
  · show (∑ k ∈ Finset.Ico 0 2, if ([0, 1, 0, 1] : List Nat)⟦k⟧ = 0 then ([2, 1, 1, 2] : List ℝ)⟦k⟧ else 0) = 2
    simp [Finset.sum_range_succ, get0]
  · show (∑ k ∈ Finset.Ico 0 2, if ([0, 1, 0, 1] : List Nat)⟦k⟧ = 1 then ([2, 1, 1, 2] : List ℝ)⟦k⟧ else 0) = 1
    simp [Finset.sum_range_succ, get0]
  · show (∑ k ∈ Finset.Ico 2 4, if ([0, 1, 0, 1] : List Nat)⟦k⟧ = 0 then ([2, 1, 1, 2] : List ℝ)⟦k⟧ else 0) = 1
    simp [Finset.sum_Ico_succ_top, get0]
  · show (∑ k ∈ Finset.Ico 2 4, if ([0, 1, 0, 1] : List Nat)⟦k⟧ = 1 then ([2, 1, 1, 2] : List ℝ)⟦k⟧ else 0) = 2
    simp [Finset.sum_Ico_succ_top, get0]

theorem exKry_mat (v : Fin 2 → ℝ) : exKryEnv.A.mat *ᵥ v = ![2 * v 0 + v 1, v 0 + 2 * v 1] := by
  obtain ⟨h1, h2, h3, h4⟩ := exKry_entry
  have key : ∀ i : Fin 2, (exKryEnv.A.mat *ᵥ v) i = exKry.entry i 0 * v 0 + exKry.entry i 1 * v 1 := fun i =>
    (Fin.sum_univ_two fun j : Fin 2 => exKry.entry i j * v j)
  refine (funext fun i : Fin 2 => (key i).trans ?_ : (exKryEnv.A.mat *ᵥ v : Fin 2 → ℝ) = _)
  match i with
  | 0 => show exKry.entry 0 0 * v 0 + exKry.entry 0 1 * v 1 = 2 * v 0 + v 1; rw [h1, h2, one_mul]
  | 1 => show exKry.entry 1 0 * v 0 + exKry.entry 1 1 * v 1 = v 0 + 2 * v 1; rw [h3, h4, one_mul]

theorem exKry_dot (v w : Fin 2 → ℝ) : v ⬝ᵥ w = v 0 * w 0 + v 1 * w 1 := Fin.sum_univ_two _

theorem exKry_angle (r z : Fin 2 → ℝ) (hr : r ≠ 0) (hz : ∀ i, z i = r i / 2) :
    r ⬝ᵥ ![2 * z 0 + z 1, z 0 + 2 * z 1] ≠ 0 ∧
    1/9 * (nrm2 r * nrm2 ![2 * z 0 + z 1, z 0 + 2 * z 1]) ≤
      r ⬝ᵥ ![2 * z 0 + z 1, z 0 + 2 * z 1] * r ⬝ᵥ ![2 * z 0 + z 1, z 0 + 2 * z 1] := by
  unfold nrm2
  rw [exKry_dot, exKry_dot, exKry_dot, hz 0, hz 1]
  show r 0 * (2 * (r 0 / 2) + r 1 / 2) + r 1 * (r 0 / 2 + 2 * (r 1 / 2)) ≠ 0 ∧
    1/9 * ((r 0 * r 0 + r 1 * r 1) * ((2 * (r 0 / 2) + r 1 / 2) * (2 * (r 0 / 2) + r 1 / 2) + (r 0 / 2 + 2 * (r 1 / 2)) * (r 0 / 2 + 2 * (r 1 / 2)))) ≤
    (r 0 * (2 * (r 0 / 2) + r 1 / 2) + r 1 * (r 0 / 2 + 2 * (r 1 / 2))) * (r 0 * (2 * (r 0 / 2) + r 1 / 2) + r 1 * (r 0 / 2 + 2 * (r 1 / 2)))
  have h0 : r 0 ≠ 0 ∨ r 1 ≠ 0 := by
    by_contra h
    push Not at h
    refine hr (funext fun i => ?_)
    match i with
    | 0 => exact h.1
    | 1 => exact h.2
  generalize r 0 = a at *
  generalize r 1 = c at *
  have hS : 0 < a * a + c * c := by
    rcases h0 with h | h
    · have := mul_self_pos.mpr h; nlinarith [mul_self_nonneg c]
    · have := mul_self_pos.mpr h; nlinarith [mul_self_nonneg a]
  constructor
  · nlinarith [mul_self_nonneg (a + c)]
  · nlinarith [mul_self_nonneg (a + c), mul_self_nonneg (a - c), mul_nonneg hS.le (mul_self_nonneg (a + c)), mul_nonneg hS.le (mul_self_nonneg (a - c)), mul_self_nonneg (a * c), mul_self_nonneg ((a + c) * (a + c)), mul_self_nonneg (a * a + c * c)]

theorem exKry_b : vecN exKryEnv.A.dim [1, 0] ≠ (0 : Fin exKryEnv.A.dim → ℝ) := fun e =>
  one_ne_zero (congrFun e (0 : Fin 2) : (1 : ℝ) = 0)

theorem exKry_r : exKryEnv.A.resid [1, 0] (vecN exKryEnv.A.dim [0, 0]) ≠ 0 := fun e => by
  have h0 : (1 : ℝ) - (exKryEnv.A.mat *ᵥ vecN exKryEnv.A.dim [0, 0]) (0 : Fin 2) = 0 := congrFun e (0 : Fin 2)
  rw [show exKryEnv.A.mat *ᵥ vecN exKryEnv.A.dim [0, 0] = ![2 * 0 + 0, 0 + 2 * 0] from exKry_mat _] at h0
  have h1 : (1 : ℝ) - (2 * 0 + 0) = 0 := h0
  norm_num at h1

/-- Non-vacuity of `gcr_converges` (and of `gcr_correct`): for `exKry` with Jacobi's preconditioner, GCR reaches the
tolerance from zero, for every `nrestart`. -/
example : ∃ m0 : Nat, ∀ (maxiter : Int) (nr : Nat), m0 < maxiter → 0 < nr →
    ∃ info x', gcrSolve { exKryEnv with maxiter := maxiter } nr [1, 0] [0, 0] = .ok (info, x') ∧ info.iters ≤ m0 ∧
      info.converged = true ∧ exKryEnv.Small [1, 0] (vecN _ x') ∧ exKryEnv.NormOf [1, 0] (vecN _ x') info.resnorm := by
  refine gcr_converges exKryEnv _ [1, 0] [0, 0] (exKry_ready rfl rfl) real_sqrt_ok exKry_b (by norm_num [exKryEnv]) exKry_r
    (1/9) (by norm_num) fun r z hr hz => ?_
  rw [exKry_mat z]
  exact exKry_angle r z hr hz

/-- Non-vacuity of `gcr_finite`. -/
example : (gcrSolve exKryEnv 2 [1, 0] [0, 0] = .error .divzero ∧ CanBreak exKryEnv (fun r z => ∀ i, z i = r i / 2) [1, 0] [0, 0]) ∨
    ∃ info x', gcrSolve exKryEnv 2 [1, 0] [0, 0] = .ok (info, x') ∧ info.iters ≤ 2 ∧ info.converged = true ∧
      exKryEnv.Small [1, 0] (vecN _ x') ∧ exKryEnv.NormOf [1, 0] (vecN _ x') info.resnorm :=
  gcr_finite exKryEnv _ [1, 0] [0, 0] (exKry_ready rfl rfl) real_sqrt_ok 2 le_rfl (by decide) exKry_b (by norm_num [exKryEnv])

/-- Non-vacuity of `bicgstab_finite`. -/
example : bicgstabSolve exKryEnv [1, 0] [0, 0] = .error .divzero ∨
    ∃ info x', bicgstabSolve exKryEnv [1, 0] [0, 0] = .ok (info, x') ∧ info.iters < 2 ∧
      exKryEnv.Small [1, 0] (vecN _ x') ∧ exKryEnv.NormOf [1, 0] (vecN _ x') info.resnorm :=
  bicgstab_finite exKryEnv _ [1, 0] [0, 0] (exKry_ready rfl rfl) real_sqrt_ok ((1/2 : ℝ) • exKryEnv.A.mat)
    (fun r z hz => by
      have : z = (1/2 : ℝ) • r := funext fun i => by rw [hz i, Pi.smul_apply, smul_eq_mul]; ring
      rw [this, mulVec_smul, smul_mulVec]) (by decide) (by decide)

/-- Non-vacuity of `richardson_converges`: Jacobi's preconditioner halves the norm of the residual. -/
example : ∃ m0 : Nat, ∀ maxiter : Int, m0 < maxiter →
    ∃ info x', richardsonSolve { exKryEnv with maxiter := maxiter } [1, 0] [0, 0] = .ok (info, x') ∧ info.iters ≤ m0 ∧
      exKryEnv.Small [1, 0] (vecN _ x') ∧ exKryEnv.NormOf [1, 0] (vecN _ x') info.resnorm := by
  refine richardson_converges exKryEnv _ [1, 0] [0, 0] (exKry_ready rfl rfl) real_sqrt_ok exKry_b (by norm_num [exKryEnv])
    nrm2 1 (1/4) (fun v => (one_mul _).ge) (by norm_num) (by norm_num) zero_le_one fun r z hz => ?_
  rw [exKry_mat z]
  have h2 : ∀ r z : Fin 2 → ℝ, (∀ i, z i = r i / 2) → nrm2 (r - ![2 * z 0 + z 1, z 0 + 2 * z 1]) ≤ 1/4 * nrm2 r := by
    intro r z hz
    unfold nrm2
    rw [exKry_dot, exKry_dot, hz 0, hz 1]
    show (r 0 - (2 * (r 0 / 2) + r 1 / 2)) * (r 0 - (2 * (r 0 / 2) + r 1 / 2)) +
      (r 1 - (r 0 / 2 + 2 * (r 1 / 2))) * (r 1 - (r 0 / 2 + 2 * (r 1 / 2))) ≤ _
    apply le_of_eq
    ring
  exact h2 r z hz

/-- The exact inverse of the block as a preconditioner. -/
noncomputable def exKryInv : PrecFun ℝ := fun _ r _ => .ok [(2 * r⟦0⟧ - r⟦1⟧) / 3, (2 * r⟦1⟧ - r⟦0⟧) / 3]

noncomputable def exKryBEnv (maxiter : Int) : SolverEnv ℝ :=
  ⟨.bsr .colMajor 2 exKryB, exKryInv, Real.sqrt, maxiter, 1/1000, ⟨fun _ _ => [0], fun _ _ => [1, 0]⟩⟩

theorem exKryB_entry : exKryB.bentry .colMajor 2 0 0 = 2 ∧ exKryB.bentry .colMajor 2 0 1 = 1 ∧ exKryB.bentry .colMajor 2 1 0 = 1 ∧
    exKryB.bentry .colMajor 2 1 1 = 2 := by
  refine ⟨?_, ?_, ?_, ?_⟩ <;> simp [SR.bentry, exKryB, get0, Stor.off]

theorem exKryB_mat (maxiter : Int) (v : Fin 2 → ℝ) : (exKryBEnv maxiter).A.mat *ᵥ v = ![2 * v 0 + v 1, v 0 + 2 * v 1] := by
  obtain ⟨h1, h2, h3, h4⟩ := exKryB_entry
  have key : ∀ i : Fin 2, ((exKryBEnv maxiter).A.mat *ᵥ v) i =
      exKryB.bentry .colMajor 2 i 0 * v 0 + exKryB.bentry .colMajor 2 i 1 * v 1 := fun i =>
    (Fin.sum_univ_two fun j : Fin 2 => exKryB.bentry .colMajor 2 i j * v j)
  refine (funext fun i : Fin 2 => (key i).trans ?_ : ((exKryBEnv maxiter).A.mat *ᵥ v : Fin 2 → ℝ) = _)
  match i with
  | 0 => show exKryB.bentry .colMajor 2 0 0 * v 0 + exKryB.bentry .colMajor 2 0 1 * v 1 = 2 * v 0 + v 1; rw [h1, h2, one_mul]
  | 1 => show exKryB.bentry .colMajor 2 1 0 * v 0 + exKryB.bentry .colMajor 2 1 1 * v 1 = v 0 + 2 * v 1; rw [h3, h4, one_mul]

theorem exKryB_ready (maxiter : Int) {b x : List ℝ} (hb : b.length = 2) (hx : x.length = 2) :
    (exKryBEnv maxiter).Ready (fun r z => (exKryBEnv maxiter).A.mat *ᵥ z = r) b x := by
  refine ⟨⟨by decide, exKryB_full⟩, ⟨fun _ _ => List.Perm.refl _, fun _ _ => (by decide : List.Perm [1, 0] [0, 1])⟩,
    fun k r z hr hz => ⟨_, rfl, rfl, ?_⟩, hb, hx⟩
  refine (exKryB_mat maxiter (vecN 2 _)).trans ?_
  refine (funext fun i : Fin 2 => ?_ : _ = (vecN 2 r : Fin 2 → ℝ))
  match i with
  | 0 =>
    show 2 * ((2 * r⟦0⟧ - r⟦1⟧) / 3) + (2 * r⟦1⟧ - r⟦0⟧) / 3 = r⟦0⟧
    ring
  | 1 =>
    show (2 * r⟦0⟧ - r⟦1⟧) / 3 + 2 * ((2 * r⟦1⟧ - r⟦0⟧) / 3) = r⟦1⟧
    ring

theorem exKryB_b (maxiter : Int) : vecN (exKryBEnv maxiter).A.dim [1, 0] ≠ (0 : Fin (exKryBEnv maxiter).A.dim → ℝ) := fun e =>
  one_ne_zero (congrFun e (0 : Fin 2) : (1 : ℝ) = 0)

theorem exKryB_resid (maxiter : Int) :
    (exKryBEnv maxiter).A.resid [1, 0] (vecN (exKryBEnv maxiter).A.dim [0, 0]) = vecN (exKryBEnv maxiter).A.dim [1, 0] := by
  unfold MatView.resid
  rw [show vecN (exKryBEnv maxiter).A.dim [0, 0] = (0 : Fin (exKryBEnv maxiter).A.dim → ℝ) from ?_, mulVec_zero, sub_zero]
  refine (funext fun i : Fin 2 => ?_ : vecN 2 [0, 0] = (0 : Fin 2 → ℝ))
  match i with
  | 0 => rfl
  | 1 => rfl

/-- Non-vacuity of `richardson_stale_norm`. -/
example : ∃ info x', richardsonSolve (exKryBEnv 1) [1, 0] [0, 0] = .ok (info, x') ∧
    (exKryBEnv 1).A.mat *ᵥ vecN _ x' = vecN _ [1, 0] ∧
    (exKryBEnv 1).NormOf [1, 0] (vecN _ [0, 0]) info.resnorm ∧ 0 < info.resnorm := by
  refine richardson_stale_norm (exKryBEnv 1) _ _ _ (exKryB_ready 1 rfl rfl) real_sqrt_ok (fun _ _ h => h)
    (by rw [exKryB_resid]; exact exKryB_b 1) (fun h => ?_) rfl
  have h1 := h.2.2
  rw [exKryB_resid] at h1
  have h2 := nrm2_pos (exKryB_b 1)
  have h3 : (exKryBEnv 1).tol = 1/1000 := rfl
  rw [h3] at h1
  linarith

/-- Non-vacuity of `richardson_exact_prec`. -/
example : ∃ info x', richardsonSolve (exKryBEnv 5) [1, 0] [0, 0] = .ok (info, x') ∧ info.iters ≤ 1 ∧
      (info.iters = 1 → (exKryBEnv 5).A.mat *ᵥ vecN _ x' = vecN _ [1, 0]) ∧
      (exKryBEnv 5).Small [1, 0] (vecN _ x') ∧ (exKryBEnv 5).NormOf [1, 0] (vecN _ x') info.resnorm :=
  richardson_exact_prec (exKryBEnv 5) _ _ _ (exKryB_ready 5 rfl rfl) real_sqrt_ok (fun _ _ h => h) (exKryB_b 5)
    (by norm_num [exKryBEnv]) (by decide)

/-- Non-vacuity of `gcr_exact_prec`. -/
example : ∃ info x', gcrSolve (exKryBEnv 5) 3 [1, 0] [0, 0] = .ok (info, x') ∧ info.iters = 1 ∧ info.converged = true ∧
    info.resnorm = 0 ∧ (exKryBEnv 5).A.mat *ᵥ vecN _ x' = vecN _ [1, 0] :=
  gcr_exact_prec (exKryBEnv 5) _ _ _ (exKryB_ready 5 rfl rfl) real_sqrt_ok 3 (by decide) (by decide) (fun _ _ h => h) (exKryB_b 5)
    (by norm_num [exKryBEnv]) (by rw [exKryB_resid]; exact exKryB_b 5)

/-- Non-vacuity of `bicgstab_exact_prec`. -/
example : bicgstabSolve (exKryBEnv 5) [1, 0] [0, 0] = .error .divzero :=
  bicgstab_exact_prec (exKryBEnv 5) _ _ _ (exKryB_ready 5 rfl rfl) (by decide) (fun _ _ h => h)

/-- Non-vacuity of `bicgstab_exact_guess` and `gcr_exact_guess`: a zero right-hand side and a zero initial vector. -/
example : bicgstabSolve (exKryBEnv 5) [0, 0] [0, 0] = .error .divzero ∧ gcrSolve (exKryBEnv 5) 3 [0, 0] [0, 0] = .error .divzero := by
  have h0 : vecN (exKryBEnv 5).A.dim [0, 0] = (0 : Fin (exKryBEnv 5).A.dim → ℝ) := by
    refine (funext fun i : Fin 2 => ?_ : vecN 2 [0, 0] = (0 : Fin 2 → ℝ))
    match i with
    | 0 => rfl
    | 1 => rfl
  have hr : (exKryBEnv 5).A.resid [0, 0] (vecN _ [0, 0]) = 0 := by
    unfold MatView.resid
    rw [h0, mulVec_zero, sub_zero]
  have hinj : ∀ z : Fin (exKryBEnv 5).A.dim → ℝ, (exKryBEnv 5).A.mat *ᵥ z = 0 → z = 0 := by
    intro z hz
    rw [exKryB_mat 5 z] at hz
    have h1 : 2 * z (0 : Fin 2) + z (1 : Fin 2) = 0 := congrFun hz (0 : Fin 2)
    have h2 : z (0 : Fin 2) + 2 * z (1 : Fin 2) = 0 := congrFun hz (1 : Fin 2)
    refine (funext fun i : Fin 2 => ?_ : (z : Fin 2 → ℝ) = 0)
    match i with
    | 0 => show z (0 : Fin 2) = 0; linarith
    | 1 => show z (1 : Fin 2) = 0; linarith
  exact ⟨bicgstab_exact_guess (exKryBEnv 5) _ _ _ (exKryB_ready 5 rfl rfl) (by decide) hr,
    gcr_exact_guess (exKryBEnv 5) _ _ _ (exKryB_ready 5 rfl rfl) real_sqrt_ok 3 (by decide) (by decide) hr hinj⟩

/-- The matrix `diag(1, 2)`. -/
def exKryD : SR ℚ :=
  { browptr := [0, 1, 2], bcolind := [0, 1], vals := [1, 2], diagind := [0, 1],
    browendptr := [1, 2], nbrows := 2, nnzb := 2, nbstored := 2 }

/-- The second alternative of `bicgstab_correct` and `bicgstab_finite` occurs: on `diag(1, 2)`, without preconditioner, the
first iteration ends normally (computed with the identity in place of the square root, which only enters the reported
norms and the test of the tolerance). -/
example : bicgstabSolve (⟨.csr exKryD, fun _ r _ => .ok r, id, 5, 1/2, ⟨fun _ _ => [1, 0], fun _ _ => [0, 1]⟩⟩ : SolverEnv ℚ)
    [1, 1] [0, 0] = .ok (⟨false, 1, 1/45, 2⟩, [13/15, 7/15]) := by decide +kernel

/-- `gcr_no_restart_ub` in a concrete case, and a normal run with restarts after every iteration. -/
example : gcrSolve (⟨.csr exKryD, fun _ r _ => .ok r, id, 2, 1/1000, ⟨fun _ _ => [1, 0], fun _ _ => [0, 1]⟩⟩ : SolverEnv ℚ)
      0 [1, 1] [0, 0] = .error .ub ∧
    (gcrSolve (⟨.csr exKryD, fun _ r _ => .ok r, id, 2, 1/1000, ⟨fun _ _ => [1, 0], fun _ _ => [0, 1]⟩⟩ : SolverEnv ℚ)
      1 [1, 1] [0, 0]).map (fun q => q.1.iters) = .ok 2 := by decide +kernel

theorem exKry_dominant : WDominant exKry.nbrows exKry.entry (fun _ => 1) (1/2) := by
  obtain ⟨h1, h2, h3, h4⟩ := exKry_entry
  have e0 : (range 2).erase 0 = {1} := by decide
  have e1 : (range 2).erase 1 = {0} := by decide
  refine ⟨fun _ _ => one_pos, fun i hi => ?_, fun i hi => ?_⟩
  · have hi : i < 2 := hi
    interval_cases i
    · rw [h1]; norm_num
    · rw [h4]; norm_num
  · have hi : i < 2 := hi
    show ∑ j ∈ (range 2).erase i, _ ≤ _
    interval_cases i
    · rw [e0, Finset.sum_singleton, h1, h2]; norm_num
    · rw [e1, Finset.sum_singleton, h3, h4]; norm_num

/-- Non-vacuity of `richardson_ilu_converges`: for `exKry`, `compute` yields factors, and the sequential application is such a
preconditioner. -/
example : ∃ (u : List ℝ) (m0 : Nat), ∀ maxiter : Int, m0 < maxiter →
    ∃ info x', richardsonSolve ⟨.csr exKry, fun _ r z => (scalarIluApply exKry u none 1 .zero (fun _ => [1, 0]) r z [7, 7]).map Prod.fst,
      Real.sqrt, maxiter, 1/1000, exKrySched⟩ [1, 0] [0, 0] = .ok (info, x') ∧ info.iters ≤ m0 ∧
        ∑ i ∈ range 2, (([1, 0] : List ℝ)⟦i⟧ - ∑ j ∈ range 2, exKry.entry i j * x'⟦j⟧) ^ 2 <
          (1/1000) ^ 2 * ∑ i ∈ range 2, ([1, 0] : List ℝ)⟦i⟧ ^ 2 := by
  have hc : CompSetting (ILUConf.mk false 1 .original false).usescaling exKry [0, 1] [0, 1, 2, 3] [7, 7, 7, (7 : ℝ)] [7, 7] [7, 7] {} :=
    ⟨exKry_full, SR.sorted_of_check (by decide), by constructor <;> decide, by decide, by decide, rfl, rfl, rfl, Or.inl rfl⟩
  obtain ⟨inf, st', u, e, hu, hl, hsc, -, hp, -⟩ := scalar_ilu_dominant_compute (isq := fun x => x) hc (by decide) (Or.inr rfl)
    (fun h => absurd h (by decide)) exKry_dominant (by norm_num)
  have hs0 : st'.scale = none := hsc
  have hord : ∀ _ : Nat, List.Perm [1, 0] (List.range exKry.nbrows) := fun _ => by decide
  refine ⟨u, richardson_ilu_converges hc (by decide) (fun h => absurd h (by decide)) exKry_dominant (by norm_num) (by norm_num) e hu
    _ (fun k r z hr hz => ?_) Real.sqrt real_sqrt_ok (1/1000) (by norm_num) exKrySched exKrySched_valid [1, 0] [0, 0] rfl rfl
    ⟨0, by decide, one_ne_zero⟩⟩
  obtain ⟨z', y', e', -⟩ := scalar_ilu_apply_correct hc.full hc.sorted hc.diag hl hp (scale := none) (fun _ h => nomatch h) le_rfl
    (init := .zero) (by decide) hord hr hz (y := [7, 7]) rfl
  exact ⟨z', by rw [e']; rfl, by rw [hs0]; exact .sequential 1 le_rfl .zero (by decide) _ hord _ _ _ hz rfl e'⟩

end Blasted
