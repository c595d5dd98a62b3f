import Verif.Krylov.BlockSpec
import Verif.Krylov.ProgProps

/-!
# The solve program with contracting preconditioners (C78, C90)
-/

namespace Blasted

open Finset

section rich
variable {K : Type} [Field K] [LinearOrder K] [IsStrictOrderedRing K]

omit [LinearOrder K] [IsStrictOrderedRing K] in
theorem view_mulVec {v : MatView K} (y : Fin v.dim → K) (i : Fin v.dim) :
    (v.mat.mulVec y) i = ∑ j ∈ range v.dim, v.entry i j * (List.ofFn y)⟦j⟧ := by
  rw [← Fin.sum_univ_eq_sum_range (fun j => (v.entry i j * (List.ofFn y)⟦j⟧ : K))]
  show ∑ j, v.mat i j * y j = _
  refine Finset.sum_congr rfl fun j _ => ?_
  rw [get0_ofFn y j.2]
  rfl

/-- **C78**, for any contracting preconditioner: for a matrix in CSR or BSR format that is strictly diagonally dominant with some weights, `RichardsonSolver::solve` reaches every tolerance, if every application of
the preconditioner is contracting; the applications need not agree with each other. -/
theorem richardson_contracting_converges [Archimedean K] {v : MatView K} (hv : v.Ready) {d : Nat → K} {rho : K} (hdom : WDominant v.dim v.entry d rho) (h0 : 0 ≤ rho) (h1 : rho < 1)
    (prec : PrecFun K) (hprec : ∀ k r z, r.length = v.dim → z.length = v.dim →
      ∃ z', prec k r z = .ok z' ∧ z'.length = v.dim ∧ Contracting v.dim v.entry d rho r z')
    (sqrt : K → K) (hs : SqrtOk sqrt) (tol : K) (ht : 0 < tol) (sched : SolveSched) (hsched : sched.Valid v)
    (b x : List K) (hbl : b.length = v.dim) (hxl : x.length = v.dim) (hb : ∃ i < v.dim, b⟦i⟧ ≠ 0) :
    ∃ m0 : Nat, ∀ maxiter : Int, m0 < maxiter →
      ∃ info x', richardsonSolve ⟨v, prec, sqrt, maxiter, tol, sched⟩ b x = .ok (info, x') ∧ info.iters ≤ m0 ∧ x'.length = v.dim ∧
        ∑ i ∈ range v.dim, (b⟦i⟧ - ∑ j ∈ range v.dim, v.entry i j * x'⟦j⟧) ^ 2 < tol ^ 2 * ∑ i ∈ range v.dim, b⟦i⟧ ^ 2 := by
  obtain ⟨s, hsol⟩ := exists_solution (fun w hw => hdom.injective h1 w hw) (fun i => b⟦i⟧)
  let c : K := ∑ i ∈ range v.dim, |x⟦i⟧ - s i| / d i
  have hc0 : 0 ≤ c := Finset.sum_nonneg fun i hi => div_nonneg (abs_nonneg _) (hdom.pos i (mem_range.mp hi)).le
  have hcx : ∀ i < v.dim, |x⟦i⟧ - s i| ≤ c * d i := fun i hi => by
    rw [← div_le_iff₀ (hdom.pos i hi)]
    exact Finset.single_le_sum (f := fun i => |x⟦i⟧ - s i| / d i)
      (fun j hj => div_nonneg (abs_nonneg _) (hdom.pos j (mem_range.mp hj)).le) (mem_range.mpr hi)
  let M : Nat → K := fun i => ∑ j ∈ range v.dim, |v.entry i j| * d j
  have hM0 : ∀ i, 0 ≤ M i := fun i => Finset.sum_nonneg fun j hj => mul_nonneg (abs_nonneg _) (hdom.pos j (mem_range.mp hj)).le
  let S : K := ∑ i : Fin v.dim, M i * M i
  have hS0 : 0 ≤ S := Finset.sum_nonneg fun i _ => mul_self_nonneg _
  have hbne : vecN v.dim b ≠ 0 := by
    obtain ⟨i, hi, hb⟩ := hb
    exact fun e => hb (congrFun e ⟨i, hi⟩)
  have hB : 0 < tol * tol * nrm2 (vecN v.dim b) := mul_pos (mul_pos ht ht) (nrm2_pos hbne)
  obtain ⟨m0, hm0⟩ : ∃ m0 : Nat, rho ^ m0 * (c * c * S) < tol * tol * nrm2 (vecN v.dim b) := by
    rcases (mul_nonneg (mul_nonneg hc0 hc0) hS0).eq_or_lt with e | e
    · exact ⟨0, by rw [← e, mul_zero]; exact hB⟩
    · obtain ⟨m0, h⟩ := exists_pow_lt_of_lt_one (div_pos hB e) h1
      exact ⟨m0, (lt_div_iff₀ e).mp h⟩
  refine ⟨m0, fun maxiter hmax => ?_⟩
  let E : SolverEnv K := ⟨v, prec, sqrt, maxiter, tol, sched⟩
  have hE : E.Ready (fun r z => Contracting v.dim v.entry d rho (List.ofFn r) (List.ofFn z)) b x := by
    refine ⟨hv, hsched, fun k r z hr hz => ?_, hbl, hxl⟩
    obtain ⟨z', e, hzl, hzs⟩ := hprec k r z hr hz
    refine ⟨z', e, hzl, ?_⟩
    rwa [ofFn_vecN hr, ofFn_vecN (n := E.A.dim) hzl]
  have hL : ∀ (w : Fin E.A.dim → K) (i : Nat) (hi : i < v.dim), (List.ofFn w)⟦i⟧ = w ⟨i, hi⟩ := fun w i hi => get0_ofFn w hi
  have hRes : ∀ (y : Fin E.A.dim → K) (i : Nat) (hi : i < v.dim),
      E.A.resid b y ⟨i, hi⟩ = ∑ j ∈ range v.dim, v.entry i j * (s j - (List.ofFn y)⟦j⟧) := fun y i hi => by
    refine (congrArg (b⟦i⟧ - ·) (view_mulVec y ⟨i, hi⟩)).trans ?_
    dsimp only
    rw [← hsol i hi, ← Finset.sum_sub_distrib]
    exact Finset.sum_congr rfl fun j _ => (mul_sub _ _ _).symm
  obtain ⟨info, x', m, e, hit, hm, -, hsm, -⟩ := richardson_reaches E _ b x hE hs
    (fun k y => ∀ i : Fin v.dim, |y i - s i| ≤ c * rho ^ k * d i) m0
    (fun i => by rw [pow_zero, mul_one]; exact hcx i i.2)
    (fun k _ y z hy hz i => by
      have := hz (fun j => s j - (List.ofFn y)⟦j⟧) (fun i hi => by rw [hL _ i hi, hRes y i hi]) (c * rho ^ k) (mul_nonneg hc0 (pow_nonneg h0 k))
        (fun i hi => by rw [abs_sub_comm, hL y i hi]; exact hy ⟨i, hi⟩) i i.2
      rw [hL y i i.2, hL z i i.2] at this
      rw [abs_sub_comm]
      refine le_trans (le_of_eq ?_) (this.trans (le_of_eq ?_))
      · congr 1
        show s i - (y i + z i) = s i - y i - z i
        ring
      · ring)
    (fun y hy => ⟨hbne, ht, by
      refine lt_of_le_of_lt ?_ hm0
      have hri : ∀ i : Fin v.dim, |E.A.resid b y i| ≤ c * rho ^ m0 * M i := by
        intro i
        rw [show E.A.resid b y i = _ from hRes y i i.2, Finset.mul_sum]
        refine (Finset.abs_sum_le_sum_abs _ _).trans (Finset.sum_le_sum fun j hj => ?_)
        have hj := mem_range.mp hj
        rw [abs_mul, hL y j hj, abs_sub_comm, mul_left_comm]
        exact mul_le_mul_of_nonneg_left (hy ⟨j, hj⟩) (abs_nonneg _)
      have h2 : nrm2 (E.A.resid b y) ≤ c * rho ^ m0 * (c * rho ^ m0) * S := by
        show ∑ i, E.A.resid b y i * E.A.resid b y i ≤ _
        rw [Finset.mul_sum]
        refine Finset.sum_le_sum fun i _ => ?_
        rw [← abs_mul_abs_self]
        refine (mul_self_le_mul_self (abs_nonneg _) (hri i)).trans_eq ?_
        ring
      refine h2.trans ?_
      have h3 : rho ^ m0 * rho ^ m0 ≤ rho ^ m0 := mul_le_of_le_one_left (pow_nonneg h0 _) (pow_le_one₀ h0 h1.le)
      calc c * rho ^ m0 * (c * rho ^ m0) * S = rho ^ m0 * rho ^ m0 * (c * c * S) := by ring
        _ ≤ _ := mul_le_mul_of_nonneg_right h3 (mul_nonneg (mul_nonneg hc0 hc0) hS0)⟩) hmax
  obtain ⟨i2, x2, X, m2, e2, hl2, -⟩ := richardson_correct E _ b x hE hs
  rw [e] at e2
  cases e2
  refine ⟨info, x', e, by rw [hit]; exact_mod_cast hm, hl2, ?_⟩
  obtain ⟨-, -, hsm⟩ := hsm
  have e1 : nrm2 (E.A.resid b (vecN E.A.dim x')) = ∑ i ∈ range v.dim, (b⟦i⟧ - ∑ j ∈ range v.dim, v.entry i j * x'⟦j⟧) ^ 2 := by
    rw [← Fin.sum_univ_eq_sum_range (fun i => (b⟦i⟧ - ∑ j ∈ range v.dim, v.entry i j * x'⟦j⟧) ^ 2)]
    show ∑ i, E.A.resid b (vecN E.A.dim x') i * E.A.resid b (vecN E.A.dim x') i = _
    refine Finset.sum_congr rfl fun i _ => ?_
    rw [sq]
    have : E.A.resid b (vecN E.A.dim x') i = b⟦i⟧ - ∑ j ∈ range v.dim, v.entry i j * x'⟦j⟧ := by
      refine (congrArg (b⟦i⟧ - ·) (view_mulVec (vecN E.A.dim x') i)).trans ?_
      rw [ofFn_vecN (n := E.A.dim) hl2]
    rw [this]
  rw [e1, nrm2_vecN] at hsm
  rw [sq]
  exact hsm

end rich

section prog
variable {K : Type} [Field K] [LinearOrder K] [IsStrictOrderedRing K]

/-- The program with a contracting preconditioner, up to the comparison with the reference solution. -/
theorem contracting_program_aux [Archimedean K] {E : SolveProgEnv K} {p : ProgParams K} {n : Nat} {es : List (Nat × Nat × K)} {vs : List K} (h : SolveFiles E p n es vs)
    {bs : Nat} (hbs : BlocksOk bs n p.storageorder) (hvs : vs.length = n) (hs : SqrtOk E.sqrt) (hsched : ProgSched E bs n) (hsolver : p.solvertype = "richardson")
    {d : Nat → K} {rho : K} (hobj : ProvidesContraction E bs p n es d rho) (hdom : WDominant n (fileEntry es) d rho)
    (h0 : 0 ≤ rho) (h1 : rho < 1) (hb : ∃ i < n, vs⟦i⟧ ≠ 0) (ht : 0 < p.tol) :
    ∃ m0 : Nat, ∀ maxiter : Int, m0 < maxiter → ∃ info x, testSolve E bs { p with maxiter := maxiter } = (do
        let e ← progCheck E p n x
        .ok (info, x, e)) ∧ info.iters ≤ m0 ∧ x.length = n ∧ fileResid2 n es vs x < p.tol ^ 2 * norm2 n vs := by
  obtain ⟨A, B, e, hA, hB, hrows, hBn, hsd⟩ := h.read hbs
  have hd := hA.dim
  obtain ⟨o, q, g1, g2, g3⟩ := hobj
  obtain ⟨prec, g4, g5⟩ := g3 B ⟨hB, hBn, fun e1 e2 => by obtain ⟨rfl, r⟩ := hsd e1 e2; exact r⟩
  obtain ⟨v, hv⟩ : ∃ v, progView bs p.storageorder A = v := ⟨_, rfl⟩
  rw [hv] at hA hrows hd
  subst hd
  have hent := hA.entry
  have hsame : ∀ i < v.dim, ∀ g : Nat → K, ∑ j ∈ range v.dim, v.entry i j * g j = ∑ j ∈ range v.dim, fileEntry es i j * g j := fun i hi g =>
    Finset.sum_congr rfl fun j _ => by rw [hent i hi j]
  have hdom' : WDominant v.dim v.entry d rho :=
    ⟨hdom.pos, fun i hi => by rw [hent i hi]; exact hdom.diag i hi, fun i hi => by
      rw [hent i hi, Finset.sum_congr rfl fun j _ => by rw [hent i hi j]]
      exact hdom.dom i hi⟩
  obtain ⟨m0, hm0⟩ := richardson_contracting_converges hA.ready hdom' h0 h1 prec (fun k r z hr hz => by
      obtain ⟨z', k1, k2, k3⟩ := g5 k r z hr hz
      exact ⟨z', k1, k2, fun e he => k3 e fun i hi => by rw [← hsame i hi]; exact he i hi⟩)
    E.sqrt hs p.tol ht E.sched ⟨fun k m => by rw [hrows]; exact hsched.1 k m, hsched.2⟩ vs (List.replicate v.dim 0) hvs List.length_replicate hb
  refine ⟨m0, fun maxiter hmax => ?_⟩
  obtain ⟨info, x, k1, k2, k3, k4⟩ := hm0 maxiter hmax
  refine ⟨info, x, ?_, k2, k3, ?_⟩
  · rw [e { p with maxiter := maxiter } rfl rfl rfl]
    unfold progTail
    rw [show progSettings bs E.info { p with maxiter := maxiter } = .ok o from g1, ok_bind, g2, ok_bind, g4, ok_bind]
    dsimp only
    rw [hv]
    have e3 : progSolve { p with maxiter := maxiter } ⟨v, prec, E.sqrt, maxiter, p.tol, E.sched⟩ vs (List.replicate v.dim 0) = .ok (info, x) := by
      unfold progSolve
      rw [if_pos hsolver]
      exact k1
    rw [e3, ok_bind]
    rfl
  · refine lt_of_le_of_lt (le_of_eq ?_) k4
    unfold fileResid2
    refine Finset.sum_congr rfl fun i hi => ?_
    rw [hsame i (mem_range.mp hi)]

/-- The parameters ask for the block size `bs` that the program uses. -/
def AsksFor (p : ProgParams K) (bs : Nat) : Prop := (p.mattype ≠ "bsr" ∧ bs = 1) ∨ (p.mattype = "bsr" ∧ p.blocksize = 4 ∧ bs = 4)

omit [IsStrictOrderedRing K] in
theorem AsksFor.main {E : SolveProgEnv K} {p : ProgParams K} {bs : Nat} (h : AsksFor p bs) (hm : p.maxiter ≠ -1) : solveMain E p = (do
    let r ← testSolve E bs p
    .ok (some r)) := by
  unfold solveMain
  rw [if_neg hm]
  rcases h with ⟨h1, rfl⟩ | ⟨h1, h2, rfl⟩
  · rw [if_neg h1]
  · rw [if_pos h1, if_pos h2]

/-- **C90** The program solves the system with every contracting preconditioner, in CSR and in BSR format. -/
theorem solve_program_contracting_converges [Archimedean K] {E : SolveProgEnv K} {p : ProgParams K} {n : Nat} {es : List (Nat × Nat × K)} {vs : List K} (h : SolveFiles E p n es vs)
    {bs : Nat} (hask : AsksFor p bs) (hbs : BlocksOk bs n p.storageorder) (hvs : vs.length = n) (hs : SqrtOk E.sqrt) (hsched : ProgSched E bs n) (hsolver : p.solvertype = "richardson")
    {d : Nat → K} {rho : K} (hobj : ProvidesContraction E bs p n es d rho) (hdom : WDominant n (fileEntry es) d rho)
    (h0 : 0 ≤ rho) (h1 : rho < 1) (hb : ∃ i < n, vs⟦i⟧ ≠ 0) (ht : 0 < p.tol) (hx : p.x_file = "NONE") :
    ∃ m0 : Nat, ∀ maxiter : Int, m0 < maxiter → ∃ info x, solveMain E { p with maxiter := maxiter } = .ok (some (info, x, none)) ∧ info.iters ≤ m0 ∧
      x.length = n ∧ fileResid2 n es vs x < p.tol ^ 2 * norm2 n vs := by
  obtain ⟨m0, hm0⟩ := contracting_program_aux h hbs hvs hs hsched hsolver hobj hdom h0 h1 hb ht
  refine ⟨m0, fun maxiter hmax => ?_⟩
  obtain ⟨info, x, e, k1, k2, k3⟩ := hm0 maxiter hmax
  refine ⟨info, x, ?_, k1, k2, k3⟩
  rw [AsksFor.main (p := { p with maxiter := maxiter }) hask (by show maxiter ≠ -1; omega), e]
  unfold progCheck
  rw [if_neg (by simpa using hx)]
  rfl

/-- **C90** The program passes its own test with every contracting preconditioner, if the reference file holds the exact solution: for every `testtol`, all small enough tolerances and all large enough
`maxiter`. -/
theorem solve_program_contracting_passes [Archimedean K] {E : SolveProgEnv K} {p : ProgParams K} {n : Nat} {es : List (Nat × Nat × K)} {vs : List K} (h : SolveFiles E p n es vs)
    {bs : Nat} (hask : AsksFor p bs) (hbs : BlocksOk bs n p.storageorder) (hvs : vs.length = n) (hs : SqrtOk E.sqrt) (hsched : ProgSched E bs n) (hsolver : p.solvertype = "richardson")
    {d : Nat → K} {rho : K} (hobj : ProvidesContraction E bs p n es d rho) (hdom : WDominant n (fileEntry es) d rho)
    (h0 : 0 ≤ rho) (h1 : rho < 1) (hb : ∃ i < n, vs⟦i⟧ ≠ 0) (hx : p.x_file ≠ "NONE") {ans : List K}
    (hans : HoldsArray E p.x_file ans) (hal : n ≤ ans.length) (hsol : ∀ i < n, ∑ j ∈ range n, fileEntry es i j * ans⟦j⟧ = vs⟦i⟧) (htt : 0 < p.testtol) :
    ∃ tol0 > 0, ∀ tol, 0 < tol → tol ≤ tol0 → ∃ m0 : Nat, ∀ maxiter : Int, m0 < maxiter →
      ∃ info x v, solveMain E { p with tol := tol, maxiter := maxiter } = .ok (some (info, x, some v)) ∧ info.iters ≤ m0 ∧ x.length = n ∧
        fileResid2 n es vs x < tol ^ 2 * norm2 n vs ∧ v ^ 2 = ∑ i ∈ range n, (x⟦i⟧ - ans⟦i⟧) ^ 2 ∧ v < p.testtol := by
  obtain ⟨c, hc0, hc⟩ := dominant_bound hdom h1
  have hN : 0 ≤ norm2 n vs := Finset.sum_nonneg fun i _ => sq_nonneg _
  have hQ : 0 ≤ c * norm2 n vs := mul_nonneg hc0 hN
  have hQ1 : 0 < c * norm2 n vs + 1 := by linarith
  have htt2 : 0 < p.testtol ^ 2 := pow_pos htt 2
  refine ⟨min 1 (p.testtol ^ 2 / (c * norm2 n vs + 1)), lt_min one_pos (div_pos htt2 hQ1), fun tol ht htl => ?_⟩
  obtain ⟨m0, hm0⟩ := contracting_program_aux (p := { p with tol := tol }) ⟨h.size, h.sort, h.mat, h.rhs, h.rows, h.distinct⟩ hbs hvs hs hsched hsolver hobj hdom h0 h1 hb ht
  refine ⟨m0, fun maxiter hmax => ?_⟩
  obtain ⟨info, x, e, k1, k2, k3⟩ := hm0 maxiter hmax
  change fileResid2 n es vs x < tol ^ 2 * norm2 n vs at k3
  have hS : ∑ i ∈ range n, (x⟦i⟧ - ans⟦i⟧) ^ 2 < p.testtol ^ 2 := by
    have e1 : ∑ i ∈ range n, (∑ j ∈ range n, fileEntry es i j * (x⟦j⟧ - ans⟦j⟧)) ^ 2 = fileResid2 n es vs x := by
      unfold fileResid2
      refine Finset.sum_congr rfl fun i hi => ?_
      rw [Finset.sum_congr rfl fun j _ => mul_sub _ _ _, Finset.sum_sub_distrib, hsol i (mem_range.mp hi)]
      ring
    have e2 := hc fun i => x⟦i⟧ - ans⟦i⟧
    rw [e1] at e2
    have t1 : tol ≤ 1 := htl.trans (min_le_left _ _)
    have t2 : tol * (c * norm2 n vs + 1) ≤ p.testtol ^ 2 := by
      rw [← le_div_iff₀ hQ1]; exact htl.trans (min_le_right _ _)
    have t3 : tol ^ 2 ≤ tol := by rw [sq]; exact mul_le_of_le_one_left ht.le t1
    have t4 : c * fileResid2 n es vs x ≤ c * (tol ^ 2 * norm2 n vs) := mul_le_mul_of_nonneg_left k3.le hc0
    have t5 : tol ^ 2 * (c * norm2 n vs) ≤ tol * (c * norm2 n vs) := mul_le_mul_of_nonneg_right t3 hQ
    nlinarith
  have hnn : 0 ≤ ∑ i ∈ range n, (x⟦i⟧ - ans⟦i⟧) ^ 2 := Finset.sum_nonneg fun i _ => sq_nonneg _
  obtain ⟨s1, s2⟩ := hs _ hnn
  have hlt : E.sqrt (∑ i ∈ range n, (x⟦i⟧ - ans⟦i⟧) ^ 2) < p.testtol := lt_of_pow_lt_pow_left₀ 2 htt.le (by rw [sq, s2]; exact hS)
  refine ⟨info, x, _, ?_, k1, k2, k3, by rw [sq]; exact s2, hlt⟩
  rw [AsksFor.main (p := { p with tol := tol, maxiter := maxiter }) hask (by show maxiter ≠ -1; omega)]
  rw [show testSolve E bs { p with tol := tol, maxiter := maxiter } = _ from e]
  unfold progCheck
  rw [if_pos hx, show readDenseMatrixMarket E.num E.fuel _ = .ok ans from hans.read, ok_bind, progError_eq E.sqrt k2 hal, ok_bind,
    cassert, if_pos (by simpa using hlt)]
  rfl

end prog

end Blasted
