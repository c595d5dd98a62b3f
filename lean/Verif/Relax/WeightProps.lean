import Verif.Relax.EnergyProps
import Verif.Relax.PetscApplyProps
import Verif.Solve.DomProps

/-!
# Relaxations of weighted dominant matrices and of M-matrices (C76)

`WDominant n S d rho` is dominance of the rows of `S` after the columns are multiplied by the positive weights `d`; `MMat n S d` says that `S` has nonpositive
off-diagonal entries and `S d > 0`.
-/

namespace Blasted

open Finset

variable {K : Type} [Field K] [LinearOrder K] [IsStrictOrderedRing K]

/-! ### The methods -/

/-- The relaxations: with one thread, with threads, level-scheduled, Jacobi. -/
inductive RelaxMethod
  | chaotic | chaoticThreads | sgs | sgsThreads | levelSgs | levelSgsThreads | jacobi
deriving DecidableEq

/-- `x'` is a possible result of `k` steps of the method applied to right-hand side `b` and initial guess `x`, without stopping test for Jacobi. -/
def RelaxMethod.Outcome (A : SR K) (dinv : List K) (levels : List Nat) : RelaxMethod → Nat → List K → List K → List K → Prop
  | .chaotic, k, b, x, x' => chaoticRelax A dinv k b x = .ok x'
  | .chaoticThreads, k, b, x, x' => AsyncChaoticRelax A dinv mixWhole k b x x'
  | .sgs, k, b, x, x' => sgsRelax A dinv k b x = .ok x'
  | .sgsThreads, k, b, x, x' => AsyncSgsRelax A dinv mixWhole k b x x'
  | .levelSgs, k, b, x, x' => ∃ sched sched' : Nat → Nat → List Nat → List Nat, (∀ s t l, (sched s t l).Perm l) ∧ (∀ s t l, (sched' s t l).Perm l) ∧
      levelSgsRelax A dinv levels sched sched' k b x = .ok x'
  | .levelSgsThreads, k, b, x, x' => AsyncLevelSgsRelax A dinv mixWhole levels b k x x'
  | .jacobi, k, b, x, x' => ∃ (sqrt sq : K → K) (p : SolveParams K) (ord : Nat → List Nat) (g : List K), p.ctol = false ∧ p.maxits = k ∧
      (∀ t, (ord t).Perm (List.range A.nbrows)) ∧ g.length = A.nbrows ∧ jacobiRelax sqrt sq p A dinv b ord g x = .ok x'

/-- From every initial guess and for every right-hand side, the results of the method approach a limit, uniformly over the executions. -/
def RelaxMethod.Converges (A : SR K) (dinv : List K) (levels : List Nat) (m : RelaxMethod) : Prop :=
  ∀ b x : List K, b.length = A.nbrows → x.length = A.nbrows → ∃ s : Nat → K, ∀ ε > 0, ∃ k₀, ∀ k ≥ k₀, ∀ x',
    m.Outcome A dinv levels k b x x' → ∀ i < A.nbrows, |x'⟦i⟧ - s i| < ε

/-- The same, and the limit solves the system. -/
def RelaxMethod.Solves (A : SR K) (dinv : List K) (levels : List Nat) (m : RelaxMethod) : Prop :=
  ∀ b x : List K, b.length = A.nbrows → x.length = A.nbrows → ∃ s : Nat → K, Blasted.Solves A b s ∧ ∀ ε > 0, ∃ k₀, ∀ k ≥ k₀, ∀ x',
    m.Outcome A dinv levels k b x x' → ∀ i < A.nbrows, |x'⟦i⟧ - s i| < ε

omit [IsStrictOrderedRing K] in
theorem RelaxMethod.Solves.converges {A : SR K} {dinv : List K} {levels : List Nat} {m : RelaxMethod} (h : m.Solves A dinv levels) : m.Converges A dinv levels := by
  intro b x hb hx
  obtain ⟨s, _, h⟩ := h b x hb hx
  exact ⟨s, h⟩

/-! ### Contraction in the weighted maximum norm -/

section contract
variable {A : SR K} {dinv b : List K} {rho E : K} {s d : Nat → K}

theorem relaxVal_wcontract (hI : DiagInv A dinv) (hdom : WDominant A.nbrows A.entry d rho) (hs : Solves A b s) (hE : 0 ≤ E) {i : Nat} (hi : i < A.nbrows)
    {x : Nat → K} (hx : ∀ j < A.nbrows, |x j - s j| ≤ E * d j) : |relaxVal A dinv b x i - s i| ≤ rho * E * d i := by
  rw [relaxVal_error hI hs hi, abs_neg]
  have hd : |dinv⟦i⟧| * |A.entry i i| = 1 := by rw [← abs_mul, hI.left i hi, abs_one]
  calc |∑ j ∈ (range A.nbrows).erase i, (dinv⟦i⟧ * A.entry i j) • (x j - s j)|
      ≤ ∑ j ∈ (range A.nbrows).erase i, |(dinv⟦i⟧ * A.entry i j) • (x j - s j)| := abs_sum_le_sum_abs _ _
    _ ≤ ∑ j ∈ (range A.nbrows).erase i, |dinv⟦i⟧| * E * (|A.entry i j| * d j) := by
        refine sum_le_sum fun j hj => ?_
        rw [smul_eq_mul, abs_mul, abs_mul]
        refine (mul_le_mul_of_nonneg_left (hx j (mem_range.mp (mem_of_mem_erase hj))) (mul_nonneg (abs_nonneg _) (abs_nonneg _))).trans_eq ?_
        ring
    _ = |dinv⟦i⟧| * E * ∑ j ∈ (range A.nbrows).erase i, |A.entry i j| * d j := by rw [mul_sum]
    _ ≤ |dinv⟦i⟧| * E * (rho * (|A.entry i i| * d i)) := mul_le_mul_of_nonneg_left (hdom.dom i hi) (mul_nonneg (abs_nonneg _) hE)
    _ = |dinv⟦i⟧| * |A.entry i i| * (rho * E * d i) := by ring
    _ = rho * E * d i := by rw [hd, one_mul]

/-- **C76**, arbitrary staleness: whatever the order of the updates, and however old the values they read, no value in memory is ever farther from the solution
than the farthest initial value, in the weighted norm; every value written is closer by the factor `rho`. -/
theorem weighted_error_bounded (hA : A.Full) (hS : A.Sorted) (hD : A.HasDiag) (hI : DiagInv A dinv) (hb : b.length = A.nbrows)
    (hdom : WDominant A.nbrows A.entry d rho) (h1 : rho ≤ 1) (hs : Solves A b s) {x : List K} (hx : x.length = A.nbrows) (hE : 0 ≤ E)
    (h0 : ∀ i < A.nbrows, |x⟦i⟧ - s i| ≤ E * d i) {log : List (Nat × K)} (h : ALog (relaxRow A dinv b) mixWhole A.nbrows (memOf x) log) :
    (∀ w ∈ log, |w.2 - s w.1| ≤ rho * E * d w.1) ∧ ∀ i < A.nbrows, |(applyLog x log)⟦i⟧ - s i| ≤ E * d i := by
  have hle : rho * E ≤ E := mul_le_of_le_one_left hE h1
  have hled : ∀ j < A.nbrows, rho * E * d j ≤ E * d j := fun j hj => mul_le_mul_of_nonneg_right hle (hdom.pos j hj).le
  have key := h.contract (Q := fun E j u => j < A.nbrows → |u - s j| ≤ E * d j) (E := E) (E' := rho * E) (fun j S hS w hw => hS w hw)
    (fun j u hu hj => (hu hj).trans (hled j hj))
    (fun i hi view hview v hv _ => by
      rw [(rowUpd_relaxVal hA hS hD hI hb).yields hi hv]
      exact relaxVal_wcontract hI hdom hs hE hi fun j hj => hview j hj hj)
    (fun w hw hwn _ => by rw [memOf_eq hw]; exact h0 _ hwn)
  refine ⟨fun w hw => key w hw (h.lt _ hw), fun i hi => ?_⟩
  rcases mem_applyLog (memOf_get0 (x := applyLog x log) (i := i) (by simpa [hx] using hi)) with h1 | ⟨h1, _⟩
  · exact (key _ h1 hi).trans (hled i hi)
  · have e : (applyLog x log)⟦i⟧ = x⟦i⟧ := memOf_eq (w := (i, (applyLog x log)⟦i⟧)) h1
    rw [e]; exact h0 i hi

theorem arun_wcontract (hA : A.Full) (hS : A.Sorted) (hD : A.HasDiag) (hI : DiagInv A dinv)
    (hb : b.length = A.nbrows) (hdom : WDominant A.nbrows A.entry d rho) (hr : 0 ≤ rho) (h1 : rho ≤ 1) (hs : Solves A b s)
    {x x' : List K} (hx : x.length = A.nbrows) (hE : 0 ≤ E) (h0 : ∀ i < A.nbrows, |x⟦i⟧ - s i| ≤ E * d i) {k : Nat}
    (h : ARun (relaxRow A dinv b) mixWhole k x x') : ∀ i < A.nbrows, |x'⟦i⟧ - s i| ≤ rho ^ k * E * d i := by
  obtain ⟨log, last, hR, rfl⟩ := h
  have key := hR.contract (Q := fun E j u => j < A.nbrows → |u - s j| ≤ E * d j) hr h1 hE (fun E j S hS w hw => hS w hw)
    (fun E E' j u hle hu hj => (hu hj).trans (mul_le_mul_of_nonneg_right hle (hdom.pos j hj).le))
    (fun E hE i hi view hview v hv hi' => by
      rw [hx] at hi hview hv
      rw [(rowUpd_relaxVal hA hS hD hI hb).yields hi hv]
      exact relaxVal_wcontract hI hdom hs hE hi fun j hj => hview j hj hj)
    (fun w hw hwn => by rw [memOf_eq hw]; exact h0 _ hwn)
  intro i hi
  exact key.2 _ (hR.mem_last (memOf_get0 (x := applyLog x log) (i := i) (by simpa [hx] using hi))) hi

theorem forwardGS_wcontract {x y : Nat → K} (hI : DiagInv A dinv) (hdom : WDominant A.nbrows A.entry d rho)
    (h1 : rho ≤ 1) (hs : Solves A b s) (hE : 0 ≤ E) (h0 : ∀ i < A.nbrows, |x i - s i| ≤ E * d i)
    (h : ForwardGS A b x y) : ∀ i < A.nbrows, |y i - s i| ≤ rho * E * d i := by
  rw [forwardGS_iff hI] at h
  intro i
  induction i using Nat.strong_induction_on with
  | _ i ih =>
    intro hi
    rw [h i hi]
    refine relaxVal_wcontract hI hdom hs hE hi fun j hj => ?_
    by_cases hji : j < i
    · rw [if_pos hji]; exact (ih j hji hj).trans (mul_le_mul_of_nonneg_right (mul_le_of_le_one_left hE h1) (hdom.pos j hj).le)
    · rw [if_neg hji]; exact h0 j hj

theorem backwardGS_wcontract {x y : Nat → K} (hI : DiagInv A dinv) (hdom : WDominant A.nbrows A.entry d rho)
    (h1 : rho ≤ 1) (hs : Solves A b s) (hE : 0 ≤ E) (h0 : ∀ i < A.nbrows, |x i - s i| ≤ E * d i)
    (h : BackwardGS A b x y) : ∀ i < A.nbrows, |y i - s i| ≤ rho * E * d i := by
  rw [backwardGS_iff hI] at h
  have key : ∀ t i, i < A.nbrows → A.nbrows - i = t → |y i - s i| ≤ rho * E * d i := by
    intro t
    induction t using Nat.strong_induction_on with
    | _ t ih =>
      intro i hi hd
      rw [h i hi]
      refine relaxVal_wcontract hI hdom hs hE hi fun j hj => ?_
      by_cases hji : i < j
      · rw [if_pos hji]; exact (ih _ (by omega) j hj rfl).trans (mul_le_mul_of_nonneg_right (mul_le_of_le_one_left hE h1) (hdom.pos j hj).le)
      · rw [if_neg hji]; exact h0 j hj
  exact fun i hi => key _ i hi rfl

theorem forwardGSs_wcontract {x x' : Nat → K} (hI : DiagInv A dinv) (hdom : WDominant A.nbrows A.entry d rho)
    (hr : 0 ≤ rho) (h1 : rho ≤ 1) (hs : Solves A b s) (hE : 0 ≤ E) (h0 : ∀ i < A.nbrows, |x i - s i| ≤ E * d i) {k : Nat}
    (h : ForwardGSs A b k x x') : ∀ i < A.nbrows, |x' i - s i| ≤ rho ^ k * E * d i := by
  induction h with
  | zero => simpa using h0
  | @succ k x y z _ h2 ih =>
    have hz := forwardGS_wcontract hI hdom h1 hs (mul_nonneg (pow_nonneg hr _) hE) (ih h0) h2
    intro i hi
    refine (hz i hi).trans_eq ?_
    rw [pow_succ']; ring

theorem symmetricGSs_wcontract {x x' : Nat → K} (hI : DiagInv A dinv) (hdom : WDominant A.nbrows A.entry d rho)
    (hr : 0 ≤ rho) (h1 : rho ≤ 1) (hs : Solves A b s) (hE : 0 ≤ E) (h0 : ∀ i < A.nbrows, |x i - s i| ≤ E * d i) {k : Nat}
    (h : SymmetricGSs A b k x x') : ∀ i < A.nbrows, |x' i - s i| ≤ rho ^ (2 * k) * E * d i := by
  induction h with
  | zero => simpa using h0
  | @succ k x y z w _ h2 h3 ih =>
    have hz := forwardGS_wcontract hI hdom h1 hs (mul_nonneg (pow_nonneg hr _) hE) (ih h0) h2
    have hw := backwardGS_wcontract hI hdom h1 hs (mul_nonneg hr (mul_nonneg (pow_nonneg hr _) hE)) hz h3
    intro i hi
    refine (hw i hi).trans_eq ?_
    rw [show 2 * (k + 1) = 2 * k + 1 + 1 from by omega, pow_succ', pow_succ']
    ring

theorem jacobi_wcontract (hI : DiagInv A dinv) (hdom : WDominant A.nbrows A.entry d rho) (hr : 0 ≤ rho) (hs : Solves A b s) (hE : 0 ≤ E)
    {x : Nat → K} (h0 : ∀ i < A.nbrows, |x i - s i| ≤ E * d i) (T : Nat) :
    ∀ i < A.nbrows, |jacobiIter A dinv b x T i - s i| ≤ rho ^ T * E * d i := by
  induction T with
  | zero => simpa [jacobiIter] using h0
  | succ T ih =>
    intro i hi
    rw [pow_succ', mul_assoc rho]
    exact relaxVal_wcontract hI hdom hs (mul_nonneg (pow_nonneg hr T) hE) hi ih

/-- **C76** `k` steps of any of the relaxations, whatever the schedule, multiply the largest weighted error by at most `rho ^ k`. -/
theorem weighted_relax_converges {levels : List Nat} (hA : A.Full) (hS : A.Sorted) (hD : A.HasDiag) (hI : DiagInv A dinv) (hL : LevelsOk A levels)
    (hdom : WDominant A.nbrows A.entry d rho) (hr : 0 ≤ rho) (h1 : rho ≤ 1) (hb : b.length = A.nbrows) (hs : Solves A b s)
    {x x' : List K} (hx : x.length = A.nbrows) (hE : 0 ≤ E) (h0 : ∀ i < A.nbrows, |x⟦i⟧ - s i| ≤ E * d i) (m : RelaxMethod) {k : Nat}
    (h : m.Outcome A dinv levels k b x x') : ∀ i < A.nbrows, |x'⟦i⟧ - s i| ≤ rho ^ k * E * d i := by
  have hsym : ∀ {z : List K}, SymmetricGSs A b k (get0 x) (get0 z) → ∀ i < A.nbrows, |z⟦i⟧ - s i| ≤ rho ^ k * E * d i := fun hz i hi =>
    (symmetricGSs_wcontract hI hdom hr h1 hs hE h0 hz i hi).trans
      (mul_le_mul_of_nonneg_right (mul_le_mul_of_nonneg_right (pow_le_pow_of_le_one hr h1 (by omega)) hE) (hdom.pos i hi).le)
  cases m with
  | chaotic =>
    obtain ⟨y, e, _, h2⟩ := chaotic_relax_correct hA hS hD hI hb k hx
    have h : chaoticRelax A dinv k b x = .ok x' := h
    rw [e] at h
    injection h with h
    subst h
    exact forwardGSs_wcontract hI hdom hr h1 hs hE h0 h2
  | chaoticThreads =>
    rcases h with ⟨rfl, rfl⟩ | h
    · simpa using h0
    · exact arun_wcontract hA hS hD hI hb hdom hr h1 hs hx hE h0 h
  | sgs =>
    obtain ⟨y, e, _, h2⟩ := sgs_relax_correct hA hS hD hI hb k hx
    have h : sgsRelax A dinv k b x = .ok x' := h
    rw [e] at h
    injection h with h
    subst h
    exact hsym h2
  | sgsThreads =>
    rcases h with ⟨rfl, rfl⟩ | h
    · simpa using h0
    · exact fun i hi => (arun_wcontract hA hS hD hI hb hdom hr h1 hs hx hE h0 h i hi).trans
        (mul_le_mul_of_nonneg_right (mul_le_mul_of_nonneg_right (pow_le_pow_of_le_one hr h1 (by omega)) hE) (hdom.pos i hi).le)
  | levelSgs =>
    obtain ⟨sched, sched', h3, h4, h⟩ := h
    obtain ⟨y, e, _, h2⟩ := level_sgs_relax_correct hA hS hD hI hb hL h3 h4 k hx
    rw [e] at h
    injection h with h
    subst h
    exact hsym h2
  | levelSgsThreads => exact hsym (level_sgs_relax_async hA hS hD hI hb hL mixOk_whole hx h).2
  | jacobi =>
    obtain ⟨sqrt, sq, p, ord, g, h3, h4, h5, h6, h⟩ := h
    obtain ⟨y, T, e, _, _, h7, h8, _⟩ := jacobi_relax_correct (sqrt := sqrt) (sq := sq) (p := p) hA hS hD hI hb h5 h6 hx
    rw [e] at h
    injection h with h
    subst h
    intro i hi
    rw [h7 i hi, h8 h3, h4]
    exact jacobi_wcontract hI hdom hr hs hE h0 k i hi

/-- **C76** The same through the Richardson callback of PETSc, for every class that offers a relaxation. -/
theorem weighted_petsc_richardson (o : RelaxObj K K K) (ho : o.Ready) (hmix : o.mix = mixWhole) {prec : Prec}
    (hp : prec.relaxationAvailable = true) (rtol abstol dtol : K) (it : Int) {b x : List K} (hb : b.length = o.A.nbrows)
    (hx : x.length = o.A.nbrows) {rho E : K} {s d : Nat → K} (hdom : WDominant o.A.nbrows o.A.entry d rho) (hr : 0 ≤ rho) (h1 : rho ≤ 1)
    (hs : Solves o.A b s) (hE : 0 ≤ E) (h0 : ∀ i < o.A.nbrows, |x⟦i⟧ - s i| ≤ E * d i) {res : Except Fail (RichardsonOut K)}
    (h : PetscRichardson o prec rtol abstol dtol it false b x res) :
    ∃ out, res = .ok out ∧ out.outits = it ∧ ∀ i < o.A.nbrows, |out.x⟦i⟧ - s i| ≤ rho ^ it.toNat * E * d i := by
  obtain ⟨x', rfl, hl, hrel⟩ := petsc_richardson_correct o ho hp rtol abstol dtol it false hb hx h
  refine ⟨_, rfl, rfl, fun i hi => ?_⟩
  rw [if_neg (by simp)] at hrel
  have hle : rho ^ (2 * it.toNat) * E * d i ≤ rho ^ it.toNat * E * d i :=
    mul_le_mul_of_nonneg_right (mul_le_mul_of_nonneg_right (pow_le_pow_of_le_one hr h1 (by omega)) hE) (hdom.pos i hi).le
  dsimp only
  cases prec <;> first | simp [Prec.relaxationAvailable] at hp; done | skip
  case jacobi | bjacobi =>
    rw [hrel i hi]
    exact jacobi_wcontract ho.inv hdom hr hs hE h0 _ i hi
  case chaotic | blockChaotic =>
    have hrel : AsyncChaoticRelax o.A o.dinv o.mix it.toNat b x x' := hrel
    rw [hmix] at hrel
    exact weighted_relax_converges ho.full ho.sorted ho.diag ho.inv ho.levels hdom hr h1 hb hs hx hE h0 .chaoticThreads hrel i hi
  case asyncSgs | asyncBlockSgs =>
    have hrel : AsyncSgsRelax o.A o.dinv o.mix it.toNat b x x' := hrel
    rw [hmix] at hrel
    exact weighted_relax_converges ho.full ho.sorted ho.diag ho.inv ho.levels hdom hr h1 hb hs hx hE h0 .sgsThreads hrel i hi
  case levelSgs | levelBsgs =>
    exact (symmetricGSs_wcontract ho.inv hdom hr h1 hs hE h0 hrel i hi).trans hle

end contract

/-! ### Existence of the solution and the limit -/

section limit
variable {A : SR K} {dinv : List K} {rho : K} {d : Nat → K}

omit [LinearOrder K] [IsStrictOrderedRing K] in
/-- A square system in which only zero is mapped to zero has a solution for every right-hand side. -/
theorem exists_solution {n : Nat} {S : Nat → Nat → K} (hinj : ∀ v : Nat → K, (∀ i < n, ∑ j ∈ range n, S i j * v j = 0) → ∀ i < n, v i = 0)
    (b : Nat → K) : ∃ s : Nat → K, ∀ i < n, ∑ j ∈ range n, S i j * s j = b i := by
  let B : Matrix (Fin n) (Fin n) K := Matrix.of fun i j => S i j
  have hmul : ∀ (w : Fin n → K) (i : Fin n), B.mulVec w i = ∑ j ∈ range n, S i j * (if h : j < n then w ⟨j, h⟩ else 0) := by
    intro w i
    rw [← Fin.sum_univ_eq_sum_range (fun j => (S i j * (if h : j < n then w ⟨j, h⟩ else 0) : K)) n]
    show ∑ j : Fin n, S i j * w j = _
    refine sum_congr rfl fun j _ => ?_
    rw [dif_pos j.2]
  have hdet : B.det ≠ 0 := by
    intro h0
    obtain ⟨w, hw, hw0⟩ := Matrix.exists_mulVec_eq_zero_iff.mpr h0
    refine hw (funext fun i => ?_)
    have := hinj (fun j => if h : j < n then w ⟨j, h⟩ else 0) (fun i hi => by rw [← hmul w ⟨i, hi⟩, hw0]; rfl) i i.2
    rw [dif_pos i.2] at this
    exact this
  have hu : IsUnit B := (Matrix.isUnit_iff_isUnit_det B).mpr (isUnit_iff_ne_zero.mpr hdet)
  refine ⟨fun j => if h : j < n then (B⁻¹).mulVec (fun i => b i) ⟨j, h⟩ else 0, fun i hi => ?_⟩
  rw [← hmul _ ⟨i, hi⟩, Matrix.mulVec_mulVec, Matrix.mul_nonsing_inv _ ((Matrix.isUnit_iff_isUnit_det B).mp hu), Matrix.one_mulVec]

/-- A weighted dominant matrix maps only zero to zero. -/
theorem WDominant.injective {n : Nat} {S : Nat → Nat → K} (h : WDominant n S d rho) (h1 : rho < 1) (v : Nat → K)
    (hv : ∀ i < n, ∑ j ∈ range n, S i j * v j = 0) : ∀ i < n, v i = 0 := by
  intro i hi
  obtain ⟨m, hm, hmax⟩ := exists_max_image (range n) (fun j => |v j| / d j) ⟨i, mem_range.mpr hi⟩
  rw [mem_range] at hm
  have hmd := h.pos m hm
  set c := |v m| / d m with hc
  have hle : ∀ j < n, |v j| ≤ c * d j := fun j hj => by
    have := hmax j (mem_range.mpr hj)
    rwa [div_le_iff₀ (h.pos j hj)] at this
  have hc0 : 0 ≤ c := div_nonneg (abs_nonneg _) hmd.le
  have hvm : |v m| = c * d m := by rw [hc, div_mul_cancel₀ _ hmd.ne']
  have h2 : |S m m| * |v m| ≤ rho * (|S m m| * d m) * c := by
    have h3 := hv m hm
    rw [← add_sum_erase _ _ (mem_range.mpr hm)] at h3
    rw [← abs_mul, eq_neg_of_add_eq_zero_left h3, abs_neg]
    calc |∑ j ∈ (range n).erase m, S m j * v j| ≤ ∑ j ∈ (range n).erase m, |S m j * v j| := abs_sum_le_sum_abs _ _
      _ ≤ ∑ j ∈ (range n).erase m, |S m j| * d j * c := by
          refine sum_le_sum fun j hj => ?_
          rw [abs_mul]
          refine (mul_le_mul_of_nonneg_left (hle j (mem_range.mp (mem_of_mem_erase hj))) (abs_nonneg _)).trans_eq ?_
          ring
      _ = (∑ j ∈ (range n).erase m, |S m j| * d j) * c := by rw [sum_mul]
      _ ≤ rho * (|S m m| * d m) * c := mul_le_mul_of_nonneg_right (h.dom m hm) hc0
  rw [hvm] at h2
  have h4 : 0 < |S m m| * d m := mul_pos (abs_pos.mpr (h.diag m hm)) hmd
  have h5 : c = 0 := by
    by_contra hne
    have hcp : 0 < c := lt_of_le_of_ne hc0 (Ne.symm hne)
    have := mul_pos (mul_pos h4 hcp) (sub_pos.mpr h1)
    nlinarith
  have := hle i hi
  rw [h5, zero_mul] at this
  exact abs_eq_zero.mp (le_antisymm this (abs_nonneg _))

/-- **C76** For a weighted dominant matrix every relaxation solves every system, from every initial guess and under every schedule: every accuracy is reached after
a number of steps that does not depend on the schedule. -/
theorem weighted_relax_limit [Archimedean K] {levels : List Nat} (hA : A.Full) (hS : A.Sorted) (hD : A.HasDiag) (hI : DiagInv A dinv) (hL : LevelsOk A levels)
    (hdom : WDominant A.nbrows A.entry d rho) (hr : 0 ≤ rho) (h1 : rho < 1) (m : RelaxMethod) : m.Solves A dinv levels := by
  intro b x hb hx
  obtain ⟨s, hs⟩ := exists_solution (hdom.injective h1) (get0 b)
  refine ⟨s, hs, fun ε hε => ?_⟩
  -- a bound of the weighted initial error, and of the weights
  obtain ⟨E, hE, h0⟩ : ∃ E : K, 0 ≤ E ∧ ∀ i < A.nbrows, |x⟦i⟧ - s i| ≤ E * d i := by
    refine ⟨∑ j ∈ range A.nbrows, |x⟦j⟧ - s j| / d j, sum_nonneg fun j hj => div_nonneg (abs_nonneg _) (hdom.pos j (mem_range.mp hj)).le, fun i hi => ?_⟩
    rw [← div_le_iff₀ (hdom.pos i hi)]
    exact single_le_sum (f := fun j => |x⟦j⟧ - s j| / d j) (fun j hj => div_nonneg (abs_nonneg _) (hdom.pos j (mem_range.mp hj)).le) (mem_range.mpr hi)
  obtain ⟨D, hD0, hDd⟩ : ∃ D : K, 0 ≤ D ∧ ∀ i < A.nbrows, d i ≤ D :=
    ⟨∑ j ∈ range A.nbrows, d j, sum_nonneg fun j hj => (hdom.pos j (mem_range.mp hj)).le,
      fun i hi => single_le_sum (f := d) (fun j hj => (hdom.pos j (mem_range.mp hj)).le) (mem_range.mpr hi)⟩
  have hED : (0 : K) < E * D + 1 := add_pos_of_nonneg_of_pos (mul_nonneg hE hD0) one_pos
  obtain ⟨k₀, hk⟩ : ∃ k₀ : Nat, rho ^ k₀ < ε / (E * D + 1) := exists_pow_lt_of_lt_one (div_pos hε hED) h1
  refine ⟨k₀, fun k hkk x' h i hi => ?_⟩
  calc |x'⟦i⟧ - s i| ≤ rho ^ k * E * d i := weighted_relax_converges hA hS hD hI hL hdom hr h1.le hb hs hx hE h0 m h i hi
    _ ≤ rho ^ k * E * D := mul_le_mul_of_nonneg_left (hDd i hi) (mul_nonneg (pow_nonneg hr _) hE)
    _ = rho ^ k * (E * D) := by ring
    _ ≤ rho ^ k₀ * (E * D) := mul_le_mul_of_nonneg_right (pow_le_pow_of_le_one hr h1.le hkk) (mul_nonneg hE hD0)
    _ ≤ rho ^ k₀ * (E * D + 1) := mul_le_mul_of_nonneg_left (le_add_of_nonneg_right zero_le_one) (pow_nonneg hr _)
    _ < ε / (E * D + 1) * (E * D + 1) := mul_lt_mul_of_pos_right hk hED
    _ = ε := div_mul_cancel₀ _ hED.ne'

end limit

/-! ### Matrices with nonpositive off-diagonal entries: convergence of one method is convergence of all -/

section zmat
variable {A : SR K} {dinv : List K}

/-- Positive diagonal entries and nonpositive off-diagonal entries, as in discretised diffusion and transport. -/
structure ZMat (A : SR K) : Prop where
  diag : ∀ i < A.nbrows, 0 < A.entry i i
  off : ∀ i < A.nbrows, ∀ j < A.nbrows, i ≠ j → A.entry i j ≤ 0

/-- With the diagonal as right-hand side, updates of nonnegative vectors give values of at least one. -/
theorem ZMat.relaxVal_ge (hZ : ZMat A) (hI : DiagInv A dinv) {b : List K} (hb : ∀ i < A.nbrows, b⟦i⟧ = A.entry i i) {x : Nat → K}
    (hx : ∀ j < A.nbrows, 0 ≤ x j) {i : Nat} (hi : i < A.nbrows) : 1 ≤ relaxVal A dinv b x i := by
  have h1 := hI.left i hi
  have hd : 0 < dinv⟦i⟧ := by
    by_contra hc
    have := mul_nonpos_of_nonpos_of_nonneg (not_lt.mp hc) (hZ.diag i hi).le
    rw [h1] at this
    exact absurd this (not_le.mpr one_pos)
  have h2 : ∑ j ∈ (range A.nbrows).erase i, A.entry i j • x j ≤ 0 := by
    refine sum_nonpos fun j hj => ?_
    rw [mem_erase, mem_range] at hj
    exact mul_nonpos_of_nonpos_of_nonneg (hZ.off i hi j hj.2 (Ne.symm hj.1)) (hx j hj.2)
  unfold relaxVal
  rw [hb i hi, smul_eq_mul, ← h1]
  exact mul_le_mul_of_nonneg_left (by linarith) hd.le

/-- Updates are monotone. -/
theorem ZMat.relaxVal_mono (hZ : ZMat A) (hI : DiagInv A dinv) {b : List K} {x y : Nat → K}
    (hxy : ∀ j < A.nbrows, x j ≤ y j) {i : Nat} (hi : i < A.nbrows) : relaxVal A dinv b x i ≤ relaxVal A dinv b y i := by
  have h1 := hI.left i hi
  have hd : 0 < dinv⟦i⟧ := by
    by_contra hc
    have := mul_nonpos_of_nonpos_of_nonneg (not_lt.mp hc) (hZ.diag i hi).le
    rw [h1] at this
    exact absurd this (not_le.mpr one_pos)
  have h2 : ∑ j ∈ (range A.nbrows).erase i, A.entry i j • y j ≤ ∑ j ∈ (range A.nbrows).erase i, A.entry i j • x j := by
    refine sum_le_sum fun j hj => ?_
    rw [mem_erase, mem_range] at hj
    exact mul_le_mul_of_nonpos_left (hxy j hj.2) (hZ.off i hi j hj.2 (Ne.symm hj.1))
  unfold relaxVal
  rw [smul_eq_mul, smul_eq_mul]
  exact mul_le_mul_of_nonneg_left (by linarith) hd.le

theorem ZMat.forward_ge (hZ : ZMat A) (hI : DiagInv A dinv) {b : List K} (hb : ∀ i < A.nbrows, b⟦i⟧ = A.entry i i) {x y : Nat → K}
    (hx : ∀ j < A.nbrows, 0 ≤ x j) (h : ForwardGS A b x y) : ∀ i < A.nbrows, 1 ≤ y i := by
  rw [forwardGS_iff hI] at h
  intro i
  induction i using Nat.strong_induction_on with
  | _ i ih =>
    intro hi
    rw [h i hi]
    refine hZ.relaxVal_ge hI hb (fun j hj => ?_) hi
    split
    · rename_i hji; exact zero_le_one.trans (ih j hji hj)
    · exact hx j hj

theorem ZMat.backward_ge (hZ : ZMat A) (hI : DiagInv A dinv) {b : List K} (hb : ∀ i < A.nbrows, b⟦i⟧ = A.entry i i) {x y : Nat → K}
    (hx : ∀ j < A.nbrows, 0 ≤ x j) (h : BackwardGS A b x y) : ∀ i < A.nbrows, 1 ≤ y i := by
  rw [backwardGS_iff hI] at h
  suffices H : ∀ t i, A.nbrows - 1 - i = t → i < A.nbrows → 1 ≤ y i from fun i hi => H _ i rfl hi
  intro t
  induction t using Nat.strong_induction_on with
  | _ t ih =>
    rintro i rfl hi
    rw [h i hi]
    refine hZ.relaxVal_ge hI hb (fun j hj => ?_) hi
    split
    · rename_i hji; exact zero_le_one.trans (ih _ (by omega) j rfl hj)
    · exact hx j hj

/-- The limit of an iteration that solves with a fixed matrix for the residual is a solution. -/
theorem limit_solves {b : List K} {X : Nat → Nat → K} {Q : Nat → Nat → K} {s : Nat → K}
    (hstep : ∀ k, ∀ i < A.nbrows, ∑ j ∈ range A.nbrows, Q i j * (X (k + 1) j - X k j) = b⟦i⟧ - ∑ j ∈ range A.nbrows, A.entry i j * X k j)
    (hconv : ∀ ε > 0, ∃ k₀, ∀ k ≥ k₀, ∀ i < A.nbrows, |X k i - s i| < ε) : Solves A b s := by
  intro i hi
  show ∑ j ∈ range A.nbrows, A.entry i j * s j = b⟦i⟧
  by_contra hne
  set δ := |b⟦i⟧ - ∑ j ∈ range A.nbrows, A.entry i j * s j| with hδ
  have hδ0 : 0 < δ := abs_pos.mpr (sub_ne_zero.mpr (Ne.symm hne))
  set W := ∑ j ∈ range A.nbrows, (2 * |Q i j| + |A.entry i j|) with hW
  have hW0 : 0 ≤ W := sum_nonneg fun j _ => by positivity
  have hW1 : (0 : K) < W + 1 := by linarith
  obtain ⟨k₀, hk⟩ := hconv (δ / (W + 1)) (div_pos hδ0 hW1)
  have ha := hk k₀ le_rfl
  have hb := hk (k₀ + 1) (by omega)
  have e : b⟦i⟧ - ∑ j ∈ range A.nbrows, A.entry i j * s j =
      ∑ j ∈ range A.nbrows, (Q i j * (X (k₀ + 1) j - X k₀ j) + A.entry i j * (X k₀ j - s j)) := by
    rw [sum_add_distrib, hstep k₀ i hi]
    simp only [mul_sub, sum_sub_distrib]
    ring
  have h1 : δ ≤ W * (δ / (W + 1)) := by
    refine (hδ.trans (congrArg _ e)).le.trans ((abs_sum_le_sum_abs _ _).trans ?_)
    rw [hW, sum_mul, ← hW]
    refine sum_le_sum fun j hj => ?_
    rw [mem_range] at hj
    have h2 : |X (k₀ + 1) j - X k₀ j| ≤ 2 * (δ / (W + 1)) := by
      have := abs_sub_le (X (k₀ + 1) j) (s j) (X k₀ j)
      rw [abs_sub_comm (s j)] at this
      linarith [ha j hj, hb j hj]
    have h3 : |A.entry i j * (X k₀ j - s j)| ≤ |A.entry i j| * (δ / (W + 1)) := by
      rw [abs_mul]
      exact mul_le_mul_of_nonneg_left (ha j hj).le (abs_nonneg _)
    have h4 : |Q i j * (X (k₀ + 1) j - X k₀ j)| ≤ |Q i j| * (2 * (δ / (W + 1))) := by
      rw [abs_mul]
      exact mul_le_mul_of_nonneg_left h2 (abs_nonneg _)
    refine (abs_add_le _ _).trans ((add_le_add h4 h3).trans_eq ?_)
    ring
  have h5 : W * (δ / (W + 1)) < δ := by
    rw [mul_div_assoc', div_lt_iff₀ hW1]
    nlinarith
  exact absurd (lt_of_le_of_lt h1 h5) (lt_irrefl _)

/-- What convergence for the diagonal as right-hand side gives: the limit is a positive vector with positive image. -/
theorem ZMat.mmat_of_limit (hZ : ZMat A) {b : List K} (hb : ∀ i < A.nbrows, b⟦i⟧ = A.entry i i) {X : Nat → Nat → K} {Q : Nat → Nat → K} {s : Nat → K}
    (hstep : ∀ k, ∀ i < A.nbrows, ∑ j ∈ range A.nbrows, Q i j * (X (k + 1) j - X k j) = b⟦i⟧ - ∑ j ∈ range A.nbrows, A.entry i j * X k j)
    (hge : ∀ k, ∀ i < A.nbrows, 1 ≤ X (k + 1) i)
    (hconv : ∀ ε > 0, ∃ k₀, ∀ k ≥ k₀, ∀ i < A.nbrows, |X k i - s i| < ε) : MMat A.nbrows A.entry s where
  pos := fun i hi => by
    by_contra hc
    obtain ⟨k₀, hk⟩ := hconv 1 one_pos
    have h1 := hk (k₀ + 1) (by omega) i hi
    have h2 := hge k₀ i hi
    rw [abs_lt] at h1
    linarith [h1.2]
  off := hZ.off
  semi := fun i hi => by
    have := limit_solves hstep hconv i hi
    simp only [smul_eq_mul] at this
    rw [this, hb i hi]
    exact hZ.diag i hi

omit [LinearOrder K] [IsStrictOrderedRing K] in
theorem forwardGS_step {b : List K} {x y : Nat → K} (h : ForwardGS A b x y) : ∀ i < A.nbrows,
    ∑ j ∈ range A.nbrows, (if j ≤ i then A.entry i j else 0) * (y j - x j) = b⟦i⟧ - ∑ j ∈ range A.nbrows, A.entry i j * x j := by
  intro i hi
  rw [← h i hi, ← sum_sub_distrib]
  refine sum_congr rfl fun j _ => ?_
  split <;> simp [mul_sub]

omit [LinearOrder K] [IsStrictOrderedRing K] in
theorem jacobi_step (hI : DiagInv A dinv) {b : List K} (x : Nat → K) : ∀ i < A.nbrows,
    ∑ j ∈ range A.nbrows, (if j = i then A.entry i i else 0) * (relaxVal A dinv b x j - x j) = b⟦i⟧ - ∑ j ∈ range A.nbrows, A.entry i j * x j := by
  intro i hi
  rw [sum_eq_single i (fun j _ hj => by rw [if_neg hj, zero_mul]) (fun h => absurd (mem_range.mpr hi) h), if_pos rfl, mul_sub,
    ← add_sum_erase _ (fun j => A.entry i j * x j) (mem_range.mpr hi)]
  have h1 : A.entry i i * relaxVal A dinv b x i = b⟦i⟧ - ∑ j ∈ (range A.nbrows).erase i, A.entry i j * x j := by
    unfold relaxVal
    simp only [smul_eq_mul]
    rw [← mul_assoc, hI.right i hi, one_mul]
  rw [h1]
  ring

omit [LinearOrder K] [IsStrictOrderedRing K] in
/-- The Gauss-Seidel iterates form a sequence. -/
theorem forwardGSs_seq {b : List K} {x : Nat → K} (hI : DiagInv A dinv) {X : Nat → Nat → K} (hX : ∀ k, ForwardGSs A b k x (X k)) :
    (∀ i < A.nbrows, X 0 i = x i) ∧ ∀ k, ForwardGS A b (X k) (X (k + 1)) := by
  have huniq : ∀ k (y z : Nat → K), ForwardGSs A b k x y → ForwardGSs A b k x z → ∀ i < A.nbrows, y i = z i := by
    intro k
    induction k with
    | zero => intro y z hy hz; cases hy; cases hz; exact fun _ _ => rfl
    | succ k ih =>
      intro y z hy hz
      cases hy with
      | succ h1 h2 =>
        cases hz with
        | succ h3 h4 => exact (forwardGS_congr (ih _ _ h1 h3) (fun _ _ => rfl) h2).unique hI h4
  refine ⟨fun i hi => ?_, fun k => ?_⟩
  · have key : ∀ k (z : Nat → K), ForwardGSs A b k x z → k = 0 → z = x := by
      intro k z h hk
      cases h with
      | zero => rfl
      | succ => omega
    rw [key 0 _ (hX 0) rfl]
  · have h := hX (k + 1)
    cases h with
    | succ h1 h2 => exact forwardGS_congr (huniq _ _ _ h1 (hX k)) (fun _ _ => rfl) h2

omit [LinearOrder K] [IsStrictOrderedRing K] in
theorem symmetricGSs_seq {b : List K} {x : Nat → K} (hI : DiagInv A dinv) {X : Nat → Nat → K} (hX : ∀ k, SymmetricGSs A b k x (X k)) :
    (∀ i < A.nbrows, X 0 i = x i) ∧ ∀ k, ∃ z, ForwardGS A b (X k) z ∧ BackwardGS A b z (X (k + 1)) := by
  have huniq : ∀ k (y z : Nat → K), SymmetricGSs A b k x y → SymmetricGSs A b k x z → ∀ i < A.nbrows, y i = z i := by
    intro k
    induction k with
    | zero => intro y z hy hz; cases hy; cases hz; exact fun _ _ => rfl
    | succ k ih =>
      intro y z hy hz
      cases hy with
      | succ h1 h2 h3 =>
        cases hz with
        | succ h4 h5 h6 =>
          have hm := (forwardGS_congr (ih _ _ h1 h4) (fun _ _ => rfl) h2).unique hI h5
          exact (backwardGS_congr hm (fun _ _ => rfl) h3).unique hI h6
  refine ⟨fun i hi => ?_, fun k => ?_⟩
  · have key : ∀ k (z : Nat → K), SymmetricGSs A b k x z → k = 0 → z = x := by
      intro k z h hk
      cases h with
      | zero => rfl
      | succ => omega
    rw [key 0 _ (hX 0) rfl]
  · have h := hX (k + 1)
    cases h with
    | succ h1 h2 h3 => exact ⟨_, forwardGS_congr (huniq _ _ _ h1 (hX k)) (fun _ _ => rfl) h2, h3⟩

omit [LinearOrder K] [IsStrictOrderedRing K] in
/-- Some execution of the level-scheduled relaxation with threads. -/
theorem exists_levelThreads {levels : List Nat} (hA : A.Full) (hS : A.Sorted) (hD : A.HasDiag) (hI : DiagInv A dinv) (hL : LevelsOk A levels) {b : List K}
    (hb : b.length = A.nbrows) {x : List K} (hx : x.length = A.nbrows) (k : Nat) : ∃ x', AsyncLevelSgsRelax A dinv mixWhole levels b k x x' := by
  have hlog : ∀ (y : List K), y.length = A.nbrows → ∀ rows : List Nat, (∀ i ∈ rows, i < A.nbrows) → ∃ y', ALevel (relaxRow A dinv b) mixWhole rows y y' := by
    intro y hy rows hrows
    refine ⟨_, rows.map fun i => (i, relaxVal A dinv b (get0 y) i), ?_, ?_, ?_, rfl⟩
    · suffices H : ∀ l : List Nat, (∀ i ∈ l, i < A.nbrows) →
          ALog (relaxRow A dinv b) mixWhole y.length (memOf y) (l.map fun i => (i, relaxVal A dinv b (get0 y) i)) from H rows hrows
      intro l
      induction l using List.reverseRecOn with
      | nil => exact fun _ => .nil
      | append_singleton l i ih =>
        intro hl
        rw [List.map_append]
        refine .write (get0 y) (ih fun j hj => hl j (by simp [hj])) (fun j hj => Or.inl (memOf_get0 hj)) (by rw [hy]; exact hl i (by simp)) ?_
        exact Or.inl ((rowUpd_relaxVal hA hS hD hI hb).eval i (hl i (by simp)) _ _ fun j hj => by unfold readView; rw [if_pos (by omega)])
    · intro w hw
      obtain ⟨i, hi, rfl⟩ := List.mem_map.mp hw
      exact hi
    · intro i hi
      exact ⟨_, List.mem_map.mpr ⟨i, hi, rfl⟩⟩
  have hlev : ∀ (ls : List (List Nat)), (∀ rows ∈ ls, ∀ i ∈ rows, i < A.nbrows) → ∀ y : List K, y.length = A.nbrows →
      ∃ y', ALevels (relaxRow A dinv b) mixWhole ls y y' ∧ y'.length = A.nbrows := by
    intro ls
    induction ls with
    | nil => exact fun _ y hy => ⟨y, .nil y, hy⟩
    | cons rows ls ih =>
      intro h y hy
      obtain ⟨z, hz⟩ := hlog y hy rows (h rows (by simp))
      obtain ⟨w, hw, hwl⟩ := ih (fun r hr => h r (by simp [hr])) z (by rw [hz.length, hy])
      exact ⟨w, .cons hz hw, hwl⟩
  have hrows : ∀ rows ∈ levelRows levels, ∀ i ∈ rows, i < A.nbrows := by
    intro rows hr i hi
    obtain ⟨t, ht, rfl⟩ := List.mem_map.mp hr
    rw [List.mem_range] at ht
    rw [List.mem_range'_1] at hi
    have := hL.le_n (t := t + 1) (by omega)
    omega
  suffices H : ∃ x', AsyncLevelSgsRelax A dinv mixWhole levels b k x x' ∧ x'.length = A.nbrows from ⟨_, H.choose_spec.1⟩
  induction k with
  | zero => exact ⟨x, .zero x, hx⟩
  | succ k ih =>
    obtain ⟨y, hy, hyl⟩ := ih
    obtain ⟨z, hz, hzl⟩ := hlev _ hrows y hyl
    obtain ⟨w, hw, hwl⟩ := hlev (levelRows levels).reverse (fun r hr => hrows r (List.mem_reverse.mp hr)) z hzl
    exact ⟨w, .succ hy hz hw, hwl⟩

/-- **C76** If one of the relaxations converges for every right-hand side and initial guess, the matrix is an M-matrix. -/
theorem mmat_of_converges {levels : List Nat} (hA : A.Full) (hS : A.Sorted) (hD : A.HasDiag) (hI : DiagInv A dinv) (hL : LevelsOk A levels)
    (hZ : ZMat A) {m : RelaxMethod} (hm : m.Converges A dinv levels) : ∃ d, MMat A.nbrows A.entry d := by
  set b := (List.range A.nbrows).map fun i => A.entry i i with hbdef
  have hbl : b.length = A.nbrows := by simp [hbdef]
  have hb : ∀ i < A.nbrows, b⟦i⟧ = A.entry i i := fun i hi => get0_map_range _ hi
  set x : List K := List.replicate A.nbrows 0 with hxdef
  have hxl : x.length = A.nbrows := by simp [hxdef]
  have hx0 : ∀ i < A.nbrows, x⟦i⟧ = 0 := fun i hi => get0_replicate_of_lt hi
  obtain ⟨s, hs⟩ := hm b x hbl hxl
  -- forward sweeps
  have hfwd : ∀ X : Nat → List K, (∀ k, m.Outcome A dinv levels k b x (X k)) → (∀ k, ForwardGSs A b k (get0 x) (get0 (X k))) → ∃ d, MMat A.nbrows A.entry d := by
    intro X h1 h2
    obtain ⟨h3, h4⟩ := forwardGSs_seq hI (X := fun k => get0 (X k)) h2
    have hge : ∀ k, ∀ i < A.nbrows, 0 ≤ (X k)⟦i⟧ := by
      intro k
      induction k with
      | zero => intro i hi; rw [h3 i hi, hx0 i hi]
      | succ k ih => exact fun i hi => zero_le_one.trans (hZ.forward_ge hI hb ih (h4 k) i hi)
    refine ⟨s, hZ.mmat_of_limit hb (X := fun k => get0 (X k)) (fun k => forwardGS_step (h4 k)) (fun k => hZ.forward_ge hI hb (hge k) (h4 k)) fun ε hε => ?_⟩
    obtain ⟨k₀, hk⟩ := hs ε hε
    exact ⟨k₀, fun k hkk => hk k hkk _ (h1 k)⟩
  -- symmetric sweeps
  have hsym : ∀ X : Nat → List K, (∀ k, m.Outcome A dinv levels k b x (X k)) → (∀ k, SymmetricGSs A b k (get0 x) (get0 (X k))) → ∃ d, MMat A.nbrows A.entry d := by
    intro X h1 h2
    obtain ⟨h3, h4⟩ := symmetricGSs_seq hI (X := fun k => get0 (X k)) h2
    have hge1 : ∀ k, (∀ i < A.nbrows, 0 ≤ (X k)⟦i⟧) → ∀ i < A.nbrows, 1 ≤ (X (k + 1))⟦i⟧ := by
      intro k h i hi
      obtain ⟨z, h5, h6⟩ := h4 k
      exact hZ.backward_ge hI hb (fun j hj => zero_le_one.trans (hZ.forward_ge hI hb h h5 j hj)) h6 i hi
    have hge : ∀ k, ∀ i < A.nbrows, 0 ≤ (X k)⟦i⟧ := by
      intro k
      induction k with
      | zero => intro i hi; rw [h3 i hi, hx0 i hi]
      | succ k ih => exact fun i hi => zero_le_one.trans (hge1 k ih i hi)
    refine ⟨s, hZ.mmat_of_limit hb (X := fun k => get0 (X k)) (Q := sgsMat A dinv) (fun k => ?_) (fun k => hge1 k (hge k)) fun ε hε => ?_⟩
    · obtain ⟨z, h5, h6⟩ := h4 k
      exact symmetric_sweep hA hS hD hI h5 h6
    · obtain ⟨k₀, hk⟩ := hs ε hε
      exact ⟨k₀, fun k hkk => hk k hkk _ (h1 k)⟩
  -- Jacobi iterates
  have hjac0 : ∀ k, ∀ i < A.nbrows, 0 ≤ jacobiIter A dinv b (get0 x) k i := by
    intro k
    induction k with
    | zero => intro i hi; exact (hx0 i hi).ge
    | succ k ih => exact fun i hi => zero_le_one.trans (hZ.relaxVal_ge hI hb ih hi)
  have hjac : (∀ ε > 0, ∃ k₀, ∀ k ≥ k₀, ∀ i < A.nbrows, |jacobiIter A dinv b (get0 x) k i - s i| < ε) → ∃ d, MMat A.nbrows A.entry d := fun h =>
    ⟨s, hZ.mmat_of_limit hb (X := jacobiIter A dinv b (get0 x)) (fun k => jacobi_step hI _) (fun k i hi => hZ.relaxVal_ge hI hb (hjac0 k) hi) h⟩
  have hjmono : ∀ k, ∀ i < A.nbrows, jacobiIter A dinv b (get0 x) k i ≤ jacobiIter A dinv b (get0 x) (k + 1) i := by
    intro k
    induction k with
    | zero =>
      intro i hi
      have h0 : jacobiIter A dinv b (get0 x) 0 i = 0 := hx0 i hi
      rw [h0]
      exact hjac0 1 i hi
    | succ k ih => exact fun i hi => hZ.relaxVal_mono hI ih hi
  cases m with
  | chaotic =>
    choose X h1 h2 using fun k => chaotic_relax_correct hA hS hD hI hbl k hxl
    exact hfwd X h1 fun k => (h2 k).2
  | sgs =>
    choose X h1 h2 using fun k => sgs_relax_correct hA hS hD hI hbl k hxl
    exact hsym X h1 fun k => (h2 k).2
  | levelSgs =>
    choose X h1 h2 using fun k => level_sgs_relax_correct hA hS hD hI hbl hL (sched := fun _ _ l => l) (sched' := fun _ _ l => l)
      (fun _ _ _ => .refl _) (fun _ _ _ => .refl _) k hxl
    exact hsym X (fun k => ⟨_, _, fun _ _ _ => .refl _, fun _ _ _ => .refl _, h1 k⟩) fun k => (h2 k).2
  | levelSgsThreads =>
    choose X h1 using fun k => exists_levelThreads hA hS hD hI hL hbl hxl k
    exact hsym X h1 fun k => (level_sgs_relax_async hA hS hD hI hbl hL mixOk_whole hxl (h1 k)).2
  | chaoticThreads =>
    refine hjac fun ε hε => ?_
    obtain ⟨k₀, hk⟩ := hs ε hε
    refine ⟨k₀, fun k hkk i hi => ?_⟩
    have := hk k hkk _ (jacobi_is_async (mix := mixWhole) (fun _ => subset_rfl) hA hS hD hI hbl hxl k).1 i hi
    rwa [get0_map_range _ hi] at this
  | sgsThreads =>
    refine hjac fun ε hε => ?_
    obtain ⟨k₀, hk⟩ := hs ε hε
    have heven : ∀ k ≥ k₀, ∀ i < A.nbrows, |jacobiIter A dinv b (get0 x) (2 * k) i - s i| < ε := by
      intro k hkk i hi
      have := hk k hkk _ (jacobi_is_async (mix := mixWhole) (fun _ => subset_rfl) hA hS hD hI hbl hxl k).2 i hi
      rwa [get0_map_range _ hi] at this
    refine ⟨2 * k₀, fun k hkk i hi => ?_⟩
    rcases Nat.even_or_odd' k with ⟨t, rfl | rfl⟩
    · exact heven t (by omega) i hi
    · have h1 := abs_lt.mp (heven t (by omega) i hi)
      have h2 := abs_lt.mp (heven (t + 1) (by omega) i hi)
      have h3 := hjmono (2 * t) i hi
      have h4 := hjmono (2 * t + 1) i hi
      rw [show 2 * (t + 1) = 2 * t + 1 + 1 by omega] at h2
      rw [abs_lt]
      constructor <;> linarith [h1.1, h1.2, h2.1, h2.2]
  | jacobi =>
    refine hjac fun ε hε => ?_
    obtain ⟨k₀, hk⟩ := hs ε hε
    refine ⟨k₀, fun k hkk i hi => ?_⟩
    obtain ⟨y, T, e, _, _, h7, h8, _⟩ := jacobi_relax_correct (sqrt := id) (sq := id) (p := ⟨0, 0, 0, false, k⟩) hA hS hD hI hbl
      (ord := fun _ => List.range A.nbrows) (fun _ => .refl _) (g := x) hxl hxl
    have := hk k hkk y ⟨id, id, ⟨0, 0, 0, false, k⟩, fun _ => List.range A.nbrows, x, rfl, rfl, fun _ => .refl _, hxl, e⟩ i hi
    rw [h7 i hi, h8 rfl] at this
    exact this

/-- **C76** For a matrix with positive diagonal and nonpositive off-diagonal entries: the relaxations with threads solve every system under every schedule
exactly if the matrix is an M-matrix, and exactly if any one of the relaxations, for instance Gauss-Seidel with one thread or Jacobi, converges at all. -/
theorem zmat_relax_all_or_none [Archimedean K] {levels : List Nat} (hA : A.Full) (hS : A.Sorted) (hD : A.HasDiag) (hI : DiagInv A dinv) (hL : LevelsOk A levels)
    (hZ : ZMat A) (m m' : RelaxMethod) :
    (m.Converges A dinv levels → m'.Solves A dinv levels) ∧ (m.Solves A dinv levels ↔ ∃ d, MMat A.nbrows A.entry d) := by
  have key : ∀ m : RelaxMethod, (∃ d, MMat A.nbrows A.entry d) → m.Solves A dinv levels := by
    rintro m ⟨d, hd⟩
    obtain ⟨rho, h1, h2, h3⟩ := hd.wdominant
    exact weighted_relax_limit hA hS hD hI hL h3 h2 h1 m
  exact ⟨fun h => key m' (mmat_of_converges hA hS hD hI hL hZ h), fun h => mmat_of_converges hA hS hD hI hL hZ h.converges, key m⟩

end zmat

/-! ### Concrete cases -/

/-- One row per level is a level schedule of every matrix. -/
theorem levelsOk_range {V : Type} (A : SR V) : LevelsOk A (List.range (A.nbrows + 1)) := by
  have hg : ∀ t < A.nbrows + 1, (List.range (A.nbrows + 1))⟦t⟧ = t := by
    intro t ht
    rw [get0_eq_getElem (by simpa using ht), List.getElem_range]
  constructor
  · simp
  · exact hg 0 (by omega)
  · rw [List.length_range]; exact hg _ (by omega)
  · intro t ht
    rw [List.length_range] at ht
    rw [hg t (by omega), hg (t + 1) ht]
    omega
  · intro t ht i j h1 h2 h3 h4 _
    rw [List.length_range] at ht
    rw [hg t (by omega)] at h1 h3
    rw [hg (t + 1) ht] at h2 h4
    omega

theorem exM_zmat : ZMat exM where
  diag := fun i hi => by have h1 : i < 4 := hi; interval_cases i <;> decide +kernel
  off := fun i hi j hj => by have h1 : i < 4 := hi; have h2 : j < 4 := hj; interval_cases i <;> interval_cases j <;> decide +kernel

/-- Non-vacuity of C76: the relaxations with threads solve every system with `exM`, which is not diagonally dominant; concretely, ten steps from errors of at most
`(4, 5, 4, 5)` end within `(5/6)^10` of that. -/
example : RelaxMethod.chaoticThreads.Solves exM [1/3, 1/2, 1/3, 1/2] [0, 1, 2, 3, 4] ∧ ∀ b x x' : List ℚ, ∀ s : Nat → ℚ, b.length = 4 → x.length = 4 → Solves exM b s →
    (∀ i < 4, |x⟦i⟧ - s i| ≤ 1 * get0 [4, 5, 4, (5 : ℚ)] i) → AsyncSgsRelax exM [1/3, 1/2, 1/3, 1/2] mixWhole 10 b x x' →
    ∀ i < 4, |x'⟦i⟧ - s i| ≤ (5/6) ^ 10 * 1 * get0 [4, 5, 4, (5 : ℚ)] i :=
  ⟨weighted_relax_limit (exM_setting false).full (exM_setting false).sorted (exM_setting false).diag exM_diagInv (levelsOk_range exM) exM_dominant
      (by norm_num) (by norm_num) _,
    fun b x x' s hb hx hs h0 h => weighted_relax_converges (exM_setting false).full (exM_setting false).sorted (exM_setting false).diag exM_diagInv (levelsOk_range exM)
      exM_dominant (by norm_num) (by norm_num) hb hs hx (by norm_num) h0 .sgsThreads h⟩

/-- The equivalence for this matrix: all sides hold. -/
example : (∃ d, MMat 4 exM.entry d) ∧ ∀ m : RelaxMethod, m.Solves exM [1/3, 1/2, 1/3, 1/2] [0, 1, 2, 3, 4] :=
  ⟨⟨_, exM_mmat⟩, fun m => (zmat_relax_all_or_none (exM_setting false).full (exM_setting false).sorted (exM_setting false).diag exM_diagInv (levelsOk_range exM)
    exM_zmat m m).2.mpr ⟨_, exM_mmat⟩⟩

/-- `[1 -2; -2 1]`. -/
def exZ2 : SR ℚ := { exA2 with vals := [1, -2, -2, 1] }

/-- All sides of the equivalence fail for `[1 -2; -2 1]`: none of the relaxations converges for all systems. -/
example (m : RelaxMethod) : ¬ m.Converges exZ2 [1, 1] [0, 1, 2] := by
  intro h
  have hA : exZ2.Full := by constructor <;> decide
  have hS : exZ2.Sorted := SR.sorted_of_check (by decide)
  have hD : exZ2.HasDiag := by constructor <;> decide
  have hI : DiagInv exZ2 [1, 1] := by
    constructor
    · rfl
    · intro i hi
      have h1 : i < 2 := hi
      interval_cases i <;> decide +kernel
    · intro i hi
      have h1 : i < 2 := hi
      interval_cases i <;> decide +kernel
  have hZ : ZMat exZ2 :=
    ⟨fun i hi => by have h1 : i < 2 := hi; interval_cases i <;> decide +kernel,
      fun i hi j hj => by have h1 : i < 2 := hi; have h2 : j < 2 := hj; interval_cases i <;> interval_cases j <;> decide +kernel⟩
  obtain ⟨d, hd⟩ := mmat_of_converges hA hS hD hI (levelsOk_range exZ2) hZ h
  have h0 := hd.semi 0 (by decide)
  have h1 := hd.semi 1 (by decide)
  have p0 := hd.pos 0 (by decide)
  have p1 := hd.pos 1 (by decide)
  simp only [show exZ2.nbrows = 2 from rfl, sum_range_succ, sum_range_zero, show exZ2.entry 0 0 = 1 by decide +kernel, show exZ2.entry 0 1 = -2 by decide +kernel,
    show exZ2.entry 1 0 = -2 by decide +kernel, show exZ2.entry 1 1 = 1 by decide +kernel] at h0 h1
  linarith

/-- **C76**, finding: without the sign condition convergence with one thread says nothing about threads. For `[10 9 9; 9 10 9; 9 9 10]` the chaotic relaxation and the
SGS relaxation with one thread solve every system; with threads neither converges, and the Jacobi relaxation does not. -/
theorem threads_may_destroy_convergence :
    RelaxMethod.chaotic.Solves exN3 [1/10, 1/10, 1/10] [0, 1, 2, 3] ∧ RelaxMethod.sgs.Solves exN3 [1/10, 1/10, 1/10] [0, 1, 2, 3] ∧
    ¬ RelaxMethod.chaoticThreads.Converges exN3 [1/10, 1/10, 1/10] [0, 1, 2, 3] ∧ ¬ RelaxMethod.sgsThreads.Converges exN3 [1/10, 1/10, 1/10] [0, 1, 2, 3] ∧
    ¬ RelaxMethod.jacobi.Converges exN3 [1/10, 1/10, 1/10] [0, 1, 2, 3] := by
  have hpos : ∀ m : RelaxMethod, (∀ k b x x', m.Outcome exN3 [1/10, 1/10, 1/10] [0, 1, 2, 3] k b x x' → GSMethod exN3 [1/10, 1/10, 1/10] k b x x') →
      m.Solves exN3 [1/10, 1/10, 1/10] [0, 1, 2, 3] := by
    intro m hm b x hb hx
    obtain ⟨s, hs⟩ := exists_solution (n := exN3.nbrows) (S := exN3.entry) (fun v hv => by
      by_contra hc
      push Not at hc
      have h1 := exN3_pos v hc
      have h2 : ∑ i ∈ range exN3.nbrows, ∑ j ∈ range exN3.nbrows, v i * exN3.entry i j * v j = 0 := by
        refine sum_eq_zero fun i hi => ?_
        simp only [mul_assoc]
        rw [← mul_sum, hv i (mem_range.mp hi), mul_zero]
      exact absurd h2 h1.ne') (get0 b)
    refine ⟨s, hs, fun ε hε => ?_⟩
    obtain ⟨k₀, hk⟩ := spd_method_limit exN3_full exN3_sorted exN3_diag exN3_diagInv exN3_sym exN3_pos hb hx hs (ε := ε * ε) (mul_pos hε hε)
    refine ⟨k₀, fun k hkk x' h i hi => ?_⟩
    have h1 := hk k hkk x' (hm k b x x' h)
    have h2 : (x'⟦i⟧ - s i) * (x'⟦i⟧ - s i) ≤ ∑ i ∈ range exN3.nbrows, (x'⟦i⟧ - s i) * (x'⟦i⟧ - s i) :=
      single_le_sum (f := fun i => (x'⟦i⟧ - s i) * (x'⟦i⟧ - s i)) (fun _ _ => mul_self_nonneg _) (mem_range.mpr hi)
    exact abs_lt_of_sq_lt_sq (by nlinarith) hε.le
  have hdiv : ∀ m : RelaxMethod, ∀ e : Nat → Nat, (∀ k, k ≤ e k) → (∀ k, m.Outcome exN3 [1/10, 1/10, 1/10] [0, 1, 2, 3] k [0, 0, 0] [1, 1, 1] [(-9/5) ^ e k, (-9/5) ^ e k, (-9/5) ^ e k]) →
      ¬ m.Converges exN3 [1/10, 1/10, 1/10] [0, 1, 2, 3] := by
    intro m e he hm hc
    obtain ⟨s, hs⟩ := hc [0, 0, 0] [1, 1, 1] rfl rfl
    obtain ⟨k₀, hk⟩ := hs 1 one_pos
    obtain ⟨T, hT⟩ := exists_nat_gt ((|s 0| + 1) * (5/4))
    have h1 := hk (max k₀ T) (le_max_left _ _) _ (hm _) 0 (by decide)
    have h2 : |(-9/5 : ℚ) ^ e (max k₀ T)| < |s 0| + 1 := by
      have := abs_sub_abs_le_abs_sub ((-9/5 : ℚ) ^ e (max k₀ T)) (s 0)
      have h3 : |(-9/5 : ℚ) ^ e (max k₀ T) - s 0| < 1 := h1
      linarith
    have h4 : ∀ n : Nat, (n : ℚ) * (4/5) ≤ |(-9/5 : ℚ) ^ n| := by
      intro n
      rw [abs_pow, show |(-9/5 : ℚ)| = 1 + 4/5 by norm_num [abs_of_neg]]
      have := one_add_mul_le_pow (a := (4/5 : ℚ)) (by norm_num) n
      linarith
    have h5 : (T : ℚ) ≤ (e (max k₀ T) : ℚ) := by exact_mod_cast (le_max_right k₀ T).trans (he _)
    linarith [h4 (e (max k₀ T))]
  refine ⟨hpos .chaotic fun k b x x' h => .inl (.chaotic h), hpos .sgs fun k b x x' h => .inl (.sgs h),
    hdiv .chaoticThreads id (fun _ => le_rfl) fun k => (spd_relax_diverges.2.2.2 k).2.1,
    hdiv .sgsThreads (fun k => 2 * k) (fun k => (by omega : k ≤ 2 * k)) fun k => (spd_relax_diverges.2.2.2 k).2.2,
    hdiv .jacobi id (fun _ => le_rfl) fun k => ?_⟩
  exact ⟨id, id, ⟨0, 0, 0, false, k⟩, fun _ => List.range 3, [0, 0, 0], rfl, rfl, fun _ => .refl _, rfl,
    (spd_relax_diverges.2.2.2 k).1 id id 0 0 0 (fun _ => List.range 3) [0, 0, 0] (fun _ => .refl _) rfl⟩

end Blasted
