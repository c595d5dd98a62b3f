import Verif.Krylov.RelaxPrecProps
import Verif.Race.AsyncProps
import Verif.Race.TornEnds
import Verif.Solve.FewProps

/-!
# The iteration with the asynchronous symmetric Gauss-Seidel preconditioner (C101)

The forward sweeps of the preconditioner are done by one thread, the backward sweeps are asynchronous. For dominant matrices of every size already one asynchronous backward sweep, in which the
threads need not wait for anything, gives a preconditioner with which the iteration converges.
-/

namespace Blasted

open Finset

variable {K R M : Type}

/-! ### The iteration -/

/-- `t` steps of the iteration that corrects `x` by the preconditioned residual. `Ap r z`: applying the preconditioner to `r` can give `z`. -/
inductive CorrIteration [Ring R] [AddCommGroup M] [Module R M] (A : SR R) (Ap : List M → List M → Prop) (b : List M) : Nat → List M → List M → Prop
  | zero (x : List M) : CorrIteration A Ap b 0 x x
  | succ {t : Nat} {x y r z : List M} (h : CorrIteration A Ap b t x y) (hr : r.length = A.nbrows)
      (hres : ∀ i < A.nbrows, r⟦i⟧ = b⟦i⟧ - ∑ j ∈ range A.nbrows, A.entry i j • y⟦j⟧) (hap : Ap r z) :
      CorrIteration A Ap b (t + 1) x (List.zipWith (· + ·) y z)

/-- The results of applying the asynchronous SGS preconditioner with `s` sweeps to `r`, at the level of the accesses of the threads: whatever was in the output and in the work vector, in whatever
order the vectors are initialized. `G q q'` says which jobs wait for which other jobs. -/
def SgsExecResult [Zero M] [Add M] [Sub M] [SMul R M] (A : SR R) (dinv : List R) (G : Nat → Nat → Prop) (s : Nat) (init : ApplyInit) (r z : List M) : Prop :=
  ∃ (ord : Nat → List Nat) (z₀ y₀ y₁ : List M), (∀ t, (ord t).Perm (List.range A.nbrows)) ∧ z₀.length = A.nbrows ∧ y₀.length = A.nbrows ∧
    AsyncSgsExec A dinv G s init ord r z₀ y₀ z y₁

open scoped Matrix.Module in
/-- The same for the block preconditioner, coefficient by coefficient. -/
def SgsTornResult {w : Nat} [Field K] (A : SR (Matrix (Fin w) (Fin w) K)) (dinv : List (Matrix (Fin w) (Fin w) K)) (G : Nat → Nat → Prop) (s : Nat) (init : ApplyInit)
    (r z : List (Fin w → K)) : Prop :=
  ∃ (ord : Nat → List Nat) (z₀ y₀ y₁ : List (Fin w → K)), (∀ t, (ord t).Perm (List.range A.nbrows)) ∧ z₀.length = A.nbrows ∧ y₀.length = A.nbrows ∧
    TornSgsExec (Equiv.refl (Fin w → K)) A dinv G s init ord r z₀ y₀ z y₁

theorem get0_zipWith_add [AddCommGroup M] {y z : List M} {n i : Nat} (hy : y.length = n) (hz : z.length = n) (hi : i < n) : (List.zipWith (· + ·) y z)⟦i⟧ = y⟦i⟧ + z⟦i⟧ := by
  rw [get0_eq_getElem (by simp [hy, hz, hi]), get0_eq_getElem (by omega), get0_eq_getElem (by omega), List.getElem_zipWith]

section generic
variable [Field K] [LinearOrder K] [IsStrictOrderedRing K] [Ring R] [AddCommGroup M] [Module R M] {A : SR R} {dinv : List R} {b : List M} {s : Nat → M} {Q : K → Nat → M → Prop} {rho E F : K}

/-- If applying the preconditioner to `A e` gives `e` up to the part `θ` of the size of `e`, the iteration multiplies the error by `θ` in every step. -/
theorem CorrIteration.converges {Ap : List M → List M → Prop} {θ : K} (hθ : 0 ≤ θ)
    (hap : ∀ r z : List M, r.length = A.nbrows → Ap r z → ∀ (e : Nat → M) (E : K), 0 ≤ E → Solves A r e → (∀ i < A.nbrows, Q E i (0 - e i)) →
      z.length = A.nbrows ∧ ∀ i < A.nbrows, Q (θ * E) i (z⟦i⟧ - e i))
    (hs : Solves A b s) {x y : List M} (hx : x.length = A.nbrows) {c : K} (hc : 0 ≤ c) (h0 : ∀ i < A.nbrows, Q c i (x⟦i⟧ - s i)) {t : Nat} (h : CorrIteration A Ap b t x y) :
    y.length = A.nbrows ∧ ∀ i < A.nbrows, Q (θ ^ t * c) i (y⟦i⟧ - s i) := by
  induction h with
  | zero x => simpa using ⟨hx, h0⟩
  | @succ t x y r z _ hr hres hz ih =>
    obtain ⟨hy, he⟩ := ih hx h0
    have hsol : Solves A r (fun i => s i - y⟦i⟧) := fun i hi => by
      simp only [smul_sub, sum_sub_distrib]
      rw [hs i hi, hres i hi]
    obtain ⟨hzl, hzb⟩ := hap r z hr hz _ (θ ^ t * c) (mul_nonneg (pow_nonneg hθ t) hc) hsol fun i hi => by
      rw [show 0 - (s i - y⟦i⟧) = y⟦i⟧ - s i by abel]
      exact he i hi
    refine ⟨by simp [hy, hzl], fun i hi => ?_⟩
    rw [get0_zipWith_add hy hzl hi, pow_succ, show y⟦i⟧ + z⟦i⟧ - s i = z⟦i⟧ - (s i - y⟦i⟧) by abel, mul_comm (θ ^ t), mul_assoc]
    exact hzb i hi

/-! ### One application -/

omit [Field K] [LinearOrder K] [IsStrictOrderedRing K] in
/-- The update of a row in the backward sweep is a step of the relaxation of the row, with the results of the forward sweeps below the diagonal. -/
theorem bgs_relaxVal (hA : A.Full) (hS : A.Sorted) (hD : A.HasDiag) {y : Nat → M} (hy : ∀ i < A.nbrows, y i = dinv⟦i⟧ • (b⟦i⟧ - lowSum A A.vals i y)) {i : Nat} (hi : i < A.nbrows)
    (x : Nat → M) : y i - dinv⟦i⟧ • upSum A A.vals i x = relaxVal A dinv b (fun j => if j < i then y j else x j) i := by
  unfold relaxVal
  rw [← off_sum hA hS hD hi, hy i hi, ← smul_sub, sub_sub, lowSum_congr hS hD hi (g := fun j => if j < i then y j else x j) (h := y) fun j _ h => if_pos h.2,
    upSum_congr hA hS hD hi (g := fun j => if j < i then y j else x j) (h := x) fun j _ h => if_neg (by have := h.2; omega)]

/-- The forward sweeps. -/
theorem RowContracts.fgs (h : RowContracts A dinv b s Q rho) (hA : A.Full) (hS : A.Sorted) (hD : A.HasDiag) (hE : 0 ≤ E) (h0 : ∀ i < A.nbrows, Q E i (0 - s i)) {y : Nat → M}
    (hy : ∀ i < A.nbrows, y i = dinv⟦i⟧ • (b⟦i⟧ - lowSum A A.vals i y)) : ∀ i < A.nbrows, Q (rho * E) i (y i - s i) := by
  intro i
  induction i using Nat.strong_induction_on with
  | _ i ih =>
    intro hi
    have e := bgs_relaxVal hA hS hD hy hi (fun _ => 0)
    rw [show upSum A A.vals i (fun _ => (0 : M)) = 0 from Finset.sum_eq_zero fun _ _ => smul_zero _, smul_zero, sub_zero] at e
    rw [e]
    refine h.row E hE i hi _ fun j hj => ?_
    by_cases hji : j < i
    · rw [if_pos hji]; exact h.mono _ _ (mul_le_of_le_one_left hE h.le_one) j hj _ (ih j hji hj)
    · rw [if_neg hji]; exact h0 j hj

/-- One update of a row in a backward sweep. -/
theorem RowContracts.bgs (h : RowContracts A dinv b s Q rho) (hA : A.Full) (hS : A.Sorted) (hD : A.HasDiag) (hE : 0 ≤ E) {y : Nat → M}
    (hy : ∀ i < A.nbrows, y i = dinv⟦i⟧ • (b⟦i⟧ - lowSum A A.vals i y)) (hye : ∀ i < A.nbrows, Q (rho * E) i (y i - s i)) (hF : rho * E ≤ F) {x : Nat → M}
    (hx : ∀ j < A.nbrows, Q F j (x j - s j)) {i : Nat} (hi : i < A.nbrows) : Q (rho * F) i (y i - dinv⟦i⟧ • upSum A A.vals i x - s i) := by
  rw [bgs_relaxVal hA hS hD hy hi]
  refine h.row F ((mul_nonneg h.nonneg hE).trans hF) i hi _ fun j hj => ?_
  by_cases hji : j < i
  · rw [if_pos hji]; exact h.mono _ _ hF j hj _ (hye j hj)
  · rw [if_neg hji]; exact hx j hj

/-- Every asynchronous backward sweep that starts within `F` ends within `rho * F`, if `F` is not below what the forward sweeps reach: even if the threads do not wait for anything. -/
theorem RowContracts.bgs_free (h : RowContracts A dinv b s Q rho) (hA : A.Full) (hS : A.Sorted) (hD : A.HasDiag) (hd : dinv.length = A.nbrows) (hE : 0 ≤ E) {y : List M}
    (hyl : y.length = A.nbrows) (hy : ∀ i < A.nbrows, y⟦i⟧ = dinv⟦i⟧ • (b⟦i⟧ - lowSum A A.vals i (get0 y))) (hye : ∀ i < A.nbrows, Q (rho * E) i (y⟦i⟧ - s i)) (hF : rho * E ≤ F)
    {mix : Set M → Set M} (hmix : ∀ j < A.nbrows, ∀ S : Set M, (∀ u ∈ S, Q F j (u - s j)) → ∀ u ∈ mix S, Q F j (u - s j)) {x x' : List M} (hx : x.length = A.nbrows)
    (h0 : ∀ i < A.nbrows, Q F i (x⟦i⟧ - s i)) {k : Nat} (hk : 1 ≤ k) (hr : AFree (bgsRow A dinv y) mix k x x') :
    x'.length = A.nbrows ∧ ∀ i < A.nbrows, Q (rho * F) i (x'⟦i⟧ - s i) := by
  obtain ⟨log, hl, hc, rfl⟩ := hr
  have hF0 := (mul_nonneg h.nonneg hE).trans hF
  have key := hl.contract (K := K) (Q := fun E j u => j < A.nbrows → Q E j (u - s j)) (E := F) (E' := rho * F)
    (fun j S hS w hw hj => hmix j hj S (fun u hu => hS u hu hj) w hw) (fun j u hu hj => h.mono _ _ (mul_le_of_le_one_left hF0 h.le_one) j hj _ (hu hj))
    (fun i hi view hv v hy' _ => by
      rw [hx] at hi hv hy'
      rw [(rowUpd_bgs hA hS hD hd hyl).yields hi hy']
      exact h.bgs hA hS hD hE hy hye hF (fun j hj => hv j hj hj) hi)
    (fun u hu _ hj => by rw [memOf_eq hu]; exact h0 _ hj)
  refine ⟨by rw [applyLog_length, hx], fun i hi => ?_⟩
  have hcov : Covers x.length log := fun j hj => by
    have := hc j hj
    have hm : j ∈ log.map Prod.fst := List.count_pos_iff.mp (by omega)
    obtain ⟨u, hu, rfl⟩ := List.mem_map.mp hm
    exact ⟨u.2, hu⟩
  exact key _ (mem_applyLog_covers hcov (memOf_get0 (x := applyLog x log) (i := i) (by simpa [hx] using hi))) hi

/-- `k` rounds of asynchronous backward sweeps. -/
theorem RowContracts.bgs_rounds (h : RowContracts A dinv b s Q rho) (hA : A.Full) (hS : A.Sorted) (hD : A.HasDiag) (hd : dinv.length = A.nbrows) (hE : 0 ≤ E) {y : List M}
    (hyl : y.length = A.nbrows) (hy : ∀ i < A.nbrows, y⟦i⟧ = dinv⟦i⟧ • (b⟦i⟧ - lowSum A A.vals i (get0 y))) (hye : ∀ i < A.nbrows, Q (rho * E) i (y⟦i⟧ - s i)) (hF : 0 ≤ F)
    {mix : Set M → Set M} (hmix : ∀ F, ∀ j < A.nbrows, ∀ S : Set M, (∀ u ∈ S, Q F j (u - s j)) → ∀ u ∈ mix S, Q F j (u - s j)) {x x' : List M} (hx : x.length = A.nbrows)
    (h0 : ∀ i < A.nbrows, Q F i (x⟦i⟧ - s i)) {k : Nat} (hr : ARun (bgsRow A dinv y) mix k x x') :
    x'.length = A.nbrows ∧ ∀ i < A.nbrows, Q (max (rho ^ k * F) (rho ^ 2 * E)) i (x'⟦i⟧ - s i) := by
  obtain ⟨log, last, hR, rfl⟩ := hr
  have key := hR.contract (Q := fun F j u => j < A.nbrows → Q (max F (rho ^ 2 * E)) j (u - s j)) h.nonneg h.le_one hF
    (fun F j S hS w hw hj => hmix _ j hj S (fun u hu => hS u hu hj) w hw) (fun F F' j u hle hu hj => h.mono _ _ (max_le_max_right _ hle) j hj _ (hu hj))
    (fun F hF i hi view hv v hy' _ => by
      rw [hx] at hi hv hy'
      rw [(rowUpd_bgs hA hS hD hd hyl).yields hi hy']
      have e1 : rho ^ 2 * E ≤ rho * E := by
        rw [pow_two, mul_assoc]; exact mul_le_of_le_one_left (mul_nonneg h.nonneg hE) h.le_one
      have := h.bgs hA hS hD hE hy hye (F := max F (rho * E)) (le_max_right _ _)
        (fun j hj => h.mono _ _ (max_le_max_left _ e1) j hj _ (hv j hj hj)) hi
      refine h.mono _ _ ?_ i hi _ this
      rw [mul_max_of_nonneg _ _ h.nonneg]
      exact max_le_max_left _ (le_of_eq (by ring)))
    (fun u hu hj => by rw [memOf_eq hu]; exact h.mono _ _ (le_max_left _ _) _ hj _ (h0 _ hj))
  refine ⟨by rw [applyLog_length, hx], fun i hi => ?_⟩
  exact key.2 _ (hR.mem_last (memOf_get0 (x := applyLog x log) (i := i) (by simpa [hx] using hi))) hi

omit [Field K] [LinearOrder K] [IsStrictOrderedRing K] [Ring R] [Module R M] in
theorem sgsInitZ_val {n : Nat} {init : ApplyInit} (hi : init ≠ .none) {ord : List Nat} (hord : ord.Perm (List.range n)) {y z : List M} (hy : y.length = n) (hz : z.length = n) :
    Ok (sgsInitZ n init ord y z) (fun z' => z'.length = n ∧ ∀ i < n, z'⟦i⟧ = if init = .jacobi then y⟦i⟧ else 0) := by
  cases init with
  | none => exact absurd rfl hi
  | zero => exact par_cells hord hz (fun _ => (0 : M)) fun i hi y' hy' => wr_eq (by omega)
  | jacobi =>
    refine par_cells hord hz (fun i => y⟦i⟧) fun i hi z' hz' => ?_
    rw [rd_eq (by omega), ok_bind, wr_eq (by omega)]

/-- How far the application can be from the solution `s` of `A s = r`, relative to the size of `s`, when the threads wait for nothing. -/
def sgsFactor (init : ApplyInit) (rho : K) : K := if init = .jacobi then rho ^ 2 else rho

/-- **C101** One application of the asynchronous SGS preconditioner to `A e`, with at least one sweep, whatever the threads wait for. -/
theorem RowContracts.sgs_exec (h : RowContracts A dinv b s Q rho) (hA : A.Full) (hS : A.Sorted) (hD : A.HasDiag) (hd : dinv.length = A.nbrows) (hb : b.length = A.nbrows) (hE : 0 ≤ E)
    (h0 : ∀ i < A.nbrows, Q E i (0 - s i)) {init : ApplyInit} (hi : init ≠ .none) {G : Nat → Nat → Prop} {k : Nat} (hk : 1 ≤ k) {z : List M} (hz : SgsExecResult A dinv G k init b z) :
    z.length = A.nbrows ∧ ∀ i < A.nbrows, Q (sgsFactor init rho * E) i (z⟦i⟧ - s i) := by
  obtain ⟨ord, z₀, y₀, y', hord, hz0, hy0, y₁, z₁, e1, e2, e3, h4⟩ := hz
  have hy1 := (applyInitY_ok init (hord 0) hy0).post _ e1
  obtain ⟨hyl, hy⟩ := ((rowUpd_fgs hA hS hD hd hb).fwd (fun i j h => h.2) hk hy1).post _ e2
  have hye := h.fgs hA hS hD hE h0 hy
  obtain ⟨hzl, hzv⟩ := (sgsInitZ_val hi (hord 1) hyl hz0).post _ e3
  have hfree := async_exec_nowait ⟨evals_bgsP A dinv y', fun i hi => once_bgsP hS hD dinv y' hi⟩ hzl h4
  have hmix : ∀ F : K, ∀ j < A.nbrows, ∀ S : Set M, (∀ u ∈ S, Q F j (u - s j)) → ∀ u ∈ mixWhole S, Q F j (u - s j) := fun F j _ S hS u hu => hS u hu
  unfold sgsFactor
  split
  · rename_i hj
    rw [pow_two, mul_assoc]
    exact h.bgs_free hA hS hD hd hE hyl hy hye le_rfl (hmix _) hzl (fun i hi => by rw [hzv i hi, if_pos hj]; exact hye i hi) hk hfree
  · rename_i hj
    exact h.bgs_free hA hS hD hd hE hyl hy hye (mul_le_of_le_one_left hE h.le_one) (hmix _) hzl (fun i hi => by rw [hzv i hi, if_neg hj]; exact h0 i hi) hk hfree

/-- **C101** The same with at least two rounds of sweeps, if the threads are at most `L - 1` sweeps apart: as good as one symmetric sweep, from both initial guesses. -/
theorem RowContracts.sgs_exec_lag (h : RowContracts A dinv b s Q rho) (hA : A.Full) (hS : A.Sorted) (hD : A.HasDiag) (hd : dinv.length = A.nbrows) (hb : b.length = A.nbrows) (hE : 0 ≤ E)
    (h0 : ∀ i < A.nbrows, Q E i (0 - s i)) {init : ApplyInit} (hi : init ≠ .none) {L k : Nat} (hL : 1 ≤ L) (hk : 2 * (2 * L - 1) ≤ k) {z : List M}
    (hz : SgsExecResult A dinv (Lag A.nbrows L) k init b z) : z.length = A.nbrows ∧ ∀ i < A.nbrows, Q (rho ^ 2 * E) i (z⟦i⟧ - s i) := by
  obtain ⟨ord, z₀, y₀, y', hord, hz0, hy0, y₁, z₁, e1, e2, e3, h4⟩ := hz
  have hy1 := (applyInitY_ok init (hord 0) hy0).post _ e1
  obtain ⟨hyl, hy⟩ := ((rowUpd_fgs hA hS hD hd hb).fwd (fun i j h => h.2) (by omega) hy1).post _ e2
  have hye := h.fgs hA hS hD hE h0 hy
  obtain ⟨hzl, hzv⟩ := (sgsInitZ_val hi (hord 1) hyl hz0).post _ e3
  have hrun := h4.rounds ⟨evals_bgsP A dinv y', fun i hi => once_bgsP hS hD dinv y' hi⟩ hzl hL (k := 2) (by decide) fun _ => hk
  have := h.bgs_rounds hA hS hD hd hE hyl hy hye hE (fun F j _ S hS u hu => hS u hu) hzl (fun i hi => by
    rw [hzv i hi]
    split
    · exact h.mono _ _ (mul_le_of_le_one_left hE h.le_one) i hi _ (hye i hi)
    · exact h0 i hi) hrun
  rwa [max_self] at this

end generic

/-! ### The iterations -/

section scalar
variable [Field K] [LinearOrder K] [IsStrictOrderedRing K] {A : SR K} {dinv b : List K} {d s : Nat → K} {rho c : K}

theorem sgsFactor_nonneg {init : ApplyInit} (h : 0 ≤ rho) : 0 ≤ sgsFactor init rho := by
  unfold sgsFactor
  split <;> positivity

/-- **C101** The iteration with the asynchronous SGS preconditioner converges for dominant matrices of every size, with every number of sweeps from one on and for every schedule, even if threads
never wait: every step multiplies the largest weighted error by the ratio of dominance, and by its square if the backward sweeps start from the result of the forward sweeps. -/
theorem async_sgs_iteration_converges (hA : A.Full) (hS : A.Sorted) (hD : A.HasDiag) (hI : DiagInv A dinv) (hdom : WDominant A.nbrows A.entry d rho) (h0 : 0 ≤ rho) (h1 : rho ≤ 1)
    {init : ApplyInit} (hi : init ≠ .none) {G : Nat → Nat → Prop} {k : Nat} (hk : 1 ≤ k) (hs : ∀ i < A.nbrows, ∑ j ∈ range A.nbrows, A.entry i j * s j = b⟦i⟧)
    {x y : List K} (hx : x.length = A.nbrows) (hc : 0 ≤ c) (hx0 : ∀ i < A.nbrows, |x⟦i⟧ - s i| ≤ c * d i) {t : Nat}
    (h : CorrIteration A (SgsExecResult A dinv G k init) b t x y) : y.length = A.nbrows ∧ ∀ i < A.nbrows, |y⟦i⟧ - s i| ≤ (sgsFactor init rho) ^ t * c * d i :=
  h.converges (Q := fun E i v => |v| ≤ E * d i) (sgsFactor_nonneg h0)
    (fun _ _ hr hz _ _ hE hsol he => (hdom.rowContracts hI h0 h1 hsol).sgs_exec hA hS hD hI.len hr hE he hi hk hz) hs hx hc hx0

/-- **C101** With at least `2 (2 L - 1)` sweeps in which the threads are at most `L - 1` sweeps apart, every step multiplies the error by the square of the ratio, from both initial guesses. -/
theorem async_sgs_iteration_converges_lag (hA : A.Full) (hS : A.Sorted) (hD : A.HasDiag) (hI : DiagInv A dinv) (hdom : WDominant A.nbrows A.entry d rho) (h0 : 0 ≤ rho) (h1 : rho ≤ 1)
    {init : ApplyInit} (hi : init ≠ .none) {L k : Nat} (hL : 1 ≤ L) (hk : 2 * (2 * L - 1) ≤ k) (hs : ∀ i < A.nbrows, ∑ j ∈ range A.nbrows, A.entry i j * s j = b⟦i⟧)
    {x y : List K} (hx : x.length = A.nbrows) (hc : 0 ≤ c) (hx0 : ∀ i < A.nbrows, |x⟦i⟧ - s i| ≤ c * d i) {t : Nat}
    (h : CorrIteration A (SgsExecResult A dinv (Lag A.nbrows L) k init) b t x y) : y.length = A.nbrows ∧ ∀ i < A.nbrows, |y⟦i⟧ - s i| ≤ (rho ^ 2) ^ t * c * d i :=
  h.converges (Q := fun E i v => |v| ≤ E * d i) (by positivity)
    (fun _ _ hr hz _ _ hE hsol he => (hdom.rowContracts hI h0 h1 hsol).sgs_exec_lag hA hS hD hI.len hr hE he hi hL hk hz) hs hx hc hx0

end scalar

section block
open scoped Matrix.Module

variable [Field K] [LinearOrder K] [IsStrictOrderedRing K] {w : Nat} {A : SR (Matrix (Fin w) (Fin w) K)} {dinv : List (Matrix (Fin w) (Fin w) K)} {b : List (Fin w → K)}
  {d s : Nat → Fin w → K} {rho c : K}

/-- **C101** for blocks whose segments are loaded and stored as a whole. -/
theorem async_block_sgs_iteration_converges (hA : A.Full) (hS : A.Sorted) (hD : A.HasDiag) (hI : DiagInv A dinv) (hdom : WBlockDominant A.nbrows A.entry d rho) (h0 : 0 ≤ rho) (h1 : rho ≤ 1)
    {init : ApplyInit} (hi : init ≠ .none) {G : Nat → Nat → Prop} {k : Nat} (hk : 1 ≤ k) (hs : Solves A b s)
    {x y : List (Fin w → K)} (hx : x.length = A.nbrows) (hc : 0 ≤ c) (hx0 : ∀ i < A.nbrows, ∀ a, |x⟦i⟧ a - s i a| ≤ c * d i a) {t : Nat}
    (h : CorrIteration A (SgsExecResult A dinv G k init) b t x y) : y.length = A.nbrows ∧ ∀ i < A.nbrows, ∀ a, |y⟦i⟧ a - s i a| ≤ (sgsFactor init rho) ^ t * c * d i a :=
  h.converges (Q := fun E i (v : Fin w → K) => ∀ a, |v a| ≤ E * d i a) (sgsFactor_nonneg h0)
    (fun _ _ hr hz _ _ hE hsol he => (hdom.rowContracts hI h0 h1 hsol).sgs_exec hA hS hD hI.len hr hE he hi hk hz) hs hx hc hx0

omit [IsStrictOrderedRing K] in
/-- Dominance however the products are added up implies dominance by blocks. -/
theorem AbsBlockDominant.wblock [IsStrictOrderedRing K] (hI : DiagInv A dinv) (hpos : ∀ i < A.nbrows, ∀ a, 0 < d i a) (h : AbsBlockDominant A dinv d rho) : WBlockDominant A.nbrows A.entry d rho where
  pos := hpos
  diag i hi := ⟨⟨A.entry i i, dinv⟦i⟧, hI.right i hi, hI.left i hi⟩, rfl⟩
  dom i hi G hG a := by
    have hGe : G = dinv⟦i⟧ := by rw [← mul_one G, ← hI.right i hi, ← mul_assoc, hG, one_mul]
    rw [hGe]
    refine le_trans ?_ (h i hi a)
    calc ∑ j ∈ (range A.nbrows).erase i, ∑ c, |(dinv⟦i⟧ * A.entry i j) a c| * d j c
        ≤ ∑ j ∈ (range A.nbrows).erase i, ∑ c, ∑ e, |dinv⟦i⟧ a e| * (|A.entry i j e c| * d j c) := by
          refine sum_le_sum fun j hj => sum_le_sum fun c _ => ?_
          rw [Matrix.mul_apply]
          refine (mul_le_mul_of_nonneg_right (abs_sum_le_sum_abs _ _) (hpos j (mem_range.mp (mem_of_mem_erase hj)) c).le).trans_eq ?_
          rw [sum_mul]
          exact sum_congr rfl fun e _ => by rw [abs_mul, mul_assoc]
      _ = ∑ e, |dinv⟦i⟧ a e| * ∑ j ∈ (range A.nbrows).erase i, ∑ c, |A.entry i j e c| * d j c := by
          simp only [mul_sum]
          conv_rhs => rw [sum_comm]
          exact sum_congr rfl fun j _ => sum_comm

/-- One update of a row in a backward sweep, coefficient by coefficient. -/
theorem all_bgsT (hA : A.Full) (hS : A.Sorted) (hD : A.HasDiag) (hI : DiagInv A dinv) (hdom : AbsBlockDominant A dinv d rho) {E : K} (hE : 0 ≤ E) {y : List (Fin w → K)}
    (hyl : y.length = A.nbrows) (hy : ∀ i < A.nbrows, y⟦i⟧ = dinv⟦i⟧ • (b⟦i⟧ - lowSum A A.vals i (get0 y))) (hye : ∀ i < A.nbrows, ∀ a, |y⟦i⟧ a - s i a| ≤ E * d i a)
    (hsol : Solves A b s) {S : Nat → Set K} {J : Prop} (hv : ∀ j < A.nbrows, ∀ c : Fin w, ∀ u ∈ S (j * w + c), |u - s j c| ≤ E * d j c) {i : Nat} (hi : i < A.nbrows) :
    (bgsT (Equiv.refl (Fin w → K)) A dinv y i).All S J fun z => ∀ a, |z a - s i a| ≤ rho * E * d i a := by
  have h1 := hA.ptr_len
  have h2 := hD.diag_len
  have h3 := hI.len
  have hlo := hD.diag_ge i hi
  have hhi := hD.diag_lt i hi
  have hnz := hA.ptr_le (show i + 1 ≤ A.nbrows by omega)
  have h4 := hA.ind_len
  have h5 := hA.val_len
  unfold bgsT
  rw [rd_eq (by omega), rd_eq (by omega), rd_eq (by omega), rd_eq (by omega)]
  refine (all_rowSumT (n := A.nbrows) hv (show A.diagind⟦i⟧ + 1 ≤ A.browptr⟦i + 1⟧ by omega) (by omega) (by omega) (fun k g1 g2 => hA.col_lt k (by omega)) (s := 0) (t := 0) (F := 0) (by simp)).do fun s' hs' => ?_
  show ∀ a, |(y⟦i⟧ - dinv⟦i⟧ • s') a - s i a| ≤ rho * E * d i a
  intro a
  have hfix := (solves_iff hI).mp hsol i hi
  have hlow : ∀ e, |(lowSum A A.vals i s - lowSum A A.vals i (get0 y)) e| ≤ ∑ k ∈ Ico A.browptr⟦i⟧ A.diagind⟦i⟧, ∑ c, |A.vals⟦k⟧ e c| * (E * d A.bcolind⟦k⟧ c) := fun e => by
    unfold lowSum
    rw [← sum_sub_distrib, Finset.sum_apply]
    refine (abs_sum_le_sum_abs _ _).trans (sum_le_sum fun k hk => ?_)
    have hc := hA.col_lt k (by have := mem_Ico.mp hk; omega)
    have e2 : (A.vals⟦k⟧ • s A.bcolind⟦k⟧ - A.vals⟦k⟧ • y⟦A.bcolind⟦k⟧⟧) e = ∑ c, A.vals⟦k⟧ e c * (s A.bcolind⟦k⟧ c - y⟦A.bcolind⟦k⟧⟧ c) := by
      rw [← smul_sub]; rfl
    rw [e2]
    refine (abs_sum_le_sum_abs _ _).trans (sum_le_sum fun c _ => ?_)
    rw [abs_mul, abs_sub_comm]
    exact mul_le_mul_of_nonneg_left (hye _ hc c) (abs_nonneg _)
  have hup : ∀ e, |(upSum A A.vals i s - s') e| ≤ ∑ k ∈ Ico (A.diagind⟦i⟧ + 1) A.browptr⟦i + 1⟧, ∑ c, |A.vals⟦k⟧ e c| * (E * d A.bcolind⟦k⟧ c) := fun e => by
    have := hs' e
    simp only [Pi.zero_apply, zero_add] at this
    unfold upSum
    rw [Pi.sub_apply, Finset.sum_apply, abs_sub_comm]
    exact this
  have hsum : ∀ e, |(lowSum A A.vals i s - lowSum A A.vals i (get0 y) + (upSum A A.vals i s - s')) e| ≤ ∑ j ∈ (range A.nbrows).erase i, ∑ c, |A.entry i j e c| * (E * d j c) := fun e => by
    rw [← sum_stored hA hS hD hi (fun (V : Matrix (Fin w) (Fin w) K) j => ∑ c, |V e c| * (E * d j c)) (fun j => by simp)]
    exact (abs_add_le _ _).trans (add_le_add (hlow e) (hup e))
  have e1 : y⟦i⟧ - dinv⟦i⟧ • s' - s i = dinv⟦i⟧ • (lowSum A A.vals i s - lowSum A A.vals i (get0 y) + (upSum A A.vals i s - s')) := by
    rw [hfix]
    unfold relaxVal
    rw [← off_sum hA hS hD hi, hy i hi, ← smul_sub, ← smul_sub]
    congr 1
    abel
  rw [← Pi.sub_apply, e1]
  generalize lowSum A A.vals i s - lowSum A A.vals i (get0 y) + (upSum A A.vals i s - s') = g at hsum
  have e2 : (dinv⟦i⟧ • g) a = ∑ e, dinv⟦i⟧ a e * g e := rfl
  rw [e2]
  calc |∑ e, dinv⟦i⟧ a e * g e|
      ≤ ∑ e, |dinv⟦i⟧ a e| * ∑ j ∈ (range A.nbrows).erase i, ∑ c, |A.entry i j e c| * (E * d j c) := by
        refine (abs_sum_le_sum_abs _ _).trans (sum_le_sum fun e _ => ?_)
        rw [abs_mul]
        exact mul_le_mul_of_nonneg_left (hsum e) (abs_nonneg _)
    _ = E * ∑ e, |dinv⟦i⟧ a e| * ∑ j ∈ (range A.nbrows).erase i, ∑ c, |A.entry i j e c| * d j c := by
        rw [mul_sum]
        refine sum_congr rfl fun e _ => ?_
        rw [mul_left_comm, mul_sum (a := E)]
        refine congrArg _ (sum_congr rfl fun j _ => ?_)
        rw [mul_sum]
        exact sum_congr rfl fun c _ => by ring
    _ ≤ E * (rho * d i a) := mul_le_mul_of_nonneg_left (hdom i hi a) hE
    _ = rho * E * d i a := by ring

/-- **C101** One application of the asynchronous block SGS preconditioner to `A s`, although threads see segments of which only some coefficients have been stored. -/
theorem torn_sgs_contracts (hA : A.Full) (hS : A.Sorted) (hD : A.HasDiag) (hI : DiagInv A dinv) (hdom : AbsBlockDominant A dinv d rho) (hpos : ∀ i a, 0 < d i a) (h0 : 0 ≤ rho)
    (h1 : rho ≤ 1) {init : ApplyInit} (hi : init ≠ .none) {L k : Nat} (hL : 1 ≤ L) (hk : L ≤ k) (hb : b.length = A.nbrows) {E : K} (hE : 0 ≤ E) (hsol : Solves A b s)
    (hs0 : ∀ i < A.nbrows, ∀ a, |s i a| ≤ E * d i a) {z : List (Fin w → K)} (hz : SgsTornResult A dinv (Lag A.nbrows L) k init b z) :
    z.length = A.nbrows ∧ ∀ i < A.nbrows, ∀ a, |z⟦i⟧ a - s i a| ≤ sgsFactor init rho * E * d i a := by
  obtain ⟨ord, z₀, y₀, y', hord, hz0, hy0, y₁, z₁, e1, e2, e3, hzl, h4⟩ := hz
  have hrc := (hdom.wblock hI fun i _ a => hpos i a).rowContracts hI h0 h1 hsol
  have hs0' : ∀ i < A.nbrows, ∀ a, |(0 - s i) a| ≤ E * d i a := fun i hi a => by
    rw [zero_sub, Pi.neg_apply, abs_neg]; exact hs0 i hi a
  have hy1 := (applyInitY_ok init (hord 0) hy0).post _ e1
  obtain ⟨hyl, hy⟩ := ((rowUpd_fgs hA hS hD hI.len hb).fwd (fun i j h => h.2) (by omega) hy1).post _ e2
  have hye := hrc.fgs hA hS hD hE hs0' hy
  obtain ⟨hz1, hzv⟩ := (sgsInitZ_val hi (hord 1) hyl hz0).post _ e3
  refine ⟨hzl, ?_⟩
  -- from within `F` to within `rho * F`
  have main : ∀ F, 0 ≤ F → rho * E ≤ F → (∀ i < A.nbrows, ∀ a, |z₁⟦i⟧ a - s i a| ≤ F * d i a) → ∀ i < A.nbrows, ∀ a, |z⟦i⟧ a - s i a| ≤ rho * F * d i a := by
    intro F hF0 hF hzb
    have hm : (flat (Equiv.refl (Fin w → K)) z₁).length = A.nbrows * w := by rw [flat_length, hz1]
    have key := h4.rounds (Q := fun r c => {u | ∀ a : Fin w, c = c / w * w + a → |u - s (c / w) a| ≤ (if r = 0 then F else rho * F) * d (c / w) a}) hL le_rfl (by omega) hm ?_ ?_ ?_
    · intro i hi a
      have := key.2 (i * w + a) (tcell_lt hi a)
      simp only [tcell_div, Set.mem_ofPred_eq] at this
      have := this a rfl
      rw [if_neg one_ne_zero] at this
      rw [flat_get _ _ (by omega)] at this
      exact this
    · intro r r' c _ hrr u hu a hc
      refine (hu a hc).trans (mul_le_mul_of_nonneg_right ?_ (hpos _ _).le)
      have := mul_le_of_le_one_left hF0 h1
      split <;> split <;> first | omega | exact le_rfl
    · intro c hc a hca
      rw [hca, tcell_div, flat_get _ _ (by rw [hz1]; exact div_cell_lt hc), if_pos rfl]
      exact hzb _ (div_cell_lt hc) a
    · intro r i hi
      have hrF : (if r = 0 then F else rho * F) ≤ F := by
        split
        · exact le_rfl
        · exact mul_le_of_le_one_left hF0 h1
      refine (all_bgsT hA hS hD hI hdom hF0 hyl hy (fun i hi a => (hye i hi a).trans (mul_le_mul_of_nonneg_right hF (hpos i a).le)) hsol ?_ hi).imp fun v hv a => ?_
      · intro j hj c u hu
        simp only [tcell_div, Set.mem_ofPred_eq] at hu
        exact (hu c rfl).trans (mul_le_mul_of_nonneg_right hrF (hpos j c).le)
      · simp only [tcell_div, Set.mem_ofPred_eq]
        intro a' haa
        rw [← tcell_inj haa, if_neg (by omega)]
        exact hv a
  unfold sgsFactor
  split
  · rename_i hj
    rw [pow_two, mul_assoc rho rho]
    exact main _ (mul_nonneg h0 hE) le_rfl fun i hi a => by rw [hzv i hi, if_pos hj]; exact hye i hi a
  · rename_i hj
    exact main _ hE (mul_le_of_le_one_left hE h1) fun i hi a => by rw [hzv i hi, if_neg hj]; exact hs0' i hi a

/-- **C101** for blocks, coefficient by coefficient: `L` sweeps are enough if the threads are at most `L - 1` sweeps apart. -/
theorem torn_sgs_iteration_converges (hA : A.Full) (hS : A.Sorted) (hD : A.HasDiag) (hI : DiagInv A dinv) (hdom : AbsBlockDominant A dinv d rho) (hpos : ∀ i a, 0 < d i a) (h0 : 0 ≤ rho)
    (h1 : rho ≤ 1) {init : ApplyInit} (hi : init ≠ .none) {L k : Nat} (hL : 1 ≤ L) (hk : L ≤ k) (hs : Solves A b s)
    {x y : List (Fin w → K)} (hx : x.length = A.nbrows) (hc : 0 ≤ c) (hx0 : ∀ i < A.nbrows, ∀ a, |x⟦i⟧ a - s i a| ≤ c * d i a) {t : Nat}
    (h : CorrIteration A (SgsTornResult A dinv (Lag A.nbrows L) k init) b t x y) : y.length = A.nbrows ∧ ∀ i < A.nbrows, ∀ a, |y⟦i⟧ a - s i a| ≤ (sgsFactor init rho) ^ t * c * d i a :=
  h.converges (Q := fun E i (v : Fin w → K) => ∀ a, |v a| ≤ E * d i a) (sgsFactor_nonneg h0)
    (fun _ _ hr hz _ _ hE hsol he => torn_sgs_contracts hA hS hD hI hdom hpos h0 h1 hi hL hk hr hE hsol (fun i hi a => by simpa using he i hi a) hz) hs hx hc hx0

end block

/-! ### Non-vacuity -/

/-- Executions of the application exist, for every number of sweeps and whatever is waited for. -/
theorem exists_sgsExecResult [Ring R] [AddCommGroup M] [Module R M] {A : SR R} {dinv : List R} (hA : A.Full) (hS : A.Sorted) (hD : A.HasDiag) (hd : dinv.length = A.nbrows) {G : Nat → Nat → Prop}
    (hG : ∀ q q', G q q' → q' < q) {k : Nat} (hk : 1 ≤ k) (init : ApplyInit) {r : List M} (hr : r.length = A.nbrows) : ∃ z, z.length = A.nbrows ∧ SgsExecResult A dinv G k init r z := by
  have hord : ∀ t : Nat, ((fun _ => List.range A.nbrows) t).Perm (List.range A.nbrows) := fun _ => .refl _
  have hl : (List.replicate A.nbrows (0 : M)).length = A.nbrows := List.length_replicate
  obtain ⟨y₁, e1, hy1⟩ := applyInitY_ok init (hord 0) hl
  obtain ⟨y', e2, hy', -⟩ := (rowUpd_fgs hA hS hD hd hr).fwd (fun i j h => h.2) hk hy1
  obtain ⟨z₁, e3, hz1⟩ := sgsInitZ_ok init (hord 1) hy' hl
  obtain ⟨z, h4⟩ := (rowUpd_bgs hA hS hD hd hy').exec_exists ⟨evals_bgsP A dinv y', fun i hi => once_bgsP hS hD dinv y' hi⟩ hz1 hG k
  refine ⟨z, ?_, _, _, _, y', hord, hl, hl, y₁, z₁, e1, e2, e3, h4⟩
  obtain ⟨_, log, _, -, -, rfl⟩ := h4
  rw [applyLog_length, hz1]

/-- The iteration never gets stuck. -/
theorem exists_corrIteration [Ring R] [AddCommGroup M] [Module R M] {A : SR R} {Ap : List M → List M → Prop} (hap : ∀ r : List M, r.length = A.nbrows → ∃ z, z.length = A.nbrows ∧ Ap r z)
    (b : List M) {x : List M} (hx : x.length = A.nbrows) (t : Nat) : ∃ y, y.length = A.nbrows ∧ CorrIteration A Ap b t x y := by
  induction t with
  | zero => exact ⟨x, hx, .zero x⟩
  | succ t ih =>
    obtain ⟨y, hy, h⟩ := ih
    let r := (List.range A.nbrows).map fun i => b⟦i⟧ - ∑ j ∈ range A.nbrows, A.entry i j • y⟦j⟧
    obtain ⟨z, hz, hp⟩ := hap r (by simp [r])
    exact ⟨_, by simp [hy, hz], h.succ (by simp) (fun i hi => get0_map_range _ hi) hp⟩

/-- Ten steps with one sweep each, in which no thread ever waits. -/
example : ∃ y, CorrIteration exTri (SgsExecResult exTri [1/2, 1/2, 1/2] NoWait 1 .jacobi) [1, 0, 1] 10 [0, 0, 0] y ∧
    ∀ i < 3, |y⟦i⟧ - 1| ≤ ((3/4) ^ 2) ^ 10 * (1/3) * ([3, 4, (3 : ℚ)])⟦i⟧ := by
  obtain ⟨y, -, h⟩ := exists_corrIteration (fun r hr => exists_sgsExecResult exTri_full exTri_sorted exTri_diag exTri_diagInv.len (G := NoWait) (fun _ _ h => h.elim) le_rfl .jacobi hr)
    [1, 0, (1 : ℚ)] (x := [0, 0, 0]) rfl 10
  exact ⟨y, h, (async_sgs_iteration_converges exTri_full exTri_sorted exTri_diag exTri_diagInv exTri_wdominant (by norm_num) (by norm_num) (by decide) le_rfl (s := fun _ => 1) (by decide +kernel) rfl
    (c := 1/3) (by norm_num) (by decide +kernel) h).2⟩

/-- Ten steps with six sweeps each, in which threads may be one sweep apart. -/
example : ∃ y, CorrIteration exTri (SgsExecResult exTri [1/2, 1/2, 1/2] (Lag 3 2) 6 .zero) [1, 0, 1] 10 [0, 0, 0] y ∧
    ∀ i < 3, |y⟦i⟧ - 1| ≤ ((3/4) ^ 2) ^ 10 * (1/3) * ([3, 4, (3 : ℚ)])⟦i⟧ := by
  obtain ⟨y, -, h⟩ := exists_corrIteration (fun r hr => exists_sgsExecResult exTri_full exTri_sorted exTri_diag exTri_diagInv.len (lag_lt (n := 3) (L := 2) (by decide)) (k := 6) (by decide) .zero hr)
    [1, 0, (1 : ℚ)] (x := [0, 0, 0]) rfl 10
  exact ⟨y, h, (async_sgs_iteration_converges_lag exTri_full exTri_sorted exTri_diag exTri_diagInv exTri_wdominant (by norm_num) (by norm_num) (by decide) (L := 2) (by decide) (by decide)
    (s := fun _ => 1) (by decide +kernel) rfl (c := 1/3) (by norm_num) (by decide +kernel) h).2⟩

open scoped Matrix.Module in
theorem exists_sgsTornResult {w : Nat} [Field K] [Inhabited K] {A : SR (Matrix (Fin w) (Fin w) K)} {dinv : List (Matrix (Fin w) (Fin w) K)} (hA : A.Full) (hS : A.Sorted) (hD : A.HasDiag)
    (hd : dinv.length = A.nbrows) {G : Nat → Nat → Prop} (hG : ∀ q q', G q q' → q' < q) {k : Nat} (hk : 1 ≤ k) (init : ApplyInit) {r : List (Fin w → K)} (hr : r.length = A.nbrows) :
    ∃ z, z.length = A.nbrows ∧ SgsTornResult A dinv G k init r z := by
  have hord : ∀ t : Nat, ((fun _ => List.range A.nbrows) t).Perm (List.range A.nbrows) := fun _ => .refl _
  have hl : (List.replicate A.nbrows (0 : Fin w → K)).length = A.nbrows := List.length_replicate
  obtain ⟨y₁, e1, hy1⟩ := applyInitY_ok init (hord 0) hl
  obtain ⟨y', e2, hy', -⟩ := (rowUpd_fgs hA hS hD hd hr).fwd (fun i j h => h.2) hk hy1
  obtain ⟨z₁, e3, hz1⟩ := sgsInitZ_ok init (hord 1) hy' hl
  obtain ⟨m, h4⟩ := torn_exec_exists (n := A.nbrows) (m₀ := flat (Equiv.refl (Fin w → K)) z₁) (by rw [flat_length, hz1]) (ends_bgsT (Equiv.refl (Fin w → K)) hA hD hd hy') hG k
  obtain ⟨z, hz, rfl⟩ := exists_flat (Equiv.refl (Fin w → K)) (n := A.nbrows) (m := m) (by rw [h4.length, flat_length, hz1])
  exact ⟨z, hz, _, _, _, y', hord, hl, hl, y₁, z₁, e1, e2, e3, hz, h4⟩

open scoped Matrix.Module in
/-- Ten steps with two sweeps each, in which threads may be one sweep apart and see half-stored segments. -/
example : ∃ y, CorrIteration exBD (SgsTornResult exBD exBDinv (Lag 3 2) 2 .zero) exBDb 10 [![0, 0], ![2, 0], ![0, 1]] y ∧
    ∀ i < 3, ∀ a, |y⟦i⟧ a - 1| ≤ (11/16) ^ 10 * 1 * 1 := by
  have hI : DiagInv exBD exBDinv := by constructor <;> decide +kernel
  obtain ⟨y, -, h⟩ := exists_corrIteration (fun r hr => exists_sgsTornResult exBD_full exBD_sorted exBD_diag hI.len (lag_lt (n := 3) (L := 2) (by decide)) (k := 2) (by decide) .zero hr)
    exBDb (x := [![0, 0], ![2, 0], ![0, 1]]) rfl 10
  have := torn_sgs_iteration_converges exBD_full exBD_sorted exBD_diag hI (d := fun _ _ => 1) (rho := 11/16) (by unfold AbsBlockDominant; decide +kernel) (fun _ _ => one_pos) (by norm_num) (by norm_num)
    (by decide) (L := 2) (by decide) (by decide) (s := fun _ _ => 1) (by unfold Solves; decide +kernel) rfl (c := 1) (by norm_num) (by decide +kernel) h
  exact ⟨y, h, this.2⟩

open scoped Matrix.Module in
/-- The same with segments loaded and stored as a whole, and no waiting. -/
example : ∃ y, CorrIteration exBD (SgsExecResult exBD exBDinv NoWait 1 .jacobi) exBDb 10 [![0, 0], ![2, 0], ![0, 1]] y ∧
    ∀ i < 3, ∀ a, |y⟦i⟧ a - 1| ≤ ((5/8) ^ 2) ^ 10 * 1 * 1 := by
  have hI : DiagInv exBD exBDinv := by constructor <;> decide +kernel
  obtain ⟨y, -, h⟩ := exists_corrIteration (fun r hr => exists_sgsExecResult exBD_full exBD_sorted exBD_diag hI.len (G := NoWait) (fun _ _ h => h.elim) le_rfl .jacobi hr)
    exBDb (x := [![0, 0], ![2, 0], ![0, 1]]) rfl 10
  exact ⟨y, h, (async_block_sgs_iteration_converges exBD_full exBD_sorted exBD_diag hI exBD_dominant (by norm_num) (by norm_num) (by decide) le_rfl (s := fun _ _ => 1) (by unfold Solves; decide +kernel) rfl
    (c := 1) (by norm_num) (by decide +kernel) h).2⟩

end Blasted
