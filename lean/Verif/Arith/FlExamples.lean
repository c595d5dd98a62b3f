import Verif.Arith.FlEx
import Verif.Arith.FlMatVecProps
import Verif.Arith.FlSolveProps
import Verif.Arith.FlResidual
import Verif.Arith.Examples

/-!
# The statements of C63, C64 and C65 in floating-point arithmetic with 53 bits
-/

namespace Blasted

/-- Numbers of type `double`, without bounds on the exponent. -/
abbrev Db := Fl 53

/-- The standard model holds with `u = 2⁻⁵³`. -/
def dbRounding : Rounding Db ℚ := Fl.rounding (by decide)

example : dbRounding.u = 1 / 9007199254740992 := by decide +kernel

/-- The number nearest to `q`. -/
def db (q : ℚ) : Db := Fl.rnd q

/-- The decimal 0.1 is represented as in IEEE arithmetic, and addition is not associative. -/
example : (db (1 / 10)).1 = 3602879701896397 / 36028797018963968 ∧ db (1 / 10) + db (1 / 5) + db (3 / 10) ≠ db (1 / 10) + (db (1 / 5) + db (3 / 10)) := by
  decide +kernel

/-- The star of `exStarD`, divided by ten. -/
def exStarF : SR Db :=
  { browptr := [0, 2, 4, 6, 10], bcolind := [0, 3, 1, 3, 2, 3, 0, 1, 2, 3],
    vals := [db (3 / 10), db (17 / 10), db (7 / 10), db (13 / 10), db (9 / 10), db (11 / 10), db (19 / 10), db (23 / 10), db (29 / 10), db (97 / 10)],
    diagind := [0, 2, 4, 9], browendptr := [2, 4, 6, 10], nbrows := 4, nnzb := 10, nbstored := 10 }

theorem exStarF_full : exStarF.Full := by constructor <;> decide +kernel
theorem exStarF_sorted : exStarF.Sorted := SR.sorted_of_check (by decide +kernel)
theorem exStarF_diag : exStarF.HasDiag := by constructor <;> decide +kernel
theorem exStarF_row : ∀ i < exStarF.nbrows, exStarF.browptr⟦i + 1⟧ - exStarF.browptr⟦i⟧ ≤ 4 := by decide

theorem exStarF_levels : LevelsOk exStarF [0, 3, 4] where
  pos := by decide
  zero := rfl
  last := rfl
  mono := exStar_levels.mono
  indep := exStar_levels.indep

/-- The right-hand side of the examples. -/
def exRhsF : List Db := [db (5 / 10), db (71 / 10), db (37 / 10), db (83 / 10)]

/-- Non-vacuity of `csr_apply_rounding`. The result is not the exact product. -/
example : ∃ y', csrApply [2, 0, 3, 1] exStarF exRhsF exRhsF = .ok y' ∧
    |dbRounding.val y'⟦3⟧ - ∑ j ∈ Finset.range 4, (dbRounding.mat exStarF).entry 3 j * dbRounding.val exRhsF⟦j⟧| ≤
      gam dbRounding.u 4 * ∑ p ∈ Finset.Ico 6 10, |dbRounding.val exStarF.vals⟦p⟧| * |dbRounding.val exRhsF⟦exStarF.bcolind⟦p⟧⟧| :=
  let ⟨y', h1, _, h3⟩ := csr_apply_rounding dbRounding exStarF exStarF_full (by decide : [2, 0, 3, 1].Perm (List.range 4)) exRhsF exRhsF rfl rfl
  ⟨y', h1, h3 3 (by decide)⟩

example : ((csrApply [2, 0, 3, 1] exStarF exRhsF exRhsF).map fun y => decide (y⟦3⟧.1 =
    exStarF.vals⟦6⟧.1 * exRhsF⟦0⟧.1 + exStarF.vals⟦7⟧.1 * exRhsF⟦1⟧.1 + exStarF.vals⟦8⟧.1 * exRhsF⟦2⟧.1 + exStarF.vals⟦9⟧.1 * exRhsF⟦3⟧.1)) = .ok false := by
  decide +kernel

/-- Non-vacuity of `csr_gemv3_rounding`. -/
example : ∃ z', csrGemv3 [2, 0, 3, 1] exStarF (db (1 / 10)) exRhsF (db (7 / 10)) none exRhsF = .ok z' :=
  let ⟨z', h1, _⟩ := csr_gemv3_rounding dbRounding exStarF exStarF_full (by decide : [2, 0, 3, 1].Perm (List.range 4)) (db (1 / 10)) (db (7 / 10)) exRhsF none exRhsF rfl
    (by simp) rfl
  ⟨z', h1⟩

/-- One block of two rows. -/
def exBlkF : SR Db :=
  { browptr := [0, 1], bcolind := [0], vals := [db (3 / 10), db (17 / 10), db (7 / 10), db (13 / 10)], diagind := [0], browendptr := [1], nbrows := 1, nnzb := 1, nbstored := 1 }

theorem exBlkF_full : exBlkF.Full (2 * 2) := by constructor <;> decide +kernel

/-- Non-vacuity of `bsr_apply_rounding` and `bsr_gemv3_rounding`. -/
example : ∃ y' z', bsrApply .colMajor 2 [0] exBlkF [db (1 / 10), db (1 / 5)] [0, 0] = .ok y' ∧
    bsrGemv3 .colMajor 2 [0] exBlkF (db (1 / 10)) [db (1 / 10), db (1 / 5)] (db (7 / 10)) none [db 1, db 1] = .ok z' :=
  let ⟨y', h1, _⟩ := bsr_apply_rounding dbRounding .colMajor 2 (by decide) exBlkF exBlkF_full (by decide : [0].Perm (List.range 1)) [db (1 / 10), db (1 / 5)] [0, 0] rfl rfl
  let ⟨z', h2, _⟩ := bsr_gemv3_rounding dbRounding .colMajor 2 (by decide) exBlkF exBlkF_full (by decide : [0].Perm (List.range 1)) (db (1 / 10)) (db (7 / 10))
    [db (1 / 10), db (1 / 5)] none [db 1, db 1] rfl (by simp) rfl
  ⟨y', z', h1, h2⟩

/-- The factors of the star as computed. -/
def exFacF : List Db :=
  match (do let pos ← computeILUPositions exStarF; iluSweeps exStarF (scalarScale? none) pos 1 (List.replicate 10 0) : C (List Db)) with
  | .ok l => l
  | .error _ => []

theorem exStarF_pos : ∃ pos, computeILUPositions exStarF = .ok pos ∧ iluSweeps exStarF (scalarScale? none) pos 1 (List.replicate 10 0) = .ok exFacF := by
  obtain ⟨pos, h, _⟩ := compute_ILU_positions_correct exStarF exStarF_full exStarF_sorted exStarF_diag
  have hok : (do let pos ← computeILUPositions exStarF; iluSweeps exStarF (scalarScale? none) pos 1 (List.replicate 10 0) : C (List Db)).isOk = true := by decide +kernel
  refine ⟨pos, h, ?_⟩
  unfold exFacF
  rw [h, ok_bind] at hok ⊢
  cases hs : iluSweeps exStarF (scalarScale? none) pos 1 (List.replicate 10 0) with
  | ok l => rfl
  | error e => rw [hs] at hok; cases hok

/-- Non-vacuity of `scalar_ilu_rounding`: the product of the computed factors differs from the matrix, and by no more than the bound. -/
example : |luProd exStarF (exFacF.map dbRounding.val) 3 3 - (dbRounding.mat exStarF).entry 3 3 * 1 * 1| ≤
      gam dbRounding.u (4 + 2) * ∑ q ∈ Finset.range 4, |lowerFactor exStarF (exFacF.map dbRounding.val) 3 q| * |upperFactor exStarF (exFacF.map dbRounding.val) q 3| :=
  let ⟨_, h1, h2⟩ := exStarF_pos
  scalar_ilu_rounding dbRounding exStarF_full exStarF_sorted exStarF_diag h1 (scale := none) (fun _ h => by cases h) (le_refl 1) rfl h2 exStarF_row
    (i := 3) (p := 9) (by decide) ⟨by decide, by decide⟩

theorem exFacF_piv : ∀ i < exStarF.nbrows, ∃ w, pinv exFacF⟦exStarF.diagind⟦i⟧⟧ = .ok w := by
  have h : ∀ i < 4, exFacF⟦exStarF.diagind⟦i⟧⟧.1 ≠ 0 := by decide +kernel
  intro i hi
  exact ⟨_, if_neg (h i hi)⟩

/-- Non-vacuity of `scalar_ilu_apply_rounding`: some results of executions. -/
example : ∃ x, ScalarIluResult exStarF exFacF none exRhsF x := by
  have h : (scalarIluApply exStarF exFacF none 1 .zero (fun _ => [3, 1, 2, 0]) exRhsF exRhsF exRhsF).isOk = true := by decide +kernel
  cases hs : scalarIluApply exStarF exFacF none 1 .zero (fun _ => [3, 1, 2, 0]) exRhsF exRhsF exRhsF with
  | ok r => exact ⟨r.1, .sequential (le_refl 1) (by decide) (fun _ => by decide) rfl rfl hs⟩
  | error e => rw [hs] at h; cases h

theorem exStarF_noFill : NoFill exStarF := exStar_noFill

/-- Non-vacuity of `scalar_ilu_residual`: factorization and application succeed, and the residual of the third equation is bounded. -/
example : ∃ x, ScalarIluResult exStarF exFacF none exRhsF x ∧
    |dbRounding.val exRhsF⟦2⟧ - ∑ j ∈ Finset.range 4, (dbRounding.mat exStarF).entry 2 j * dbRounding.val x⟦j⟧| ≤ gam dbRounding.u 2 * |dbRounding.val exRhsF⟦2⟧| +
      gam dbRounding.u 15 * ∑ j ∈ Finset.range 4, (∑ q ∈ Finset.range 4, |lowerFactor exStarF (exFacF.map dbRounding.val) 2 q| *
        |upperFactor exStarF (exFacF.map dbRounding.val) q j|) * |dbRounding.val x⟦j⟧| := by
  have h : (scalarIluApply exStarF exFacF none 1 .zero (fun _ => [3, 1, 2, 0]) exRhsF exRhsF exRhsF).isOk = true := by decide +kernel
  cases hs : scalarIluApply exStarF exFacF none 1 .zero (fun _ => [3, 1, 2, 0]) exRhsF exRhsF exRhsF with
  | error e => rw [hs] at h; cases h
  | ok r =>
    have hx : ScalarIluResult exStarF exFacF none exRhsF r.1 := .sequential (le_refl 1) (by decide) (fun _ => by decide) rfl rfl hs
    obtain ⟨pos, h1, h2⟩ := exStarF_pos
    have := scalar_ilu_residual dbRounding exStarF_full exStarF_sorted exStarF_diag exStarF_noFill h1 (scale := none) (fun _ h => by cases h) (fun i _ => one_ne_zero) (le_refl 1) rfl h2
      exFacF_piv rfl (by decide) exStarF_row hx (i := 2) (by decide)
    simp only [Option.map_none, scaleAt, abs_one, one_mul, div_one] at this
    exact ⟨r.1, hx, this⟩

/-- The inverses of the diagonal entries, as computed. -/
def exDinvF : List Db := exStarF.diagind.map fun p => db exStarF.vals⟦p⟧.1⁻¹

theorem exDinvF_inv : ∀ i < exStarF.nbrows, pinv exStarF.vals⟦exStarF.diagind⟦i⟧⟧ = .ok exDinvF⟦i⟧ := by
  have h : ∀ i < 4, exStarF.vals⟦exStarF.diagind⟦i⟧⟧.1 ≠ 0 := by decide +kernel
  intro i hi
  refine (if_neg (h i hi)).trans ?_
  have hi' : i < 4 := hi
  interval_cases i <;> rfl

/-- Non-vacuity of `sgs_apply_rounding`. -/
example : ∃ x, SgsResult exStarF exDinvF exRhsF x := by
  have h : (sgsApply exStarF exDinvF 1 .zero (fun _ => [3, 1, 2, 0]) exRhsF exRhsF exRhsF).isOk = true := by decide +kernel
  cases hs : sgsApply exStarF exDinvF 1 .zero (fun _ => [3, 1, 2, 0]) exRhsF exRhsF exRhsF with
  | ok r => exact ⟨r.1, .sequential (le_refl 1) (fun _ => by decide) rfl rfl hs⟩
  | error e => rw [hs] at h; cases h

/-- Non-vacuity of `jacobi_apply_rounding`: two roundings. -/
example : ∃ z', jacobiApply 4 exDinvF [3, 1, 2, 0] exRhsF exRhsF = .ok z' ∧
    |dbRounding.val z'⟦1⟧ - dbRounding.val exRhsF⟦1⟧ / (dbRounding.mat exStarF).entry 1 1| ≤ gam dbRounding.u 2 * |dbRounding.val exRhsF⟦1⟧ / (dbRounding.mat exStarF).entry 1 1| :=
  let ⟨z', h1, _, h3⟩ := jacobi_apply_rounding dbRounding exStarF_full exStarF_sorted exStarF_diag rfl exDinvF_inv (by decide : [3, 1, 2, 0].Perm (List.range 4)) rfl rfl
  ⟨z', h1, (h3 1 (by decide)).2⟩

/-- Sequential sweeps over all components are asynchronous sweeps. -/
theorem forList_asweeps {V : Type} {upd : Nat → (Nat → C V) → C V} {l : List Nat} {k : Nat} {x x' : List V} (hl : ∀ i < x.length, i ∈ l)
    (h : forList (List.range k) (fun _ x => forList l (fun i x => do let v ← upd i (rd x); wr x i v) x) x = .ok x') :
    ASweeps upd mixWhole k x x' ∧ x'.length = x.length := by
  induction k generalizing x' with
  | zero => cases h; exact ⟨.zero _, rfl⟩
  | succ k ih =>
    rw [List.range_succ, forList_append] at h
    cases hy : forList (List.range k) (fun _ x => forList l (fun i x => do let v ← upd i (rd x); wr x i v) x) x with
    | error e => rw [hy] at h; cases h
    | ok y =>
      rw [hy, ok_bind, forList_cons] at h
      obtain ⟨h1, h2⟩ := ih hy
      cases hz : forList l (fun i x => do let v ← upd i (rd x); wr x i v) y with
      | error e => rw [hz] at h; cases h
      | ok z =>
        rw [hz] at h; cases h
        obtain ⟨log, hlog, hf, e⟩ := forList_alog hz
        refine ⟨.succ h1 ⟨log, hlog, fun i hi => ?_, e⟩, by rw [e, applyLog_length, h2]⟩
        have : i ∈ log.map Prod.fst := by rw [hf]; exact hl i (by omega)
        obtain ⟨w, hw, rfl⟩ := List.mem_map.mp this
        exact ⟨w.2, hw⟩

/-- Non-vacuity of `async_scalar_ilu_rounding`: seven rounds, in which the entries are updated in reverse order. -/
example : ∃ pos log last, computeILUPositions exStarF = .ok pos ∧ ARounds (iluComp exStarF (scalarScale? none) pos) mixWhole exStarF.vals 7 log last := by
  obtain ⟨pos, h, _⟩ := compute_ILU_positions_correct exStarF exStarF_full exStarF_sorted exStarF_diag
  have hok : (do let pos ← computeILUPositions exStarF; forList (List.range 7) (fun _ x => forList (List.range 10).reverse
    (fun p x => do let v ← iluComp exStarF (scalarScale? none) pos p (rd x); wr x p v) x) exStarF.vals : C (List Db)).isOk = true := by decide +kernel
  rw [h, ok_bind] at hok
  cases hs : forList (List.range 7) (fun _ x => forList (List.range 10).reverse
    (fun p x => do let v ← iluComp exStarF (scalarScale? none) pos p (rd x); wr x p v) x) exStarF.vals with
  | error e => rw [hs] at hok; cases hok
  | ok x' =>
    obtain ⟨h1, -⟩ := forList_asweeps (fun i hi => by rw [List.mem_reverse, List.mem_range]; exact hi) hs
    obtain ⟨log, last, hr, -⟩ := h1.rounds mixOk_whole (by decide)
    exact ⟨pos, log, last, h, hr⟩

end Blasted
