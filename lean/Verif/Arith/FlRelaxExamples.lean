import Verif.Arith.FlRelaxProps
import Verif.Arith.FlExamples

/-!
# Relaxations with numbers of type `double`: examples and what is not true (C83)

The two equations `x₀ - 0.75 x₁ = 1` and `-0.75 x₀ + x₁ = 1` have the solution `(4, 4)`. The vector `(4 + 2⁻⁵⁰, 4 + 2⁻⁵⁰)` is left unchanged by the rounded iteration as well. (With the numbers used
here it does not matter how ties are rounded, as long as they are not rounded towards zero.)
-/

namespace Blasted

open Finset

def exTwoF : SR Db :=
  { browptr := [0, 2, 4], bcolind := [0, 1, 0, 1], vals := [db 1, db (-3 / 4), db (-3 / 4), db 1], diagind := [0, 3], browendptr := [2, 4], nbrows := 2, nnzb := 4, nbstored := 4 }

def exTwoB : List Db := [db 1, db 1]
def exTwoInv : List Db := [db 1, db 1]

/-- The number after 4. -/
def exFour : Db := db (4 + 1 / 1125899906842624)

theorem exTwoF_full : exTwoF.Full := by constructor <;> decide +kernel
theorem exTwoF_sorted : exTwoF.Sorted := SR.sorted_of_check (by decide +kernel)
theorem exTwoF_diag : exTwoF.HasDiag := by constructor <;> decide +kernel
theorem exTwoF_inv : ∀ i < exTwoF.nbrows, pinv exTwoF.vals⟦exTwoF.diagind⟦i⟧⟧ = .ok exTwoInv⟦i⟧ := by decide +kernel
theorem exTwoF_row : ∀ i < exTwoF.nbrows, exTwoF.browptr⟦i + 1⟧ - exTwoF.browptr⟦i⟧ ≤ 2 := by decide +kernel

theorem exTwoF_levels : LevelsOk exTwoF [0, 1, 2] where
  pos := by decide
  zero := rfl
  last := rfl
  mono := by
    intro t ht
    have : t < 2 := by have h : t + 1 < 3 := ht; omega
    interval_cases t <;> decide
  indep := by
    intro t ht i j h1 h2 h3 h4 _
    have : t < 2 := by have h : t + 1 < 3 := ht; omega
    interval_cases t <;> simp [get0] at h1 h2 h3 h4 <;> omega

theorem exTwoF_dom : WDominant exTwoF.nbrows (dbRounding.mat exTwoF).entry (fun _ => 1) (3 / 4) where
  pos _ _ := one_pos
  diag := by decide +kernel
  dom := by decide +kernel

theorem exTwoF_gam : (1 + gam dbRounding.u (2 + 3)) * (3 / 4) < 1 := by decide +kernel

theorem exTwoF_solution : ∀ i < exTwoF.nbrows, ∑ j ∈ range exTwoF.nbrows, (dbRounding.mat exTwoF).entry i j * (fun _ => 4 : Nat → ℚ) j = dbRounding.val exTwoB⟦i⟧ := by decide +kernel

/-- Non-vacuity of `relax_rounding_converges`: all hypotheses hold, starting from zero, and the level is `42 u` up to terms of second order. -/
example (M : RelaxMethod) {m : Nat} {x' : List Db} (h : M.Result exTwoF exTwoInv [0, 1, 2] m exTwoB [0, 0] x') :
    ∀ i < 2, |dbRounding.val x'⟦i⟧ - 4| ≤ (roundingLevel (gam dbRounding.u 5) (3 / 4) 4 + ((1 + gam dbRounding.u 5) * (3 / 4)) ^ m * 4) * 1 :=
  relax_rounding_converges (s := fun _ => 4) (d := fun _ => 1) (S := 4) (E := 4) exTwoF_full exTwoF_sorted exTwoF_diag exTwoF_inv rfl exTwoF_levels rfl exTwoF_row exTwoF_dom
    (by norm_num) exTwoF_gam exTwoF_solution (by norm_num) (by norm_num) rfl (by decide +kernel) M h

example : roundingLevel (gam dbRounding.u 5) (3 / 4) 4 < 1 / 10 ^ 13 := by decide +kernel

/-- … and there are results, for every method and every number of steps. -/
example (M : RelaxMethod) (m : Nat) : ∃ x', M.Result exTwoF exTwoInv [0, 1, 2] m exTwoB [0, 0] x' :=
  relax_rounding_exists exTwoF_full exTwoF_diag rfl exTwoF_levels rfl rfl M m

/-- Non-vacuity of `relax_rounding_bounded`: an execution in which the second update of row 1 reads an old value. -/
example : ∃ log, ALog (relaxRow exTwoF exTwoInv exTwoB) mixWhole exTwoF.nbrows (memOf [0, 0]) log ∧ log.length = 3 :=
  ⟨[] ++ [(0, db 1)] ++ [(1, db (7 / 4))] ++ [(1, db 1)],
    .write (fun _ => 0) (.write (fun j => if j = 0 then db 1 else 0) (.write (fun _ => 0) .nil
      (fun j hj => .inl (by have : j < 2 := hj; interval_cases j <;> rfl)) (by decide) (.inl (by decide +kernel)))
      (fun j hj => by have : j < 2 := hj; interval_cases j; exacts [.inr (by simp), .inl rfl]) (by decide) (.inl (by decide +kernel)))
      (fun j hj => .inl (by have : j < 2 := hj; interval_cases j <;> rfl)) (by decide) (.inl (by decide +kernel)), rfl⟩

/-! ### Different schedules, different limits -/

theorem exTwo_forward : forRange 0 exTwoF.nbrows (updRow (relaxRow exTwoF exTwoInv exTwoB)) [db 4, exFour] = .ok [exFour, exFour] ∧
    forRange 0 exTwoF.nbrows (updRow (relaxRow exTwoF exTwoInv exTwoB)) [exFour, exFour] = .ok [exFour, exFour] := by decide +kernel

theorem exTwo_backward : forList [1, 0] (updRow (relaxRow exTwoF exTwoInv exTwoB)) [db 4, exFour] = .ok [db 4, db 4] ∧
    forList [1, 0] (updRow (relaxRow exTwoF exTwoInv exTwoB)) [db 4, db 4] = .ok [db 4, db 4] := by decide +kernel

theorem exTwo_jacobi (g : List Db) (hg : g.length = 2) : relaxInto exTwoF exTwoInv exTwoB [db 4, exFour] [0, 1] g = .ok [exFour, db 4] ∧
    relaxInto exTwoF exTwoInv exTwoB [exFour, db 4] [0, 1] g = .ok [db 4, exFour] := by
  obtain ⟨a, b, rfl⟩ := List.length_eq_two.mp hg
  have h : ∀ x : List Db, relaxInto exTwoF exTwoInv exTwoB x [0, 1] [a, b] = (do
      let v ← relaxRow exTwoF exTwoInv exTwoB 0 (rd x)
      let w ← relaxRow exTwoF exTwoInv exTwoB 1 (rd x)
      .ok [v, w]) := by
    intro x
    unfold relaxInto
    rw [parFor_eq (by decide), forList_cons]
    cases relaxRow exTwoF exTwoInv exTwoB 0 (rd x) with
    | error e => rfl
    | ok v =>
      rw [ok_bind, ok_bind, show wr [a, b] 0 v = .ok [v, b] from rfl, ok_bind, forList_cons]
      cases relaxRow exTwoF exTwoInv exTwoB 1 (rd x) <;> rfl
  rw [h, h]
  decide +kernel

theorem copyInto_two (v w a b : Db) : copyInto 2 [0, 1] [v, w] [a, b] = .ok [v, w] := by
  unfold copyInto
  rw [parFor_eq (by decide)]
  rfl

/-- The Jacobi relaxation from `(4, 4 + 2⁻⁵⁰)` exchanges the two numbers in every step. -/
theorem exTwo_jacobi_steps {p : SolveParams ℚ} (hc : p.ctol = false) (k : Nat) : ∀ (st : Nat) (ref : ℚ) (g : List Db), g.length = 2 →
    jacobiRelaxLoop id (fun _ => 0) p exTwoF exTwoInv exTwoB (fun _ => [0, 1]) (2 * k) st ref [db 4, exFour] g = .ok [db 4, exFour] ∧
    jacobiRelaxLoop id (fun _ => 0) p exTwoF exTwoInv exTwoB (fun _ => [0, 1]) (2 * k + 1) st ref [db 4, exFour] g = .ok [exFour, db 4] := by
  have two : ∀ (left st : Nat) (ref : ℚ) (p : SolveParams ℚ) (x y g : List Db), p.ctol = false → x.length = 2 → y.length = 2 → relaxInto exTwoF exTwoInv exTwoB x [0, 1] g = .ok y →
      jacobiRelaxLoop id (fun _ => 0) p exTwoF exTwoInv exTwoB (fun _ => [0, 1]) (left + 1) st ref x g =
        jacobiRelaxLoop id (fun _ => 0) p exTwoF exTwoInv exTwoB (fun _ => [0, 1]) left (st + 1) ref y y := by
    intro left st ref p x y g hp hx hy h
    obtain ⟨a, b, rfl⟩ := List.length_eq_two.mp hx
    obtain ⟨v, w, rfl⟩ := List.length_eq_two.mp hy
    rw [jacobiRelaxLoop, h, ok_bind, hp, if_neg (by simp), show copyInto exTwoF.nbrows [0, 1] [v, w] [a, b] = .ok [v, w] from copyInto_two v w a b, ok_bind]
  induction k with
  | zero => exact fun st ref g hg => ⟨rfl, by rw [two 0 st ref p _ _ g hc rfl rfl (exTwo_jacobi g hg).1]; rfl⟩
  | succ k ih =>
    intro st ref g hg
    have h1 : ∀ left, jacobiRelaxLoop id (fun _ => 0) p exTwoF exTwoInv exTwoB (fun _ => [0, 1]) (left + 2) st ref [db 4, exFour] g =
        jacobiRelaxLoop id (fun _ => 0) p exTwoF exTwoInv exTwoB (fun _ => [0, 1]) left (st + 2) ref [db 4, exFour] [db 4, exFour] := fun left => by
      rw [two _ st ref p _ _ g hc rfl rfl (exTwo_jacobi g hg).1, two _ _ ref p _ _ _ hc rfl rfl (exTwo_jacobi _ rfl).2]
    rw [show 2 * (k + 1) = 2 * k + 2 by ring, show 2 * k + 2 + 1 = 2 * k + 1 + 2 by ring, h1, h1]
    exact ih _ _ _ rfl

/-- **C83** What is lost by rounding: for a strictly dominant matrix of two equations and one and the same initial guess,
- one thread, ascending order: after every number of steps the result is `(4 + 2⁻⁵⁰, 4 + 2⁻⁵⁰)`;
- several threads: after every number of steps the result can also be `(4, 4)`;
- Jacobi: the iterates alternate for ever between two different vectors.
So the results of the same call need not agree from run to run, however many steps are made, and need not settle. -/
theorem rounded_limits_differ :
    (∀ k, RelaxMethod.Result exTwoF exTwoInv [0, 1, 2] .chaotic (k + 1) exTwoB [db 4, exFour] [exFour, exFour]) ∧
    (∀ k, RelaxMethod.Result exTwoF exTwoInv [0, 1, 2] .chaoticThreads (k + 1) exTwoB [db 4, exFour] [exFour, exFour]) ∧
    (∀ k, RelaxMethod.Result exTwoF exTwoInv [0, 1, 2] .chaoticThreads (k + 1) exTwoB [db 4, exFour] [db 4, db 4]) ∧
    (∀ k, RelaxMethod.Result exTwoF exTwoInv [0, 1, 2] .jacobi (2 * k) exTwoB [db 4, exFour] [db 4, exFour]) ∧
    (∀ k, RelaxMethod.Result exTwoF exTwoInv [0, 1, 2] .jacobi (2 * k + 1) exTwoB [db 4, exFour] [exFour, db 4]) ∧ exFour ≠ db 4 := by
  have run : ∀ {rows : List Nat} {x y : List Db}, x.length = 2 → y.length = 2 → (∀ i < 2, i ∈ rows) → forList rows (updRow (relaxRow exTwoF exTwoInv exTwoB)) x = .ok y →
      forList rows (updRow (relaxRow exTwoF exTwoInv exTwoB)) y = .ok y → ∀ k, AsyncChaoticRelax exTwoF exTwoInv mixWhole (k + 1) exTwoB x y := by
    intro rows x y hx hy hrows h1 h2 k
    have sw : ∀ {z : List Db}, z.length = 2 → forList rows (updRow (relaxRow exTwoF exTwoInv exTwoB)) z = .ok y → ASweep (relaxRow exTwoF exTwoInv exTwoB) mixWhole z y := by
      intro z hz h
      obtain ⟨log, a1, _, a3, a4⟩ := pass_alevel h
      exact ⟨log, a1, fun i hi => a3 i (hrows i (by omega)), a4⟩
    have all : ASweeps (relaxRow exTwoF exTwoInv exTwoB) mixWhole (k + 1) x y := by
      induction k with
      | zero => exact .succ (.zero x) (sw hx h1)
      | succ k ih => exact .succ ih (sw hy h2)
    exact .inr (all.rounds mixOk_whole (by omega))
  refine ⟨fun k => ?_, run rfl rfl (rows := List.range' 0 2) (by decide) exTwo_forward.1 exTwo_forward.2, run rfl rfl (rows := [1, 0]) (by decide) exTwo_backward.1 exTwo_backward.2,
    fun k => ?_, fun k => ?_, by decide +kernel⟩
  · show fwdSweeps _ _ (k + 1) _ = _
    induction k with
    | zero => exact exTwo_forward.1
    | succ k ih =>
      unfold fwdSweeps at ih ⊢
      rw [forRange_succ_right (Nat.zero_le _), ih, ok_bind]
      exact exTwo_forward.2
  · exact ⟨id, fun _ => 0, ⟨0, 0, 0, false, 2 * k⟩, fun _ => [0, 1], [0, 0], rfl, rfl, fun _ => .refl _, rfl, (exTwo_jacobi_steps rfl k 0 1 [0, 0] rfl).1⟩
  · exact ⟨id, fun _ => 0, ⟨0, 0, 0, false, 2 * k + 1⟩, fun _ => [0, 1], [0, 0], rfl, rfl, fun _ => .refl _, rfl, (exTwo_jacobi_steps rfl k 0 1 [0, 0] rfl).2⟩

end Blasted
