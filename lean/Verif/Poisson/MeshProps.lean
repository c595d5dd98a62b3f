import Verif.Poisson.MatProps
import Mathlib.Analysis.SpecialFunctions.Trigonometric.Deriv
import Mathlib.Analysis.SpecialFunctions.Trigonometric.Bounds

/-!
# The Poisson test problem: grids, right-hand side and norm
-/

namespace Blasted
open Finset

/-! ### Grids -/

section
variable {K : Type} [Field K] [LinearOrder K]

theorem fillAxis {n : Nat} {g : List K} (hg : g.length = n) {body : Nat → List K → C (List K)} {f : Nat → K} (hb : ∀ i < n, ∀ c, body i c = wr c i (f i)) :
    ∃ c, forRange 0 n body g = .ok c ∧ c.length = n ∧ ∀ i < n, c⟦i⟧ = f i := by
  obtain ⟨c, e, hl, hc⟩ := forRange_ok (body := body) (s := g) (fun i c => c.length = n ∧ ∀ t < i, c⟦t⟧ = f t) (Nat.zero_le n) ⟨hg, fun t ht => by omega⟩
    fun i c _ hi hc => by
      rw [hb i hi, wr_eq (by rw [hc.1]; exact hi)]
      refine Ok.pure ⟨by rw [List.length_set]; exact hc.1, fun t ht => ?_⟩
      by_cases e : t = i
      · subst e
        rw [get0_set_self (by rw [hc.1]; exact hi)]
      · rw [get0_set_ne (Ne.symm e)]
        exact hc.2 t (by omega)
  exact ⟨c, e, hl, hc⟩

variable [IsStrictOrderedRing K]

theorem uniformAxis_ok {n : Nat} (hn : 2 ≤ n) {rmin rmax : K} {g : List K} (hg : g.length = n) :
    ∃ c, uniformAxis n rmin rmax g = .ok c ∧ c.length = n ∧ ∀ i < n, c⟦i⟧ = rmin + (rmax - rmin) * i / (n - 1) := by
  have hn1 : (n : K) - 1 ≠ 0 := by
    have : (2 : K) ≤ n := by exact_mod_cast hn
    intro h
    linarith
  exact fillAxis hg fun i _ c => by rw [fdiv_eq hn1, ok_bind]

end

theorem chebyshevAxis_ok {n : Nat} (hn : 2 ≤ n) {rmin rmax : ℝ} {g : List ℝ} (hg : g.length = n) :
    ∃ c, chebyshevAxis Real.cos Real.pi n rmin rmax g = .ok c ∧ c.length = n ∧
      ∀ i < n, c⟦i⟧ = (rmax + rmin) / 2 + (rmax - rmin) / 2 * Real.cos (Real.pi - i * (Real.pi / (n - 1))) := by
  have hn1 : (n : ℝ) - 1 ≠ 0 := by
    have : (2 : ℝ) ≤ n := by exact_mod_cast hn
    intro h
    linarith
  unfold chebyshevAxis
  rw [fdiv_eq hn1, ok_bind]
  refine fillAxis hg fun i _ c => ?_
  congr 1
  ring

/-- Grids of the Poisson problem: the coordinates along an axis from `rmin` to `rmax`. With the Chebyshev distribution they are the extremal points of the Chebyshev polynomial, moved to the interval;
otherwise they are equidistant. -/
noncomputable def axisPoint (gridtype : String) (n : Nat) (rmin rmax : ℝ) (i : Nat) : ℝ :=
  if gridtype = "chebyshev" then (rmin + rmax) / 2 - (rmax - rmin) / 2 * Real.cos (Real.pi * i / (n - 1)) else rmin + i * ((rmax - rmin) / (n - 1))

theorem axisPoint_lt {gridtype : String} {n : Nat} (hn : 2 ≤ n) {rmin rmax : ℝ} (h : rmin < rmax) {i : Nat} (hi : i + 1 < n) :
    axisPoint gridtype n rmin rmax i < axisPoint gridtype n rmin rmax (i + 1) := by
  have hn1 : (0 : ℝ) < n - 1 := by
    have : (2 : ℝ) ≤ n := by exact_mod_cast hn
    linarith
  unfold axisPoint
  split
  · have hle : (i : ℝ) + 1 ≤ n - 1 := by
      have : ((i + 1 + 1 : Nat) : ℝ) ≤ n := by exact_mod_cast hi
      push_cast at this
      linarith
    have hpi := Real.pi_pos
    have hc : Real.cos (Real.pi * ((i + 1 : Nat) : ℝ) / (n - 1)) < Real.cos (Real.pi * i / (n - 1)) := by
      refine Real.cos_lt_cos_of_nonneg_of_le_pi (by positivity) ?_ ?_
      · rw [div_le_iff₀ hn1]
        push_cast
        exact mul_le_mul_of_nonneg_left hle hpi.le
      · rw [div_lt_div_iff_of_pos_right hn1]
        push_cast
        nlinarith
    nlinarith
  · have : 0 < (rmax - rmin) / ((n : ℝ) - 1) := div_pos (by linarith) hn1
    push_cast
    nlinarith

/-- **Grids.** With at least three points along every axis and a box that is not empty, `createMesh` makes a grid with these numbers of points, whose coordinates are those of the distribution asked for;
they increase, and begin and end at the faces of the box. -/
theorem poisson_mesh_correct {gridtype : String} {np : Fin 3 → Nat} {rmin rmax : Fin 3 → ℝ} {g : Nat → ℝ} (hn : ∀ d, 3 ≤ np d) (hr : ∀ d, rmin d < rmax d) :
    ∃ m, createMesh Real.cos Real.pi gridtype np rmin rmax g = .ok m ∧ m.npoind = np ∧ m.Good ∧
      (∀ d, ∀ i < np d, m.x d i = axisPoint gridtype (np d) (rmin d) (rmax d) i) ∧ ∀ d, m.x d 0 = rmin d ∧ m.x d (np d - 1) = rmax d := by
  have hax : ∀ d, ∃ c : List ℝ, (if gridtype = "chebyshev" then chebyshevAxis Real.cos Real.pi (np d) (rmin d) (rmax d) ((List.range (np d)).map g)
      else uniformAxis (np d) (rmin d) (rmax d) ((List.range (np d)).map g)) = .ok c ∧ c.length = np d ∧ ∀ i < np d, c⟦i⟧ = axisPoint gridtype (np d) (rmin d) (rmax d) i := by
    intro d
    have h2 : 2 ≤ np d := by have := hn d; omega
    unfold axisPoint
    split
    · obtain ⟨c, e, hl, hc⟩ := chebyshevAxis_ok h2 (rmin := rmin d) (rmax := rmax d) (g := (List.range (np d)).map g) (by simp)
      refine ⟨c, e, hl, fun i hi => ?_⟩
      rw [hc i hi, Real.cos_pi_sub, show (i : ℝ) * (Real.pi / ((np d : ℝ) - 1)) = Real.pi * i / (np d - 1) by ring]
      ring
    · obtain ⟨c, e, hl, hc⟩ := uniformAxis_ok h2 (rmin := rmin d) (rmax := rmax d) (g := (List.range (np d)).map g) (by simp)
      refine ⟨c, e, hl, fun i hi => ?_⟩
      rw [hc i hi]
      ring
  choose c hc using hax
  have hx : ∀ d, ![c 0, c 1, c 2] d = c d := by
    intro d
    fin_cases d <;> rfl
  refine ⟨⟨np, ![c 0, c 1, c 2]⟩, ?_, rfl, ⟨hn, fun d => ?_, fun d i hi => ?_⟩, fun d i hi => ?_, fun d => ⟨?_, ?_⟩⟩
  · unfold createMesh
    dsimp only
    rw [(hc 0).1, ok_bind, (hc 1).1, ok_bind, (hc 2).1, ok_bind]
  · rw [show (CartMesh.mk np ![c 0, c 1, c 2]).coords d = c d from hx d]
    exact (hc d).2.1
  · unfold CartMesh.x
    dsimp only at hi ⊢
    rw [hx d, (hc d).2.2 i (by omega), (hc d).2.2 _ hi]
    exact axisPoint_lt (by have := hn d; omega) (hr d) hi
  · unfold CartMesh.x
    dsimp only at hi ⊢
    rw [hx d, (hc d).2.2 i hi]
  · unfold CartMesh.x
    dsimp only
    rw [hx d, (hc d).2.2 0 (by have := hn d; omega)]
    unfold axisPoint
    split
    · simp
      ring
    · simp
  · unfold CartMesh.x
    dsimp only
    have h3 := hn d
    have hn1 : (np d : ℝ) - 1 ≠ 0 := by
      have : (3 : ℝ) ≤ np d := by exact_mod_cast h3
      intro h
      linarith
    rw [hx d, (hc d).2.2 _ (by omega)]
    unfold axisPoint
    rw [Nat.cast_sub (by omega), Nat.cast_one]
    split
    · rw [mul_div_assoc, div_self hn1, mul_one, Real.cos_pi]
      ring
    · rw [mul_div_cancel₀ _ hn1]
      ring

/-- The number of interior points, computed by subtracting the points on the faces, is the size of the distributed array. -/
theorem poisson_interior_count (np : Fin 3 → Nat) (hn : ∀ d, 3 ≤ np d) :
    meshPoints (fun d => (np d : Int)) = (((np 0 * np 1 * np 2 : Nat) : Int), (((np 0 - 2) * (np 1 - 2) * (np 2 - 2) : Nat) : Int)) := by
  unfold meshPoints
  have h0 := hn 0
  have h1 := hn 1
  have h2 := hn 2
  refine Prod.ext ?_ ?_
  · push_cast
    ring
  · dsimp only
    push_cast [Nat.cast_sub (show 2 ≤ np 0 by omega), Nat.cast_sub (show 2 ≤ np 1 by omega), Nat.cast_sub (show 2 ≤ np 2 by omega)]
    ring

/-- The length of the diagonal of a cell. -/
noncomputable def CartMesh.diagonal (m : CartMesh ℝ) (k j i : Nat) : ℝ :=
  Real.sqrt ((m.x 0 (i + 1) - m.x 0 i) ^ 2 + (m.x 1 (j + 1) - m.x 1 j) ^ 2 + (m.x 2 (k + 1) - m.x 2 k) ^ 2)

/-- A cell of the grid. -/
def CartMesh.Cell (m : CartMesh ℝ) (k j i : Nat) : Prop := i + 1 < m.npoind 0 ∧ j + 1 < m.npoind 1 ∧ k + 1 < m.npoind 2

/-- **Mesh size.** The mesh size is the length of the longest diagonal of a cell. -/
theorem poisson_mesh_size {m : CartMesh ℝ} (h : m.Good) :
    ∃ r, computeMeshSize Real.sqrt m = .ok r ∧ (∀ k j i, m.Cell k j i → m.diagonal k j i ≤ r) ∧ ∃ k j i, m.Cell k j i ∧ m.diagonal k j i = r := by
  let P : (Nat → Nat → Nat → Prop) → ℝ → Prop := fun D r => (∀ k j i, D k j i → m.diagonal k j i ≤ r) ∧ (r = 0 ∨ ∃ k j i, m.Cell k j i ∧ m.diagonal k j i = r)
  have hmono : ∀ {D D' : Nat → Nat → Nat → Prop} {r : ℝ}, P D r → (∀ k j i, D' k j i → D k j i) → P D' r := fun h hd => ⟨fun k j i hh => h.1 k j i (hd k j i hh), h.2⟩
  have key : Ok (computeMeshSize Real.sqrt m) (P m.Cell) := by
    unfold computeMeshSize
    refine (forRange_ok (fun k0 r => P (fun k j i => m.Cell k j i ∧ k < k0) r) (by omega) ⟨fun k j i h => absurd h.2 (by omega), .inl rfl⟩ fun k r _ hk hr => ?_).mono
      fun r hr => hmono hr fun k j i h => ⟨h, by have := h.2.2; omega⟩
    rw [rd_eq (by have := h.len 2; omega), ok_bind, rd_eq (by have := h.len 2; omega), ok_bind]
    refine (forRange_ok (fun j0 r => P (fun k' j i => m.Cell k' j i ∧ (k' < k ∨ k' = k ∧ j < j0)) r) (by omega) (hmono hr fun k' j i h => ⟨h.1, by omega⟩) fun j r _ hj hr => ?_).mono
      fun r hr => hmono hr fun k' j i h => ⟨h.1, by have := h.1.2.1; omega⟩
    rw [rd_eq (by have := h.len 1; omega), ok_bind, rd_eq (by have := h.len 1; omega), ok_bind]
    refine (forRange_ok (fun i0 r => P (fun k' j' i => m.Cell k' j' i ∧ (k' < k ∨ k' = k ∧ (j' < j ∨ j' = j ∧ i < i0))) r) (by omega) (hmono hr fun k' j' i h => ⟨h.1, by omega⟩)
      fun i r _ hi hr => ?_).mono fun r hr => hmono hr fun k' j' i h => ⟨h.1, by have := h.1.1; omega⟩
    rw [rd_eq (by have := h.len 0; omega), ok_bind, rd_eq (by have := h.len 0; omega), ok_bind]
    have e : Real.sqrt (0 + ((m.coords 0)⟦i + 1⟧ - (m.coords 0)⟦i⟧) * ((m.coords 0)⟦i + 1⟧ - (m.coords 0)⟦i⟧) +
        ((m.coords 1)⟦j + 1⟧ - (m.coords 1)⟦j⟧) * ((m.coords 1)⟦j + 1⟧ - (m.coords 1)⟦j⟧) +
        ((m.coords 2)⟦k + 1⟧ - (m.coords 2)⟦k⟧) * ((m.coords 2)⟦k + 1⟧ - (m.coords 2)⟦k⟧)) = m.diagonal k j i := by
      unfold CartMesh.diagonal CartMesh.x
      congr 1
      ring
    rw [e]
    have hcell : m.Cell k j i := ⟨by omega, by omega, by omega⟩
    refine Ok.pure ⟨fun k' j' i' hh => ?_, ?_⟩
    · by_cases hnew : k' = k ∧ j' = j ∧ i' = i
      · obtain ⟨rfl, rfl, rfl⟩ := hnew
        split
        · exact le_rfl
        · rename_i hlt
          exact not_lt.1 hlt
      · have := hr.1 k' j' i' ⟨hh.1, by omega⟩
        split
        · rename_i hlt
          exact this.trans hlt.le
        · exact this
    · split
      · exact .inr ⟨k, j, i, hcell, rfl⟩
      · exact hr.2
  obtain ⟨r, e, h1, h2⟩ := key
  refine ⟨r, e, h1, h2.resolve_left fun h0 => ?_⟩
  have h30 := h.three 0
  have h31 := h.three 1
  have h32 := h.three 2
  have := h1 0 0 0 ⟨by omega, by omega, by omega⟩
  have hs := (h.steps (d := 0) (i := 0) (by omega)).1
  have : 0 < m.diagonal 0 0 0 := Real.sqrt_pos.2 (by positivity)
  linarith

/-! ### The right-hand side -/

/-- The exact solution `sin(2πx) sin(2πy) sin(2πz)`. -/
noncomputable def exactSolution (x y z : ℝ) : ℝ := Real.sin (2 * Real.pi * x) * Real.sin (2 * Real.pi * y) * Real.sin (2 * Real.pi * z)

theorem deriv2_sin (c d x : ℝ) : deriv (deriv fun x => c * Real.sin (d * x)) x = -(d * d) * (c * Real.sin (d * x)) := by
  have h1 : deriv (fun x => c * Real.sin (d * x)) = fun x => c * (Real.cos (d * x) * d) := by
    funext x
    exact ((((hasDerivAt_id x).const_mul d).sin).const_mul c).deriv.trans (by simp)
  rw [h1]
  refine (((((hasDerivAt_id x).const_mul d).cos).mul_const d).const_mul c).deriv.trans ?_
  simp
  ring

/-- The source of the problem, `12 π² sin(2πx) sin(2πy) sin(2πz)`, is the negative Laplacian of the exact solution. -/
theorem exactSolution_laplacian (x y z : ℝ) :
    -(deriv (deriv fun x => exactSolution x y z) x + deriv (deriv fun y => exactSolution x y z) y + deriv (deriv fun z => exactSolution x y z) z) =
      12 * Real.pi * Real.pi * exactSolution x y z := by
  have e1 : (fun x => exactSolution x y z) = fun x => (Real.sin (2 * Real.pi * y) * Real.sin (2 * Real.pi * z)) * Real.sin (2 * Real.pi * x) := by
    funext x; unfold exactSolution; ring
  have e2 : (fun y => exactSolution x y z) = fun y => (Real.sin (2 * Real.pi * x) * Real.sin (2 * Real.pi * z)) * Real.sin (2 * Real.pi * y) := by
    funext y; unfold exactSolution; ring
  have e3 : (fun z => exactSolution x y z) = fun z => (Real.sin (2 * Real.pi * x) * Real.sin (2 * Real.pi * y)) * Real.sin (2 * Real.pi * z) := by
    funext z; unfold exactSolution; ring
  rw [e1, e2, e3, deriv2_sin, deriv2_sin, deriv2_sin]
  unfold exactSolution
  ring

/-- `computeRHS` evaluates the source and the exact solution at the point with the same indices in the grid with its boundary: one point before the interior point that the row of the matrix belongs to.
What is missing from the full property is that the values are taken at the interior points; that is false (`poisson_rhs_shifted`). -/
theorem poisson_rhs_partial {m : CartMesh ℝ} (h : m.Good) {b : Corners} (hb : ∀ k j i, b.Has k j i → m.Interior k j i) (f u : DAVec ℝ) :
    ∃ f' u', computeRHS Real.sin Real.pi m b f u = .ok (f', u') ∧
      (∀ k j i, b.Has k j i → u' k j i = exactSolution (m.x 0 i) (m.x 1 j) (m.x 2 k) ∧ f' k j i = 12 * Real.pi * Real.pi * exactSolution (m.x 0 i) (m.x 1 j) (m.x 2 k)) ∧
      ∀ k j i, ¬ b.Has k j i → u' k j i = u k j i ∧ f' k j i = f k j i := by
  let P : (Nat → Nat → Nat → Prop) → DAVec ℝ × DAVec ℝ → Prop := fun D s => ∀ k j i,
    (D k j i → s.2 k j i = exactSolution (m.x 0 i) (m.x 1 j) (m.x 2 k) ∧ s.1 k j i = 12 * Real.pi * Real.pi * exactSolution (m.x 0 i) (m.x 1 j) (m.x 2 k)) ∧
    (¬ D k j i → s.2 k j i = u k j i ∧ s.1 k j i = f k j i)
  have hcongr : ∀ {D D' : Nat → Nat → Nat → Prop} {s}, P D s → (∀ k j i, D' k j i ↔ D k j i) → P D' s := fun hP hd k j i =>
    ⟨fun h => (hP k j i).1 ((hd k j i).1 h), fun h => (hP k j i).2 fun h' => h ((hd k j i).2 h')⟩
  have key : Ok (computeRHS Real.sin Real.pi m b f u) (P b.Has) := by
    unfold computeRHS
    refine (forRange_ok (fun k0 s => P (fun k j i => b.Has k j i ∧ k < k0) s) (by omega)
      (fun k j i => ⟨fun h => absurd h.2 (by have := h.1.2.2.2.2.1; omega), fun _ => ⟨rfl, rfl⟩⟩) fun k s hk1 hk2 hs => ?_).mono
      fun s hs => hcongr hs fun k j i => ⟨fun h => ⟨h, h.2.2.2.2.2⟩, fun h => h.1⟩
    refine (forRange_ok (fun j0 s => P (fun k' j i => b.Has k' j i ∧ (k' < k ∨ k' = k ∧ j < j0)) s) (by omega)
      (hcongr hs fun k' j i => ⟨fun h => ⟨h.1, by have := h.1.2.2.1; omega⟩, fun h => ⟨h.1, by omega⟩⟩) fun j s hj1 hj2 hs => ?_).mono
      fun s hs => hcongr hs fun k' j i => ⟨fun h => ⟨h.1, by have := h.1.2.2.2.1; omega⟩, fun h => ⟨h.1, by omega⟩⟩
    refine (forRange_ok (fun i0 s => P (fun k' j' i => b.Has k' j' i ∧ (k' < k ∨ k' = k ∧ (j' < j ∨ j' = j ∧ i < i0))) s) (by omega)
      (hcongr hs fun k' j' i => ⟨fun h => ⟨h.1, by have := h.1.1; omega⟩, fun h => ⟨h.1, by omega⟩⟩) fun i s hi1 hi2 hs => ?_).mono
      fun s hs => hcongr hs fun k' j' i => ⟨fun h => ⟨h.1, by have := h.1.2.1; omega⟩, fun h => ⟨h.1, by omega⟩⟩
    have hbox : b.Has k j i := ⟨hi1, hi2, hj1, hj2, hk1, hk2⟩
    obtain ⟨q0, q1, q2⟩ := hb k j i hbox
    have l0 := h.len 0
    have l1 := h.len 1
    have l2 := h.len 2
    rw [gcoords_eq (n := i) rfl (by omega), ok_bind, gcoords_eq (n := j) rfl (by omega), ok_bind, gcoords_eq (n := k) rfl (by omega), ok_bind]
    refine Ok.pure fun k' j' i' => ?_
    unfold DAVec.set
    by_cases hnew : k' = k ∧ j' = j ∧ i' = i
    · obtain ⟨rfl, rfl, rfl⟩ := hnew
      refine ⟨fun _ => ?_, fun hh => absurd ⟨hbox, by omega⟩ hh⟩
      simp only [and_self, if_true]
      refine ⟨rfl, ?_⟩
      unfold exactSolution
      ring
    · dsimp only
      rw [if_neg hnew, if_neg hnew]
      exact ⟨fun hh => (hs k' j' i').1 ⟨hh.1, by omega⟩, fun hh => (hs k' j' i').2 fun h' => hh ⟨h'.1, by omega⟩⟩
  obtain ⟨⟨f', u'⟩, e, hP⟩ := key
  exact ⟨f', u', e, fun k j i => (hP k j i).1, fun k j i => (hP k j i).2⟩

/-- The grid of 5 × 5 × 5 points in the unit cube. -/
noncomputable def exCube : CartMesh ℝ := ⟨fun _ => 5, fun _ => [0, 1 / 4, 1 / 2, 3 / 4, 1]⟩

theorem exCube_good : exCube.Good := by
  refine ⟨fun d => by show 3 ≤ 5; decide, fun d => rfl, fun d i hi => ?_⟩
  have hi : i < 4 := Nat.lt_of_succ_lt_succ (show i + 1 < 4 + 1 from hi)
  interval_cases i <;> simp [CartMesh.x, exCube, get0] <;> norm_num

/-- All interior points of that grid. -/
def exAll : Corners := ⟨fun _ => 0, fun _ => 3⟩

theorem exCube_distributed : exCube.Distributed [exAll] := by
  refine ⟨fun b hb k j i h => ?_, fun k j i h => ⟨exAll, by simp, ?_⟩⟩
  · rw [List.mem_singleton] at hb
    subst hb
    simp [Corners.Has, exAll, CartMesh.Interior, exCube] at h ⊢
    omega
  · simp [Corners.Has, exAll, CartMesh.Interior, exCube] at h ⊢
    omega

/-- It is `createMesh` that makes this grid. -/
theorem exCube_created : createMesh Real.cos Real.pi "uniform" (fun _ => 5) (fun _ => 0) (fun _ => 1) (fun _ => 7) = .ok exCube := by
  obtain ⟨m, e, hn, hg, hx, _⟩ := poisson_mesh_correct (gridtype := "uniform") (np := fun _ => 5) (rmin := fun _ => 0) (rmax := fun _ => 1) (g := fun _ => 7) (fun _ => by norm_num)
    (fun _ => by norm_num)
  rw [e]
  obtain ⟨np, c⟩ := m
  dsimp only at hn
  subst hn
  congr 1
  unfold exCube
  congr 1
  funext d
  refine ext_get0 (hg.len d) fun i hi => ?_
  rw [hg.len d] at hi
  have := hx d i hi
  unfold CartMesh.x axisPoint at this
  rw [if_neg (by decide)] at this
  dsimp only at this
  rw [this]
  have hi : i < 5 := hi
  interval_cases i <;> simp [get0] <;> norm_num

/-- **The right-hand side of the Poisson problem is not that of its matrix.** In the unit cube with 5 × 5 × 5 points both the source and the "exact solution" are 0 at the first interior point, where the
exact solution is 1. -/
theorem poisson_rhs_shifted : ∃ m, createMesh Real.cos Real.pi "uniform" (fun _ => 5) (fun _ => 0) (fun _ => 1) (fun _ => 7) = .ok m ∧ m.Distributed [exAll] ∧
    ∀ f u, ∃ f' u', computeRHS Real.sin Real.pi m exAll f u = .ok (f', u') ∧ f' 0 0 0 = 0 ∧ u' 0 0 0 = 0 ∧ exactSolution (m.x 0 1) (m.x 1 1) (m.x 2 1) = 1 := by
  refine ⟨exCube, exCube_created, exCube_distributed, fun f u => ?_⟩
  obtain ⟨f', u', e, h, _⟩ := poisson_rhs_partial exCube_good (exCube_distributed.inside exAll (by simp)) f u
  obtain ⟨h1, h2⟩ := h 0 0 0 (by simp [Corners.Has, exAll])
  have e0 : ∀ d, exCube.x d 0 = 0 := fun d => rfl
  have e1 : ∀ d, exCube.x d 1 = 1 / 4 := fun d => rfl
  refine ⟨f', u', e, ?_, ?_, ?_⟩
  · rw [h2, e0, e0, e0]
    simp [exactSolution]
  · rw [h1, e0, e0, e0]
    simp [exactSolution]
  · rw [e1, e1, e1]
    unfold exactSolution
    rw [show 2 * Real.pi * (1 / 4) = Real.pi / 2 by ring, Real.sin_pi_div_two]
    norm_num

/-! ### The norm -/

section
variable {K : Type} [Field K] [LinearOrder K] [IsStrictOrderedRing K]

theorem forRange_first_error {σ : Type} {lo hi : Nat} (h : lo < hi) {body : Nat → σ → Except Fail σ} {s : σ} {e : Fail} (hb : body lo s = .error e) : forRange lo hi body s = .error e := by
  rw [forRange_split (Nat.le_succ lo) h, forRange_succ_right le_rfl, forRange_self, ok_bind, hb]
  rfl

omit [IsStrictOrderedRing K] in
/-- **The norm reads before the beginning of the coordinates.** On the process that owns the first interior point, whatever the grid, the distribution and the vector, `computeNorm` has undefined
behaviour. -/
theorem poisson_norm_ub {m : CartMesh K} (h : m.Good) {procs : List Corners} (hp : m.Distributed procs) : ∃ b ∈ procs, ∀ v, computeNorm m b v = .error .ub := by
  have l0 := h.len 0
  have h0 := h.three 0
  have h1 := h.three 1
  have h2 := h.three 2
  obtain ⟨b, hb, q1, q2, q3, q4, q5, q6⟩ := hp.all 0 0 0 ⟨by omega, by omega, by omega⟩
  refine ⟨b, hb, fun v => ?_⟩
  refine forRange_first_error (by omega) (forRange_first_error (by omega) (forRange_first_error (by omega) ?_))
  rw [show b.start 0 = 0 by omega, gcoords_eq (n := 1) (by norm_num) (by omega), ok_bind, gcoords_neg (by norm_num)]
  rfl

/-- On a process that owns no point next to the lower faces, the norm is the sum of the squares, weighted by the volumes of the dual cells, one eighth of the boxes between the neighbours, of the points with
the same indices in the grid with its boundary. What is missing from the full property: the other processes, where it is false (`poisson_norm_ub`), and the volumes of the interior points themselves. -/
theorem poisson_norm_partial {m : CartMesh K} (h : m.Good) {b : Corners} (hb : ∀ k j i, b.Has k j i → m.Interior k j i) (h1 : ∀ d, 1 ≤ b.start d) (v : DAVec K) :
    computeNorm m b v = .ok (∑ k ∈ Ico (b.start 2) (b.start 2 + b.lsize 2), ∑ j ∈ Ico (b.start 1) (b.start 1 + b.lsize 1), ∑ i ∈ Ico (b.start 0) (b.start 0 + b.lsize 0),
      v k j i ^ 2 * (1 / 8 * ((m.x 0 (i + 1) - m.x 0 (i - 1)) * (m.x 1 (j + 1) - m.x 1 (j - 1)) * (m.x 2 (k + 1) - m.x 2 (k - 1))))) := by
  have l0 := h.len 0
  have l1 := h.len 1
  have l2 := h.len 2
  have s0 := h1 0
  have s1 := h1 1
  have s2 := h1 2
  have hsum : ∀ {lo hi : Nat} (_ : lo ≤ hi) {body : Nat → K → Except Fail K} {g : Nat → K} (_ : ∀ i, lo ≤ i → i < hi → ∀ s, body i s = .ok (s + g i)) (s : K),
      forRange lo hi body s = .ok (s + ∑ i ∈ Ico lo hi, g i) := by
    intro lo hi hle body g hb s
    rw [← forRange_sum hle (f := fun i => .ok (g i)) (g := g) fun _ _ _ => rfl]
    exact forRange_congr fun i h1 h2 s => hb i h1 h2 s
  unfold computeNorm
  rw [← zero_add (∑ k ∈ Ico (b.start 2) (b.start 2 + b.lsize 2), _)]
  refine hsum (by omega) (fun k hk1 hk2 s => hsum (by omega) (fun j hj1 hj2 s => hsum (by omega) (fun i hi1 hi2 s => ?_) s) s) 0
  obtain ⟨q0, q1, q2⟩ := hb k j i ⟨hi1, hi2, hj1, hj2, hk1, hk2⟩
  rw [gcoords_eq (n := i + 1) (by omega) (by omega), ok_bind, gcoords_eq (n := i - 1) (by omega) (by omega), ok_bind,
    gcoords_eq (n := j + 1) (by omega) (by omega), ok_bind, gcoords_eq (n := j - 1) (by omega) (by omega), ok_bind,
    gcoords_eq (n := k + 1) (by omega) (by omega), ok_bind, gcoords_eq (n := k - 1) (by omega) (by omega), ok_bind]
  refine congrArg Except.ok ?_
  ring

end

/-! ### Concrete cases -/

/-- A grid of 4 × 3 × 3 points with cells of different sizes. -/
def exMesh : CartMesh ℚ := ⟨![4, 3, 3], ![[0, 1, 3, 4], [0, 1, 2], [5, 6, 7]]⟩

theorem exMesh_good : exMesh.Good := by
  refine ⟨by decide, by decide, fun d i hi => ?_⟩
  fin_cases d
  · have hi : i < 3 := Nat.lt_of_succ_lt_succ (show i + 1 < 3 + 1 from hi)
    interval_cases i <;> decide +kernel
  · have hi : i < 2 := Nat.lt_of_succ_lt_succ (show i + 1 < 2 + 1 from hi)
    interval_cases i <;> decide +kernel
  · have hi : i < 2 := Nat.lt_of_succ_lt_succ (show i + 1 < 2 + 1 from hi)
    interval_cases i <;> decide +kernel

/-- Its two interior points belong to two processes. -/
def exProcs : List Corners := [⟨fun _ => 0, fun _ => 1⟩, ⟨![1, 0, 0], fun _ => 1⟩]

theorem exMesh_distributed : exMesh.Distributed exProcs := by
  refine ⟨fun b hb k j i h => ?_, fun k j i h => ?_⟩
  · simp only [exProcs, List.mem_cons, List.not_mem_nil, or_false] at hb
    rcases hb with rfl | rfl
    · simp [Corners.Has, CartMesh.Interior, exMesh] at h ⊢
      omega
    · simp [Corners.Has, CartMesh.Interior, exMesh] at h ⊢
      omega
  · have h' : i + 2 < 4 ∧ j + 2 < 3 ∧ k + 2 < 3 := h
    have hj : j = 0 := by omega
    have hk : k = 0 := by omega
    subst hj hk
    rcases (by omega : i = 0 ∨ i = 1) with rfl | rfl
    · exact ⟨_, List.mem_cons_self, by simp [Corners.Has]⟩
    · exact ⟨_, List.mem_cons_of_mem _ List.mem_cons_self, by simp [Corners.Has]⟩

/-- Its matrix in the library: `[5 -1/3; -1/3 5]`. -/
def exPois : SR ℚ := { exA2 with vals := [5, -1 / 3, -1 / 3, 5] }

theorem exPois_stored {A : DAMat ℚ} (e : assembleLHS exMesh exProcs = .ok A) : exMesh.StoredIn A exPois := by
  rw [assembleLHS_eq exMesh_good exMesh_distributed] at e
  obtain rfl : lhsSpec exMesh = A := Except.ok.inj e
  refine ⟨rfl, fun I hI J hJ => ?_⟩
  have hI : I < 2 := hI
  have hJ : J < 2 := hJ
  interval_cases I <;> interval_cases J <;> decide +kernel

/-- Non-vacuity: the matrix is assembled, every relaxation solves its systems, and the norm fails. -/
example : ∃ A, assembleLHS exMesh exProcs = .ok A ∧ exMesh.StoredIn A exPois ∧ (∀ method : RelaxMethod, method.Solves exPois [1 / 5, 1 / 5] [0, 1, 2]) ∧
    ∃ b ∈ exProcs, ∀ v, computeNorm exMesh b v = .error .ub := by
  obtain ⟨A, e, _, h⟩ := poisson_relax_solves exMesh_good exMesh_distributed
  have hst := exPois_stored e
  refine ⟨A, e, hst, fun method => h exPois _ _ hst (by constructor <;> decide) (SR.sorted_of_check (by decide)) (by constructor <;> decide) ?_ (levelsOk_range exPois) method,
    poisson_norm_ub exMesh_good exMesh_distributed⟩
  constructor
  · decide
  · intro i hi
    have hi : i < 2 := hi
    interval_cases i <;> decide +kernel
  · intro i hi
    have hi : i < 2 := hi
    interval_cases i <;> decide +kernel

/-- Non-vacuity for the norm: a process inside of a grid of 5 × 5 × 5 points. -/
example : ∃ r : ℝ, computeNorm exCube ⟨fun _ => 1, fun _ => 2⟩ (fun _ _ _ => 1) = .ok r :=
  ⟨_, poisson_norm_partial exCube_good (fun k j i h => by simp [Corners.Has, CartMesh.Interior, exCube] at h ⊢; omega) (fun _ => le_rfl) _⟩

/-- Non-vacuity for the mesh size: that of this grid is `√3/4`. -/
example : ∃ r, computeMeshSize Real.sqrt exCube = .ok r ∧ ∃ k j i, exCube.Cell k j i ∧ exCube.diagonal k j i = r := by
  obtain ⟨r, e, _, h⟩ := poisson_mesh_size exCube_good
  exact ⟨r, e, h⟩

/-- Non-vacuity for ILU(0): the matrix of the small grid meets the setting of `compute`. -/
example : ∃ inf st' u, scalarCompute (fun x : ℚ => x⁻¹) ⟨true, 2, .original, false⟩ exPois [1, 0] [3, 1, 0, 2] [7, 7, 7, 7] [7, 7] [7, 7] {} = .ok (inf, st') ∧ st'.iluvals = some u ∧
    ∀ b x : List ℚ, x.length = 2 → ∃ s : Nat → ℚ, (∀ i < 2, ∑ j ∈ range 2, exPois.entry i j * s j = b⟦i⟧) ∧
      ∀ ε > 0, ∃ k₀, ∀ k ≥ k₀, ∀ y, IluIteration exPois u st'.scale b k x y → ∀ i < 2, |y⟦i⟧ - s i| < ε := by
  obtain ⟨A, e, h⟩ := poisson_ilu_converges exMesh_good exMesh_distributed
  refine h (exPois_stored e) ?_ (by decide) (.inl (by decide)) fun a ha => inv_ne_zero ha.ne'
  exact { full := by constructor <;> decide
          sorted := SR.sorted_of_check (by decide)
          diag := by constructor <;> decide
          ord_perm := by decide
          ordc_perm := by decide
          gilu_len := by decide
          gy_len := by decide
          gscale_len := by decide
          state := Or.inl rfl }

end Blasted
