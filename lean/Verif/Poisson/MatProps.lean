import Verif.Poisson.Props
import Verif.Solve.DomProps

/-!
# The Poisson test problem: the solvers of the library on its matrix
-/

namespace Blasted
open Finset

section
variable {K : Type} [Field K] [LinearOrder K]

/-! ### The numbering of the points -/

omit [LinearOrder K] in
theorem flat_sum (m : CartMesh K) (A : DAMat K) (f : Nat → K) {k j i : Nat} (hi : m.Interior k j i) :
    ∑ J ∈ range m.size, m.flat A ((k * (m.npoind 1 - 2) + j) * (m.npoind 0 - 2) + i) J * f J =
      m.mul A (fun k j i => f ((k * (m.npoind 1 - 2) + j) * (m.npoind 0 - 2) + i)) k j i := by
  obtain ⟨h0, h1, h2⟩ := hi
  have hd : ∀ {a b c : Nat}, c < m.npoind 0 - 2 → b < m.npoind 1 - 2 →
      ((a * (m.npoind 1 - 2) + b) * (m.npoind 0 - 2) + c) / (m.npoind 0 - 2) / (m.npoind 1 - 2) = a ∧
      ((a * (m.npoind 1 - 2) + b) * (m.npoind 0 - 2) + c) / (m.npoind 0 - 2) % (m.npoind 1 - 2) = b ∧
      ((a * (m.npoind 1 - 2) + b) * (m.npoind 0 - 2) + c) % (m.npoind 0 - 2) = c := by
    intro a b c hc hb
    have e1 : ((a * (m.npoind 1 - 2) + b) * (m.npoind 0 - 2) + c) / (m.npoind 0 - 2) = a * (m.npoind 1 - 2) + b := by
      rw [Nat.add_comm, Nat.add_mul_div_right _ _ (by omega), Nat.div_eq_of_lt hc, Nat.zero_add]
    refine ⟨?_, ?_, ?_⟩
    · rw [e1, Nat.add_comm, Nat.add_mul_div_right _ _ (by omega), Nat.div_eq_of_lt hb, Nat.zero_add]
    · rw [e1, Nat.add_comm, Nat.add_mul_mod_self_right, Nat.mod_eq_of_lt hb]
    · rw [Nat.add_comm, Nat.add_mul_mod_self_right, Nat.mod_eq_of_lt hc]
  unfold CartMesh.size CartMesh.mul
  rw [sum_range_mul_blocks, sum_range_mul_blocks]
  refine sum_congr rfl fun k' _ => sum_congr rfl fun j' hj => sum_congr rfl fun i' hi' => ?_
  rw [mem_range] at hj hi'
  obtain ⟨a1, a2, a3⟩ := hd (a := k) (show i < m.npoind 0 - 2 by omega) (show j < m.npoind 1 - 2 by omega)
  obtain ⟨b1, b2, b3⟩ := hd (a := k') hi' hj
  unfold CartMesh.flat
  dsimp only
  rw [a1, a2, a3, b1, b2, b3]

omit [Field K] [LinearOrder K] in
theorem flat_point (m : CartMesh K) {I : Nat} (hI : I < m.size) :
    m.Interior (I / (m.npoind 0 - 2) / (m.npoind 1 - 2)) (I / (m.npoind 0 - 2) % (m.npoind 1 - 2)) (I % (m.npoind 0 - 2)) ∧
      I = (I / (m.npoind 0 - 2) / (m.npoind 1 - 2) * (m.npoind 1 - 2) + I / (m.npoind 0 - 2) % (m.npoind 1 - 2)) * (m.npoind 0 - 2) + I % (m.npoind 0 - 2) := by
  unfold CartMesh.size at hI
  generalize hM : m.npoind 0 - 2 = M at *
  generalize hN : m.npoind 1 - 2 = N at *
  generalize hP : m.npoind 2 - 2 = P at *
  have h0 : 0 < M := by by_contra h; rw [show M = 0 by omega] at hI; simp at hI
  have h1 : 0 < N := by by_contra h; rw [show N = 0 by omega] at hI; simp at hI
  refine ⟨⟨?_, ?_, ?_⟩, ?_⟩
  · have := Nat.mod_lt I h0; omega
  · have := Nat.mod_lt (I / M) h1; omega
  · have : I / M / N < P := by
      rw [Nat.div_div_eq_div_mul]
      exact Nat.div_lt_of_lt_mul (by rwa [show M * N * P = P * N * M by ring])
    generalize I / M / N = q at this ⊢
    omega
  · rw [Nat.mul_comm _ N, Nat.div_add_mod, Nat.mul_comm, Nat.div_add_mod]

/-! ### Signs -/

variable [IsStrictOrderedRing K]

theorem rowSpec_signs {m : CartMesh K} (h : m.Good) {k j i : Nat} (hi : m.Interior k j i) {cv : MatStencil × K} (hcv : cv ∈ rowSpec m k j i) :
    (cv.1 = ⟨k, j, i⟩ → 0 < cv.2) ∧ (cv.1 ≠ ⟨k, j, i⟩ → cv.2 ≤ 0) := by
  obtain ⟨a1, a2, a3⟩ := h.steps hi.1
  obtain ⟨b1, b2, b3⟩ := h.steps hi.2.1
  obtain ⟨c1, c2, c3⟩ := h.steps hi.2.2
  have hneg : ∀ {a b : K}, 0 < a → 0 < b → -1 / (a * (1 / 2) * b) ≤ 0 := fun ha hb => div_nonpos_of_nonpos_of_nonneg (by norm_num) (by positivity)
  simp only [rowSpec, List.mem_cons, List.not_mem_nil, or_false] at hcv
  rcases hcv with rfl | rfl | rfl | rfl | rfl | rfl | rfl
  · exact ⟨fun e => by simp only [MatStencil.mk.injEq] at e; omega, fun _ => hneg c1 c3⟩
  · exact ⟨fun e => by simp only [MatStencil.mk.injEq] at e; omega, fun _ => hneg b1 b3⟩
  · exact ⟨fun e => by simp only [MatStencil.mk.injEq] at e; omega, fun _ => hneg a1 a3⟩
  · exact ⟨fun _ => by positivity, fun e => absurd rfl e⟩
  · exact ⟨fun e => by simp only [MatStencil.mk.injEq] at e; omega, fun _ => hneg a2 a3⟩
  · exact ⟨fun e => by simp only [MatStencil.mk.injEq] at e; omega, fun _ => hneg b2 b3⟩
  · exact ⟨fun e => by simp only [MatStencil.mk.injEq] at e; omega, fun _ => hneg c2 c3⟩

theorem lhsSpec_off {m : CartMesh K} (h : m.Good) {k j i : Nat} (hi : m.Interior k j i) {c : MatStencil} (hc : c ≠ ⟨k, j, i⟩) : (lhsSpec m ⟨k, j, i⟩ c).getD 0 ≤ 0 := by
  unfold lhsSpec
  split
  · rw [Int.toNat_natCast, Int.toNat_natCast, Int.toNat_natCast]
    by_cases hm : c ∈ (rowSpec m k j i).map Prod.fst
    · obtain ⟨⟨c', v⟩, hv, rfl⟩ := List.mem_map.1 hm
      rw [find_nodup (rowSpec_nodup m k j i) hv]
      exact (rowSpec_signs h hi hv).2 hc
    · rw [find_none hm]
      exact le_rfl
  · exact le_rfl

theorem lhsSpec_diag {m : CartMesh K} (h : m.Good) {k j i : Nat} (hi : m.Interior k j i) : 0 < (lhsSpec m ⟨k, j, i⟩ ⟨k, j, i⟩).getD 0 := by
  unfold lhsSpec
  rw [if_pos ⟨daHas_of.2 hi, daHas_of.2 hi⟩, Int.toNat_natCast, Int.toNat_natCast, Int.toNat_natCast]
  obtain ⟨⟨c', v⟩, hv, e⟩ := List.mem_map.1 (show (⟨k, j, i⟩ : MatStencil) ∈ (rowSpec m k j i).map Prod.fst by simp [rowSpec])
  dsimp only at e
  subst e
  rw [find_nodup (rowSpec_nodup m k j i) hv]
  exact (rowSpec_signs h hi hv).1 rfl

/-! ### A function whose negative Laplacian is positive -/

omit [IsStrictOrderedRing K] in
theorem secondDiff_parabola [IsStrictOrderedRing K] {x0 x1 x2 a b : K} (h1 : x1 - x0 ≠ 0) (h2 : x2 - x1 ≠ 0) (h3 : x2 - x0 ≠ 0) :
    secondDiff x0 x1 x2 ((x0 - a) * (b - x0)) ((x1 - a) * (b - x1)) ((x2 - a) * (b - x2)) = -2 := by
  unfold secondDiff
  field_simp
  ring

theorem secondDiff_le {x0 x1 x2 u0 u1 u2 : K} (h1 : 0 < x1 - x0) (h2 : 0 < x2 - x1) (h3 : 0 < x2 - x0) (h : u0 ≤ u1) (h' : u2 ≤ u1) : secondDiff x0 x1 x2 u0 u1 u2 ≤ 0 := by
  unfold secondDiff
  refine mul_nonpos_of_nonneg_of_nonpos (by positivity) (sub_nonpos.2 ?_)
  exact (div_nonpos_of_nonpos_of_nonneg (by linarith) h2.le).trans (div_nonneg (by linarith) h1.le)

omit [IsStrictOrderedRing K] in
theorem CartMesh.Good.lt {m : CartMesh K} (h : m.Good) (d : Fin 3) {a b : Nat} (hab : a < b) (hb : b < m.npoind d) : m.x d a < m.x d b := by
  induction b with
  | zero => omega
  | succ b ih =>
    rcases Nat.lt_succ_iff_lt_or_eq.1 hab with h' | rfl
    · exact (ih h' (by omega)).trans (h.incr d b hb)
    · exact h.incr d a hb

/-- A parabola along the first axis that vanishes at both ends. -/
def parabola (m : CartMesh K) (i : Nat) : K := (m.x 0 (i + 1) - m.x 0 0) * (m.x 0 (m.npoind 0 - 1) - m.x 0 (i + 1))

theorem parabola_pos {m : CartMesh K} (h : m.Good) {i : Nat} (hi : i + 2 < m.npoind 0) : 0 < parabola m i :=
  mul_pos (sub_pos.2 (h.lt 0 (by omega) (by omega))) (sub_pos.2 (h.lt 0 (by omega) (by omega)))

theorem laplacian_parabola {m : CartMesh K} (h : m.Good) {k j i : Nat} (hi : m.Interior k j i) : m.laplacian (fun _ _ i => parabola m i) k j i ≤ -2 := by
  obtain ⟨a1, a2, a3⟩ := h.steps hi.1
  obtain ⟨b1, b2, b3⟩ := h.steps hi.2.1
  obtain ⟨c1, c2, c3⟩ := h.steps hi.2.2
  have hext : ∀ a b c, m.ext (fun _ _ i => parabola m i) (a + 1) (b + 1) (c + 1) = if c + 2 < m.npoind 0 ∧ b + 2 < m.npoind 1 ∧ a + 2 < m.npoind 2 then parabola m c else 0 := fun _ _ _ => rfl
  have hx : ∀ c, c < m.npoind 0 → m.ext (fun _ _ i => parabola m i) (k + 1) (j + 1) c = (m.x 0 c - m.x 0 0) * (m.x 0 (m.npoind 0 - 1) - m.x 0 c) := by
    intro c hc
    cases c with
    | zero => simp [CartMesh.ext]
    | succ c =>
      rw [hext]
      by_cases hl : c + 2 < m.npoind 0
      · rw [if_pos ⟨hl, hi.2⟩]
        rfl
      · rw [if_neg fun e => hl e.1, show m.npoind 0 - 1 = c + 1 by omega]
        simp
  have hc : m.ext (fun _ _ i => parabola m i) (k + 1) (j + 1) (i + 1) = parabola m i := by rw [hext]; exact if_pos hi
  have hp := parabola_pos h hi.1
  have hle : ∀ a b, m.ext (fun _ _ i => parabola m i) a b (i + 1) ≤ parabola m i := by
    intro a b
    cases a with
    | zero => exact hp.le
    | succ a =>
      cases b with
      | zero => exact hp.le
      | succ b =>
        rw [hext]
        split
        · exact le_rfl
        · exact hp.le
  have e1 : secondDiff (m.x 0 i) (m.x 0 (i + 1)) (m.x 0 (i + 2)) (m.ext (fun _ _ i => parabola m i) (k + 1) (j + 1) i) (m.ext (fun _ _ i => parabola m i) (k + 1) (j + 1) (i + 1))
      (m.ext (fun _ _ i => parabola m i) (k + 1) (j + 1) (i + 2)) = -2 := by
    rw [hx i (by have := hi.1; omega), hx (i + 1) (by have := hi.1; omega), hx (i + 2) hi.1]
    exact secondDiff_parabola a1.ne' a2.ne' a3.ne'
  unfold CartMesh.laplacian
  rw [e1, hc]
  have e2 := secondDiff_le b1 b2 b3 (hle (k + 1) j) (hle (k + 1) (j + 2))
  have e3 := secondDiff_le c1 c2 c3 (hle k (j + 1)) (hle (k + 2) (j + 1))
  linarith

/-- **The matrix of the Poisson problem is an M-matrix**, with a positive diagonal. -/
theorem poisson_mmat {m : CartMesh K} (h : m.Good) {procs : List Corners} (hp : m.Distributed procs) :
    ∃ A, assembleLHS m procs = .ok A ∧ (∃ d, MMat m.size (m.flat A) d) ∧ ∀ I < m.size, 0 < m.flat A I I := by
  refine ⟨_, assembleLHS_eq h hp, ⟨fun I => parabola m (I % (m.npoind 0 - 2)), fun I hI => ?_, fun I hI J hJ hne => ?_, fun I hI => ?_⟩, fun I hI => ?_⟩
  · exact parabola_pos h (flat_point m hI).1.1
  · obtain ⟨hi, eI⟩ := flat_point m hI
    obtain ⟨hj, eJ⟩ := flat_point m hJ
    refine lhsSpec_off h hi fun e => hne ?_
    simp only [MatStencil.mk.injEq, Nat.cast_inj] at e
    rw [eI, eJ, e.1, e.2.1, e.2.2]
  · obtain ⟨hi, eI⟩ := flat_point m hI
    generalize I / (m.npoind 0 - 2) / (m.npoind 1 - 2) = k at hi eI
    generalize I / (m.npoind 0 - 2) % (m.npoind 1 - 2) = j at hi eI
    generalize I % (m.npoind 0 - 2) = i at hi eI
    subst eI
    rw [flat_sum m _ _ hi]
    have e : m.mul (lhsSpec m) (fun k j i => parabola m (((k * (m.npoind 1 - 2) + j) * (m.npoind 0 - 2) + i) % (m.npoind 0 - 2))) k j i =
        m.mul (lhsSpec m) (fun _ _ i => parabola m i) k j i := by
      unfold CartMesh.mul
      refine sum_congr rfl fun k' _ => sum_congr rfl fun j' _ => sum_congr rfl fun i' hi' => ?_
      dsimp only
      rw [Nat.add_comm _ i', Nat.add_mul_mod_self_right, Nat.mod_eq_of_lt (mem_range.1 hi')]
    rw [e, lhsSpec_laplacian h _ hi]
    have := laplacian_parabola h hi
    linarith
  · exact lhsSpec_diag h (flat_point m hI).1

/-- **Discrete maximum principle.** If the right-hand side is nonnegative then so is the solution. -/
theorem MMat.nonneg {n : Nat} {S : Nat → Nat → K} {d w : Nat → K} (h : MMat n S d) (hw : ∀ i < n, 0 ≤ ∑ j ∈ range n, S i j * w j) : ∀ i < n, 0 ≤ w i := by
  by_contra hcon
  push Not at hcon
  obtain ⟨i0, hi0, hneg0⟩ := hcon
  obtain ⟨i, hi, hmin⟩ := exists_min_image (range n) (fun i => w i / d i) ⟨i0, mem_range.2 hi0⟩
  rw [mem_range] at hi
  have hti : w i / d i < 0 := (hmin i0 (mem_range.2 hi0)).trans_lt (div_neg_of_neg_of_pos hneg0 (h.pos i0 hi0))
  have h1 : ∑ j ∈ range n, S i j * (w j - w i / d i * d j) ≤ 0 := sum_nonpos fun j hj => by
    rw [mem_range] at hj
    have hd := h.pos j hj
    by_cases e : j = i
    · subst e
      rw [div_mul_cancel₀ _ hd.ne', sub_self, mul_zero]
    · refine mul_nonpos_of_nonpos_of_nonneg (h.off i hi j hj (Ne.symm e)) (sub_nonneg.2 ?_)
      rw [← le_div_iff₀ hd]
      exact hmin j (mem_range.2 hj)
  have h2 : ∑ j ∈ range n, S i j * (w j - w i / d i * d j) = ∑ j ∈ range n, S i j * w j - w i / d i * ∑ j ∈ range n, S i j * d j := by
    rw [mul_sum, ← sum_sub_distrib]
    exact sum_congr rfl fun j _ => by ring
  rw [h2] at h1
  have := mul_neg_of_neg_of_pos hti (h.semi i hi)
  linarith [hw i hi]

/-- A matrix of the library that holds the matrix of the Poisson problem. -/
def CartMesh.StoredIn (m : CartMesh K) (A : DAMat K) (B : SR K) : Prop := B.nbrows = m.size ∧ ∀ I < m.size, ∀ J < m.size, B.entry I J = m.flat A I J

omit [IsStrictOrderedRing K] in
theorem MMat.stored {m : CartMesh K} {A : DAMat K} {B : SR K} {d : Nat → K} (h : MMat m.size (m.flat A) d) (hB : m.StoredIn A B) : MMat B.nbrows B.entry d := by
  obtain ⟨hn, he⟩ := hB
  rw [hn]
  exact ⟨h.pos, fun i hi j hj hne => (he i hi j hj).symm ▸ h.off i hi j hj hne, fun i hi => by
    rw [sum_congr rfl fun j hj => by rw [he i hi j (mem_range.1 hj)]]
    exact h.semi i hi⟩

/-- **The relaxations of the library solve the Poisson problem.** Whatever the grid and the distribution among processes: the assembled matrix is nonsingular, so that every right-hand side has exactly one
solution; a nonnegative right-hand side has a nonnegative solution; and, stored in sorted rows with its diagonal, every relaxation of the library under every schedule of its threads converges to the
solution for every right-hand side and every initial guess. -/
theorem poisson_relax_solves [Archimedean K] {m : CartMesh K} (h : m.Good) {procs : List Corners} (hp : m.Distributed procs) :
    ∃ A, assembleLHS m procs = .ok A ∧
      (∀ b : Nat → K, ∃ s : Nat → K, (∀ I < m.size, ∑ J ∈ range m.size, m.flat A I J * s J = b I) ∧
        (∀ s' : Nat → K, (∀ I < m.size, ∑ J ∈ range m.size, m.flat A I J * s' J = b I) → ∀ I < m.size, s' I = s I) ∧
        ((∀ I < m.size, 0 ≤ b I) → ∀ I < m.size, 0 ≤ s I)) ∧
      ∀ (B : SR K) (dinv : List K) (levels : List Nat), m.StoredIn A B → B.Full → B.Sorted → B.HasDiag → DiagInv B dinv → LevelsOk B levels →
        ∀ method : RelaxMethod, method.Solves B dinv levels := by
  obtain ⟨A, e, ⟨d, hd⟩, _⟩ := poisson_mmat h hp
  obtain ⟨rho, h1, h0, hdom⟩ := hd.wdominant
  refine ⟨A, e, fun b => ?_, fun B dinv levels hB hF hS hD hI hL method => ?_⟩
  · obtain ⟨s, hs⟩ := exists_solution (hdom.injective h1) b
    refine ⟨s, hs, fun s' hs' I hI => ?_, fun hb => hd.nonneg fun I hI => (hs I hI).symm ▸ hb I hI⟩
    have := hdom.injective h1 (fun J => s' J - s J) (fun I hI => by
      simp only [mul_sub, sum_sub_distrib]
      rw [hs I hI, hs' I hI, sub_self]) I hI
    exact sub_eq_zero.1 this
  · obtain ⟨rho, h1, h0, hdom⟩ := (hd.stored hB).wdominant
    exact weighted_relax_limit hF hS hD hI hL hdom h0 h1 method

/-- A bound of the weighted error that decreases geometrically is convergence. -/
theorem weighted_limit [Archimedean K] {n : Nat} {d s : Nat → K} (hd : ∀ i < n, 0 < d i) {rho : K} (h0 : 0 ≤ rho) (h1 : rho < 1) (x : Nat → K) {R : Nat → List K → Prop}
    (hR : ∀ c, 0 ≤ c → (∀ i < n, |x i - s i| ≤ c * d i) → ∀ k y, R k y → ∀ i < n, |y⟦i⟧ - s i| ≤ c * rho ^ k * d i) :
    ∀ ε > 0, ∃ k₀, ∀ k ≥ k₀, ∀ y, R k y → ∀ i < n, |y⟦i⟧ - s i| < ε := by
  intro ε hε
  obtain ⟨E, hE, hx⟩ : ∃ E : K, 0 ≤ E ∧ ∀ i < n, |x i - s i| ≤ E * d i := by
    refine ⟨∑ j ∈ range n, |x j - s j| / d j, sum_nonneg fun j hj => div_nonneg (abs_nonneg _) (hd j (mem_range.mp hj)).le, fun i hi => ?_⟩
    rw [← div_le_iff₀ (hd i hi)]
    exact single_le_sum (f := fun j => |x j - s j| / d j) (fun j hj => div_nonneg (abs_nonneg _) (hd j (mem_range.mp hj)).le) (mem_range.mpr hi)
  have hD0 : 0 ≤ ∑ j ∈ range n, d j := sum_nonneg fun j hj => (hd j (mem_range.mp hj)).le
  have hED : 0 < E * (∑ j ∈ range n, d j) + 1 := add_pos_of_nonneg_of_pos (mul_nonneg hE hD0) one_pos
  obtain ⟨k₀, hk⟩ : ∃ k₀ : Nat, rho ^ k₀ < ε / (E * (∑ j ∈ range n, d j) + 1) := exists_pow_lt_of_lt_one (div_pos hε hED) h1
  refine ⟨k₀, fun k hkk y hy i hi => ?_⟩
  have hdi : d i ≤ ∑ j ∈ range n, d j := single_le_sum (f := d) (fun j hj => (hd j (mem_range.mp hj)).le) (mem_range.mpr hi)
  calc |y⟦i⟧ - s i| ≤ E * rho ^ k * d i := hR E hE hx k y hy i hi
    _ ≤ E * rho ^ k * (∑ j ∈ range n, d j) := mul_le_mul_of_nonneg_left hdi (mul_nonneg hE (pow_nonneg h0 _))
    _ = rho ^ k * (E * (∑ j ∈ range n, d j)) := by ring
    _ ≤ rho ^ k₀ * (E * (∑ j ∈ range n, d j)) := mul_le_mul_of_nonneg_right (pow_le_pow_of_le_one h0 h1.le hkk) (mul_nonneg hE hD0)
    _ ≤ rho ^ k₀ * (E * (∑ j ∈ range n, d j) + 1) := mul_le_mul_of_nonneg_left (le_add_of_nonneg_right zero_le_one) (pow_nonneg h0 _)
    _ < ε / (E * (∑ j ∈ range n, d j) + 1) * (E * (∑ j ∈ range n, d j) + 1) := mul_lt_mul_of_pos_right hk hED
    _ = ε := div_mul_cancel₀ _ hED.ne'

/-- **The iteration preconditioned with ILU(0) solves the Poisson problem.** Whatever the grid and the distribution among processes: `compute` factorizes the assembled matrix without breakdown, with or
without scaling, and the iteration that corrects by the preconditioned residual converges to the solution for every right-hand side and every initial guess, for every way of applying the factors. -/
theorem poisson_ilu_converges [Archimedean K] {m : CartMesh K} (h : m.Good) {procs : List Corners} (hp : m.Distributed procs) :
    ∃ A, assembleLHS m procs = .ok A ∧ ∀ {B : SR K} {isq : K → K} {conf : ILUConf} {ord ordc : List Nat} {gilu gy gscale : List K} {st : ILUState K K}, m.StoredIn A B →
      CompSetting conf.usescaling B ord ordc gilu gy gscale st → 1 ≤ conf.nbuildsweeps → (conf.factinit ≠ .sgs ∨ conf.usescaling = false) → (∀ a, 0 < a → isq a ≠ 0) →
      ∃ inf st' u, scalarCompute isq conf B ord ordc gilu gy gscale st = .ok (inf, st') ∧ st'.iluvals = some u ∧
        ∀ b x : List K, x.length = B.nbrows → ∃ s : Nat → K, (∀ i < B.nbrows, ∑ j ∈ range B.nbrows, B.entry i j * s j = b⟦i⟧) ∧
          ∀ ε > 0, ∃ k₀, ∀ k ≥ k₀, ∀ y, IluIteration B u st'.scale b k x y → ∀ i < B.nbrows, |y⟦i⟧ - s i| < ε := by
  obtain ⟨A, e, ⟨d, hd⟩, hdiag⟩ := poisson_mmat h hp
  refine ⟨A, e, fun {B isq conf ord ordc gilu gy gscale st} hB hc hk hft hisq => ?_⟩
  obtain ⟨rho, h1, h0, hdom⟩ := (hd.stored hB).wdominant
  have hisq' : conf.usescaling = true → ∀ i < B.nbrows, isq (B.entry i i) ≠ 0 := fun _ i hi => by
    rw [hB.1] at hi
    rw [hB.2 i hi i hi]
    exact hisq _ (hdiag i hi)
  obtain ⟨inf, st', u, e', hu, _⟩ := scalar_ilu_dominant_compute hc hk hft hisq' hdom h1
  refine ⟨inf, st', u, e', hu, fun b x hx => ?_⟩
  obtain ⟨s, hs⟩ := exists_solution (hdom.injective h1) (get0 b)
  exact ⟨s, hs, weighted_limit hdom.pos h0 h1 (get0 x) fun c hc0 hb k y hy => (ilu_iteration_converges hc hk hisq' hdom h0 h1 e' hu hs hx hc0 hb hy).2⟩

end

end Blasted
