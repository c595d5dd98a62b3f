import Verif.Poisson.Spec
import Verif.MatVec.Lemmas
import Verif.Relax.WeightProps
import Mathlib.Tactic.FieldSimp
import Mathlib.Tactic.LinearCombination
import Mathlib.Tactic.IntervalCases

/-!
# The Poisson test problem: the matrix
-/

namespace Blasted
open Finset

section
variable {K : Type} [Field K] [LinearOrder K]

theorem fdiv_eq {a b : K} (h : b ≠ 0) : fdiv a b = .ok (a / b) := if_neg h

omit [LinearOrder K] in
theorem gcoords_eq {m : CartMesh K} {d : Fin 3} {n : Nat} {z : Int} (h : z = n) (hn : n < (m.coords d).length) : m.gcoords d z = .ok (m.x d n) := by
  subst h
  unfold CartMesh.gcoords
  rw [if_pos (Int.natCast_nonneg _), Int.toNat_natCast, rd_eq hn]
  rfl

omit [Field K] [LinearOrder K] in
theorem gcoords_neg {m : CartMesh K} {d : Fin 3} {z : Int} (h : z < 0) : m.gcoords d z = .error .ub := if_neg (by omega)

/-- The row of the matrix. -/
def rowSpec (m : CartMesh K) (k j i : Nat) : List (MatStencil × K) :=
  [(⟨k - 1, j, i⟩, -1 / ((m.x 2 (k + 1) - m.x 2 k) * (1 / 2) * (m.x 2 (k + 2) - m.x 2 k))),
   (⟨k, j - 1, i⟩, -1 / ((m.x 1 (j + 1) - m.x 1 j) * (1 / 2) * (m.x 1 (j + 2) - m.x 1 j))),
   (⟨k, j, i - 1⟩, -1 / ((m.x 0 (i + 1) - m.x 0 i) * (1 / 2) * (m.x 0 (i + 2) - m.x 0 i))),
   (⟨k, j, i⟩, 2 / (m.x 0 (i + 2) - m.x 0 i) * (1 / (m.x 0 (i + 2) - m.x 0 (i + 1)) + 1 / (m.x 0 (i + 1) - m.x 0 i)) +
      2 / (m.x 1 (j + 2) - m.x 1 j) * (1 / (m.x 1 (j + 2) - m.x 1 (j + 1)) + 1 / (m.x 1 (j + 1) - m.x 1 j)) +
      2 / (m.x 2 (k + 2) - m.x 2 k) * (1 / (m.x 2 (k + 2) - m.x 2 (k + 1)) + 1 / (m.x 2 (k + 1) - m.x 2 k))),
   (⟨k, j, i + 1⟩, -1 / ((m.x 0 (i + 2) - m.x 0 (i + 1)) * (1 / 2) * (m.x 0 (i + 2) - m.x 0 i))),
   (⟨k, j + 1, i⟩, -1 / ((m.x 1 (j + 2) - m.x 1 (j + 1)) * (1 / 2) * (m.x 1 (j + 2) - m.x 1 j))),
   (⟨k + 1, j, i⟩, -1 / ((m.x 2 (k + 2) - m.x 2 (k + 1)) * (1 / 2) * (m.x 2 (k + 2) - m.x 2 k)))]

omit [LinearOrder K] in
theorem rowSpec_nodup (m : CartMesh K) (k j i : Nat) : ((rowSpec m k j i).map Prod.fst).Nodup := by
  simp [rowSpec, MatStencil.mk.injEq]
  omega

section ordered
variable [IsStrictOrderedRing K]

theorem CartMesh.Good.steps {m : CartMesh K} (h : m.Good) {d : Fin 3} {i : Nat} (hi : i + 2 < m.npoind d) :
    0 < m.x d (i + 1) - m.x d i ∧ 0 < m.x d (i + 2) - m.x d (i + 1) ∧ 0 < m.x d (i + 2) - m.x d i := by
  have h1 := h.incr d i (by omega)
  have h2 := h.incr d (i + 1) hi
  refine ⟨by linarith, by linarith, by linarith⟩

theorem lhsRow_eq {m : CartMesh K} (h : m.Good) {k j i : Nat} (hi : m.Interior k j i) : lhsRow m k j i = .ok (rowSpec m k j i) := by
  obtain ⟨h0, h1, h2⟩ := hi
  have l0 := h.len 0
  have l1 := h.len 1
  have l2 := h.len 2
  obtain ⟨a1, a2, a3⟩ := h.steps h0
  obtain ⟨b1, b2, b3⟩ := h.steps h1
  obtain ⟨c1, c2, c3⟩ := h.steps h2
  unfold lhsRow
  dsimp only
  rw [gcoords_eq (n := i) (by omega) (by omega), ok_bind, gcoords_eq (n := i + 1) (by omega) (by omega), ok_bind, gcoords_eq (n := i + 2) (by omega) (by omega), ok_bind,
    gcoords_eq (n := j) (by omega) (by omega), ok_bind, gcoords_eq (n := j + 1) (by omega) (by omega), ok_bind, gcoords_eq (n := j + 2) (by omega) (by omega), ok_bind,
    gcoords_eq (n := k) (by omega) (by omega), ok_bind, gcoords_eq (n := k + 1) (by omega) (by omega), ok_bind, gcoords_eq (n := k + 2) (by omega) (by omega), ok_bind]
  have hh : (1 / 2 : K) ≠ 0 := by norm_num
  iterate 15 rw [fdiv_eq (by first | exact a1.ne' | exact a2.ne' | exact a3.ne' | exact b1.ne' | exact b2.ne' | exact b3.ne' | exact c1.ne' | exact c2.ne' | exact c3.ne' |
    exact mul_ne_zero (mul_ne_zero a1.ne' hh) a3.ne' | exact mul_ne_zero (mul_ne_zero b1.ne' hh) b3.ne' | exact mul_ne_zero (mul_ne_zero c1.ne' hh) c3.ne' |
    exact mul_ne_zero (mul_ne_zero a2.ne' hh) a3.ne' | exact mul_ne_zero (mul_ne_zero b2.ne' hh) b3.ne' | exact mul_ne_zero (mul_ne_zero c2.ne' hh) c3.ne'), ok_bind]
  rfl

end ordered

omit [Field K] [LinearOrder K] in
theorem matSet_other (dims : Fin 3 → Nat) (r r' c : MatStencil) (hne : r' ≠ r ∨ daHas dims r = false ∨ daHas dims c = false) : ∀ (cols : List (MatStencil × K)) (A : DAMat K),
    matSetValuesStencil dims A r cols r' c = A r' c
  | [], A => rfl
  | cv :: cols, A => by
    have ih := matSet_other dims r r' c hne cols
    unfold matSetValuesStencil at ih ⊢
    rw [List.foldl_cons, ih]
    split
    · rename_i h
      dsimp only
      rw [if_neg]
      rintro ⟨rfl, rfl⟩
      simp_all
    · rfl

omit [Field K] [LinearOrder K] in
theorem matSet_notMem (dims : Fin 3 → Nat) (r r' c : MatStencil) : ∀ (cols : List (MatStencil × K)) (A : DAMat K), c ∉ cols.map Prod.fst →
    matSetValuesStencil dims A r cols r' c = A r' c
  | [], A, _ => rfl
  | cv :: cols, A, h => by
    have ih := matSet_notMem dims r r' c cols
    rw [List.map_cons, List.mem_cons, not_or] at h
    unfold matSetValuesStencil at ih ⊢
    rw [List.foldl_cons, ih _ h.2]
    split
    · dsimp only
      rw [if_neg fun e => h.1 e.2]
    · rfl

omit [Field K] [LinearOrder K] in
theorem matSet_mem (dims : Fin 3 → Nat) (r c : MatStencil) (hr : daHas dims r = true) (hc : daHas dims c = true) : ∀ (cols : List (MatStencil × K)) (A : DAMat K) (v : K),
    (cols.map Prod.fst).Nodup → (c, v) ∈ cols → matSetValuesStencil dims A r cols r c = some v
  | [], A, v, _, h => by simp at h
  | cv :: cols, A, v, hn, h => by
    rw [List.map_cons, List.nodup_cons] at hn
    rcases List.mem_cons.1 h with rfl | h'
    · have := matSet_notMem dims r r c cols (fun r' c' => if r' = r ∧ c' = c then some v else A r' c') hn.1
      unfold matSetValuesStencil at this ⊢
      rw [List.foldl_cons, if_pos ⟨hr, hc⟩, this]
      simp
    · have := matSet_mem dims r c hr hc cols (if daHas dims r ∧ daHas dims cv.1 then fun r' c' => if r' = r ∧ c' = cv.1 then some cv.2 else A r' c' else A) v hn.2 h'
      unfold matSetValuesStencil at this ⊢
      rw [List.foldl_cons, this]

/-- The assembled matrix. -/
def lhsSpec (m : CartMesh K) : DAMat K := fun r c => if daHas m.dims r ∧ daHas m.dims c then ((rowSpec m r.k.toNat r.j.toNat r.i.toNat).find? fun cv => cv.1 = c).map Prod.snd else none

omit [Field K] [LinearOrder K] in
theorem find_nodup {l : List (MatStencil × K)} (hn : (l.map Prod.fst).Nodup) {c : MatStencil} {v : K} (h : (c, v) ∈ l) : (l.find? fun cv => cv.1 = c).map Prod.snd = some v := by
  induction l with
  | nil => simp at h
  | cons a l ih =>
    rw [List.map_cons, List.nodup_cons] at hn
    rcases List.mem_cons.1 h with rfl | h'
    · simp
    · have : a.1 ≠ c := fun e => hn.1 (by rw [e]; exact List.mem_map.2 ⟨_, h', rfl⟩)
      rw [List.find?_cons_of_neg (by simpa using this)]
      exact ih hn.2 h'

omit [Field K] [LinearOrder K] in
theorem find_none {l : List (MatStencil × K)} {c : MatStencil} (h : c ∉ l.map Prod.fst) : (l.find? fun cv => cv.1 = c).map Prod.snd = none := by
  rw [Option.map_eq_none_iff, List.find?_eq_none]
  intro x hx e
  exact h (List.mem_map.2 ⟨x, hx, by simpa using e⟩)

omit [LinearOrder K] [Field K] in
theorem daHas_of {m : CartMesh K} {k j i : Nat} : daHas m.dims ⟨k, j, i⟩ = true ↔ m.Interior k j i := by
  simp [daHas, CartMesh.dims, CartMesh.Interior]
  omega

omit [LinearOrder K] in
theorem setRow_eq {m : CartMesh K} {k j i : Nat} (hi : m.Interior k j i) (A : DAMat K) (hA : ∀ r c, A r c = none ∨ A r c = lhsSpec m r c) (r c : MatStencil) :
    matSetValuesStencil m.dims A ⟨k, j, i⟩ (rowSpec m k j i) r c = if r = ⟨k, j, i⟩ then lhsSpec m r c else A r c := by
  have hr : daHas m.dims ⟨k, j, i⟩ = true := daHas_of.2 hi
  split
  · rename_i e
    subst e
    by_cases hc : daHas m.dims c = true
    · have e : lhsSpec m ⟨k, j, i⟩ c = ((rowSpec m k j i).find? fun cv => cv.1 = c).map Prod.snd := by
        unfold lhsSpec
        rw [if_pos ⟨hr, hc⟩, Int.toNat_natCast, Int.toNat_natCast, Int.toNat_natCast]
      by_cases hm : c ∈ (rowSpec m k j i).map Prod.fst
      · obtain ⟨⟨c', v⟩, hv, rfl⟩ := List.mem_map.1 hm
        rw [matSet_mem _ _ _ hr hc _ A v (rowSpec_nodup m k j i) hv, e, find_nodup (rowSpec_nodup m k j i) hv]
      · rw [matSet_notMem _ _ _ _ _ A hm, e, find_none hm]
        rcases hA ⟨k, j, i⟩ c with h | h
        · exact h
        · rw [h, e, find_none hm]
    · rw [matSet_other _ _ _ _ (.inr (.inr (by simpa using hc)))]
      rcases hA ⟨k, j, i⟩ c with h | h
      · rw [h]
        unfold lhsSpec
        rw [if_neg fun h => hc h.2]
      · exact h
  · rename_i e
    rw [matSet_other _ _ _ _ (.inl e)]

variable [IsStrictOrderedRing K]

/-- What is known of the matrix while rows are being set: the rows in `D` are finished. -/
def RowsSet (m : CartMesh K) (D : Nat → Nat → Nat → Prop) (A : DAMat K) : Prop :=
  (∀ r c, A r c = none ∨ A r c = lhsSpec m r c) ∧ ∀ k j i : Nat, D k j i → ∀ c, A ⟨k, j, i⟩ c = lhsSpec m ⟨k, j, i⟩ c

omit [LinearOrder K] [IsStrictOrderedRing K] in
theorem RowsSet.mono [LinearOrder K] {m : CartMesh K} {D D' : Nat → Nat → Nat → Prop} {A : DAMat K} (h : RowsSet m D A) (hd : ∀ k j i, D' k j i → D k j i) : RowsSet m D' A :=
  ⟨h.1, fun k j i hh => h.2 k j i (hd k j i hh)⟩

theorem computeLHS_fills {m : CartMesh K} (h : m.Good) {b : Corners} (hb : ∀ k j i, b.Has k j i → m.Interior k j i) {D : Nat → Nat → Nat → Prop} {A : DAMat K} (hA : RowsSet m D A) :
    Ok (computeLHS m b A) (RowsSet m fun k j i => D k j i ∨ b.Has k j i) := by
  unfold computeLHS
  refine (forRange_ok (fun k0 A => RowsSet m (fun k j i => D k j i ∨ (b.Has k j i ∧ k < k0)) A) (by omega) (hA.mono fun k j i h => h.elim id fun h => absurd h.2 (by have := h.1.2.2.2.2.1; omega))
    fun k A hk1 hk2 hA => ?_).mono fun A hA => hA.mono fun k j i h => h.imp id fun h => ⟨h, h.2.2.2.2.2⟩
  refine (forRange_ok (fun j0 A => RowsSet m (fun k' j i => D k' j i ∨ (b.Has k' j i ∧ (k' < k ∨ k' = k ∧ j < j0))) A) (by omega)
    (hA.mono fun k' j i h => h.imp id fun h => ⟨h.1, by have := h.1.2.2.1; omega⟩)
    fun j A hj1 hj2 hA => ?_).mono fun A hA => hA.mono fun k' j i h => h.imp id fun h => ⟨h.1, by have := h.1.2.2.2.1; omega⟩
  refine (forRange_ok (fun i0 A => RowsSet m (fun k' j' i => D k' j' i ∨ (b.Has k' j' i ∧ (k' < k ∨ k' = k ∧ (j' < j ∨ j' = j ∧ i < i0)))) A) (by omega)
    (hA.mono fun k' j' i h => h.imp id fun h => ⟨h.1, by have := h.1.1; omega⟩)
    fun i A hi1 hi2 hA => ?_).mono fun A hA => hA.mono fun k' j' i h => h.imp id fun h => ⟨h.1, by have := h.1.2.1; omega⟩
  have hI : m.Interior k j i := hb k j i ⟨hi1, hi2, hj1, hj2, hk1, hk2⟩
  rw [lhsRow_eq h hI, ok_bind]
  refine Ok.pure ⟨fun r c => ?_, fun k' j' i' hh c => ?_⟩
  · rw [setRow_eq hI A hA.1]
    split
    · exact .inr rfl
    · exact hA.1 r c
  · rw [setRow_eq hI A hA.1]
    split
    · rfl
    · rename_i hne
      refine hA.2 k' j' i' (hh.imp id fun hh => ⟨hh.1, ?_⟩) c
      have : ¬ (k' = k ∧ j' = j ∧ i' = i) := by rintro ⟨rfl, rfl, rfl⟩; exact hne rfl
      omega

theorem assembleLHS_eq {m : CartMesh K} (h : m.Good) {procs : List Corners} (hp : m.Distributed procs) : assembleLHS m procs = .ok (lhsSpec m) := by
  have key : ∀ (l : List Corners), (∀ b ∈ l, b ∈ procs) → ∀ (D : Nat → Nat → Nat → Prop) (A : DAMat K), RowsSet m D A →
      Ok (forList l (fun b A => computeLHS m b A) A) (RowsSet m fun k j i => D k j i ∨ ∃ b ∈ l, b.Has k j i) := by
    intro l
    induction l with
    | nil => exact fun _ D A hA => Ok.pure (hA.mono fun k j i h => h.elim id fun ⟨b, hb, _⟩ => by simp at hb)
    | cons b l ih =>
      intro hl D A hA
      rw [forList_cons]
      refine Ok.bind (computeLHS_fills h (hp.inside b (hl b (by simp))) hA) fun A' hA' => ?_
      refine (ih (fun b hb => hl b (List.mem_cons_of_mem _ hb)) _ A' hA').mono fun A'' h'' => h''.mono fun k j i hh => ?_
      rcases hh with hh | ⟨c, hc, hh⟩
      · exact .inl (.inl hh)
      · rcases List.mem_cons.1 hc with rfl | hc
        · exact .inl (.inr hh)
        · exact .inr ⟨c, hc, hh⟩
  obtain ⟨A, e, hA⟩ := key procs (fun _ h => h) (fun _ _ _ => False) (fun _ _ => none) ⟨fun _ _ => .inl rfl, fun _ _ _ h => h.elim⟩
  unfold assembleLHS
  rw [e]
  congr 1
  funext r c
  by_cases hr : daHas m.dims r = true
  · have hrr : r = ⟨(r.k.toNat : Nat), (r.j.toNat : Nat), (r.i.toNat : Nat)⟩ := by
      simp [daHas] at hr
      cases r
      simp at hr ⊢
      omega
    rw [hrr] at hr ⊢
    obtain ⟨b, hb, hh⟩ := hp.all _ _ _ (daHas_of.1 hr)
    exact hA.2 _ _ _ (.inr ⟨b, hb, hh⟩) c
  · have : lhsSpec m r c = none := if_neg fun h => hr h.1
    rw [this]
    rcases hA.1 r c with h | h
    · exact h
    · rw [h, this]

end

section
variable {K : Type} [Field K] [LinearOrder K]

/-! ### The product with a row of the stencil -/

omit [LinearOrder K] in
theorem find_sum {c : MatStencil} : ∀ {l : List (MatStencil × K)}, (l.map Prod.fst).Nodup →
    (((l.find? fun cv => cv.1 = c).map Prod.snd).getD 0) = (l.map fun cv => if cv.1 = c then cv.2 else 0).sum
  | [], _ => rfl
  | a :: l, hn => by
    rw [List.map_cons, List.nodup_cons] at hn
    rw [List.map_cons, List.sum_cons, ← find_sum hn.2]
    by_cases e : a.1 = c
    · rw [if_pos e, List.find?_cons_of_pos (by simpa using e), find_none (e ▸ hn.1)]
      simp
    · rw [if_neg e, List.find?_cons_of_neg (by simpa using e), zero_add]

omit [LinearOrder K] in
theorem grid_sum_one (m : CartMesh K) (c : MatStencil) (v : K) (u : Nat → Nat → Nat → K) :
    ∑ k ∈ range (m.npoind 2 - 2), ∑ j ∈ range (m.npoind 1 - 2), ∑ i ∈ range (m.npoind 0 - 2), (if c = ⟨k, j, i⟩ then v else 0) * u k j i =
      if daHas m.dims c then v * u c.k.toNat c.j.toNat c.i.toNat else 0 := by
  split
  · rename_i h
    obtain ⟨ck, cj, ci⟩ := c
    have h : 0 ≤ ci ∧ ci < (m.npoind 0 - 2 : Nat) ∧ 0 ≤ cj ∧ cj < (m.npoind 1 - 2 : Nat) ∧ 0 ≤ ck ∧ ck < (m.npoind 2 - 2 : Nat) := of_decide_eq_true h
    rw [sum_eq_single_of_mem ck.toNat (mem_range.2 (by omega)) fun k _ hk => sum_eq_zero fun j _ => sum_eq_zero fun i _ => by
        rw [if_neg (fun e => by simp only [MatStencil.mk.injEq] at e; omega), zero_mul],
      sum_eq_single_of_mem cj.toNat (mem_range.2 (by omega)) fun j _ hj => sum_eq_zero fun i _ => by rw [if_neg (fun e => by simp only [MatStencil.mk.injEq] at e; omega), zero_mul],
      sum_eq_single_of_mem ci.toNat (mem_range.2 (by omega)) fun i _ hi => by rw [if_neg (fun e => by simp only [MatStencil.mk.injEq] at e; omega), zero_mul],
      if_pos (by simp only [MatStencil.mk.injEq]; omega)]
  · rename_i h
    refine sum_eq_zero fun k hk => sum_eq_zero fun j hj => sum_eq_zero fun i hi => ?_
    rw [if_neg, zero_mul]
    rintro rfl
    rw [mem_range] at hk hj hi
    exact h (by simp [daHas, CartMesh.dims]; omega)

omit [LinearOrder K] in
theorem grid_sum_list (m : CartMesh K) (u : Nat → Nat → Nat → K) : ∀ l : List (MatStencil × K),
    ∑ k ∈ range (m.npoind 2 - 2), ∑ j ∈ range (m.npoind 1 - 2), ∑ i ∈ range (m.npoind 0 - 2), (l.map fun cv => if cv.1 = ⟨k, j, i⟩ then cv.2 else 0).sum * u k j i =
      (l.map fun cv => if daHas m.dims cv.1 then cv.2 * u cv.1.k.toNat cv.1.j.toNat cv.1.i.toNat else 0).sum
  | [] => by simp
  | a :: l => by
    rw [List.map_cons, List.sum_cons, ← grid_sum_list m u l, ← grid_sum_one m a.1 a.2 u]
    simp only [← sum_add_distrib, List.map_cons, List.sum_cons, add_mul]

omit [LinearOrder K] in
theorem mul_eq (m : CartMesh K) (u : Nat → Nat → Nat → K) {k j i : Nat} (hi : m.Interior k j i) :
    m.mul (lhsSpec m) u k j i = ((rowSpec m k j i).map fun cv => if daHas m.dims cv.1 then cv.2 * u cv.1.k.toNat cv.1.j.toNat cv.1.i.toNat else 0).sum := by
  rw [← grid_sum_list]
  refine sum_congr rfl fun k' hk => sum_congr rfl fun j' hj => sum_congr rfl fun i' hi' => ?_
  rw [mem_range] at hk hj hi'
  rw [← find_sum (rowSpec_nodup m k j i)]
  unfold lhsSpec
  rw [if_pos ⟨daHas_of.2 hi, daHas_of.2 ⟨by omega, by omega, by omega⟩⟩, Int.toNat_natCast, Int.toNat_natCast, Int.toNat_natCast]

omit [LinearOrder K] in
theorem ext_has (m : CartMesh K) (u : Nat → Nat → Nat → K) (v : K) (c : MatStencil) (h : -1 ≤ c.k ∧ -1 ≤ c.j ∧ -1 ≤ c.i) :
    (if daHas m.dims c then v * u c.k.toNat c.j.toNat c.i.toNat else 0) = v * m.ext u (c.k + 1).toNat (c.j + 1).toNat (c.i + 1).toNat := by
  obtain ⟨k, j, i⟩ := c
  dsimp only at h ⊢
  by_cases hk : k = -1
  · subst hk
    rw [if_neg (by simp [daHas])]
    simp [CartMesh.ext]
  by_cases hj : j = -1
  · subst hj
    rw [if_neg (by simp [daHas])]
    simp [CartMesh.ext]
  by_cases hi : i = -1
  · subst hi
    rw [if_neg (by simp [daHas])]
    simp [CartMesh.ext]
  obtain ⟨a, rfl⟩ := Int.eq_ofNat_of_zero_le (show 0 ≤ k by omega)
  obtain ⟨b, rfl⟩ := Int.eq_ofNat_of_zero_le (show 0 ≤ j by omega)
  obtain ⟨c, rfl⟩ := Int.eq_ofNat_of_zero_le (show 0 ≤ i by omega)
  rw [show ((a : Int) + 1).toNat = a + 1 by omega, show ((b : Int) + 1).toNat = b + 1 by omega, show ((c : Int) + 1).toNat = c + 1 by omega, Int.toNat_natCast, Int.toNat_natCast,
    Int.toNat_natCast]
  unfold CartMesh.ext
  by_cases h : m.Interior a b c
  · rw [if_pos (daHas_of.2 h)]
    exact congrArg (v * ·) (if_pos h).symm
  · rw [if_neg fun e => h (daHas_of.1 e)]
    exact (mul_zero v).symm.trans (congrArg (v * ·) (if_neg h).symm)

omit [LinearOrder K] in
theorem mul_ext (m : CartMesh K) (u : Nat → Nat → Nat → K) {k j i : Nat} (hi : m.Interior k j i) :
    m.mul (lhsSpec m) u k j i = ((rowSpec m k j i).map fun cv => cv.2 * m.ext u (cv.1.k + 1).toNat (cv.1.j + 1).toNat (cv.1.i + 1).toNat).sum := by
  rw [mul_eq m u hi]
  congr 1
  refine List.map_congr_left fun cv hcv => ext_has m u cv.2 cv.1 ?_
  simp [rowSpec] at hcv
  rcases hcv with rfl | rfl | rfl | rfl | rfl | rfl | rfl <;> dsimp only <;> omega

omit [LinearOrder K] in
theorem axis_identity {x0 x1 x2 : K} (h1 : x1 - x0 ≠ 0) (h2 : x2 - x1 ≠ 0) (h3 : x2 - x0 ≠ 0) (h : (2 : K) ≠ 0) (a b c : K) :
    -1 / ((x1 - x0) * (1 / 2) * (x2 - x0)) * a + 2 / (x2 - x0) * (1 / (x2 - x1) + 1 / (x1 - x0)) * b + -1 / ((x2 - x1) * (1 / 2) * (x2 - x0)) * c = -secondDiff x0 x1 x2 a b c := by
  unfold secondDiff
  field_simp
  ring

variable [IsStrictOrderedRing K]

theorem lhsSpec_laplacian {m : CartMesh K} (h : m.Good) (u : Nat → Nat → Nat → K) {k j i : Nat} (hi : m.Interior k j i) : m.mul (lhsSpec m) u k j i = -m.laplacian u k j i := by
  obtain ⟨a1, a2, a3⟩ := h.steps hi.1
  obtain ⟨b1, b2, b3⟩ := h.steps hi.2.1
  obtain ⟨c1, c2, c3⟩ := h.steps hi.2.2
  have e1 := axis_identity a1.ne' a2.ne' a3.ne' two_ne_zero (m.ext u (k + 1) (j + 1) i) (m.ext u (k + 1) (j + 1) (i + 1)) (m.ext u (k + 1) (j + 1) (i + 2))
  have e2 := axis_identity b1.ne' b2.ne' b3.ne' two_ne_zero (m.ext u (k + 1) j (i + 1)) (m.ext u (k + 1) (j + 1) (i + 1)) (m.ext u (k + 1) (j + 2) (i + 1))
  have e3 := axis_identity c1.ne' c2.ne' c3.ne' two_ne_zero (m.ext u k (j + 1) (i + 1)) (m.ext u (k + 1) (j + 1) (i + 1)) (m.ext u (k + 2) (j + 1) (i + 1))
  rw [mul_ext m u hi]
  unfold rowSpec CartMesh.laplacian
  simp only [List.map_cons, List.map_nil, List.sum_cons, List.sum_nil, sub_add_cancel, Int.toNat_natCast]
  rw [show ((k : Int) + 1).toNat = k + 1 by omega, show ((j : Int) + 1).toNat = j + 1 by omega, show ((i : Int) + 1).toNat = i + 1 by omega,
    show ((k : Int) + 1 + 1).toNat = k + 2 by omega, show ((j : Int) + 1 + 1).toNat = j + 2 by omega, show ((i : Int) + 1 + 1).toNat = i + 2 by omega]
  linear_combination e1 + e2 + e3

omit [LinearOrder K] [IsStrictOrderedRing K] in
theorem lhsSpec_stored (m : CartMesh K) (r c : MatStencil) : lhsSpec m r c ≠ none ↔ (∃ k j i : Nat, m.Interior k j i ∧ r = ⟨k, j, i⟩) ∧ (∃ k j i : Nat, m.Interior k j i ∧ c = ⟨k, j, i⟩) ∧ Adjacent r c := by
  have hin : ∀ p : MatStencil, daHas m.dims p = true ↔ ∃ k j i : Nat, m.Interior k j i ∧ p = ⟨k, j, i⟩ := by
    intro p
    constructor
    · intro h
      have e : p = ⟨(p.k.toNat : Nat), (p.j.toNat : Nat), (p.i.toNat : Nat)⟩ := by
        simp [daHas] at h
        cases p
        simp at h ⊢
        omega
      rw [e] at h
      exact ⟨_, _, _, daHas_of.1 h, e⟩
    · rintro ⟨k, j, i, h, rfl⟩
      exact daHas_of.2 h
  rw [← hin, ← hin]
  unfold lhsSpec
  by_cases h : daHas m.dims r = true ∧ daHas m.dims c = true
  · rw [if_pos h]
    obtain ⟨k, j, i, _, rfl⟩ := (hin r).1 h.1
    obtain ⟨k', j', i', _, rfl⟩ := (hin c).1 h.2
    have : (((rowSpec m k j i).find? fun cv => cv.1 = ⟨k', j', i'⟩).map Prod.snd ≠ none) ↔ (⟨k', j', i'⟩ : MatStencil) ∈ (rowSpec m k j i).map Prod.fst := by
      by_cases hm : (⟨k', j', i'⟩ : MatStencil) ∈ (rowSpec m k j i).map Prod.fst
      · refine iff_of_true ?_ hm
        obtain ⟨⟨c', v⟩, hv, e⟩ := List.mem_map.1 hm
        dsimp only at e
        subst e
        rw [find_nodup (rowSpec_nodup m k j i) hv]
        simp
      · exact iff_of_false (fun hh => hh (find_none hm)) hm
    rw [Int.toNat_natCast, Int.toNat_natCast, Int.toNat_natCast, this]
    simp only [h, true_and]
    simp only [rowSpec, List.map_cons, List.map_nil, List.mem_cons, List.not_mem_nil, or_false, MatStencil.mk.injEq, Adjacent, abs]
    omega
  · rw [if_neg h]
    exact iff_of_false (fun h => h rfl) fun hh => h ⟨hh.1, hh.2.1⟩

/-- **The matrix of the Poisson problem is the discrete Laplacian.** For every grid with increasing coordinates and every distribution of its interior points among processes the assembly succeeds; the
product of the matrix with any function on the interior points is, at every interior point, the negative of the sum of the second divided differences along the three axes of that function, continued
by zeros on the boundary; the entries stored are those of neighbours. -/
theorem poisson_lhs_correct {m : CartMesh K} (h : m.Good) {procs : List Corners} (hp : m.Distributed procs) :
    ∃ A, assembleLHS m procs = .ok A ∧ (∀ u k j i, m.Interior k j i → m.mul A u k j i = -m.laplacian u k j i) ∧
      ∀ r c, A r c ≠ none ↔ (∃ k j i : Nat, m.Interior k j i ∧ r = ⟨k, j, i⟩) ∧ (∃ k j i : Nat, m.Interior k j i ∧ c = ⟨k, j, i⟩) ∧ Adjacent r c :=
  ⟨_, assembleLHS_eq h hp, fun u k j i hi => lhsSpec_laplacian h u hi, lhsSpec_stored m⟩

end

end Blasted
