import Verif.Relax.PetscApplyProps

/-!
# Relaxations in any arithmetic

Consequences of a property of the single row update only: if what is read satisfies a predicate with parameter `e`, then what is written satisfies it with parameter
`q e`. No law of arithmetic is used for the values themselves.
-/

namespace Blasted

variable {R V K : Type} [Zero V] [Field K] [LinearOrder K] [IsStrictOrderedRing K]

/-- The row update never fails, and takes values with `Q e` to a value with `Q (q e)`. -/
structure Shrinks (upd : Nat → (Nat → C V) → C V) (n : Nat) (Q : K → Nat → V → Prop) (q : K) : Prop where
  nonneg : 0 ≤ q
  le_one : q ≤ 1
  mono : ∀ e e' j v, j < n → e' ≤ e → Q e' j v → Q e j v
  step : ∀ e, 0 ≤ e → ∀ i < n, ∀ (r : Nat → C V) (view : Nat → V), (∀ j < n, r j = .ok (view j)) → (∀ j < n, Q e j (view j)) → ∃ v, upd i r = .ok v ∧ Q (q * e) i v

section
variable {upd : Nat → (Nat → C V) → C V} {n : Nat} {Q : K → Nat → V → Prop} {q e : K}

omit [Zero V] [IsStrictOrderedRing K] in
theorem Shrinks.yields (h : Shrinks upd n Q q) (he : 0 ≤ e) {i : Nat} (hi : i < n) {view : Nat → V} (hv : ∀ j < n, Q e j (view j)) {v : V}
    (hy : Yields (upd i (readView n view)) v) : Q (q * e) i v := by
  obtain ⟨w, h1, h2⟩ := h.step e he i hi (readView n view) view (fun j hj => by unfold readView; rw [if_pos hj]) hv
  rcases hy with hy | hy <;> rw [h1] at hy
  · injection hy with hy; rwa [← hy]
  · cases hy

omit [Zero V] in
theorem Shrinks.scale_le (h : Shrinks upd n Q q) (he : 0 ≤ e) {j : Nat} {v : V} (hj : j < n) (hv : Q (q * e) j v) : Q e j v :=
  h.mono _ _ j v hj (mul_le_of_le_one_left he h.le_one) hv

/-- Any sequence of row updates. -/
theorem Shrinks.list (h : Shrinks upd n Q q) (he : 0 ≤ e) {rows : List Nat} (hr : ∀ i ∈ rows, i < n) {x : List V} (hx : x.length = n) (h0 : ∀ i < n, Q e i x⟦i⟧) :
    Ok (forList rows (updRow upd) x) (fun y => y.length = n ∧ (∀ i < n, Q e i y⟦i⟧) ∧ ∀ i < n, i ∈ rows ∨ Q (q * e) i x⟦i⟧ → Q (q * e) i y⟦i⟧) := by
  induction rows generalizing x with
  | nil => exact ⟨x, rfl, hx, h0, fun i _ hi => hi.resolve_left (by simp)⟩
  | cons a rows ih =>
    have ha := hr a (by simp)
    obtain ⟨v, h1, h2⟩ := h.step e he a ha (rd x) (get0 x) (fun j hj => rd_eq (by omega)) h0
    have hset : ∀ i, i < n → (x.set a v)⟦i⟧ = if i = a then v else x⟦i⟧ := fun i hi => by
      split
      · rename_i e; subst e; exact get0_set_self (by omega)
      · rename_i e; exact get0_set_ne (Ne.symm e)
    have hq : ∀ i < n, Q e i (x.set a v)⟦i⟧ := fun i hi => by
      rw [hset i hi]; split
      · rename_i e'; subst e'; exact h.scale_le he hi h2
      · exact h0 i hi
    obtain ⟨y, h3, h4, h5, h6⟩ := ih (fun i hi => hr i (by simp [hi])) (x := x.set a v) (by simpa using hx) hq
    refine ⟨y, ?_, h4, h5, fun i hi hor => h6 i hi ?_⟩
    · rw [forList_cons]
      unfold updRow
      rw [h1, ok_bind, wr_eq (by omega), ok_bind]
      exact h3
    · rw [hset i hi]
      by_cases hia : i = a
      · subst hia; exact Or.inr (by rw [if_pos rfl]; exact h2)
      · rw [if_neg hia]
        rcases hor with hor | hor
        · rcases List.mem_cons.mp hor with h' | h'
          · exact absurd h' hia
          · exact Or.inl h'
        · exact Or.inr hor

/-- A pass over all rows. -/
theorem Shrinks.pass (h : Shrinks upd n Q q) (he : 0 ≤ e) {rows : List Nat} (hr : ∀ i, i ∈ rows ↔ i < n) {x : List V} (hx : x.length = n) (h0 : ∀ i < n, Q e i x⟦i⟧) :
    Ok (forList rows (updRow upd) x) (fun y => y.length = n ∧ ∀ i < n, Q (q * e) i y⟦i⟧) :=
  (h.list he (fun i hi => (hr i).mp hi) hx h0).mono fun _ hy => ⟨hy.1, fun i hi => hy.2.2 i hi (.inl ((hr i).mpr hi))⟩

/-- Sweeps in ascending order. -/
theorem Shrinks.fwdSweeps (h : Shrinks upd n Q q) (he : 0 ≤ e) (k : Nat) {x : List V} (hx : x.length = n) (h0 : ∀ i < n, Q e i x⟦i⟧) :
    Ok (fwdSweeps upd n k x) (fun y => y.length = n ∧ ∀ i < n, Q (q ^ k * e) i y⟦i⟧) := by
  refine forRange_ok (fun t y => y.length = n ∧ ∀ i < n, Q (q ^ t * e) i y⟦i⟧) (Nat.zero_le k) ⟨hx, by simpa using h0⟩ ?_
  rintro t y _ _ ⟨hl, hy⟩
  rw [pow_succ', mul_assoc]
  exact h.pass (mul_nonneg (pow_nonneg h.nonneg t) he) (fun i => by simp) hl hy

/-- Asynchronous updates with arbitrarily old reads. -/
theorem Shrinks.alog (h : Shrinks upd n Q q) (he : 0 ≤ e) {x : List V} (hx : x.length = n) (h0 : ∀ i < n, Q e i x⟦i⟧) {log : List (Nat × V)}
    (hl : ALog upd mixWhole n (memOf x) log) :
    (∀ w ∈ log, Q (q * e) w.1 w.2) ∧ ∀ i < n, Q e i (applyLog x log)⟦i⟧ ∧ ((∃ v, (i, v) ∈ log) ∨ Q (q * e) i x⟦i⟧ → Q (q * e) i (applyLog x log)⟦i⟧) := by
  have key := hl.contract (Q := fun e j u => j < n → Q e j u) (E := e) (E' := q * e) (fun j S hS w hw => hS w hw)
    (fun j u hu hj => h.scale_le he hj (hu hj)) (fun i hi view hview v hv _ => h.yields he hi (fun j hj => hview j hj hj) hv)
    (fun w hw hwn _ => by rw [memOf_eq hw]; exact h0 _ hwn)
  have key' : ∀ w ∈ log, Q (q * e) w.1 w.2 := fun w hw => key w hw (hl.lt w hw)
  refine ⟨key', fun i hi => ?_⟩
  rcases mem_applyLog (memOf_get0 (x := applyLog x log) (i := i) (by simpa [hx] using hi)) with h1 | ⟨h1, h2⟩
  · exact ⟨h.scale_le he hi (key' _ h1), fun _ => key' _ h1⟩
  · have e' : (applyLog x log)⟦i⟧ = x⟦i⟧ := memOf_eq (w := (i, (applyLog x log)⟦i⟧)) h1
    rw [e']
    exact ⟨h0 i hi, fun hor => hor.resolve_left fun ⟨v, hv⟩ => h2 v hv⟩

/-- Overlapping sweeps. -/
theorem Shrinks.arun (h : Shrinks upd n Q q) (he : 0 ≤ e) {x x' : List V} (hx : x.length = n) (h0 : ∀ i < n, Q e i x⟦i⟧) {k : Nat} (hr : ARun upd mixWhole k x x') :
    ∀ i < n, Q (q ^ k * e) i x'⟦i⟧ := by
  obtain ⟨log, last, hR, rfl⟩ := hr
  have key := hR.contract (Q := fun e j u => j < n → Q e j u) h.nonneg h.le_one he (fun E j S hS w hw => hS w hw)
    (fun E E' j u hle hu hj => h.mono _ _ j u hj hle (hu hj))
    (fun E hE i hi view hview v hv hi' => by
      rw [hx] at hi hview hv
      exact h.yields hE hi (fun j hj => hview j hj hj) hv)
    (fun w hw hwn => by rw [memOf_eq hw]; exact h0 _ hwn)
  intro i hi
  exact key.2 _ (hR.mem_last (memOf_get0 (x := applyLog x log) (i := i) (by simpa [hx] using hi))) hi

/-- Levels one after another, asynchronous within a level. -/
theorem Shrinks.alevels (h : Shrinks upd n Q q) (he : 0 ≤ e) {ls : List (List Nat)} {x x' : List V} (hx : x.length = n) (h0 : ∀ i < n, Q e i x⟦i⟧)
    (hl : ALevels upd mixWhole ls x x') :
    x'.length = n ∧ (∀ i < n, Q e i x'⟦i⟧) ∧ ∀ i < n, (∃ rows ∈ ls, i ∈ rows) ∨ Q (q * e) i x⟦i⟧ → Q (q * e) i x'⟦i⟧ := by
  induction hl with
  | nil x => exact ⟨hx, h0, fun i _ hi => hi.resolve_left (by simp)⟩
  | @cons rows ls x y z h1 h2 ih =>
    obtain ⟨log, hlog, hsub, hcov, rfl⟩ := h1
    rw [hx] at hlog
    have ha := h.alog he hx h0 hlog
    obtain ⟨h3, h4, h5⟩ := ih (by simpa using hx) (fun i hi => (ha.2 i hi).1)
    refine ⟨h3, h4, fun i hi hor => h5 i hi ?_⟩
    rcases hor with ⟨r, hr, hir⟩ | hor
    · rcases List.mem_cons.mp hr with rfl | hr
      · exact Or.inr ((ha.2 i hi).2 (.inl (hcov i hir)))
      · exact Or.inl ⟨r, hr, hir⟩
    · exact Or.inr ((ha.2 i hi).2 (.inr hor))

variable {A : SR R} {levels : List Nat}

omit [Zero V] in
theorem LevelsOk.mem_levelRows (hL : LevelsOk A levels) {i : Nat} (hi : i < A.nbrows) : ∃ rows ∈ levelRows levels, i ∈ rows := by
  have h0 := hL.zero
  have h1 := hL.last
  have hex : ∃ t, i < levels⟦t + 1⟧ := by
    refine ⟨levels.length - 2, ?_⟩
    by_cases h : 2 ≤ levels.length
    · rw [show levels.length - 2 + 1 = levels.length - 1 by omega, h1]; exact hi
    · have := hL.pos
      rw [show levels.length - 1 = 0 by omega, h0] at h1; omega
  classical
  have hf := Nat.find_spec hex
  have hlt : Nat.find hex + 1 < levels.length := by
    by_contra hc
    rw [get0_of_le (by omega)] at hf
    omega
  refine ⟨_, List.mem_map.mpr ⟨Nat.find hex, List.mem_range.mpr (by omega), rfl⟩, ?_⟩
  rw [List.mem_range'_1]
  have hm := hL.mono _ hlt
  have hge : levels⟦Nat.find hex⟧ ≤ i := by
    by_cases hz : Nat.find hex = 0
    · rw [hz, h0]; omega
    · have := Nat.find_min hex (m := Nat.find hex - 1) (by omega)
      rw [show Nat.find hex - 1 + 1 = Nat.find hex by omega] at this
      omega
  omega

theorem Shrinks.levelUp (h : Shrinks upd A.nbrows Q q) (he : 0 ≤ e) (hL : LevelsOk A levels) {sched : Nat → List Nat → List Nat} (hsch : ∀ t l, (sched t l).Perm l)
    {x : List V} (hx : x.length = A.nbrows) (h0 : ∀ i < A.nbrows, Q e i x⟦i⟧) :
    Ok (levelUp upd levels sched x) (fun y => y.length = A.nbrows ∧ ∀ i < A.nbrows, Q (q * e) i y⟦i⟧) := by
  have hpos := hL.pos
  refine (forRange_ok (fun t y => y.length = A.nbrows ∧ ∀ i < A.nbrows, Q e i y⟦i⟧ ∧ (i < levels⟦t⟧ → Q (q * e) i y⟦i⟧))
    (Nat.zero_le _) ⟨hx, fun i hi => ⟨h0 i hi, fun hlt => by rw [hL.zero] at hlt; omega⟩⟩ ?_).mono fun y hy =>
      ⟨hy.1, fun i hi => (hy.2 i hi).2 (by rw [hL.last]; exact hi)⟩
  rintro t y _ ht ⟨hlen, hI⟩
  have ht' : t + 1 < levels.length := by omega
  rw [rd_eq (by omega), ok_bind, rd_eq (by omega), ok_bind]
  have hmem : ∀ i, i ∈ sched t (List.range' levels⟦t⟧ (levels⟦t + 1⟧ - levels⟦t⟧)) ↔ levels⟦t⟧ ≤ i ∧ i < levels⟦t + 1⟧ := by
    intro i
    rw [(hsch t _).mem_iff, List.mem_range'_1]
    have := hL.mono t ht'
    omega
  refine (h.list he (fun i hi => ?_) hlen fun i hi => (hI i hi).1).mono fun z hz => ⟨hz.1, fun i hi => ⟨hz.2.1 i hi, fun hlt => hz.2.2 i hi ?_⟩⟩
  · have := hL.le_n ht'
    have := ((hmem i).mp hi).2
    omega
  · by_cases hc : i < levels⟦t⟧
    · exact Or.inr ((hI i hi).2 hc)
    · exact Or.inl ((hmem i).mpr (by omega))

theorem Shrinks.levelDown (h : Shrinks upd A.nbrows Q q) (he : 0 ≤ e) (hL : LevelsOk A levels) {sched : Nat → List Nat → List Nat} (hsch : ∀ t l, (sched t l).Perm l)
    {x : List V} (hx : x.length = A.nbrows) (h0 : ∀ i < A.nbrows, Q e i x⟦i⟧) :
    Ok (levelDown upd levels sched x) (fun y => y.length = A.nbrows ∧ ∀ i < A.nbrows, Q (q * e) i y⟦i⟧) := by
  have hpos := hL.pos
  refine (forDown_ok (fun t y => y.length = A.nbrows ∧ ∀ i < A.nbrows, Q e i y⟦i⟧ ∧ (levels⟦t - 1⟧ ≤ i → Q (q * e) i y⟦i⟧))
    (by omega) ⟨hx, fun i hi => ⟨h0 i hi, fun hle => by rw [Nat.add_sub_cancel, hL.last] at hle; omega⟩⟩ ?_).mono fun y hy =>
      ⟨hy.1, fun i hi => (hy.2 i hi).2 (by rw [Nat.sub_self, hL.zero]; omega)⟩
  rintro t y ht1 ht ⟨hlen, hI⟩
  rw [Nat.add_sub_cancel] at hI
  obtain ⟨s, rfl⟩ : ∃ s, t = s + 1 := ⟨t - 1, by omega⟩
  rw [Nat.add_sub_cancel]
  have ht' : s + 1 < levels.length := by omega
  rw [rd_eq (by omega), ok_bind, rd_eq (by omega), ok_bind]
  have hmem : ∀ i, i ∈ sched (s + 1) (List.range' levels⟦s⟧ (levels⟦s + 1⟧ - levels⟦s⟧)) ↔ levels⟦s⟧ ≤ i ∧ i < levels⟦s + 1⟧ := by
    intro i
    rw [(hsch _ _).mem_iff, List.mem_range'_1]
    have := hL.mono s ht'
    omega
  refine (h.list he (fun i hi => ?_) hlen fun i hi => (hI i hi).1).mono fun z hz => ⟨hz.1, fun i hi => ⟨hz.2.1 i hi, fun hle => hz.2.2 i hi ?_⟩⟩
  · have := hL.le_n ht'
    have := ((hmem i).mp hi).2
    omega
  · by_cases hc : levels⟦s + 1⟧ ≤ i
    · exact Or.inr ((hI i hi).2 hc)
    · exact Or.inl ((hmem i).mpr (by omega))

/-- A sequential pass over some rows is an asynchronous execution in which every one of them is updated. -/
theorem pass_alevel {V : Type} {upd : Nat → (Nat → C V) → C V} {rows : List Nat} {x y : List V} (h : forList rows (updRow upd) x = .ok y) : ALevel upd mixWhole rows x y := by
  obtain ⟨log, h1, h2, h3⟩ := forList_alog h
  refine ⟨log, h1, fun w hw => ?_, fun i hi => ?_, h3⟩
  · rw [← h2]; exact List.mem_map.mpr ⟨w, hw, rfl⟩
  · rw [← h2] at hi
    obtain ⟨w, hw, rfl⟩ := List.mem_map.mp hi
    exact ⟨w.2, hw⟩

/-- Sweeps one after another are possible. -/
theorem Shrinks.exists_arun (h : Shrinks upd n Q q) (he : 0 ≤ e) {k : Nat} (hk : 0 < k) {x : List V} (hx : x.length = n) (h0 : ∀ i < n, Q e i x⟦i⟧) :
    ∃ x', ARun upd mixWhole k x x' := by
  have key : ∀ k, ∃ x', ASweeps upd mixWhole k x x' ∧ x'.length = n ∧ ∀ i < n, Q e i x'⟦i⟧ := by
    intro k
    induction k with
    | zero => exact ⟨x, .zero x, hx, h0⟩
    | succ k ih =>
      obtain ⟨y, h1, h2, h3⟩ := ih
      obtain ⟨z, h4, h5, h6⟩ := h.pass he (rows := List.range n) (fun i => by simp) h2 h3
      obtain ⟨log, a1, _, a3, a4⟩ := pass_alevel h4
      exact ⟨z, .succ h1 ⟨log, a1, fun i hi => a3 i (by rw [List.mem_range]; omega), a4⟩, h5, fun i hi => h.scale_le he hi (h6 i hi)⟩
  obtain ⟨x', h1, _⟩ := key k
  obtain ⟨log, last, h2, h3⟩ := h1.rounds mixOk_whole hk
  exact ⟨x', log, last, h2, h3⟩

/-- Levels one after another are possible. -/
theorem Shrinks.exists_alevels (h : Shrinks upd n Q q) (he : 0 ≤ e) {ls : List (List Nat)} (hls : ∀ rows ∈ ls, ∀ i ∈ rows, i < n) {x : List V} (hx : x.length = n)
    (h0 : ∀ i < n, Q e i x⟦i⟧) : ∃ x', ALevels upd mixWhole ls x x' ∧ x'.length = n ∧ ∀ i < n, Q e i x'⟦i⟧ := by
  induction ls generalizing x with
  | nil => exact ⟨x, .nil x, hx, h0⟩
  | cons rows ls ih =>
    obtain ⟨y, h1, h2, h3, _⟩ := h.list he (hls rows (by simp)) hx h0
    obtain ⟨z, h4, h5, h6⟩ := ih (fun r hr => hls r (by simp [hr])) h2 h3
    exact ⟨z, .cons (pass_alevel h1) h4, h5, h6⟩

theorem LevelsOk.levelRows_lt {A : SR R} {levels : List Nat} (hL : LevelsOk A levels) : ∀ rows ∈ levelRows levels, ∀ i ∈ rows, i < A.nbrows := by
  intro rows hr i hi
  obtain ⟨t, ht, rfl⟩ := List.mem_map.mp hr
  rw [List.mem_range] at ht
  rw [List.mem_range'_1] at hi
  have := hL.le_n (t := t + 1) (by omega)
  have := hL.mono t (by omega)
  omega

end

/-! ### The relaxations -/

variable [Add V] [Sub V] [SMul R V] {A : SR R} {dinv : List R} {b : List V} {Q : K → Nat → V → Prop} {q e : K} {levels : List Nat}

theorem Shrinks.sgsRelax (h : Shrinks (relaxRow A dinv b) A.nbrows Q q) (he : 0 ≤ e) (k : Nat) {x : List V} (hx : x.length = A.nbrows) (h0 : ∀ i < A.nbrows, Q e i x⟦i⟧) :
    Ok (sgsRelax A dinv k b x) (fun y => y.length = A.nbrows ∧ ∀ i < A.nbrows, Q (q ^ (2 * k) * e) i y⟦i⟧) := by
  refine forRange_ok (fun t y => y.length = A.nbrows ∧ ∀ i < A.nbrows, Q (q ^ (2 * t) * e) i y⟦i⟧) (Nat.zero_le k) ⟨hx, by simpa using h0⟩ ?_
  rintro t y _ _ ⟨hl, hy⟩
  have h1 : 0 ≤ q ^ (2 * t) * e := mul_nonneg (pow_nonneg h.nonneg _) he
  refine (h.pass h1 (rows := List.range' 0 (A.nbrows - 0)) (fun i => by simp) hl hy).bind fun z hz => ?_
  refine (h.pass (mul_nonneg h.nonneg h1) (rows := (List.range' 0 (A.nbrows - 0)).reverse) (fun i => by simp) hz.1 hz.2).mono fun w hw => ⟨hw.1, ?_⟩
  rw [show q ^ (2 * (t + 1)) * e = q * (q * (q ^ (2 * t) * e)) by ring]
  exact hw.2

theorem Shrinks.levelSgsRelax (h : Shrinks (relaxRow A dinv b) A.nbrows Q q) (he : 0 ≤ e) (hL : LevelsOk A levels)
    {sched sched' : Nat → Nat → List Nat → List Nat} (hsch : ∀ s t l, (sched s t l).Perm l) (hsch' : ∀ s t l, (sched' s t l).Perm l) (k : Nat) {x : List V}
    (hx : x.length = A.nbrows) (h0 : ∀ i < A.nbrows, Q e i x⟦i⟧) :
    Ok (levelSgsRelax A dinv levels sched sched' k b x) (fun y => y.length = A.nbrows ∧ ∀ i < A.nbrows, Q (q ^ (2 * k) * e) i y⟦i⟧) := by
  refine forRange_ok (fun t y => y.length = A.nbrows ∧ ∀ i < A.nbrows, Q (q ^ (2 * t) * e) i y⟦i⟧) (Nat.zero_le k) ⟨hx, by simpa using h0⟩ ?_
  rintro t y _ _ ⟨hl, hy⟩
  have h1 : 0 ≤ q ^ (2 * t) * e := mul_nonneg (pow_nonneg h.nonneg _) he
  refine (h.levelUp h1 hL (hsch t) hl hy).bind fun z hz => ?_
  refine (h.levelDown (mul_nonneg h.nonneg h1) hL (hsch' t) hz.1 hz.2).mono fun w hw => ⟨hw.1, ?_⟩
  rw [show q ^ (2 * (t + 1)) * e = q * (q * (q ^ (2 * t) * e)) by ring]
  exact hw.2

theorem Shrinks.asyncLevelSgsRelax (h : Shrinks (relaxRow A dinv b) A.nbrows Q q) (he : 0 ≤ e) (hL : LevelsOk A levels) {k : Nat} {x x' : List V}
    (hx : x.length = A.nbrows) (h0 : ∀ i < A.nbrows, Q e i x⟦i⟧) (hr : AsyncLevelSgsRelax A dinv mixWhole levels b k x x') :
    x'.length = A.nbrows ∧ ∀ i < A.nbrows, Q (q ^ (2 * k) * e) i x'⟦i⟧ := by
  induction hr with
  | zero x => exact ⟨hx, by simpa using h0⟩
  | @succ s x y z w _ h2 h3 ih =>
    obtain ⟨hl, hy⟩ := ih hx h0
    have h1 : 0 ≤ q ^ (2 * s) * e := mul_nonneg (pow_nonneg h.nonneg _) he
    obtain ⟨a1, _, a3⟩ := h.alevels h1 hl hy h2
    have hz : ∀ i < A.nbrows, Q (q * (q ^ (2 * s) * e)) i z⟦i⟧ := fun i hi => a3 i hi (.inl (hL.mem_levelRows hi))
    obtain ⟨b1, _, b3⟩ := h.alevels (mul_nonneg h.nonneg h1) a1 hz h3
    refine ⟨b1, fun i hi => ?_⟩
    rw [show q ^ (2 * (s + 1)) * e = q * (q * (q ^ (2 * s) * e)) by ring]
    obtain ⟨rows, hr, hir⟩ := hL.mem_levelRows hi
    exact b3 i hi (.inl ⟨rows, List.mem_reverse.mpr hr, hir⟩)

/-- Jacobi without the stopping test. -/
theorem Shrinks.jacobiRelax {L : Type} [Field L] [LinearOrder L] {sqrt : L → L} {sq : V → L} {p : SolveParams L} (h : Shrinks (relaxRow A dinv b) A.nbrows Q q) (he : 0 ≤ e)
    (hc : p.ctol = false) {ord : Nat → List Nat} (hord : ∀ t, (ord t).Perm (List.range A.nbrows)) {g x : List V} (hg : g.length = A.nbrows)
    (hx : x.length = A.nbrows) (h0 : ∀ i < A.nbrows, Q e i x⟦i⟧) :
    Ok (jacobiRelax sqrt sq p A dinv b ord g x) (fun y => y.length = A.nbrows ∧ ∀ i < A.nbrows, Q (q ^ p.maxits * e) i y⟦i⟧) := by
  unfold Blasted.jacobiRelax
  generalize p.maxits = left
  generalize (0 : Nat) = st
  generalize (1 : L) = ref
  induction left generalizing st ref g x e with
  | zero => exact ⟨x, rfl, hx, by simpa using h0⟩
  | succ left ih =>
    unfold jacobiRelaxLoop
    have hstep : ∀ i < A.nbrows, ∃ v, relaxRow A dinv b i (rd x) = .ok v ∧ Q (q * e) i v := fun i hi =>
      h.step e he i hi (rd x) (get0 x) (fun j hj => rd_eq (by omega)) h0
    choose! f hf1 hf2 using hstep
    obtain ⟨xt, e1, l1, v1⟩ := par_cells (hord (2 * st)) hg f (body := fun i xt => do
      let v ← relaxRow A dinv b i (rd x)
      wr xt i v) fun i hi y hy => by rw [hf1 i hi, ok_bind, wr_eq (by omega)]
    obtain ⟨x2, e2, l2, v2⟩ := par_cells (hord (2 * st + 1)) hx (get0 xt) (body := fun i x => do
      let t ← rd xt i
      wr x i t) fun i hi y hy => by rw [rd_eq (by omega), ok_bind, wr_eq (by omega)]
    rw [show relaxInto A dinv b x (ord (2 * st)) g = .ok xt from e1, ok_bind, hc, if_neg (by simp), show copyInto A.nbrows (ord (2 * st + 1)) xt x = .ok x2 from e2, ok_bind]
    refine (ih (mul_nonneg h.nonneg he) l1 l2 (fun i hi => by rw [v2 i hi, v1 i hi]; exact hf2 i hi) _ _).mono fun y hy => ⟨hy.1, ?_⟩
    rw [pow_succ, mul_assoc]
    exact hy.2

theorem Shrinks.exists_asyncLevelSgsRelax (h : Shrinks (relaxRow A dinv b) A.nbrows Q q) (he : 0 ≤ e) (hL : LevelsOk A levels) (k : Nat) {x : List V}
    (hx : x.length = A.nbrows) (h0 : ∀ i < A.nbrows, Q e i x⟦i⟧) : ∃ x', AsyncLevelSgsRelax A dinv mixWhole levels b k x x' ∧ x'.length = A.nbrows ∧ ∀ i < A.nbrows, Q e i x'⟦i⟧ := by
  induction k with
  | zero => exact ⟨x, .zero x, hx, h0⟩
  | succ k ih =>
    obtain ⟨y, h1, h2, h3⟩ := ih
    obtain ⟨z, h4, h5, h6⟩ := h.exists_alevels he hL.levelRows_lt h2 h3
    obtain ⟨w, h7, h8, h9⟩ := h.exists_alevels he (ls := (levelRows levels).reverse) (fun r hr => hL.levelRows_lt r (List.mem_reverse.mp hr)) h5 h6
    exact ⟨w, .succ h1 h4 h7, h8, h9⟩

end Blasted
