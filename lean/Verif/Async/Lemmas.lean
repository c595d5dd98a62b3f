import Verif.Async.Model

/-!
# Generic facts about asynchronous executions
-/

namespace Blasted

variable {V : Type}

theorem mixOk_whole : MixOk (mixWhole (V := V)) where
  mono h := h
  single h hw := h _ hw

theorem mixOk_tornSeg {ι K : Type} : MixOk (mixTornSeg (ι := ι) (K := K)) where
  mono h := by
    rintro v hv a
    obtain ⟨u, hu, e⟩ := hv a
    exact ⟨u, h hu, e⟩
  single := by
    intro S v w h hw
    funext a
    obtain ⟨u, hu, e⟩ := hw a
    rw [e, h u hu]

theorem mixOk_torn {ι κ K : Type} : MixOk (mixTorn (ι := ι) (κ := κ) (K := K)) where
  mono h := by
    rintro v hv a b
    obtain ⟨u, hu, e⟩ := hv a b
    exact ⟨u, h hu, e⟩
  single := by
    intro S v w h hw
    funext a b
    obtain ⟨u, hu, e⟩ := hw a b
    rw [e, h u hu]

section
variable {upd : Nat → (Nat → C V) → C V} {mix : Set V → Set V} {n : Nat}

theorem Yields.eq {m : C V} {v e : V} (h : Yields m v) (he : m = .ok e) : v = e := by
  rcases h with h | h <;> rw [he] at h <;> cases h
  rfl

theorem ALog.mono (hm : MixOk mix) {B B' : Set (Nat × V)} (hB : B ⊆ B') {log : List (Nat × V)}
    (h : ALog upd mix n B log) : ALog upd mix n B' log := by
  induction h with
  | nil => exact .nil
  | write view _ hview hi hupd ih =>
    refine .write view ih (fun j hj => hm.mono ?_ (hview j hj)) hi hupd
    rintro w (hw | hw)
    · exact Or.inl (hB hw)
    · exact Or.inr hw

theorem ALog.lt {B : Set (Nat × V)} {log : List (Nat × V)} (h : ALog upd mix n B log) :
    ∀ w ∈ log, w.1 < n := by
  induction h with
  | nil => simp
  | write view _ _ hi _ ih =>
    intro w hw
    rcases List.mem_append.mp hw with hw | hw
    · exact ih w hw
    · rw [List.mem_singleton.mp hw]; exact hi

@[simp] theorem applyLog_length (x : List V) (log : List (Nat × V)) :
    (applyLog x log).length = x.length := by
  unfold applyLog
  induction log generalizing x with
  | nil => rfl
  | cons w log ih => rw [List.foldl_cons, ih, List.length_set]

theorem applyLog_append (x : List V) (l₁ l₂ : List (Nat × V)) :
    applyLog x (l₁ ++ l₂) = applyLog (applyLog x l₁) l₂ := by
  unfold applyLog; rw [List.foldl_append]

/-- Every value in memory after a log is either old or a written value. -/
theorem mem_applyLog {x : List V} {log : List (Nat × V)} {w : Nat × V}
    (h : w ∈ memOf (applyLog x log)) :
    w ∈ log ∨ (w ∈ memOf x ∧ ∀ v, (w.1, v) ∉ log) := by
  induction log using List.reverseRecOn with
  | nil => exact Or.inr ⟨h, by simp⟩
  | append_singleton log u ih =>
    rw [applyLog_append] at h
    have h' : ((applyLog x log).set u.1 u.2)[w.1]? = some w.2 := h
    rw [List.getElem?_set] at h'
    by_cases hu : u.1 = w.1
    · rw [if_pos hu] at h'
      split at h'
      · left
        have : u = w := Prod.ext hu (by simpa using h')
        rw [this]; simp
      · simp at h'
    · rw [if_neg hu] at h'
      rcases ih h' with h1 | ⟨h1, h2⟩
      · left; exact List.mem_append_left _ h1
      · right
        refine ⟨h1, fun v hv => ?_⟩
        rcases List.mem_append.mp hv with hv | hv
        · exact h2 v hv
        · apply hu
          rw [← List.mem_singleton.mp hv]

/-- After a log that covers all components the memory contains written values only. -/
theorem mem_applyLog_covers {x : List V} {log : List (Nat × V)} (hc : Covers x.length log)
    {w : Nat × V} (h : w ∈ memOf (applyLog x log)) : w ∈ log := by
  rcases mem_applyLog h with h1 | ⟨h1, h2⟩
  · exact h1
  · have hlt : w.1 < x.length := by
      have h1' : x[w.1]? = some w.2 := h1
      by_contra hc
      rw [List.getElem?_eq_none (by omega)] at h1'
      simp at h1'
    obtain ⟨v, hv⟩ := hc _ hlt
    exact absurd hv (h2 v)

/-- A step of the rank argument. If all visible values of rank below `r` are exact, then all values
of rank below `r + 1` written are exact. -/
theorem ALog.exact_step (hm : MixOk mix) {B : Set (Nat × V)} {log : List (Nat × V)}
    (h : ALog upd mix n B log) {e : Nat → V} {rank : Nat → Nat} {r : Nat}
    (hexact : ∀ i < n, ∀ view : Nat → V, (∀ j < n, rank j < rank i → view j = e j) →
      ∀ v, Yields (upd i (readView n view)) v → v = e i)
    (hB : ∀ w ∈ B, w.1 < n → rank w.1 < r → w.2 = e w.1) :
    ∀ w ∈ log, rank w.1 < r + 1 → w.2 = e w.1 := by
  induction h with
  | nil => simp
  | @write log i v view _ hview hi hupd ih =>
    intro w hw hr
    rcases List.mem_append.mp hw with hw | hw
    · exact ih w hw hr
    · rw [List.mem_singleton.mp hw] at hr ⊢
      refine hexact i hi view (fun j hj hlt => ?_) v hupd
      refine hm.single (fun u hu => ?_) (hview j hj)
      simp only at hr
      rcases hu with hu | hu
      · exact hB (j, u) hu hj (by simp only; omega)
      · exact ih (j, u) hu (by simp only; omega)

/-- If the initial values are exact, everything written is exact: an exact solution is a fixed point
of every asynchronous execution. -/
theorem ALog.exact_of_exact (hm : MixOk mix) {B : Set (Nat × V)} {log : List (Nat × V)}
    (h : ALog upd mix n B log) {e : Nat → V}
    (hfix : ∀ i < n, ∀ view : Nat → V, (∀ j < n, view j = e j) →
      ∀ v, Yields (upd i (readView n view)) v → v = e i)
    (hB : ∀ w ∈ B, w.1 < n → w.2 = e w.1) :
    ∀ w ∈ log, w.2 = e w.1 := by
  induction h with
  | nil => simp
  | @write log i v view _ hview hi hupd ih =>
    intro w hw
    rcases List.mem_append.mp hw with hw | hw
    · exact ih w hw
    · rw [List.mem_singleton.mp hw]
      refine hfix i hi view (fun j hj => ?_) v hupd
      refine hm.single (fun u hu => ?_) (hview j hj)
      rcases hu with hu | hu
      · exact hB (j, u) hu hj
      · exact ih (j, u) hu

theorem ASweep.length {x x' : List V} (h : ASweep upd mix x x') : x'.length = x.length := by
  obtain ⟨log, _, _, rfl⟩ := h; simp

theorem ASweeps.length {k : Nat} {x x' : List V} (h : ASweeps upd mix k x x') :
    x'.length = x.length := by
  induction h with
  | zero => rfl
  | succ _ h ih => rw [h.length, ih]

/-- After `k` completed sweeps all components of rank below `k` are exact. -/
theorem ASweeps.exact (hm : MixOk mix) {k : Nat} {x x' : List V} (h : ASweeps upd mix k x x')
    {e : Nat → V} {rank : Nat → Nat}
    (hexact : ∀ i < x.length, ∀ view : Nat → V, (∀ j < x.length, rank j < rank i → view j = e j) →
      ∀ v, Yields (upd i (readView x.length view)) v → v = e i) :
    ∀ w ∈ memOf x', w.1 < x.length → rank w.1 < k → w.2 = e w.1 := by
  induction h with
  | zero => intro w _ _ h; omega
  | @succ k x y z hs h' ih =>
    obtain ⟨log, hl, hc, rfl⟩ := h'
    have hlen := hs.length
    rw [hlen] at hl
    intro w hw hlt hr
    exact hl.exact_step hm hexact (ih hexact) w (mem_applyLog_covers hc hw) hr

/-- After `k` overlapping rounds all components of rank below `k` are exact. -/
theorem ARounds.exact (hm : MixOk mix) {k : Nat} {x : List V} {log last : List (Nat × V)}
    (h : ARounds upd mix x k log last) {e : Nat → V} {rank : Nat → Nat}
    (hexact : ∀ i < x.length, ∀ view : Nat → V, (∀ j < x.length, rank j < rank i → view j = e j) →
      ∀ v, Yields (upd i (readView x.length view)) v → v = e i) :
    ∀ w ∈ last, rank w.1 < k → w.2 = e w.1 := by
  induction h with
  | first hl _ =>
    exact hl.exact_step hm hexact (r := 0) (fun _ _ _ h => by omega)
  | next _ hl _ ih =>
    exact hl.exact_step hm hexact (fun w hw _ => ih w hw)

theorem ARounds.covers {k : Nat} {x : List V} {log last : List (Nat × V)}
    (h : ARounds upd mix x k log last) : Covers x.length last := by
  cases h with
  | first _ h => exact h
  | next _ _ h => exact h

theorem ARounds.suffix {k : Nat} {x : List V} {log last : List (Nat × V)}
    (h : ARounds upd mix x k log last) : ∃ pre, log = pre ++ last := by
  cases h with
  | first _ h => exact ⟨[], rfl⟩
  | next _ _ h => exact ⟨_, rfl⟩

/-- The memory left by overlapping rounds consists of values written in the last round. -/
theorem ARounds.mem_last {k : Nat} {x : List V} {log last : List (Nat × V)}
    (h : ARounds upd mix x k log last) {w : Nat × V} (hw : w ∈ memOf (applyLog x log)) :
    w ∈ last := by
  obtain ⟨pre, rfl⟩ := h.suffix
  rw [applyLog_append] at hw
  refine mem_applyLog_covers ?_ hw
  simpa using h.covers

/-- Completed sweeps are a special case of overlapping rounds. -/
theorem ASweeps.rounds (hm : MixOk mix) {k : Nat} {x x' : List V}
    (h : ASweeps upd mix k x x') (hk : 0 < k) :
    ∃ log last, ARounds upd mix x k log last ∧ x' = applyLog x log := by
  induction h with
  | zero => omega
  | @succ k x y z hs h' ih =>
    rcases Nat.eq_zero_or_pos k with rfl | hk
    · cases hs
      obtain ⟨log, hl, hc, rfl⟩ := h'
      exact ⟨log, log, .first hl hc, rfl⟩
    · obtain ⟨log, last, hr, rfl⟩ := ih hk
      obtain ⟨new, hl, hc, rfl⟩ := h'
      rw [applyLog_length] at hl hc
      refine ⟨log ++ new, new, .next hr (hl.mono hm fun w hw => hr.mem_last hw) hc, ?_⟩
      rw [applyLog_append]

theorem memOf_get0 [Zero V] {x : List V} {i : Nat} (h : i < x.length) : (i, x⟦i⟧) ∈ memOf x := by
  show x[i]? = some x⟦i⟧
  rw [get0_eq_getElem h]; simp [h]

theorem memOf_eq [Zero V] {x : List V} {w : Nat × V} (h : w ∈ memOf x) : w.2 = x⟦w.1⟧ := by
  have h' : x[w.1]? = some w.2 := h
  unfold get0
  simp [List.getD_eq_getElem?_getD, h']

end

/-! ### Sequential executions are asynchronous executions -/

/-- If every update succeeds, a sequential sweep in any order `l` of the components is an asynchronous
execution (each read returning the most recent value). -/
theorem forList_alog {upd : Nat → (Nat → C V) → C V} {l : List Nat} {x x' : List V}
    (h : forList l (fun i x => do let v ← upd i (rd x); wr x i v) x = .ok x') :
    ∃ log, ALog upd mixWhole x.length (memOf x) log ∧ log.map Prod.fst = l ∧ x' = applyLog x log := by
  induction l using List.reverseRecOn generalizing x' with
  | nil =>
    cases h
    exact ⟨[], .nil, rfl, rfl⟩
  | append_singleton l i ih =>
    rw [forList_append] at h
    cases hy : forList l (fun i x => do let v ← upd i (rd x); wr x i v) x with
    | error e => rw [hy] at h; cases h
    | ok y =>
      rw [hy] at h
      obtain ⟨log, hl, hf, rfl⟩ := ih hy
      simp only [ok_bind, forList_cons] at h
      cases hv : upd i (rd (applyLog x log)) with
      | error e => rw [hv] at h; cases h
      | ok v =>
        rw [hv, ok_bind] at h
        by_cases hi : i < x.length
        · rw [wr_eq (by simpa using hi)] at h
          rw [ok_bind, forList_nil] at h
          cases h
          refine ⟨log ++ [(i, v)], ?_, by simp [hf], by rw [applyLog_append]; rfl⟩
          have e : rd (applyLog x log) =
              readView x.length (fun j => (applyLog x log).getD j v) := by
            funext j
            unfold readView rd
            by_cases hj : j < x.length
            · have : j < (applyLog x log).length := by simpa using hj
              simp [hj]
            · simp [hj]
          rw [e] at hv
          refine .write _ hl (fun j hj => ?_) hi (Or.inl hv)
          have hj' : j < (applyLog x log).length := by simpa using hj
          have hmem : (j, (applyLog x log).getD j v) ∈ memOf (applyLog x log) := by
            show (applyLog x log)[j]? = _
            simp [hj]
          rcases mem_applyLog hmem with h1 | ⟨h1, _⟩
          · exact Or.inr h1
          · exact Or.inl h1
        · rw [wr_ub (by simpa using Nat.not_lt.mp hi)] at h
          cases h

end Blasted
