import Verif.Race.AsyncModel
import Verif.Async.Lemmas
import Mathlib.Data.Finset.Lattice.Fold
import Mathlib.Data.List.Nodup
import Mathlib.Algebra.Order.BigOperators.Group.Finset

/-!
# Lemmas about asynchronous sweeps access by access

The executions of the machine in `Race/AsyncModel.lean` are executions in the sense of `Verif/Async`.
-/

namespace Blasted

open Prog

variable {V α β σ ι : Type}

/-- The value of a computation that only loads, when loads are answered by `r`. -/
def Prog.eval (r : Nat → C V) : Prog V α → C α
  | .ret a => .ok a
  | .fail e => .error e
  | .load l k => do
    let v ← r l
    (k v).eval r
  | .store _ _ _ => .error .abort

/-- The computation only loads, no cell twice, and only cells in `R`. -/
def Prog.Once : Prog V α → (Nat → Prop) → Prop
  | .ret _, _ => True
  | .fail _, _ => True
  | .load l k, R => R l ∧ ∀ v, (k v).Once (fun c => R c ∧ c ≠ l)
  | .store _ _ _, _ => False

/-! ### Lists -/

theorem getElem?_append_of_some {l l' : List α} {t : Nat} {a : α} (h : l[t]? = some a) : (l ++ l')[t]? = some a := by
  obtain ⟨h1, h2⟩ := List.getElem?_eq_some_iff.mp h
  rw [List.getElem?_append_left h1, h]

theorem getElem?_append_one {l : List α} {a b : α} {t : Nat} (h : (l ++ [b])[t]? = some a) :
    (t < l.length ∧ l[t]? = some a) ∨ (t = l.length ∧ a = b) := by
  obtain ⟨h1, h2⟩ := List.getElem?_eq_some_iff.mp h
  rw [List.length_append, List.length_singleton] at h1
  rcases Nat.lt_or_ge t l.length with ht | ht
  · left; exact ⟨ht, by rw [← h, List.getElem?_append_left ht]⟩
  · right
    have : t = l.length := by omega
    subst this
    simp at h
    exact ⟨rfl, h.symm⟩

theorem mem_fst_iff {log : List (Nat × V)} {q : Nat} : q ∈ log.map Prod.fst ↔ ∃ (t : Nat) (v : V), log[t]? = some (q, v) := by
  constructor
  · intro h
    obtain ⟨⟨q', v⟩, h1, rfl⟩ := List.mem_map.mp h
    obtain ⟨t, ht⟩ := List.mem_iff_getElem?.mp h1
    exact ⟨t, v, ht⟩
  · rintro ⟨t, v, h⟩
    exact List.mem_map.mpr ⟨(q, v), List.mem_of_getElem? h, rfl⟩

theorem nodup_fst_unique {log : List (Nat × V)} (h : (log.map Prod.fst).Nodup) {q t t' : Nat} {v v' : V} (h1 : log[t]? = some (q, v))
    (h2 : log[t']? = some (q, v')) : t = t' := by
  have e1 : (log.map Prod.fst)[t]? = some q := by rw [List.getElem?_map, h1]; rfl
  have e2 : (log.map Prod.fst)[t']? = some q := by rw [List.getElem?_map, h2]; rfl
  obtain ⟨l1, g1⟩ := List.getElem?_eq_some_iff.mp e1
  obtain ⟨l2, g2⟩ := List.getElem?_eq_some_iff.mp e2
  exact h.getElem_inj_iff.mp (g1.trans g2.symm)

theorem visible_append {G : Nat → Nat → Prop} {n N : Nat} {m₀ : List V} {log log' : List (Nat × V)} {q l : Nat} {v : V}
    (h : Visible G n N m₀ log q l v) : Visible G n N m₀ (log ++ log') q l v := by
  rcases h with ⟨t, q₁, h1, h2, h3⟩ | h
  · left
    refine ⟨t, q₁, getElem?_append_of_some h1, h2, fun q' hq hg hl => ?_⟩
    obtain ⟨t', ht, v', h4⟩ := h3 q' hq hg hl
    exact ⟨t', ht, v', getElem?_append_of_some h4⟩
  · exact Or.inr h

/-- There is always a visible value. -/
theorem exists_visible {G : Nat → Nat → Prop} {n N : Nat} {m₀ : List V} {log : List (Nat × V)} {q l : Nat} (hl : l < m₀.length)
    (hg : ∀ q' < N, G q q' → ∃ (t : Nat) (v : V), log[t]? = some (q', v)) : ∃ v, Visible G n N m₀ log q l v := by
  by_cases h : ∃ (t q₁ : Nat) (v : V), log[t]? = some (q₁, v) ∧ q₁ % n = l
  · -- the last write to the component
    have hb : ∃ t : Nat, (∃ q₁ v, log[t]? = some (q₁, v) ∧ q₁ % n = l) ∧ ∀ t' : Nat, t < t' → ¬ ∃ q₁ v, log[t']? = some (q₁, v) ∧ q₁ % n = l := by
      classical
      obtain ⟨t0, h0⟩ := h
      have hbd : ∀ t : Nat, (∃ q₁ v, log[t]? = some (q₁, v) ∧ q₁ % n = l) → t ≤ log.length := by
        rintro t ⟨q₁, v, h1, -⟩
        exact Nat.le_of_lt (List.getElem?_eq_some_iff.mp h1).1
      exact ⟨Nat.findGreatest (fun t : Nat => ∃ q₁ v, log[t]? = some (q₁, v) ∧ q₁ % n = l) log.length,
        Nat.findGreatest_spec (P := fun t : Nat => ∃ q₁ v, log[t]? = some (q₁, v) ∧ q₁ % n = l) (hbd t0 h0) h0,
        fun t' ht hp => absurd (Nat.le_findGreatest (P := fun t : Nat => ∃ q₁ v, log[t]? = some (q₁, v) ∧ q₁ % n = l) (hbd t' hp) hp) (by omega)⟩
    obtain ⟨t, ⟨q₁, v, h1, h2⟩, hmax⟩ := hb
    refine ⟨v, Or.inl ⟨t, q₁, h1, h2, fun q' hq hgq hl' => ?_⟩⟩
    obtain ⟨t', v', h3⟩ := hg q' hq hgq
    exact ⟨t', Nat.le_of_not_lt fun hlt => hmax t' hlt ⟨q', v', h3, hl'⟩, v', h3⟩
  · refine ⟨m₀[l], Or.inr ⟨List.getElem?_eq_getElem hl, fun q' hq hgq hl' => ?_⟩⟩
    obtain ⟨t, v, h3⟩ := hg q' hq hgq
    exact h ⟨t, q', v, h3, hl'⟩

/-! ### The invariant -/

/-- Job `q` of component `i` is in the middle of its loads: `r` remains of its computation `p`, `R` are the cells it may still load, and `w` has the values it has loaded. -/
structure Pending (n : Nat) (p r : Prog V V) (R : Nat → Prop) (w : Nat → V) : Prop where
  once : r.Once R
  eval : ∀ view : Nat → V, (∀ j, ¬ R j → view j = w j) → p.eval (readView n view) = r.eval (readView n view)

/-- What holds of all configurations that the machine reaches. -/
structure AInv (G : Nat → Nat → Prop) (n N : Nat) (m₀ : List V) (p : Nat → Prog V V) (c : AConf V) : Prop where
  nodup : (c.1.map Prod.fst).Nodup
  lt : ∀ e ∈ c.1, e.1 < N
  fin : ∀ q ∈ c.1.map Prod.fst, c.2 q = .ret ()
  idle : ∀ q, N ≤ q → c.2 q = .ret ()
  pend : ∀ q < N, q ∉ c.1.map Prod.fst → ∃ r R w, c.2 q = r.bind (Prog.wr (q % n)) ∧ Pending n (p (q % n)) r R w ∧
    ∀ j < n, ¬ R j → Visible G n N m₀ c.1 q j (w j)
  order : ∀ (t q : Nat) (v : V), c.1[t]? = some (q, v) → ∀ q' < N, G q q' → ∃ t' : Nat, t' < t ∧ ∃ v', c.1[t']? = some (q', v')
  value : ∀ (t q : Nat) (v : V), c.1[t]? = some (q, v) → ∃ w : Nat → V, (∀ j < n, Visible G n N m₀ (c.1.take t) q j (w j)) ∧
    Yields ((p (q % n)).eval (readView n w)) v

theorem bind_wr_ne_ret (r : Prog V V) (i : Nat) : r.bind (Prog.wr i) ≠ .ret () := by
  cases r <;> simp [Prog.bind, Prog.wr]

theorem AInv.fin_iff {G : Nat → Nat → Prop} {n N : Nat} {m₀ : List V} {p : Nat → Prog V V} {c : AConf V} (h : AInv G n N m₀ p c) {q : Nat} (hq : q < N) :
    c.2 q = .ret () ↔ q ∈ c.1.map Prod.fst := by
  refine ⟨fun e => ?_, h.fin q⟩
  by_contra hn
  obtain ⟨r, R, w, h1, -⟩ := h.pend q hq hn
  exact bind_wr_ne_ret r _ (h1.symm.trans e)

theorem AInv.start {G : Nat → Nat → Prop} {n N : Nat} {m₀ : List V} {p : Nat → Prog V V} (ho : ∀ q < N, (p (q % n)).Once (fun _ => True)) [Zero V] :
    AInv G n N m₀ p (startSweeps n N p) where
  nodup := List.nodup_nil
  lt := by simp [startSweeps]
  fin := by simp [startSweeps]
  idle := fun q hq => if_neg (by omega)
  pend := fun q hq _ => ⟨p (q % n), fun _ => True, fun _ => 0, if_pos hq, ⟨ho q hq, fun _ _ => rfl⟩, fun _ _ h => absurd trivial h⟩
  order := by simp [startSweeps]
  value := by simp [startSweeps]

theorem AInv.running {G : Nat → Nat → Prop} {n N : Nat} {m₀ : List V} {p : Nat → Prog V V} {log : List (Nat × V)} {ps : Nat → Prog V Unit}
    (h : AInv G n N m₀ p (log, ps)) {q : Nat} {r : Prog V Unit} (hq : ps q = r) (hr : r ≠ .ret ()) : q < N ∧ q ∉ log.map Prod.fst := by
  constructor
  · by_contra hlt
    exact hr (hq.symm.trans (h.idle q (by omega)))
  · exact fun hm => hr (hq.symm.trans (h.fin q hm))

/-- The invariant after a write. -/
theorem AInv.push {G : Nat → Nat → Prop} {n N : Nat} {m₀ : List V} {p : Nat → Prog V V} (hn : m₀.length = n) {log : List (Nat × V)} {ps : Nat → Prog V Unit}
    (h : AInv G n N m₀ p (log, ps)) {q : Nat} {v : V} (hqN : q < N) (hqn : q ∉ log.map Prod.fst) (hg : ∀ q', G q q' → ps q' = .ret ())
    {r : Prog V V} {R : Nat → Prop} {w : Nat → V} (h2 : Pending n (p (q % n)) r R w) (h3 : ∀ j < n, ¬ R j → Visible G n N m₀ log q j (w j))
    (hr : ∀ f, Yields (r.eval f) v) : AInv G n N m₀ p (log ++ [(q, v)], Function.update ps q (.ret ())) := by
  have hpred : ∀ q' < N, G q q' → ∃ (t : Nat) (v : V), log[t]? = some (q', v) := fun q' hq' hgq => mem_fst_iff.mp ((h.fin_iff hq').mp (hg q' hgq))
  refine ⟨?_, ?_, ?_, ?_, ?_, ?_, ?_⟩
  · dsimp only
    rw [List.map_append, List.nodup_append]
    exact ⟨h.nodup, by simp, by
      intro x hx y hy
      simp only [List.map_cons, List.map_nil, List.mem_singleton] at hy
      rintro rfl
      exact hqn (hy ▸ hx)⟩
  · intro e he
    rcases List.mem_append.mp he with he | he
    · exact h.lt e he
    · simp only [List.mem_singleton] at he; subst he; exact hqN
  · intro q' hm
    dsimp only
    by_cases e : q' = q
    · subst e; rw [Function.update_self]
    · rw [Function.update_of_ne e]
      rw [List.map_append, List.mem_append] at hm
      rcases hm with hm | hm
      · exact h.fin q' hm
      · simp at hm; exact absurd hm e
  · intro q' hq'
    have : q' ≠ q := by omega
    dsimp only
    rw [Function.update_of_ne this]
    exact h.idle q' hq'
  · intro q' hq' hm
    have e : q' ≠ q := fun e => hm (by rw [e]; simp)
    obtain ⟨r, R, w, h1, h2, h3⟩ := h.pend q' hq' fun hm' => hm (by rw [List.map_append]; exact List.mem_append_left _ hm')
    dsimp only
    rw [Function.update_of_ne e]
    exact ⟨r, R, w, h1, h2, fun j hj hR => visible_append (h3 j hj hR)⟩
  · intro t q' v' ht q'' hq'' hgq
    dsimp only at ht ⊢
    rcases getElem?_append_one ht with ⟨-, ht⟩ | ⟨rfl, e⟩
    · obtain ⟨t', hlt, v'', h4⟩ := h.order t q' v' ht q'' hq'' hgq
      exact ⟨t', hlt, v'', getElem?_append_of_some h4⟩
    · injection e with e1 e2
      subst e1
      obtain ⟨t', v'', h4⟩ := hpred q'' hq'' hgq
      exact ⟨t', (List.getElem?_eq_some_iff.mp h4).1, v'', getElem?_append_of_some h4⟩
  · intro t q' v' ht
    dsimp only at ht ⊢
    rcases getElem?_append_one ht with ⟨hlt, ht⟩ | ⟨rfl, e⟩
    · obtain ⟨w, hw, he⟩ := h.value t q' v' ht
      exact ⟨w, by rw [List.take_append_of_le_length (by omega)]; exact hw, he⟩
    · injection e with e1 e2
      subst e1 e2
      have hex : ∀ j, ∃ u, j < n → (R j → Visible G n N m₀ log q' j u) ∧ (¬ R j → u = w j) := by
        intro j
        by_cases hR : R j
        · by_cases hj : j < n
          · obtain ⟨u, hu⟩ := exists_visible (G := G) (n := n) (N := N) (m₀ := m₀) (q := q') (l := j) (by omega) hpred
            exact ⟨u, fun _ => ⟨fun _ => hu, fun h => absurd hR h⟩⟩
          · exact ⟨w j, fun h => absurd h hj⟩
        · exact ⟨w j, fun _ => ⟨fun h => absurd h hR, fun _ => rfl⟩⟩
      choose u hu using hex
      have hu2 : ∀ j, j < n → Visible G n N m₀ log q' j (u j) := fun j hj => by
        by_cases hR : R j
        · exact (hu j hj).1 hR
        · rw [(hu j hj).2 hR]; exact h3 j hj hR
      refine ⟨fun j => if j < n then u j else w j, fun j hj => ?_, ?_⟩
      · dsimp only
        rw [if_pos hj, List.take_append_of_le_length (Nat.le_refl _), List.take_length]
        exact hu2 j hj
      · rw [h2.eval _ fun j hj => ?_]
        · exact hr _
        · by_cases hjn : j < n
          · exact (if_pos hjn).trans ((hu j hjn).2 hj)
          · exact if_neg hjn

theorem AInv.step {G : Nat → Nat → Prop} {n N : Nat} {m₀ : List V} {p : Nat → Prog V V} (hn : m₀.length = n) {c d : AConf V}
    (h : AInv G n N m₀ p c) (s : AStep G n N m₀ c d) : AInv G n N m₀ p d := by
  cases s with
  | @load log ps l k v q hq hl hg hv =>
    obtain ⟨hqN, hqn⟩ := h.running hq (by simp)
    refine ⟨h.nodup, h.lt, fun q' hm => ?_, fun q' hq' => ?_, fun q' hq' hm => ?_, h.order, h.value⟩
    · have : q' ≠ q := fun e => hqn (e ▸ hm)
      dsimp only
      rw [Function.update_of_ne this]
      exact h.fin q' hm
    · have : q' ≠ q := by omega
      dsimp only
      rw [Function.update_of_ne this]
      exact h.idle q' hq'
    · obtain ⟨r, R, w, h1, h2, h3⟩ := h.pend q' hq' hm
      dsimp only at h1 h3 ⊢
      by_cases e : q' = q
      · subst e
        rw [hq] at h1
        cases r with
        | ret a => simp [Prog.bind, Prog.wr] at h1
        | fail e => simp [Prog.bind] at h1
        | store a b c => exact absurd h2.once (by simp [Prog.Once])
        | load l' k' =>
          simp only [Prog.bind, Prog.load.injEq] at h1
          obtain ⟨rfl, rfl⟩ := h1
          obtain ⟨ho1, ho2⟩ := h2.once
          refine ⟨k' v, fun c => R c ∧ c ≠ l, Function.update w l v, by rw [Function.update_self], ⟨ho2 v, fun view hview => ?_⟩, ?_⟩
          · rw [h2.eval view fun j hj => ?_]
            · have : view l = v := by rw [hview l (by simp), Function.update_self]
              simp only [Prog.eval, readView, if_pos hl, ok_bind, this]
            · have : j ≠ l := fun e => hj (e ▸ ho1)
              rw [hview j (fun h => hj h.1), Function.update_of_ne this]
          · intro j hj hnj
            by_cases ej : j = l
            · subst ej; rw [Function.update_self]; exact hv
            · rw [Function.update_of_ne ej]
              exact h3 j hj fun hR => hnj ⟨hR, ej⟩
      · rw [Function.update_of_ne e]
        exact ⟨r, R, w, h1, h2, h3⟩
  | @store log ps l v k q hq hl hg =>
    obtain ⟨hqN, hqn⟩ := h.running hq (by simp)
    obtain ⟨r, R, w, h1, h2, h3⟩ := h.pend q hqN hqn
    dsimp only at h1 h3
    rw [hq] at h1
    cases r with
    | fail e => simp [Prog.bind] at h1
    | store a b c => exact absurd h2.once (by simp [Prog.Once])
    | load a b => simp [Prog.bind] at h1
    | ret a =>
      simp only [Prog.bind, Prog.wr, Prog.store.injEq] at h1
      obtain ⟨-, rfl, rfl⟩ := h1
      exact h.push hn hqN hqn hg h2 h3 fun _ => Or.inl rfl
  | @junk log ps v q hq hg =>
    obtain ⟨hqN, hqn⟩ := h.running hq (by simp)
    obtain ⟨r, R, w, h1, h2, h3⟩ := h.pend q hqN hqn
    dsimp only at h1 h3
    rw [hq] at h1
    cases r with
    | ret a => simp [Prog.bind, Prog.wr] at h1
    | store a b c => exact absurd h2.once (by simp [Prog.Once])
    | load a b => simp [Prog.bind] at h1
    | fail e =>
      simp only [Prog.bind, Prog.fail.injEq] at h1
      subst h1
      exact h.push hn hqN hqn hg h2 h3 fun _ => Or.inr rfl

theorem AInv.steps {G : Nat → Nat → Prop} {n N : Nat} {m₀ : List V} {p : Nat → Prog V V} (hn : m₀.length = n) {c d : AConf V}
    (h : AInv G n N m₀ p c) {k : Nat} (s : ASteps G n N m₀ k c d) : AInv G n N m₀ p d := by
  induction s with
  | refl => exact h
  | tail _ s ih => exact (ih h).step hn s

/-! ### From the machine to logs -/

/-- A computation that only loads has the value of `upd`. -/
def Evals (p : Nat → Prog V V) (upd : Nat → (Nat → C V) → C V) : Prop := ∀ i r, (p i).eval r = upd i r

theorem comps_length (n : Nat) (log : List (Nat × V)) : (comps n log).length = log.length := List.length_map _

theorem comps_getElem? (n : Nat) (log : List (Nat × V)) (t : Nat) : (comps n log)[t]? = (log[t]?).map fun e => (e.1 % n, e.2) := List.getElem?_map

theorem alog_segment {upd : Nat → (Nat → C V) → C V} {n : Nat} (B : Set (Nat × V)) (log : List (Nat × V)) (a b : Nat) (hab : a ≤ b)
    (hb : b ≤ log.length)
    (h : ∀ (t i : Nat) (v : V), a ≤ t → t < b → log[t]? = some (i, v) → i < n ∧
      ∃ w : Nat → V, (∀ j < n, (j, w j) ∈ B ∨ ∃ t' : Nat, a ≤ t' ∧ t' < t ∧ log[t']? = some (j, w j)) ∧ Yields (upd i (readView n w)) v) :
    ALog upd mixWhole n B ((log.drop a).take (b - a)) := by
  induction b, hab using Nat.le_induction with
  | base => rw [Nat.sub_self, List.take_zero]; exact .nil
  | succ b hab ih =>
    have hlt : b < log.length := by omega
    have hget : (log.drop a)[b - a]? = some (log[b].1, log[b].2) := by
      rw [List.getElem?_drop, Nat.add_sub_cancel' hab, List.getElem?_eq_getElem hlt]
    rw [Nat.succ_sub hab, Nat.succ_eq_add_one, List.take_add_one, hget]
    obtain ⟨h1, w, h2, h3⟩ := h b log[b].1 log[b].2 hab (by omega) (List.getElem?_eq_getElem hlt)
    refine .write w (ih (by omega) fun t i v g1 g2 g3 => h t i v g1 (by omega) g3) (fun j hj => ?_) h1 h3
    rcases h2 j hj with h4 | ⟨t', g1, g2, g3⟩
    · exact Or.inl h4
    · right
      refine List.mem_iff_getElem?.mpr ⟨t' - a, ?_⟩
      rw [List.getElem?_take_of_lt (by omega), List.getElem?_drop, Nat.add_sub_cancel' g1]
      exact g3

/-- What is known of a completed execution. -/
structure ADone (G : Nat → Nat → Prop) (n N : Nat) (m₀ : List V) (upd : Nat → (Nat → C V) → C V) (log : List (Nat × V)) : Prop where
  nodup : (log.map Prod.fst).Nodup
  mem : ∀ q, q ∈ log.map Prod.fst ↔ q < N
  order : ∀ (t q : Nat) (v : V), log[t]? = some (q, v) → ∀ q' < N, G q q' → ∃ t' : Nat, t' < t ∧ ∃ v', log[t']? = some (q', v')
  value : ∀ (t q : Nat) (v : V), log[t]? = some (q, v) → ∃ w : Nat → V, (∀ j < n, Visible G n N m₀ (log.take t) q j (w j)) ∧
    Yields (upd (q % n) (readView n w)) v

theorem AInv.done {G : Nat → Nat → Prop} {n N : Nat} {m₀ : List V} {p : Nat → Prog V V} {upd : Nat → (Nat → C V) → C V} (he : Evals p upd) {c : AConf V}
    (h : AInv G n N m₀ p c) (hf : ∀ q, c.2 q = .ret ()) : ADone G n N m₀ upd c.1 where
  nodup := h.nodup
  mem := fun q => ⟨fun hm => by
      obtain ⟨e, h1, rfl⟩ := List.mem_map.mp hm
      exact h.lt e h1, fun hq => (h.fin_iff hq).mp (hf q)⟩
  order := h.order
  value := fun t q v ht => by
    obtain ⟨w, h1, h2⟩ := h.value t q v ht
    exact ⟨w, h1, by rw [← he]; exact h2⟩

section done
variable {G : Nat → Nat → Prop} {n N : Nat} {m₀ : List V} {upd : Nat → (Nat → C V) → C V} {log : List (Nat × V)}

theorem ADone.perm (h : ADone G n N m₀ upd log) : (log.map Prod.fst).Perm (List.range N) :=
  (List.perm_ext_iff_of_nodup h.nodup List.nodup_range).mpr fun q => by rw [h.mem, List.mem_range]

theorem ADone.length (h : ADone G n N m₀ upd log) : log.length = N := by
  have := h.perm.length_eq
  simpa using this

theorem getElem?_take_some {l : List α} {k t : Nat} {a : α} (h : (l.take k)[t]? = some a) : t < k ∧ l[t]? = some a := by
  rw [List.getElem?_take] at h
  split at h
  · exact ⟨by assumption, h⟩
  · cases h

/-- Without any bound on the lag: the writes are those of an asynchronous execution whose reads return values held at some time. -/
theorem ADone.alog (h : ADone G n N m₀ upd log) (hn : 0 < n) : ALog upd mixWhole n (memOf m₀) (comps n log) := by
  have := alog_segment (upd := upd) (n := n) (memOf m₀) (comps n log) 0 (comps n log).length (Nat.zero_le _) (Nat.le_refl _) fun t i v _ _ ht => by
    rw [comps_getElem?] at ht
    obtain ⟨⟨q, v'⟩, h1, h2⟩ := Option.map_eq_some_iff.mp ht
    injection h2 with h2 h3
    subst h2 h3
    obtain ⟨w, h4, h5⟩ := h.value t q v' h1
    refine ⟨Nat.mod_lt _ hn, w, fun j hj => ?_, h5⟩
    rcases h4 j hj with ⟨t', q₁, g1, g2, -⟩ | ⟨g1, -⟩
    · right
      obtain ⟨g3, g4⟩ := getElem?_take_some g1
      exact ⟨t', Nat.zero_le _, g3, by rw [comps_getElem?, g4]; simp [g2]⟩
    · exact Or.inl g1
  simpa using this

theorem count_mod (n k i : Nat) (hi : i < n) : ((List.range (k * n)).map (· % n)).count i = k := by
  induction k with
  | zero => simp
  | succ k ih =>
    rw [Nat.succ_mul, List.range_add, List.map_append, List.count_append, ih, List.map_map]
    congr 1
    have : ((fun x => x % n) ∘ fun x => k * n + x) = fun x => x % n := by
      funext x
      simp only [Function.comp_apply]
      rw [Nat.add_comm, Nat.add_mul_mod_self_right]
    rw [this]
    have : (List.range n).map (fun x => x % n) = List.range n := by
      conv_rhs => rw [← List.map_id (List.range n)]
      exact List.map_congr_left fun x hx => Nat.mod_eq_of_lt (List.mem_range.mp hx)
    rw [this]
    exact List.count_eq_one_of_mem List.nodup_range (List.mem_range.mpr hi)

theorem ADone.free {k : Nat} (h : ADone G n (k * n) m₀ upd log) (hn : m₀.length = n) : AFree upd mixWhole k m₀ (applyLog m₀ (comps n log)) := by
  rcases Nat.eq_zero_or_pos n with h0 | h0
  · refine ⟨comps n log, ?_, fun i hi => by omega, rfl⟩
    have : log = [] := List.length_eq_zero_iff.mp (by rw [h.length, h0, Nat.mul_zero])
    rw [this]
    exact .nil
  · refine ⟨comps n log, hn ▸ h.alog h0, fun i hi => ?_, rfl⟩
    have : (comps n log).map Prod.fst = (log.map Prod.fst).map (· % n) := by
      unfold comps
      rw [List.map_map, List.map_map]
      rfl
    rw [this, (h.perm.map (· % n)).count_eq]
    exact count_mod n k i (by omega)

/-! ### Bounded lag -/

/-- The position of the write of job `q`. -/
def jobPos (log : List (Nat × V)) (q : Nat) : Nat := (log.map Prod.fst).idxOf q

theorem ADone.pos_spec (h : ADone G n N m₀ upd log) {q : Nat} (hq : q < N) : ∃ v, log[jobPos log q]? = some (q, v) := by
  have hm := (h.mem q).mpr hq
  have hlt : jobPos log q < (log.map Prod.fst).length := List.idxOf_lt_length_iff.mpr hm
  have he : (log.map Prod.fst)[jobPos log q]? = some q := by
    rw [List.getElem?_eq_getElem hlt]
    exact congrArg some (List.getElem_idxOf hlt)
  rw [List.getElem?_map] at he
  obtain ⟨⟨q', v⟩, h1, h2⟩ := Option.map_eq_some_iff.mp he
  dsimp only at h2
  subst h2
  exact ⟨v, h1⟩

theorem ADone.pos_eq (h : ADone G n N m₀ upd log) {t q : Nat} {v : V} (ht : log[t]? = some (q, v)) : jobPos log q = t ∧ q < N := by
  have hq : q < N := (h.mem q).mp (mem_fst_iff.mpr ⟨t, v, ht⟩)
  obtain ⟨v', h1⟩ := h.pos_spec hq
  exact ⟨nodup_fst_unique h.nodup h1 ht, hq⟩

/-- The position in the log by which the first `s` sweeps are complete. -/
def jobCut (n : Nat) (log : List (Nat × V)) (s : Nat) : Nat := (Finset.range (s * n)).sup fun q => jobPos log q + 1

theorem cut_mono (n : Nat) (log : List (Nat × V)) {s s' : Nat} (h : s ≤ s') : jobCut n log s ≤ jobCut n log s' :=
  Finset.sup_mono (by
    intro q
    simp only [Finset.mem_range]
    intro hq
    exact Nat.lt_of_lt_of_le hq (Nat.mul_le_mul_right _ h))

theorem pos_lt_cut {n : Nat} {log : List (Nat × V)} {s q : Nat} (h : q < s * n) : jobPos log q < jobCut n log s :=
  Finset.le_sup (f := fun q => jobPos log q + 1) (Finset.mem_range.mpr h)

theorem cut_zero (n : Nat) (log : List (Nat × V)) : jobCut n log 0 = 0 := by simp [jobCut]

variable {L : Nat}

theorem ADone.cut_le (h : ADone (Lag n L) n N m₀ upd log) (hn : 0 < n) (hL : 0 < L) {t q : Nat} {v : V} (ht : log[t]? = some (q, v)) :
    jobCut n log (q / n + 1 - L) ≤ t := by
  refine Finset.sup_le fun q' hq' => ?_
  rw [Finset.mem_range] at hq'
  have hs : q' / n < q / n + 1 - L := (Nat.div_lt_iff_lt_mul hn).mpr hq'
  have hqN := (h.pos_eq ht).2
  have ha : ∀ a : Nat, a + 1 - L ≤ a := fun a => by omega
  have hlt : q' < N := by
    refine Nat.lt_of_lt_of_le hq' (Nat.le_trans (Nat.mul_le_mul_right n (ha (q / n))) ?_)
    exact Nat.le_trans (Nat.div_mul_le_self q n) (by omega)
  obtain ⟨t', h1, v', h2⟩ := h.order t q v ht q' hlt ((fun a b (hab : a < b + 1 - L) => (by omega : a + L ≤ b)) _ _ hs)
  rw [(h.pos_eq h2).1]
  exact h1

/-- A read in sweep `s` returns a value written after the sweeps before `s + 1 - 2 L` were complete. -/
theorem ADone.read (h : ADone (Lag n L) n N m₀ upd log) (hn : 0 < n) (hL : 0 < L) {t q j : Nat} {v u : V} (ht : log[t]? = some (q, v)) (hj : j < n)
    (hv : Visible (Lag n L) n N m₀ (log.take t) q j u) :
    (∃ t' : Nat, jobCut n log (q / n + 1 - 2 * L) ≤ t' ∧ t' < t ∧ (comps n log)[t']? = some (j, u)) ∨ (m₀[j]? = some u ∧ q / n < L) := by
  have hqN := (h.pos_eq ht).2
  have hjob : L ≤ q / n → (q / n - L) * n + j < N ∧ Lag n L q ((q / n - L) * n + j) ∧ ((q / n - L) * n + j) % n = j ∧
      ((q / n - L) * n + j) / n = q / n - L := fun hle => by
    have h1 : ((q / n - L) * n + j) / n = q / n - L := by
      rw [Nat.mul_comm, Nat.mul_add_div hn, Nat.div_eq_of_lt hj, Nat.add_zero]
    refine ⟨?_, ?_, ?_, h1⟩
    · have h2 : (q / n - L + 1) * n ≤ q / n * n := Nat.mul_le_mul_right n (by omega)
      rw [Nat.succ_mul] at h2
      have h3 := Nat.div_mul_le_self q n
      omega
    · show _ / n + L ≤ q / n
      rw [h1]; omega
    · rw [Nat.mul_comm, Nat.mul_add_mod, Nat.mod_eq_of_lt hj]
  rcases hv with ⟨t', q₁, g1, g2, g3⟩ | ⟨g1, g2⟩
  · left
    obtain ⟨g4, g5⟩ := getElem?_take_some g1
    refine ⟨t', ?_, g4, by rw [comps_getElem?, g5]; simp [g2]⟩
    rcases Nat.lt_or_ge (q / n) L with hs | hs
    · rw [show q / n + 1 - 2 * L = 0 by omega, cut_zero]
      exact Nat.zero_le _
    · obtain ⟨j1, j2, j3, j4⟩ := hjob hs
      obtain ⟨t'', k1, v'', k2⟩ := g3 _ j1 j2 j3
      have k3 := h.cut_le hn hL (getElem?_take_some k2).2
      rw [j4] at k3
      rw [show q / n + 1 - 2 * L = q / n - L + 1 - L by omega]
      omega
  · right
    refine ⟨g1, Nat.lt_of_not_le fun hle => ?_⟩
    obtain ⟨j1, j2, j3, -⟩ := hjob hle
    exact g2 _ j1 j2 j3

theorem ADone.cut_le_length (h : ADone G n N m₀ upd log) {s : Nat} (hs : s * n ≤ N) : jobCut n log s ≤ (comps n log).length := by
  rw [comps_length]
  refine Finset.sup_le fun q hq => ?_
  rw [Finset.mem_range] at hq
  obtain ⟨v, h1⟩ := h.pos_spec (q := q) (by omega)
  exact (List.getElem?_eq_some_iff.mp h1).1

/-- A round of `2 L - 1` sweeps; the last round may have more. -/
theorem ADone.round (h : ADone (Lag n L) n N m₀ upd log) (hn : 0 < n) (hL : 0 < L) (hl : m₀.length = n) {r e : Nat} (hr : (r + 1) * (2 * L - 1) * n ≤ N)
    (he : jobCut n log ((r + 1) * (2 * L - 1)) ≤ e) (hlen : e ≤ (comps n log).length) :
    ALog upd mixWhole n (if r = 0 then memOf m₀ else {e | e ∈ ((comps n log).drop (jobCut n log ((r - 1) * (2 * L - 1)))).take
        (jobCut n log (r * (2 * L - 1)) - jobCut n log ((r - 1) * (2 * L - 1)))})
      (((comps n log).drop (jobCut n log (r * (2 * L - 1)))).take (e - jobCut n log (r * (2 * L - 1)))) ∧
    Covers n (((comps n log).drop (jobCut n log (r * (2 * L - 1)))).take (e - jobCut n log (r * (2 * L - 1)))) := by
  set g := 2 * L - 1 with hg
  have hm1 : jobCut n log (r * g) ≤ e := (cut_mono n log (Nat.mul_le_mul_right g (by omega))).trans he
  have hm0 : jobCut n log ((r - 1) * g) ≤ jobCut n log (r * g) := cut_mono n log (Nat.mul_le_mul_right g (by omega))
  refine ⟨alog_segment _ (comps n log) _ _ hm1 hlen fun t i v h1 h2 ht => ?_, fun j hj => ?_⟩
  · rw [comps_getElem?] at ht
    obtain ⟨⟨q, v'⟩, h3, h4⟩ := Option.map_eq_some_iff.mp ht
    injection h4 with h4 h5
    subst h4 h5
    obtain ⟨w, h6, h7⟩ := h.value t q v' h3
    refine ⟨Nat.mod_lt _ hn, w, fun j hj => ?_, h7⟩
    -- the sweep of the job
    have hs : r * g ≤ q / n := by
      by_contra hlt
      have hq : q < r * g * n := (Nat.div_lt_iff_lt_mul hn).mp (by omega)
      have := pos_lt_cut (log := log) hq
      rw [(h.pos_eq h3).1] at this
      omega
    rcases h.read hn hL h3 hj (h6 j hj) with ⟨t', g1, g2, g3⟩ | ⟨g1, g2⟩
    · rcases Nat.lt_or_ge t' (jobCut n log (r * g)) with hlt | hge
      · left
        rcases Nat.eq_zero_or_pos r with h0 | h0
        · rw [h0, Nat.zero_mul, cut_zero] at hlt; omega
        · rw [if_neg (by omega)]
          have hr1 : (r - 1) * g ≤ q / n + 1 - 2 * L := by
            have : r * g = (r - 1) * g + g := by
              conv_lhs => rw [show r = r - 1 + 1 by omega]
              rw [Nat.succ_mul]
            omega
          have hc := cut_mono n log hr1
          refine List.mem_iff_getElem?.mpr ⟨t' - jobCut n log ((r - 1) * g), ?_⟩
          rw [List.getElem?_take_of_lt (by omega), List.getElem?_drop, Nat.add_sub_cancel' (by omega)]
          exact g3
      · exact Or.inr ⟨t', hge, g2, g3⟩
    · left
      have h0 : r = 0 := by
        by_contra h0
        have : g ≤ r * g := Nat.le_mul_of_pos_left g (by omega)
        omega
      rw [if_pos h0]
      exact g1
  · -- the job of the last sweep of the round
    have hgp : 0 < (r + 1) * g := Nat.mul_pos (by omega) (by omega)
    have hq1 : ((r + 1) * g - 1) * n + j < (r + 1) * g * n := by
      have : (r + 1) * g * n = ((r + 1) * g - 1) * n + n := by
        conv_lhs => rw [show (r + 1) * g = (r + 1) * g - 1 + 1 by omega]
        rw [Nat.succ_mul]
      omega
    obtain ⟨v, h1⟩ := h.pos_spec (q := ((r + 1) * g - 1) * n + j) (by omega)
    have h2 := pos_lt_cut (log := log) hq1
    have h3 := h.cut_le hn hL h1
    have h4 : (((r + 1) * g - 1) * n + j) / n = (r + 1) * g - 1 := by
      rw [Nat.mul_comm, Nat.mul_add_div hn, Nat.div_eq_of_lt hj, Nat.add_zero]
    have h5 : (((r + 1) * g - 1) * n + j) % n = j := by rw [Nat.mul_comm, Nat.mul_add_mod, Nat.mod_eq_of_lt hj]
    rw [h4] at h3
    have h6 : r * g ≤ (r + 1) * g - 1 + 1 - L := by rw [Nat.succ_mul] at hgp ⊢; omega
    have h7 := cut_mono n log h6
    refine ⟨v, List.mem_iff_getElem?.mpr ⟨jobPos log (((r + 1) * g - 1) * n + j) - jobCut n log (r * g), ?_⟩⟩
    rw [List.getElem?_take_of_lt (by omega), List.getElem?_drop, Nat.add_sub_cancel' (by omega), comps_getElem?, h1]
    simp [h5]

theorem take_add_segment {l : List α} {a b : Nat} (h : a ≤ b) : l.take a ++ (l.drop a).take (b - a) = l.take b := by
  conv_rhs => rw [← Nat.add_sub_cancel' h, List.take_add]

theorem ADone.rounds_aux (h : ADone (Lag n L) n N m₀ upd log) (hn : 0 < n) (hL : 0 < L) (hl : m₀.length = n) {k e : Nat} (hk : (k + 1) * (2 * L - 1) * n ≤ N)
    (he : jobCut n log ((k + 1) * (2 * L - 1)) ≤ e) (hlen : e ≤ (comps n log).length) :
    ARounds upd mixWhole m₀ (k + 1) ((comps n log).take e) (((comps n log).drop (jobCut n log (k * (2 * L - 1)))).take (e - jobCut n log (k * (2 * L - 1)))) := by
  induction k generalizing e with
  | zero =>
    obtain ⟨h1, h2⟩ := h.round hn hL hl hk he hlen
    rw [if_pos rfl] at h1
    rw [Nat.zero_mul, cut_zero] at h1 h2 ⊢
    rw [List.drop_zero, Nat.sub_zero] at h1 h2 ⊢
    exact .first (hl ▸ h1) (hl ▸ h2)
  | succ k ih =>
    obtain ⟨h1, h2⟩ := h.round hn hL hl hk he hlen
    rw [if_neg (by omega), Nat.add_sub_cancel] at h1
    have hk' : (k + 1) * (2 * L - 1) * n ≤ N := Nat.le_trans (Nat.mul_le_mul_right n (Nat.mul_le_mul_right _ (by omega))) hk
    have h3 := ih hk' (Nat.le_refl _) (h.cut_le_length hk')
    have hc : jobCut n log ((k + 1) * (2 * L - 1)) ≤ e :=
      (cut_mono n log (Nat.mul_le_mul_right (2 * L - 1) (show k + 1 ≤ k + 1 + 1 by omega))).trans he
    rw [← take_add_segment hc]
    exact .next h3 (hl ▸ h1) (hl ▸ h2)

/-- With lag at most `L`: `2 L - 1` sweeps make a round. -/
theorem ADone.rounds {k : Nat} (h : ADone (Lag n L) n N m₀ upd log) (hN : k * (2 * L - 1) * n ≤ N) (hn : 0 < n) (hL : 0 < L) (hk : 0 < k)
    (hl : m₀.length = n) : ∃ last, ARounds upd mixWhole m₀ k (comps n log) last := by
  obtain ⟨k, rfl⟩ : ∃ k', k = k' + 1 := ⟨k - 1, by omega⟩
  have h1 := h.rounds_aux hn hL hl hN (h.cut_le_length hN) (Nat.le_refl _)
  rw [List.take_of_length_le (Nat.le_refl _)] at h1
  exact ⟨_, h1⟩

end done

/-! ### Executions come to their end -/

theorem exists_current {n : Nat} {m₀ : List V} {log : List (Nat × V)} {l : Nat} {v : V} (h : (applyLog m₀ (comps n log))[l]? = some v) :
    (∃ (t q₁ : Nat), log[t]? = some (q₁, v) ∧ q₁ % n = l ∧ ∀ (t' q' : Nat) (v' : V), log[t']? = some (q', v') → q' % n = l → t' ≤ t) ∨
      (m₀[l]? = some v ∧ ∀ (t' q' : Nat) (v' : V), log[t']? = some (q', v') → q' % n ≠ l) := by
  induction log using List.reverseRecOn with
  | nil => exact Or.inr ⟨h, by simp⟩
  | append_singleton log e ih =>
    obtain ⟨q, u⟩ := e
    have happ : applyLog m₀ (comps n (log ++ [(q, u)])) = (applyLog m₀ (comps n log)).set (q % n) u := by
      unfold comps
      rw [List.map_append, applyLog_append]
      rfl
    rw [happ] at h
    by_cases e : q % n = l
    · left
      rw [e, List.getElem?_set_self'] at h
      have hu : u = v := by
        cases hx : (applyLog m₀ (comps n log))[l]? with
        | none => rw [hx] at h; cases h
        | some y => rw [hx] at h; injection h
      subst hu
      refine ⟨log.length, q, by simp, e, fun t' q' v' ht _ => ?_⟩
      have := (List.getElem?_eq_some_iff.mp ht).1
      rw [List.length_append, List.length_singleton] at this
      omega
    · rw [List.getElem?_set_ne e] at h
      rcases ih h with ⟨t, q₁, h1, h2, h3⟩ | ⟨h1, h2⟩
      · left
        refine ⟨t, q₁, getElem?_append_of_some h1, h2, fun t' q' v' ht hl => ?_⟩
        rcases getElem?_append_one ht with ⟨-, ht⟩ | ⟨-, he⟩
        · exact h3 t' q' v' ht hl
        · injection he with he1 he2; subst he1; exact absurd hl e
      · right
        refine ⟨h1, fun t' q' v' ht => ?_⟩
        rcases getElem?_append_one ht with ⟨-, ht⟩ | ⟨-, he⟩
        · exact h2 t' q' v' ht
        · injection he with he1 he2; subst he1; exact e

/-- The current contents are visible. -/
theorem visible_current {G : Nat → Nat → Prop} {n N : Nat} {m₀ : List V} {log : List (Nat × V)} {q l : Nat} {v : V}
    (h : (applyLog m₀ (comps n log))[l]? = some v) (hg : ∀ q' < N, G q q' → ∃ (t : Nat) (v : V), log[t]? = some (q', v)) : Visible G n N m₀ log q l v := by
  rcases exists_current h with ⟨t, q₁, h1, h2, h3⟩ | ⟨h1, h2⟩
  · left
    refine ⟨t, q₁, h1, h2, fun q' hq hgq hl => ?_⟩
    obtain ⟨t', v', ht⟩ := hg q' hq hgq
    exact ⟨t', h3 t' q' v' ht hl, v', ht⟩
  · right
    refine ⟨h1, fun q' hq hgq hl => ?_⟩
    obtain ⟨t', v', ht⟩ := hg q' hq hgq
    exact h2 t' q' v' ht hl

/-- The computation, whatever it loads, ends with a value or with a division by zero. -/
def JobSafe (n : Nat) (m : Prog V V) : Prop := ∀ view, ∃ v, Yields (m.eval (readView n view)) v

/-- Some job can go on, unless all have ended. -/
theorem AInv.progress {G : Nat → Nat → Prop} {n N : Nat} {m₀ : List V} {p : Nat → Prog V V} (hn : m₀.length = n) {c : AConf V} (h : AInv G n N m₀ p c)
    (hs : ∀ q < N, JobSafe n (p (q % n))) (hG : ∀ q q', G q q' → q' < q) : (∀ q, c.2 q = .ret ()) ∨ ∃ d, AStep G n N m₀ c d := by
  classical
  obtain ⟨log, ps⟩ := c
  by_cases hf : ∀ q, ps q = .ret ()
  · exact Or.inl hf
  · right
    rw [not_forall] at hf
    have hmin := Nat.find_spec hf
    have hbelow : ∀ q' < Nat.find hf, ps q' = .ret () := fun q' hq' => Classical.not_not.mp (Nat.find_min hf hq')
    generalize Nat.find hf = q at hmin hbelow
    have hg : ∀ q', G q q' → ps q' = .ret () := fun q' hgq => hbelow q' (hG q q' hgq)
    obtain ⟨hqN, hqn⟩ := h.running (q := q) rfl hmin
    obtain ⟨r, R, w, h1, h2, h3⟩ := h.pend q hqN hqn
    dsimp only at h1 h3
    have hev := h2.eval w fun _ _ => rfl
    obtain ⟨v, hv⟩ := hs q hqN w
    rw [hev] at hv
    cases r with
    | ret a => exact ⟨_, .store (l := q % n) (v := a) (k := .ret ()) q h1 rfl hg⟩
    | store a b c => exact absurd h2.once (by simp [Prog.Once])
    | fail e =>
      have : e = .divzero := by
        rcases hv with hv | hv
        · cases hv
        · injection hv
      subst this
      exact ⟨_, .junk v q h1 hg⟩
    | load l k =>
      have hl : l < n := by
        by_contra hl
        simp only [Prog.eval, readView, if_neg hl] at hv
        rcases hv with hv | hv <;> cases hv
      obtain ⟨u, hu⟩ := exists_visible (G := G) (n := n) (N := N) (m₀ := m₀) (q := q) (l := l) (by omega) fun q' hq' hgq =>
        mem_fst_iff.mp ((h.fin_iff hq').mp (hg q' hgq))
      exact ⟨_, .load (l := l) (k := fun v => (k v).bind (Prog.wr (q % n))) q h1 hl hg hu⟩

/-- How many accesses are left at most. -/
structure ABound (n N : Nat) (k : Nat) (c : AConf V) (b : Nat → Nat) : Prop where
  pend : ∀ q < N, c.2 q ≠ .ret () → ∃ (r : Prog V V) (S : Finset Nat), c.2 q = r.bind (Prog.wr (q % n)) ∧ r.Once (fun l => l < n → l ∈ S) ∧ S.card + 1 ≤ b q
  total : k + ∑ q ∈ Finset.range N, b q ≤ N * (n + 1)

theorem Prog.Once.mono {R R' : Nat → Prop} {m : Prog V α} (h : m.Once R) (hR : ∀ c, R c → R' c) : m.Once R' := by
  induction m generalizing R R' with
  | ret a => trivial
  | fail e => trivial
  | store l v k ih => exact h
  | load l k ih => exact ⟨hR _ h.1, fun v => ih v (h.2 v) fun c hc => ⟨hR _ hc.1, hc.2⟩⟩

theorem sum_update_pred {N q : Nat} (hq : q < N) {b : Nat → Nat} {a : Nat} (ha : a + 1 ≤ b q) :
    (∑ i ∈ Finset.range N, Function.update b q a i) + 1 ≤ ∑ i ∈ Finset.range N, b i := by
  refine Finset.sum_lt_sum (fun i _ => ?_) ⟨q, Finset.mem_range.mpr hq, show Function.update b q a q < b q by rw [Function.update_self]; omega⟩
  by_cases e : i = q
  · subst e; rw [Function.update_self]; omega
  · rw [Function.update_of_ne e]

theorem ABound.step {G : Nat → Nat → Prop} {n N : Nat} {m₀ : List V} {c d : AConf V} {k : Nat} {b : Nat → Nat} (h : ABound n N k c b)
    (hidle : ∀ q, N ≤ q → c.2 q = .ret ()) (s : AStep G n N m₀ c d) : ∃ b', ABound n N (k + 1) d b' := by
  have hlt : ∀ q, c.2 q ≠ .ret () → q < N := fun q hq => Nat.lt_of_not_le fun hle => hq (hidle q hle)
  -- a job that ends
  have hend : ∀ (log : List (Nat × V)) (q : Nat), c.2 q ≠ .ret () → ABound n N (k + 1) (log, Function.update c.2 q (.ret ())) (Function.update b q 0) := by
    intro log q hq
    obtain ⟨r, S, h1, h2, h3⟩ := h.pend q (hlt q hq) hq
    refine ⟨fun q' hq' hne => ?_, ?_⟩
    · by_cases e : q' = q
      · subst e; simp at hne
      · dsimp only at hne ⊢
        rw [Function.update_of_ne e] at hne ⊢
        rw [Function.update_of_ne e]
        exact h.pend q' hq' hne
    · have := sum_update_pred (a := 0) (hlt q hq) (b := b) (by omega)
      have := h.total
      omega
  cases s with
  | @load log ps l f v q hq hl hg hv =>
    have hne : ps q ≠ .ret () := by rw [hq]; simp
    have hqN := hlt q hne
    obtain ⟨r, S, h1, h2, h3⟩ := h.pend q hqN hne
    dsimp only at h1
    rw [hq] at h1
    cases r with
    | ret a => simp [Prog.bind, Prog.wr] at h1
    | fail e => simp [Prog.bind] at h1
    | store a b c => exact absurd h2 (by simp [Prog.Once])
    | load l' f' =>
      simp only [Prog.bind, Prog.load.injEq] at h1
      obtain ⟨rfl, rfl⟩ := h1
      have hm : l ∈ S := h2.1 hl
      refine ⟨Function.update b q S.card, fun q' hq' hne' => ?_, ?_⟩
      · dsimp only at hne' ⊢
        by_cases e : q' = q
        · subst e
          refine ⟨f' v, S.erase l, by rw [Function.update_self], (h2.2 v).mono fun c hc hcn => Finset.mem_erase.mpr ⟨hc.2, hc.1 hcn⟩, ?_⟩
          rw [Function.update_self, Finset.card_erase_of_mem hm]
          have := Finset.card_pos.mpr ⟨l, hm⟩
          omega
        · rw [Function.update_of_ne e] at hne' ⊢
          rw [Function.update_of_ne e]
          exact h.pend q' hq' hne'
      · have := sum_update_pred (a := S.card) hqN (b := b) (by omega)
        have := h.total
        omega
  | @store log ps l v f q hq hl hg =>
    have hne : ps q ≠ .ret () := by rw [hq]; simp
    obtain ⟨r, S, h1, h2, h3⟩ := h.pend q (hlt q hne) hne
    dsimp only at h1
    rw [hq] at h1
    have hf : f = .ret () := by
      cases r with
      | ret a => simp only [Prog.bind, Prog.wr, Prog.store.injEq] at h1; exact h1.2.2
      | fail e => simp [Prog.bind] at h1
      | store a b c => exact absurd h2 (by simp [Prog.Once])
      | load a b => simp [Prog.bind] at h1
    subst hf
    exact ⟨_, hend _ q hne⟩
  | @junk log ps v q hq hg => exact ⟨_, hend _ q (by show ps q ≠ _; rw [hq]; simp)⟩

theorem ABound.start {n N : Nat} {p : Nat → Prog V V} (ho : ∀ q < N, (p (q % n)).Once (fun _ => True)) :
    ABound n N 0 (startSweeps n N p) (fun _ => n + 1) where
  pend := fun q hq _ => ⟨p (q % n), Finset.range n, if_pos hq, (ho q hq).mono fun c _ hc => Finset.mem_range.mpr hc, by simp⟩
  total := by simp

/-- The number of accesses of an execution is bounded. -/
theorem asteps_bounded [Zero V] {G : Nat → Nat → Prop} {n N : Nat} {m₀ : List V} {p : Nat → Prog V V} (hn : m₀.length = n)
    (ho : ∀ q < N, (p (q % n)).Once (fun _ => True)) {k : Nat} {c : AConf V} (h : ASteps G n N m₀ k (startSweeps n N p) c) : k ≤ N * (n + 1) := by
  have : ∃ b, ABound n N k c b := by
    have hinv : ∀ {k : Nat} {c : AConf V}, ASteps G n N m₀ k (startSweeps n N p) c → AInv G n N m₀ p c := fun h => (AInv.start ho).steps hn h
    generalize hs : startSweeps n N p = c0 at h
    induction h with
    | refl => subst hs; exact ⟨_, ABound.start ho⟩
    | tail h' s ih =>
      obtain ⟨b, hb⟩ := ih hs
      subst hs
      exact hb.step (hinv h').idle s
  obtain ⟨b, hb⟩ := this
  have := hb.total
  omega

/-- Every execution can be continued to its end. -/
theorem asteps_complete [Zero V] {G : Nat → Nat → Prop} {n N : Nat} {m₀ : List V} {p : Nat → Prog V V} (hn : m₀.length = n)
    (ho : ∀ q < N, (p (q % n)).Once (fun _ => True)) (hs : ∀ q < N, JobSafe n (p (q % n))) (hG : ∀ q q', G q q' → q' < q) {k : Nat} {c : AConf V}
    (h : ASteps G n N m₀ k (startSweeps n N p) c) :
    ∃ k' d, k ≤ k' ∧ ASteps G n N m₀ k' (startSweeps n N p) d ∧ ∀ q, d.2 q = .ret () := by
  generalize hr : N * (n + 1) - k = r
  induction r generalizing k c with
  | zero =>
    rcases ((AInv.start ho).steps hn h).progress hn hs hG with hf | ⟨d, hd⟩
    · exact ⟨k, c, Nat.le_refl _, h, hf⟩
    · have := asteps_bounded hn ho (h.tail hd); omega
  | succ r ih =>
    rcases ((AInv.start ho).steps hn h).progress hn hs hG with hf | ⟨d, hd⟩
    · exact ⟨k, c, Nat.le_refl _, h, hf⟩
    · obtain ⟨k', d', h1, h2⟩ := ih (h.tail hd) (by omega)
      exact ⟨k', d', by omega, h2⟩

/-! ### Interleavings -/

theorem startLoop_sweeps (n N : Nat) (p : Nat → Prog V V) (m₀ : List V) :
    startLoop (List.range N) (fun q => rowP p (q % n)) m₀ = (m₀, (startSweeps n N p).2) := by
  unfold startLoop startSweeps
  simp only [List.mem_range]
  rfl

/-- What interleaved jobs do, the machine can do. -/
theorem gsteps_asteps [Zero V] {G : Nat → Nat → Prop} {n N : Nat} {m₀ : List V} {p : Nat → Prog V V} (hn : m₀.length = n)
    (ho : ∀ q < N, (p (q % n)).Once (fun _ => True)) {k : Nat} {c : Conf V} (h : GSteps G n k (startLoop (List.range N) (fun q => rowP p (q % n)) m₀) c) :
    ∃ log, ASteps G n N m₀ k (startSweeps n N p) (log, c.2) ∧ c.1 = applyLog m₀ (comps n log) := by
  rw [startLoop_sweeps] at h
  generalize hs : (m₀, (startSweeps n N p).2) = c0 at h
  induction h with
  | refl => subst hs; exact ⟨[], .refl _, rfl⟩
  | @tail k c d e h' s ih =>
    obtain ⟨log, h1, h2⟩ := ih hs
    have hinv := (AInv.start (G := G) (m₀ := m₀) ho).steps hn h1
    have happ : ∀ q v, applyLog m₀ (comps n (log ++ [(q, v)])) = (applyLog m₀ (comps n log)).set (q % n) v := fun q v => by
      unfold comps
      rw [List.map_append, applyLog_append]
      rfl
    cases s with
    | @load m ps l f v q hq hv hg =>
      dsimp only at h1 h2 ⊢
      subst h2
      refine ⟨log, h1.tail (.load q hq ?_ hg (visible_current hv fun q' hq' hgq => mem_fst_iff.mp ((hinv.fin_iff hq').mp (hg q' hgq)))), rfl⟩
      have := (List.getElem?_eq_some_iff.mp hv).1
      rw [applyLog_length] at this
      omega
    | @store m ps l v f q hq hl hg =>
      dsimp only at h1 h2 ⊢
      subst h2
      have hl' : l = q % n := by
        obtain ⟨hqN, hqn⟩ := hinv.running (q := q) hq (by simp)
        obtain ⟨r, R, w, g1, g2, g3⟩ := hinv.pend q hqN hqn
        dsimp only at g1
        rw [hq] at g1
        cases r with
        | ret a => simp only [Prog.bind, Prog.wr, Prog.store.injEq] at g1; exact g1.1
        | fail e => simp [Prog.bind] at g1
        | store a b c => exact absurd g2.once (by simp [Prog.Once])
        | load a b => simp [Prog.bind] at g1
      exact ⟨log ++ [(q, v)], h1.tail (.store q hq hl' hg), by rw [happ, hl']⟩
    | @junk m ps v q hq hg =>
      dsimp only at h1 h2 ⊢
      subst h2
      exact ⟨log ++ [(q, v)], h1.tail (.junk v q hq hg), by rw [happ]⟩

end Blasted
