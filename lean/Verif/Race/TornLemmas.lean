import Verif.Race.TornModel
import Verif.Race.AsyncLemmas
import Verif.Race.KernelLemmas
import Mathlib.Data.Nat.ModEq

/-!
# Executions coefficient by coefficient
-/

namespace Blasted

open Prog

variable {K V R M α β σ ι : Type} {w : Nat}

/-! ### What a computation returns -/

/-- If every load of a cell `c` returns a value in `S c`, the computation ends with a value in `P`. If `J` does not hold it does not divide by zero. -/
def Prog.All (S : Nat → Set K) (J : Prop) (P : α → Prop) : Prog K α → Prop
  | .ret a => P a
  | .fail e => e = .divzero → J
  | .load c k => ∀ v ∈ S c, (k v).All S J P
  | .store _ _ _ => True

section all
variable {S S' : Nat → Set K} {J J' : Prop} {P : α → Prop}

theorem Prog.All.mono {P' : α → Prop} {m : Prog K α} (h : m.All S J P) (hS : ∀ c, S' c ⊆ S c) (hJ : J → J') (hP : ∀ a, P a → P' a) : m.All S' J' P' := by
  induction m with
  | ret a => exact hP a h
  | fail e => exact fun he => hJ (h he)
  | load c k ih => exact fun v hv => ih v (h v (hS c hv))
  | store _ _ _ => trivial

theorem Prog.All.imp {P' : α → Prop} {m : Prog K α} (h : m.All S J P) (hP : ∀ a, P a → P' a) : m.All S J P' := h.mono (fun _ _ h => h) id hP

theorem Prog.All.bind {Q : β → Prop} {m : Prog K α} {f : α → Prog K β} (h : m.All S J P) (hf : ∀ a, P a → (f a).All S J Q) : (m.bind f).All S J Q := by
  induction m with
  | ret a => exact hf a h
  | fail e => exact h
  | load c k ih => exact fun v hv => ih v (h v hv)
  | store _ _ _ => trivial

theorem Prog.All.do {Q : β → Prop} {m : Prog K α} {f : α → Prog K β} (h : m.All S J P) (hf : ∀ a, P a → (f a).All S J Q) : (m >>= f).All S J Q := h.bind hf

theorem all_lift_bind {Q : β → Prop} {c : C α} {f : α → Prog K β} (hz : c = .error .divzero → J) (h : ∀ a, c = .ok a → (f a).All S J Q) : (lift c >>= f).All S J Q := by
  cases c with
  | error e => exact fun he => hz (by rw [he])
  | ok a => exact h a rfl

theorem all_rd {c : Nat} {P : K → Prop} (h : ∀ v ∈ S c, P v) : (Prog.rd c : Prog K K).All S J P := h

theorem all_forList {P : σ → Prop} {l : List ι} {body : ι → σ → Prog K σ} (hb : ∀ i ∈ l, ∀ s, P s → (body i s).All S J P) {s : σ} (hs : P s) : (Prog.forList l body s).All S J P := by
  induction l generalizing s with
  | nil => exact hs
  | cons i l ih => exact (hb i (by simp) s hs).bind fun s' hs' => ih (fun j hj => hb j (by simp [hj])) hs'

/-- The rule for loops. -/
theorem all_forRange {P : Nat → σ → Prop} {lo hi : Nat} (hle : lo ≤ hi) {body : Nat → σ → Prog K σ} (hb : ∀ i, lo ≤ i → i < hi → ∀ s, P i s → (body i s).All S J (P (i + 1)))
    {s : σ} (hs : P lo s) : (Prog.forRange lo hi body s).All S J (P hi) := by
  obtain ⟨d, rfl⟩ : ∃ d, hi = lo + d := ⟨hi - lo, by omega⟩
  unfold Prog.forRange
  rw [Nat.add_sub_cancel_left]
  clear hle
  revert hb hs
  induction d generalizing lo s with
  | zero => exact fun hs _ => hs
  | succ d ih =>
    intro hs hb
    rw [List.range'_succ]
    refine (hb lo (Nat.le_refl _) (by omega) s hs).bind fun s' hs' => ?_
    have := ih (lo := lo + 1) (s := s') hs' (fun i h1 h2 => hb i (by omega) (by omega))
    rwa [show lo + 1 + d = lo + (d + 1) by omega] at this

theorem all_tabP {P : Fin w → α → Prop} {f : Fin w → Prog K α} (h : ∀ a, (f a).All S J (P a)) : (tabP f).All S J fun v => ∀ a, P a (v a) := by
  induction w with
  | zero => exact fun a => a.elim0
  | succ w ih =>
    refine (h 0).do fun a ha => (ih fun i => h i.succ).do fun v hv => ?_
    intro i
    refine Fin.cases ?_ (fun i => ?_) i
    · exact ha
    · exact hv i

theorem all_loadP {e : V ≃ (Fin w → K)} {l : Nat} {P : V → Prop} (h : ∀ v, (∀ a : Fin w, e v a ∈ S (l * w + a)) → P v) : (loadP e l).All S J P := by
  refine (all_tabP (P := fun (a : Fin w) v => v ∈ S (l * w + a)) fun a => all_rd fun v hv => hv).do fun v hv => ?_
  exact h _ fun a => by rw [Equiv.apply_symm_apply]; exact hv a

theorem all_coefP {e : V ≃ (Fin w → K)} {f : Prog K V} {P Q : V → Prop} (hf : f.All S J P) (h : ∀ v, (∀ a, ∃ x, P x ∧ e v a = e x a) → Q v) : (coefP e f).All S J Q := by
  have h1 : ∀ a, (f >>= fun x => (pure (e x a) : Prog K K)).All S J fun y => ∃ x, P x ∧ y = e x a := fun a => hf.do fun x hx => by
    exact ⟨x, hx, rfl⟩
  refine (all_tabP h1).do fun v hv => ?_
  exact h _ fun a => by rw [Equiv.apply_symm_apply]; exact hv a

theorem all_coefP_eq {e : V ≃ (Fin w → K)} {f : Prog K V} {x : V} (hf : f.All S J (· = x)) : (coefP e f).All S J (· = x) :=
  all_coefP hf fun v hv => e.injective (funext fun a => by obtain ⟨y, rfl, h⟩ := hv a; exact h)

/-! ### Computing what the sequential code computes -/

/-- Whatever the computation loads from the sets `S`, it returns the value of `c`, if there is one. -/
def Tracks (S : Nat → Set K) (J : Prop) (m : Prog K α) (c : C α) : Prop := ∀ v, c = .ok v → m.All S J (· = v)

theorem tracks_lift (c : C α) : Tracks S J (lift c : Prog K α) c := by
  rintro v rfl
  exact rfl

theorem tracks_pure (a : α) : Tracks S J (pure a : Prog K α) (.ok a) := fun v h => by
  injection h

theorem Tracks.bind {m : Prog K α} {c : C α} {f : α → Prog K β} {g : α → C β} (h : Tracks S J m c) (hf : ∀ a, c = .ok a → Tracks S J (f a) (g a)) :
    Tracks S J (m >>= f) (do let a ← c; g a) := by
  intro v hv
  cases c with
  | error e => cases hv
  | ok a => exact (h a rfl).do fun a' ha => by subst ha; exact hf _ rfl v hv

theorem tracks_forList {l : List ι} {body : ι → σ → Prog K σ} {body' : ι → σ → C σ} (hb : ∀ i ∈ l, ∀ s, Tracks S J (body i s) (body' i s)) (s : σ) :
    Tracks S J (Prog.forList l body s) (Blasted.forList l body' s) := by
  induction l generalizing s with
  | nil => exact tracks_pure s
  | cons i l ih =>
    rw [forList_cons]
    exact (hb i (by simp) s).bind fun s' _ => ih (fun j hj => hb j (by simp [hj])) s'

theorem tracks_forRange {lo hi : Nat} {body : Nat → σ → Prog K σ} {body' : Nat → σ → C σ} (hb : ∀ i, lo ≤ i → i < hi → ∀ s, Tracks S J (body i s) (body' i s)) (s : σ) :
    Tracks S J (Prog.forRange lo hi body s) (Blasted.forRange lo hi body' s) :=
  tracks_forList (fun i hi' => by rw [List.mem_range'_1] at hi'; exact hb i (by omega) (by omega)) s

theorem tracks_loadP {e : V ≃ (Fin w → K)} {l : Nat} {x : V} (h : ∀ a : Fin w, S (l * w + a) ⊆ {e x a}) {c : C V} (hc : ∀ v, c = .ok v → v = x) : Tracks S J (loadP e l) c := by
  intro v hv
  rw [hc v hv]
  exact all_loadP fun y hy => e.injective (funext fun a => h a (hy a))

theorem Tracks.coefP {e : V ≃ (Fin w → K)} {f : Prog K V} {c : C V} (h : Tracks S J f c) : Tracks S J (coefP e f) c := fun v hv => all_coefP_eq (h v hv)

end all

/-! ### The cells of an array -/

theorem flat_length (e : V ≃ (Fin w → K)) (x : List V) : (flat e x).length = x.length * w := by
  unfold flat
  induction x with
  | nil => simp
  | cons v x ih => rw [List.flatMap_cons, List.length_append, ih, List.length_ofFn, List.length_cons, Nat.succ_mul, Nat.add_comm]

theorem flat_get [Zero V] [Zero K] (e : V ≃ (Fin w → K)) (x : List V) {l : Nat} (hl : l < x.length) (a : Fin w) : (flat e x)⟦l * w + a⟧ = e x⟦l⟧ a := by
  induction x generalizing l with
  | nil => simp at hl
  | cons v x ih =>
    have hsplit : flat e (v :: x) = List.ofFn (e v) ++ flat e x := by unfold flat; rw [List.flatMap_cons]
    have ha := a.isLt
    cases l with
    | zero =>
      rw [hsplit, Nat.zero_mul, Nat.zero_add, get0_append_left (by simp), get0_eq_getElem (by simp), List.getElem_ofFn]
      rfl
    | succ l =>
      rw [hsplit, get0_append_right (by rw [List.length_ofFn, Nat.succ_mul]; omega), List.length_ofFn,
        show (l + 1) * w + a - w = l * w + a by rw [Nat.succ_mul]; omega, ih (by simpa using hl)]
      rfl

theorem tcell_lt {n l : Nat} (hl : l < n) (a : Fin w) : l * w + a < n * w := by
  have := a.isLt
  have h := Nat.mul_le_mul_right w (Nat.succ_le_of_lt hl)
  rw [Nat.succ_mul] at h
  omega

theorem tcell_div (l : Nat) (a : Fin w) : (l * w + a) / w = l := by
  have := a.isLt
  rw [Nat.mul_comm, Nat.mul_add_div (by omega), Nat.div_eq_of_lt this, Nat.add_zero]

theorem tcell_split {n c : Nat} (hc : c < n * w) : ∃ (l : Nat) (a : Fin w), l < n ∧ c = l * w + a := by
  have hw : 0 < w := Nat.pos_of_ne_zero (by rintro rfl; simp at hc)
  refine ⟨c / w, ⟨c % w, Nat.mod_lt _ hw⟩, Nat.div_lt_of_lt_mul (by rwa [Nat.mul_comm]), ?_⟩
  simp only
  rw [Nat.mul_comm, Nat.div_add_mod]

theorem flat_ext [Zero V] [Zero K] {e : V ≃ (Fin w → K)} {x : List V} {m : List K} (hl : m.length = x.length * w) (h : ∀ l < x.length, ∀ a : Fin w, m⟦l * w + a⟧ = e x⟦l⟧ a) :
    m = flat e x := by
  refine ext_get0 (by rw [flat_length, hl]) fun c hc => ?_
  rw [hl] at hc
  obtain ⟨l, a, hl', rfl⟩ := tcell_split hc
  rw [h l hl' a, flat_get e x hl' a]

/-! ### The invariant -/

theorem Function.update_cases {α : Type} {st : Nat → α} {q : Nat} {y : α} {P : Nat → α → Prop} (h : P q y) (h' : ∀ q', q' ≠ q → P q' (st q')) : ∀ q', P q' (Function.update st q y q') := by
  intro q'
  by_cases e : q' = q
  · subst e; rw [Function.update_self]; exact h
  · rw [Function.update_of_ne e]; exact h' q' e

/-- What a job may still do: every value that it may load is in `Q (ρ q)`, and the coefficients that it stores are in `Q (ρ q + 1)`. -/
def JobOk (n : Nat) (Q : Nat → Nat → Set K) (ρ : Nat → Nat) (q : Nat) : TJob K w → Prop
  | .run r => r.All (Q (ρ q)) (∀ (v : Fin w → K) (a : Fin w), v a ∈ Q (ρ q + 1) (q % n * w + a)) fun v => ∀ a : Fin w, v a ∈ Q (ρ q + 1) (q % n * w + a)
  | .put v _ => ∀ a : Fin w, v a ∈ Q (ρ q + 1) (q % n * w + a)
  | .over => False

/-- What holds of all configurations: with a family `Q r` of sets of values for the cells, `ρ q` for the round of job `q`. -/
structure TInv (G : Nat → Nat → Prop) (n N : Nat) (Q : Nat → Nat → Set K) (ρ : Nat → Nat) (c : TConf K w) : Prop where
  idle : ∀ q, N ≤ q → c.2 q = .over
  job : ∀ q < N, JobOk n Q ρ q (c.2 q)
  log : ∀ e ∈ c.1, e.1 < N ∧ (∃ a : Fin w, e.2.1 = e.1 % n * w + a) ∧ e.2.2 ∈ Q (ρ e.1 + 1) e.2.1
  wait : ∀ e ∈ c.1, ∀ q, G e.1 q → (c.2 q).Done
  order : ∀ (t t' : Nat) e e', t < t' → c.1[t]? = some e → c.1[t']? = some e' → ¬ G e.1 e'.1
  put : ∀ q v left, c.2 q = .put v left → ∀ a : Fin w, a ∈ left ∨ ∃ v', (q, q % n * w + a, v') ∈ c.1

/-- The kernel takes values in `Q r` to values in `Q (r + 1)`. -/
def Advances (n : Nat) (Q : Nat → Nat → Set K) (p : Nat → Prog K (Fin w → K)) : Prop :=
  ∀ r, ∀ i < n, (p i).All (Q r) (∀ (v : Fin w → K) (a : Fin w), v a ∈ Q (r + 1) (i * w + a)) fun v => ∀ a : Fin w, v a ∈ Q (r + 1) (i * w + a)

variable {G : Nat → Nat → Prop} {n N : Nat} {m₀ : List K} {Q : Nat → Nat → Set K} {ρ : Nat → Nat} {p : Nat → Prog K (Fin w → K)}

theorem TInv.start (hp : Advances n Q p) (hn : 0 < n) : TInv G n N Q ρ (startTorn n N p) where
  idle := fun q hq => if_neg (by omega)
  job := fun q hq => by
    simp only [startTorn]
    rw [if_pos hq]
    exact hp (ρ q) (q % n) (Nat.mod_lt _ hn)
  log := by simp [startTorn]
  wait := by simp [startTorn]
  order := by simp [startTorn]
  put := fun q v left h => by
    simp only [startTorn] at h
    split at h <;> cases h

/-- Reads return what the rounds allow. -/
def Timely (G : Nat → Nat → Prop) (n N w : Nat) (m₀ : List K) (Q : Nat → Nat → Set K) (ρ : Nat → Nat) : Prop :=
  ∀ (c : TConf K w) (q cell : Nat) (v : K), TInv G n N Q ρ c → q < N → cell < n * w → TVisible G n N w m₀ c.1 q cell v → v ∈ Q (ρ q) cell

theorem Done.not_run {r : Prog K (Fin w → K)} : ¬ (TJob.run r).Done := fun h => h

/-- Jobs that are at their end stay there. -/
theorem TStep.done {c d : TConf K w} (s : TStep G n N w m₀ c d) {q : Nat} (h : (c.2 q).Done) : (d.2 q).Done := by
  cases s with
  | @load log st cc k v q₀ h1 =>
    by_cases e : q = q₀
    · subst e; simp only [h1] at h; exact h.elim
    · simp only; rw [Function.update_of_ne e]; exact h
  | @value log st v q₀ h1 =>
    by_cases e : q = q₀
    · subst e; simp only [h1] at h; exact h.elim
    · simp only; rw [Function.update_of_ne e]; exact h
  | @junk log st v q₀ h1 =>
    by_cases e : q = q₀
    · subst e; simp only [h1] at h; exact h.elim
    · simp only; rw [Function.update_of_ne e]; exact h
  | @store log st v left q₀ a h1 ha =>
    by_cases e : q = q₀
    · subst e; simp only [h1] at h; rw [show left = [] from h] at ha; cases ha
    · simp only; rw [Function.update_of_ne e]; exact h

theorem TInv.step (hT : Timely G n N w m₀ Q ρ) {c d : TConf K w} (h : TInv G n N Q ρ c) (s : TStep G n N w m₀ c d) : TInv G n N Q ρ d := by
  have hdone := fun {q} => s.done (q := q)
  cases s with
  | @load log st cc k v q h1 hc hg hv =>
    have hq : q < N := Nat.lt_of_not_le fun hle => by have := h.idle q hle; simp only [h1] at this; cases this
    refine ⟨?_, ?_, h.log, fun e he q' hG => hdone (h.wait e he q' hG), h.order, ?_⟩
    · intro q' hq'
      simp only
      rw [Function.update_of_ne (by omega)]
      exact h.idle q' hq'
    · refine Function.update_cases (P := fun q j => q < N → JobOk n Q ρ q j) (fun _ => ?_) (fun q' _ => h.job q')
      have := h.job q hq
      simp only [h1] at this
      exact this v (hT (log, st) q cc v h hq hc hv)
    · refine Function.update_cases (P := fun q j => ∀ v left, j = TJob.put v left → ∀ a : Fin w, a ∈ left ∨ ∃ v', (q, q % n * w + a, v') ∈ log) ?_ (fun q' _ => h.put q')
      intro v left hj; cases hj
  | @value log st v q h1 hg =>
    have hq : q < N := Nat.lt_of_not_le fun hle => by have := h.idle q hle; simp only [h1] at this; cases this
    refine ⟨?_, ?_, h.log, fun e he q' hG => hdone (h.wait e he q' hG), h.order, ?_⟩
    · intro q' hq'
      simp only
      rw [Function.update_of_ne (by omega)]
      exact h.idle q' hq'
    · refine Function.update_cases (P := fun q j => q < N → JobOk n Q ρ q j) (fun _ => ?_) (fun q' _ => h.job q')
      have := h.job q hq
      simp only [h1] at this
      exact this
    · refine Function.update_cases (P := fun q j => ∀ v left, j = TJob.put v left → ∀ a : Fin w, a ∈ left ∨ ∃ v', (q, q % n * w + a, v') ∈ log) ?_ (fun q' _ => h.put q')
      intro v left hj a
      injection hj with _ hl
      exact Or.inl (hl ▸ List.mem_finRange a)
  | @junk log st v q h1 hg =>
    have hq : q < N := Nat.lt_of_not_le fun hle => by have := h.idle q hle; simp only [h1] at this; cases this
    refine ⟨?_, ?_, h.log, fun e he q' hG => hdone (h.wait e he q' hG), h.order, ?_⟩
    · intro q' hq'
      simp only
      rw [Function.update_of_ne (by omega)]
      exact h.idle q' hq'
    · refine Function.update_cases (P := fun q j => q < N → JobOk n Q ρ q j) (fun _ => ?_) (fun q' _ => h.job q')
      have := h.job q hq
      simp only [h1] at this
      exact this rfl v
    · refine Function.update_cases (P := fun q j => ∀ v left, j = TJob.put v left → ∀ a : Fin w, a ∈ left ∨ ∃ v', (q, q % n * w + a, v') ∈ log) ?_ (fun q' _ => h.put q')
      intro v left hj a
      injection hj with _ hl
      exact Or.inl (hl ▸ List.mem_finRange a)
  | @store log st v left q a h1 ha hg =>
    have hq : q < N := Nat.lt_of_not_le fun hle => by have := h.idle q hle; simp only [h1] at this; cases this
    have hjob := h.job q hq
    simp only [h1] at hjob
    refine ⟨?_, ?_, ?_, ?_, ?_, ?_⟩
    · intro q' hq'
      simp only
      rw [Function.update_of_ne (by omega)]
      exact h.idle q' hq'
    · exact Function.update_cases (P := fun q j => q < N → JobOk n Q ρ q j) (fun _ => hjob) (fun q' _ => h.job q')
    · intro e he
      rcases List.mem_append.mp he with he | he
      · exact h.log e he
      · obtain rfl := List.mem_singleton.mp he
        exact ⟨hq, ⟨a, rfl⟩, hjob a⟩
    · intro e he q' hG
      refine hdone ?_
      rcases List.mem_append.mp he with he | he
      · exact h.wait e he q' hG
      · obtain rfl := List.mem_singleton.mp he
        exact hg q' hG
    · intro t t' e e' htt ht ht' hG
      rcases getElem?_append_one ht' with ⟨-, ht'⟩ | ⟨hl, he⟩
      · rcases getElem?_append_one ht with ⟨-, ht⟩ | ⟨hl, he⟩
        · exact h.order t t' e e' htt ht ht' hG
        · have := (List.getElem?_eq_some_iff.mp ht').1
          omega
      · rcases getElem?_append_one ht with ⟨-, ht⟩ | ⟨hl', -⟩
        · have := h.wait e (List.mem_of_getElem? ht) e'.1 hG
          subst he
          simp only [h1] at this
          rw [show left = [] from this] at ha
          cases ha
        · omega
    · refine Function.update_cases (P := fun q j => ∀ v left, j = TJob.put v left → ∀ a : Fin w, a ∈ left ∨ ∃ v', (q, q % n * w + a, v') ∈ log ++ [_]) ?_ ?_
      · intro v' left' hj a'
        injection hj with _ hl
        by_cases e : a' = a
        · subst e
          exact Or.inr ⟨v a', List.mem_append_right _ (by simp)⟩
        · rcases h.put q v left h1 a' with h2 | ⟨v'', h2⟩
          · exact Or.inl (hl ▸ (List.mem_erase_of_ne e).mpr h2)
          · exact Or.inr ⟨v'', List.mem_append_left _ h2⟩
      · intro q' _ v' left' hj a'
        rcases h.put q' v' left' hj a' with h2 | ⟨v'', h2⟩
        · exact Or.inl h2
        · exact Or.inr ⟨v'', List.mem_append_left _ h2⟩

theorem TInv.steps (hT : Timely G n N w m₀ Q ρ) {c d : TConf K w} (h : TInv G n N Q ρ c) {k : Nat} (s : TSteps G n N w m₀ k c d) : TInv G n N Q ρ d := by
  induction s with
  | refl => exact h
  | tail _ s ih => exact (ih h).step hT s

/-! ### The contents of the memory -/

theorem cells_append (log : List (Nat × Nat × K)) (e : Nat × Nat × K) (m₀ : List K) : applyLog m₀ (cells (log ++ [e])) = (applyLog m₀ (cells log)).set e.2.1 e.2.2 := by
  unfold cells
  rw [List.map_append, applyLog_append]
  rfl

theorem exists_last {log : List (Nat × Nat × K)} {c : Nat} {v : K} (h : (applyLog m₀ (cells log))[c]? = some v) :
    (∃ (t q : Nat), log[t]? = some (q, c, v) ∧ ∀ (t' q' : Nat) (v' : K), log[t']? = some (q', c, v') → t' ≤ t) ∨
      (m₀[c]? = some v ∧ ∀ (t' q' : Nat) (v' : K), log[t']? ≠ some (q', c, v')) := by
  induction log using List.reverseRecOn with
  | nil => exact Or.inr ⟨h, by simp⟩
  | append_singleton log e ih =>
    obtain ⟨q, c', u⟩ := e
    rw [cells_append] at h
    simp only at h
    by_cases e : c' = c
    · subst e
      left
      rw [List.getElem?_set_self'] at h
      have hu : u = v := by
        cases hx : (applyLog m₀ (cells log))[c']? with
        | none => rw [hx] at h; cases h
        | some y => rw [hx] at h; injection h
      subst hu
      refine ⟨log.length, q, by simp, fun t' q' v' ht => ?_⟩
      have := (List.getElem?_eq_some_iff.mp ht).1
      rw [List.length_append, List.length_singleton] at this
      omega
    · rw [List.getElem?_set_ne e] at h
      rcases ih h with ⟨t, q₁, h1, h3⟩ | ⟨h1, h2⟩
      · left
        refine ⟨t, q₁, getElem?_append_of_some h1, fun t' q' v' ht => ?_⟩
        rcases getElem?_append_one ht with ⟨-, ht⟩ | ⟨-, he⟩
        · exact h3 t' q' v' ht
        · injection he with he1 he2
          injection he2 with he2
          exact absurd he2.symm e
      · right
        refine ⟨h1, fun t' q' v' ht => ?_⟩
        rcases getElem?_append_one ht with ⟨-, ht⟩ | ⟨-, he⟩
        · exact h2 t' q' v' ht
        · injection he with he1 he2
          injection he2 with he2
          exact absurd he2.symm e

/-! ### Complete executions -/

theorem job_num {n k i : Nat} (hi : i < n) : (k * n + i) / n = k ∧ (k * n + i) % n = i := by
  constructor
  · rw [Nat.mul_comm, Nat.mul_add_div (by omega), Nat.div_eq_of_lt hi, Nat.add_zero]
  · rw [Nat.mul_comm, Nat.mul_add_mod, Nat.mod_eq_of_lt hi]

theorem div_cell_lt {n c : Nat} (hc : c < n * w) : c / w < n := by
  have hw : 0 < w := Nat.pos_of_ne_zero (by rintro rfl; simp at hc)
  exact Nat.div_lt_of_lt_mul (by rwa [Nat.mul_comm])

theorem job_lt {n q q' : Nat} (h : q / n < q' / n) : q < q' := by
  by_contra hle
  have := Nat.div_le_div_right (c := n) (Nat.le_of_not_lt hle)
  omega

theorem timely_lag [Zero K] {L : Nat} (hL : 1 ≤ L) (hm : m₀.length = n * w) (hanti : ∀ r r' c, c < n * w → r ≤ r' → Q r' c ⊆ Q r c) (h0 : ∀ c < n * w, m₀⟦c⟧ ∈ Q 0 c) :
    Timely (Lag n L) n N w m₀ Q fun q => q / n / (2 * L - 1) := by
  intro c q cell v hI hq hcell hv
  have hl := div_cell_lt hcell
  have hlag : L ≤ q / n → ∃ q', q' < N ∧ Lag n L q q' ∧ q' % n = cell / w ∧ q' / n = q / n - L := fun hle => by
    obtain ⟨e1, e2⟩ := job_num (k := q / n - L) hl
    refine ⟨(q / n - L) * n + cell / w, ?_, ?_, e2, e1⟩
    · refine lt_trans (job_lt (n := n) (q' := q) ?_) hq
      rw [e1]; omega
    · unfold Lag; rw [e1]; omega
  rcases hv with ⟨t, q₁, ht, hw⟩ | ⟨hini, hw⟩
  · have hmem := (hI.log _ (List.mem_of_getElem? ht)).2.2
    refine hanti _ _ _ hcell ?_ hmem
    simp only
    by_cases hs : q / n < 2 * L - 1
    · rw [Nat.div_eq_of_lt hs]; exact Nat.zero_le _
    · obtain ⟨q', h1, h2, h3, h4⟩ := hlag (by omega)
      obtain ⟨t', htt, v', ht'⟩ := hw q' h1 h2 h3
      have hle : q / n ≤ q₁ / n + (2 * L - 1) := by
        rcases Nat.lt_or_eq_of_le htt with hlt | rfl
        · have := hI.order t' t _ _ hlt ht' ht
          simp only [Lag] at this
          omega
        · rw [ht'] at ht
          injection ht with ht
          injection ht with ht
          subst ht
          omega
      calc q / n / (2 * L - 1) ≤ (q₁ / n + (2 * L - 1)) / (2 * L - 1) := Nat.div_le_div_right hle
        _ = q₁ / n / (2 * L - 1) + 1 := Nat.add_div_right _ (by omega)
  · have hs : q / n < L := by
      by_contra hle
      obtain ⟨q', h1, h2, h3, -⟩ := hlag (by omega)
      exact hw q' h1 h2 h3
    simp only
    rw [Nat.div_eq_of_lt (by omega)]
    have : m₀⟦cell⟧ = v := by
      rw [get0_eq_getElem (by omega)]
      exact Option.some.inj ((List.getElem?_eq_getElem _).symm.trans hini)
    rw [← this]
    exact h0 cell hcell

theorem applyLog_cells_length (log : List (Nat × Nat × K)) : (applyLog m₀ (cells log)).length = m₀.length := applyLog_length _ _

/-- Executions in which no job begins before all jobs of the sweep `L` before have ended: after `(k - 1) (2 L - 1) + L` sweeps every cell has a value in `Q k`. -/
theorem TornExec.rounds [Zero K] {L k s : Nat} {m : List K} (hL : 1 ≤ L) (hk : 1 ≤ k) (hs : (k - 1) * (2 * L - 1) + L ≤ s) (hm : m₀.length = n * w)
    (hanti : ∀ r r' c, c < n * w → r ≤ r' → Q r' c ⊆ Q r c) (h0 : ∀ c < n * w, m₀⟦c⟧ ∈ Q 0 c) (hp : Advances n Q p) (h : TornExec (Lag n L) n (s * n) w p m₀ m) :
    m.length = n * w ∧ ∀ c < n * w, m⟦c⟧ ∈ Q k c := by
  obtain ⟨K', log, st, h1, h2, rfl⟩ := h
  refine ⟨by rw [applyLog_cells_length, hm], fun c hc => ?_⟩
  have hl := div_cell_lt hc
  have hI : TInv (Lag n L) n (s * n) Q (fun q => q / n / (2 * L - 1)) (log, st) := (TInv.start hp (Nat.zero_lt_of_lt hl)).steps (timely_lag hL hm hanti h0) h1
  obtain ⟨l, a, hln, rfl⟩ := tcell_split hc
  -- the job of the last sweep
  obtain ⟨e1, e2⟩ := job_num (n := n) (k := s - 1) hln
  have hqs : (s - 1) * n + l < s * n := by
    obtain ⟨s, rfl⟩ : ∃ s', s = s' + 1 := ⟨s - 1, by omega⟩
    rw [Nat.add_sub_cancel, Nat.succ_mul]; omega
  have hlast : ∃ v', ((s - 1) * n + l, l * w + a, v') ∈ log := by
    have hd := h2 ((s - 1) * n + l)
    have hj := hI.job _ hqs
    simp only at hj
    cases hst : st ((s - 1) * n + l) with
    | run r => rw [hst] at hd; exact hd.elim
    | over => rw [hst] at hj; exact hj.elim
    | put v left =>
      rw [hst] at hd
      have := hI.put _ v left hst a
      rw [show left = [] from hd, e2] at this
      simpa using this
  obtain ⟨v', hv'⟩ := hlast
  obtain ⟨t', ht'⟩ := List.getElem?_of_mem hv'
  have hget : (applyLog m₀ (cells log))[l * w + a]? = some (applyLog m₀ (cells log))⟦l * w + a⟧ := by
    rw [get0_eq_getElem (by rw [applyLog_cells_length, hm]; exact hc)]
    exact List.getElem?_eq_getElem _
  rcases exists_last hget with ⟨t, q, ht, hlater⟩ | ⟨-, hno⟩
  · have hmem := (hI.log _ (List.mem_of_getElem? ht)).2.2
    refine hanti _ _ _ hc ?_ hmem
    simp only
    have hle : s - L ≤ q / n := by
      rcases Nat.lt_or_eq_of_le (hlater t' _ v' ht') with hlt | rfl
      · have := hI.order t' t _ _ hlt ht' ht
        simp only [Lag, e1] at this
        omega
      · rw [ht'] at ht
        injection ht with ht
        injection ht with ht
        rw [← ht, e1]
        omega
    have : k - 1 ≤ q / n / (2 * L - 1) := (Nat.le_div_iff_mul_le (by omega)).mpr (by omega)
    omega
  · exact absurd ht' (hno t' _ v')

/-- Whatever the order: what the kernel preserves is preserved. -/
theorem TornExec.preserves [Zero K] {m : List K} {P : Nat → Set K} (hm : m₀.length = n * w) (h0 : ∀ c < n * w, m₀⟦c⟧ ∈ P c)
    (hp : Advances n (fun _ => P) p) (h : TornExec G n N w p m₀ m) : m.length = n * w ∧ ∀ c < n * w, m⟦c⟧ ∈ P c := by
  obtain ⟨K', log, st, h1, h2, rfl⟩ := h
  refine ⟨by rw [applyLog_cells_length, hm], fun c hc => ?_⟩
  have hini : ∀ cell < n * w, ∀ v, m₀[cell]? = some v → v ∈ P cell := fun cell hcell v hv => by
    have : m₀⟦cell⟧ = v := by
      rw [get0_eq_getElem (by omega)]
      exact Option.some.inj ((List.getElem?_eq_getElem _).symm.trans hv)
    rw [← this]
    exact h0 cell hcell
  have hT : Timely G n N w m₀ (fun _ => P) fun _ => 0 := by
    intro c q cell v hI hq hcell hv
    rcases hv with ⟨t, q₁, ht, -⟩ | ⟨hv, -⟩
    · exact (hI.log _ (List.mem_of_getElem? ht)).2.2
    · exact hini cell hcell v hv
  have hI : TInv G n N (fun _ => P) (fun _ => 0) (log, st) := (TInv.start hp (Nat.zero_lt_of_lt (div_cell_lt hc))).steps hT h1
  have hget : (applyLog m₀ (cells log))[c]? = some (applyLog m₀ (cells log))⟦c⟧ := by
    rw [get0_eq_getElem (by rw [applyLog_cells_length, hm]; exact hc)]
    exact List.getElem?_eq_getElem _
  rcases exists_last hget with ⟨t, q, ht, -⟩ | ⟨hv, -⟩
  · exact (hI.log _ (List.mem_of_getElem? ht)).2.2
  · exact hini c hc _ hv

end Blasted
