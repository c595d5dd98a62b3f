import Verif.Base.Sweep
import Mathlib.Logic.Function.Basic

/-!
# Programs as sequences of memory accesses, and their interleavings

The rest of the model describes an iteration of a loop by its effect on the memory. Here an iteration is the tree of its accesses to a shared array: each node is one
load or one store. Iterations of a parallel loop interleave access by access, in any way. Nothing here is specific to BLASTed.
-/

namespace Blasted

/-- A computation that accesses one shared array of elements of type `V`. -/
inductive Prog (V α : Type) : Type where
  | ret (a : α)
  | fail (e : Fail)
  | load (l : Nat) (k : V → Prog V α)
  | store (l : Nat) (v : V) (k : Prog V α)

namespace Prog

variable {V α β σ ι : Type}

/-- One after the other. -/
def bind : Prog V α → (α → Prog V β) → Prog V β
  | ret a, f => f a
  | fail e, _ => fail e
  | load l k, f => load l (fun v => (k v).bind f)
  | store l v k, f => store l v (k.bind f)

instance : Monad (Prog V) where
  pure := ret
  bind := bind

/-- A computation that does not touch the shared array. -/
def lift : C α → Prog V α
  | .ok a => ret a
  | .error e => fail e

/-- Load an element. -/
def rd (l : Nat) : Prog V V := load l ret

/-- Store an element. -/
def wr (l : Nat) (v : V) : Prog V Unit := store l v (ret ())

/-- A loop over the elements of a list that carries a local state. -/
def forList : List ι → (ι → σ → Prog V σ) → σ → Prog V σ
  | [], _, s => ret s
  | i :: l, body, s => (body i s).bind (forList l body)

/-- `for(i = lo; i < hi; i++)` with a local state. -/
def forRange (lo hi : Nat) (body : Nat → σ → Prog V σ) (s : σ) : Prog V σ := forList (List.range' lo (hi - lo)) body s

/-- `for(i = lo; i < hi; i++)` without local state. -/
def loop (lo hi : Nat) (body : Nat → Prog V Unit) : Prog V Unit := forRange lo hi (fun i _ => body i) ()

/-- The effect of a computation that runs alone. -/
def run : Prog V α → List V → C (α × List V)
  | ret a, m => .ok (a, m)
  | fail e, _ => .error e
  | load l k, m => do
    let v ← Blasted.rd m l
    run (k v) m
  | store l v k, m => do
    let m ← Blasted.wr m l v
    run k m

/-- The memory after a computation that runs alone. -/
def exec (p : Prog V Unit) (m : List V) : C (List V) := do
  let r ← run p m
  .ok r.2

/-- The number of accesses of a computation that runs alone. -/
def cost : Prog V α → List V → Nat
  | ret _, _ => 0
  | fail _, _ => 0
  | load l k, m => match m[l]? with
    | some v => cost (k v) m + 1
    | none => 0
  | store l v k, m => cost k (m.set l v) + 1

/-- All accesses of the computation, whatever it reads, are to cells in `R`, and its stores to cells in `W`. -/
def Touches (R W : Nat → Prop) : Prog V α → Prop
  | ret _ => True
  | fail _ => True
  | load l k => R l ∧ ∀ v, Touches R W (k v)
  | store l _ k => R l ∧ W l ∧ Touches R W k

/-! ### Running alone -/

@[simp] theorem run_ret (a : α) (m : List V) : run (ret a) m = .ok (a, m) := rfl
@[simp] theorem run_fail (e : Fail) (m : List V) : run (fail e : Prog V α) m = .error e := rfl
theorem run_pure (a : α) (m : List V) : run (pure a) m = .ok (a, m) := rfl

theorem run_bind (p : Prog V α) (f : α → Prog V β) (m : List V) : run (p.bind f) m = (do let r ← run p m; run (f r.1) r.2) := by
  induction p generalizing m with
  | ret a => rfl
  | fail e => rfl
  | load l k ih =>
    simp only [bind, run]
    cases h : Blasted.rd m l with
    | error e => rfl
    | ok v => exact ih v m
  | store l v k ih =>
    simp only [bind, run]
    cases h : Blasted.wr m l v with
    | error e => rfl
    | ok m' => exact ih m'

theorem run_do (p : Prog V α) (f : α → Prog V β) (m : List V) : run (p >>= f) m = (do let r ← run p m; run (f r.1) r.2) := run_bind p f m

theorem run_lift_bind (c : C α) (f : α → Prog V β) (m : List V) : run (lift c >>= f) m = (do let a ← c; run (f a) m) := by
  rw [run_do]
  cases c <;> rfl

theorem run_rd_bind (l : Nat) (f : V → Prog V β) (m : List V) : run (rd l >>= f) m = (do let v ← Blasted.rd m l; run (f v) m) := rfl

theorem run_wr_bind (l : Nat) (v : V) (f : Unit → Prog V β) (m : List V) : run (wr l v >>= f) m = (do let m ← Blasted.wr m l v; run (f ()) m) := rfl

theorem run_forList (l : List ι) (body : ι → σ → Prog V σ) (s : σ) (m : List V) :
    run (forList l body s) m = Blasted.forList l (fun i (r : σ × List V) => run (body i r.1) r.2) (s, m) := by
  induction l generalizing s m with
  | nil => rfl
  | cons i l ih =>
    simp only [forList]
    rw [run_bind, forList_cons]
    cases h : run (body i s) m with
    | error e => rfl
    | ok r => exact ih r.1 r.2

theorem exec_ret (m : List V) : exec (ret ()) m = .ok m := rfl

theorem exec_do (p : Prog V Unit) (f : Unit → Prog V Unit) (m : List V) : exec (p >>= f) m = (do let m ← exec p m; exec (f ()) m) := by
  unfold exec
  rw [run_do]
  cases h : run p m <;> rfl

theorem exec_lift_bind (c : C α) (f : α → Prog V Unit) (m : List V) : exec (lift c >>= f) m = (do let a ← c; exec (f a) m) := by
  unfold exec
  rw [run_lift_bind]
  cases c <;> rfl

theorem exec_rd_bind (l : Nat) (f : V → Prog V Unit) (m : List V) : exec (rd l >>= f) m = (do let v ← Blasted.rd m l; exec (f v) m) := by
  unfold exec
  rw [run_rd_bind]
  cases h : Blasted.rd m l <;> rfl

theorem exec_wr (l : Nat) (v : V) (m : List V) : exec (wr l v) m = Blasted.wr m l v := by
  unfold exec
  show (do let r ← (do let m ← Blasted.wr m l v; run (ret ()) m); .ok r.2) = _
  cases h : Blasted.wr m l v <;> rfl

theorem exec_loop (lo hi : Nat) (body : Nat → Prog V Unit) (m : List V) :
    exec (loop lo hi body) m = Blasted.forRange lo hi (fun i m => exec (body i) m) m := by
  unfold loop forRange Blasted.forRange
  generalize List.range' lo (hi - lo) = l
  induction l generalizing m with
  | nil => rfl
  | cons i l ih =>
    rw [forList_cons]
    show exec (body i >>= fun _ => forList l (fun i _ => body i) ()) m = _
    rw [exec_do]
    cases h : exec (body i) m with
    | error e => rfl
    | ok m' => exact ih m'

/-! ### What a computation touches -/

theorem Touches.mono {R W R' W' : Nat → Prop} (hR : ∀ c, R c → R' c) (hW : ∀ c, W c → W' c) {p : Prog V α} (h : p.Touches R W) : p.Touches R' W' := by
  induction p with
  | ret a => trivial
  | fail e => trivial
  | load l k ih => exact ⟨hR _ h.1, fun v => ih v (h.2 v)⟩
  | store l v k ih => exact ⟨hR _ h.1, hW _ h.2.1, ih h.2.2⟩

theorem Touches.bind {R W : Nat → Prop} {p : Prog V α} {f : α → Prog V β} (h : p.Touches R W) (hf : ∀ a, (f a).Touches R W) : (p.bind f).Touches R W := by
  induction p with
  | ret a => exact hf a
  | fail e => trivial
  | load l k ih => exact ⟨h.1, fun v => ih v (h.2 v)⟩
  | store l v k ih => exact ⟨h.1, h.2.1, ih h.2.2⟩

theorem Touches.do_ {R W : Nat → Prop} {p : Prog V α} {f : α → Prog V β} (h : p.Touches R W) (hf : ∀ a, (f a).Touches R W) : (p >>= f).Touches R W :=
  h.bind hf

theorem touches_lift {R W : Nat → Prop} (c : C α) : (lift c : Prog V α).Touches R W := by cases c <;> trivial

/-- A local computation: what follows need only be looked at for the value that it gives. -/
theorem touches_lift_bind {R W : Nat → Prop} {c : C α} {f : α → Prog V β} (hf : ∀ a, c = .ok a → (f a).Touches R W) : (lift c >>= f).Touches R W := by
  cases c with
  | error e => trivial
  | ok a => exact hf a rfl

theorem touches_rd {R W : Nat → Prop} {l : Nat} (h : R l) : (rd l : Prog V V).Touches R W := ⟨h, fun _ => trivial⟩

theorem touches_wr {R W : Nat → Prop} {l : Nat} {v : V} (h : R l) (hw : W l) : (wr l v).Touches R W := ⟨h, hw, trivial⟩

theorem touches_forList {R W : Nat → Prop} {l : List ι} {body : ι → σ → Prog V σ} {s : σ} (h : ∀ i ∈ l, ∀ s, (body i s).Touches R W) :
    (forList l body s).Touches R W := by
  induction l generalizing s with
  | nil => trivial
  | cons i l ih => exact (h i (by simp) s).bind fun s' => ih fun j hj => h j (by simp [hj])

theorem touches_forRange {R W : Nat → Prop} {lo hi : Nat} {body : Nat → σ → Prog V σ} {s : σ} (h : ∀ i, lo ≤ i → i < hi → ∀ s, (body i s).Touches R W) :
    (forRange lo hi body s).Touches R W :=
  touches_forList fun i hi => by
    rw [List.mem_range'_1] at hi
    exact h i hi.1 (by omega)

theorem touches_loop {R W : Nat → Prop} {lo hi : Nat} {body : Nat → Prog V Unit} (h : ∀ i, lo ≤ i → i < hi → (body i).Touches R W) :
    (loop lo hi body).Touches R W := touches_forRange fun i h1 h2 _ => h i h1 h2

/-- A computation runs in the same way in two memories that agree on the cells that it touches, and changes only cells that it may store to. -/
theorem run_local {R W : Nat → Prop} (p : Prog V α) (h : p.Touches R W) {m m' : List V} (hl : m.length = m'.length) (ha : ∀ c, R c → m[c]? = m'[c]?)
    {a : α} {n : List V} (hr : run p m = .ok (a, n)) :
    ∃ n', run p m' = .ok (a, n') ∧ n.length = m.length ∧ n'.length = m'.length ∧ (∀ c, R c → n[c]? = n'[c]?) ∧ (∀ c, ¬ W c → n[c]? = m[c]?) ∧
      (∀ c, ¬ W c → n'[c]? = m'[c]?) ∧ cost p m = cost p m' := by
  induction p generalizing m m' with
  | ret b =>
    rw [run_ret] at hr
    cases hr
    exact ⟨m', rfl, rfl, rfl, ha, fun _ _ => rfl, fun _ _ => rfl, rfl⟩
  | fail e => cases hr
  | load l k ih =>
    have hla := ha l h.1
    simp only [run, Blasted.rd, cost] at hr ⊢
    rw [← hla]
    cases hm : m[l]? with
    | none => rw [hm] at hr; cases hr
    | some v =>
      rw [hm] at hr
      obtain ⟨n', g1, g2, g3, g4, g5, g6, g7⟩ := ih v (h.2 v) hl ha hr
      exact ⟨n', g1, g2, g3, g4, g5, g6, by simp only [g7]⟩
  | store l v k ih =>
    simp only [run, Blasted.wr, cost] at hr ⊢
    by_cases hlt : l < m.length
    · rw [if_pos hlt] at hr
      rw [if_pos (by omega)]
      obtain ⟨n', g1, g2, g3, g4, g5, g6, g7⟩ := ih h.2.2 (m := m.set l v) (m' := m'.set l v) (by simpa using hl) (fun c hc => by
        rw [List.getElem?_set, List.getElem?_set, hl, ha c hc]) hr
      rw [List.length_set] at g2 g3
      have hset : ∀ (x : List V) (c : Nat), ¬ W c → (x.set l v)[c]? = x[c]? := fun x c hc => by
        rw [List.getElem?_set_ne]; rintro rfl; exact hc h.2.1
      exact ⟨n', g1, g2, g3, g4, fun c hc => (g5 c hc).trans (hset m c hc), fun c hc => (g6 c hc).trans (hset m' c hc), by rw [g7]⟩
    · rw [if_neg hlt] at hr; cases hr

end Prog

/-! ### Interleavings -/

variable {V : Type}

/-- The memory and, for every thread, what it has still to do. -/
abbrev Conf (V : Type) := List V × (Nat → Prog V Unit)

/-- One access by any one of the threads. -/
inductive Step : Conf V → Conf V → Prop where
  | load {m : List V} {ps : Nat → Prog V Unit} {l : Nat} {k : V → Prog V Unit} {v : V} (i : Nat) (h : ps i = .load l k) (hv : m[l]? = some v) :
      Step (m, ps) (m, Function.update ps i (k v))
  | store {m : List V} {ps : Nat → Prog V Unit} {l : Nat} {v : V} {k : Prog V Unit} (i : Nat) (h : ps i = .store l v k) (hl : l < m.length) :
      Step (m, ps) (m.set l v, Function.update ps i k)

/-- `k` accesses, each by any one of the threads. -/
inductive Steps : Nat → Conf V → Conf V → Prop where
  | refl (c : Conf V) : Steps 0 c c
  | tail {k : Nat} {c d e : Conf V} (h : Steps k c d) (s : Step d e) : Steps (k + 1) c e

/-- The iterations `l` of a loop, each as a thread of its own. A schedule in which a thread runs several iterations one after the other is a special case. -/
def startLoop (l : List Nat) (body : Nat → Prog V Unit) (m : List V) : Conf V := (m, fun i => if i ∈ l then body i else .ret ())

/-- The next access of the computation is to the cell `c`. -/
def Prog.NextAccess {α : Type} (c : Nat) : Prog V α → Prop
  | .load l _ => l = c
  | .store l _ _ => l = c
  | _ => False

/-- The next access of the computation is a store to the cell `c`. -/
def Prog.NextStore {α : Type} (c : Nat) : Prog V α → Prop
  | .store l _ _ => l = c
  | _ => False

/-- Two threads are about to access the same cell, one of them with a store: a data race. -/
def Race (c : Conf V) : Prop := ∃ i j l, i ≠ j ∧ (c.2 i).NextAccess l ∧ (c.2 j).NextStore l

/-- Thread `i` has failed or is about to access a cell outside of the array. -/
def Crashed (c : Conf V) (i : Nat) : Prop := (∃ e, c.2 i = .fail e) ∨ ∃ l, (c.2 i).NextAccess l ∧ c.1.length ≤ l

/-- All threads are at their end. -/
def Finished (c : Conf V) : Prop := ∀ i, c.2 i = .ret ()

/-- All executions of the parallel loop over `l`, with any interleaving of the individual accesses: none reaches a data race or a failure, none goes on for more than a fixed number of accesses,
and those that have come to their end have left `mf` in the memory. -/
structure Deterministic (l : List Nat) (body : Nat → Prog V Unit) (m mf : List V) : Prop where
  no_race : ∀ k c, Steps k (startLoop l body m) c → ¬ Race c
  no_crash : ∀ k c, Steps k (startLoop l body m) c → ∀ i, ¬ Crashed c i
  bounded : ∃ N, ∀ k c, Steps k (startLoop l body m) c → k ≤ N
  result : ∀ k c, Steps k (startLoop l body m) c → Finished c → c.1 = mf

/-- An execution that is not at its end can go on, unless a thread has failed. -/
theorem step_or_finished {c : Conf V} (h : ∀ i, ¬ Crashed c i) : Finished c ∨ ∃ d, Step c d := by
  by_cases hf : Finished c
  · exact .inl hf
  · right
    obtain ⟨m, ps⟩ := c
    simp only [Finished, not_forall] at hf
    obtain ⟨i, hi⟩ := hf
    cases hp : ps i with
    | ret a => exact absurd hp hi
    | fail e => exact absurd (Or.inl ⟨e, hp⟩) (h i)
    | load l k =>
      by_cases hl : l < m.length
      · exact ⟨_, .load i hp (List.getElem?_eq_getElem hl)⟩
      · exact absurd (.inr ⟨l, by simp only [hp, Prog.NextAccess], by simpa using hl⟩) (h i)
    | store l v k =>
      by_cases hl : l < m.length
      · exact ⟨_, .store i hp hl⟩
      · exact absurd (.inr ⟨l, by simp only [hp, Prog.NextAccess], by simpa using hl⟩) (h i)

/-- Some execution comes to its end, so `result` is not an empty promise. -/
theorem Deterministic.finishes {l : List Nat} {body : Nat → Prog V Unit} {m mf : List V} (h : Deterministic l body m mf) :
    ∃ k ps, Steps k (startLoop l body m) (mf, ps) ∧ ∀ i, ps i = .ret () := by
  obtain ⟨N, hN⟩ := h.bounded
  have key : ∀ r k c, Steps k (startLoop l body m) c → N - k ≤ r → ∃ k' c', Steps k' (startLoop l body m) c' ∧ Finished c' := by
    intro r
    induction r with
    | zero =>
      intro k c hs hr
      rcases step_or_finished (h.no_crash k c hs) with hf | ⟨d, hd⟩
      · exact ⟨k, c, hs, hf⟩
      · have := hN _ _ (hs.tail hd); omega
    | succ r ih =>
      intro k c hs hr
      rcases step_or_finished (h.no_crash k c hs) with hf | ⟨d, hd⟩
      · exact ⟨k, c, hs, hf⟩
      · exact ih _ _ (hs.tail hd) (by omega)
  obtain ⟨k, ⟨m', ps⟩, hs, hf⟩ := key _ _ _ (.refl _) (Nat.le_refl _)
  have := h.result _ _ hs hf
  dsimp only at this
  subst this
  exact ⟨k, ps, hs, hf⟩

open Prog in
/-- In a loop run in one order, each iteration does to its own cells what it does to them in the initial memory. -/
theorem forList_exec_local {R W : Nat → Nat → Prop} {l : List Nat} (hnd : l.Nodup) {body : Nat → Prog V Unit} (ht : ∀ i ∈ l, (body i).Touches (R i) (W i))
    (hd : ∀ i ∈ l, ∀ j ∈ l, i ≠ j → ∀ c, W j c → ¬ R i c) (hWR : ∀ i ∈ l, ∀ c, W i c → R i c) {m mf : List V}
    (h : forList l (fun i m => exec (body i) m) m = .ok mf) :
    mf.length = m.length ∧ (∀ c, (∀ i ∈ l, ¬ W i c) → mf[c]? = m[c]?) ∧
      ∀ i ∈ l, ∃ n, run (body i) m = .ok ((), n) ∧ ∀ c, W i c → n[c]? = mf[c]? := by
  induction l generalizing m with
  | nil =>
    cases h
    exact ⟨rfl, fun _ _ => rfl, fun i hi => by cases hi⟩
  | cons i l ih =>
    rw [forList_cons] at h
    cases he : exec (body i) m with
    | error e => rw [he] at h; cases h
    | ok m1 =>
      rw [he, ok_bind] at h
      have hr : run (body i) m = .ok ((), m1) := by
        unfold exec at he
        cases hh : run (body i) m with
        | error e => rw [hh] at he; cases he
        | ok r => rw [hh] at he; cases he; rfl
      obtain ⟨-, -, g2, -, -, g5, -, -⟩ := run_local (body i) (ht i (by simp)) rfl (fun _ _ => rfl) hr
      rw [List.nodup_cons] at hnd
      obtain ⟨i1, i2, i3⟩ := ih hnd.2 (fun j hj => ht j (by simp [hj])) (fun a ha b hb => hd a (by simp [ha]) b (by simp [hb]))
        (fun j hj => hWR j (by simp [hj])) h
      refine ⟨by omega, fun c hc => ?_, fun j hj => ?_⟩
      · rw [i2 c fun j hj => hc j (by simp [hj]), g5 c (hc i (by simp))]
      · rcases List.mem_cons.mp hj with rfl | hj'
        · refine ⟨m1, hr, fun c hc => (i2 c fun a ha hWa => ?_).symm⟩
          have hne : j ≠ a := by rintro rfl; exact hnd.1 ha
          exact hd j (by simp) a (by simp [ha]) hne c hWa (hWR j (by simp) c hc)
        · obtain ⟨n, n1, n2⟩ := i3 j hj'
          have hne : j ≠ i := by rintro rfl; exact hnd.1 hj'
          obtain ⟨n', k1, -, -, k4, -, -, -⟩ := run_local (body j) (ht j hj) g2 (fun c hc => g5 c fun hW =>
            hd j hj i (by simp) hne c hW hc) n1
          exact ⟨n', k1, fun c hc => by rw [← k4 c (hWR j hj c hc), n2 c hc]⟩

open Prog in
/-- A parallel loop whose iterations store to cells that no other iteration touches: if it succeeds in one order of its iterations, then every interleaving of the accesses
is free of races and failures, ends, and leaves the same result. -/
theorem deterministic_of_disjoint {R W : Nat → Nat → Prop} {l : List Nat} (hnd : l.Nodup) {body : Nat → Prog V Unit}
    (ht : ∀ i ∈ l, (body i).Touches (R i) (W i)) (hd : ∀ i ∈ l, ∀ j ∈ l, i ≠ j → ∀ c, W j c → ¬ R i c) (hWR : ∀ i ∈ l, ∀ c, W i c → R i c)
    {m mf : List V} (h : forList l (fun i m => exec (body i) m) m = .ok mf) : Deterministic l body m mf := by
  obtain ⟨f1, f2, f3⟩ := forList_exec_local hnd ht hd hWR h
  -- the invariant of all executions
  have inv : ∀ k c, Steps k (startLoop l body m) c →
      c.1.length = m.length ∧ (∀ x, (∀ i ∈ l, ¬ W i x) → c.1[x]? = m[x]?) ∧
      (∀ i ∈ l, (c.2 i).Touches (R i) (W i) ∧ ∃ n, run (c.2 i) c.1 = .ok ((), n) ∧ ∀ x, W i x → n[x]? = mf[x]?) ∧
      (∀ i, i ∉ l → c.2 i = .ret ()) ∧ k + (l.map fun i => cost (c.2 i) c.1).sum = (l.map fun i => cost (body i) m).sum := by
    intro k c hs
    generalize hstart : startLoop l body m = c0 at hs
    induction hs with
    | refl c =>
      subst hstart
      refine ⟨rfl, fun _ _ => rfl, fun i hi => ?_, fun i hi => by simp [startLoop, hi], ?_⟩
      · simp only [startLoop, if_pos hi]
        exact ⟨ht i hi, f3 i hi⟩
      · rw [Nat.zero_add]
        congr 1
        exact List.map_congr_left fun i hi => by simp [startLoop, hi]
    | @tail k c d e hs hstep ih =>
      obtain ⟨a1, a2, a3, a4, a5⟩ := ih hstart
      have split : ∀ (i : Nat) (hi : i ∈ l) (f : Nat → Nat), (l.map f).sum = f i + ((l.erase i).map f).sum := fun i hi f => by
        have := (List.perm_cons_erase hi).map f |>.sum_eq
        simpa using this
      have others : ∀ (i : Nat) (f g : Nat → Nat), (∀ j ∈ l, j ≠ i → f j = g j) → ((l.erase i).map f).sum = ((l.erase i).map g).sum := fun i f g hfg => by
        congr 1
        refine List.map_congr_left fun j hj => hfg j (List.mem_of_mem_erase hj) ?_
        rintro rfl
        exact hnd.not_mem_erase hj
      cases hstep with
      | @load m' ps x kk v i hp hv =>
        dsimp only at a1 a2 a3 a4 a5 ⊢
        have hi : i ∈ l := by
          by_contra hi
          rw [a4 i hi] at hp; cases hp
        have upd_ne : ∀ j, j ≠ i → Function.update ps i (kk v) j = ps j := fun j hj => Function.update_of_ne hj _ _
        refine ⟨a1, a2, fun j hj => ?_, fun j hj => by rw [upd_ne j (by rintro rfl; exact hj hi), a4 j hj], ?_⟩
        · by_cases hji : j = i
          · subst hji
            rw [Function.update_self]
            obtain ⟨b1, n, b2, b3⟩ := a3 j hi
            rw [hp] at b1 b2
            simp only [run, Blasted.rd, hv] at b2
            exact ⟨b1.2 v, n, b2, b3⟩
          · rw [upd_ne j hji]; exact a3 j hj
        · rw [← a5, split i hi, split i hi (fun j => cost (ps j) m'), others i _ (fun j => cost (ps j) m') (fun j _ hne => by rw [upd_ne j hne]),
            Function.update_self, hp]
          simp only [cost, hv]
          omega
      | @store m' ps x v kk i hp hx =>
        dsimp only at a1 a2 a3 a4 a5 ⊢
        have hi : i ∈ l := by
          by_contra hi
          rw [a4 i hi] at hp; cases hp
        have upd_ne : ∀ j, j ≠ i → Function.update ps i kk j = ps j := fun j hj => Function.update_of_ne hj _ _
        have hxW : W i x := by have := (a3 i hi).1; rw [hp] at this; exact this.2.1
        have set_ne : ∀ c, c ≠ x → (m'.set x v)[c]? = m'[c]? := fun c hc => List.getElem?_set_ne (Ne.symm hc)
        have loc : ∀ j ∈ l, j ≠ i → ∃ n, run (ps j) (m'.set x v) = .ok ((), n) ∧ (∀ y, W j y → n[y]? = mf[y]?) ∧ cost (ps j) (m'.set x v) = cost (ps j) m' := by
          intro j hj hne
          obtain ⟨b1, n, b2, b3⟩ := a3 j hj
          obtain ⟨n', c1, -, -, c4, -, -, c7⟩ := run_local (ps j) b1 (m' := m'.set x v) (by simp) (fun c hc => (set_ne c (by
            rintro rfl; exact hd j hj i hi hne c hxW hc)).symm) b2
          exact ⟨n', c1, fun y hy => by rw [← c4 y (hWR j hj y hy), b3 y hy], c7.symm⟩
        refine ⟨by simpa using a1, fun y hy => ?_, fun j hj => ?_, fun j hj => by rw [upd_ne j (by rintro rfl; exact hj hi), a4 j hj], ?_⟩
        · rw [set_ne y (by rintro rfl; exact hy i hi hxW), a2 y hy]
        · by_cases hji : j = i
          · subst hji
            rw [Function.update_self]
            obtain ⟨b1, n, b2, b3⟩ := a3 j hi
            rw [hp] at b1 b2
            simp only [run, Blasted.wr, if_pos hx] at b2
            exact ⟨b1.2.2, n, b2, b3⟩
          · rw [upd_ne j hji]
            obtain ⟨n, c1, c2, -⟩ := loc j hj hji
            exact ⟨(a3 j hj).1, n, c1, c2⟩
        · rw [← a5, split i hi, split i hi (fun j => cost (ps j) m'), others i _ (fun j => cost (ps j) m') (fun j hj hne => by
            obtain ⟨-, -, -, c3⟩ := loc j hj hne
            rw [upd_ne j hne, c3]), Function.update_self, hp]
          simp only [cost]
          omega
  refine ⟨?_, ?_, ⟨(l.map fun i => cost (body i) m).sum, fun k c hs => ?_⟩, ?_⟩
  · rintro k c hs ⟨i, j, x, hne, h1, h2⟩
    obtain ⟨-, -, a3, a4, -⟩ := inv k c hs
    have hi : i ∈ l := by
      by_contra hi
      rw [a4 i hi] at h1; exact h1
    have hj : j ∈ l := by
      by_contra hj
      rw [a4 j hj] at h2; exact h2
    have hR : R i x := by
      have := (a3 i hi).1
      cases hp : c.2 i with
      | ret a => rw [hp] at h1; exact h1.elim
      | fail e => rw [hp] at h1; exact h1.elim
      | load y k => rw [hp] at h1 this; cases h1; exact this.1
      | store y v k => rw [hp] at h1 this; cases h1; exact this.1
    have hW : W j x := by
      have := (a3 j hj).1
      cases hp : c.2 j with
      | ret a => rw [hp] at h2; exact h2.elim
      | fail e => rw [hp] at h2; exact h2.elim
      | load y k => rw [hp] at h2; exact h2.elim
      | store y v k => rw [hp] at h2 this; cases h2; exact this.2.1
    exact hd i hi j hj hne x hW hR
  · intro k c hs i hc
    obtain ⟨-, -, a3, a4, -⟩ := inv k c hs
    by_cases hi : i ∈ l
    · obtain ⟨-, n, b2, -⟩ := a3 i hi
      rcases hc with ⟨e, he⟩ | ⟨x, h1, h2⟩
      · rw [he] at b2; cases b2
      · cases hp : c.2 i with
        | ret a => rw [hp] at h1; exact h1.elim
        | fail e => rw [hp] at h1; exact h1.elim
        | load y k =>
          rw [hp] at h1 b2; cases h1
          simp only [run, Blasted.rd, List.getElem?_eq_none h2] at b2
          cases b2
        | store y v k =>
          rw [hp] at h1 b2; cases h1
          simp only [run, wr_ub h2] at b2
          cases b2
    · rcases hc with ⟨e, he⟩ | ⟨x, h1, h2⟩
      · rw [a4 i hi] at he; cases he
      · rw [a4 i hi] at h1; exact h1
  · have := (inv k c hs).2.2.2.2
    omega
  · intro k c hs hf
    obtain ⟨a1, a2, a3, -, -⟩ := inv k c hs
    refine List.ext_getElem? fun x => ?_
    by_cases hx : ∃ i ∈ l, W i x
    · obtain ⟨i, hi, hW⟩ := hx
      obtain ⟨-, n, b2, b3⟩ := a3 i hi
      rw [hf i] at b2
      cases b2
      exact b3 x hW
    · have hx' : ∀ i ∈ l, ¬ W i x := fun i hi hW => hx ⟨i, hi, hW⟩
      rw [a2 x hx', f2 x hx']

end Blasted
