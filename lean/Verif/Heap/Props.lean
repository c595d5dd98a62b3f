import Verif.Heap.Model
import Mathlib.Data.List.Count
import Mathlib.Data.List.Perm.Basic

/-!
# Ownership of array views (C42)
-/

namespace Blasted

variable {β : Type}

/-! ### Specification: what the caller has to respect

The caller keeps track of the sizes of all blocks allocated so far, of the blocks it is responsible for
itself, and of which of the views it constructed are still alive. Nothing about the inside of the
views is needed. -/

/-- The caller's book-keeping. -/
structure Caller where
  sizes : List Nat := []
  owned : List Nat := []
  alive : List Bool := []
deriving Repr, DecidableEq

/-- View `v` has been constructed and not destroyed. -/
def Caller.uses (c : Caller) (v : Nat) : Prop := c.alive[v]? = some true

instance (c : Caller) (v : Nat) : Decidable (c.uses v) := by unfold Caller.uses; infer_instance

/-- Giving up the ownership of what `p` points to: a null pointer with length zero, or the start of a block the caller is
responsible for, with a length not greater than its size. -/
def Caller.give (c : Caller) (p : Ptr) (length : Nat) : Option Caller :=
  match p with
  | none => if length = 0 then some c else none
  | some (b, o) =>
    if o = 0 ∧ b ∈ c.owned ∧ length ≤ c.sizes⟦b⟧ then some { c with owned := c.owned.erase b } else none

/-- The book-keeping for one call; `none` if the call breaks the rules. The rules are: use only views that are
alive; give ownership only of blocks for which you are responsible; free only such blocks. -/
def Caller.step (c : Caller) : AVOp β → Option Caller
  | .newNull => some { c with alive := c.alive ++ [true] }
  | .newSize n _ => some { c with sizes := c.sizes ++ [n], alive := c.alive ++ [true] }
  | .newWrap _ _ => some { c with alive := c.alive ++ [true] }
  | .newOwn p l true => (c.give p l).map fun c => { c with alive := c.alive ++ [true] }
  | .newOwn _ _ false => some { c with alive := c.alive ++ [true] }
  | .newMove v => if c.uses v then some { c with alive := c.alive ++ [true] } else none
  | .newMoveToConst v => if c.uses v then some { c with alive := c.alive ++ [true] } else none
  | .destroy v => if c.uses v then some { c with alive := c.alive.set v false } else none
  | .resize v n _ => if c.uses v then some { c with sizes := c.sizes ++ [n] } else none
  | .wrap v _ _ => if c.uses v then some c else none
  | .takeControl v p l => if c.uses v then c.give p l else none
  | .callerAlloc n _ =>
    some { c with sizes := c.sizes ++ [n], owned := c.owned ++ [c.sizes.length] }
  | .callerFree p => c.give p 0

/-- A history that respects the rules, and the book-keeping after it. -/
def Caller.run : Caller → List (AVOp β) → Option Caller
  | c, [] => some c
  | c, op :: ops => (c.step op).bind fun c => c.run ops

/-! ### Invariant -/

/-- The block a view is responsible for. -/
def AV.block (a : AV) : List Nat :=
  if a.owner then (match a.data with | some (b, _) => [b] | none => []) else []

/-- The block an object is responsible for. -/
def optBlock : Option AV → List Nat
  | some a => a.block
  | none => []

/-- A view that is an owner points to the start of a block at least as long as it says. -/
def AV.Sound (sizes : List Nat) (a : AV) : Prop :=
  a.owner = true → match a.data with
    | none => a.len = 0
    | some (b, o) => o = 0 ∧ b < sizes.length ∧ a.len ≤ sizes⟦b⟧

/-- Every block is freed, or is the caller's, or is owned by exactly one view, exclusively. -/
structure Accounted (c : Caller) (s : AVState β) : Prop where
  sizes : s.heap.blocks.map List.length = c.sizes
  alive : s.views.map Option.isSome = c.alive
  one : ∀ b, (s.views.flatMap optBlock).count b + c.owned.count b + s.heap.freed.count b =
    if b < c.sizes.length then 1 else 0
  sound : ∀ a, some a ∈ s.views → a.Sound c.sizes

theorem count_flatMap_set {α : Type} (f : α → List Nat) (b : Nat) :
    ∀ (l : List α) (v : Nat) (x y : α), l[v]? = some y →
      ((l.set v x).flatMap f).count b + (f y).count b = (l.flatMap f).count b + (f x).count b
  | [], v, x, y, h => by simp at h
  | a :: l, 0, x, y, h => by
    simp only [List.getElem?_cons_zero, Option.some.injEq] at h
    subst h
    simp only [List.set_cons_zero, List.flatMap_cons, List.count_append]
    omega
  | a :: l, v + 1, x, y, h => by
    simp only [List.getElem?_cons_succ] at h
    have := count_flatMap_set f b l v x y h
    simp only [List.set_cons_succ, List.flatMap_cons, List.count_append]
    omega

theorem AV.Sound.append {sizes : List Nat} {a : AV} (h : a.Sound sizes) (n : Nat) : a.Sound (sizes ++ [n]) := by
  intro ho
  have h := h ho
  rcases a with ⟨d, l, o⟩
  cases d with
  | none => exact h
  | some p =>
    obtain ⟨h0, hb, hl⟩ := h
    refine ⟨h0, by simp; omega, ?_⟩
    have : (sizes ++ [n])⟦p.1⟧ = sizes⟦p.1⟧ := get0_append_left hb
    show l ≤ (sizes ++ [n])⟦p.1⟧
    rw [this]; exact hl

theorem Accounted.view {c : Caller} {s : AVState β} (h : Accounted c s) {v : Nat} (hv : c.uses v) :
    ∃ a, s.views[v]? = some (some a) ∧ s.view v = .ok a := by
  unfold Caller.uses at hv
  rw [← h.alive, List.getElem?_map] at hv
  rcases hs : s.views[v]? with _ | o
  · simp [hs] at hv
  · rcases o with _ | a
    · simp [hs] at hv
    · refine ⟨a, rfl, ?_⟩
      simp [AVState.view, rd, hs]

theorem Accounted.block_ok {c : Caller} {s : AVState β} (h : Accounted c s) {v : Nat} {a : AV}
    (hv : s.views[v]? = some (some a)) :
    a.release s.heap = .ok { s.heap with freed := s.heap.freed ++ a.block } := by
  have hmem : some a ∈ s.views := List.mem_of_getElem? hv
  have hsnd := h.sound a hmem
  rcases a with ⟨d, l, o⟩
  cases o with
  | false => simp [AV.release, AV.block]
  | true =>
    cases d with
    | none => simp [AV.release, AV.block, Heap.free]
    | some p =>
      obtain ⟨b, o⟩ := p
      obtain ⟨h0, hb, hl⟩ := hsnd rfl
      subst h0
      have hone := h.one b
      have hin : 1 ≤ (s.views.flatMap optBlock).count b := by
        rw [Nat.one_le_iff_ne_zero, ← Nat.pos_iff_ne_zero, List.count_pos_iff, List.mem_flatMap]
        exact ⟨_, hmem, by simp [optBlock, AV.block]⟩
      have hnf : b ∉ s.heap.freed := by
        rw [← List.count_eq_zero]
        split at hone <;> omega
      have hbl : b < s.heap.blocks.length := by
        have := congrArg List.length h.sizes
        simp only [List.length_map] at this
        omega
      simp [AV.release, AV.block, Heap.free, hbl, hnf]

theorem mem_set_some {l : List (Option AV)} {v : Nat} {x : Option AV} {a : AV} (h : some a ∈ l.set v x) :
    some a ∈ l ∨ x = some a := by
  rcases List.mem_or_eq_of_mem_set h with h | h
  · exact Or.inl h
  · exact Or.inr h.symm

theorem AV.Sound.notOwner {sizes : List Nat} {a : AV} (h : a.owner = false) : a.Sound sizes := by
  intro h'; rw [h] at h'; exact absurd h' (by simp)

theorem Caller.give_spec {c c' : Caller} {p : Ptr} {l : Nat} (h : c.give p l = some c') (m : Nat) (hm : m ≤ l) :
    c'.sizes = c.sizes ∧ c'.alive = c.alive ∧
    (∀ b, c'.owned.count b + ((⟨p, m, true⟩ : AV).block).count b = c.owned.count b) ∧
    ((∀ b ∈ c.owned, b < c.sizes.length) → (⟨p, m, true⟩ : AV).Sound c.sizes) := by
  cases p with
  | none =>
    simp only [Caller.give] at h
    split at h
    · cases h
      refine ⟨rfl, rfl, fun b => by simp [AV.block], fun _ _ => ?_⟩
      show m = 0
      omega
    · simp at h
  | some p =>
    obtain ⟨b₀, o⟩ := p
    simp only [Caller.give] at h
    split at h
    · rename_i hc
      obtain ⟨h0, hb, hl⟩ := hc
      cases h
      refine ⟨rfl, rfl, fun b => ?_, fun hlt _ => ⟨h0, hlt _ hb, le_trans hm hl⟩⟩
      have hpos : 0 < c.owned.count b₀ := List.count_pos_iff.2 hb
      by_cases hbb : b = b₀
      · subst hbb
        simp [AV.block, List.count_erase_self]
        omega
      · simp [AV.block, List.count_erase_of_ne hbb, Ne.symm hbb]
    · simp at h

theorem Accounted.owned_lt {c : Caller} {s : AVState β} (h : Accounted c s) : ∀ b ∈ c.owned, b < c.sizes.length := by
  intro b hb
  have := h.one b
  have hp := List.count_pos_iff.2 hb
  by_contra hn
  simp [hn] at this
  omega

theorem step_accounted {c c' : Caller} {s : AVState β} (h : Accounted c s) (op : AVOp β)
    (hop : c.step op = some c') : ∃ s', s.step op = .ok s' ∧ Accounted c' s' := by
  have hlen : s.heap.blocks.length = c.sizes.length := by
    have := congrArg List.length h.sizes
    simpa using this
  -- adding a view that is no owner or owns nothing new
  have hadd : ∀ a : AV, a.block = [] → a.Sound c.sizes →
      Accounted { c with alive := c.alive ++ [true] } { s with views := s.views ++ [some a] } := by
    intro a hb hs
    refine ⟨h.sizes, by simp [h.alive], fun b => ?_, fun a' ha' => ?_⟩
    · have := h.one b
      simpa [optBlock, hb] using this
    · rcases List.mem_append.1 ha' with h1 | h1
      · exact h.sound _ h1
      · simp at h1; subst h1; exact hs
  -- moving a view
  have hmove : ∀ v, c.uses v → ∀ a, s.views[v]? = some (some a) →
      Accounted { c with alive := c.alive ++ [true] }
        { s with views := s.views.set v (some ⟨none, 0, false⟩) ++ [some ⟨a.data, a.len, a.owner⟩] } := by
    intro v hv a ha
    refine ⟨h.sizes, ?_, fun b => ?_, fun a' ha' => ?_⟩
    · simp only [List.map_append, List.map_set, h.alive, Option.isSome_some, List.map_cons, List.map_nil,
        List.append_cancel_right_eq]
      apply List.ext_getElem?
      intro k
      rw [List.getElem?_set]
      split
      · subst_vars
        unfold Caller.uses at hv
        rw [hv]
        have := (List.getElem?_eq_some_iff.1 hv).1
        simp [this]
      · rfl
    · have h1 := h.one b
      have h2 := count_flatMap_set optBlock b s.views v (some ⟨none, 0, false⟩) (some a) ha
      have h3 : (optBlock (some ⟨none, 0, false⟩)).count b = 0 := by simp [optBlock, AV.block]
      have h4 : optBlock (some ⟨a.data, a.len, a.owner⟩) = optBlock (some a) := rfl
      simp only [List.flatMap_append, List.count_append, List.flatMap_cons, List.flatMap_nil, List.append_nil, h4]
      rw [← h1]
      omega
    · rcases List.mem_append.1 ha' with h1 | h1
      · rcases mem_set_some h1 with h1 | h1
        · exact h.sound _ h1
        · simp only [Option.some.injEq] at h1; subst h1; exact .notOwner rfl
      · simp only [List.mem_singleton, Option.some.injEq] at h1
        subst h1
        exact h.sound a (List.mem_of_getElem? ha)
  cases op with
  | newNull => cases hop; exact ⟨_, rfl, hadd _ rfl (.notOwner rfl)⟩
  | newWrap p l => cases hop; exact ⟨_, rfl, hadd _ rfl (.notOwner rfl)⟩
  | newSize n g =>
    cases hop
    refine ⟨_, rfl, ?_, by simp [h.alive], fun b => ?_, fun a ha => ?_⟩
    · simp [AV.ofSize, Heap.alloc, h.sizes]
    · have := h.one b
      simp only [AV.ofSize, Heap.alloc, List.flatMap_append, List.count_append, List.flatMap_cons, List.flatMap_nil,
        List.append_nil, optBlock, AV.block, if_true, List.count_singleton, List.length_append, List.length_singleton,
        hlen]
      by_cases hb : c.sizes.length = b
      · subst hb
        simp at this ⊢
        omega
      · simp [hb]
        rw [this]
        by_cases hb2 : b < c.sizes.length
        · rw [if_pos hb2, if_pos (by omega)]
        · rw [if_neg hb2, if_neg (by omega)]
    · rcases List.mem_append.1 ha with h1 | h1
      · exact (h.sound _ h1).append _
      · simp only [AV.ofSize, Heap.alloc, List.mem_singleton, Option.some.injEq] at h1
        subst h1
        intro _
        refine ⟨rfl, by simp [hlen], ?_⟩
        show n ≤ (c.sizes ++ [n])⟦s.heap.blocks.length⟧
        rw [hlen, get0_append_right (Nat.le_refl _)]
        simp [get0]
  | newOwn p l o =>
    cases o with
    | false => cases hop; exact ⟨_, rfl, hadd _ rfl (.notOwner rfl)⟩
    | true =>
      simp only [Caller.step, Option.map_eq_some_iff] at hop
      obtain ⟨c₁, hg, rfl⟩ := hop
      obtain ⟨e1, e2, e3, e4⟩ := Caller.give_spec hg l (Nat.le_refl _)
      refine ⟨_, rfl, by simp [h.sizes, e1], by simp [h.alive, e2], fun b => ?_, fun a ha => ?_⟩
      · have h1 := h.one b
        have h2 := e3 b
        simp only [List.flatMap_append, List.count_append, List.flatMap_cons, List.flatMap_nil, List.append_nil,
          optBlock, AV.ofOwn, e1]
        rw [← h1]
        omega
      · rw [e1]
        rcases List.mem_append.1 ha with h1 | h1
        · exact h.sound _ h1
        · simp only [List.mem_singleton, Option.some.injEq] at h1
          subst h1
          exact e4 h.owned_lt
  | newMove v =>
    simp only [Caller.step] at hop
    split at hop
    · rename_i hv
      cases hop
      obtain ⟨a, ha, hav⟩ := h.view hv
      exact ⟨_, by simp only [AVState.step, hav, ok_bind, AV.move], hmove v hv a ha⟩
    · simp at hop
  | newMoveToConst v =>
    simp only [Caller.step] at hop
    split at hop
    · rename_i hv
      cases hop
      obtain ⟨a, ha, hav⟩ := h.view hv
      exact ⟨_, by simp only [AVState.step, hav, ok_bind, AV.moveToConst, AV.ofOwn], hmove v hv a ha⟩
    · simp at hop
  | destroy v =>
    simp only [Caller.step] at hop
    split at hop
    · rename_i hv
      cases hop
      obtain ⟨a, ha, hav⟩ := h.view hv
      refine ⟨{ heap := { s.heap with freed := s.heap.freed ++ a.block }, views := s.views.set v none },
        by simp only [AVState.step, hav, ok_bind, AV.destroy, h.block_ok ha], h.sizes, ?_, fun b => ?_,
        fun a' ha' => ?_⟩
      · simp [List.map_set, h.alive]
      · have h1 := h.one b
        have h2 := count_flatMap_set optBlock b s.views v none (some a) ha
        simp only [optBlock, List.count_nil] at h2
        simp only [List.count_append]
        rw [← h1]
        omega
      · rcases mem_set_some ha' with h1 | h1
        · exact h.sound _ h1
        · simp at h1
    · simp at hop
  | resize v n g =>
    simp only [Caller.step] at hop
    split at hop
    · rename_i hv
      cases hop
      obtain ⟨a, ha, hav⟩ := h.view hv
      refine ⟨{ heap := { blocks := s.heap.blocks ++ [(List.range n).map g], freed := s.heap.freed ++ a.block },
                views := s.views.set v (some ⟨some (s.heap.blocks.length, 0), n, true⟩) },
        by simp only [AVState.step, hav, ok_bind, AV.resize, h.block_ok ha, Heap.alloc], ?_, ?_, fun b => ?_,
        fun a' ha' => ?_⟩
      · simp [h.sizes]
      · simp only [List.map_set, h.alive, Option.isSome_some]
        apply List.ext_getElem?
        intro k
        rw [List.getElem?_set]
        split
        · subst_vars
          unfold Caller.uses at hv
          rw [hv]
          have := (List.getElem?_eq_some_iff.1 hv).1
          simp [this]
        · rfl
      · have h1 := h.one b
        have h2 := count_flatMap_set optBlock b s.views v
          (some ⟨some (s.heap.blocks.length, 0), n, true⟩) (some a) ha
        have h3 : (optBlock (some ⟨some (s.heap.blocks.length, 0), n, true⟩)).count b =
            if c.sizes.length = b then 1 else 0 := by
          simp [optBlock, AV.block, List.count_singleton, hlen]
        rw [h3] at h2
        simp only [List.count_append, List.length_append, List.length_singleton]
        simp only [optBlock] at h2 ⊢
        by_cases hb : c.sizes.length = b
        · simp only [hb, if_true] at h2 ⊢
          subst hb
          simp only [Nat.lt_irrefl, if_false] at h1
          rw [if_pos (by omega)]
          omega
        · simp only [hb, if_false] at h2
          have : (if b < c.sizes.length + 1 then 1 else 0) = if b < c.sizes.length then 1 else 0 := by
            by_cases hb2 : b < c.sizes.length
            · rw [if_pos hb2, if_pos (by omega)]
            · rw [if_neg hb2, if_neg (by omega)]
          rw [this, ← h1]
          omega
      · rcases mem_set_some ha' with h1 | h1
        · exact (h.sound _ h1).append _
        · simp only [Option.some.injEq] at h1
          subst h1
          intro _
          refine ⟨rfl, by simp [hlen], ?_⟩
          show n ≤ (c.sizes ++ [n])⟦s.heap.blocks.length⟧
          rw [hlen, get0_append_right (Nat.le_refl _)]
          simp [get0]
    · simp at hop
  | wrap v p l =>
    simp only [Caller.step] at hop
    split at hop
    · rename_i hv
      cases hop
      obtain ⟨a, ha, hav⟩ := h.view hv
      refine ⟨{ heap := { s.heap with freed := s.heap.freed ++ a.block }, views := s.views.set v (some ⟨p, l, false⟩) },
        by simp only [AVState.step, hav, ok_bind, AV.wrap, h.block_ok ha], h.sizes, ?_, fun b => ?_,
        fun a' ha' => ?_⟩
      · simp only [List.map_set, h.alive, Option.isSome_some]
        apply List.ext_getElem?
        intro k
        rw [List.getElem?_set]
        split
        · subst_vars
          unfold Caller.uses at hv
          rw [hv]
          have := (List.getElem?_eq_some_iff.1 hv).1
          simp [this]
        · rfl
      · have h1 := h.one b
        have h2 := count_flatMap_set optBlock b s.views v (some ⟨p, l, false⟩) (some a) ha
        have h3 : (optBlock (some ⟨p, l, false⟩)).count b = 0 := by simp [optBlock, AV.block]
        rw [h3] at h2
        simp only [List.count_append]
        simp only [optBlock] at h2 ⊢
        rw [← h1]
        omega
      · rcases mem_set_some ha' with h1 | h1
        · exact h.sound _ h1
        · simp only [Option.some.injEq] at h1
          subst h1
          exact .notOwner rfl
    · simp at hop
  | takeControl v p l =>
    simp only [Caller.step] at hop
    split at hop
    · rename_i hv
      obtain ⟨a, ha, hav⟩ := h.view hv
      obtain ⟨e1, e2, e3, e4⟩ := Caller.give_spec hop l (Nat.le_refl _)
      refine ⟨{ heap := { s.heap with freed := s.heap.freed ++ a.block }, views := s.views.set v (some ⟨p, l, true⟩) },
        by simp only [AVState.step, hav, ok_bind, AV.takeControl, h.block_ok ha], by rw [e1]; exact h.sizes,
        ?_, fun b => ?_, fun a' ha' => ?_⟩
      · simp only [List.map_set, h.alive, Option.isSome_some, e2]
        apply List.ext_getElem?
        intro k
        rw [List.getElem?_set]
        split
        · subst_vars
          unfold Caller.uses at hv
          rw [hv]
          have := (List.getElem?_eq_some_iff.1 hv).1
          simp [this]
        · rfl
      · have h1 := h.one b
        have h2 := count_flatMap_set optBlock b s.views v (some ⟨p, l, true⟩) (some a) ha
        have h3 := e3 b
        simp only [List.count_append, e1]
        simp only [optBlock] at h2 ⊢
        rw [← h1]
        omega
      · rw [e1]
        rcases mem_set_some ha' with h1 | h1
        · exact h.sound _ h1
        · simp only [Option.some.injEq] at h1
          subst h1
          exact e4 h.owned_lt
    · simp at hop
  | callerAlloc n g =>
    cases hop
    refine ⟨_, rfl, by simp [Heap.alloc, h.sizes], h.alive, fun b => ?_, fun a ha => (h.sound _ ha).append _⟩
    have h1 := h.one b
    simp only [Heap.alloc, List.count_append, List.count_singleton, List.length_append, List.length_singleton]
    by_cases hb : c.sizes.length = b
    · subst hb
      simp at h1 ⊢
      omega
    · simp [hb]
      rw [h1]
      by_cases hb2 : b < c.sizes.length
      · rw [if_pos hb2, if_pos (by omega)]
      · rw [if_neg hb2, if_neg (by omega)]
  | callerFree p =>
    obtain ⟨e1, e2, e3, e4⟩ := Caller.give_spec hop 0 (Nat.le_refl _)
    cases p with
    | none =>
      refine ⟨_, rfl, by rw [e1]; exact h.sizes, by rw [e2]; exact h.alive, fun b => ?_, by rw [e1]; exact h.sound⟩
      have := e3 b
      have h1 := h.one b
      simp [AV.block] at this
      simp only [e1]
      rw [← h1, this]
    | some p =>
      obtain ⟨b₀, o⟩ := p
      obtain ⟨h0, hlt, -⟩ := e4 h.owned_lt rfl
      subst h0
      have hnf : b₀ ∉ s.heap.freed := by
        rw [← List.count_eq_zero]
        have h1 := h.one b₀
        have h2 := e3 b₀
        simp [AV.block] at h2
        split at h1 <;> omega
      refine ⟨{ s with heap := { s.heap with freed := s.heap.freed ++ [b₀] } }, ?_, by rw [e1]; exact h.sizes,
        by rw [e2]; exact h.alive, fun b => ?_, by rw [e1]; exact h.sound⟩
      · simp [AVState.step, Heap.free, hlen, hlt, hnf]
      · have h1 := h.one b
        have h2 := e3 b
        simp only [AV.block, if_true] at h2
        simp only [List.count_append, e1]
        rw [← h1]
        omega

theorem run_accounted (ops : List (AVOp β)) : ∀ {c c' : Caller} {s : AVState β}, Accounted c s →
    c.run ops = some c' → ∃ s', s.run ops = .ok s' ∧ Accounted c' s' := by
  induction ops with
  | nil => intro c c' s h hc; cases hc; exact ⟨s, rfl, h⟩
  | cons op ops ih =>
    intro c c' s h hc
    simp only [Caller.run, Option.bind_eq_some_iff] at hc
    obtain ⟨c₁, h1, h2⟩ := hc
    obtain ⟨s₁, e1, a1⟩ := step_accounted h op h1
    obtain ⟨s₂, e2, a2⟩ := ih a1 h2
    refine ⟨s₂, ?_, a2⟩
    rw [AVState.run, forList_cons, e1, ok_bind]
    exact e2

theorem start_accounted : Accounted {} ({} : AVState β) :=
  ⟨rfl, rfl, fun b => by simp, fun a ha => by simp at ha⟩

/-! ### C42 -/

/-- **C42, safety.** Every history of constructions, moves, resizes, wraps, ownership transfers and destructions that
respects the caller's rules runs without an invalid or repeated deallocation; no block is freed twice and
none for which the caller is still responsible (in particular none that views merely wrap). -/
theorem arrayview_history_safe {ops : List (AVOp β)} {c : Caller} (h : Caller.run {} ops = some c) :
    ∃ s, AVState.run {} ops = .ok s ∧ s.heap.freed.Nodup ∧
      (∀ b ∈ s.heap.freed, b < s.heap.blocks.length ∧ b ∉ c.owned) := by
  obtain ⟨s, e, a⟩ := run_accounted ops start_accounted h
  refine ⟨s, e, ?_, fun b hb => ?_⟩
  · rw [List.nodup_iff_count_le_one]
    intro b
    have := a.one b
    split at this <;> omega
  · have h1 := a.one b
    have h2 := List.count_pos_iff.2 hb
    have hlen : s.heap.blocks.length = c.sizes.length := by simpa using congrArg List.length a.sizes
    constructor
    · by_contra hn
      rw [if_neg (by omega)] at h1
      omega
    · intro ho
      have h3 := List.count_pos_iff.2 ho
      split at h1 <;> omega

/-- **C42, no leak.** If in addition all views have been destroyed, every block ever allocated has been freed, except for
those for which the caller is responsible. -/
theorem arrayview_history_no_leak {ops : List (AVOp β)} {c : Caller} (h : Caller.run {} ops = some c)
    (hall : ∀ v, ¬ c.uses v) :
    ∃ s, AVState.run {} ops = .ok s ∧ ∀ b < s.heap.blocks.length, b ∉ c.owned → b ∈ s.heap.freed := by
  obtain ⟨s, e, a⟩ := run_accounted ops start_accounted h
  refine ⟨s, e, fun b hb ho => ?_⟩
  have hlen : s.heap.blocks.length = c.sizes.length := by simpa using congrArg List.length a.sizes
  have h1 := a.one b
  rw [if_pos (by omega), List.count_eq_zero.2 ho] at h1
  have h2 : s.views.flatMap optBlock = [] := by
    rw [List.flatMap_eq_nil_iff]
    intro o ho
    cases o with
    | none => rfl
    | some x =>
      obtain ⟨v, hv, hx⟩ := List.getElem_of_mem ho
      exfalso
      refine hall v ?_
      unfold Caller.uses
      rw [← a.alive, List.getElem?_map, List.getElem?_eq_getElem hv, hx]
      rfl
  rw [h2] at h1
  rw [← List.count_pos_iff]
  simpa using h1.ge

/-- **C42, no leak while views are alive.** At every moment a block that is neither freed nor the caller's is owned by
exactly one view that is alive, namely the number of alive views that own it is one. -/
theorem arrayview_history_owner {ops : List (AVOp β)} {c : Caller} (h : Caller.run {} ops = some c) :
    ∃ s, AVState.run {} ops = .ok s ∧ ∀ b < s.heap.blocks.length, b ∉ c.owned → b ∉ s.heap.freed →
      ∃ v l, s.views[v]? = some (some ⟨some (b, 0), l, true⟩) ∧
        ∀ (v' : Nat) (a' : AV), s.views[v']? = some (some a') → a'.owner = true → (∃ o, a'.data = some (b, o)) → v' = v := by
  obtain ⟨s, e, a⟩ := run_accounted ops start_accounted h
  refine ⟨s, e, fun b hb ho hf => ?_⟩
  have hlen : s.heap.blocks.length = c.sizes.length := by simpa using congrArg List.length a.sizes
  have h1 := a.one b
  rw [if_pos (by omega), List.count_eq_zero.2 ho, List.count_eq_zero.2 hf] at h1
  have hmem : b ∈ s.views.flatMap optBlock := by rw [← List.count_pos_iff]; omega
  obtain ⟨o, hov, hob⟩ := List.mem_flatMap.1 hmem
  cases o with
  | none => simp [optBlock] at hob
  | some x =>
    obtain ⟨v, hv, hx⟩ := List.getElem_of_mem hov
    have hs := a.sound x hov
    rcases x with ⟨d, l, ow⟩
    cases ow with
    | false => simp [optBlock, AV.block] at hob
    | true =>
      cases d with
      | none => simp [optBlock, AV.block] at hob
      | some p =>
        obtain ⟨b', o'⟩ := p
        simp [optBlock, AV.block] at hob
        subst hob
        obtain ⟨rfl, -, -⟩ := hs rfl
        have hvx : s.views[v]? = some (some ⟨some (b, 0), l, true⟩) := by rw [List.getElem?_eq_getElem hv, hx]
        refine ⟨v, l, hvx, fun v' a' hv' ho' hd => ?_⟩
        obtain ⟨o', hd⟩ := hd
        by_contra hne
        have h2 := count_flatMap_set optBlock b s.views v none _ hvx
        have h3 : (s.views.set v none)[v']? = some (some a') := by
          rw [List.getElem?_set_ne (Ne.symm hne)]; exact hv'
        have h4 : 0 < ((s.views.set v none).flatMap optBlock).count b := by
          rw [List.count_pos_iff, List.mem_flatMap]
          refine ⟨_, List.mem_of_getElem? h3, ?_⟩
          simp [optBlock, AV.block, ho', hd]
        have h5 : (optBlock (some ⟨some (b, 0), l, true⟩)).count b = 1 := by simp [optBlock, AV.block]
        have h6 : (optBlock none).count b = 0 := rfl
        omega

/-- **C42, accesses.** At every moment every element of a view that is an owner can be read. -/
theorem arrayview_owner_access {ops : List (AVOp β)} {c : Caller} (h : Caller.run {} ops = some c) :
    ∃ s, AVState.run {} ops = .ok s ∧ ∀ a, some a ∈ s.views → a.owner = true → ∀ i < a.len,
      ∃ x, a.get i s.heap = .ok x := by
  obtain ⟨s, e, a⟩ := run_accounted ops start_accounted h
  refine ⟨s, e, fun x hx ho i hi => ?_⟩
  have hs := a.sound x hx ho
  rcases x with ⟨d, l, ow⟩
  cases d with
  | none => have : l = 0 := hs; simp only at hi; omega
  | some p =>
    obtain ⟨b, o⟩ := p
    obtain ⟨rfl, hb, hl⟩ := hs
    simp only at hi ho hb hl
    subst ho
    have hlen : s.heap.blocks.length = c.sizes.length := by simpa using congrArg List.length a.sizes
    have hnf : b ∉ s.heap.freed := by
      rw [← List.count_eq_zero]
      have h1 := a.one b
      have h2 : 0 < (s.views.flatMap optBlock).count b := by
        rw [List.count_pos_iff, List.mem_flatMap]
        exact ⟨_, hx, by simp [optBlock, AV.block]⟩
      split at h1 <;> omega
    have hsz : (s.heap.blocks[b]'(by omega)).length = c.sizes⟦b⟧ := by
      rw [← a.sizes]
      simp [get0, List.getElem?_eq_getElem (show b < s.heap.blocks.length by omega)]
    refine ⟨(s.heap.blocks[b]'(by omega))[i]'(by omega), ?_⟩
    simp [AV.get, cassert, hi, Heap.load, hnf, rd, List.getElem?_eq_getElem (show b < s.heap.blocks.length by omega)]
    rw [List.getElem?_eq_getElem (by omega)]

/-- Element `i` behind the pointer `p` is in memory that is allocated and not freed, and has the value `x`. -/
def Heap.Holds (h : Heap β) (p : Ptr) (i : Nat) (x : β) : Prop :=
  ∃ b o blk, p = some (b, o) ∧ b ∉ h.freed ∧ h.blocks[b]? = some blk ∧ blk[o + i]? = some x

/-- **C42, every access to an element.** An index that is not less than the length is caught by the assertion, for every view. Otherwise the access gives the element if the memory behind it is allocated
and not freed; it is undefined if the view has a null pointer, or wraps a block that has been freed, or is longer than the block behind it. -/
theorem arrayview_read_outcomes (v : AV) (i : Nat) (h : Heap β) :
    (v.len ≤ i → v.get i h = .error .abort) ∧
    (i < v.len → ∀ x, v.get i h = .ok x ↔ h.Holds v.data i x) ∧
    (i < v.len → (¬ ∃ x, h.Holds v.data i x) → v.get i h = .error .ub) := by
  have key : i < v.len → (∃ x, v.get i h = .ok x ∧ h.Holds v.data i x) ∨ (v.get i h = .error .ub ∧ ¬ ∃ x, h.Holds v.data i x) := by
    intro hi
    have e : v.get i h = h.load v.data i := by unfold AV.get; rw [decide_eq_true hi]; rfl
    rw [e]
    unfold Heap.load
    cases hd : v.data with
    | none => exact .inr ⟨rfl, by rintro ⟨x, b, o, blk, h1, -⟩; cases h1⟩
    | some q =>
      obtain ⟨b, o⟩ := q
      dsimp only
      by_cases hf : b ∈ h.freed
      · refine .inr ⟨by rw [if_pos hf]; rfl, ?_⟩
        rintro ⟨x, b', o', blk, h1, h2, -⟩
        cases h1
        exact h2 hf
      · rw [if_neg hf]
        cases hb : h.blocks[b]? with
        | none =>
          refine .inr ⟨by unfold rd; rw [hb]; rfl, ?_⟩
          rintro ⟨x, b', o', blk, h1, -, h3, -⟩
          cases h1
          rw [hb] at h3
          cases h3
        | some blk =>
          cases hx : blk[o + i]? with
          | none =>
            refine .inr ⟨by unfold rd; rw [hb]; show rd blk (o + i) = _; unfold rd; rw [hx], ?_⟩
            rintro ⟨x, b', o', blk', h1, -, h3, h4⟩
            cases h1
            rw [hb] at h3
            cases h3
            rw [hx] at h4
            cases h4
          | some x =>
            exact .inl ⟨x, by unfold rd; rw [hb]; show rd blk (o + i) = _; unfold rd; rw [hx], b, o, blk, rfl, hf, hb, hx⟩
  refine ⟨fun hi => ?_, fun hi x => ?_, fun hi hn => ?_⟩
  · unfold AV.get
    rw [decide_eq_false (by omega)]
    rfl
  · rcases key hi with ⟨y, h1, h2⟩ | ⟨h1, h2⟩
    · rw [h1]
      constructor
      · intro e
        injection e with e
        exact e ▸ h2
      · rintro ⟨b, o, blk, e1, -, e3, e4⟩
        obtain ⟨b', o', blk', f1, -, f3, f4⟩ := h2
        rw [e1] at f1
        cases f1
        rw [e3] at f3
        cases f3
        rw [e4] at f4
        cases f4
        rfl
    · rw [h1]
      exact ⟨fun e => (by cases e), fun e => absurd ⟨x, e⟩ h2⟩
  · rcases key hi with ⟨y, h1, h2⟩ | ⟨h1, h2⟩
    · exact absurd ⟨y, h2⟩ hn
    · exact h1

/-- **C42, every assignment to an element.** It is defined exactly when the element can be read; then that element of that block is changed and no other. -/
theorem arrayview_write_outcomes (v : AV) (i : Nat) (y : β) (h : Heap β) :
    (v.len ≤ i → v.set i y h = .error .abort) ∧
    (i < v.len → ∀ {b o : Nat} {blk : List β}, v.data = some (b, o) → b ∉ h.freed → h.blocks[b]? = some blk → o + i < blk.length →
      v.set i y h = .ok ⟨h.blocks.set b (blk.set (o + i) y), h.freed⟩) ∧
    (i < v.len → (¬ ∃ x, h.Holds v.data i x) → v.set i y h = .error .ub) := by
  have e : i < v.len → v.set i y h = h.store v.data i y := fun hi => by unfold AV.set; rw [decide_eq_true hi]; rfl
  refine ⟨fun hi => ?_, fun hi {b o blk} hd hf hb ho => ?_, fun hi hn => ?_⟩
  · unfold AV.set
    rw [decide_eq_false (by omega)]
    rfl
  · have hlt : b < h.blocks.length := by
      by_contra hc
      rw [List.getElem?_eq_none (by omega)] at hb
      cases hb
    rw [e hi, hd]
    unfold Heap.store
    dsimp only
    rw [if_neg hf]
    unfold rd
    rw [hb]
    show (do let blk ← wr blk (o + i) y; let blocks ← wr h.blocks b blk; .ok { h with blocks := blocks } : Except Fail (Heap β)) = _
    rw [wr_eq ho, ok_bind, wr_eq hlt, ok_bind]
  · rw [e hi]
    unfold Heap.store
    cases hd : v.data with
    | none => rfl
    | some q =>
      obtain ⟨b, o⟩ := q
      rw [hd] at hn
      dsimp only
      by_cases hf : b ∈ h.freed
      · rw [if_pos hf]; rfl
      · rw [if_neg hf]
        cases hb : h.blocks[b]? with
        | none => unfold rd; rw [hb]; rfl
        | some blk =>
          have : blk.length ≤ o + i := by
            by_contra hc
            exact hn ⟨_, b, o, blk, rfl, hf, hb, List.getElem?_eq_getElem (by omega)⟩
          unfold rd
          rw [hb]
          show (do let blk ← wr blk (o + i) y; let blocks ← wr h.blocks b blk; .ok { h with blocks := blocks } : Except Fail (Heap β)) = _
          rw [wr_ub this, error_bind]

/-- A view of the last two elements of a block of three, one of a freed block, one with a null pointer, and one that is too long. -/
example : (AV.ofWrap (some (0, 1)) 2).get 1 ⟨[[7, 8, 9], [1]], [1]⟩ = .ok 9 ∧ (AV.ofWrap (some (1, 0)) 1).get 0 (⟨[[7, 8, 9], [1]], [1]⟩ : Heap Nat) = .error .ub ∧
    (AV.ofWrap none 1).get 0 (⟨[[7, 8, 9], [1]], [1]⟩ : Heap Nat) = .error .ub ∧ (AV.ofWrap (some (0, 1)) 3).set 2 0 (⟨[[7, 8, 9], [1]], [1]⟩ : Heap Nat) = .error .ub ∧
    (AV.ofWrap (some (0, 1)) 2).get 2 (⟨[[7, 8, 9], [1]], [1]⟩ : Heap Nat) = .error .abort ∧
    (AV.ofWrap (some (0, 1)) 2).set 0 5 (⟨[[7, 8, 9], [1]], [1]⟩ : Heap Nat) = .ok ⟨[[7, 5, 9], [1]], [1]⟩ :=
  ⟨((arrayview_read_outcomes _ _ _).2.1 (by decide) 9).mpr ⟨0, 1, [7, 8, 9], rfl, by decide, rfl, rfl⟩, by decide +kernel, by decide +kernel, by decide +kernel, by decide +kernel,
    (arrayview_write_outcomes (AV.ofWrap (some (0, 1)) 2) 0 5 ⟨[[7, 8, 9], [1]], [1]⟩).2.1 (by decide) (rfl : _ = some (0, 1)) (by decide) (rfl : _ = some [7, 8, 9]) (by decide)⟩

/-- The rules are met by a history with all kinds of calls, in which views own, wrap and exchange two of the caller's
blocks; at the end all views are destroyed and the caller is responsible for one block. -/
example : Caller.run {} ([.callerAlloc 3 id, .callerAlloc 1 id, .newNull, .newSize 2 id, .newWrap (some (0, 1)) 2,
    .newOwn (some (1, 0)) 1 true, .newMove 3, .resize 0 1 id, .wrap 1 (some (0, 0)) 3, .newMoveToConst 4, .destroy 0,
    .takeControl 1 none 0, .destroy 1, .destroy 2, .destroy 3, .destroy 4, .destroy 5] : List (AVOp Nat)) =
    some ⟨[3, 1, 2, 1], [0], [false, false, false, false, false, false]⟩ := by decide

/-- Without the rules the conclusion fails: giving the same block to two views frees it twice. -/
theorem arrayview_double_owner_ub :
    AVState.run {} ([.callerAlloc 1 id, .newOwn (some (0, 0)) 1 true, .newOwn (some (0, 0)) 1 true, .destroy 0,
      .destroy 1] : List (AVOp Nat)) = .error .ub := by rfl

/-- The view a call uses, if any. -/
def AVOp.usedView : AVOp β → Option Nat
  | .newMove v | .newMoveToConst v | .destroy v | .resize v _ _ | .wrap v _ _ | .takeControl v _ _ => some v
  | _ => none

/-- **C42, the rules are needed (1).** After any history that respects the rules, a call on a view that does not exist or has been destroyed is undefined. -/
theorem arrayview_use_after_destroy_ub {ops : List (AVOp β)} {c : Caller} (h : Caller.run {} ops = some c) {op : AVOp β} {v : Nat}
    (hop : op.usedView = some v) (hv : ¬ c.uses v) : AVState.run {} (ops ++ [op]) = .error .ub := by
  obtain ⟨s, e, a⟩ := run_accounted ops start_accounted h
  have hview : s.view v = .error .ub := by
    unfold Caller.uses at hv
    rw [← a.alive, List.getElem?_map] at hv
    unfold AVState.view rd
    rcases hs : s.views[v]? with _ | o
    · rfl
    · rcases o with _ | x
      · rfl
      · simp [hs] at hv
  unfold AVState.run at e ⊢
  rw [forList_append, e, ok_bind, forList_cons]
  have : s.step op = .error .ub := by
    cases op <;> simp only [AVOp.usedView, Option.some.injEq, reduceCtorEq] at hop <;> subst hop <;> unfold AVState.step <;>
      simp only [hview, error_bind]
  rw [this, error_bind]

/-- **C42, the rules are needed (2).** If, after a history that respects the rules, a view is made the owner of something that is not the start of a block the caller
is responsible for, then its destruction is undefined, or some other view owns the same block and the destruction of both is undefined. -/
theorem arrayview_foreign_ownership_ub {ops : List (AVOp β)} {c : Caller} (h : Caller.run {} ops = some c) {b o : Nat} (l : Nat)
    (hp : ¬ (o = 0 ∧ b ∈ c.owned)) :
    AVState.run {} (ops ++ [.newOwn (some (b, o)) l true, .destroy c.alive.length]) = .error .ub ∨
    ∃ v, c.uses v ∧ AVState.run {} (ops ++ [.newOwn (some (b, o)) l true, .destroy c.alive.length, .destroy v]) = .error .ub := by
  obtain ⟨s, e, a⟩ := run_accounted ops start_accounted h
  have hlen : s.heap.blocks.length = c.sizes.length := by simpa using congrArg List.length a.sizes
  have hal : c.alive.length = s.views.length := by rw [← a.alive, List.length_map]
  have hstep : s.step (.newOwn (some (b, o)) l true) = .ok { s with views := s.views ++ [some (AV.ofOwn (some (b, o)) l true)] } := rfl
  have hv : AVState.view { s with views := s.views ++ [some (AV.ofOwn (some (b, o)) l true)] } c.alive.length = .ok (AV.ofOwn (some (b, o)) l true) := by
    unfold AVState.view rd
    dsimp only
    rw [hal, List.getElem?_append_right (Nat.le_refl _), Nat.sub_self]
    rfl
  by_cases hfree : o = 0 ∧ b < s.heap.blocks.length ∧ b ∉ s.heap.freed
  · right
    obtain ⟨rfl, hb, hf⟩ := hfree
    have h1 := a.one b
    rw [if_pos (by omega), List.count_eq_zero.2 hf, List.count_eq_zero.2 (fun hc => hp ⟨rfl, hc⟩)] at h1
    have h2 : b ∈ s.views.flatMap optBlock := List.count_pos_iff.1 (by omega)
    obtain ⟨x, hx, hbx⟩ := List.mem_flatMap.1 h2
    rcases x with _ | x
    · simp [optBlock] at hbx
    obtain ⟨v, hvl, hvx⟩ := List.getElem_of_mem hx
    have hvx' : s.views[v]? = some (some x) := by rw [List.getElem?_eq_getElem hvl, hvx]
    refine ⟨v, ?_, ?_⟩
    · unfold Caller.uses
      rw [← a.alive, List.getElem?_map, hvx']
      rfl
    · have hs := a.sound x hx
      rcases x with ⟨d, len, ow⟩
      unfold optBlock AV.block at hbx
      cases ow with
      | false => simp at hbx
      | true =>
        rcases d with _ | ⟨b', o'⟩
        · simp at hbx
        · simp only [if_true, List.mem_singleton] at hbx
          subst hbx
          unfold AVState.run at e ⊢
          rw [forList_append, e, ok_bind, forList_cons, hstep, ok_bind, forList_cons]
          have hd : AVState.step { s with views := s.views ++ [some (AV.ofOwn (some (b, 0)) l true)] } (.destroy c.alive.length) =
              .ok { heap := { s.heap with freed := s.heap.freed ++ [b] }, views := (s.views ++ [some (AV.ofOwn (some (b, 0)) l true)]).set c.alive.length none } := by
            unfold AVState.step
            dsimp only
            rw [hv, ok_bind]
            simp [AV.destroy, AV.release, AV.ofOwn, Heap.free, hb, hf, ok_bind]
          rw [hd, ok_bind, forList_cons]
          have hv2 : AVState.view ⟨{ s.heap with freed := s.heap.freed ++ [b] },
              (s.views ++ [some (AV.ofOwn (some (b, 0)) l true)]).set c.alive.length none⟩ v = .ok ⟨some (b, o'), len, true⟩ := by
            unfold AVState.view rd
            dsimp only
            rw [List.getElem?_set_ne (by omega), List.getElem?_append_left hvl, hvx']
            rfl
          unfold AVState.step
          dsimp only
          rw [hv2, ok_bind]
          simp [AV.destroy, AV.release, Heap.free, error_bind]
  · left
    unfold AVState.run at e ⊢
    rw [forList_append, e, ok_bind, forList_cons, hstep, ok_bind, forList_cons]
    unfold AVState.step
    dsimp only
    rw [hv, ok_bind]
    simp only [AV.destroy, AV.release, AV.ofOwn, Heap.free, if_neg hfree]
    simp [error_bind]

example : AVState.run {} ([.newNull, .destroy 0, .resize 0 3 id] : List (AVOp Nat)) = .error .ub :=
  arrayview_use_after_destroy_ub (ops := [.newNull, .destroy 0]) (op := .resize 0 3 id) rfl rfl (by decide)

/-- The caller has already given its only block to view 0. -/
example : AVState.run {} ([.callerAlloc 1 id, .newOwn (some (0, 0)) 1 true, .newOwn (some (0, 0)) 1 true, .destroy 1] : List (AVOp Nat)) = .error .ub ∨
    ∃ v, Caller.uses ⟨[1], [], [true]⟩ v ∧ AVState.run {} ([.callerAlloc 1 id, .newOwn (some (0, 0)) 1 true, .newOwn (some (0, 0)) 1 true, .destroy 1, .destroy v] :
      List (AVOp Nat)) = .error .ub :=
  arrayview_foreign_ownership_ub (ops := [.callerAlloc 1 id, .newOwn (some (0, 0)) 1 true]) (c := ⟨[1], [], [true]⟩) rfl 1 (by decide)

end Blasted
