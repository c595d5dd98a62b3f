import Mathlib.Algebra.BigOperators.Intervals
import Mathlib.Algebra.BigOperators.Group.List.Basic
import Mathlib.Data.List.Perm.Basic
import Mathlib.Data.List.Range

/-!
# Outcomes, memory and loops

The vocabulary in which the C++ code is transcribed. Nothing here is specific to BLASTed.

* `C α` is the type of results of a C++ computation: a value, or one of the failures of `Fail`.
* `rd`/`wr` are checked array accesses: going outside the array is undefined behaviour.
* `forRange`, `forDown`, `forList` are the C++ `for` loops.
-/

namespace Blasted

/-- The ways a C++ call can fail to return normally. -/
inductive Fail where
  /-- undefined behaviour (out-of-bounds access, read of an unset location, ...) -/
  | ub
  /-- `std::abort` or a failing `assert` -/
  | abort
  /-- a thrown C++ exception, with its type and message -/
  | throw (type : String) (msg : String)
  /-- the fuel given to the model of an unbounded loop is exhausted: the loop has not terminated yet -/
  | fuel
  /-- a division by zero or the inversion of a singular block: IEEE arithmetic yields inf or NaN, which
  the exact arithmetic of the model does not have -/
  | divzero
  /-- not a failure of the program: the given order is not an order of the iterations of the parallel loop -/
  | order
deriving Repr, DecidableEq

/-- Result of a C++ computation. -/
abbrev C (α : Type _) := Except Fail α

/-- C++ `a[i]` as an rvalue. Outside of the array: undefined behaviour. -/
def rd {α : Type _} (a : List α) (i : Nat) : C α :=
  match a[i]? with
  | some v => .ok v
  | none => .error .ub

/-- C++ `a[i] = v`. Outside of the array: undefined behaviour. -/
def wr {α : Type _} (a : List α) (i : Nat) (v : α) : C (List α) :=
  if i < a.length then .ok (a.set i v) else .error .ub

/-- A C++ `assert(b)` (asserts are considered active). -/
def cassert (b : Bool) : C Unit := if b then .ok () else .error .abort

/-- A loop visiting the elements of `l` in order: `body i s` is the loop body executed for index
`i` in state `s`. -/
def forList {ι σ : Type _} (l : List ι) (body : ι → σ → C σ) (s : σ) : C σ :=
  l.foldlM (fun s i => body i s) s

/-- A parallel loop `for(i = 0; i < n; i++) body` whose iterations execute in the order `ord`. A list `ord` in
which the iterations `0, ..., n-1` do not occur exactly once each is not an execution of the loop. -/
def parFor {σ : Type _} (n : Nat) (ord : List Nat) (body : Nat → σ → C σ) (s : σ) : C σ :=
  if ord.Perm (List.range n) then forList ord body s else .error .order

theorem parFor_eq {σ : Type _} {n : Nat} {ord : List Nat} (h : ord.Perm (List.range n))
    (body : Nat → σ → C σ) (s : σ) : parFor n ord body s = forList ord body s := if_pos h

/-- C++ `for(i = lo; i < hi; i++) body`. -/
def forRange {σ : Type _} (lo hi : Nat) (body : Nat → σ → C σ) (s : σ) : C σ :=
  forList (List.range' lo (hi - lo)) body s

/-- C++ `for(i = hi-1; i >= lo; i--) body`. -/
def forDown {σ : Type _} (lo hi : Nat) (body : Nat → σ → C σ) (s : σ) : C σ :=
  forList (List.range' lo (hi - lo)).reverse body s

/-- Total view of an array, used in specifications and only at indices inside the array. -/
def get0 {α : Type _} [Zero α] (a : List α) (i : Nat) : α := a.getD i 0

@[inherit_doc] notation:max a "⟦" i "⟧" => get0 a i

/-- `m` returns normally and the returned value satisfies `P` (total correctness). -/
def Ok {α : Type _} (m : C α) (P : α → Prop) : Prop := ∃ a, m = .ok a ∧ P a

/-! ### Basic lemmas -/

section basic
variable {α β σ ι : Type _}

theorem rd_eq [Zero α] {a : List α} {i : Nat} (h : i < a.length) : rd a i = .ok a⟦i⟧ := by
  simp [rd, get0, h]

theorem rd_ub {a : List α} {i : Nat} (h : a.length ≤ i) : rd a i = .error .ub := by
  simp [rd, h]

theorem wr_eq {a : List α} {i : Nat} {v : α} (h : i < a.length) : wr a i v = .ok (a.set i v) := by
  simp [wr, h]

theorem wr_ub {a : List α} {i : Nat} {v : α} (h : a.length ≤ i) : wr a i v = .error .ub := by
  simp [wr, Nat.not_lt.mpr h]

theorem get0_eq_getElem [Zero α] {a : List α} {i : Nat} (h : i < a.length) : a⟦i⟧ = a[i] := by
  simp [get0, h]

theorem get0_of_le [Zero α] {a : List α} {i : Nat} (h : a.length ≤ i) : a⟦i⟧ = 0 := by
  simp [get0, h]

theorem get0_set [Zero α] (a : List α) (i j : Nat) (v : α) :
    (a.set i v)⟦j⟧ = if i = j ∧ i < a.length then v else a⟦j⟧ := by
  unfold get0
  simp only [List.getD_eq_getElem?_getD, List.getElem?_set]
  by_cases hij : i = j
  · subst hij
    by_cases hl : i < a.length <;> simp [hl]
  · simp [hij]

theorem get0_set_self [Zero α] {a : List α} {i : Nat} {v : α} (h : i < a.length) :
    (a.set i v)⟦i⟧ = v := by simp [get0_set, h]

theorem get0_set_ne [Zero α] {a : List α} {i j : Nat} {v : α} (h : i ≠ j) :
    (a.set i v)⟦j⟧ = a⟦j⟧ := by simp [get0_set, h]

theorem ext_get0 [Zero α] {a b : List α} (hl : a.length = b.length)
    (h : ∀ i < a.length, a⟦i⟧ = b⟦i⟧) : a = b := by
  apply List.ext_getElem hl
  intro i h1 h2
  have := h i h1
  rwa [get0_eq_getElem h1, get0_eq_getElem h2] at this

theorem get0_replicate [Zero α] (n i : Nat) : (List.replicate n (0 : α))⟦i⟧ = 0 := by
  unfold get0; simp [List.getD_eq_getElem?_getD, List.getElem?_replicate]; split <;> simp

theorem get0_replicate_of_lt [Zero α] {n i : Nat} {v : α} (h : i < n) :
    (List.replicate n v)⟦i⟧ = v := by
  unfold get0; simp [List.getD_eq_getElem?_getD, h]

theorem get0_map_range [Zero α] {n i : Nat} (f : Nat → α) (h : i < n) :
    ((List.range n).map f)⟦i⟧ = f i := by
  unfold get0; simp [List.getD_eq_getElem?_getD, h]

theorem get0_append_left [Zero α] {a b : List α} {i : Nat} (h : i < a.length) :
    (a ++ b)⟦i⟧ = a⟦i⟧ := by
  unfold get0; simp [List.getD_eq_getElem?_getD, List.getElem?_append, h]

theorem get0_append_right [Zero α] {a b : List α} {i : Nat} (h : a.length ≤ i) :
    (a ++ b)⟦i⟧ = b⟦i - a.length⟧ := by
  unfold get0; simp [List.getD_eq_getElem?_getD, List.getElem?_append, Nat.not_lt.mpr h]

@[simp] theorem ok_bind (a : α) (f : α → C β) : ((Except.ok a : C α) >>= f) = f a := rfl
@[simp] theorem error_bind (e : Fail) (f : α → C β) :
    ((Except.error e : C α) >>= f) = .error e := rfl
@[simp] theorem ok_map (a : α) (f : α → β) : f <$> (Except.ok a : C α) = .ok (f a) := rfl
theorem pure_ok (a : α) : (pure a : C α) = .ok a := rfl

theorem Ok.pure {a : α} {P : α → Prop} (h : P a) : Ok (.ok a : C α) P := ⟨a, rfl, h⟩

theorem Ok.of_eq {m : C α} {a : α} (h : m = .ok a) : Ok m (· = a) := ⟨a, h, rfl⟩

theorem Ok.bind {m : C α} {f : α → C β} {P : α → Prop} {Q : β → Prop}
    (hm : Ok m P) (hf : ∀ a, P a → Ok (f a) Q) : Ok (m >>= f) Q := by
  obtain ⟨a, rfl, ha⟩ := hm
  exact hf a ha

theorem Ok.mono {m : C α} {P Q : α → Prop} (hm : Ok m P) (h : ∀ a, P a → Q a) : Ok m Q := by
  obtain ⟨a, e, ha⟩ := hm
  exact ⟨a, e, h a ha⟩

theorem Ok.and {m : C α} {P Q : α → Prop} (hm : Ok m P) (h : Ok m Q) :
    Ok m (fun a => P a ∧ Q a) := by
  obtain ⟨a, e, ha⟩ := hm
  obtain ⟨b, e', hb⟩ := h
  rw [e] at e'; cases e'
  exact ⟨a, e, ha, hb⟩

theorem Ok.ok_iff {a : α} {P : α → Prop} : Ok (.ok a : C α) P ↔ P a := by
  constructor
  · rintro ⟨b, h, hb⟩; cases h; exact hb
  · exact Ok.pure

/-! ### Loop rules -/

@[simp] theorem forList_nil (body : ι → σ → C σ) (s : σ) : forList [] body s = .ok s := rfl

@[simp] theorem forList_cons (i : ι) (l : List ι) (body : ι → σ → C σ) (s : σ) :
    forList (i :: l) body s = (body i s >>= forList l body) := by
  simp [forList, List.foldlM_cons]; rfl

theorem forList_append (l₁ l₂ : List ι) (body : ι → σ → C σ) (s : σ) :
    forList (l₁ ++ l₂) body s = (forList l₁ body s >>= forList l₂ body) := by
  simp [forList, List.foldlM_append]; rfl

/-- Invariant rule over a list: `I done s` where `done` is the prefix already executed. -/
theorem forList_ok {l : List ι} {body : ι → σ → C σ} {s : σ} (I : List ι → σ → Prop)
    (h0 : I [] s)
    (hstep : ∀ done i rest s, l = done ++ i :: rest → I done s →
      Ok (body i s) (I (done ++ [i]))) :
    Ok (forList l body s) (I l) := by
  suffices H : ∀ rest done s, l = done ++ rest → I done s → Ok (forList rest body s) (I l) from
    H l [] s rfl h0
  intro rest
  induction rest with
  | nil => intro done s hl hI; simp at hl; subst hl; exact Ok.pure hI
  | cons i rest ih =>
    intro done s hl hI
    rw [forList_cons]
    refine (hstep done i rest s hl hI).bind fun s' hs' => ?_
    exact ih (done ++ [i]) s' (by simp [hl]) hs'

/-- Invariant rule for `for(i = lo; i < hi; i++)`. -/
theorem forRange_ok {lo hi : Nat} {body : Nat → σ → C σ} {s : σ} (I : Nat → σ → Prop)
    (hle : lo ≤ hi) (h0 : I lo s)
    (hstep : ∀ i s, lo ≤ i → i < hi → I i s → Ok (body i s) (I (i + 1))) :
    Ok (forRange lo hi body s) (I hi) := by
  obtain ⟨n, rfl⟩ := Nat.exists_eq_add_of_le hle
  simp only [forRange, Nat.add_sub_cancel_left]
  suffices H : ∀ m k s, k + m = lo + n → lo ≤ k → I k s →
      Ok (forList (List.range' k m) body s) (I (lo + n)) from H n lo s rfl (Nat.le_refl _) h0
  intro m
  induction m with
  | zero => intro k s hk _ hI; simp at hk; subst hk; exact Ok.pure hI
  | succ m ih =>
    intro k s hk hlk hI
    rw [List.range'_succ, forList_cons]
    refine (hstep k s hlk (by omega) hI).bind fun s' hs' => ?_
    exact ih (k + 1) s' (by omega) (by omega) hs'

/-- Invariant rule for `for(i = hi-1; i >= lo; i--)`; `I i` holds when all indices `≥ i` are done. -/
theorem forDown_ok {lo hi : Nat} {body : Nat → σ → C σ} {s : σ} (I : Nat → σ → Prop)
    (hle : lo ≤ hi) (h0 : I hi s)
    (hstep : ∀ i s, lo ≤ i → i < hi → I (i + 1) s → Ok (body i s) (I i)) :
    Ok (forDown lo hi body s) (I lo) := by
  obtain ⟨n, rfl⟩ := Nat.exists_eq_add_of_le hle
  simp only [forDown, Nat.add_sub_cancel_left]
  clear hle
  induction n generalizing s with
  | zero => simpa using Ok.pure h0
  | succ n ih =>
    rw [List.range'_concat, List.reverse_append]
    simp only [List.reverse_cons, List.reverse_nil, List.nil_append, List.singleton_append,
      forList_cons, Nat.one_mul]
    refine (hstep (lo + n) s (by omega) (by omega) h0).bind fun s' hs' => ?_
    exact ih hs' (fun i s h1 h2 => hstep i s h1 (by omega))

/-- A loop that always succeeds is a fold. -/
theorem forList_eq_foldl {l : List ι} {body : ι → σ → C σ} {s : σ} {g : σ → ι → σ}
    (h : ∀ i ∈ l, ∀ s, body i s = .ok (g s i)) : forList l body s = .ok (l.foldl g s) := by
  induction l generalizing s with
  | nil => rfl
  | cons i l ih =>
    rw [forList_cons, h i (by simp), ok_bind, List.foldl_cons]
    exact ih (fun j hj => h j (by simp [hj]))

theorem forList_congr {l : List ι} {body body' : ι → σ → C σ} {s : σ}
    (h : ∀ i ∈ l, ∀ s, body i s = body' i s) : forList l body s = forList l body' s := by
  induction l generalizing s with
  | nil => rfl
  | cons i l ih =>
    rw [forList_cons, forList_cons, h i (by simp)]
    congr 1; funext s'
    exact ih (fun j hj => h j (by simp [hj]))

theorem forRange_congr {lo hi : Nat} {body body' : Nat → σ → C σ} {s : σ}
    (h : ∀ i, lo ≤ i → i < hi → ∀ s, body i s = body' i s) :
    forRange lo hi body s = forRange lo hi body' s := by
  refine forList_congr fun i hi s => ?_
  simp [List.mem_range'_1] at hi
  exact h i hi.1 (by omega) s

@[simp] theorem forRange_self (lo : Nat) (body : Nat → σ → C σ) (s : σ) :
    forRange lo lo body s = .ok s := by simp [forRange]

theorem forRange_succ_right {lo hi : Nat} (h : lo ≤ hi) (body : Nat → σ → C σ) (s : σ) :
    forRange lo (hi + 1) body s = (forRange lo hi body s >>= body hi) := by
  obtain ⟨n, rfl⟩ := Nat.exists_eq_add_of_le h
  have : lo + n + 1 - lo = n + 1 := by omega
  simp only [forRange, this, Nat.add_sub_cancel_left, List.range'_concat, forList_append, Nat.one_mul]
  congr 1; funext s'
  rw [forList_cons]
  cases body (lo + n) s' <;> rfl

open Finset in
/-- A summation loop. -/
theorem forRange_sum [AddCommMonoid α] {lo hi : Nat} (hle : lo ≤ hi) {f : Nat → C α} {g : Nat → α}
    {s : α} (h : ∀ i, lo ≤ i → i < hi → f i = .ok (g i)) :
    forRange lo hi (fun i s => do let t ← f i; .ok (s + t)) s = .ok (s + ∑ i ∈ Ico lo hi, g i) := by
  have := forRange_ok (body := fun i s => do let t ← f i; .ok (s + t)) (s := s)
    (fun k s' => s' = s + ∑ i ∈ Ico lo k, g i) hle (by simp) (by
      intro i s' h1 h2 hs
      simp only [h i h1 h2, ok_bind]
      refine Ok.pure ?_
      rw [hs, sum_Ico_succ_top h1, add_assoc])
  obtain ⟨a, e, rfl⟩ := this
  exact e

end basic

/-! ### Parallel loops with disjoint writes

`own c` is the iteration that owns cell `c`. If iteration `i` started in any memory that agrees with
the initial one on the cells it owns writes `f c` to each cell it owns and touches nothing else,
then the loop gives the same result for every order of the iterations. -/

theorem forList_own {α : Type _} [Zero α] {l : List Nat} {body : Nat → List α → C (List α)}
    {y : List α} (own : Nat → Nat) (f : Nat → α) (hnd : l.Nodup)
    (hbody : ∀ i ∈ l, ∀ y' : List α, y'.length = y.length →
      (∀ c < y.length, own c = i → y'⟦c⟧ = y⟦c⟧) →
      Ok (body i y') (fun y'' => y''.length = y.length ∧
        ∀ c < y.length, y''⟦c⟧ = if own c = i then f c else y'⟦c⟧)) :
    Ok (forList l body y) (fun y' => y'.length = y.length ∧
      ∀ c < y.length, y'⟦c⟧ = if own c ∈ l then f c else y⟦c⟧) := by
  refine (forList_ok (fun done y' => y'.length = y.length ∧
      ∀ c < y.length, y'⟦c⟧ = if own c ∈ done then f c else y⟦c⟧) ⟨rfl, by simp⟩ ?_)
  rintro done i rest y' hl ⟨hlen, hI⟩
  have hi : i ∉ done := by
    rw [hl] at hnd
    have := List.nodup_append.mp hnd
    intro hmem
    exact this.2.2 i hmem i (by simp) rfl
  refine (hbody i (by simp [hl]) y' hlen ?_).mono ?_
  · intro c hc hoc
    rw [hI c hc, if_neg (by rw [hoc]; exact hi)]
  · rintro y'' ⟨hlen', h2⟩
    refine ⟨hlen', fun c hc => ?_⟩
    rw [h2 c hc]
    by_cases hoc : own c = i
    · simp [hoc]
    · rw [if_neg hoc, hI c hc]
      simp [hoc]

/-- One cell per iteration. -/
theorem forList_par {α : Type _} [Zero α] {l : List Nat} {body : Nat → List α → C (List α)}
    {y : List α} (f : Nat → α) (hnd : l.Nodup) (hlt : ∀ i ∈ l, i < y.length)
    (hbody : ∀ i ∈ l, ∀ y' : List α, y'.length = y.length → y'⟦i⟧ = y⟦i⟧ →
      body i y' = .ok (y'.set i (f i))) :
    Ok (forList l body y) (fun y' => y'.length = y.length ∧
      ∀ c < y.length, y'⟦c⟧ = if c ∈ l then f c else y⟦c⟧) := by
  refine forList_own id f hnd ?_
  intro i hi y' hlen hown
  rw [hbody i hi y' hlen (hown i (hlt i hi) rfl)]
  refine Ok.pure ⟨by simp [hlen], fun c hc => ?_⟩
  have := hlt i hi
  simp only [id]
  rw [get0_set]
  by_cases h : c = i
  · subst h; simp [hlen, this]
  · simp [h, Ne.symm h]

end Blasted
