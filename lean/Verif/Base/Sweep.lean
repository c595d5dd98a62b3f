import Verif.Base.SR

/-!
# Loops over stored positions, loops with an early exit, and substitution sweeps
-/

namespace Blasted

namespace SR
variable {V : Type _}

/-- The row in which position `p` is stored. -/
def rowOf (A : SR V) (p : Nat) : Nat := ((A.stored[p]?).map Prod.fst).getD 0

theorem Full.stored_getElem {A : SR V} {m : Nat} (hA : A.Full m) {p : Nat}
    (hp : p < A.browptr⟦A.nbrows⟧) : A.stored[p]? = some (A.rowOf p, p) := by
  have hl := hA.stored_length
  have h1 : A.stored[p]? = some A.stored[p] := List.getElem?_eq_getElem (by omega)
  have h2 : (A.stored.map Prod.snd)[p]? = some p := by
    rw [hA.stored_snd]; simp [hp]
  rw [List.getElem?_map, h1] at h2
  simp only [Option.map_some, Option.some.injEq] at h2
  rw [h1]
  unfold rowOf
  rw [h1]
  simp only [Option.map_some, Option.getD_some, Option.some.injEq]
  exact Prod.ext rfl h2

theorem Full.rowOf_spec {A : SR V} {m : Nat} (hA : A.Full m) {p : Nat}
    (hp : p < A.browptr⟦A.nbrows⟧) : A.rowOf p < A.nbrows ∧ A.InRow (A.rowOf p) p := by
  have h := List.mem_of_getElem? (hA.stored_getElem hp)
  exact mem_stored.mp h

theorem Full.row_unique {A : SR V} {m : Nat} (hA : A.Full m) {i j p : Nat} (hi : i < A.nbrows)
    (hj : j < A.nbrows) (h1 : A.InRow i p) (h2 : A.InRow j p) : i = j := by
  unfold InRow at *
  rcases Nat.lt_trichotomy i j with h | h | h
  · have := hA.ptr_le (i := i + 1) (j := j) h (by omega); omega
  · exact h
  · have := hA.ptr_le (i := j + 1) (j := i) h (by omega); omega

theorem Full.rowOf_eq {A : SR V} {m : Nat} (hA : A.Full m) {i p : Nat} (hi : i < A.nbrows)
    (h : A.InRow i p) : A.rowOf p = i := by
  have := hA.rowOf_spec (hA.lt_nnz hi h.2)
  exact hA.row_unique this.1 hi this.2 h

theorem Full.stored_eq {A : SR V} {m : Nat} (hA : A.Full m) :
    A.stored = (List.range A.browptr⟦A.nbrows⟧).map fun p => (A.rowOf p, p) := by
  apply List.ext_getElem?
  intro p
  by_cases hp : p < A.browptr⟦A.nbrows⟧
  · rw [hA.stored_getElem hp]; simp [hp]
  · have := hA.stored_length
    rw [List.getElem?_eq_none (by omega), List.getElem?_eq_none (by simp; omega)]

/-- The loop over rows and the entries of each row visits the positions `0, 1, 2, ...`. -/
theorem Full.nested_pos {A : SR V} {m : Nat} (hA : A.Full m) {σ : Type _}
    (body : Nat → Nat → σ → C σ) (s : σ) :
    forRange 0 A.nbrows (fun i s => do
      let lo ← rd A.browptr i
      let hi ← rd A.browptr (i + 1)
      forRange lo hi (body i) s) s
      = forRange 0 A.browptr⟦A.nbrows⟧ (fun p => body (A.rowOf p) p) s := by
  rw [hA.nested, hA.stored_eq, forList_map, forRange, Nat.sub_zero, List.range_eq_range']

/-- In a sorted matrix positions of a row are ordered as their columns. -/
theorem Sorted.lt_iff {A : SR V} (hS : A.Sorted) {i k l : Nat} (hi : i < A.nbrows)
    (hk : A.InRow i k) (hl : A.InRow i l) : A.bcolind⟦k⟧ < A.bcolind⟦l⟧ ↔ k < l := by
  constructor
  · intro h
    by_contra hc
    rcases Nat.lt_or_ge l k with h' | h'
    · have := hS i hi l k hl.1 h' hk.2; omega
    · have : k = l := by omega
      subst this; omega
  · intro h; exact hS i hi k l hk.1 h hl.2

/-- A form of `Sorted` that can be checked by evaluation. -/
theorem sorted_of_check {A : SR V} (h : ∀ i < A.nbrows, ∀ l < A.browptr⟦i + 1⟧, ∀ k < l,
    A.browptr⟦i⟧ ≤ k → A.bcolind⟦k⟧ < A.bcolind⟦l⟧) : A.Sorted :=
  fun i hi k l h1 h2 h3 => h i hi l h3 k h2 h1

theorem Sorted.inj {A : SR V} (hS : A.Sorted) {i k l : Nat} (hi : i < A.nbrows)
    (hk : A.InRow i k) (hl : A.InRow i l) (h : A.bcolind⟦k⟧ = A.bcolind⟦l⟧) : k = l := by
  have h1 := hS.lt_iff hi hk hl
  have h2 := hS.lt_iff hi hl hk
  omega

theorem HasDiag.inRow {A : SR V} (hD : A.HasDiag) {i : Nat} (hi : i < A.nbrows) :
    A.InRow i A.diagind⟦i⟧ := ⟨hD.diag_ge i hi, hD.diag_lt i hi⟩

/-- In a sorted matrix the entry of a stored position is the stored value. -/
theorem Full.entry_stored [AddCommMonoid V] {A : SR V} {m : Nat} (hA : A.Full m) (hS : A.Sorted)
    {i k : Nat} (hi : i < A.nbrows) (hk : A.InRow i k) : A.entry i A.bcolind⟦k⟧ = A.vals⟦k⟧ := by
  rw [hA.entry_eq hi, Finset.sum_eq_single k]
  · simp
  · intro l hl hne
    rw [Finset.mem_Ico] at hl
    rw [if_neg]
    intro h
    exact hne (hS.inj hi hl hk h)
  · intro h; exact absurd (Finset.mem_Ico.mpr hk) h

/-- The entry at a column that the row does not store is zero. -/
theorem Full.entry_unstored [AddCommMonoid V] {A : SR V} {m : Nat} (hA : A.Full m)
    {i j : Nat} (hi : i < A.nbrows) (h : ∀ k, A.InRow i k → A.bcolind⟦k⟧ ≠ j) :
    A.entry i j = 0 := by
  rw [hA.entry_eq hi]
  refine Finset.sum_eq_zero fun k hk => ?_
  rw [Finset.mem_Ico] at hk
  rw [if_neg (h k hk)]

end SR

section loops
variable {σ α : Type _}

theorem cassert_true {b : Bool} (h : b = true) : cassert b = .ok () := by rw [h]; rfl

/-- Partial correctness: if `m` returns normally, the value satisfies `P`. -/
def Post {β : Type _} (m : C β) (P : β → Prop) : Prop := ∀ a, m = .ok a → P a

theorem Post.bind {β γ : Type _} {m : C β} {f : β → C γ} {Q : γ → Prop} {P : β → Prop} (hm : Post m P)
    (hf : ∀ a, P a → Post (f a) Q) : Post (m >>= f) Q := by
  intro c hc
  cases h : m with
  | error e => rw [h] at hc; cases hc
  | ok a => rw [h, ok_bind] at hc; exact hf a (hm a h) c hc

/-- Bind without information about the first part. -/
theorem Post.bind' {β γ : Type _} {m : C β} {f : β → C γ} {Q : γ → Prop}
    (hf : ∀ a, Post (f a) Q) : Post (m >>= f) Q :=
  Post.bind (P := fun _ => True) (fun _ _ => trivial) fun a _ => hf a

theorem Post.pure {β : Type _} {a : β} {P : β → Prop} (h : P a) : Post (.ok a) P := by
  intro b hb; cases hb; exact h

theorem Post.err {β : Type _} {e : Fail} {P : β → Prop} : Post (.error e : C β) P := by
  intro b hb; cases hb

theorem Post.mono {β : Type _} {m : C β} {P Q : β → Prop} (h : Post m P) (hq : ∀ a, P a → Q a) :
    Post m Q := fun a ha => hq a (h a ha)

theorem Post.wr_length {β : Type _} {a : List β} {i : Nat} {v : β} {n : Nat} (h : a.length = n) :
    Post (wr a i v) (fun a' => a'.length = n) := by
  intro b hb
  unfold wr at hb
  split at hb
  · cases hb; simpa using h
  · cases hb

theorem Post.forList {ι : Type _} {l : List ι} {body : ι → σ → C σ} {s : σ} {P : σ → Prop} (h0 : P s)
    (hb : ∀ i s, P s → Post (body i s) P) : Post (forList l body s) P := by
  induction l generalizing s with
  | nil => exact Post.pure h0
  | cons i l ih =>
    rw [forList_cons]
    exact Post.bind (hb i s h0) fun s' hs' => ih hs'

theorem Post.forRange {lo hi : Nat} {body : Nat → σ → C σ} {s : σ} {P : σ → Prop} (h0 : P s)
    (hb : ∀ i s, P s → Post (body i s) P) : Post (forRange lo hi body s) P :=
  Post.forList h0 hb

theorem Ok.post {β : Type _} {m : C β} {P : β → Prop} (h : Ok m P) : Post m P := by
  intro a ha
  obtain ⟨b, hb, hP⟩ := h
  rw [hb] at ha; cases ha; exact hP

/-- C++ `for(i = lo; (i < hi) && cond; i++) body`. -/
def forWhile (lo hi : Nat) (cond : Nat → C Bool) (body : Nat → σ → C σ) (s : σ) : C σ := do
  let r ← forRange lo hi (fun i (st : Bool × σ) => do
    if st.1 then
      let b ← cond i
      if b then
        let s' ← body i st.2
        .ok (true, s')
      else .ok (false, st.2)
    else .ok st) (true, s)
  .ok r.2

theorem forRange_split {lo mid hi : Nat} (h1 : lo ≤ mid) (h2 : mid ≤ hi) (body : Nat → σ → C σ)
    (s : σ) : forRange lo hi body s = (forRange lo mid body s >>= forRange mid hi body) := by
  unfold forRange
  have : List.range' lo (hi - lo) = List.range' lo (mid - lo) ++ List.range' mid (hi - mid) := by
    have h := List.range'_append_1 (s := lo) (m := mid - lo) (n := hi - mid)
    rw [show lo + (mid - lo) = mid by omega, show mid - lo + (hi - mid) = hi - lo by omega] at h
    exact h.symm
  rw [this, forList_append]

/-- If the condition holds up to `c` and fails at `c`, the loop runs over `lo, ..., c-1`. -/
theorem forWhile_eq {lo c hi : Nat} {cond : Nat → C Bool} {body : Nat → σ → C σ} {s : σ}
    (h1 : lo ≤ c) (h2 : c ≤ hi) (ht : ∀ i, lo ≤ i → i < c → cond i = .ok true)
    (hf : c < hi → cond c = .ok false) :
    forWhile lo hi cond body s = forRange lo c body s := by
  unfold forWhile
  rw [forRange_split h1 h2]
  have hA : ∀ c', lo ≤ c' → c' ≤ c → ∀ s, forRange lo c' (fun i (st : Bool × σ) => do
      if st.1 then
        let b ← cond i
        if b then
          let s' ← body i st.2
          .ok (true, s')
        else .ok (false, st.2)
      else .ok st) (true, s) = (do let s' ← forRange lo c' body s; .ok (true, s')) := by
    intro c' hc'
    induction c', hc' using Nat.le_induction with
    | base => intro _ s; simp
    | succ c' hc' ih =>
      intro hle s
      rw [forRange_succ_right hc', forRange_succ_right hc', ih (by omega)]
      cases forRange lo c' body s with
      | error e => rfl
      | ok s' => simp [ht c' hc' (by omega)]
  rw [hA c h1 (Nat.le_refl _)]
  cases forRange lo c body s with
  | error e => rfl
  | ok s' =>
    simp only [ok_bind]
    by_cases hc : c = hi
    · subst hc; simp
    · have hlt : c < hi := by omega
      have : forRange c hi (fun i (st : Bool × σ) => do
        if st.1 then
          let b ← cond i
          if b then
            let s' ← body i st.2
            .ok (true, s')
          else .ok (false, st.2)
        else .ok st) (true, s') = .ok (false, s') := by
        rw [forRange_split (mid := c + 1) (by omega) (by omega), forRange_succ_right (Nat.le_refl _)]
        simp only [forRange_self, ok_bind, if_true, hf hlt, Bool.false_eq_true, if_false]
        obtain ⟨r, e, h⟩ := forRange_ok (lo := c + 1) (hi := hi) (body := fun i (st : Bool × σ) => do
          if st.1 then
            let b ← cond i
            if b then
              let s' ← body i st.2
              .ok (true, s')
            else .ok (false, st.2)
          else .ok st) (s := (false, s')) (fun _ r => r = (false, s')) (by omega) rfl (by
            rintro i st _ _ rfl
            exact Ok.pure rfl)
        rw [e, h]
      rw [this]
      rfl

/-- The value a position receives in a sweep in which it is computed from earlier positions only:
after the sweep every position satisfies its own equation. -/
theorem forward_sweep [Zero α] {N : Nat} {body : Nat → List α → C (List α)} {x : List α}
    (f : Nat → (Nat → α) → α) (hx : x.length = N)
    (hdep : ∀ p < N, ∀ g h : Nat → α, (∀ q < p, g q = h q) → f p g = f p h)
    (hbody : ∀ p < N, ∀ y : List α, y.length = N → body p y = .ok (y.set p (f p (get0 y)))) :
    Ok (forRange 0 N body x) (fun y => y.length = N ∧ ∀ p < N, y⟦p⟧ = f p (get0 y)) := by
  refine forRange_ok (fun k y => y.length = N ∧ ∀ p < k, p < N → y⟦p⟧ = f p (get0 y)) (Nat.zero_le _)
    ⟨hx, fun p hp => by omega⟩ ?_ |>.mono fun y hy => ⟨hy.1, fun p hp => hy.2 p hp hp⟩
  rintro k y _ hk ⟨hl, hI⟩
  rw [hbody k hk y hl]
  refine Ok.pure ⟨by simp [hl], fun p hp hpN => ?_⟩
  have key : f p (get0 (y.set k (f k (get0 y)))) = f p (get0 y) := by
    refine hdep p hpN _ _ fun q hq => ?_
    rw [get0_set_ne (by omega)]
  rw [key]
  by_cases h : p = k
  · subst h; rw [get0_set_self (by omega)]
  · rw [get0_set_ne (Ne.symm h)]
    exact hI p (by omega) hpN

/-- Mirror image of `forward_sweep`. -/
theorem backward_sweep [Zero α] {N : Nat} {body : Nat → List α → C (List α)} {x : List α}
    (f : Nat → (Nat → α) → α) (hx : x.length = N)
    (hdep : ∀ p < N, ∀ g h : Nat → α, (∀ q, p < q → g q = h q) → f p g = f p h)
    (hbody : ∀ p < N, ∀ y : List α, y.length = N → body p y = .ok (y.set p (f p (get0 y)))) :
    Ok (forDown 0 N body x) (fun y => y.length = N ∧ ∀ p < N, y⟦p⟧ = f p (get0 y)) := by
  refine forDown_ok (fun k y => y.length = N ∧ ∀ p, k ≤ p → p < N → y⟦p⟧ = f p (get0 y)) (Nat.zero_le _)
    ⟨hx, fun p hp => by omega⟩ ?_ |>.mono fun y hy => ⟨hy.1, fun p hp => hy.2 p (Nat.zero_le _) hp⟩
  rintro k y _ hk ⟨hl, hI⟩
  rw [hbody k hk y hl]
  refine Ok.pure ⟨by simp [hl], fun p hp hpN => ?_⟩
  have key : f p (get0 (y.set k (f k (get0 y)))) = f p (get0 y) := by
    refine hdep p hpN _ _ fun q hq => ?_
    rw [get0_set_ne (by omega)]
  rw [key]
  by_cases h : p = k
  · subst h; rw [get0_set_self (by omega)]
  · rw [get0_set_ne (Ne.symm h)]
    exact hI p (by omega) hpN

/-- A system in which position `p` depends on earlier positions only has at most one solution. -/
theorem forward_unique {N : Nat} (f : Nat → (Nat → α) → α) {g h : Nat → α}
    (hdep : ∀ p < N, ∀ g h : Nat → α, (∀ q < p, g q = h q) → f p g = f p h)
    (hg : ∀ p < N, g p = f p g) (hh : ∀ p < N, h p = f p h) : ∀ p < N, g p = h p := by
  intro p
  induction p using Nat.strong_induction_on with
  | _ p ih =>
    intro hp
    rw [hg p hp, hh p hp]
    exact hdep p hp g h fun q hq => ih q hq (by omega)

end loops
end Blasted
