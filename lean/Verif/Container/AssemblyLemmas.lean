import Verif.Container.AssemblyModel
import Verif.Reorder.Lemmas
import Mathlib.Tactic.Linarith
import Mathlib.Tactic.Ring

/-!
# Lemmas for the assembly operations
-/

namespace Blasted

open Finset

variable {K : Type}

/-! ### Loops -/

theorem forRange_id {σ : Type _} {lo hi : Nat} {body : Nat → σ → C σ} {s : σ}
    (h : ∀ i, lo ≤ i → i < hi → body i s = .ok s) : forRange lo hi body s = .ok s := by
  rcases Nat.lt_or_ge hi lo with hlt | hle
  · have : hi - lo = 0 := by omega
    simp [forRange, this]
  · obtain ⟨v, hv, hv'⟩ := forRange_ok (body := body) (s := s) (fun _ t => t = s) hle rfl
      (fun i t h1 h2 ht => by subst ht; rw [h i h1 h2]; exact Ok.pure rfl)
    rw [hv, hv']

theorem forRange_zero_eq {σ : Type _} (n : Nat) (body : Nat → σ → C σ) (s : σ) :
    forRange 0 n body s = forList (List.range n) body s := by
  simp [forRange, List.range_eq_range']

/-- A search loop that acts on the one matching position. -/
theorem forRange_find {σ : Type _} {lo hi p : Nat} (c : Nat → Nat) (j : Nat) (act : Nat → σ → C σ) (s : σ)
    (h1 : lo ≤ p) (h2 : p < hi) (hp : c p = j) (hu : ∀ k, lo ≤ k → k < hi → c k = j → k = p) :
    forRange lo hi (fun k (s : σ × Bool) =>
        if c k = j then do let v ← act k s.1; .ok (v, true) else .ok s) (s, false) =
      (act p s >>= fun v => .ok (v, true)) := by
  rw [forRange_split h1 (Nat.le_of_lt h2), forRange_id (lo := lo) (hi := p), ok_bind,
    forRange_split (mid := p + 1) (by omega) (by omega)]
  · have : forRange p (p + 1) (fun k (s : σ × Bool) =>
        if c k = j then do let v ← act k s.1; .ok (v, true) else .ok s) (s, false) =
        (act p s >>= fun v => .ok (v, true)) := by
      rw [forRange_succ_right (Nat.le_refl _), forRange_self, ok_bind, if_pos hp]
    rw [this]
    cases hact : act p s with
    | error e => rfl
    | ok v =>
      show forRange (p + 1) hi _ (v, true) = Except.ok (v, true)
      refine forRange_id fun k hk1 hk2 => ?_
      rw [if_neg]
      intro hc
      have := hu k (by omega) hk2 hc
      omega
  · intro k hk1 hk2
    rw [if_neg]
    intro hc
    have := hu k hk1 (by omega) hc
    omega

theorem forRange_find_none {σ : Type _} {lo hi : Nat} (c : Nat → Nat) (j : Nat) (act : Nat → σ → C σ)
    (s : σ) (hu : ∀ k, lo ≤ k → k < hi → c k ≠ j) :
    forRange lo hi (fun k (s : σ × Bool) =>
        if c k = j then do let v ← act k s.1; .ok (v, true) else .ok s) (s, false) = .ok (s, false) :=
  forRange_id fun k h1 h2 => if_neg (hu k h1 h2)

/-! ### Cells of stored and not stored positions -/

section cells
variable [AddCommMonoid K]

theorem SR.Full.cell_stored {A : SR K} {m : Nat} (hA : A.Full m) (hS : A.Sorted) {i k : Nat}
    (hi : i < A.nbrows) (hk : A.InRow i k) (m' c : Nat) :
    A.cell m' i A.bcolind⟦k⟧ c = A.vals⟦k * m' + c⟧ := by
  rw [SR.cell, hA.end_eq i hi, Finset.sum_eq_single k]
  · simp
  · intro l hl hne
    rw [Finset.mem_Ico] at hl
    rw [if_neg]
    intro h
    exact hne (hS.inj hi hl hk h)
  · intro h
    exact absurd (Finset.mem_Ico.mpr hk) h

theorem SR.Full.cell_unstored {A : SR K} {m : Nat} (hA : A.Full m) {i j : Nat}
    (hi : i < A.nbrows) (h : ∀ k, A.InRow i k → A.bcolind⟦k⟧ ≠ j) (m' c : Nat) : A.cell m' i j c = 0 := by
  rw [SR.cell, hA.end_eq i hi]
  refine Finset.sum_eq_zero fun k hk => ?_
  rw [Finset.mem_Ico] at hk
  rw [if_neg (h k hk)]

end cells

/-- Block `(i, j)` is stored. -/
def SR.Stores (A : SR K) (i j : Nat) : Prop := ∃ k, A.InRow i k ∧ A.bcolind⟦k⟧ = j

/-- `v` are values of the same matrix structure with the denoted blocks `T`: what is stored is given by `T`, what
is not stored stays zero. -/
def SR.ValuesAre [AddCommMonoid K] (A : SR K) (m : Nat) (v : List K) (T : Nat → Nat → Nat → K) : Prop :=
  ({ A with vals := v } : SR K).Full m ∧
  ∀ i < A.nbrows, ∀ j c, c < m → (A.Stores i j → ({ A with vals := v } : SR K).cell m i j c = T i j c) ∧
    (¬ A.Stores i j → ({ A with vals := v } : SR K).cell m i j c = 0)

theorem SR.Full.with_vals {A : SR K} {m : Nat} (hA : A.Full m) {v : List K} (hv : v.length = A.vals.length) :
    ({ A with vals := v } : SR K).Full m :=
  { ptr_len := hA.ptr_len, ptr_zero := hA.ptr_zero, ptr_mono := hA.ptr_mono, end_len := hA.end_len
    end_eq := hA.end_eq, ind_len := hA.ind_len, val_len := hv.trans hA.val_len, col_lt := hA.col_lt }

theorem SR.Full.valuesAre [AddCommMonoid K] {A : SR K} {m : Nat} (hA : A.Full m) (hS : A.Sorted) {v : List K}
    (hv : v.length = A.vals.length) {T : Nat → Nat → Nat → K}
    (h : ∀ i < A.nbrows, ∀ k, A.InRow i k → ∀ c < m, v⟦k * m + c⟧ = T i A.bcolind⟦k⟧ c) :
    A.ValuesAre m v T := by
  have hB := hA.with_vals hv
  have hS' : ({ A with vals := v } : SR K).Sorted := hS
  refine ⟨hB, fun i hi j c hc => ⟨?_, ?_⟩⟩
  · rintro ⟨k, hk, rfl⟩
    rw [← h i hi k hk c hc]
    exact hB.cell_stored hS' (i := i) (k := k) hi hk m c
  · intro hn
    exact hB.cell_unstored (i := i) hi (fun k hk hkj => hn ⟨k, hk, hkj⟩) m c

/-- Positions of different blocks do not overlap. -/
theorem blk_ne {m k k' c c' : Nat} (hc : c < m) (hc' : c' < m) (h : k * m + c = k' * m + c') :
    k = k' ∧ c = c' := by
  have e1 : (k * m + c) / m = k := by
    rw [Nat.mul_comm, Nat.mul_add_div (by omega), Nat.div_eq_of_lt hc]; omega
  have e2 : (k' * m + c') / m = k' := by
    rw [Nat.mul_comm, Nat.mul_add_div (by omega), Nat.div_eq_of_lt hc']; omega
  have : k = k' := by rw [← e1, ← e2, h]
  subst this
  exact ⟨rfl, by omega⟩

/-! ### Atomic additions -/

section adds
variable [CommRing K]

/-- The total added to position `p`. -/
def addsAt (adds : List (Nat × K)) (p : Nat) : K := (adds.map fun e => if e.1 = p then e.2 else 0).sum

theorem addsAt_perm {l l' : List (Nat × K)} (h : l.Perm l') (p : Nat) : addsAt l p = addsAt l' p :=
  (h.map _).sum_eq

theorem addsAt_flatMap {ι : Type} (l : List ι) (g : ι → List (Nat × K)) (p : Nat) :
    addsAt (l.flatMap g) p = (l.map fun i => addsAt (g i) p).sum := by
  induction l with
  | nil => rfl
  | cons i l ih =>
    rw [List.flatMap_cons, List.map_cons, List.sum_cons, ← ih]
    simp [addsAt]

theorem atomicAdds_ok (adds : List (Nat × K)) (vals : List K) (h : ∀ e ∈ adds, e.1 < vals.length) :
    Ok (forList adds atomicAdd vals) (fun v => v.length = vals.length ∧ ∀ p < vals.length,
      v⟦p⟧ = vals⟦p⟧ + addsAt adds p) := by
  induction adds generalizing vals with
  | nil => exact Ok.pure ⟨rfl, by simp [addsAt]⟩
  | cons e l ih =>
    have he := h e (by simp)
    rw [forList_cons]
    have h1 : atomicAdd e vals = .ok (vals.set e.1 (vals⟦e.1⟧ + e.2)) := by
      simp only [atomicAdd, rd_eq he, ok_bind, wr_eq he]
    rw [h1, ok_bind]
    refine (ih _ (fun e' he' => by rw [List.length_set]; exact h e' (by simp [he']))).mono ?_
    rintro v ⟨hl, hv⟩
    rw [List.length_set] at hl
    refine ⟨hl, fun p hp => ?_⟩
    rw [hv p (by rw [List.length_set]; exact hp)]
    by_cases hep : e.1 = p
    · subst hep
      rw [get0_set_self hp]
      simp [addsAt, add_assoc]
    · rw [get0_set_ne hep]
      simp [addsAt, hep]

/-- The additions made by a call on block `k`. -/
def blockAdds (m k : Nat) (buffer : List K) : List (Nat × K) :=
  (List.range m).map fun c => (k * m + c, buffer⟦c⟧)

theorem addsAt_block {m k k' c : Nat} (hc : c < m) (buffer : List K) :
    addsAt (blockAdds m k buffer) (k' * m + c) = if k = k' then buffer⟦c⟧ else 0 := by
  rw [addsAt, blockAdds, List.map_map]
  have : ((List.range m).map ((fun e : Nat × K => if e.1 = k' * m + c then e.2 else 0) ∘
      fun c => (k * m + c, buffer⟦c⟧))).sum = ∑ t ∈ range m, if k * m + t = k' * m + c then buffer⟦t⟧ else 0 := rfl
  rw [this, Finset.sum_eq_single c]
  · by_cases h : k = k'
    · subst h; simp
    · rw [if_neg h, if_neg]
      intro hh
      exact h (blk_ne hc hc hh).1
  · intro t ht hne
    rw [if_neg]
    intro hh
    exact hne (blk_ne (mem_range.mp ht) hc hh).2
  · intro h; exact absurd (mem_range.mpr hc) h

theorem forRange_adds (n : Nat) (f : Nat → Nat × K) (vals : List K) :
    forRange 0 n (fun k vals => atomicAdd (f k) vals) vals =
      forList ((List.range n).map f) atomicAdd vals := by
  rw [forRange_zero_eq, forList_map]

/-! ### Scalar class: a run of consecutive columns -/

/-- Every column `startj, …, startj+bsj-1` is stored in row `i`, the first at position `p`. -/
structure SR.Run (A : SR K) (i startj bsj p : Nat) : Prop where
  inRow : ∀ k < bsj, A.InRow i (p + k)
  col : ∀ k < bsj, A.bcolind⟦p + k⟧ = startj + k

omit [CommRing K] in
theorem SR.Sorted.run {A : SR K} (hS : A.Sorted) {i startj bsj : Nat} (hi : i < A.nbrows) (hpos : 0 < bsj)
    (h : ∀ k < bsj, A.Stores i (startj + k)) : ∃ p, A.Run i startj bsj p := by
  obtain ⟨p, hp, hpc⟩ := h 0 hpos
  refine ⟨p, ?_⟩
  have key : ∀ k < bsj, A.InRow i (p + k) ∧ A.bcolind⟦p + k⟧ = startj + k := by
    intro k
    induction k with
    | zero => intro _; exact ⟨hp, hpc⟩
    | succ k ih =>
      intro hk
      obtain ⟨h1, h2⟩ := ih (by omega)
      obtain ⟨q, hq, hqc⟩ := h (k + 1) hk
      have hlt : p + k < q := (hS.lt_iff hi h1 hq).mp (by omega)
      have hq' : q = p + (k + 1) := by
        by_contra hne
        have hr : A.InRow i (p + (k + 1)) := ⟨by have := h1.1; omega, by have := hq.2; omega⟩
        have a1 := (hS.lt_iff hi h1 hr).mpr (by omega)
        have a2 := (hS.lt_iff hi hr hq).mpr (by omega)
        omega
      subst hq'
      exact ⟨hq, hqc⟩
  exact ⟨fun k hk => (key k hk).1, fun k hk => (key k hk).2⟩

omit [CommRing K] in
/-- One row of `submitBlock`/`updateBlock` acts on exactly the run of addressed positions. -/
theorem csrBlockRow_run {A : SR K} {m : Nat} (hA : A.Full m) (hS : A.Sorted) {i startj bsj p : Nat}
    (hi : i < A.nbrows) (hpos : 0 < bsj) (hr : A.Run i startj bsj p)
    (act : Nat → Nat → List K → C (List K)) (vals : List K) :
    csrBlockRow A startj bsj i act vals =
      (forRange 0 bsj (fun k vals => act (p + k) k vals) vals >>= fun v => .ok (bsj, v)) := by
  have hl := hA.ptr_len
  have hp := hr.inRow 0 hpos
  have hpc := hr.col 0 hpos
  simp only [Nat.add_zero] at hp hpc
  have hlast := hr.inRow (bsj - 1) (by omega)
  have hend : p + bsj ≤ A.browptr⟦i + 1⟧ := by have := hlast.2; omega
  unfold csrBlockRow
  simp only [rd_eq (show i < A.browptr.length by omega), rd_eq (show i + 1 < A.browptr.length by omega), ok_bind]
  have hrd : ∀ jj, A.InRow i jj → rd A.bcolind jj = .ok A.bcolind⟦jj⟧ := fun jj hj => by
    have := hA.lt_nnz hi hj.2
    rw [rd_eq (by rw [hA.ind_len]; exact this)]
  rw [forRange_split hp.1 (show p ≤ A.browptr⟦i + 1⟧ by omega), forRange_id (lo := A.browptr⟦i⟧) (hi := p), ok_bind,
    forRange_split (show p ≤ p + bsj by omega) hend]
  · have key : ∀ n ≤ bsj, ∀ vals, forRange p (p + n) (fun jj (s : Nat × List K) => do
        let c ← rd A.bcolind jj
        if c < startj then .ok s
        else if s.1 = bsj then .ok s
        else do
          let vals ← act jj s.1 s.2
          .ok (s.1 + 1, vals)) (0, vals) =
        (forRange 0 n (fun k vals => act (p + k) k vals) vals >>= fun v => .ok (n, v)) := by
      intro n
      induction n with
      | zero => intro _ vals; simp only [Nat.add_zero, forRange_self]; rfl
      | succ n ih =>
        intro hn vals
        rw [show p + (n + 1) = p + n + 1 by omega, forRange_succ_right (by omega), ih (by omega),
          forRange_succ_right (Nat.zero_le _)]
        cases forRange 0 n (fun k vals => act (p + k) k vals) vals with
        | error e => rfl
        | ok v =>
          simp only [ok_bind]
          rw [hrd _ (hr.inRow n (by omega)), ok_bind, hr.col n (by omega), if_neg (by omega), if_neg (by omega)]
    rw [key bsj (Nat.le_refl _)]
    cases forRange 0 bsj (fun k vals => act (p + k) k vals) vals with
    | error e => rfl
    | ok v =>
      simp only [ok_bind]
      refine forRange_id fun jj h1 h2 => ?_
      have hin : A.InRow i jj := ⟨by have := hp.1; omega, h2⟩
      rw [hrd jj hin, ok_bind]
      split
      · rfl
      · rw [if_pos rfl]
  · intro jj h1 h2
    have hin : A.InRow i jj := ⟨h1, by have := hp.2; omega⟩
    rw [hrd jj hin, ok_bind, if_pos]
    have := (hS.lt_iff hi hin hp).mpr h2
    omega

end adds

end Blasted
