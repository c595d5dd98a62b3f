import Verif.Relax.Model
import Verif.Solve.SgsProps

/-!
# Gauss-Seidel passes, and contraction of asynchronous executions
-/

namespace Blasted

open Finset

variable {V R M K : Type}

section pass
variable [Zero M] {upd : Nat → (Nat → C M) → C M} {N : Nat} {D : Nat → Nat → Prop} {f : Nat → (Nat → M) → M}

/-- The state of a pass that started from `x`: the rows in `P` have been updated, and the update of row `i` used the new
values of the rows `j` with `B i j`. -/
def GsInv (N : Nat) (f : Nat → (Nat → M) → M) (B : Nat → Nat → Bool) (x : List M) (P : Nat → Prop) (y : List M) : Prop :=
  y.length = N ∧ ∀ i < N, (P i → y⟦i⟧ = f i (fun j => if B i j then y⟦j⟧ else x⟦j⟧)) ∧ (¬ P i → y⟦i⟧ = x⟦i⟧)

theorem GsInv.congr {B : Nat → Nat → Bool} {x y : List M} {P Q : Nat → Prop} (h : GsInv N f B x P y)
    (hPQ : ∀ i < N, Q i ↔ P i) : GsInv N f B x Q y :=
  ⟨h.1, fun i hi => ⟨fun hq => (h.2 i hi).1 ((hPQ i hi).mp hq), fun hq => (h.2 i hi).2 fun hp => hq ((hPQ i hi).mpr hp)⟩⟩

theorem GsInv.start {B : Nat → Nat → Bool} {x : List M} (hx : x.length = N) {P : Nat → Prop} (hP : ∀ i < N, ¬ P i) :
    GsInv N f B x P x := ⟨hx, fun i hi => ⟨fun h => absurd h (hP i hi), fun _ => rfl⟩⟩

/-- A loop over rows that do not depend on each other. -/
theorem RowUpd.gsGroup (h : RowUpd upd N D f) {B : Nat → Nat → Bool} {x : List M} {l : List Nat}
    (hnd : l.Nodup) (hlt : ∀ i ∈ l, i < N) {P : Nat → Prop} (hPl : ∀ i ∈ l, ¬ P i)
    (hdl : ∀ i ∈ l, ∀ j < N, D i j → (P j ↔ B i j = true) ∧ j ∉ l)
    (hdP : ∀ i < N, P i → ∀ j < N, D i j → B i j = true → P j) {y : List M} (hI : GsInv N f B x P y) :
    Ok (forList l (updRow upd) y) (GsInv N f B x (fun i => P i ∨ i ∈ l)) := by
  refine forList_ok (fun done z => GsInv N f B x (fun i => P i ∨ i ∈ done) z) (hI.congr (by simp)) ?_
  rintro done i rest z hsp ⟨hlen, hz⟩
  have hil : i ∈ l := by rw [hsp]; simp
  have hiN := hlt i hil
  have hndone : i ∉ done := by
    rw [hsp, List.nodup_append] at hnd
    exact fun hc => hnd.2.2 i hc i (by simp) rfl
  have hdone : ∀ j ∈ done, j ∈ l := fun j hj => by rw [hsp]; simp [hj]
  rw [h.evalList hiN hlen]
  refine Ok.pure ⟨by simp [hlen], fun p hp => ⟨fun hpp => ?_, fun hpp => ?_⟩⟩
  · by_cases hpi : p = i
    · subst hpi
      rw [get0_set_self (by omega)]
      refine h.dep p hp _ _ fun j hj hD => ?_
      obtain ⟨h1, h2⟩ := hdl p hil j hj hD
      have hjp : p ≠ j := by rintro rfl; exact h2 hil
      by_cases hB : B p j = true
      · rw [if_pos hB, get0_set_ne hjp]
      · rw [if_neg hB]
        refine (hz j hj).2 ?_
        rintro (hc | hc)
        · exact hB (h1.mp hc)
        · exact h2 (hdone j hc)
    · have hpd : P p ∨ p ∈ done := by
        simp only [List.mem_append, List.mem_singleton] at hpp
        tauto
      rw [get0_set_ne (Ne.symm hpi), (hz p hp).1 hpd]
      refine h.dep p hp _ _ fun j hj hD => ?_
      by_cases hB : B p j = true
      · rw [if_pos hB, if_pos hB, get0_set_ne]
        rintro rfl
        rcases hpd with hP | hd
        · exact hPl _ hil (hdP p hp hP _ hj hD hB)
        · exact (hdl p (hdone p hd) _ hj hD).2 hil
      · rw [if_neg hB, if_neg hB]
  · simp only [List.mem_append, List.mem_singleton, not_or] at hpp
    rw [get0_set_ne (Ne.symm hpp.2.2)]
    exact (hz p hp).2 (by simp only [not_or]; exact ⟨hpp.1, hpp.2.1⟩)

/-- The same for a parallel loop with arbitrary reads. -/
theorem RowUpd.gsAlevel (h : RowUpd upd N D f) {mix : Set M → Set M} (hm : MixOk mix) {B : Nat → Nat → Bool}
    {x : List M} {l : List Nat} {P : Nat → Prop} (hPl : ∀ i ∈ l, ¬ P i)
    (hdl : ∀ i ∈ l, ∀ j < N, D i j → (P j ↔ B i j = true) ∧ j ∉ l)
    (hdP : ∀ i < N, P i → ∀ j < N, D i j → B i j = true → P j) {y y' : List M} (hI : GsInv N f B x P y)
    (ha : ALevel upd mix l y y') : GsInv N f B x (fun i => P i ∨ i ∈ l) y' := by
  obtain ⟨log, hlog, hrows, hcov, rfl⟩ := ha
  obtain ⟨hlen, hz⟩ := hI
  rw [hlen] at hlog
  have hw : ∀ w ∈ log, w.2 = f w.1 (get0 y) := by
    clear hcov
    induction hlog with
    | nil => simp
    | @write log i v view hprev hview hi hupd ih =>
      intro w hw
      rcases List.mem_append.mp hw with hw | hw
      · exact ih (fun w hw => hrows w (by simp [hw])) w hw
      · rw [List.mem_singleton] at hw
        subst hw
        show v = f i (get0 y)
        rw [h.yields hi hupd]
        have hil : i ∈ l := hrows (i, v) (by simp)
        refine h.dep i hi _ _ fun j hj hD => ?_
        refine hm.single (v := y⟦j⟧) ?_ (hview j hj)
        rintro u (hu | hu)
        · exact memOf_eq (w := (j, u)) hu
        · exact absurd (hrows (j, u) (by simp [hu])) (hdl i hil j hj hD).2
  have hP : ∀ i < N, i ∉ l → (applyLog y log)⟦i⟧ = y⟦i⟧ := by
    intro i hi hil
    have hi' : i < (applyLog y log).length := by simpa [hlen] using hi
    rcases mem_applyLog (memOf_get0 hi') with h1 | ⟨h1, _⟩
    · exact absurd (hrows _ h1) hil
    · exact memOf_eq h1
  have hL : ∀ i < N, i ∈ l → (applyLog y log)⟦i⟧ = f i (get0 y) := by
    intro i hi hil
    have hi' : i < (applyLog y log).length := by simpa [hlen] using hi
    rcases mem_applyLog (memOf_get0 hi') with h1 | ⟨_, h1⟩
    · exact hw _ h1
    · obtain ⟨v, hv⟩ := hcov i hil
      exact absurd hv (h1 v)
  refine ⟨by simpa using hlen, fun i hi => ⟨fun hpl => ?_, fun hpl => ?_⟩⟩
  · by_cases hil : i ∈ l
    · rw [hL i hi hil]
      refine h.dep i hi _ _ fun j hj hD => ?_
      obtain ⟨h1, h2⟩ := hdl i hil j hj hD
      by_cases hB : B i j = true
      · rw [if_pos hB, hP j hj h2]
      · rw [if_neg hB]
        exact (hz j hj).2 fun hc => hB (h1.mp hc)
    · have hPi : P i := by tauto
      rw [hP i hi hil, (hz i hi).1 hPi]
      refine h.dep i hi _ _ fun j hj hD => ?_
      by_cases hB : B i j = true
      · rw [if_pos hB, if_pos hB, hP j hj]
        exact fun hc => hPl j hc (hdP i hi hPi j hj hD hB)
      · rw [if_neg hB, if_neg hB]
  · simp only [not_or] at hpl
    rw [hP i hi hpl.2]
    exact (hz i hi).2 hpl.1

/-- A forward pass. -/
theorem RowUpd.gsFwd (h : RowUpd upd N D f) (hD : ∀ i j, D i j → j ≠ i) {x : List M} (hx : x.length = N) :
    Ok (forRange 0 N (updRow upd) x) (fun y => y.length = N ∧
      ∀ i < N, y⟦i⟧ = f i (fun j => if j < i then y⟦j⟧ else x⟦j⟧)) := by
  refine (forRange_ok (fun t y => GsInv N f (fun i j => decide (j < i)) x (fun i => i < t) y) (Nat.zero_le _)
    (GsInv.start hx (by simp)) ?_).mono fun y hy => ⟨hy.1, fun i hi => ?_⟩
  · intro t y _ ht hI
    have := h.gsGroup (l := [t]) (by simp) (by simpa using ht) (by simp) (by
      intro i hi j hj hd
      rw [List.mem_singleton] at hi ⊢
      subst hi
      exact ⟨by simp, hD _ _ hd⟩) (by
      intro i hi hP j hj hd hB
      simp only [decide_eq_true_eq] at hB
      omega) hI
    rw [forList_cons] at this
    obtain ⟨z, e, hz⟩ := this
    cases e' : updRow upd t y with
    | error err => rw [e'] at e; cases e
    | ok z' =>
      rw [e'] at e
      cases e
      exact Ok.pure (hz.congr fun i hi => by simp only [List.mem_singleton]; omega)
  · have := (hy.2 i hi).1 hi
    simpa using this

/-- A backward pass. -/
theorem RowUpd.gsBwd (h : RowUpd upd N D f) (hD : ∀ i j, D i j → j ≠ i) {x : List M} (hx : x.length = N) :
    Ok (forDown 0 N (updRow upd) x) (fun y => y.length = N ∧
      ∀ i < N, y⟦i⟧ = f i (fun j => if i < j then y⟦j⟧ else x⟦j⟧)) := by
  refine (forDown_ok (fun t y => GsInv N f (fun i j => decide (i < j)) x (fun i => t ≤ i) y) (Nat.zero_le _)
    (GsInv.start hx (by intro i hi; omega)) ?_).mono fun y hy => ⟨hy.1, fun i hi => ?_⟩
  · intro t y _ ht hI
    have := h.gsGroup (l := [t]) (by simp) (by simpa using ht) (by simp) (by
      intro i hi j hj hd
      rw [List.mem_singleton] at hi ⊢
      subst hi
      exact ⟨by simp, hD _ _ hd⟩) (by
      intro i hi hP j hj hd hB
      simp only [decide_eq_true_eq] at hB
      omega) hI
    rw [forList_cons] at this
    obtain ⟨z, e, hz⟩ := this
    cases e' : updRow upd t y with
    | error err => rw [e'] at e; cases e
    | ok z' =>
      rw [e'] at e
      cases e
      exact Ok.pure (hz.congr fun i hi => by simp only [List.mem_singleton]; omega)
  · have := (hy.2 i hi).1 (Nat.zero_le _)
    simpa using this

section levels
variable {A : SR V} {levels : List Nat}

theorem RowUpd.gsLevelUp (h : RowUpd upd A.nbrows (fun i j => Nbr A i j ∧ j ≠ i) f) (hL : LevelsOk A levels)
    {sched : Nat → List Nat → List Nat} (hsch : ∀ t l, (sched t l).Perm l) {x : List M}
    (hx : x.length = A.nbrows) :
    Ok (Blasted.levelUp upd levels sched x) (fun y => y.length = A.nbrows ∧
      ∀ i < A.nbrows, y⟦i⟧ = f i (fun j => if j < i then y⟦j⟧ else x⟦j⟧)) := by
  have hpos := hL.pos
  refine (forRange_ok (fun t y => GsInv A.nbrows f (fun i j => decide (j < i)) x (fun i => i < levels⟦t⟧) y)
    (Nat.zero_le _) (GsInv.start hx (by simp [hL.zero])) ?_).mono fun y hy =>
      ⟨hy.1, fun i hi => by simpa using (hy.2 i hi).1 (by rw [hL.last]; exact hi)⟩
  intro t y _ ht hI
  have ht' : t + 1 < levels.length := by omega
  rw [rd_eq (by omega), ok_bind, rd_eq (by omega), ok_bind]
  have hp := hsch t (List.range' levels⟦t⟧ (levels⟦t + 1⟧ - levels⟦t⟧))
  have hle := hL.mono t ht'
  have hmem : ∀ i, i ∈ sched t (List.range' levels⟦t⟧ (levels⟦t + 1⟧ - levels⟦t⟧)) ↔
      levels⟦t⟧ ≤ i ∧ i < levels⟦t + 1⟧ := by
    intro i
    rw [hp.mem_iff, List.mem_range'_1]
    omega
  have hn := hL.le_n ht'
  refine (h.gsGroup (hp.nodup_iff.mpr List.nodup_range') ?_ ?_ ?_ ?_ hI).mono fun z hz => hz.congr fun i hi => ?_
  · intro i hi
    have := ((hmem i).mp hi).2
    omega
  · intro i hi
    have := ((hmem i).mp hi).1
    omega
  · intro i hi j hj hd
    rw [hmem] at hi ⊢
    rw [decide_eq_true_eq]
    by_cases hc : levels⟦t⟧ ≤ j ∧ j < levels⟦t + 1⟧
    · exact absurd (hL.indep t ht' i j hi.1 hi.2 hc.1 hc.2 hd.1) (Ne.symm hd.2)
    · exact ⟨by omega, hc⟩
  · intro i hi hP j hj hd hB
    rw [decide_eq_true_eq] at hB
    omega
  · rw [hmem]
    omega

theorem RowUpd.gsLevelDown (h : RowUpd upd A.nbrows (fun i j => Nbr A i j ∧ j ≠ i) f) (hL : LevelsOk A levels)
    {sched : Nat → List Nat → List Nat} (hsch : ∀ t l, (sched t l).Perm l) {x : List M}
    (hx : x.length = A.nbrows) :
    Ok (Blasted.levelDown upd levels sched x) (fun y => y.length = A.nbrows ∧
      ∀ i < A.nbrows, y⟦i⟧ = f i (fun j => if i < j then y⟦j⟧ else x⟦j⟧)) := by
  have hpos := hL.pos
  refine (forDown_ok (fun t y => GsInv A.nbrows f (fun i j => decide (i < j)) x (fun i => levels⟦t - 1⟧ ≤ i) y)
    (by omega) (GsInv.start hx (by intro i hi; rw [Nat.add_sub_cancel, hL.last]; omega)) ?_).mono fun y hy =>
      ⟨hy.1, fun i hi => by simpa using (hy.2 i hi).1 (by rw [Nat.sub_self, hL.zero]; omega)⟩
  intro t y ht1 ht hI
  rw [Nat.add_sub_cancel] at hI
  obtain ⟨s, rfl⟩ : ∃ s, t = s + 1 := ⟨t - 1, by omega⟩
  rw [Nat.add_sub_cancel]
  have ht' : s + 1 < levels.length := by omega
  rw [rd_eq (by omega), ok_bind, rd_eq (by omega), ok_bind]
  have hp := hsch (s + 1) (List.range' levels⟦s⟧ (levels⟦s + 1⟧ - levels⟦s⟧))
  have hle := hL.mono s ht'
  have hmem : ∀ i, i ∈ sched (s + 1) (List.range' levels⟦s⟧ (levels⟦s + 1⟧ - levels⟦s⟧)) ↔
      levels⟦s⟧ ≤ i ∧ i < levels⟦s + 1⟧ := by
    intro i
    rw [hp.mem_iff, List.mem_range'_1]
    omega
  have hn := hL.le_n ht'
  refine (h.gsGroup (hp.nodup_iff.mpr List.nodup_range') ?_ ?_ ?_ ?_ hI).mono fun z hz => hz.congr fun i hi => ?_
  · intro i hi
    have := ((hmem i).mp hi).2
    omega
  · intro i hi
    have := ((hmem i).mp hi).2
    omega
  · intro i hi j hj hd
    rw [hmem] at hi ⊢
    rw [decide_eq_true_eq]
    by_cases hc : levels⟦s⟧ ≤ j ∧ j < levels⟦s + 1⟧
    · exact absurd (hL.indep s ht' i j hi.1 hi.2 hc.1 hc.2 hd.1) (Ne.symm hd.2)
    · exact ⟨by omega, hc⟩
  · intro i hi hP j hj hd hB
    rw [decide_eq_true_eq] at hB
    omega
  · rw [hmem]
    omega

theorem RowUpd.gsAlevelsUp (h : RowUpd upd A.nbrows (fun i j => Nbr A i j ∧ j ≠ i) f) (hL : LevelsOk A levels)
    {mix : Set M → Set M} (hm : MixOk mix) {x x' : List M} (hx : x.length = A.nbrows)
    (ha : ALevels upd mix (levelRows levels) x x') :
    x'.length = A.nbrows ∧ ∀ i < A.nbrows, x'⟦i⟧ = f i (fun j => if j < i then x'⟦j⟧ else x⟦j⟧) := by
  have hpos := hL.pos
  suffices H : ∀ (ls : List (List Nat)) (t : Nat) (y y' : List M), ls = (levelRows levels).drop t →
      t ≤ levels.length - 1 → GsInv A.nbrows f (fun i j => decide (j < i)) x (fun i => i < levels⟦t⟧) y →
      ALevels upd mix ls y y' → GsInv A.nbrows f (fun i j => decide (j < i)) x (fun _ => True) y' by
    have := H _ 0 x x' (by simp) (Nat.zero_le _) (GsInv.start hx (by simp [hL.zero])) ha
    exact ⟨this.1, fun i hi => by simpa using (this.2 i hi).1 trivial⟩
  intro ls t y y' hls ht hI ha
  have hlen : (levelRows levels).length = levels.length - 1 := by simp [levelRows]
  induction ha generalizing t with
  | nil y =>
    have : (levelRows levels).length ≤ t := by
      rw [← List.drop_eq_nil_iff]; exact hls.symm
    refine hI.congr fun i hi => ?_
    rw [show t = levels.length - 1 by omega, hL.last]
    simpa using hi
  | @cons rows ls y z w h1 h2 ih =>
    have htl : t < (levelRows levels).length := by
      by_contra hc
      rw [List.drop_eq_nil_iff.mpr (by omega)] at hls
      exact List.cons_ne_nil _ _ hls
    rw [List.drop_eq_getElem_cons htl] at hls
    obtain ⟨rfl, rfl⟩ := List.cons.inj hls
    have hrow : (levelRows levels)[t] = List.range' levels⟦t⟧ (levels⟦t + 1⟧ - levels⟦t⟧) := by
      simp [levelRows]
    rw [hrow] at h1
    have ht' : t + 1 < levels.length := by omega
    have hle := hL.mono t ht'
    have hmem : ∀ i, i ∈ List.range' levels⟦t⟧ (levels⟦t + 1⟧ - levels⟦t⟧) ↔
        levels⟦t⟧ ≤ i ∧ i < levels⟦t + 1⟧ := by
      intro i
      rw [List.mem_range'_1]
      omega
    have hg := h.gsAlevel hm
      (fun i hi => by have := ((hmem i).mp hi).1; omega) (by
        intro i hi j hj hd
        rw [hmem] at hi ⊢
        rw [decide_eq_true_eq]
        by_cases hc : levels⟦t⟧ ≤ j ∧ j < levels⟦t + 1⟧
        · exact absurd (hL.indep t ht' i j hi.1 hi.2 hc.1 hc.2 hd.1) (Ne.symm hd.2)
        · exact ⟨by omega, hc⟩) (by
        intro i hi hP j hj hd hB
        rw [decide_eq_true_eq] at hB
        omega) hI h1
    refine ih (t + 1) rfl (by omega) (hg.congr fun i hi => ?_)
    rw [hmem]
    omega

theorem RowUpd.gsAlevelsDown (h : RowUpd upd A.nbrows (fun i j => Nbr A i j ∧ j ≠ i) f) (hL : LevelsOk A levels)
    {mix : Set M → Set M} (hm : MixOk mix) {x x' : List M} (hx : x.length = A.nbrows)
    (ha : ALevels upd mix (levelRows levels).reverse x x') :
    x'.length = A.nbrows ∧ ∀ i < A.nbrows, x'⟦i⟧ = f i (fun j => if i < j then x'⟦j⟧ else x⟦j⟧) := by
  have hpos := hL.pos
  have hlen : (levelRows levels).length = levels.length - 1 := by simp [levelRows]
  suffices H : ∀ (ls : List (List Nat)) (t : Nat) (y y' : List M), ls = ((levelRows levels).take t).reverse →
      t ≤ levels.length - 1 → GsInv A.nbrows f (fun i j => decide (i < j)) x (fun i => levels⟦t⟧ ≤ i) y →
      ALevels upd mix ls y y' → GsInv A.nbrows f (fun i j => decide (i < j)) x (fun _ => True) y' by
    have := H _ (levels.length - 1) x x' (by rw [List.take_of_length_le (by omega)]) (Nat.le_refl _)
      (GsInv.start hx (by intro i hi; rw [hL.last]; omega)) ha
    exact ⟨this.1, fun i hi => by simpa using (this.2 i hi).1 trivial⟩
  intro ls t y y' hls ht hI ha
  induction ha generalizing t with
  | nil y =>
    have h0 : t = 0 := by
      have := congrArg List.length hls
      simp at this
      omega
    refine hI.congr fun i hi => ?_
    rw [h0, hL.zero]
    simp
  | @cons rows ls y z w h1 h2 ih =>
    obtain ⟨s, rfl⟩ : ∃ s, t = s + 1 := by
      refine ⟨t - 1, ?_⟩
      rcases Nat.eq_zero_or_pos t with rfl | h
      · simp at hls
      · omega
    have hsl : s < (levelRows levels).length := by omega
    rw [List.take_succ_eq_append_getElem hsl, List.reverse_append, List.reverse_singleton,
      List.singleton_append] at hls
    obtain ⟨rfl, rfl⟩ := List.cons.inj hls
    have hrow : (levelRows levels)[s] = List.range' levels⟦s⟧ (levels⟦s + 1⟧ - levels⟦s⟧) := by
      simp [levelRows]
    rw [hrow] at h1
    have ht' : s + 1 < levels.length := by omega
    have hle := hL.mono s ht'
    have hmem : ∀ i, i ∈ List.range' levels⟦s⟧ (levels⟦s + 1⟧ - levels⟦s⟧) ↔
        levels⟦s⟧ ≤ i ∧ i < levels⟦s + 1⟧ := by
      intro i
      rw [List.mem_range'_1]
      omega
    have hg := h.gsAlevel hm
      (fun i hi => by have := ((hmem i).mp hi).2; omega) (by
        intro i hi j hj hd
        rw [hmem] at hi ⊢
        rw [decide_eq_true_eq]
        by_cases hc : levels⟦s⟧ ≤ j ∧ j < levels⟦s + 1⟧
        · exact absurd (hL.indep s ht' i j hi.1 hi.2 hc.1 hc.2 hd.1) (Ne.symm hd.2)
        · exact ⟨by omega, hc⟩) (by
        intro i hi hP j hj hd hB
        rw [decide_eq_true_eq] at hB
        omega) hI h1
    refine ih s rfl (by omega) (hg.congr fun i hi => ?_)
    rw [hmem]
    omega

end levels
end pass

/-! ### Contraction -/

section contraction
variable {upd : Nat → (Nat → C V) → C V} {mix : Set V → Set V} {n : Nat}

/-- `Q E j u`: the value `u` of component `j` is within `E` of the solution. If an update maps views within `E` to a value
within `rho*E`, all values written by an asynchronous execution that starts within `E` are within `rho*E`. -/
theorem ALog.contract {Q : K → Nat → V → Prop} {E E' : K}
    (hmix : ∀ j (S : Set V), (∀ u ∈ S, Q E j u) → ∀ w ∈ mix S, Q E j w)
    (hle : ∀ j u, Q E' j u → Q E j u)
    (hupd : ∀ i < n, ∀ view : Nat → V, (∀ j < n, Q E j (view j)) → ∀ v, Yields (upd i (readView n view)) v → Q E' i v)
    {B : Set (Nat × V)} (hB : ∀ w ∈ B, w.1 < n → Q E w.1 w.2) {log : List (Nat × V)} (h : ALog upd mix n B log) :
    ∀ w ∈ log, Q E' w.1 w.2 := by
  induction h with
  | nil => simp
  | @write log i v view _ hview hi hv ih =>
    intro w hw
    rcases List.mem_append.mp hw with hw | hw
    · exact ih w hw
    · rw [List.mem_singleton.mp hw]
      refine hupd i hi view (fun j hj => hmix j _ ?_ _ (hview j hj)) v hv
      rintro u (hu | hu)
      · exact hB (j, u) hu hj
      · exact hle _ _ (ih (j, u) hu)

/-- Overlapping rounds: every round contracts. -/
theorem ARounds.contract [Field K] [LinearOrder K] [IsStrictOrderedRing K] {Q : K → Nat → V → Prop} {rho E : K}
    (h0 : 0 ≤ rho) (h1 : rho ≤ 1) (hE : 0 ≤ E)
    (hmix : ∀ E j (S : Set V), (∀ u ∈ S, Q E j u) → ∀ w ∈ mix S, Q E j w)
    (hle : ∀ E E' j u, E' ≤ E → Q E' j u → Q E j u) {x : List V}
    (hupd : ∀ E, 0 ≤ E → ∀ i < x.length, ∀ view : Nat → V, (∀ j < x.length, Q E j (view j)) →
      ∀ v, Yields (upd i (readView x.length view)) v → Q (rho * E) i v)
    (hx : ∀ w ∈ memOf x, Q E w.1 w.2) {k : Nat} {log last : List (Nat × V)}
    (h : ARounds upd mix x k log last) :
    (∀ w ∈ log, Q (rho * E) w.1 w.2) ∧ ∀ w ∈ last, Q (rho ^ k * E) w.1 w.2 := by
  induction h with
  | first hl _ =>
    have := hl.contract (hmix E) (hle E (rho * E) · · (mul_le_of_le_one_left hE h1)) (hupd E hE) fun w hw _ => hx w hw
    exact ⟨this, by simpa using this⟩
  | @next k log last new _ hl _ ih =>
    have hk : (0 : K) ≤ rho ^ k * E := mul_nonneg (pow_nonneg h0 k) hE
    have hk1 : rho ^ k * E ≤ E := mul_le_of_le_one_left hE (pow_le_one₀ h0 h1)
    have := hl.contract (hmix (rho ^ k * E)) (hle _ (rho * (rho ^ k * E)) · · (mul_le_of_le_one_left hk h1))
      (hupd _ hk) fun w hw _ => ih.2 w hw
    constructor
    · intro w hw
      rcases List.mem_append.mp hw with hw | hw
      · exact ih.1 w hw
      · exact hle _ _ _ _ (mul_le_mul_of_nonneg_left hk1 h0) (this w hw)
    · intro w hw
      rw [pow_succ', mul_assoc]
      exact this w hw

end contraction

end Blasted
