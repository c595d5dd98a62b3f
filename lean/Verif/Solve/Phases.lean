import Verif.Solve.Lemmas

/-!
# The parts of the triangular applications
-/

namespace Blasted

open Finset

variable {V R M K : Type}

/-! ### Rows by levels -/

section group
variable [Zero M] {upd : Nat → (Nat → C M) → C M} {N : Nat} {D : Nat → Nat → Prop} {f : Nat → (Nat → M) → M}

/-- A loop over rows that depend only on rows solved before. -/
theorem RowUpd.group (h : RowUpd upd N D f) {l : List Nat} (hnd : l.Nodup) (hlt : ∀ i ∈ l, i < N)
    {P : Nat → Prop} (hPl : ∀ i ∈ l, ¬ P i) (hdl : ∀ i ∈ l, ∀ j < N, D i j → P j)
    (hdP : ∀ i < N, P i → ∀ j < N, D i j → P j) {x : List M} (hx : x.length = N)
    (hs : ∀ i < N, P i → x⟦i⟧ = f i (get0 x)) :
    Ok (forList l (updRow upd) x) (fun y => y.length = N ∧ ∀ i < N, (P i ∨ i ∈ l) → y⟦i⟧ = f i (get0 y)) := by
  refine (forList_ok (fun done y => y.length = N ∧ ∀ i < N, (P i ∨ i ∈ done) → y⟦i⟧ = f i (get0 y))
    ⟨hx, fun i hi hp => hs i hi (by simpa using hp)⟩ ?_)
  rintro done i rest y hsp ⟨hlen, hI⟩
  have hil : i ∈ l := by rw [hsp]; simp
  have hiN := hlt i hil
  rw [h.evalList hiN hlen]
  refine Ok.pure ⟨by simp [hlen], fun p hp hpp => ?_⟩
  have hndone : i ∉ done := by
    rw [hsp, List.nodup_append] at hnd
    exact fun hc => hnd.2.2 i hc i (by simp) rfl
  have key : ∀ p < N, (∀ q < N, D p q → P q) → f p (get0 (y.set i (f i (get0 y)))) = f p (get0 y) := by
    intro p hp hq
    refine h.dep p hp _ _ fun q hqN hD => ?_
    rw [get0_set_ne]
    rintro rfl
    exact hPl _ hil (hq _ hqN hD)
  have hpl : p = i ∨ (p ≠ i ∧ (P p ∨ p ∈ done)) := by
    by_cases hpi : p = i
    · exact Or.inl hpi
    · simp only [List.mem_append, List.mem_singleton] at hpp
      exact Or.inr ⟨hpi, by tauto⟩
  rcases hpl with rfl | ⟨hne, hpd⟩
  · rw [get0_set_self (by omega), key p hp (hdl p hil)]
  · rw [get0_set_ne (Ne.symm hne), key p hp, hI p hp hpd]
    rcases hpd with hP | hd
    · exact hdP p hp hP
    · exact hdl p (by rw [hsp]; simp [hd])

/-- The same for a parallel loop with arbitrary reads. -/
theorem RowUpd.alevel (h : RowUpd upd N D f) {mix : Set M → Set M} (hm : MixOk mix) {l : List Nat}
    {P : Nat → Prop} (hPl : ∀ i ∈ l, ¬ P i) (hdl : ∀ i ∈ l, ∀ j < N, D i j → P j)
    (hdP : ∀ i < N, P i → ∀ j < N, D i j → P j) {x x' : List M} (hx : x.length = N)
    (hs : ∀ i < N, P i → x⟦i⟧ = f i (get0 x)) (ha : ALevel upd mix l x x') :
    x'.length = N ∧ ∀ i < N, (P i ∨ i ∈ l) → x'⟦i⟧ = f i (get0 x') := by
  obtain ⟨log, hlog, hrows, hcov, rfl⟩ := ha
  rw [hx] at hlog
  have hw : ∀ w ∈ log, w.2 = f w.1 (get0 x) := by
    clear hcov
    induction hlog with
    | nil => simp
    | @write log i v view hprev hview hi hupd ih =>
      intro w hw
      rcases List.mem_append.mp hw with hw | hw
      · exact ih (fun w hw => hrows w (by simp [hw])) w hw
      · rw [List.mem_singleton] at hw
        subst hw
        show v = f i (get0 x)
        rw [h.yields hi hupd]
        have hil : i ∈ l := hrows (i, v) (by simp)
        refine h.dep i hi _ _ fun j hj hD => ?_
        refine hm.single (v := x⟦j⟧) ?_ (hview j hj)
        rintro u (hu | hu)
        · exact memOf_eq (w := (j, u)) hu
        · exact absurd (hdl i hil j hj hD) (hPl j (hrows (j, u) (by simp [hu])))
  have hP : ∀ i < N, P i → (applyLog x log)⟦i⟧ = x⟦i⟧ := by
    intro i hi hPi
    have hi' : i < (applyLog x log).length := by simpa [hx] using hi
    rcases mem_applyLog (memOf_get0 hi') with h1 | ⟨h1, _⟩
    · exact absurd hPi (hPl _ (hrows _ h1))
    · exact memOf_eq h1
  have hL : ∀ i < N, i ∈ l → (applyLog x log)⟦i⟧ = f i (get0 x) := by
    intro i hi hil
    have hi' : i < (applyLog x log).length := by simpa [hx] using hi
    rcases mem_applyLog (memOf_get0 hi') with h1 | ⟨_, h1⟩
    · exact hw _ h1
    · obtain ⟨v, hv⟩ := hcov i hil
      exact absurd hv (h1 v)
  refine ⟨by simpa using hx, fun i hi hpl => ?_⟩
  have key : (∀ q < N, D i q → P q) → f i (get0 (applyLog x log)) = f i (get0 x) :=
    fun hq => h.dep i hi _ _ fun q hqN hD => hP q hqN (hq q hqN hD)
  rcases hpl with hPi | hil
  · rw [hP i hi hPi, key (hdP i hi hPi), hs i hi hPi]
  · rw [hL i hi hil, key (hdl i hil)]

end group

/-- `levels` is a valid level schedule for the pattern of `A`: it splits the rows into contiguous groups without
stored off-diagonal entries between rows of the same group. -/
structure LevelsOk (A : SR V) (levels : List Nat) : Prop where
  pos : 1 ≤ levels.length
  zero : levels⟦0⟧ = 0
  last : levels⟦levels.length - 1⟧ = A.nbrows
  mono : ∀ t, t + 1 < levels.length → levels⟦t⟧ ≤ levels⟦t + 1⟧
  indep : ∀ t, t + 1 < levels.length → ∀ i j, levels⟦t⟧ ≤ i → i < levels⟦t + 1⟧ → levels⟦t⟧ ≤ j →
    j < levels⟦t + 1⟧ → Nbr A i j → i = j

theorem LevelsOk.le {A : SR V} {levels : List Nat} (h : LevelsOk A levels) {s t : Nat} (hst : s ≤ t)
    (ht : t < levels.length) : levels⟦s⟧ ≤ levels⟦t⟧ := by
  induction t with
  | zero => obtain rfl : s = 0 := by omega
            exact Nat.le_refl _
  | succ t ih =>
    rcases Nat.eq_or_lt_of_le hst with rfl | hlt
    · exact Nat.le_refl _
    · exact (ih (by omega) (by omega)).trans (h.mono t ht)

theorem LevelsOk.le_n {A : SR V} {levels : List Nat} (h : LevelsOk A levels) {t : Nat}
    (ht : t < levels.length) : levels⟦t⟧ ≤ A.nbrows := by
  rw [← h.last]; exact h.le (by omega) (by omega)

section levels
variable [Zero M] {upd : Nat → (Nat → C M) → C M} {f : Nat → (Nat → M) → M} {A : SR V} {levels : List Nat}

omit [Zero M] in
theorem LevelsOk.low (hL : LevelsOk A levels) {t : Nat} (ht : t + 1 < levels.length) {i j : Nat}
    (h1 : levels⟦t⟧ ≤ i) (h2 : i < levels⟦t + 1⟧) (hd : LowDep A i j) : j < levels⟦t⟧ := by
  by_contra hc
  have := hL.indep t ht i j h1 h2 (by omega) (by have := hd.2; omega) hd.1
  have := hd.2
  omega

omit [Zero M] in
theorem LevelsOk.up (hL : LevelsOk A levels) {t : Nat} (ht : t + 1 < levels.length) {i j : Nat}
    (h1 : levels⟦t⟧ ≤ i) (h2 : i < levels⟦t + 1⟧) (hd : UpDep A i j) : levels⟦t + 1⟧ ≤ j := by
  by_contra hc
  have := hL.indep t ht i j h1 h2 (by have := hd.2; omega) (by omega) hd.1
  have := hd.2
  omega

theorem RowUpd.levelUp (h : RowUpd upd A.nbrows (LowDep A) f) (hL : LevelsOk A levels)
    {sched : Nat → List Nat → List Nat} (hsch : ∀ t l, (sched t l).Perm l) {x : List M}
    (hx : x.length = A.nbrows) :
    Ok (levelUp upd levels sched x) (fun y => y.length = A.nbrows ∧ ∀ i < A.nbrows, y⟦i⟧ = f i (get0 y)) := by
  have hpos := hL.pos
  refine (forRange_ok (fun t y => y.length = A.nbrows ∧ ∀ i < A.nbrows, i < levels⟦t⟧ → y⟦i⟧ = f i (get0 y))
    (Nat.zero_le _) ⟨hx, fun i _ hi => by rw [hL.zero] at hi; omega⟩ ?_).mono fun y hy =>
      ⟨hy.1, fun i hi => hy.2 i hi (by rw [hL.last]; exact hi)⟩
  rintro t y _ ht ⟨hlen, hI⟩
  have ht' : t + 1 < levels.length := by omega
  rw [rd_eq (by omega), ok_bind, rd_eq (by omega), ok_bind]
  have hp := hsch t (List.range' levels⟦t⟧ (levels⟦t + 1⟧ - levels⟦t⟧))
  have hmem : ∀ i, i ∈ sched t (List.range' levels⟦t⟧ (levels⟦t + 1⟧ - levels⟦t⟧)) ↔
      levels⟦t⟧ ≤ i ∧ i < levels⟦t + 1⟧ := by
    intro i
    rw [hp.mem_iff, List.mem_range'_1]
    have := hL.mono t ht'
    omega
  refine (h.group (P := fun i => i < levels⟦t⟧) (hp.nodup_iff.mpr List.nodup_range') ?_ ?_ ?_ ?_ hlen hI).mono ?_
  · intro i hi
    have := hL.le_n ht'
    have := ((hmem i).mp hi).2
    omega
  · intro i hi
    have := ((hmem i).mp hi).1
    omega
  · intro i hi j _ hd
    exact hL.low ht' ((hmem i).mp hi).1 ((hmem i).mp hi).2 hd
  · intro i _ hi j _ hd
    have := hd.2
    omega
  · rintro y' ⟨h1, h2⟩
    refine ⟨h1, fun i hi hlt => h2 i hi ?_⟩
    rw [hmem]
    omega

theorem RowUpd.levelDown (h : RowUpd upd A.nbrows (UpDep A) f) (hL : LevelsOk A levels)
    {sched : Nat → List Nat → List Nat} (hsch : ∀ t l, (sched t l).Perm l) {x : List M}
    (hx : x.length = A.nbrows) :
    Ok (levelDown upd levels sched x) (fun y => y.length = A.nbrows ∧ ∀ i < A.nbrows, y⟦i⟧ = f i (get0 y)) := by
  have hpos := hL.pos
  refine (forDown_ok (fun t y => y.length = A.nbrows ∧
      ∀ i < A.nbrows, levels⟦t - 1⟧ ≤ i → y⟦i⟧ = f i (get0 y)) (by omega)
    ⟨hx, fun i hi hle => by rw [Nat.add_sub_cancel, hL.last] at hle; omega⟩ ?_).mono fun y hy =>
      ⟨hy.1, fun i hi => hy.2 i hi (by rw [Nat.sub_self, hL.zero]; omega)⟩
  rintro t y ht1 ht ⟨hlen, hI⟩
  rw [Nat.add_sub_cancel] at hI
  obtain ⟨s, rfl⟩ : ∃ s, t = s + 1 := ⟨t - 1, by omega⟩
  rw [Nat.add_sub_cancel]
  have ht' : s + 1 < levels.length := by omega
  rw [rd_eq (by omega), ok_bind, rd_eq (by omega), ok_bind]
  have hp := hsch (s + 1) (List.range' levels⟦s⟧ (levels⟦s + 1⟧ - levels⟦s⟧))
  have hmem : ∀ i, i ∈ sched (s + 1) (List.range' levels⟦s⟧ (levels⟦s + 1⟧ - levels⟦s⟧)) ↔
      levels⟦s⟧ ≤ i ∧ i < levels⟦s + 1⟧ := by
    intro i
    rw [hp.mem_iff, List.mem_range'_1]
    have := hL.mono s ht'
    omega
  refine (h.group (P := fun i => levels⟦s + 1⟧ ≤ i) (hp.nodup_iff.mpr List.nodup_range') ?_ ?_ ?_ ?_ hlen
    hI).mono ?_
  · intro i hi
    have := hL.le_n ht'
    have := ((hmem i).mp hi).2
    omega
  · intro i hi
    have := ((hmem i).mp hi).2
    omega
  · intro i hi j _ hd
    exact hL.up ht' ((hmem i).mp hi).1 ((hmem i).mp hi).2 hd
  · intro i _ hi j _ hd
    have := hd.2
    omega
  · rintro y' ⟨h1, h2⟩
    refine ⟨h1, fun i hi hlt => h2 i hi ?_⟩
    rw [hmem]
    omega

theorem RowUpd.alevelsUp (h : RowUpd upd A.nbrows (LowDep A) f) (hL : LevelsOk A levels)
    {mix : Set M → Set M} (hm : MixOk mix) {x x' : List M} (hx : x.length = A.nbrows)
    (ha : ALevels upd mix (levelRows levels) x x') :
    x'.length = A.nbrows ∧ ∀ i < A.nbrows, x'⟦i⟧ = f i (get0 x') := by
  have hpos := hL.pos
  suffices H : ∀ (ls : List (List Nat)) (t : Nat) (x x' : List M), ls = (levelRows levels).drop t →
      t ≤ levels.length - 1 → x.length = A.nbrows → (∀ i < A.nbrows, i < levels⟦t⟧ → x⟦i⟧ = f i (get0 x)) →
      ALevels upd mix ls x x' → x'.length = A.nbrows ∧ ∀ i < A.nbrows, x'⟦i⟧ = f i (get0 x') from
    H _ 0 x x' (by simp) (Nat.zero_le _) hx (fun i _ hi => by rw [hL.zero] at hi; omega) ha
  intro ls t x x' hls ht hx hs ha
  have hlen : (levelRows levels).length = levels.length - 1 := by simp [levelRows]
  induction ha generalizing t with
  | nil x =>
    have : (levelRows levels).length ≤ t := by
      rw [← List.drop_eq_nil_iff]; exact hls.symm
    refine ⟨hx, fun i hi => hs i hi ?_⟩
    rw [show t = levels.length - 1 by omega, hL.last]
    exact hi
  | @cons rows ls x y z h1 h2 ih =>
    have htl : t < (levelRows levels).length := by
      by_contra hc
      rw [List.drop_eq_nil_iff.mpr (by omega)] at hls
      exact List.cons_ne_nil _ _ hls
    rw [List.drop_eq_getElem_cons htl] at hls
    obtain ⟨rfl, rfl⟩ := List.cons.inj hls
    have hrow : (levelRows levels)[t] = List.range' levels⟦t⟧ (levels⟦t + 1⟧ - levels⟦t⟧) := by
      simp [levelRows]
    rw [hrow] at h1
    have ht' : t + 1 < levels.length := by omega
    have hmem : ∀ i, i ∈ List.range' levels⟦t⟧ (levels⟦t + 1⟧ - levels⟦t⟧) ↔
        levels⟦t⟧ ≤ i ∧ i < levels⟦t + 1⟧ := by
      intro i
      rw [List.mem_range'_1]
      have := hL.mono t ht'
      omega
    have hg := h.alevel hm (P := fun i => i < levels⟦t⟧)
      (fun i hi => by have := ((hmem i).mp hi).1; omega)
      (fun i hi j _ hd => hL.low ht' ((hmem i).mp hi).1 ((hmem i).mp hi).2 hd)
      (fun i _ hi j _ hd => by have := hd.2; omega) hx hs h1
    refine ih (t + 1) rfl (by omega) hg.1 fun i hi hlt => hg.2 i hi ?_
    rw [hmem]
    omega

theorem RowUpd.alevelsDown (h : RowUpd upd A.nbrows (UpDep A) f) (hL : LevelsOk A levels)
    {mix : Set M → Set M} (hm : MixOk mix) {x x' : List M} (hx : x.length = A.nbrows)
    (ha : ALevels upd mix (levelRows levels).reverse x x') :
    x'.length = A.nbrows ∧ ∀ i < A.nbrows, x'⟦i⟧ = f i (get0 x') := by
  have hpos := hL.pos
  have hlen : (levelRows levels).length = levels.length - 1 := by simp [levelRows]
  suffices H : ∀ (ls : List (List Nat)) (t : Nat) (x x' : List M), ls = ((levelRows levels).take t).reverse →
      t ≤ levels.length - 1 → x.length = A.nbrows → (∀ i < A.nbrows, levels⟦t⟧ ≤ i → x⟦i⟧ = f i (get0 x)) →
      ALevels upd mix ls x x' → x'.length = A.nbrows ∧ ∀ i < A.nbrows, x'⟦i⟧ = f i (get0 x') from
    H _ (levels.length - 1) x x' (by rw [List.take_of_length_le (by omega)]) (Nat.le_refl _) hx
      (fun i _ hi => by rw [hL.last] at hi; omega) ha
  intro ls t x x' hls ht hx hs ha
  induction ha generalizing t with
  | nil x =>
    have h0 : t = 0 := by
      have := congrArg List.length hls
      simp at this
      omega
    refine ⟨hx, fun i hi => hs i hi ?_⟩
    rw [h0, hL.zero]
    omega
  | @cons rows ls x y z h1 h2 ih =>
    obtain ⟨s, rfl⟩ : ∃ s, t = s + 1 := by
      refine ⟨t - 1, ?_⟩
      rcases Nat.eq_zero_or_pos t with rfl | h
      · simp at hls
      · omega
    have hsl : s < (levelRows levels).length := by omega
    rw [List.take_succ_eq_append_getElem hsl, List.reverse_append, List.reverse_singleton,
      List.singleton_append] at hls
    obtain ⟨rfl, rfl⟩ := List.cons.inj hls
    have hrow : (levelRows levels)[s] = List.range' levels⟦s⟧ (levels⟦s + 1⟧ - levels⟦s⟧) := by
      simp [levelRows]
    rw [hrow] at h1
    have ht' : s + 1 < levels.length := by omega
    have hmem : ∀ i, i ∈ List.range' levels⟦s⟧ (levels⟦s + 1⟧ - levels⟦s⟧) ↔
        levels⟦s⟧ ≤ i ∧ i < levels⟦s + 1⟧ := by
      intro i
      rw [List.mem_range'_1]
      have := hL.mono s ht'
      omega
    have hg := h.alevel hm (P := fun i => levels⟦s + 1⟧ ≤ i)
      (fun i hi => by have := ((hmem i).mp hi).2; omega)
      (fun i hi j _ hd => hL.up ht' ((hmem i).mp hi).1 ((hmem i).mp hi).2 hd)
      (fun i _ hi j _ hd => by have := hd.2; omega) hx hs h1
    refine ih s rfl (by omega) hg.1 fun i hi hlt => hg.2 i hi ?_
    rw [hmem]
    omega

end levels

/-! ### Scaling and initialisation -/

section parts
variable [Zero M]

/-- The scaling of the code is the function `S` on segments. -/
def SegOk (scale : Option (Nat → M → C M)) (S : Nat → M → M) (n : Nat) : Prop :=
  match scale with
  | none => ∀ i < n, ∀ v, S i v = v
  | some s => ∀ i < n, ∀ v, s i v = .ok (S i v)

variable {scale : Option (Nat → M → C M)} {S : Nat → M → M} {n : Nat} {ord : List Nat}

theorem applyScaleIn_ok (hS : SegOk scale S n) (hord : ord.Perm (List.range n)) {r z : List M}
    (hr : r.length = n) (hz : z.length = n) :
    Ok (applyScaleIn n scale ord r z) (fun z' => z'.length = n ∧ ∀ i < n, z'⟦i⟧ = S i r⟦i⟧) := by
  cases scale with
  | none =>
    refine par_cells hord hz (fun i => S i r⟦i⟧) fun i hi z' hz' => ?_
    rw [rd_eq (by omega), ok_bind, wr_eq (by omega), hS i hi]
  | some s =>
    refine par_cells hord hz (fun i => S i r⟦i⟧) fun i hi z' hz' => ?_
    rw [rd_eq (by omega), ok_bind, hS i hi, ok_bind, wr_eq (by omega)]

theorem applyScaleOut_ok (hS : SegOk scale S n) (hord : ord.Perm (List.range n)) {z : List M}
    (hz : z.length = n) :
    Ok (applyScaleOut n scale ord z) (fun z' => z'.length = n ∧ ∀ i < n, z'⟦i⟧ = S i z⟦i⟧) := by
  cases scale with
  | none => exact Ok.pure ⟨hz, fun i hi => (hS i hi _).symm⟩
  | some s =>
    have hmem : ∀ i, i ∈ ord ↔ i < n := fun i => by rw [hord.mem_iff, List.mem_range]
    rw [applyScaleOut, parFor_eq hord]
    refine (forList_par (fun i => S i z⟦i⟧) (hord.nodup_iff.mpr List.nodup_range) (fun i hi => by
      rw [hz]; exact (hmem i).mp hi) (fun i hi z' hz' he => ?_)).mono ?_
    · have := (hmem i).mp hi
      rw [rd_eq (by omega), ok_bind, hS i this, ok_bind, wr_eq (by omega), he]
    · rintro z' ⟨h1, h2⟩
      rw [hz] at h1 h2
      exact ⟨h1, fun i hi => by rw [h2 i hi, if_pos ((hmem i).mpr hi)]⟩

theorem applyInitY_ok (init : ApplyInit) (hord : ord.Perm (List.range n)) {y : List M} (hy : y.length = n) :
    Ok (applyInitY n init ord y) (fun y' => y'.length = n) := by
  cases init with
  | none => exact Ok.pure hy
  | zero =>
    exact (par_cells hord hy (fun _ => (0 : M)) fun i hi y' hy' => wr_eq (by omega)).mono fun _ h => h.1
  | jacobi =>
    exact (par_cells hord hy (fun _ => (0 : M)) fun i hi y' hy' => wr_eq (by omega)).mono fun _ h => h.1

theorem sgsInitZ_ok (init : ApplyInit) (hord : ord.Perm (List.range n)) {y z : List M}
    (hy : y.length = n) (hz : z.length = n) :
    Ok (sgsInitZ n init ord y z) (fun z' => z'.length = n) := by
  cases init with
  | none => exact Ok.pure hz
  | zero =>
    exact (par_cells hord hz (fun _ => (0 : M)) fun i hi y' hy' => wr_eq (by omega)).mono fun _ h => h.1
  | jacobi =>
    refine (par_cells hord hz (fun i => y⟦i⟧) fun i hi z' hz' => ?_).mono fun _ h => h.1
    rw [rd_eq (by omega), ok_bind, wr_eq (by omega)]

theorem applyInitZ_ok {init : ApplyInit} (hi : init ≠ .none) (hord : ord.Perm (List.range n)) {y z : List M}
    (hy : y.length = n) (hz : z.length = n) :
    Ok (applyInitZ n init ord y z) (fun z' => z'.length = n) := by
  cases init with
  | none => exact absurd rfl hi
  | zero => exact sgsInitZ_ok .zero hord hy hz
  | jacobi => exact sgsInitZ_ok .jacobi hord hy hz

/-! ### The composed application -/

/-- The row kernel `upd rhs` for every right-hand side. -/
structure TriUpd (upd : List M → Nat → (Nat → C M) → C M) (N : Nat) (D : Nat → Nat → Prop)
    (f : (Nat → M) → Nat → (Nat → M) → M) : Prop where
  upd : ∀ rhs : List M, rhs.length = N → RowUpd (upd rhs) N D (f (get0 rhs))
  local_ : ∀ b b' : Nat → M, ∀ i x, b i = b' i → f b i x = f b' i x

/-- `z'` is the result of the forward solve with the scaled right-hand side, the backward solve, and the scaling. -/
def IluSolved (f g : (Nat → M) → Nat → (Nat → M) → M) (S : Nat → M → M) (n : Nat) (r z' : List M) : Prop :=
  z'.length = n ∧ ∃ y w : Nat → M, (∀ i < n, y i = f (fun i => S i r⟦i⟧) i y) ∧ (∀ i < n, w i = g y i w) ∧
    ∀ i < n, z'⟦i⟧ = S i (w i)

variable {lower upper : List M → Nat → (Nat → C M) → C M} {DL DU : Nat → Nat → Prop}
  {f g : (Nat → M) → Nat → (Nat → M) → M}

theorem IluSolved.of (hl : TriUpd lower n DL f) {r z₁ y z₃ z' : List M}
    (h1 : ∀ i < n, z₁⟦i⟧ = S i r⟦i⟧) (h2 : ∀ i < n, y⟦i⟧ = f (get0 z₁) i (get0 y))
    (h3 : ∀ i < n, z₃⟦i⟧ = g (get0 y) i (get0 z₃)) (h4 : z'.length = n) (h5 : ∀ i < n, z'⟦i⟧ = S i z₃⟦i⟧) :
    IluSolved f g S n r z' :=
  ⟨h4, get0 y, get0 z₃, fun i hi => (h2 i hi).trans (hl.local_ _ _ i _ (h1 i hi)), h3, h5⟩

theorem iluApplyWith_ok (hl : TriUpd lower n DL f) (hu : TriUpd upper n DU g) (hDL : ∀ i j, DL i j → j < i)
    (hDU : ∀ i j, DU i j → i < j) (hS : SegOk scale S n) {k : Nat} (hk : 1 ≤ k) {init : ApplyInit}
    (hi : init ≠ .none) {ord : Nat → List Nat} (hord : ∀ t, (ord t).Perm (List.range n)) {r z y : List M}
    (hr : r.length = n) (hz : z.length = n) (hy : y.length = n) :
    Ok (iluApplyWith lower upper n scale k init ord r z y)
      (fun p => p.2.length = n ∧ IluSolved f g S n r p.1) := by
  unfold iluApplyWith
  refine (applyScaleIn_ok hS (hord 0) hr hz).bind fun z₁ h1 => ?_
  refine (applyInitY_ok init (hord 1) hy).bind fun y₁ hy1 => ?_
  refine ((hl.upd z₁ h1.1).fwd hDL hk hy1).bind fun y₂ hy2 => ?_
  refine (applyInitZ_ok hi (hord 2) hy2.1 h1.1).bind fun z₂ hz2 => ?_
  refine ((hu.upd y₂ hy2.1).bwd hDU hk hz2).bind fun z₃ hz3 => ?_
  refine (applyScaleOut_ok hS (hord 3) hz3.1).bind fun z₄ hz4 => Ok.pure ⟨hy2.1, ?_⟩
  exact IluSolved.of hl h1.2 hy2.2 hz3.2 hz4.1 hz4.2

/-- Without initialisation there is an exception, if anything happens at all. -/
theorem iluApplyWith_none (hl : TriUpd lower n DL f) (hDL : ∀ i j, DL i j → j < i) (hS : SegOk scale S n)
    {k : Nat} (hk : 1 ≤ k) {ord : Nat → List Nat} (hord : ∀ t, (ord t).Perm (List.range n)) {r z y : List M}
    (hr : r.length = n) (hz : z.length = n) (hy : y.length = n) :
    iluApplyWith lower upper n scale k .none ord r z y =
      .error (.throw "std::runtime_error" " scalar_ilu0_apply: Invalid init type!") := by
  unfold iluApplyWith
  obtain ⟨z₁, e1, h1⟩ := applyScaleIn_ok hS (hord 0) hr hz
  obtain ⟨y₂, e2, h2⟩ := (hl.upd z₁ h1.1).fwd hDL hk hy
  rw [e1, ok_bind]
  show (fwdSweeps (lower z₁) n k y >>= _) = _
  rw [e2, ok_bind]
  rfl

theorem levelIluApplyWith_ok {A : SR V} {levels : List Nat} (hL : LevelsOk A levels)
    (hl : TriUpd lower A.nbrows (LowDep A) f) (hu : TriUpd upper A.nbrows (UpDep A) g)
    (hS : SegOk scale S A.nbrows) {sched sched' : Nat → List Nat → List Nat}
    (hsch : ∀ t l, (sched t l).Perm l) (hsch' : ∀ t l, (sched' t l).Perm l)
    {ord : Nat → List Nat} (hord : ∀ t, (ord t).Perm (List.range A.nbrows)) {r z y : List M}
    (hr : r.length = A.nbrows) (hz : z.length = A.nbrows) (hy : y.length = A.nbrows) :
    Ok (levelIluApplyWith lower upper A.nbrows levels sched sched' scale ord r z y)
      (fun p => p.2.length = A.nbrows ∧ IluSolved f g S A.nbrows r p.1) := by
  unfold levelIluApplyWith
  refine (applyScaleIn_ok hS (hord 0) hr hz).bind fun z₁ h1 => ?_
  refine ((hl.upd z₁ h1.1).levelUp hL hsch hy).bind fun y₂ hy2 => ?_
  refine ((hu.upd y₂ hy2.1).levelDown hL hsch' h1.1).bind fun z₃ hz3 => ?_
  refine (applyScaleOut_ok hS (hord 3) hz3.1).bind fun z₄ hz4 => Ok.pure ⟨hy2.1, ?_⟩
  exact IluSolved.of hl h1.2 hy2.2 hz3.2 hz4.1 hz4.2

theorem asyncLevelIluApply_ok {A : SR V} {levels : List Nat} (hL : LevelsOk A levels)
    (hl : TriUpd lower A.nbrows (LowDep A) f) (hu : TriUpd upper A.nbrows (UpDep A) g)
    (hS : SegOk scale S A.nbrows) {mix : Set M → Set M} (hm : MixOk mix)
    {ord : Nat → List Nat} (hord : ∀ t, (ord t).Perm (List.range A.nbrows)) {r z y z' y' : List M}
    (hr : r.length = A.nbrows) (hz : z.length = A.nbrows) (hy : y.length = A.nbrows)
    (h : AsyncLevelIluApply lower upper A.nbrows mix scale levels ord r z y z' y') :
    y'.length = A.nbrows ∧ IluSolved f g S A.nbrows r z' := by
  obtain ⟨z₁, z₃, e1, h2, h3, e4⟩ := h
  have h1 := (applyScaleIn_ok hS (hord 0) hr hz).post _ e1
  have hy2 := (hl.upd z₁ h1.1).alevelsUp hL hm hy h2
  have hz3 := (hu.upd y' hy2.1).alevelsDown hL hm h1.1 h3
  have hz4 := (applyScaleOut_ok hS (hord 3) hz3.1).post _ e4
  exact ⟨hy2.1, IluSolved.of hl h1.2 hy2.2 hz3.2 hz4.1 hz4.2⟩

/-! ### Existence of the solution -/

theorem RowUpd.exists_fwd {upd : Nat → (Nat → C M) → C M} {D : Nat → Nat → Prop} {f : Nat → (Nat → M) → M}
    (h : RowUpd upd n D f) (hD : ∀ i j, D i j → j < i) : ∃ e : Nat → M, ∀ i < n, e i = f i e := by
  obtain ⟨y, _, _, hy⟩ := h.fwd hD (k := 1) (Nat.le_refl _) (x := List.replicate n 0) (by simp)
  exact ⟨get0 y, hy⟩

theorem RowUpd.exists_bwd {upd : Nat → (Nat → C M) → C M} {D : Nat → Nat → Prop} {f : Nat → (Nat → M) → M}
    (h : RowUpd upd n D f) (hD : ∀ i j, D i j → i < j) : ∃ e : Nat → M, ∀ i < n, e i = f i e := by
  obtain ⟨y, _, _, hy⟩ := h.bwd hD (k := 1) (Nat.le_refl _) (x := List.replicate n 0) (by simp)
  exact ⟨get0 y, hy⟩

/-- As many asynchronous sweeps as rows solve a triangular system. -/
theorem RowUpd.arun_low {upd : Nat → (Nat → C M) → C M} {D : Nat → Nat → Prop} {f : Nat → (Nat → M) → M}
    (h : RowUpd upd n D f) (hD : ∀ i j, D i j → j < i) {mix : Set M → Set M} (hm : MixOk mix)
    {rank : Nat → Nat} (hr : ∀ i < n, ∀ j < n, D i j → rank j < rank i) {k : Nat} (hk : ∀ i < n, rank i < k)
    {x x' : List M} (hx : x.length = n) (ha : ARun upd mix k x x') :
    x'.length = n ∧ ∀ i < n, x'⟦i⟧ = f i (get0 x') := by
  obtain ⟨log, last, ha, rfl⟩ := ha
  obtain ⟨e, he⟩ := h.exists_fwd hD
  obtain ⟨h1, h2⟩ := h.rounds hm hr hk he hx ha
  refine ⟨h1, fun i hi => ?_⟩
  rw [h2 i hi, he i hi]
  exact h.dep i hi _ _ fun j hj _ => (h2 j hj).symm

theorem RowUpd.arun_up {upd : Nat → (Nat → C M) → C M} {D : Nat → Nat → Prop} {f : Nat → (Nat → M) → M}
    (h : RowUpd upd n D f) (hD : ∀ i j, D i j → i < j) {mix : Set M → Set M} (hm : MixOk mix)
    {rank : Nat → Nat} (hr : ∀ i < n, ∀ j < n, D i j → rank j < rank i) {k : Nat} (hk : ∀ i < n, rank i < k)
    {x x' : List M} (hx : x.length = n) (ha : ARun upd mix k x x') :
    x'.length = n ∧ ∀ i < n, x'⟦i⟧ = f i (get0 x') := by
  obtain ⟨log, last, ha, rfl⟩ := ha
  obtain ⟨e, he⟩ := h.exists_bwd hD
  obtain ⟨h1, h2⟩ := h.rounds hm hr hk he hx ha
  refine ⟨h1, fun i hi => ?_⟩
  rw [h2 i hi, he i hi]
  exact h.dep i hi _ _ fun j hj _ => (h2 j hj).symm

theorem asyncIluApply_ok (hl : TriUpd lower n DL f) (hu : TriUpd upper n DU g) (hDL : ∀ i j, DL i j → j < i)
    (hDU : ∀ i j, DU i j → i < j) (hS : SegOk scale S n) {mix : Set M → Set M} (hm : MixOk mix)
    {rankL rankU : Nat → Nat} (hrL : ∀ i < n, ∀ j < n, DL i j → rankL j < rankL i)
    (hrU : ∀ i < n, ∀ j < n, DU i j → rankU j < rankU i) {k : Nat} (hkL : ∀ i < n, rankL i < k)
    (hkU : ∀ i < n, rankU i < k) {init : ApplyInit}
    (hi : init ≠ .none) {ord : Nat → List Nat} (hord : ∀ t, (ord t).Perm (List.range n)) {r z y z' y' : List M}
    (hr : r.length = n) (hz : z.length = n) (hy : y.length = n)
    (h : AsyncIluApply lower upper n mix scale k init ord r z y z' y') :
    y'.length = n ∧ IluSolved f g S n r z' := by
  obtain ⟨z₁, y₁, z₂, z₃, e1, e2, h3, e4, h5, e6⟩ := h
  have h1 := (applyScaleIn_ok hS (hord 0) hr hz).post _ e1
  have hy1 := (applyInitY_ok init (hord 1) hy).post _ e2
  have hy2 := (hl.upd z₁ h1.1).arun_low hDL hm hrL hkL hy1 h3
  have hz2 := (applyInitZ_ok hi (hord 2) hy2.1 h1.1).post _ e4
  have hz3 := (hu.upd y' hy2.1).arun_up hDU hm hrU hkU hz2 h5
  have hz4 := (applyScaleOut_ok hS (hord 3) hz3.1).post _ e6
  exact ⟨hy2.1, IluSolved.of hl h1.2 hy2.2 hz3.2 hz4.1 hz4.2⟩

end parts

end Blasted
