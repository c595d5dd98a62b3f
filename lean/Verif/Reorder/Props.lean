import Verif.Reorder.Lemmas
import Mathlib.Algebra.Field.Rat
import Mathlib.Algebra.Order.Ring.Rat
import Mathlib.Data.List.Sort
import Mathlib.Tactic.FieldSimp
import Mathlib.Tactic.Ring

/-!
# Properties of reordering and scaling (C11–C15)
-/

namespace Blasted
open Finset

variable {K : Type}

/-! ### C11: installing an ordering -/

/-- `q` is the inverse of the permutation `p` of `0 … n-1`. -/
def InverseOf (p q : List Nat) (n : Nat) : Prop :=
  q.length = n ∧ (∀ i < n, q⟦p⟦i⟧⟧ = i) ∧ ∀ i < n, q⟦i⟧ < n ∧ p⟦q⟦i⟧⟧ = i

theorem inverse_loop_ok {p g : List Nat} {n : Nat} (hp : IsPerm p n) (hg : g.length = n) :
    Ok (forRange 0 n (fun i q => do
      let o ← rd p i
      wr q o i) g) (fun q => InverseOf p q n) := by
  have hl := hp.length
  refine (forRange_ok (fun t q => q.length = n ∧ ∀ i < t, q⟦p⟦i⟧⟧ = i) (Nat.zero_le _)
    ⟨hg, by simp⟩ ?_).mono ?_
  · rintro t q _ ht ⟨h1, h2⟩
    rw [rd_eq (by omega), ok_bind, wr_eq (by rw [h1]; exact hp.lt ht)]
    refine Ok.pure ⟨by simp [h1], fun i hi => ?_⟩
    by_cases e : i = t
    · subst e; rw [get0_set_self (by rw [h1]; exact hp.lt ht)]
    · rw [get0_set_ne (fun h => e (hp.inj ht (by omega) h).symm)]; exact h2 i (by omega)
  · rintro q ⟨h1, h2⟩
    refine ⟨h1, h2, fun i hi => ?_⟩
    obtain ⟨t, ht, rfl⟩ := hp.surj hi
    rw [h2 t ht]
    exact ⟨ht, rfl⟩

theorem vresize_length (v : List Nat) (n : Nat) : (vresize v n).length = n := by
  simp [vresize]; omega

/-- **C11** `invertPermutationVector` returns the two-sided inverse of every permutation. -/
theorem invert_permutation_correct (p : List Nat) (n : Nat) (hp : IsPerm p n) :
    ∃ q, invertPermutation p = .ok q ∧ InverseOf p q n := by
  unfold invertPermutation
  rw [hp.length]
  exact inverse_loop_ok hp (by simp)

theorem setOrderingDir_ok {o p ip : List Nat} {n : Nat} (ho : IsPerm o n) :
    Ok (setOrderingDir o n p ip) (fun r => r.1 = o ∧ InverseOf o r.2 n) := by
  have hl := ho.length
  unfold setOrderingDir
  refine Ok.bind (P := fun p' => p' = o) ?_ ?_
  · refine (forRange_map (a := vresize p n) (n := n) (fun i _ => o⟦i⟧) ?_).mono ?_
    · intro i hi a' ha'
      rw [vresize_length] at ha'
      rw [rd_eq (by omega), ok_bind, wr_eq (by omega)]
    · rintro p' ⟨h1, h2⟩
      rw [vresize_length] at h1
      refine ext_get0 (by omega) fun i hi => ?_
      rw [h2 i (by rw [vresize_length]; omega), if_pos (by omega)]
  · rintro p' rfl
    refine (inverse_loop_ok ho (vresize_length ip n)).bind fun q hq => Ok.pure ⟨rfl, hq⟩

/-- **C11** After installing an ordering, whatever was installed before, the stored vectors equal
the given permutations and the derived inverses undo them on both sides; a
direction for which no vector is given keeps what it had; the scalings are not touched. -/
theorem set_ordering_correct (r : RS K) (n : Nat) (rord cord : Option (List Nat))
    (hr : ∀ o ∈ rord, IsPerm o n) (hc : ∀ o ∈ cord, IsPerm o n) :
    ∃ r', setOrdering rord cord n r = .ok r' ∧
      (∀ o ∈ rord, r'.rp = o ∧ InverseOf o r'.irp n) ∧
      (∀ o ∈ cord, r'.cp = o ∧ InverseOf o r'.icp n) ∧
      (rord = none → r'.rp = r.rp ∧ r'.irp = r.irp) ∧
      (cord = none → r'.cp = r.cp ∧ r'.icp = r.icp) ∧
      r'.rowscale = r.rowscale ∧ r'.colscale = r.colscale := by
  have key : ∀ (ord : Option (List Nat)) (p ip : List Nat), (∀ o ∈ ord, IsPerm o n) →
      Ok (setOrderingOpt ord n p ip) (fun a => (∀ o ∈ ord, a.1 = o ∧ InverseOf o a.2 n) ∧
        (ord = none → a.1 = p ∧ a.2 = ip)) := by
    intro ord p ip h
    cases ord with
    | none => exact Ok.pure ⟨by simp, fun _ => ⟨rfl, rfl⟩⟩
    | some o =>
      refine (setOrderingDir_ok (h o rfl)).mono ?_
      rintro a ⟨h1, h2⟩
      refine ⟨?_, by simp⟩
      intro o' ho'
      cases ho'
      exact ⟨h1, h2⟩
  unfold setOrdering
  obtain ⟨a, ha, ha1, ha2⟩ := key rord r.rp r.irp hr
  obtain ⟨b, hb, hb1, hb2⟩ := key cord r.cp r.icp hc
  rw [ha, ok_bind, hb, ok_bind]
  exact ⟨_, rfl, ha1, hb1, ha2, hb2, rfl, rfl⟩

/-- **C11** A vector that is not a permutation (here `0, 0`) is accepted without any error. -/
theorem set_ordering_no_check :
    setOrdering (K := ℚ) (some [0, 0]) none 2 {} =
      .ok { rp := [0, 0], irp := [1, 0] } := by decide +kernel

example : IsPerm [1, 2, 0] 3 := by decide
example : setOrdering (K := ℚ) (some [1, 2, 0]) none 3 { rp := [0], irp := [0] } =
    .ok { rp := [1, 2, 0], irp := [2, 0, 1] } := by decide +kernel

/-! ### C12: reordering a matrix -/

/-- Where position `i` comes from: an absent ordering is the identity. -/
def at' (p : List Nat) (i : Nat) : Nat := if p.length > 0 then p⟦i⟧ else i

/-- The installed orderings are permutations of `0 … n-1` (or absent) and the
inverse column ordering is the inverse, as `setOrdering` leaves them. -/
structure RS.Valid (r : RS K) (n : Nat) : Prop where
  row : r.rp = [] ∨ IsPerm r.rp n
  col : r.cp = [] ∨ (IsPerm r.cp n ∧ InverseOf r.cp r.icp n)

/-- The orderings installed by `setOrdering` in a fresh object are valid. -/
theorem set_ordering_valid (n : Nat) (rord cord : Option (List Nat))
    (hr : ∀ o ∈ rord, IsPerm o n) (hc : ∀ o ∈ cord, IsPerm o n) :
    ∃ r', setOrdering rord cord n ({} : RS K) = .ok r' ∧ r'.Valid n := by
  obtain ⟨r', e, h1, h2, h3, h4, _, _⟩ := set_ordering_correct ({} : RS K) n rord cord hr hc
  refine ⟨r', e, ?_, ?_⟩
  · cases rord with
    | none => exact Or.inl (h3 rfl).1
    | some o => right; rw [(h1 o rfl).1]; exact hr o rfl
  · cases cord with
    | none => exact Or.inl (h4 rfl).1
    | some o => right; rw [(h2 o rfl).1]; exact ⟨hc o rfl, (h2 o rfl).2⟩

theorem at'_lt {p : List Nat} {n : Nat} (h : p = [] ∨ IsPerm p n) {i : Nat} (hi : i < n) :
    at' p i < n := by
  unfold at'
  rcases h with rfl | h
  · simpa using hi
  · split
    · exact h.lt hi
    · exact hi

theorem at'_inj {p : List Nat} {n : Nat} (h : p = [] ∨ IsPerm p n) {i j : Nat} (hi : i < n)
    (hj : j < n) (e : at' p i = at' p j) : i = j := by
  unfold at' at e
  rcases h with rfl | h
  · simpa using e
  · rw [if_pos (by rw [h.length]; omega), if_pos (by rw [h.length]; omega)] at e
    exact h.inj hi hj e

theorem at'_surj {p : List Nat} {n : Nat} (h : p = [] ∨ IsPerm p n) {j : Nat} (hj : j < n) :
    ∃ i < n, at' p i = j := by
  unfold at'
  rcases h with rfl | h
  · exact ⟨j, hj, by simp⟩
  · obtain ⟨i, hi, e⟩ := h.surj hj
    exact ⟨i, hi, by rw [if_pos (by rw [h.length]; omega)]; exact e⟩

theorem at'_sum {M : Type _} [AddCommMonoid M] {p : List Nat} {n : Nat} (h : p = [] ∨ IsPerm p n)
    (f : Nat → M) : ∑ i ∈ range n, f (at' p i) = ∑ i ∈ range n, f i := by
  unfold at'
  rcases h with rfl | h
  · simp
  · rw [← h.sum f]
    refine sum_congr rfl fun i hi => ?_
    rw [if_pos (by rw [h.length]; have := mem_range.mp hi; omega)]

/-- What a column is renamed to by the forward (`true`) or inverse operation. -/
def colName (r : RS K) : RSMode → Nat → Nat
  | .forward => fun j => if r.cp.length > 0 then r.icp⟦j⟧ else j
  | .inverse => fun j => if r.cp.length > 0 then r.cp⟦j⟧ else j

theorem RS.Valid.colName_inv {r : RS K} {n : Nat} (h : r.Valid n) {j : Nat} (hj : j < n) :
    colName r .forward j < n ∧ colName r .inverse j < n ∧
    colName r .inverse (colName r .forward j) = j ∧ colName r .forward (colName r .inverse j) = j := by
  unfold colName
  rcases h.col with e | ⟨h1, h2, h3, h4⟩
  · simp [e, hj]
  · have : r.cp.length > 0 := by rw [h1.length]; omega
    simp only [this, if_true]
    exact ⟨(h4 j hj).1, h1.lt hj, (h4 j hj).2, h3 j hj⟩

/-- Relation between the rows of a matrix and those of a row-wise copy with renamed columns. -/
def RowImage [Zero K] (m : Nat) (r : RS K) (mode : RSMode) (A B : SR K) (ia ib : Nat) : Prop :=
  (B.row m ib).Perm ((A.row m ia).map fun e => (colName r mode e.1, e.2)) ∧
  (r.cp = [] → B.row m ib = A.row m ia) ∧
  (r.cp ≠ [] → (B.row m ib).Pairwise fun a b => a.1 ≤ b.1)

structure SameFrame (A B : SR K) : Prop where
  nbrows : B.nbrows = A.nbrows
  diagind : B.diagind = A.diagind
  nnzb : B.nnzb = A.nnzb
  nbstored : B.nbstored = A.nbstored

theorem SR.Full.end_tail [Zero K] {A : SR K} {m : Nat} (hA : A.Full m) :
    A.browendptr = A.browptr.tail := by
  refine ext_get0 (by rw [hA.end_len, List.length_tail, hA.ptr_len]; rfl) fun i hi => ?_
  rw [hA.end_len] at hi
  rw [hA.end_eq i hi, get0_tail]

/-- The row half of `applyOrdering`. -/
theorem orderRows_ok [Zero K] {A : SR K} {m : Nat} (hA : A.Full m) {r : RS K}
    (hr : r.Valid A.nbrows) (mode : RSMode) :
    Ok (orderRows m r mode A) (fun B => B.Full m ∧ SameFrame A B ∧
      ∀ i < A.nbrows, match mode with
        | .forward => B.row m i = A.row m (at' r.rp i)
        | .inverse => B.row m (at' r.rp i) = A.row m i) := by
  unfold orderRows
  by_cases h0 : r.rp.length > 0
  · rw [if_pos h0]
    have hp : IsPerm r.rp A.nbrows := by
      rcases hr.row with e | h
      · rw [e] at h0; simp at h0
      · exact h
    have hat : ∀ i, at' r.rp i = r.rp⟦i⟧ := fun i => if_pos h0
    cases mode with
    | forward =>
      refine (reorderRowsFwd_ok hA hp).mono ?_
      rintro B ⟨h1, h2, h3, h4, h5, h6⟩
      rw [← h3] at h1
      refine ⟨h1.full h2 ?_, ⟨h3, h4, h5, h6⟩, fun i hi => ?_⟩
      · intro i hi e he
        rw [h3] at hi ⊢
        exact hA.row_col_lt (hp.lt hi) he
      · rw [hat]; exact h1.row_eq (by omega)
    | inverse =>
      obtain ⟨S, hS⟩ : ∃ S : Nat → List (CSEntry K), ∀ i < A.nbrows, S r.rp⟦i⟧ = A.row m i := by
        obtain ⟨q, _, _, hq, _⟩ := invert_permutation_correct r.rp A.nbrows hp
        exact ⟨fun j => A.row m q⟦j⟧, fun i hi => by simp only; rw [hq i hi]⟩
      refine (reorderRowsInv_ok hA hp hS).mono ?_
      rintro B ⟨h1, h2, h3, h4, h5, h6⟩
      rw [← h3] at h1
      refine ⟨h1.full h2 ?_, ⟨h3, h4, h5, h6⟩, fun i hi => ?_⟩
      · intro i hi e he
        rw [h3] at hi ⊢
        obtain ⟨t, ht, rfl⟩ := hp.surj hi
        rw [hS t ht] at he
        exact hA.row_col_lt ht he
      · simp only
        rw [hat, ← hS i hi]; exact h1.row_eq (by rw [h3]; exact hp.lt hi)
  · rw [if_neg h0]
    refine Ok.pure ⟨hA, ⟨rfl, rfl, rfl, rfl⟩, fun i hi => ?_⟩
    have : at' r.rp i = i := if_neg h0
    rw [this]
    cases mode <;> rfl

theorem orderCols_ok [Zero K] {A : SR K} {m : Nat} (hA : A.Full m) {r : RS K}
    (hr : r.Valid A.nbrows) (mode : RSMode) {ord : List Nat} (hord : IsPerm ord A.nbrows) :
    Ok (orderCols m r mode ord A) (fun B => B.Full m ∧ SameFrame A B ∧
      ∀ i < A.nbrows, RowImage m r mode A B i i) := by
  unfold orderCols
  by_cases h0 : r.cp.length > 0
  · rw [if_pos h0]
    have hne : r.cp ≠ [] := by intro e; rw [e] at h0; simp at h0
    obtain ⟨h1, h2, h3, h4⟩ := hr.col.resolve_left hne
    cases mode with
    | forward =>
      refine (permuteCols_ok hA h2 (fun j hj => (h4 j hj).1) hord).mono ?_
      rintro B ⟨g1, _, _, g4, g5, g6, g7, g8⟩
      refine ⟨g1, ⟨g4, g5, g6, g7⟩, fun i hi => ⟨?_, fun h => absurd h hne, fun _ => (g8 i hi).2⟩⟩
      simpa [colName, h0] using (g8 i hi).1
    | inverse =>
      refine (permuteCols_ok hA h1.length (fun j hj => h1.lt hj) hord).mono ?_
      rintro B ⟨g1, _, _, g4, g5, g6, g7, g8⟩
      refine ⟨g1, ⟨g4, g5, g6, g7⟩, fun i hi => ⟨?_, fun h => absurd h hne, fun _ => (g8 i hi).2⟩⟩
      simpa [colName, h0] using (g8 i hi).1
  · rw [if_neg h0]
    have he : r.cp = [] := by
      rcases hc : r.cp with _ | ⟨a, l⟩
      · rfl
      · rw [hc] at h0; simp at h0
    refine Ok.pure ⟨hA, ⟨rfl, rfl, rfl, rfl⟩, fun i _ => ⟨?_, fun _ => rfl, fun h => absurd he h⟩⟩
    have : (fun e : CSEntry K => (colName r mode e.1, e.2)) = id := by
      funext e; cases mode <;> simp [colName, he]
    rw [this, List.map_id]

/-- The rows after `applyOrdering`. -/
theorem applyOrdering_rows [Zero K] {A : SR K} {m : Nat} (hA : A.Full m) {r : RS K}
    (hr : r.Valid A.nbrows) (mode : RSMode) {ord : List Nat} (hord : IsPerm ord A.nbrows) :
    Ok (applyOrdering m r mode ord A) (fun B => B.Full m ∧ SameFrame A B ∧
      ∀ i < A.nbrows, match mode with
        | .forward => RowImage m r mode A B (at' r.rp i) i
        | .inverse => RowImage m r mode A B i (at' r.rp i)) := by
  unfold applyOrdering
  refine (orderRows_ok hA hr mode).bind ?_
  rintro B ⟨h1, h2, h3⟩
  have hn := h2.nbrows
  refine (orderCols_ok h1 (by rw [hn]; exact hr) mode (by rw [hn]; exact hord)).mono ?_
  rintro B' ⟨g1, g2, g3⟩
  refine ⟨g1, ⟨g2.1.trans h2.1, g2.2.trans h2.2, g2.3.trans h2.3, g2.4.trans h2.4⟩, fun i hi => ?_⟩
  cases mode with
  | forward =>
    simp only at h3 ⊢
    have := g3 i (by omega)
    unfold RowImage at this ⊢
    rw [h3 i hi] at this
    exact this
  | inverse =>
    simp only at h3 ⊢
    have := g3 (at' r.rp i) (by rw [hn]; exact at'_lt hr.row hi)
    unfold RowImage at this ⊢
    rw [h3 i hi] at this
    exact this

theorem rowCell_map [AddCommMonoid K] {l : List (CSEntry K)} {f : Nat → Nat} {j j' c n : Nat}
    (hl : ∀ e ∈ l, e.1 < n) (hf : ∀ t < n, f t = j ↔ t = j') :
    rowCell (l.map fun e => (f e.1, e.2)) j c = rowCell l j' c := by
  unfold rowCell
  rw [List.map_map]
  congr 1
  refine List.map_congr_left fun e he => ?_
  have := hf e.1 (hl e he)
  simp only [Function.comp_def]
  by_cases h : f e.1 = j
  · rw [if_pos h, if_pos (this.mp h)]
  · rw [if_neg h, if_neg (fun h' => h (this.mpr h'))]

theorem RowImage.cell [AddCommMonoid K] {A B : SR K} {m : Nat} (hA : A.Full m) (hB : B.Full m)
    (hn : B.nbrows = A.nbrows) {r : RS K} {mode : RSMode} {ia ib : Nat} (hia : ia < A.nbrows)
    (hib : ib < A.nbrows) (h : RowImage m r mode A B ia ib) {j j' : Nat}
    (hf : ∀ t < A.nbrows, colName r mode t = j ↔ t = j') {c : Nat} (hc : c < m) :
    B.cell m ib j c = A.cell m ia j' c := by
  rw [hB.cell_eq (by omega) j hc, hA.cell_eq hia j' hc, rowCell_perm h.1,
    rowCell_map (fun e he => hA.row_col_lt hia he) hf]

theorem RS.Valid.at_cp {r : RS K} {n : Nat} (_h : r.Valid n) (j : Nat) :
    at' r.cp j = colName r .inverse j := rfl

/-- Column indices of a row do not decrease. -/
def SR.WeaklySorted {V : Type _} (A : SR V) : Prop :=
  ∀ i < A.nbrows, ∀ k l, A.browptr⟦i⟧ ≤ k → k ≤ l → l < A.browptr⟦i + 1⟧ →
    A.bcolind⟦k⟧ ≤ A.bcolind⟦l⟧

/-- No column index occurs twice in a row. -/
def SR.NoRepeats {V : Type _} (A : SR V) : Prop :=
  ∀ i < A.nbrows, ∀ k l, A.InRow i k → A.InRow i l → A.bcolind⟦k⟧ = A.bcolind⟦l⟧ → k = l

theorem weaklySorted_of_rows [Zero K] {A : SR K} {m : Nat}
    (h : ∀ i < A.nbrows, (A.row m i).Pairwise fun a b => a.1 ≤ b.1) : A.WeaklySorted := by
  intro i hi k l hk hkl hl
  rcases Nat.eq_or_lt_of_le hkl with rfl | hlt
  · exact Nat.le_refl _
  have hp := h i hi
  rw [SR.row, segEntries, List.pairwise_map, List.pairwise_iff_getElem] at hp
  have := hp (k - A.browptr⟦i⟧) (l - A.browptr⟦i⟧) (by simp; omega) (by simp; omega) (by omega)
  simp only [List.getElem_range] at this
  rwa [show A.browptr⟦i⟧ + (k - A.browptr⟦i⟧) = k by omega,
    show A.browptr⟦i⟧ + (l - A.browptr⟦i⟧) = l by omega] at this

theorem noRepeats_iff [Zero K] {A : SR K} (m : Nat) :
    A.NoRepeats ↔ ∀ i < A.nbrows, ((A.row m i).map Prod.fst).Nodup := by
  have hmap : ∀ i, (A.row m i).map Prod.fst =
      (List.range (A.browptr⟦i + 1⟧ - A.browptr⟦i⟧)).map fun q => A.bcolind⟦A.browptr⟦i⟧ + q⟧ := by
    intro i
    simp [SR.row, segEntries]
  constructor
  · intro h i hi
    rw [hmap, List.nodup_map_iff_inj_on List.nodup_range]
    intro a ha b hb e
    rw [List.mem_range] at ha hb
    have := h i hi _ _ ⟨by omega, by omega⟩ ⟨by omega, by omega⟩ e
    omega
  · intro h i hi k l ⟨hk1, hk2⟩ ⟨hl1, hl2⟩ e
    have := h i hi
    rw [hmap, List.nodup_map_iff_inj_on List.nodup_range] at this
    have := this (k - A.browptr⟦i⟧) (by simp; omega) (l - A.browptr⟦i⟧) (by simp; omega) (by
      rwa [show A.browptr⟦i⟧ + (k - A.browptr⟦i⟧) = k by omega,
        show A.browptr⟦i⟧ + (l - A.browptr⟦i⟧) = l by omega])
    omega

theorem sorted_of_weak {V : Type _} {A : SR V} (h : A.WeaklySorted) (h' : A.NoRepeats) : A.Sorted := by
  intro i hi k l hk hkl hl
  rcases Nat.lt_or_eq_of_le (h i hi k l hk (by omega) hl) with h1 | h1
  · exact h1
  · have := h' i hi k l ⟨hk, by omega⟩ ⟨by omega, hl⟩ h1
    omega

theorem SR.Sorted.noRepeats {V : Type _} {A : SR V} (h : A.Sorted) : A.NoRepeats := by
  intro i hi k l ⟨h1, h2⟩ ⟨h3, h4⟩ e
  rcases Nat.lt_trichotomy k l with hlt | rfl | hlt
  · have := h i hi k l h1 hlt h4; omega
  · rfl
  · have := h i hi l k h3 hlt h2; omega

theorem RowImage.nodup [Zero K] {A B : SR K} {m : Nat} (hA : A.Full m) {r : RS K}
    (hr : r.Valid A.nbrows) {mode : RSMode} {ia ib : Nat} (hia : ia < A.nbrows)
    (h : RowImage m r mode A B ia ib) (hnd : ((A.row m ia).map Prod.fst).Nodup) :
    ((B.row m ib).map Prod.fst).Nodup := by
  rw [(h.1.map Prod.fst).nodup_iff, List.map_map]
  have : (Prod.fst ∘ fun e : CSEntry K => (colName r mode e.1, e.2)) = colName r mode ∘ Prod.fst := rfl
  rw [this, ← List.map_map, List.nodup_map_iff_inj_on hnd]
  intro a ha b hb e
  rw [List.mem_map] at ha hb
  obtain ⟨ea, hea, rfl⟩ := ha
  obtain ⟨eb, heb, rfl⟩ := hb
  have h1 := hr.colName_inv (hA.row_col_lt hia hea)
  have h2 := hr.colName_inv (hA.row_col_lt hia heb)
  cases mode with
  | forward => rw [← h1.2.2.1, e, h2.2.2.1]
  | inverse => rw [← h1.2.2.2, e, h2.2.2.2]

/-- **C12** Forward reordering: entry `(i,j)` of the result (cell by cell, for blocks of any size) is
entry `(rp(i), cp(j))` of the original, for every valid pair of (possibly absent)
permutations and every schedule of the parallel loop; if columns are reordered, the result has sorted
rows, strictly sorted if no column was repeated. -/
theorem apply_ordering_forward [AddCommMonoid K] (A : SR K) (m : Nat) (hA : A.Full m) (r : RS K)
    (hr : r.Valid A.nbrows) (ord : List Nat) (hord : ord.Perm (List.range A.nbrows)) :
    ∃ B, applyOrdering m r .forward ord A = .ok B ∧ B.Full m ∧ B.nbrows = A.nbrows ∧
      B.diagind = A.diagind ∧
      (∀ i < A.nbrows, ∀ j < A.nbrows, ∀ c < m,
        B.cell m i j c = A.cell m (at' r.rp i) (at' r.cp j) c) ∧
      (r.cp ≠ [] → B.WeaklySorted) ∧ (r.cp ≠ [] → A.NoRepeats → B.Sorted) ∧
      (r.cp = [] → A.Sorted → B.Sorted) := by
  obtain ⟨B, e, hB, hf, hrow⟩ := applyOrdering_rows hA hr .forward hord
  simp only at hrow
  have hn := hf.nbrows
  have hws : r.cp ≠ [] → B.WeaklySorted := fun hne =>
    weaklySorted_of_rows (m := m) fun i hi => (hrow i (by omega)).2.2 hne
  refine ⟨B, e, hB, hn, hf.diagind, ?_, hws, ?_, ?_⟩
  · intro i hi j hj c hc
    refine (hrow i hi).cell hA hB hn (at'_lt hr.row hi) hi (fun t ht => ?_) hc
    have h1 := hr.colName_inv ht
    have h2 := hr.colName_inv hj
    rw [hr.at_cp]
    constructor
    · rintro rfl; exact h1.2.2.1.symm
    · rintro rfl; exact h2.2.2.2
  · intro hne hnr
    refine sorted_of_weak (hws hne) ((noRepeats_iff m).mpr fun i hi => ?_)
    have hi : i < A.nbrows := by omega
    exact (hrow i hi).nodup hA hr (at'_lt hr.row hi)
      ((noRepeats_iff m).mp hnr _ (at'_lt hr.row hi))
  · intro he hs
    refine sorted_of_weak (weaklySorted_of_rows (m := m) fun i hi => ?_)
      ((noRepeats_iff m).mpr fun i hi => ?_)
    · rw [(hrow i (by omega)).2.1 he]
      rw [SR.row, segEntries, List.pairwise_map, List.pairwise_iff_getElem]
      intro a b ha hb hab
      have hlt := at'_lt hr.row (show i < A.nbrows by omega)
      simp only [List.getElem_range]
      simp only [List.length_range] at ha hb
      exact Nat.le_of_lt (hs _ hlt _ _ (by omega) (by omega) (by omega))
    · rw [(hrow i (by omega)).2.1 he]
      exact (noRepeats_iff m).mp hs.noRepeats _ (at'_lt hr.row (by omega))

/-- **C12** Inverse reordering: entry `(rp(i), cp(j))` of the result is entry `(i,j)` of the
original. -/
theorem apply_ordering_inverse [AddCommMonoid K] (A : SR K) (m : Nat) (hA : A.Full m) (r : RS K)
    (hr : r.Valid A.nbrows) (ord : List Nat) (hord : ord.Perm (List.range A.nbrows)) :
    ∃ B, applyOrdering m r .inverse ord A = .ok B ∧ B.Full m ∧ B.nbrows = A.nbrows ∧
      B.diagind = A.diagind ∧
      (∀ i < A.nbrows, ∀ j < A.nbrows, ∀ c < m,
        B.cell m (at' r.rp i) (at' r.cp j) c = A.cell m i j c) ∧
      (r.cp ≠ [] → B.WeaklySorted) ∧ (r.cp ≠ [] → A.NoRepeats → B.Sorted) := by
  obtain ⟨B, e, hB, hf, hrow⟩ := applyOrdering_rows hA hr .inverse hord
  simp only at hrow
  have hn := hf.nbrows
  have hws : r.cp ≠ [] → B.WeaklySorted := fun hne =>
    weaklySorted_of_rows (m := m) fun i hi => by
      obtain ⟨t, ht, rfl⟩ := at'_surj hr.row (show i < A.nbrows by omega)
      exact (hrow t ht).2.2 hne
  refine ⟨B, e, hB, hn, hf.diagind, ?_, hws, ?_⟩
  · intro i hi j hj c hc
    refine (hrow i hi).cell hA hB hn hi (at'_lt hr.row hi) (fun t ht => ?_) hc
    have h1 := hr.colName_inv ht
    have h2 := hr.colName_inv hj
    rw [hr.at_cp]
    constructor
    · intro h; rw [← h1.2.2.2, h, h2.2.2.2]
    · rintro rfl; rfl
  · intro hne hnr
    refine sorted_of_weak (hws hne) ((noRepeats_iff m).mpr fun i hi => ?_)
    obtain ⟨t, ht, rfl⟩ := at'_surj hr.row (show i < A.nbrows by omega)
    exact (hrow t ht).nodup hA hr ht ((noRepeats_iff m).mp hnr _ ht)

theorem row_eq_of_perm [Zero K] {l l' : List (CSEntry K)} (hp : l'.Perm l)
    (hs : l.Pairwise fun a b => a.1 < b.1) (hs' : l'.Pairwise fun a b => a.1 ≤ b.1) : l' = l := by
  have hnd : (l'.map Prod.fst).Nodup := by
    rw [(hp.map Prod.fst).nodup_iff]
    rw [List.nodup_iff_pairwise_ne, List.pairwise_map]
    exact hs.imp fun h => Nat.ne_of_lt h
  have hlt : l'.Pairwise fun a b => a.1 < b.1 := by
    rw [List.nodup_iff_pairwise_ne, List.pairwise_map] at hnd
    exact (hs'.and hnd).imp fun h => Nat.lt_of_le_of_ne h.1 h.2
  exact hp.eq_of_pairwise (fun a b _ _ h1 h2 => absurd h1 (by omega)) hlt hs

theorem SR.Sorted.row [Zero K] {A : SR K} (hs : A.Sorted) (m : Nat) {i : Nat} (hi : i < A.nbrows) :
    (A.row m i).Pairwise fun a b => a.1 < b.1 := by
  rw [SR.row, segEntries, List.pairwise_map, List.pairwise_iff_getElem]
  intro a b ha hb hab
  simp only [List.getElem_range]
  simp only [List.length_range] at ha hb
  exact hs i hi _ _ (by omega) (by omega) (by omega)

/-- Reordering one way and then the other: rows come back (as multisets, and exactly if sorted). -/
theorem applyOrdering_roundtrip [Zero K] {A : SR K} {m : Nat} (hA : A.Full m) {r : RS K}
    (hr : r.Valid A.nbrows) {mode mode' : RSMode} (hmm : mode ≠ mode') {ord ord' : List Nat}
    (hord : IsPerm ord A.nbrows) (hord' : IsPerm ord' A.nbrows) :
    Ok (applyOrdering m r mode ord A) (fun B => B.Full m ∧ Ok (applyOrdering m r mode' ord' B) (fun B' =>
      B'.Full m ∧ SameFrame A B' ∧ ∀ i < A.nbrows, (B'.row m i).Perm (A.row m i) ∧
        (r.cp = [] → B'.row m i = A.row m i) ∧
        (r.cp ≠ [] → (B'.row m i).Pairwise fun a b => a.1 ≤ b.1))) := by
  refine (applyOrdering_rows hA hr mode hord).mono ?_
  rintro B ⟨hB, hf, hrow⟩
  have hn := hf.nbrows
  refine ⟨hB, (applyOrdering_rows hB (by rw [hn]; exact hr) mode' (by rw [hn]; exact hord')).mono ?_⟩
  rintro B' ⟨hB', hf', hrow'⟩
  refine ⟨hB', ⟨hf'.1.trans hf.1, hf'.2.trans hf.2, hf'.3.trans hf.3, hf'.4.trans hf.4⟩, ?_⟩
  rw [hn] at hrow'
  have key : ∀ ia ib, ia < A.nbrows → RowImage m r mode A B ia ib → RowImage m r mode' B B' ib ia →
      (B'.row m ia).Perm (A.row m ia) ∧ (r.cp = [] → B'.row m ia = A.row m ia) ∧
      (r.cp ≠ [] → (B'.row m ia).Pairwise fun a b => a.1 ≤ b.1) := by
    intro ia ib hia h1 h2
    refine ⟨?_, fun he => (h2.2.1 he).trans (h1.2.1 he), h2.2.2⟩
    refine (h2.1.trans (h1.1.map _)).trans ?_
    rw [List.map_map]
    have : (A.row m ia).map ((fun e : CSEntry K => (colName r mode' e.1, e.2)) ∘
        fun e => (colName r mode e.1, e.2)) = (A.row m ia).map id := by
      refine List.map_congr_left fun e he => ?_
      have h3 := hr.colName_inv (hA.row_col_lt hia he)
      cases mode <;> cases mode' <;> simp_all
    rw [this, List.map_id]
  intro i hi
  cases mode <;> cases mode'
  · exact absurd rfl hmm
  · simp only at hrow hrow'
    obtain ⟨t, ht, rfl⟩ := at'_surj hr.row hi
    exact key _ t hi (hrow t ht) (hrow' t ht)
  · simp only at hrow hrow'
    exact key i _ hi (hrow i hi) (hrow' i hi)
  · exact absurd rfl hmm

/-- **C12** Applying FORWARD and then INVERSE (or INVERSE and then FORWARD) restores the denoted
matrix; if the rows were strictly sorted, it restores every array of the storage. -/
theorem apply_ordering_roundtrip [AddCommMonoid K] (A : SR K) (m : Nat) (hA : A.Full m) (r : RS K)
    (hr : r.Valid A.nbrows) (mode mode' : RSMode) (hmm : mode ≠ mode') (ord ord' : List Nat)
    (hord : ord.Perm (List.range A.nbrows)) (hord' : ord'.Perm (List.range A.nbrows)) :
    ∃ B B', applyOrdering m r mode ord A = .ok B ∧ applyOrdering m r mode' ord' B = .ok B' ∧
      (∀ i < A.nbrows, ∀ j < A.nbrows, ∀ c < m, B'.cell m i j c = A.cell m i j c) ∧
      (A.Sorted → B' = A) := by
  obtain ⟨B, e, hB, B', e', hB', hf, hrow⟩ := applyOrdering_roundtrip hA hr hmm hord hord'
  have hn := hf.nbrows
  refine ⟨B, B', e, e', fun i hi j _ c hc => ?_, fun hs => ?_⟩
  · rw [hB'.cell_eq (by omega) j hc, hA.cell_eq hi j hc, rowCell_perm (hrow i hi).1]
  · have hrows : ∀ i < A.nbrows, B'.row m i = A.row m i := by
      intro i hi
      by_cases hc : r.cp = []
      · exact (hrow i hi).2.1 hc
      · exact row_eq_of_perm (hrow i hi).1 (hs.row m hi) ((hrow i hi).2.2 hc)
    have h1 := hB'.rows
    rw [hn] at h1
    obtain ⟨p1, p2, p3⟩ := (h1.congr hrows).unique hA.rows
    have p4 : B'.browendptr = A.browendptr := by rw [hB'.end_tail, hA.end_tail, p1]
    have q1 := hf.1
    have q2 := hf.2
    have q3 := hf.3
    have q4 := hf.4
    cases B'; cases A
    simp_all

/-- **C12** in terms of scalar entries of the block matrix. -/
theorem apply_ordering_forward_bentry [AddCommMonoid K] (stor : Stor) (bs : Nat) (A : SR K)
    (hA : A.Full (bs * bs)) (r : RS K) (hr : r.Valid A.nbrows) (ord : List Nat)
    (hord : ord.Perm (List.range A.nbrows)) :
    ∃ B, applyOrdering (bs * bs) r .forward ord A = .ok B ∧ B.Full (bs * bs) ∧ B.nbrows = A.nbrows ∧
      ∀ i < A.nbrows, ∀ j < A.nbrows, ∀ a < bs, ∀ b < bs,
        B.bentry stor bs (i * bs + a) (j * bs + b) =
          A.bentry stor bs (at' r.rp i * bs + a) (at' r.cp j * bs + b) := by
  obtain ⟨B, e, hB, hn, _, h, _⟩ := apply_ordering_forward A (bs * bs) hA r hr ord hord
  refine ⟨B, e, hB, hn, fun i hi j hj a ha b hb => ?_⟩
  have hd : ∀ t c, c < bs → (t * bs + c) / bs = t ∧ (t * bs + c) % bs = c := by
    intro t c hc
    rw [Nat.mul_comm]
    exact ⟨by rw [Nat.mul_add_div (by omega), Nat.div_eq_of_lt hc, Nat.add_zero],
      by rw [Nat.mul_add_mod, Nat.mod_eq_of_lt hc]⟩
  unfold SR.bentry
  rw [(hd i a ha).1, (hd j b hb).1, (hd i a ha).2, (hd j b hb).2, (hd _ a ha).1, (hd _ a ha).2,
    (hd _ b hb).1, (hd _ b hb).2]
  exact h i hi j hj _ (Stor.off_lt stor ha hb)

/-! ### C13: reordering vectors -/

/-- A loop writing a segment of `bs` cells. -/
theorem segLoop_ok [Zero K] {bs p : Nat} {vec : List K} {body : Nat → List K → C (List K)}
    (f : Nat → K) (hp : p * bs + bs ≤ vec.length)
    (hbody : ∀ k < bs, ∀ v : List K, v.length = vec.length → v⟦p * bs + k⟧ = vec⟦p * bs + k⟧ →
      body k v = .ok (v.set (p * bs + k) (f k))) :
    Ok (forRange 0 bs body vec) (fun v => v.length = vec.length ∧
      (∀ k < bs, v⟦p * bs + k⟧ = f k) ∧ ∀ q, q ≠ p → ∀ k < bs, v⟦q * bs + k⟧ = vec⟦q * bs + k⟧) := by
  refine (forRange_ok (fun t v => v.length = vec.length ∧ (∀ k < t, v⟦p * bs + k⟧ = f k) ∧
    (∀ k < bs, t ≤ k → v⟦p * bs + k⟧ = vec⟦p * bs + k⟧) ∧
    ∀ q, q ≠ p → ∀ k < bs, v⟦q * bs + k⟧ = vec⟦q * bs + k⟧) (Nat.zero_le _)
    ⟨rfl, by simp, fun _ _ _ => rfl, fun _ _ _ _ => rfl⟩ ?_).mono fun v h => ⟨h.1, h.2.1, h.2.2.2⟩
  rintro t v _ ht ⟨h1, h2, h3, h4⟩
  rw [hbody t ht v h1 (h3 t ht (Nat.le_refl _))]
  refine Ok.pure ⟨by simp [h1], fun k hk => ?_, fun k hk hkt => ?_, fun q hq k hk => ?_⟩
  · rw [get0_set]
    by_cases e : t = k
    · subst e; rw [if_pos ⟨rfl, by omega⟩]
    · rw [if_neg (by omega)]; exact h2 k (by omega)
  · rw [get0_set_ne (by omega)]; exact h3 k hk (by omega)
  · rw [get0_set_ne (fun e => hq (blk_inj ht hk e).1.symm)]; exact h4 q hq k hk

/-- A parallel loop over segments: iteration `i` writes segment `σ i`. -/
theorem segsLoop_ok [Zero K] {bs n : Nat} {ord : List Nat} (hord : IsPerm ord n) {vec : List K}
    (hv : vec.length = n * bs) {body : Nat → List K → C (List K)} (σ : Nat → Nat) (f : Nat → Nat → K)
    (hinj : ∀ i < n, ∀ j < n, σ i = σ j → i = j)
    (hbody : ∀ i < n, ∀ v : List K, v.length = vec.length →
      (∀ k < bs, v⟦σ i * bs + k⟧ = vec⟦σ i * bs + k⟧) →
      Ok (body i v) (fun w => w.length = v.length ∧ (∀ k < bs, w⟦σ i * bs + k⟧ = f i k) ∧
        ∀ q, q ≠ σ i → ∀ k < bs, w⟦q * bs + k⟧ = v⟦q * bs + k⟧)) :
    Ok (forList ord body vec) (fun w => w.length = vec.length ∧
      ∀ i < n, ∀ k < bs, w⟦σ i * bs + k⟧ = f i k) := by
  have hmem : ∀ i, i ∈ ord ↔ i < n := fun i => by rw [hord.mem_iff, List.mem_range]
  have hnd : ord.Nodup := hord.nodup_iff.mpr List.nodup_range
  refine (forList_ok (fun done (w : List K) => w.length = vec.length ∧
    (∀ i ∈ done, ∀ k < bs, w⟦σ i * bs + k⟧ = f i k) ∧
    ∀ i < n, i ∉ done → ∀ k < bs, w⟦σ i * bs + k⟧ = vec⟦σ i * bs + k⟧)
    ⟨rfl, by simp, fun _ _ _ _ _ => rfl⟩ ?_).mono ?_
  · rintro done i rest w hsp ⟨h1, h2, h3⟩
    have hi : i < n := (hmem i).mp (by rw [hsp]; simp)
    have hnot : i ∉ done := by
      rw [hsp] at hnd
      have := List.nodup_append.mp hnd
      intro hc
      exact this.2.2 i hc i (by simp) rfl
    refine (hbody i hi w h1 (h3 i hi hnot)).mono ?_
    rintro w' ⟨g1, g2, g3⟩
    refine ⟨by omega, fun t ht k hk => ?_, fun t ht htd k hk => ?_⟩
    · by_cases e : t = i
      · subst e; exact g2 k hk
      · have htd : t ∈ done := by
          rw [List.mem_append, List.mem_singleton] at ht
          exact ht.resolve_right e
        have htn : t < n := (hmem t).mp (by rw [hsp]; simp [htd])
        rw [g3 _ (fun h => e (hinj t htn i hi h)) k hk]
        exact h2 t htd k hk
    · rw [List.mem_append, List.mem_singleton, not_or] at htd
      rw [g3 _ (fun h => htd.2 (hinj t ht i hi h)) k hk]
      exact h3 t ht htd.1 k hk
  · rintro w ⟨h1, h2, _⟩
    exact ⟨h1, fun i hi => h2 i ((hmem i).mpr hi)⟩

/-- Specification of C13: the ordering a direction stands for. -/
def orderingOf (r : RS K) : RSDir → List Nat
  | .row => r.rp
  | .column => r.cp

theorem perm_eq_orderingOf (r : RS K) (dir : RSDir) : r.perm dir = orderingOf r dir := by cases dir <;> rfl

/-- The ordering of a direction is a permutation or absent. -/
theorem RS.Valid.perm {r : RS K} {n : Nat} (h : r.Valid n) (dir : RSDir) :
    orderingOf r dir = [] ∨ IsPerm (orderingOf r dir) n := by
  cases dir with
  | row => exact h.row
  | column => exact h.col.imp id fun h => h.1

/-- **C13** Reordering a vector of `n` segments of `bs` cells: FORWARD gives `v(p(i))`, INVERSE puts
`v(i)` in place `p(i)`, for every (possibly absent) permutation and every order of the parallel loops. -/
theorem apply_ordering_vec_correct [Zero K] (bs n : Nat) (r : RS K) (mode : RSMode) (dir : RSDir)
    (hp : orderingOf r dir = [] ∨ IsPerm (orderingOf r dir) n) (ordc ord : List Nat)
    (hordc : ordc.Perm (List.range (n * bs))) (hord : ord.Perm (List.range n)) (v : List K)
    (hv : v.length = n * bs) :
    ∃ v', applyOrderingVec bs r mode dir ordc ord v = .ok v' ∧ v'.length = n * bs ∧
      ∀ i < n, ∀ k < bs, match mode with
        | .forward => v'⟦i * bs + k⟧ = v⟦at' (orderingOf r dir) i * bs + k⟧
        | .inverse => v'⟦at' (orderingOf r dir) i * bs + k⟧ = v⟦i * bs + k⟧ := by
  simp only [← perm_eq_orderingOf] at hp ⊢
  unfold applyOrderingVec
  by_cases h0 : (r.perm dir).length ≤ 0
  · simp only [h0, if_true]
    refine ⟨v, rfl, hv, fun i hi k hk => ?_⟩
    have : at' (r.perm dir) i = i := if_neg (by omega)
    rw [this]
    cases mode <;> rfl
  · simp only [h0, if_false]
    have hperm : IsPerm (r.perm dir) n := by
      refine hp.resolve_left ?_
      intro e; rw [e] at h0; simp at h0
    have hat : ∀ i, at' (r.perm dir) i = (r.perm dir)⟦i⟧ := fun i => if_pos (by omega)
    have hl := hperm.length
    have hcopy : Ok (forList ordc (fun i tv => do
        let v ← rd v i
        wr tv i v) (List.replicate ((r.perm dir).length * bs) 0)) (fun tv => tv = v) := by
      have hmem : ∀ i, i ∈ ordc ↔ i < n * bs := fun i => by rw [hordc.mem_iff, List.mem_range]
      refine (forList_par (fun i => v⟦i⟧) (hordc.nodup_iff.mpr List.nodup_range) ?_ ?_).mono ?_
      · intro i hi; simpa [hl] using (hmem i).mp hi
      · intro i hi y' hy _
        have := (hmem i).mp hi
        simp only [List.length_replicate, hl] at hy
        rw [rd_eq (by omega), ok_bind, wr_eq (by omega)]
      · rintro tv ⟨h1, h2⟩
        simp only [List.length_replicate, hl] at h1 h2
        refine ext_get0 (by omega) fun i hi => ?_
        rw [h2 i (by omega), if_pos ((hmem i).mpr (by omega))]
    obtain ⟨tv, etv, rfl⟩ := hcopy
    rw [parFor_eq (show ordc.Perm (List.range ((r.perm dir).length * bs)) by rw [hl]; exact hordc), etv, ok_bind,
      parFor_eq (show ord.Perm (List.range (r.perm dir).length) by rw [hl]; exact hord)]
    have hseg : ∀ i < n, ∀ k < bs, i * bs + k < tv.length := fun i hi k hk => by
      rw [hv]; exact blk_lt hi hk
    have hseg2 : ∀ i < n, i * bs + bs ≤ tv.length := fun i hi => by
      rw [hv, ← Nat.succ_mul]; exact Nat.mul_le_mul_right _ hi
    cases mode with
    | forward =>
      obtain ⟨w, e, h1, h2⟩ := segsLoop_ok (bs := bs) hord hv (body := orderVecStep bs .forward (r.perm dir) tv)
        (fun i => i) (fun i k => tv⟦(r.perm dir)⟦i⟧ * bs + k⟧) (fun _ _ _ _ h => h) (by
          intro i hi w hw hown
          unfold orderVecStep
          have hl1 := hseg2 i hi
          refine segLoop_ok (p := i) (fun k => tv⟦(r.perm dir)⟦i⟧ * bs + k⟧) (by omega) ?_
          intro k hk u hu _
          have := hseg _ (hperm.lt hi) k hk
          have := hseg i hi k hk
          rw [rd_eq (by omega), ok_bind]
          dsimp only
          rw [rd_eq (by omega), ok_bind, wr_eq (by omega)])
      refine ⟨w, e, by omega, fun i hi k hk => ?_⟩
      simp only
      rw [hat]; exact h2 i hi k hk
    | inverse =>
      obtain ⟨w, e, h1, h2⟩ := segsLoop_ok (bs := bs) hord hv (body := orderVecStep bs .inverse (r.perm dir) tv)
        (fun i => (r.perm dir)⟦i⟧) (fun i k => tv⟦i * bs + k⟧)
        (fun i hi j hj h => hperm.inj hi hj h) (by
          intro i hi w hw hown
          unfold orderVecStep
          have hl1 := hseg2 _ (hperm.lt hi)
          refine segLoop_ok (p := (r.perm dir)⟦i⟧) (fun k => tv⟦i * bs + k⟧) (by omega) ?_
          intro k hk u hu _
          have := hseg _ (hperm.lt hi) k hk
          have := hseg i hi k hk
          rw [rd_eq (by omega), ok_bind]
          dsimp only
          rw [rd_eq (by omega), ok_bind, wr_eq (by omega)])
      refine ⟨w, e, by omega, fun i hi k hk => ?_⟩
      simp only
      rw [hat]; exact h2 i hi k hk

theorem ext_segs [Zero K] {bs n : Nat} {v w : List K} (hv : v.length = n * bs) (hw : w.length = n * bs)
    (h : ∀ i < n, ∀ k < bs, v⟦i * bs + k⟧ = w⟦i * bs + k⟧) : v = w := by
  refine ext_get0 (by omega) fun c hc => ?_
  rw [hv] at hc
  have hbs : 0 < bs := by
    rcases Nat.eq_zero_or_pos bs with h0 | h0
    · subst h0; simp at hc
    · exact h0
  have e : c = c / bs * bs + c % bs := by rw [Nat.mul_comm]; exact (Nat.div_add_mod c bs).symm
  rw [e]
  exact h _ (Nat.div_lt_of_lt_mul (by rw [Nat.mul_comm]; exact hc)) _ (Nat.mod_lt c hbs)

/-- **C13** FORWARD then INVERSE, and INVERSE then FORWARD, give back the vector. -/
theorem apply_ordering_vec_roundtrip [Zero K] (bs n : Nat) (r : RS K) (mode mode' : RSMode)
    (hmm : mode ≠ mode') (dir : RSDir)
    (hp : orderingOf r dir = [] ∨ IsPerm (orderingOf r dir) n) (ordc ord ordc' ord' : List Nat)
    (hordc : ordc.Perm (List.range (n * bs))) (hord : ord.Perm (List.range n))
    (hordc' : ordc'.Perm (List.range (n * bs))) (hord' : ord'.Perm (List.range n)) (v : List K)
    (hv : v.length = n * bs) :
    ∃ w, applyOrderingVec bs r mode dir ordc ord v = .ok w ∧
      applyOrderingVec bs r mode' dir ordc' ord' w = .ok v := by
  obtain ⟨w, e, hl, h⟩ := apply_ordering_vec_correct bs n r mode dir hp ordc ord hordc hord v hv
  obtain ⟨u, e', hl', h'⟩ := apply_ordering_vec_correct bs n r mode' dir hp ordc' ord' hordc' hord' w hl
  have : u = v := by
    refine ext_segs hl' hv fun i hi k hk => ?_
    cases mode <;> cases mode'
    · exact absurd rfl hmm
    · simp only at h h'
      obtain ⟨t, ht, rfl⟩ := at'_surj hp hi
      rw [h' t ht k hk, h t ht k hk]
    · simp only at h h'
      rw [h' i hi k hk, h i hi k hk]
    · exact absurd rfl hmm
  subst this
  exact ⟨w, e, e'⟩

theorem sum_cells [NonUnitalNonAssocSemiring K] {stor : Stor} {bs n : Nat} (A : SR K) (i a : Nat)
    (ha : a < bs) (x : List K) :
    ∑ J ∈ range (n * bs), A.bentry stor bs (i * bs + a) J * x⟦J⟧ =
      ∑ j ∈ range n, ∑ b ∈ range bs, A.cell (bs * bs) i j (stor.off bs a b) * x⟦j * bs + b⟧ := by
  have hd : ∀ t c, c < bs → (t * bs + c) / bs = t ∧ (t * bs + c) % bs = c := by
    intro t c hc
    rw [Nat.mul_comm]
    exact ⟨by rw [Nat.mul_add_div (by omega), Nat.div_eq_of_lt hc, Nat.add_zero],
      by rw [Nat.mul_add_mod, Nat.mod_eq_of_lt hc]⟩
  rw [sum_range_mul_blocks]
  refine sum_congr rfl fun j _ => sum_congr rfl fun b hb => ?_
  rw [mem_range] at hb
  unfold SR.bentry SR.cell
  rw [(hd i a ha).1, (hd j b hb).1, (hd i a ha).2, (hd j b hb).2]

/-- **C13** Consistency: if `A x = b`, the matrix reordered FORWARD, applied to `x` reordered FORWARD
by columns, gives `b` reordered FORWARD by rows. -/
theorem reordered_system [NonUnitalNonAssocSemiring K] (stor : Stor) (bs : Nat) (A : SR K)
    (hA : A.Full (bs * bs)) (r : RS K) (hr : r.Valid A.nbrows) (x b : List K)
    (hx : x.length = A.nbrows * bs) (hb : b.length = A.nbrows * bs)
    (hsol : ∀ I < A.nbrows * bs,
      ∑ J ∈ range (A.nbrows * bs), A.bentry stor bs I J * x⟦J⟧ = b⟦I⟧)
    (ord o1 o2 o3 o4 : List Nat) (hord : ord.Perm (List.range A.nbrows))
    (ho1 : o1.Perm (List.range (A.nbrows * bs))) (ho2 : o2.Perm (List.range A.nbrows))
    (ho3 : o3.Perm (List.range (A.nbrows * bs))) (ho4 : o4.Perm (List.range A.nbrows)) :
    ∃ A' x' b', applyOrdering (bs * bs) r .forward ord A = .ok A' ∧
      applyOrderingVec bs r .forward .column o1 o2 x = .ok x' ∧
      applyOrderingVec bs r .forward .row o3 o4 b = .ok b' ∧
      ∀ I < A.nbrows * bs,
        ∑ J ∈ range (A.nbrows * bs), A'.bentry stor bs I J * x'⟦J⟧ = b'⟦I⟧ := by
  obtain ⟨A', e, hA', hn, _, hcell, _⟩ := apply_ordering_forward A (bs * bs) hA r hr ord hord
  obtain ⟨x', ex, hxl, hxv⟩ := apply_ordering_vec_correct bs A.nbrows r .forward .column (hr.perm _)
    o1 o2 ho1 ho2 x hx
  obtain ⟨b', eb, hbl, hbv⟩ := apply_ordering_vec_correct bs A.nbrows r .forward .row (hr.perm _)
    o3 o4 ho3 ho4 b hb
  refine ⟨A', x', b', e, ex, eb, fun I hI => ?_⟩
  simp only at hxv hbv
  have hbs : 0 < bs := by
    rcases Nat.eq_zero_or_pos bs with h0 | h0
    · subst h0; simp at hI
    · exact h0
  have eI : I = I / bs * bs + I % bs := by rw [Nat.mul_comm]; exact (Nat.div_add_mod I bs).symm
  have hi : I / bs < A.nbrows := Nat.div_lt_of_lt_mul (by rw [Nat.mul_comm]; exact hI)
  have ha := Nat.mod_lt I hbs
  rw [eI, sum_cells A' _ _ ha, hbv _ hi _ ha,
    ← hsol _ (blk_lt (at'_lt (hr.perm .row) hi) ha), sum_cells A _ _ ha]
  rw [← at'_sum (hr.perm .column) fun j => ∑ b ∈ range bs,
    A.cell (bs * bs) (at' (orderingOf r .row) (I / bs)) j (stor.off bs (I % bs) b) * x⟦j * bs + b⟧]
  refine sum_congr rfl fun j hj => sum_congr rfl fun b' hb' => ?_
  rw [mem_range] at hj hb'
  rw [hcell _ hi j hj _ (Stor.off_lt stor ha hb'), hxv j hj b' hb']
  rfl

/-! ### C14: scaling -/

section scaling
variable [Field K] [DecidableEq K]

/-- The factor of index `i`; an absent scaling has factor one. -/
def factor (s : List K) (i : Nat) : K := if s.length > 0 then s⟦i⟧ else 1

/-- A scaling vector for `n` rows or columns that can be undone. -/
def FactorOk (s : List K) (n : Nat) : Prop := s = [] ∨ (s.length = n ∧ ∀ i < n, s⟦i⟧ ≠ 0)

/-- A scaling vector for `n` rows or columns. -/
def FactorLen (s : List K) (n : Nat) : Prop := s = [] ∨ s.length = n

omit [DecidableEq K] in
theorem FactorOk.len {s : List K} {n : Nat} (h : FactorOk s n) : FactorLen s n := h.imp id fun h => h.1

omit [DecidableEq K] in
theorem FactorOk.factor_ne {s : List K} {n : Nat} (h : FactorOk s n) {i : Nat} (hi : i < n) :
    factor s i ≠ 0 := by
  unfold factor
  split
  · rename_i hl
    rcases h with rfl | h
    · simp at hl
    · exact h.2 i hi
  · exact one_ne_zero

/-- The value `x *= s` or `x /= s`. -/
def scaled (mode : RSMode) (x s : K) : K :=
  match mode with
  | .forward => x * s
  | .inverse => x / s

theorem scaleOp_eq {mode : RSMode} {x s : K} (h : mode = .inverse → s ≠ 0) :
    scaleOp mode x s = .ok (scaled mode x s) := by
  cases mode with
  | forward => rfl
  | inverse => simp [scaleOp, scaled, h rfl]

theorem scaleSeg_ok {m jj : Nat} {mode : RSMode} {s : K} (h : mode = .inverse → s ≠ 0) {vals : List K}
    (hv : jj * m + m ≤ vals.length) :
    Ok (forRange 0 m (fun k vals => do
      let v ← rd vals (jj * m + k)
      let v' ← scaleOp mode v s
      wr vals (jj * m + k) v') vals) (fun w => w.length = vals.length ∧
      (∀ k < m, w⟦jj * m + k⟧ = scaled mode vals⟦jj * m + k⟧ s) ∧
      ∀ q, q ≠ jj → ∀ k < m, w⟦q * m + k⟧ = vals⟦q * m + k⟧) := by
  refine segLoop_ok (fun k => scaled mode vals⟦jj * m + k⟧ s) hv ?_
  intro k hk u hu hown
  rw [rd_eq (by omega), ok_bind, scaleOp_eq h, ok_bind, wr_eq (by omega), hown]

/-- A parallel loop over rows, each scaling its entries by `g (position)`. -/
theorem scaleLoop_ok {A : SR K} {m : Nat} (hA : A.Full m) (mode : RSMode) (g : Nat → K)
    (hg : mode = .inverse → ∀ k < A.browptr⟦A.nbrows⟧, g k ≠ 0) {ord : List Nat}
    (hord : IsPerm ord A.nbrows) {body : Nat → List K → C (List K)}
    (hbody : ∀ i < A.nbrows, ∀ v : List K, body i v =
      forRange A.browptr⟦i⟧ A.browptr⟦i + 1⟧ (fun jj vals => forRange 0 m (fun k vals => do
        let v ← rd vals (jj * m + k)
        let v' ← scaleOp mode v (g jj)
        wr vals (jj * m + k) v') vals) v) :
    Ok (forList ord body A.vals) (fun w => w.length = A.vals.length ∧
      ∀ k < A.browptr⟦A.nbrows⟧, ∀ c < m, w⟦k * m + c⟧ = scaled mode A.vals⟦k * m + c⟧ (g k)) := by
  have hmem : ∀ i, i ∈ ord ↔ i < A.nbrows := fun i => by rw [hord.mem_iff, List.mem_range]
  have hnd : ord.Nodup := hord.nodup_iff.mpr List.nodup_range
  have hvl := hA.val_len
  refine (forList_ok (fun done (w : List K) => w.length = A.vals.length ∧
    (∀ i ∈ done, ∀ k, A.InRow i k → ∀ c < m, w⟦k * m + c⟧ = scaled mode A.vals⟦k * m + c⟧ (g k)) ∧
    ∀ i < A.nbrows, i ∉ done → ∀ k, A.InRow i k → ∀ c < m, w⟦k * m + c⟧ = A.vals⟦k * m + c⟧)
    ⟨rfl, by simp, fun _ _ _ _ _ _ _ => rfl⟩ ?_).mono ?_
  · rintro done i rest w hsp ⟨h1, h2, h3⟩
    have hi : i < A.nbrows := (hmem i).mp (by rw [hsp]; simp)
    have hnot : i ∉ done := by
      rw [hsp] at hnd
      have := List.nodup_append.mp hnd
      intro hc
      exact this.2.2 i hc i (by simp) rfl
    rw [hbody i hi]
    refine (forRange_ok (fun t (v : List K) => v.length = w.length ∧
      (∀ k, A.browptr⟦i⟧ ≤ k → k < t → ∀ c < m, v⟦k * m + c⟧ = scaled mode w⟦k * m + c⟧ (g k)) ∧
      ∀ k, (k < A.browptr⟦i⟧ ∨ t ≤ k) → ∀ c < m, v⟦k * m + c⟧ = w⟦k * m + c⟧) (hA.ptr_mono i hi)
      ⟨rfl, fun k _ _ => by omega, fun _ _ _ _ => rfl⟩ ?_).mono ?_
    · rintro t v hlo hhi ⟨g1, g2, g3⟩
      have hk := hA.lt_nnz hi hhi
      refine (scaleSeg_ok (fun hm => hg hm t hk) (by rw [g1, h1]; exact hA.blk_le hk)).mono ?_
      rintro u ⟨f1, f2, f3⟩
      refine ⟨by omega, fun k hk1 hk2 c hc => ?_, fun k hk1 c hc => ?_⟩
      · by_cases e : k = t
        · subst e; rw [f2 c hc, g3 k (Or.inr (Nat.le_refl _)) c hc]
        · rw [f3 k e c hc]; exact g2 k hk1 (by omega) c hc
      · rw [f3 k (by omega) c hc]; exact g3 k (by omega) c hc
    · rintro v ⟨g1, g2, g3⟩
      refine ⟨by omega, fun t ht k hk c hc => ?_, fun t ht htd k hk c hc => ?_⟩
      · by_cases e : t = i
        · subst e
          rw [g2 k hk.1 hk.2 c hc, h3 t hi hnot k hk c hc]
        · have htd : t ∈ done := by
            rw [List.mem_append, List.mem_singleton] at ht
            exact ht.resolve_right e
          have htn : t < A.nbrows := (hmem t).mp (by rw [hsp]; simp [htd])
          rw [g3 k ?_ c hc]
          · exact h2 t htd k hk c hc
          · by_contra hcon
            exact e (hA.row_unique htn hi hk ⟨by omega, by omega⟩)
      · rw [List.mem_append, List.mem_singleton, not_or] at htd
        rw [g3 k ?_ c hc]
        · exact h3 t ht htd.1 k hk c hc
        · by_contra hcon
          exact htd.2 (hA.row_unique ht hi hk ⟨by omega, by omega⟩)
  · rintro w ⟨h1, h2, _⟩
    refine ⟨h1, fun k hk c hc => ?_⟩
    obtain ⟨hr, hin⟩ := hA.rowOf_spec hk
    exact h2 _ ((hmem _).mpr hr) k hin c hc

omit [DecidableEq K] in
theorem scaled_one (mode : RSMode) (x : K) : scaled mode x 1 = x := by cases mode <;> simp [scaled]

/-- The value array after `applyScaling`. -/
theorem applyScaling_vals {A : SR K} {m : Nat} (hA : A.Full m) (r : RS K) (mode : RSMode)
    (hrow : FactorLen r.rowscale A.nbrows) (hcol : FactorLen r.colscale A.nbrows)
    (hnz : mode = .inverse → FactorOk r.rowscale A.nbrows ∧ FactorOk r.colscale A.nbrows)
    {ord1 ord2 : List Nat} (ho1 : IsPerm ord1 A.nbrows) (ho2 : IsPerm ord2 A.nbrows) :
    Ok (applyScaling m r mode ord1 ord2 A) (fun B => ∃ vals, B = { A with vals := vals } ∧
      vals.length = A.vals.length ∧ ∀ k < A.browptr⟦A.nbrows⟧, ∀ c < m,
        vals⟦k * m + c⟧ = scaled mode (scaled mode A.vals⟦k * m + c⟧ (factor r.rowscale (A.rowOf k)))
          (factor r.colscale A.bcolind⟦k⟧)) := by
  have hpl := hA.ptr_len
  have hil := hA.ind_len
  unfold applyScaling
  refine Ok.bind (P := fun w : List K => w.length = A.vals.length ∧ ∀ k < A.browptr⟦A.nbrows⟧, ∀ c < m,
    w⟦k * m + c⟧ = scaled mode A.vals⟦k * m + c⟧ (factor r.rowscale (A.rowOf k))) ?_ ?_
  · unfold scaleRows
    by_cases h0 : r.rowscale.length > 0
    · rw [if_pos h0]
      have hlen : r.rowscale.length = A.nbrows := by
        rcases hrow with e | h
        · rw [e] at h0; simp at h0
        · exact h
      rw [parFor_eq ho1]
      refine scaleLoop_ok hA mode (fun k => factor r.rowscale (A.rowOf k)) (fun hm k hk =>
        (hnz hm).1.factor_ne (hA.rowOf_spec hk).1) ho1 ?_
      intro i hi v
      unfold scaleRow
      rw [rd_eq (by omega), ok_bind, rd_eq (by omega), ok_bind, rd_eq (by omega), ok_bind]
      refine forRange_congr fun jj hj1 hj2 s => ?_
      have : factor r.rowscale (A.rowOf jj) = r.rowscale⟦i⟧ := by
        rw [hA.rowOf_eq hi ⟨by omega, by omega⟩, factor, if_pos h0]
      rw [this]
    · rw [if_neg h0]
      refine Ok.pure ⟨rfl, fun k _ c _ => ?_⟩
      rw [factor, if_neg h0, scaled_one]
  · rintro w ⟨h1, h2⟩
    obtain ⟨A1, hA1⟩ : ∃ A1, A1 = { A with vals := w } := ⟨_, rfl⟩
    have hfull : A1.Full m := by
      rw [hA1]
      exact ⟨hA.ptr_len, hA.ptr_zero, hA.ptr_mono, hA.end_len, hA.end_eq, hA.ind_len,
        h1.trans hA.val_len, hA.col_lt⟩
    simp only
    rw [← hA1]
    have e1 : A1.nbrows = A.nbrows := by rw [hA1]
    have e2 : A1.browptr = A.browptr := by rw [hA1]
    have e3 : A1.bcolind = A.bcolind := by rw [hA1]
    have e4 : A1.vals = w := by rw [hA1]
    refine Ok.bind (P := fun u : List K => u.length = w.length ∧ ∀ k < A.browptr⟦A.nbrows⟧, ∀ c < m,
      u⟦k * m + c⟧ = scaled mode w⟦k * m + c⟧ (factor r.colscale A.bcolind⟦k⟧)) ?_ ?_
    · unfold scaleCols
      by_cases h0 : r.colscale.length > 0
      · rw [if_pos h0]
        have hlen : r.colscale.length = A.nbrows := by
          rcases hcol with e | h
          · rw [e] at h0; simp at h0
          · exact h
        have := scaleLoop_ok hfull mode (fun k => factor r.colscale A.bcolind⟦k⟧) (fun hm k hk => by
          rw [e1, e2] at hk
          exact (hnz hm).2.factor_ne (hA.col_lt k hk)) (ord := ord2) (by rw [e1]; exact ho2)
          (body := scaleCol m mode r.colscale A1) (by
            intro i hi v
            unfold scaleCol
            rw [e1] at hi
            rw [rd_eq (by rw [e2]; omega), ok_bind, rd_eq (by rw [e2]; omega), ok_bind]
            refine forRange_congr fun jj hj1 hj2 s => ?_
            rw [e2] at hj2
            have hk := hA.lt_nnz hi hj2
            have hcl := hA.col_lt jj hk
            rw [e3, rd_eq (by omega), ok_bind, rd_eq (by omega), ok_bind]
            have : factor r.colscale A.bcolind⟦jj⟧ = r.colscale⟦A.bcolind⟦jj⟧⟧ := if_pos h0
            rw [this])
        rw [e1, e2, e4] at this
        rw [e4, parFor_eq (by rw [e1]; exact ho2)]
        exact this
      · rw [if_neg h0, e4]
        refine Ok.pure ⟨rfl, fun k _ c _ => ?_⟩
        rw [factor, if_neg h0, scaled_one]
    · rintro u ⟨g1, g2⟩
      refine Ok.pure ⟨u, by subst hA1; rfl, by omega, fun k hk c hc => ?_⟩
      rw [g2 k hk c hc, h2 k hk c hc]

omit [DecidableEq K] in
theorem cell_scaled {A : SR K} {m : Nat} (hA : A.Full m) {vals : List K} (f : Nat → Nat → K)
    (h : ∀ k < A.browptr⟦A.nbrows⟧, ∀ c < m,
      vals⟦k * m + c⟧ = f (A.rowOf k) A.bcolind⟦k⟧ * A.vals⟦k * m + c⟧) {i : Nat} (hi : i < A.nbrows)
    (j : Nat) {c : Nat} (hc : c < m) :
    SR.cell m { A with vals := vals } i j c = f i j * A.cell m i j c := by
  unfold SR.cell
  simp only
  rw [mul_sum, hA.end_eq i hi]
  refine sum_congr rfl fun k hk => ?_
  rw [mem_Ico] at hk
  rw [h k (hA.lt_nnz hi hk.2) c hc, hA.rowOf_eq hi hk]
  by_cases e : A.bcolind⟦k⟧ = j
  · rw [if_pos e, if_pos e, e]
  · rw [if_neg e, if_neg e, mul_zero]

/-- **C14** FORWARD scaling turns `A` into `R A C`: every entry is multiplied by the factor of its row
and the factor of its column (an absent vector has factors one); nothing but the values changes. -/
theorem apply_scaling_forward (A : SR K) (m : Nat) (hA : A.Full m) (r : RS K)
    (hrow : FactorLen r.rowscale A.nbrows) (hcol : FactorLen r.colscale A.nbrows)
    (ord1 ord2 : List Nat) (ho1 : ord1.Perm (List.range A.nbrows))
    (ho2 : ord2.Perm (List.range A.nbrows)) :
    ∃ vals, applyScaling m r .forward ord1 ord2 A = .ok { A with vals := vals } ∧
      vals.length = A.vals.length ∧
      ∀ i < A.nbrows, ∀ j < A.nbrows, ∀ c < m, SR.cell m { A with vals := vals } i j c =
        factor r.rowscale i * A.cell m i j c * factor r.colscale j := by
  obtain ⟨B, e, vals, rfl, hl, hv⟩ := applyScaling_vals hA r .forward hrow hcol (by simp) ho1 ho2
  refine ⟨vals, e, hl, fun i hi j _ c hc => ?_⟩
  rw [cell_scaled hA (fun i j => factor r.rowscale i * factor r.colscale j) ?_ hi j hc]
  · ring
  · intro k hk c hc
    rw [hv k hk c hc]
    simp only [scaled]
    ring

/-- **C14** INVERSE scaling divides by the factors. -/
theorem apply_scaling_inverse (A : SR K) (m : Nat) (hA : A.Full m) (r : RS K)
    (hrow : FactorOk r.rowscale A.nbrows) (hcol : FactorOk r.colscale A.nbrows)
    (ord1 ord2 : List Nat) (ho1 : ord1.Perm (List.range A.nbrows))
    (ho2 : ord2.Perm (List.range A.nbrows)) :
    ∃ vals, applyScaling m r .inverse ord1 ord2 A = .ok { A with vals := vals } ∧
      vals.length = A.vals.length ∧
      ∀ i < A.nbrows, ∀ j < A.nbrows, ∀ c < m,
        factor r.rowscale i * SR.cell m { A with vals := vals } i j c * factor r.colscale j =
          A.cell m i j c := by
  obtain ⟨B, e, vals, rfl, hl, hv⟩ := applyScaling_vals hA r .inverse hrow.len hcol.len
    (fun _ => ⟨hrow, hcol⟩) ho1 ho2
  refine ⟨vals, e, hl, fun i hi j hj c hc => ?_⟩
  have h1 := hrow.factor_ne hi
  have h2 := hcol.factor_ne hj
  rw [cell_scaled hA (fun i j => (factor r.rowscale i)⁻¹ * (factor r.colscale j)⁻¹) ?_ hi j hc]
  · field_simp
  · intro k hk c hc
    rw [hv k hk c hc]
    simp only [scaled, div_eq_mul_inv]
    ring

/-- **C14** Scaling one way and then the other gives back exactly the same storage, provided no factor
is zero. -/
theorem apply_scaling_roundtrip (A : SR K) (m : Nat) (hA : A.Full m) (r : RS K)
    (hrow : FactorOk r.rowscale A.nbrows) (hcol : FactorOk r.colscale A.nbrows)
    (mode mode' : RSMode) (hmm : mode ≠ mode') (o1 o2 o3 o4 : List Nat)
    (ho1 : o1.Perm (List.range A.nbrows)) (ho2 : o2.Perm (List.range A.nbrows))
    (ho3 : o3.Perm (List.range A.nbrows)) (ho4 : o4.Perm (List.range A.nbrows)) :
    ∃ B, applyScaling m r mode o1 o2 A = .ok B ∧ B.Full m ∧ applyScaling m r mode' o3 o4 B = .ok A := by
  obtain ⟨B, e, vals, rfl, hl, hv⟩ := applyScaling_vals hA r mode hrow.len hcol.len
    (fun _ => ⟨hrow, hcol⟩) ho1 ho2
  have hB : SR.Full { A with vals := vals } m :=
    ⟨hA.ptr_len, hA.ptr_zero, hA.ptr_mono, hA.end_len, hA.end_eq, hA.ind_len,
      hl.trans hA.val_len, hA.col_lt⟩
  obtain ⟨B', e', vals', rfl, hl', hv'⟩ := applyScaling_vals hB r mode' hrow.len hcol.len
    (fun _ => ⟨hrow, hcol⟩) ho3 ho4
  refine ⟨_, e, hB, ?_⟩
  rw [e']
  have : vals' = A.vals := by
    have hvl := hA.val_len
    refine ext_segs (bs := m) (n := A.browptr⟦A.nbrows⟧) (by rw [hl', hl, hvl]) hvl fun k hk c hc => ?_
    have hr := hA.rowOf_spec hk
    have h1 := hrow.factor_ne hr.1
    have h2 := hcol.factor_ne (hA.col_lt k hk)
    have h3 := hv' k hk c hc
    have hro : SR.rowOf { A with vals := vals } k = A.rowOf k := rfl
    rw [hro] at h3
    rw [h3]
    simp only
    rw [hv k hk c hc]
    cases mode <;> cases mode'
    · exact absurd rfl hmm
    · simp only [scaled]; field_simp
    · simp only [scaled]; field_simp
    · exact absurd rfl hmm
  rw [this]

/-- Specification of C14 for vectors: the factors a direction stands for. -/
def factorsOf (r : RS K) : RSDir → List K
  | .row => r.rowscale
  | .column => r.colscale

omit [Field K] [DecidableEq K] in
theorem scale_eq_factorsOf (r : RS K) (dir : RSDir) : r.scale dir = factorsOf r dir := by cases dir <;> rfl

/-- **C14** for vectors: FORWARD multiplies segment `i` by the factor of `i`, INVERSE divides. -/
theorem apply_scaling_vec_correct (bs n : Nat) (r : RS K) (mode : RSMode) (dir : RSDir)
    (hs : FactorLen (factorsOf r dir) n) (hnz : mode = .inverse → FactorOk (factorsOf r dir) n)
    (ord : List Nat) (hord : ord.Perm (List.range n)) (v : List K) (hv : v.length = n * bs) :
    ∃ w, applyScalingVec bs r mode dir ord v = .ok w ∧ w.length = n * bs ∧
      ∀ i < n, ∀ k < bs, match mode with
        | .forward => w⟦i * bs + k⟧ = factor (factorsOf r dir) i * v⟦i * bs + k⟧
        | .inverse => factor (factorsOf r dir) i * w⟦i * bs + k⟧ = v⟦i * bs + k⟧ := by
  simp only [← scale_eq_factorsOf] at hs hnz ⊢
  unfold applyScalingVec
  by_cases h0 : (r.scale dir).length > 0
  · rw [if_pos h0]
    have hlen : (r.scale dir).length = n := by
      rcases hs with e | h
      · rw [e] at h0; simp at h0
      · exact h
    have hfac : ∀ i, factor (r.scale dir) i = (r.scale dir)⟦i⟧ := fun i => if_pos h0
    obtain ⟨w, e, h1, h2⟩ := segsLoop_ok (bs := bs) hord hv
      (body := fun i vec => forRange 0 bs (fun k vec => do
        let s ← rd (r.scale dir) i
        let v ← rd vec (i * bs + k)
        let v' ← scaleOp mode v s
        wr vec (i * bs + k) v') vec)
      (fun i => i) (fun i k => scaled mode v⟦i * bs + k⟧ (r.scale dir)⟦i⟧)
      (fun _ _ _ _ h => h) (by
        intro i hi u hu hown
        have hseg : i * bs + bs ≤ u.length := by
          rw [hu, hv, ← Nat.succ_mul]; exact Nat.mul_le_mul_right _ hi
        refine (segLoop_ok (p := i) (fun k => scaled mode v⟦i * bs + k⟧ (r.scale dir)⟦i⟧) hseg ?_)
        intro k hk u' hu' hown'
        rw [rd_eq (by omega), ok_bind, rd_eq (by omega), ok_bind, hown', hown k hk, scaleOp_eq, ok_bind,
          wr_eq (by omega)]
        intro hm
        rw [← hfac]; exact (hnz hm).factor_ne hi)
    rw [parFor_eq (show ord.Perm (List.range (r.scale dir).length) by rw [hlen]; exact hord)]
    refine ⟨w, e, by omega, fun i hi k hk => ?_⟩
    cases mode with
    | forward => simp only; rw [h2 i hi k hk, hfac]; simp only [scaled]; ring
    | inverse =>
      have h3 := (hnz rfl).factor_ne hi
      simp only
      rw [h2 i hi k hk]
      rw [hfac] at h3 ⊢
      simp only [scaled]; field_simp
  · rw [if_neg h0]
    refine ⟨v, rfl, hv, fun i hi k hk => ?_⟩
    cases mode <;> simp [factor, h0]

/-- **C14** for vectors: the two modes undo each other. -/
theorem apply_scaling_vec_roundtrip (bs n : Nat) (r : RS K) (mode mode' : RSMode) (hmm : mode ≠ mode')
    (dir : RSDir) (hs : FactorOk (factorsOf r dir) n) (ord ord' : List Nat)
    (hord : ord.Perm (List.range n)) (hord' : ord'.Perm (List.range n)) (v : List K)
    (hv : v.length = n * bs) :
    ∃ w, applyScalingVec bs r mode dir ord v = .ok w ∧ applyScalingVec bs r mode' dir ord' w = .ok v := by
  obtain ⟨w, e, hl, h⟩ := apply_scaling_vec_correct bs n r mode dir hs.len (fun _ => hs) ord hord v hv
  obtain ⟨u, e', hl', h'⟩ := apply_scaling_vec_correct bs n r mode' dir hs.len (fun _ => hs) ord' hord' w hl
  have : u = v := by
    refine ext_segs hl' hv fun i hi k hk => ?_
    have h0 := hs.factor_ne hi
    cases mode <;> cases mode'
    · exact absurd rfl hmm
    · simp only at h h'
      have h1 := h' i hi k hk
      rw [h i hi k hk] at h1
      exact mul_left_cancel₀ h0 h1
    · simp only at h h'
      rw [h' i hi k hk]; exact h i hi k hk
    · exact absurd rfl hmm
  subst this
  exact ⟨w, e, e'⟩

/-- **C14** Dividing by a factor that is zero is not protected: in the model it is the outcome
`divzero`. -/
theorem apply_scaling_zero_factor :
    applyScalingVec 1 { rowscale := [(0 : ℚ)] } .inverse .row [0] [1] = .error .divzero := by
  decide +kernel

/-! ### C15: scaling and reordering a matrix object -/

/-- **C15** FORWARD: the entry `(i,j)` of the result is the entry `(rp(i), cp(j))` of the original times
the factors of that row and column. -/
theorem reorder_scale_forward (A : SR K) (m : Nat) (hA : A.Full m) (r : RS K)
    (hr : r.Valid A.nbrows) (hrow : FactorLen r.rowscale A.nbrows) (hcol : FactorLen r.colscale A.nbrows)
    (ords : Nat → List Nat) (ho : ∀ t < 3, (ords t).Perm (List.range A.nbrows)) :
    ∃ B, reorderScale m r .forward ords A = .ok B ∧ B.Full m ∧ B.nbrows = A.nbrows ∧
      ∀ i < A.nbrows, ∀ j < A.nbrows, ∀ c < m, B.cell m i j c =
        factor r.rowscale (at' r.rp i) * A.cell m (at' r.rp i) (at' r.cp j) c *
          factor r.colscale (at' r.cp j) := by
  obtain ⟨vals, e, hl, h⟩ := apply_scaling_forward A m hA r hrow hcol _ _ (ho 0 (by omega)) (ho 1 (by omega))
  have hB : SR.Full { A with vals := vals } m :=
    ⟨hA.ptr_len, hA.ptr_zero, hA.ptr_mono, hA.end_len, hA.end_eq, hA.ind_len,
      hl.trans hA.val_len, hA.col_lt⟩
  obtain ⟨B, e', hB', hn, _, hc, _⟩ := apply_ordering_forward { A with vals := vals } m hB r hr (ords 2)
    (ho 2 (by omega))
  refine ⟨B, ?_, hB', hn, fun i hi j hj c hcm => ?_⟩
  · unfold reorderScale
    simp only
    rw [e, ok_bind, e']
  · rw [hc i hi j hj c hcm]
    exact h _ (at'_lt hr.row hi) _ (at'_lt (hr.perm .column) hj) c hcm

/-- **C15** `reorderScale(FORWARD)` followed by `reorderScale(INVERSE)` restores the matrix: the
denoted matrix always, and the whole storage (diagonal locations included) if rows were sorted
without repeats. -/
theorem reorder_scale_roundtrip (A : SR K) (m : Nat) (hA : A.Full m) (r : RS K)
    (hr : r.Valid A.nbrows) (hrow : FactorOk r.rowscale A.nbrows) (hcol : FactorOk r.colscale A.nbrows)
    (ords ords' : Nat → List Nat) (ho : ∀ t < 3, (ords t).Perm (List.range A.nbrows))
    (ho' : ∀ t < 3, (ords' t).Perm (List.range A.nbrows)) :
    ∃ B B', reorderScale m r .forward ords A = .ok B ∧ reorderScale m r .inverse ords' B = .ok B' ∧
      B'.Full m ∧ B'.nbrows = A.nbrows ∧ B'.diagind = A.diagind ∧
      (∀ i < A.nbrows, ∀ j < A.nbrows, ∀ c < m, B'.cell m i j c = A.cell m i j c) ∧
      (A.Sorted → B' = A) := by
  obtain ⟨A1, e1, hA1, e1'⟩ := apply_scaling_roundtrip A m hA r hrow hcol .forward .inverse (by simp)
    _ _ _ _ (ho 0 (by omega)) (ho 1 (by omega)) (ho' 0 (by omega)) (ho' 1 (by omega))
  obtain ⟨vals, e1v, hl1, hc1⟩ := apply_scaling_forward A m hA r hrow.len hcol.len _ _
    (ho 0 (by omega)) (ho 1 (by omega))
  have hA1v : A1 = { A with vals := vals } := by
    rw [e1] at e1v; exact Except.ok.inj e1v
  have hn1 : A1.nbrows = A.nbrows := by rw [hA1v]
  obtain ⟨B, B2, e2, e3, hcell, hs⟩ := apply_ordering_roundtrip A1 m hA1 r (by rw [hn1]; exact hr)
    .forward .inverse (by simp) (ords 2) (ords' 2) (by rw [hn1]; exact ho 2 (by omega))
    (by rw [hn1]; exact ho' 2 (by omega))
  obtain ⟨B3, e2', hB3, B2', e3', hB2, hf2, _⟩ := applyOrdering_roundtrip hA1
    (r := r) (by rw [hn1]; exact hr)
    (mode := .forward) (mode' := .inverse) (by simp) (ord := ords 2) (ord' := ords' 2)
    (by rw [hn1]; exact ho 2 (by omega)) (by rw [hn1]; exact ho' 2 (by omega))
  have : B3 = B := by rw [e2] at e2'; exact (Except.ok.inj e2').symm
  subst this
  have : B2' = B2 := by rw [e3] at e3'; exact (Except.ok.inj e3').symm
  subst this
  have hn2 : B2'.nbrows = A.nbrows := hf2.nbrows.trans hn1
  obtain ⟨vals', e4, hl4, hc4⟩ := apply_scaling_inverse B2' m hB2 r (by rw [hn2]; exact hrow)
    (by rw [hn2]; exact hcol) (ords' 0) (ords' 1) (by rw [hn2]; exact ho' 0 (by omega))
    (by rw [hn2]; exact ho' 1 (by omega))
  refine ⟨B3, { B2' with vals := vals' }, ?_, ?_, ?_, hn2, ?_, ?_, ?_⟩
  · unfold reorderScale
    simp only
    rw [e1, ok_bind, e2]
  · unfold reorderScale
    simp only
    rw [e3, ok_bind, e4]
  · exact ⟨hB2.ptr_len, hB2.ptr_zero, hB2.ptr_mono, hB2.end_len, hB2.end_eq, hB2.ind_len,
      hl4.trans hB2.val_len, hB2.col_lt⟩
  · simp only
    rw [hf2.diagind, hA1v]
  · intro i hi j hj c hcm
    have h1 := hc4 i (by omega) j (by omega) c hcm
    rw [hcell i (by omega) j (by omega) c hcm, hA1v, hc1 i hi j hj c hcm] at h1
    have f1 := hrow.factor_ne hi
    have f2 := hcol.factor_ne hj
    exact mul_left_cancel₀ f1 (mul_right_cancel₀ f2 h1)
  · intro hsort
    have : B2' = A1 := hs (by rw [hA1v]; exact hsort)
    subst this
    rw [e4] at e1'
    exact Except.ok.inj e1'

/-- **C15** Without reordering the recorded diagonal positions stay correct. What is missing for the full
claim is the case of a proper reordering, which is false: `reorder_scale_diagind_stale`. -/
theorem reorder_scale_diag_partial (A : SR K) (m : Nat) (hA : A.Full m) (hD : A.HasDiag) (r : RS K)
    (hrp : r.rp = []) (hcp : r.cp = []) (hrow : FactorLen r.rowscale A.nbrows)
    (hcol : FactorLen r.colscale A.nbrows) (ords : Nat → List Nat)
    (ho : ∀ t < 3, (ords t).Perm (List.range A.nbrows)) :
    ∃ B, reorderScale m r .forward ords A = .ok B ∧ B.HasDiag := by
  obtain ⟨vals, e, _⟩ := apply_scaling_forward A m hA r hrow hcol _ _ (ho 0 (by omega)) (ho 1 (by omega))
  refine ⟨{ A with vals := vals }, ?_, ⟨hD.diag_len, hD.diag_ge, hD.diag_lt, hD.diag_col⟩⟩
  unfold reorderScale
  simp only
  rw [e, ok_bind]
  simp [applyOrdering, orderRows, orderCols, hrp, hcp]

end scaling

/-! ### Concrete cases -/

/-- Rows `0 ↦ {0: 1, 2: 2}`, `1 ↦ {1: 3}`, `2 ↦ {0: 4, 1: 5, 2: 6}`. -/
def exR : SR ℚ :=
  { browptr := [0, 2, 3, 6], bcolind := [0, 2, 1, 0, 1, 2], vals := [1, 2, 3, 4, 5, 6],
    diagind := [0, 2, 5], browendptr := [2, 3, 6], nbrows := 3, nnzb := 6, nbstored := 6 }

/-- A row reordering, a different column reordering, and scalings. -/
def exRS : RS ℚ :=
  { rp := [1, 2, 0], irp := [2, 0, 1], cp := [2, 0, 1], icp := [1, 2, 0], rowscale := [2, 3, 5],
    colscale := [7, 1, 2] }

theorem exR_full : exR.Full := by constructor <;> decide
theorem exR_sorted : exR.Sorted := SR.sorted_of_check (by decide)
theorem exRS_valid : exRS.Valid 3 := ⟨.inr (by decide), .inr ⟨by decide, by unfold InverseOf; decide⟩⟩
theorem exRS_row : FactorOk exRS.rowscale 3 := .inr ⟨by decide, by decide⟩
theorem exRS_col : FactorOk exRS.colscale 3 := .inr ⟨by decide, by decide⟩

/-- Non-vacuity of C12. -/
example : ∃ B, applyOrdering 1 exRS .forward [1, 0, 2] exR = .ok B ∧ B.Sorted ∧
    B.cell 1 2 0 0 = exR.cell 1 0 2 0 := by
  obtain ⟨B, e, _, _, _, h, _, hs, _⟩ := apply_ordering_forward exR 1 exR_full exRS exRS_valid [1, 0, 2]
    (by decide)
  exact ⟨B, e, hs (by decide) exR_sorted.noRepeats, h 2 (by decide) 0 (by decide) 0 (by decide)⟩

example : applyOrdering 1 exRS .forward [1, 0, 2] exR = .ok
    { exR with browptr := [0, 1, 4, 6], bcolind := [2, 0, 1, 2, 0, 1], vals := [3, 6, 4, 5, 2, 1],
               browendptr := [1, 4, 6] } := by decide +kernel

/-- Non-vacuity of C12, blocks of two scalars. -/
example : ∃ B, applyOrdering 2 exRS .forward [2, 1, 0]
    { exR with vals := [1, 10, 2, 20, 3, 30, 4, 40, 5, 50, 6, 60] } = .ok B ∧ B.Full 2 ∧
    B.vals = [3, 30, 6, 60, 4, 40, 5, 50, 2, 20, 1, 10] := by
  refine ⟨_, rfl, ?_, by decide +kernel⟩
  constructor <;> decide +kernel

/-- Non-vacuity of C13: segments of two scalars. -/
example : applyOrderingVec 2 exRS .forward .row [5, 4, 3, 2, 1, 0] [2, 0, 1] [1, 10, 2, 20, 3, 30] =
      .ok [2, 20, 3, 30, 1, 10] ∧
    applyOrderingVec 2 exRS .inverse .row [5, 4, 3, 2, 1, 0] [2, 0, 1] [2, 20, 3, 30, 1, 10] =
      .ok [1, 10, 2, 20, 3, 30] := by decide +kernel

/-- Non-vacuity of C14. -/
example : ∃ vals, applyScaling 1 exRS .forward [2, 1, 0] [0, 2, 1] exR = .ok { exR with vals := vals } ∧
    vals = [14, 8, 9, 140, 25, 60] := by
  obtain ⟨vals, e, _⟩ := apply_scaling_forward exR 1 exR_full exRS exRS_row.len exRS_col.len [2, 1, 0]
    [0, 2, 1] (by decide) (by decide)
  refine ⟨_, ?_, rfl⟩
  decide +kernel

/-- Non-vacuity of C15. -/
example : ∃ B B', reorderScale 1 exRS .forward (fun _ => [0, 2, 1]) exR = .ok B ∧
    reorderScale 1 exRS .inverse (fun _ => [2, 0, 1]) B = .ok B' ∧ B' = exR := by
  obtain ⟨B, B', e, e', _, _, _, _, h⟩ := reorder_scale_roundtrip exR 1 exR_full exRS exRS_valid exRS_row
    exRS_col (fun _ => [0, 2, 1]) (fun _ => [2, 0, 1]) (fun _ _ => by decide) (fun _ _ => by decide)
  exact ⟨B, B', e, e', h exR_sorted⟩

example : reorderScale 1 exRS .forward (fun _ => [0, 2, 1]) exR = .ok
    { exR with browptr := [0, 1, 4, 6], bcolind := [2, 0, 1, 2, 0, 1], vals := [9, 60, 140, 25, 8, 14],
               browendptr := [1, 4, 6] } := by decide +kernel

/-- Rows `0 ↦ {0, 1}`, `1 ↦ {0, 1}`, `2 ↦ {2}`. -/
def exStale : SR ℚ :=
  { browptr := [0, 2, 4, 5], bcolind := [0, 1, 0, 1, 2], vals := [1, 2, 3, 4, 5],
    diagind := [0, 3, 4], browendptr := [2, 4, 5], nbrows := 3, nnzb := 5, nbstored := 5 }

/-- **C15** is false for the recorded diagonal positions: a symmetric permutation of a matrix with
correct diagonal positions gives a matrix that stores all its diagonal entries, but whose recorded
positions are those of the original: position 3 is in row 2 and not in row 1. -/
theorem reorder_scale_diagind_stale :
    exStale.Full ∧ exStale.Sorted ∧ exStale.HasDiag ∧
    ({ rp := [2, 1, 0], irp := [2, 1, 0], cp := [2, 1, 0], icp := [2, 1, 0] } : RS ℚ).Valid 3 ∧
    ∃ B, reorderScale 1 { rp := [2, 1, 0], irp := [2, 1, 0], cp := [2, 1, 0], icp := [2, 1, 0] } .forward
        (fun _ => [0, 1, 2]) exStale = .ok B ∧
      B.browptr = [0, 1, 3, 5] ∧ B.bcolind = [0, 1, 2, 1, 2] ∧ B.diagind = [0, 3, 4] ∧ ¬ B.HasDiag := by
  refine ⟨by constructor <;> decide, SR.sorted_of_check (by decide), by constructor <;> decide,
    ⟨.inr (by decide), .inr ⟨by decide, by unfold InverseOf; decide⟩⟩,
    { exStale with browptr := [0, 1, 3, 5], bcolind := [0, 1, 2, 1, 2], vals := [5, 4, 3, 2, 1],
                   browendptr := [1, 3, 5] }, by decide +kernel, rfl, rfl, rfl, fun h => ?_⟩
  exact absurd (h.diag_lt 1 (by decide)) (by decide)

end Blasted
