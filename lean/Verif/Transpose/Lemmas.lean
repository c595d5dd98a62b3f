import Verif.Transpose.Model
import Verif.MatVec.Lemmas
import Mathlib.Data.List.Flatten
import Mathlib.Algebra.Order.BigOperators.Group.Finset

/-!
# Helper lemmas for row-to-column conversion
-/

namespace Blasted
open Finset

/-- The zero of lists, so that `a⟦i⟧` can be used for arrays of vectors. -/
scoped instance instZeroList {α : Type _} : Zero (List α) := ⟨[]⟩

theorem zero_list {α : Type _} : (0 : List α) = [] := rfl

variable {K : Type _}

/-- The `m` cells of entry `k`. -/
def blockAt [Zero K] (m : Nat) (vals : List K) (k : Nat) : List K :=
  (List.range m).map fun i => vals⟦k * m + i⟧

theorem readBlock_eq [Zero K] {m : Nat} {vals : List K} {k : Nat} (h : k * m + m ≤ vals.length) :
    readBlock m vals k = .ok (blockAt m vals k) := by
  obtain ⟨a, e, rfl⟩ := forRange_ok (body := fun i bloc => do
    let v ← rd vals (k * m + i)
    .ok (bloc ++ [v])) (s := ([] : List K))
    (fun t l => l = (List.range t).map fun i => vals⟦k * m + i⟧) (Nat.zero_le m) (by simp) (by
      rintro i s _ hi rfl
      rw [rd_eq (by omega), ok_bind, List.range_succ, List.map_append]
      exact Ok.pure rfl)
  exact e

theorem get0_append_singleton {α : Type _} [Zero α] (l : List α) (v : α) (q : Nat) :
    (l ++ [v])⟦q⟧ = if q = l.length then v else l⟦q⟧ := by
  by_cases h : q = l.length
  · subst h; rw [get0_append_right (Nat.le_refl _)]; simp [get0]
  · rw [if_neg h]
    by_cases h' : q < l.length
    · rw [get0_append_left h']
    · rw [get0_of_le (by simp; omega), get0_of_le (by omega)]

/-- Number of elements with key below `j`. -/
def offs {α : Type _} (S : Nat → List α) (j : Nat) : Nat := ∑ t ∈ range j, (S t).length

theorem offs_succ {α : Type _} (S : Nat → List α) (j : Nat) :
    offs S (j + 1) = offs S j + (S j).length := sum_range_succ _ _

theorem offs_mono {α : Type _} (S : Nat → List α) {i j : Nat} (h : i ≤ j) : offs S i ≤ offs S j :=
  sum_le_sum_of_subset (range_subset_range.mpr h)

theorem flatMap_length_offs {α : Type _} (S : Nat → List α) (j : Nat) :
    ((List.range j).flatMap S).length = offs S j := by
  induction j with
  | zero => rfl
  | succ j ih => rw [List.range_succ, List.flatMap_append, List.length_append, ih, offs_succ]; simp

/-- Distributing a list over buckets loses nothing. -/
theorem offs_filter {α : Type _} (l : List α) (f : α → Nat) (n : Nat) (h : ∀ a ∈ l, f a < n) :
    offs (fun t => l.filter (fun a => f a == t)) n = l.length := by
  induction l with
  | nil => simp [offs]
  | cons a l ih =>
    have ih := ih (fun b hb => h b (by simp [hb]))
    unfold offs at *
    have : ∀ t, ((a :: l).filter (fun a => f a == t)).length =
        (if f a = t then 1 else 0) + (l.filter (fun a => f a == t)).length := by
      intro t
      rw [List.filter_cons]
      by_cases ht : f a = t <;> simp [ht, Nat.add_comm]
    simp only [this, sum_add_distrib, ih, List.length_cons]
    rw [sum_ite_eq, if_pos (mem_range.mpr (h a (by simp)))]
    omega

theorem offs_congr {α β : Type _} {S : Nat → List α} {S' : Nat → List β} {n : Nat}
    (h : ∀ t < n, (S t).length = (S' t).length) : offs S n = offs S' n :=
  sum_congr rfl fun t ht => h t (mem_range.mp ht)

/-- Entry `q` of bucket `j` in the concatenation of all buckets. -/
theorem get_flatMap {α : Type _} (S : Nat → List α) {n j q : Nat} (hj : j < n)
    (hq : q < (S j).length) :
    ((List.range n).flatMap S)[offs S j + q]? = (S j)[q]? := by
  induction n with
  | zero => omega
  | succ n ih =>
    rw [List.range_succ, List.flatMap_append]
    by_cases h : j < n
    · rw [List.getElem?_append_left, ih h]
      rw [flatMap_length_offs]
      have := offs_mono S (show j + 1 ≤ n from h)
      rw [offs_succ] at this
      omega
    · have : j = n := by omega
      subst this
      rw [List.getElem?_append_right (by rw [flatMap_length_offs]; omega), flatMap_length_offs]
      simp

namespace SR

/-- Specification: the entries of column `j`, as pairs (row, block), in storage order. -/
def colEntries [Zero K] (A : SR K) (m j : Nat) : List (CSEntry K) :=
  (A.stored.filter fun e => A.bcolind⟦e.2⟧ == j).map fun e => (e.1, blockAt m A.vals e.2)

end SR

theorem SR.Full.blk_le [Zero K] {A : SR K} {m : Nat} (hA : A.Full m) {k : Nat}
    (hk : k < A.browptr⟦A.nbrows⟧) : k * m + m ≤ A.vals.length := by
  rw [hA.val_len, ← Nat.succ_mul]
  exact Nat.mul_le_mul_right _ hk

theorem SR.Full.of_mem_stored {A : SR K} {m : Nat} (hA : A.Full m) {e : Nat × Nat}
    (he : e ∈ A.stored) : e.1 < A.nbrows ∧ e.2 < A.browptr⟦A.nbrows⟧ ∧ A.bcolind⟦e.2⟧ < A.nbrows := by
  rw [SR.mem_stored] at he
  have := hA.lt_nnz he.1 he.2.2
  exact ⟨he.1, this, hA.col_lt _ this⟩

theorem bscScatter_ok [Zero K] {A : SR K} {m : Nat} (hA : A.Full m) :
    Ok (bscScatter m A) (fun cv => cv.length = A.nbrows ∧
      ∀ j < A.nbrows, cv⟦j⟧ = A.colEntries m j) := by
  unfold bscScatter
  rw [hA.nested (body := fun irow jj cv => do
      let bloc ← readBlock m A.vals jj
      let c ← rd A.bcolind jj
      let col ← rd cv c
      wr cv c (col ++ [(irow, bloc)]))]
  refine forList_ok (fun (done : List (Nat × Nat)) (cv : List (List (CSEntry K))) => cv.length = A.nbrows ∧
      ∀ j < A.nbrows, cv⟦j⟧ = (done.filter fun e => A.bcolind⟦e.2⟧ == j).map
        fun e => (e.1, blockAt m A.vals e.2)) ⟨by simp, fun j hj => ?_⟩ ?_
  · rw [get0_replicate_of_lt hj]; rfl
  · rintro done ⟨i, k⟩ rest cv hst ⟨hl, hI⟩
    obtain ⟨hi, hk, hc⟩ := hA.of_mem_stored (e := (i, k)) (by rw [hst]; simp)
    simp only at hi hk hc
    have := hA.ind_len
    dsimp only
    rw [readBlock_eq (hA.blk_le hk), ok_bind, rd_eq (by omega), ok_bind, rd_eq (by omega), ok_bind,
      wr_eq (by omega)]
    refine Ok.pure ⟨by simp [hl], fun j hj => ?_⟩
    rw [get0_set, List.filter_append, List.map_append]
    by_cases h : A.bcolind⟦k⟧ = j
    · subst h
      rw [if_pos ⟨rfl, by omega⟩, hI _ hj]; simp
    · rw [if_neg (by tauto), hI _ hj]; simp [h]

theorem colEntries_length_offs [Zero K] {A : SR K} {m : Nat} (hA : A.Full m) :
    offs (fun j => A.colEntries m j) A.nbrows = A.browptr⟦A.nbrows⟧ := by
  rw [← hA.stored_length, ← offs_filter A.stored (fun e => A.bcolind⟦e.2⟧) A.nbrows
    (fun e he => (hA.of_mem_stored he).2.2)]
  exact offs_congr fun t _ => by simp [SR.colEntries]

/-- In-place map over the indices `< n` of an array. -/
theorem forRange_map {α : Type _} [Zero α] {a : List α} {n : Nat} {body : Nat → List α → C (List α)}
    (f : Nat → α → α)
    (h : ∀ i < n, ∀ a' : List α, a'.length = a.length → body i a' = .ok (a'.set i (f i a'⟦i⟧))) :
    Ok (forRange 0 n body a) (fun a' => a'.length = a.length ∧
      ∀ i < a.length, a'⟦i⟧ = if i < n then f i a⟦i⟧ else a⟦i⟧) := by
  refine forRange_ok (fun k a' => a'.length = a.length ∧
      ∀ i < a.length, a'⟦i⟧ = if i < k then f i a⟦i⟧ else a⟦i⟧) (Nat.zero_le _) ⟨rfl, by simp⟩ ?_
  rintro k a' _ hk ⟨hl, hI⟩
  rw [h k hk a' hl]
  refine Ok.pure ⟨by simp [hl], fun i hi => ?_⟩
  rw [get0_set]
  by_cases e : k = i
  · subst e
    rw [if_pos ⟨rfl, by omega⟩, if_pos (by omega), hI _ hi, if_neg (by omega)]
  · rw [if_neg (by tauto), hI _ hi]
    by_cases h2 : i < k
    · rw [if_pos h2, if_pos (by omega)]
    · rw [if_neg h2, if_neg (by omega)]

/-! ### Output phase -/

/-- What the output arrays contain when the entries of `w` have been written. -/
structure BscWritten [Zero K] (m nnz n : Nat) (w : List (CSEntry K)) (s : BscState K) : Prop where
  iz : s.iz = w.length
  lptr : s.bcolptr.length = n + 1
  lind : s.browind.length = nnz
  lval : s.vals.length = nnz * m
  ldiag : s.diagind.length = n
  ind : ∀ q < w.length, s.browind⟦q⟧ = (w[q]?.map Prod.fst).getD 0
  val : ∀ q < w.length, ∀ i < m, s.vals⟦q * m + i⟧ = ((w[q]?.map Prod.snd).getD [])⟦i⟧

theorem blk_inj {m q q' i i' : Nat} (hi : i < m) (hi' : i' < m) (h : q * m + i = q' * m + i') :
    q = q' ∧ i = i' := by
  have h1 : (q * m + i) / m = q := by
    rw [Nat.mul_comm, Nat.mul_add_div (by omega), Nat.div_eq_of_lt hi, Nat.add_zero]
  have h2 : (q' * m + i') / m = q' := by
    rw [Nat.mul_comm, Nat.mul_add_div (by omega), Nat.div_eq_of_lt hi', Nat.add_zero]
  have : q = q' := by rw [← h1, ← h2, h]
  subst this
  exact ⟨rfl, by omega⟩

theorem bscPut_ok [Zero K] {m nnz n icol : Nat} {w : List (CSEntry K)} {s : BscState K}
    {e : CSEntry K} (h : BscWritten m nnz n w s) (hw : w.length < nnz) (he : e.2.length = m)
    (hc : icol < n) :
    Ok (bscPut m icol e s) (fun s' => BscWritten m nnz n (w ++ [e]) s' ∧ s'.bcolptr = s.bcolptr ∧
      s'.diagind = if icol = e.1 then s.diagind.set icol (w.length : Int) else s.diagind) := by
  unfold bscPut
  have hiz := h.iz
  have h1 := h.lind
  have h2 := h.lval
  have h3 := h.ldiag
  have hseg : s.iz * m + m ≤ s.vals.length := by
    rw [h2, ← Nat.succ_mul]; exact Nat.mul_le_mul_right _ (by omega)
  rw [wr_eq (by omega), ok_bind]
  refine Ok.bind (P := fun v => v.length = s.vals.length ∧ ∀ c < s.vals.length,
    v⟦c⟧ = if s.iz * m ≤ c ∧ c < s.iz * m + m then e.2⟦c - s.iz * m⟧ else s.vals⟦c⟧) ?_ ?_
  · refine forRange_ok (fun k y' => y'.length = s.vals.length ∧ ∀ c < s.vals.length,
      y'⟦c⟧ = if s.iz * m ≤ c ∧ c < s.iz * m + k then e.2⟦c - s.iz * m⟧ else s.vals⟦c⟧)
      (Nat.zero_le _) ⟨rfl, fun c _ => by rw [if_neg (by omega)]⟩ ?_
    rintro k y' _ hk ⟨hl, hI⟩
    rw [rd_eq (by omega), ok_bind, wr_eq (by omega)]
    refine Ok.pure ⟨by simp [hl], fun c hc => ?_⟩
    rw [get0_set]
    by_cases hck : s.iz * m + k = c
    · subst hck
      rw [if_pos ⟨rfl, by omega⟩, if_pos (by omega)]; congr 1; omega
    · rw [if_neg (by tauto), hI c hc]
      by_cases h5 : s.iz * m ≤ c ∧ c < s.iz * m + k
      · rw [if_pos h5, if_pos (by omega)]
      · rw [if_neg h5, if_neg (by omega)]
  · rintro vals ⟨hvl, hv⟩
    rw [rd_eq (by simp; omega), ok_bind, get0_set_self (by omega)]
    have key : BscWritten m nnz n (w ++ [e])
        { s with iz := s.iz + 1, browind := s.browind.set s.iz e.1, vals := vals } := by
      refine ⟨by simp [hiz], h.lptr, by simp [h1], by simp only; omega, h3, ?_, ?_⟩
      · intro q hq
        simp only [List.length_append, List.length_singleton] at hq
        simp only
        rw [get0_set]
        by_cases hqe : s.iz = q
        · rw [if_pos ⟨hqe, by omega⟩, ← hqe, hiz]; simp
        · rw [if_neg (by tauto), h.ind q (by omega), List.getElem?_append_left (by omega)]
      · intro q hq i hi
        simp only [List.length_append, List.length_singleton] at hq
        simp only
        have hlt : q * m + i < s.vals.length := by
          rw [h2]; exact blk_lt (by omega) hi
        rw [hv _ hlt]
        by_cases hqe : s.iz = q
        · subst hqe
          rw [if_pos (by omega), hiz]; simp
        · have hqlt : q < w.length := by omega
          have : q * m + i < s.iz * m := by rw [hiz]; exact blk_lt hqlt hi
          rw [if_neg (by omega), h.val q hqlt i hi, List.getElem?_append_left hqlt]
    by_cases hd : icol = e.1
    · rw [if_pos hd, if_pos hd, wr_eq (by omega), ok_bind]
      refine Ok.pure ⟨⟨key.iz, key.lptr, key.lind, key.lval, by simp [h3], key.ind, key.val⟩, rfl,
        by simp [hiz]⟩
    · rw [if_neg hd, if_neg hd, ok_bind]
      exact Ok.pure ⟨⟨key.iz, key.lptr, key.lind, key.lval, h3, key.ind, key.val⟩, rfl, rfl⟩

/-- What `diagind[t]` must be: -1 if the column has no diagonal entry, else a position of it. -/
def DiagLoc (S : Nat → List (CSEntry K)) (t : Nat) (d : Int) : Prop :=
  (d = -1 ∧ ∀ e ∈ S t, e.1 ≠ t) ∨
  ∃ q : Nat, ∃ e, (S t)[q]? = some e ∧ e.1 = t ∧ d = ((offs S t + q : Nat) : Int)

theorem bscOut_ok [Zero K] {m nnz n : Nat} {S : Nat → List (CSEntry K)} {cv : List (List (CSEntry K))}
    (hcl : cv.length = n) (hcv : ∀ j < n, cv⟦j⟧ = S j) (hlen : ∀ j < n, ∀ e ∈ S j, e.2.length = m)
    (htot : offs S n = nnz) {gptr gind : List Nat} {gvals : List K} {gdiag : List Int}
    (h1 : gptr.length = n + 1) (h2 : gind.length = nnz) (h3 : gvals.length = nnz * m)
    (h4 : gdiag.length = n) :
    Ok (forRange 0 n (fun icol s => do
      let bcolptr ← wr s.bcolptr icol s.iz
      let diagind ← wr s.diagind icol (-1)
      let col ← rd cv icol
      forList col (bscPut m icol) { s with bcolptr := bcolptr, diagind := diagind })
      (⟨0, gptr, gind, gvals, gdiag⟩ : BscState K))
    (fun s => BscWritten m nnz n ((List.range n).flatMap S) s ∧
      (∀ t < n, s.bcolptr⟦t⟧ = offs S t) ∧ ∀ t < n, DiagLoc S t s.diagind⟦t⟧) := by
  refine forRange_ok (fun j s => BscWritten m nnz n ((List.range j).flatMap S) s ∧
      (∀ t < j, s.bcolptr⟦t⟧ = offs S t) ∧ ∀ t < j, DiagLoc S t s.diagind⟦t⟧) (Nat.zero_le _)
      ⟨⟨rfl, h1, h2, h3, h4, by simp, by simp⟩, by simp, by simp⟩ ?_
  rintro j s _ hj ⟨hw, hp, hd⟩
  have e1 := hw.lptr
  have e2 := hw.ldiag
  rw [wr_eq (by omega), ok_bind, wr_eq (by omega), ok_bind, rd_eq (by omega), ok_bind, hcv j hj]
  have hw0 : BscWritten m nnz n ((List.range j).flatMap S)
      { s with bcolptr := s.bcolptr.set j s.iz, diagind := s.diagind.set j (-1) } :=
    ⟨hw.iz, by simp [e1], hw.lind, hw.lval, by simp [e2], hw.ind, hw.val⟩
  refine (forList_ok (fun done s' => BscWritten m nnz n ((List.range j).flatMap S ++ done) s' ∧
      s'.bcolptr = s.bcolptr.set j s.iz ∧ (∀ t, t ≠ j → s'.diagind⟦t⟧ = s.diagind⟦t⟧) ∧
      DiagLoc (fun t => if t = j then done else S t) j s'.diagind⟦j⟧) ?_ ?_).mono ?_
  · refine ⟨by simpa using hw0, rfl, fun t ht => get0_set_ne (Ne.symm ht), ?_⟩
    left
    exact ⟨get0_set_self (by omega), by simp⟩
  · rintro done e rest s' hl ⟨hw', hp', hdo, hdj⟩
    have hlt : ((List.range j).flatMap S ++ done).length < nnz := by
      rw [List.length_append, flatMap_length_offs]
      have := offs_mono S (show j + 1 ≤ n from hj)
      rw [offs_succ, hl, List.length_append, List.length_cons] at this
      omega
    refine (bscPut_ok hw' hlt (hlen j hj e (by rw [hl]; simp)) hj).mono ?_
    rintro s'' ⟨hw'', hp'', hd''⟩
    have e3 := hw'.ldiag
    rw [List.append_assoc] at hw''
    refine ⟨hw'', by rw [hp'', hp'], ?_, ?_⟩
    · intro t ht
      rw [hd'', ← hdo t ht]
      split
      · exact get0_set_ne (Ne.symm ht)
      · rfl
    · have hoffs : ∀ l : List (CSEntry K), offs (fun t => if t = j then l else S t) j = offs S j := by
        intro l
        refine offs_congr fun t ht => ?_
        rw [if_neg (by omega)]
      rw [hd'']
      by_cases hje : j = e.1
      · rw [if_pos hje, get0_set_self (by omega)]
        right
        refine ⟨done.length, e, by simp, hje.symm, ?_⟩
        rw [hoffs, List.length_append, flatMap_length_offs]
      · rw [if_neg hje]
        rcases hdj with ⟨h5, h6⟩ | ⟨q, e', h5, h6, h7⟩
        · left
          refine ⟨h5, ?_⟩
          simp only [if_true] at h6 ⊢
          intro e' he'
          rw [List.mem_append, List.mem_singleton] at he'
          rcases he' with he' | rfl
          · exact h6 e' he'
          · exact Ne.symm hje
        · right
          refine ⟨q, e', ?_, h6, ?_⟩
          · simp only [if_true] at h5 ⊢
            have hql : q < done.length := (List.getElem?_eq_some_iff.mp h5).1
            rw [List.getElem?_append_left hql, h5]
          · rw [h7, hoffs, hoffs]
  · rintro s' ⟨hw', hp', hdo, hdj⟩
    refine ⟨?_, ?_, ?_⟩
    · rw [List.range_succ, List.flatMap_append]; simpa using hw'
    · intro t ht
      rw [hp', get0_set]
      by_cases htj : j = t
      · subst htj
        rw [if_pos ⟨rfl, by omega⟩, hw.iz, flatMap_length_offs]
      · rw [if_neg (by tauto)]; exact hp t (by omega)
    · intro t ht
      by_cases htj : t = j
      · subst htj
        have : (fun t' => if t' = t then S t else S t') = S := by
          funext t'; split
          · next h => rw [h]
          · rfl
        rwa [this] at hdj
      · rw [hdo t htj]; exact hd t (by omega)

end Blasted
