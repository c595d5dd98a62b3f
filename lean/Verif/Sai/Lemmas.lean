import Verif.Sai.Spec
import Verif.Transpose.Props
import Verif.Coo.Lemmas
import Mathlib.Data.List.Nodup

/-!
# Lemmas for the assembly patterns of sparse approximate inverses
-/

namespace Blasted
open Finset

variable {V : Type _}

/-! ### Sets -/

theorem mem_setInsert {x y : Nat} {l : List Nat} : y ∈ setInsert x l ↔ y = x ∨ y ∈ l := by
  induction l with
  | nil => simp [setInsert]
  | cons a l ih =>
    unfold setInsert
    split
    · simp
    · split
      · rename_i h; subst h; simp
      · rw [List.mem_cons, ih, List.mem_cons]; tauto

theorem setInsert_sorted {x : Nat} {l : List Nat} (h : l.Pairwise (· < ·)) : (setInsert x l).Pairwise (· < ·) := by
  induction l with
  | nil => simp [setInsert]
  | cons a l ih =>
    rw [List.pairwise_cons] at h
    unfold setInsert
    split
    · rename_i hx
      rw [List.pairwise_cons, List.pairwise_cons]
      refine ⟨fun b hb => ?_, h⟩
      rcases List.mem_cons.mp hb with rfl | hb
      · exact hx
      · exact hx.trans (h.1 b hb)
    · split
      · exact List.pairwise_cons.mpr h
      · rw [List.pairwise_cons]
        refine ⟨fun b hb => ?_, ih h.2⟩
        rcases mem_setInsert.mp hb with rfl | hb
        · omega
        · exact h.1 b hb

/-- Insertion of several elements. -/
def setInsertAll (s l : List Nat) : List Nat := l.foldl (fun s x => setInsert x s) s

theorem mem_setInsertAll {y : Nat} {s l : List Nat} : y ∈ setInsertAll s l ↔ y ∈ s ∨ y ∈ l := by
  induction l generalizing s with
  | nil => simp [setInsertAll]
  | cons a l ih =>
    have := ih (s := setInsert a s)
    unfold setInsertAll at this ⊢
    rw [List.foldl_cons, this, mem_setInsert, List.mem_cons]; tauto

theorem setInsertAll_sorted {s l : List Nat} (h : s.Pairwise (· < ·)) : (setInsertAll s l).Pairwise (· < ·) := by
  induction l generalizing s with
  | nil => exact h
  | cons a l ih => exact ih (setInsert_sorted h)

theorem setInsertAll_append (s l l' : List Nat) : setInsertAll s (l ++ l') = setInsertAll (setInsertAll s l) l' := by
  unfold setInsertAll; rw [List.foldl_append]

/-! ### Flattened lists of segments -/

section slots
variable (nv : Nat → Nat) (Seg : Nat → Nat → List (Nat × Int))

/-- First slot of row `i`. -/
def slotStart (i : Nat) : Nat := ∑ j ∈ range i, nv j

/-- Everything listed before row `i`. -/
def segsRow (i : Nat) : List (Nat × Int) := (List.range i).flatMap fun j => (List.range (nv j)).flatMap (Seg j)

/-- Everything listed before slot `c` of row `i`. -/
def segsTo (i c : Nat) : List (Nat × Int) := segsRow nv Seg i ++ (List.range c).flatMap (Seg i)

theorem segsTo_zero (i : Nat) : segsTo nv Seg i 0 = segsRow nv Seg i := by simp [segsTo]

theorem segsTo_succ (i c : Nat) : segsTo nv Seg i (c + 1) = segsTo nv Seg i c ++ Seg i c := by
  simp [segsTo, List.range_succ, List.flatMap_append]

theorem segsRow_succ (i : Nat) : segsRow nv Seg (i + 1) = segsTo nv Seg i (nv i) := by
  simp [segsRow, segsTo, List.range_succ, List.flatMap_append]

theorem segsRow_zero : segsRow nv Seg 0 = [] := by simp [segsRow]

theorem slotStart_succ (i : Nat) : slotStart nv (i + 1) = slotStart nv i + nv i := by
  simp [slotStart, sum_range_succ]

theorem slotStart_mono {i j : Nat} (h : i ≤ j) : slotStart nv i ≤ slotStart nv j := by
  induction j, h using Nat.le_induction with
  | base => exact le_rfl
  | succ j _ ih => rw [slotStart_succ]; omega

theorem slot_lt {i j c : Nat} (h : i < j) (hc : c < nv i) : slotStart nv i + c < slotStart nv j := by
  have := slotStart_mono nv (i := i + 1) (j := j) h
  rw [slotStart_succ] at this; omega

/-- Every slot belongs to a row. -/
theorem exists_slot {n q : Nat} (h : q < slotStart nv n) : ∃ i < n, ∃ c < nv i, q = slotStart nv i + c := by
  induction n with
  | zero => simp [slotStart] at h
  | succ n ih =>
    by_cases h' : q < slotStart nv n
    · obtain ⟨i, hi, c, hc, e⟩ := ih h'
      exact ⟨i, by omega, c, hc, e⟩
    · rw [slotStart_succ] at h
      exact ⟨n, by omega, q - slotStart nv n, by omega, by omega⟩

theorem segsRow_split {n i : Nat} (h : i ≤ n) : ∃ rest, segsRow nv Seg n = segsRow nv Seg i ++ rest := by
  induction n, h using Nat.le_induction with
  | base => exact ⟨[], by simp⟩
  | succ n _ ih =>
    obtain ⟨r, hr⟩ := ih
    exact ⟨r ++ (List.range (nv n)).flatMap (Seg n), by rw [segsRow_succ, segsTo, hr, List.append_assoc]⟩

theorem segsTo_split {i c d : Nat} (h : c ≤ d) : ∃ rest, segsTo nv Seg i d = segsTo nv Seg i c ++ rest := by
  induction d, h using Nat.le_induction with
  | base => exact ⟨[], by simp⟩
  | succ d _ ih =>
    obtain ⟨r, hr⟩ := ih
    exact ⟨r ++ Seg i d, by rw [segsTo_succ, hr, List.append_assoc]⟩

theorem segs_split {n i c : Nat} (hi : i < n) (hc : c < nv i) :
    ∃ rest, segsRow nv Seg n = segsTo nv Seg i c ++ Seg i c ++ rest := by
  obtain ⟨r, hr⟩ := segsRow_split nv Seg (n := n) (i := i + 1) hi
  obtain ⟨r', hr'⟩ := segsTo_split nv Seg (i := i) (c := c + 1) (d := nv i) hc
  refine ⟨r' ++ r, ?_⟩
  rw [hr, segsRow_succ, hr', segsTo_succ]
  simp

theorem segsTo_length_le {n i c : Nat} (hi : i < n) (hc : c < nv i) :
    (segsTo nv Seg i c).length + (Seg i c).length ≤ (segsRow nv Seg n).length := by
  obtain ⟨r, hr⟩ := segs_split nv Seg hi hc
  rw [hr]; simp

variable {nv Seg}

/-- The scan of the row lengths gives the first slots. -/
theorem scan_starts {n : Nat} {v : List Nat} (hl : v.length = n + 1) (h0 : v⟦0⟧ = 0)
    (h : ∀ i < n, v⟦i + 1⟧ = nv i) :
    ∃ w, inclusiveScan v = .ok w ∧ w.length = n + 1 ∧ ∀ i ≤ n, w⟦i⟧ = slotStart nv i := by
  obtain ⟨w, hw, -, hwl, hs⟩ := inclusive_scan_correct v
  refine ⟨w, hw, by omega, fun i hi => ?_⟩
  rw [hs i (by omega), sum_range_succ', h0, add_zero]
  exact sum_congr rfl fun j hj => h j (by have := mem_range.mp hj; omega)

/-- The scan of the segment lengths gives the positions of the segments. -/
theorem scan_segs {n : Nat} {v : List Nat} (hl : v.length = slotStart nv n + 1) (h0 : v⟦0⟧ = 0)
    (h : ∀ i < n, ∀ c < nv i, v⟦slotStart nv i + c + 1⟧ = (Seg i c).length) :
    ∃ w, inclusiveScan v = .ok w ∧ w.length = slotStart nv n + 1 ∧
      (∀ i < n, ∀ c ≤ nv i, w⟦slotStart nv i + c⟧ = (segsTo nv Seg i c).length) ∧
      w⟦slotStart nv n⟧ = (segsRow nv Seg n).length ∧ w⟦0⟧ = 0 := by
  obtain ⟨w, hw, -, hwl, hs⟩ := inclusive_scan_correct v
  have hw0 : w⟦0⟧ = 0 := by rw [hs 0 (by omega)]; simp [h0]
  have hstep : ∀ q < slotStart nv n, w⟦q + 1⟧ = w⟦q⟧ + v⟦q + 1⟧ := by
    intro q hq
    rw [hs _ (by omega), hs _ (by omega), sum_range_succ _ (q + 1)]
  have row : ∀ i < n, w⟦slotStart nv i⟧ = (segsRow nv Seg i).length → ∀ c ≤ nv i,
      w⟦slotStart nv i + c⟧ = (segsTo nv Seg i c).length := by
    intro i hi h1 c hc
    induction c with
    | zero => rw [segsTo_zero]; exact h1
    | succ c ih =>
      rw [← Nat.add_assoc, hstep _ (slot_lt nv hi (by omega)), ih (by omega), h i hi c (by omega), segsTo_succ,
        List.length_append]
  have start : ∀ i ≤ n, w⟦slotStart nv i⟧ = (segsRow nv Seg i).length := by
    intro i hi
    induction i with
    | zero => simp [slotStart, segsRow_zero, hw0]
    | succ i ih =>
      rw [slotStart_succ, row i (by omega) (ih (by omega)) _ le_rfl, segsRow_succ]
  exact ⟨w, hw, by omega, fun i hi => row i hi (start i hi.le), start n le_rfl, hw0⟩

end slots

/-! ### Filling an array from the front -/

/-- Writing just after the filled part extends it. -/
theorem take_set_succ {α : Type _} {a : List α} {p : Nat} {v : α} (h : p < a.length) :
    (a.set p v).take (p + 1) = a.take p ++ [v] := by
  apply List.ext_getElem?
  intro t
  rw [List.getElem?_take]
  by_cases ht : t < p
  · rw [if_pos (by omega), List.getElem?_set, if_neg (by omega), List.getElem?_append_left (by simp; omega),
      List.getElem?_take, if_pos ht]
  · by_cases e : t = p
    · subst e
      rw [if_pos (by omega), List.getElem?_set_self h, List.getElem?_append_right (by simp)]
      simp [h.le]
    · rw [if_neg (by omega), eq_comm, List.getElem?_eq_none]
      simp; omega

/-- The state of the output arrays when exactly the list `l` has been written. -/
def SegFilled (N : Nat) (l : List (Nat × Int)) (s : List Nat × List Int) : Prop :=
  s.1.length = N ∧ s.2.length = N ∧ s.1.take l.length = l.map Prod.fst ∧ s.2.take l.length = l.map Prod.snd

theorem SegFilled.step {N : Nat} {l : List (Nat × Int)} {s : List Nat × List Int} (h : SegFilled N l s)
    (hl : l.length < N) (k : Nat) (e : Int) :
    SegFilled N (l ++ [(k, e)]) (s.1.set l.length k, s.2.set l.length e) := by
  obtain ⟨h1, h2, h3, h4⟩ := h
  refine ⟨by simp [h1], by simp [h2], ?_, ?_⟩
  · rw [List.length_append, List.length_singleton, take_set_succ (by omega), h3]; simp
  · rw [List.length_append, List.length_singleton, take_set_succ (by omega), h4]; simp

/-- A complete pattern lists the segments. -/
theorem column_eq {n : Nat} {nv : Nat → Nat} {Seg : Nat → Nat → List (Nat × Int)} {sp : SaiPattern}
    (h1 : ∀ i ≤ n, sp.sairowptr⟦i⟧ = slotStart nv i)
    (h2 : ∀ i < n, ∀ c ≤ nv i, sp.bcolptr⟦slotStart nv i + c⟧ = (segsTo nv Seg i c).length)
    (h3 : SegFilled (segsRow nv Seg n).length (segsRow nv Seg n) (sp.bpos, sp.browind))
    {i c : Nat} (hi : i < n) (hc : c < nv i) : sp.column i c = Seg i c := by
  obtain ⟨f1, f2, f3, f4⟩ := h3
  rw [List.take_of_length_le (by rw [f1])] at f3
  rw [List.take_of_length_le (by rw [f2])] at f4
  simp only at f3 f4
  obtain ⟨rest, hr⟩ := segs_split nv Seg hi hc
  unfold SaiPattern.column
  rw [h1 i hi.le, Nat.add_assoc, h2 i hi c hc.le, h2 i hi (c + 1) hc, segsTo_succ, List.length_append,
    Nat.add_sub_cancel_left, f3, f4, hr]
  apply List.ext_getElem (by simp)
  intro t ht1 ht2
  simp only [List.getElem_map, List.getElem_range', Nat.one_mul]
  have hlt : (segsTo nv Seg i c).length + t < (segsTo nv Seg i c ++ Seg i c ++ rest).length := by
    simp; omega
  have e : (segsTo nv Seg i c ++ Seg i c ++ rest)[(segsTo nv Seg i c).length + t] = (Seg i c)[t] := by
    rw [List.getElem_append_left (by simp; omega), List.getElem_append_right (by omega)]
    simp
  rw [get0_eq_getElem (by simp; omega), get0_eq_getElem (by simp; omega), List.getElem_map, List.getElem_map, e]

/-- Sizes of a complete pattern. -/
theorem sized_of {n : Nat} {nv : Nat → Nat} {Seg : Nat → Nat → List (Nat × Int)} {sp : SaiPattern}
    (a1 : sp.nVars.length = n) (a2 : sp.nEqns.length = n) (a3 : sp.localCentralRow.length = n)
    (a4 : sp.sairowptr.length = n + 1) (a5 : ∀ i < n, sp.nVars⟦i⟧ = nv i)
    (a6 : sp.bcolptr.length = slotStart nv n + 1)
    (h1 : ∀ i ≤ n, sp.sairowptr⟦i⟧ = slotStart nv i) (h0 : sp.bcolptr⟦0⟧ = 0)
    (h2 : ∀ i < n, ∀ c ≤ nv i, sp.bcolptr⟦slotStart nv i + c⟧ = (segsTo nv Seg i c).length)
    (hn : sp.bcolptr⟦slotStart nv n⟧ = (segsRow nv Seg n).length)
    (h3 : SegFilled (segsRow nv Seg n).length (segsRow nv Seg n) (sp.bpos, sp.browind)) : sp.Sized n := by
  obtain ⟨f1, f2, -, -⟩ := h3
  have e := h1 n le_rfl
  refine ⟨a1, a2, a3, a4, ?_, ?_, by rw [e]; exact a6, h0, ?_, ?_, ?_⟩
  · rw [h1 0 (Nat.zero_le _)]; simp [slotStart]
  · intro i hi
    rw [h1 _ hi, h1 _ hi.le, a5 i hi, slotStart_succ]
  · intro q hq
    rw [e] at hq
    obtain ⟨i, hi, c, hc, rfl⟩ := exists_slot nv hq
    rw [h2 i hi c hc.le, Nat.add_assoc, h2 i hi (c + 1) hc, segsTo_succ, List.length_append]
    omega
  · rw [e, hn]; exact f1
  · rw [e, hn]; exact f2

/-! ### Reading rows -/

section rows
variable {A : SR V}

theorem SR.ViewOk.ptr_le (h : A.ViewOk) {i : Nat} (hi : i < A.nbrows) : A.browptr⟦i⟧ ≤ A.browendptr⟦i⟧ :=
  (h.diag_ge i hi).trans (h.diag_lt i hi).le

theorem SR.ViewOk.row_pos (h : A.ViewOk) {i : Nat} (hi : i < A.nbrows) : 0 < A.rowLen i := by
  have := h.diag_ge i hi
  have := h.diag_lt i hi
  unfold SR.rowLen; omega

theorem SR.ViewOk.rd_ptr (h : A.ViewOk) {i : Nat} (hi : i < A.nbrows) : rd A.browptr i = .ok A.browptr⟦i⟧ :=
  rd_eq (by have := h.ptr_len; omega)

theorem SR.ViewOk.rd_end (h : A.ViewOk) {i : Nat} (hi : i < A.nbrows) : rd A.browendptr i = .ok A.browendptr⟦i⟧ :=
  rd_eq (by have := h.end_len; omega)

theorem SR.ViewOk.rd_col (h : A.ViewOk) {i k : Nat} (hi : i < A.nbrows) (hk : A.Has i k) :
    rd A.bcolind k = .ok A.bcolind⟦k⟧ :=
  rd_eq (by have := h.end_le i hi; have := hk.2; omega)

theorem SR.ViewOk.col_lt' (h : A.ViewOk) {i k : Nat} (hi : i < A.nbrows) (hk : A.Has i k) :
    A.bcolind⟦k⟧ < A.nbrows := h.col_lt i hi k hk.1 hk.2

theorem SR.ViewOk.inj (h : A.ViewOk) {i k l : Nat} (hi : i < A.nbrows) (hk : A.Has i k) (hl : A.Has i l)
    (e : A.bcolind⟦k⟧ = A.bcolind⟦l⟧) : k = l := by
  rcases Nat.lt_trichotomy k l with hlt | rfl | hlt
  · have := h.sorted i hi k l hk.1 hlt hl.2; omega
  · rfl
  · have := h.sorted i hi l k hl.1 hlt hk.2; omega

theorem forRange_fold {σ : Type _} {lo hi : Nat} {body : Nat → σ → C σ} {g : σ → Nat → σ} {s : σ}
    (h : ∀ i, lo ≤ i → i < hi → ∀ s, body i s = .ok (g s i)) :
    forRange lo hi body s = .ok ((List.range' lo (hi - lo)).foldl g s) :=
  forList_eq_foldl fun i hi s => by
    rw [List.mem_range'_1] at hi
    exact h i hi.1 (by omega) s

/-- Columns of the constraints of row `i`, with repetitions. -/
def SR.reach (A : SR V) (i : Nat) : List Nat :=
  (List.range' A.browptr⟦i⟧ (A.rowLen i)).flatMap fun jj => A.rowCols A.bcolind⟦jj⟧

/-- The constraints of row `i`. -/
def SR.constraints (A : SR V) (i : Nat) : List Nat := setInsertAll [] (A.reach i)

theorem SR.mem_reach {i j : Nat} : j ∈ A.reach i ↔
    ∃ k, A.Has i k ∧ ∃ l, A.Has A.bcolind⟦k⟧ l ∧ A.bcolind⟦l⟧ = j := by
  unfold SR.reach SR.rowCols SR.rowLen SR.Has
  simp only [List.mem_flatMap, List.mem_range'_1, List.mem_map]
  constructor
  · rintro ⟨k, ⟨hk1, hk2⟩, l, ⟨hl1, hl2⟩, e⟩
    exact ⟨k, ⟨hk1, by omega⟩, l, ⟨hl1, by omega⟩, e⟩
  · rintro ⟨k, ⟨hk1, hk2⟩, l, ⟨hl1, hl2⟩, e⟩
    exact ⟨k, ⟨hk1, by omega⟩, l, ⟨hl1, by omega⟩, e⟩

theorem SR.mem_constraints {i j : Nat} : j ∈ A.constraints i ↔
    ∃ k, A.Has i k ∧ ∃ l, A.Has A.bcolind⟦k⟧ l ∧ A.bcolind⟦l⟧ = j := by
  unfold SR.constraints
  rw [mem_setInsertAll, SR.mem_reach]; simp

theorem SR.constraints_sorted (A : SR V) (i : Nat) : (A.constraints i).Pairwise (· < ·) :=
  setInsertAll_sorted List.Pairwise.nil

theorem foldl_insert_count (f : Nat → Nat) (l : List Nat) (s : List Nat) (t : Nat) :
    l.foldl (fun (st : List Nat × Nat) k => (setInsert (f k) st.1, st.2 + 1)) (s, t) =
      (setInsertAll s (l.map f), t + l.length) := by
  induction l generalizing s t with
  | nil => simp [setInsertAll]
  | cons a l ih =>
    rw [List.foldl_cons, ih]
    simp [setInsertAll]
    omega

theorem foldl_insertAll_count (f : Nat → List Nat) (l : List Nat) (s : List Nat) (t : Nat) :
    l.foldl (fun (st : List Nat × Nat) k => (setInsertAll st.1 (f k), st.2 + (f k).length)) (s, t) =
      (setInsertAll s (l.flatMap f), t + (l.flatMap f).length) := by
  induction l generalizing s t with
  | nil => simp [setInsertAll]
  | cons a l ih =>
    rw [List.foldl_cons, ih]
    simp [setInsertAll_append, Nat.add_assoc]

theorem foldl_insertAll (f : Nat → List Nat) (l : List Nat) (s : List Nat) :
    l.foldl (fun st k => setInsertAll st (f k)) s = setInsertAll s (l.flatMap f) := by
  induction l generalizing s with
  | nil => simp [setInsertAll]
  | cons a l ih =>
    rw [List.foldl_cons, ih]
    simp [setInsertAll_append]

theorem SR.rowCols_length (i : Nat) : (A.rowCols i).length = A.rowLen i := by simp [SR.rowCols]

theorem reach_length (i : Nat) : (A.reach i).length =
    ((List.range (A.rowLen i)).map fun c => A.rowLen A.bcolind⟦A.browptr⟦i⟧ + c⟧).sum := by
  unfold SR.reach
  rw [List.length_flatMap, List.range'_eq_map_range, List.map_map]
  congr 1
  refine List.map_congr_left fun c _ => ?_
  simp [SR.rowCols_length]

/-! ### Sizes -/

/-- Body of step 1. -/
theorem saiSizeRow_eq (h : A.ViewOk) {i : Nat} (hi : i < A.nbrows) {s : SaiSizes} (h1 : i < s.nVars.length)
    (h2 : i < s.nEqns.length) (h3 : i + 1 < s.sairowptr.length) :
    saiSizeRow A i s = .ok ⟨s.nVars.set i (A.rowLen i), s.nEqns.set i (A.constraints i).length,
      s.sairowptr.set (i + 1) (A.rowLen i), s.totalcoeffs + (A.reach i).length⟩ := by
  unfold saiSizeRow
  rw [h.rd_ptr hi, ok_bind, h.rd_end hi, ok_bind, wr_eq h1, ok_bind,
    forRange_fold (g := fun (st : List Nat × Nat) jj => (setInsertAll st.1 (A.rowCols A.bcolind⟦jj⟧),
      st.2 + (A.rowCols A.bcolind⟦jj⟧).length))]
  · rw [foldl_insertAll_count, ok_bind]
    simp only
    rw [wr_eq h2, ok_bind, rd_eq (by simpa using h1), ok_bind, wr_eq h3, ok_bind, get0_set_self h1]
    rfl
  · intro jj hlo hhi st
    have hc := h.col_lt' hi ⟨hlo, hhi⟩
    rw [h.rd_col hi ⟨hlo, hhi⟩, ok_bind, h.rd_ptr hc, ok_bind, h.rd_end hc, ok_bind,
      forRange_fold (g := fun (st : List Nat × Nat) kk => (setInsert A.bcolind⟦kk⟧ st.1, st.2 + 1))]
    · obtain ⟨s, t⟩ := st
      rw [foldl_insert_count (fun kk => A.bcolind⟦kk⟧)]
      simp [SR.rowCols, SR.rowLen]
    · intro kk h4 h5 st
      rw [h.rd_col hc ⟨h4, h5⟩, ok_bind]

theorem saiConstraints_eq (h : A.ViewOk) {i : Nat} (hi : i < A.nbrows) :
    saiConstraints A i = .ok (A.constraints i) := by
  unfold saiConstraints
  rw [h.rd_ptr hi, ok_bind, h.rd_end hi, ok_bind,
    forRange_fold (g := fun st jj => setInsertAll st (A.rowCols A.bcolind⟦jj⟧))]
  · rw [foldl_insertAll]; rfl
  · intro jj hlo hhi st
    have hc := h.col_lt' hi ⟨hlo, hhi⟩
    rw [h.rd_col hi ⟨hlo, hhi⟩, ok_bind, h.rd_ptr hc, ok_bind, h.rd_end hc, ok_bind,
      forRange_fold (g := fun st kk => setInsert A.bcolind⟦kk⟧ st)]
    · unfold setInsertAll SR.rowCols
      rw [List.foldl_map]; rfl
    · intro kk h4 h5 st
      rw [h.rd_col hc ⟨h4, h5⟩, ok_bind]

end rows
end Blasted
