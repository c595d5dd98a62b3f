import Verif.Transpose.Lemmas
import Verif.MatVec.Props

/-!
# Properties C04-C07 and C09: row-to-column conversion, column products, adjacency, scans
-/

namespace Blasted
open Finset

variable {K : Type _}

/-! ### Specification of column storage -/

namespace SC

/-- Well-formed column storage with `m` value cells per entry. -/
structure Full (c : SC K) (m : Nat := 1) : Prop where
  ptr_len : c.bcolptr.length = c.nbcols + 1
  ptr_zero : c.bcolptr⟦0⟧ = 0
  ptr_mono : ∀ j < c.nbcols, c.bcolptr⟦j⟧ ≤ c.bcolptr⟦j + 1⟧
  ind_len : c.browind.length = c.bcolptr⟦c.nbcols⟧
  val_len : c.vals.length = c.bcolptr⟦c.nbcols⟧ * m
  row_lt : ∀ k < c.bcolptr⟦c.nbcols⟧, c.browind⟦k⟧ < c.nbcols

/-- The entries of column `j`: pairs (row, block). -/
def col [Zero K] (c : SC K) (m j : Nat) : List (CSEntry K) :=
  (List.range' c.bcolptr⟦j⟧ (c.bcolptr⟦j + 1⟧ - c.bcolptr⟦j⟧)).map fun k =>
    (c.browind⟦k⟧, blockAt m c.vals k)

/-- The scalar matrix denoted by flat block-column storage. -/
def bentry [AddCommMonoid K] (stor : Stor) (bs : Nat) (c : SC K) (I J : Nat) : K :=
  ∑ k ∈ Ico c.bcolptr⟦J / bs⟧ c.bcolptr⟦J / bs + 1⟧,
    if c.browind⟦k⟧ = I / bs then c.vals⟦k * (bs * bs) + stor.off bs (I % bs) (J % bs)⟧ else 0

end SC

/-- A correct `std::sort` on pairs (row, block) with the comparison of row indices
(`src/scmatrix.cpp` lines 66-67): any sorted permutation; nothing about stability. -/
def SortsByRow (srt : List (CSEntry K) → List (CSEntry K)) : Prop :=
  ∀ l, (srt l).Perm l ∧ (srt l).Pairwise (fun a b => a.1 ≤ b.1)

theorem blockAt_length [Zero K] (m : Nat) (vals : List K) (k : Nat) :
    (blockAt m vals k).length = m := by simp [blockAt]

/-- **C05** `convert_BSR_to_BSC` succeeds and gives well-formed column storage whose columns hold
exactly the (row, block) entries of the original (with multiplicity), in order of row
index; `diagind` is -1 for a column without diagonal entry and otherwise locates one. Whatever the
initial contents of the allocated arrays, and for every correct sort. -/
theorem convert_BSR_to_BSC_correct [Zero K] (A : SR K) (m : Nat) (hA : A.Full m)
    (srt : List (CSEntry K) → List (CSEntry K)) (hsrt : SortsByRow srt)
    (gptr gind : List Nat) (gvals : List K) (gdiag : List Int)
    (h1 : gptr.length = A.nbrows + 1) (h2 : gind.length = A.browptr⟦A.nbrows⟧)
    (h3 : gvals.length = A.browptr⟦A.nbrows⟧ * m) (h4 : gdiag.length = A.nbrows) :
    ∃ c, convertBSC m srt A gptr gind gvals gdiag = .ok c ∧ c.Full m ∧ c.nbcols = A.nbrows ∧
      c.bcolptr⟦c.nbcols⟧ = A.browptr⟦A.nbrows⟧ ∧ c.diagind.length = A.nbrows ∧
      ∀ j < A.nbrows,
        (c.col m j).Perm (A.colEntries m j) ∧
        (c.col m j).Pairwise (fun a b => a.1 ≤ b.1) ∧
        ((c.diagind⟦j⟧ = -1 ∧ ∀ e ∈ A.colEntries m j, e.1 ≠ j) ∨
          ∃ p : Nat, c.diagind⟦j⟧ = (p : Int) ∧ c.bcolptr⟦j⟧ ≤ p ∧ p < c.bcolptr⟦j + 1⟧ ∧
            c.browind⟦p⟧ = j) := by
  set n := A.nbrows with hn
  set nnz := A.browptr⟦n⟧ with hnnz
  set S : Nat → List (CSEntry K) := fun j => srt (A.colEntries m j) with hS
  have hSl : ∀ j, (S j).length = (A.colEntries m j).length := fun j => (hsrt _).1.length_eq
  have htot : offs S n = nnz := by
    have := colEntries_length_offs hA
    rw [← hn, ← hnnz] at this
    rw [← this]; exact offs_congr fun t _ => hSl t
  have hblk : ∀ j < n, ∀ e ∈ S j, e.2.length = m := by
    intro j _ e he
    rw [(hsrt _).1.mem_iff, SR.colEntries, List.mem_map] at he
    obtain ⟨a, _, rfl⟩ := he
    exact blockAt_length _ _ _
  have hpl := hA.ptr_len
  have main : Ok (convertBSC m srt A gptr gind gvals gdiag) (fun c => c.nbcols = n ∧
      c.bcolptr.length = n + 1 ∧ c.browind.length = nnz ∧ c.vals.length = nnz * m ∧
      c.diagind.length = n ∧ (∀ t ≤ n, c.bcolptr⟦t⟧ = offs S t) ∧
      (∀ t < n, DiagLoc S t c.diagind⟦t⟧) ∧
      ∃ s, BscWritten m nnz n ((List.range n).flatMap S) s ∧ s.browind = c.browind ∧ s.vals = c.vals) := by
    unfold convertBSC
    rw [rd_eq (by omega), ok_bind]
    refine (bscScatter_ok hA).bind ?_
    rintro cv ⟨hcl, hcv⟩
    refine (forRange_map (fun _ col => srt col) (fun i hi a' hl => by
      rw [rd_eq (by omega), ok_bind, wr_eq (by omega)])).bind ?_
    rintro cv' ⟨hcl', hcv'⟩
    refine (bscOut_ok (S := S) (hcl'.trans hcl) (fun j hj => ?_) hblk htot h1 h2 h3 h4).bind ?_
    · rw [hcv' j (by omega), if_pos hj, hcv j hj]
    · rintro s ⟨hw, hp, hd⟩
      have hiz : s.iz = nnz := by rw [hw.iz, flatMap_length_offs, htot]
      have hc : cassert (s.iz == A.browptr⟦A.nbrows⟧) = .ok () := by
        simp only [cassert, hiz]; simp [hnnz, hn]
      have := hw.lptr
      rw [hc, ok_bind, wr_eq (by omega), ok_bind]
      refine Ok.pure ⟨rfl, by simp [this, hn], hw.lind, hw.lval, hw.ldiag, ?_, hd, s, hw, rfl, rfl⟩
      intro t ht
      simp only
      rw [get0_set]
      by_cases h : n = t
      · rw [if_pos ⟨h, by omega⟩, ← h, htot]
      · rw [if_neg (by tauto), hp t (by omega)]
  obtain ⟨c, e, hnb, lp, li, lv, ld, hp, hd, s, hw, hsi, hsv⟩ := main
  have hcol : ∀ j < n, c.col m j = S j := by
    intro j hj
    unfold SC.col
    rw [hp j (by omega), hp (j + 1) (by omega), offs_succ, Nat.add_sub_cancel_left]
    apply List.ext_getElem
    · simp
    · intro q hq1 hq2
      simp only [List.getElem_map, List.getElem_range', Nat.one_mul]
      have hlt : offs S j + q < ((List.range n).flatMap S).length := by
        rw [flatMap_length_offs]
        have := offs_mono S (show j + 1 ≤ n from hj)
        rw [offs_succ] at this; omega
      have hget := get_flatMap S hj hq2
      rw [List.getElem?_eq_getElem hq2] at hget
      have hi := hw.ind _ hlt
      rw [hget] at hi
      have hv := hw.val _ hlt
      rw [hget] at hv
      simp only [Option.map_some, Option.getD_some] at hi hv
      rw [hsi] at hi
      rw [hsv] at hv
      refine Prod.ext hi ?_
      simp only
      apply ext_get0
      · rw [blockAt_length, hblk j hj _ (List.getElem_mem hq2)]
      · intro i hi
        rw [blockAt_length] at hi
        rw [blockAt, get0_map_range _ hi, hv i hi]
  refine ⟨c, e, ⟨by rw [lp, hnb], ?_, ?_, ?_, ?_, ?_⟩, hnb, ?_, ld, ?_⟩
  · rw [hp 0 (by omega)]; rfl
  · intro j hj
    rw [hp j (by omega), hp (j + 1) (by omega)]; exact offs_mono S (by omega)
  · rw [li, hnb, hp n (by omega), htot]
  · rw [lv, hnb, hp n (by omega), htot]
  · intro k hk
    rw [hnb, hp n (by omega)] at hk
    have hk' : k < ((List.range n).flatMap S).length := by rw [flatMap_length_offs]; exact hk
    have hi := hw.ind k hk'
    rw [hsi, List.getElem?_eq_getElem hk'] at hi
    simp only [Option.map_some, Option.getD_some] at hi
    rw [hi, hnb]
    have hm := List.getElem_mem hk'
    rw [List.mem_flatMap] at hm
    obtain ⟨j, _, hm⟩ := hm
    rw [(hsrt _).1.mem_iff, SR.colEntries, List.mem_map] at hm
    obtain ⟨a, ha, hae⟩ := hm
    rw [← hae]
    exact (hA.of_mem_stored (List.mem_filter.mp ha).1).1
  · rw [hnb, hp n (by omega), htot]
  · intro j hj
    refine ⟨by rw [hcol j hj]; exact (hsrt _).1, by rw [hcol j hj]; exact (hsrt _).2, ?_⟩
    rcases hd j hj with ⟨h5, h6⟩ | ⟨q, e', h5, h6, h7⟩
    · left
      exact ⟨h5, fun e he => h6 e ((hsrt _).1.mem_iff.mpr he)⟩
    · right
      obtain ⟨hq, hqe⟩ := List.getElem?_eq_some_iff.mp h5
      refine ⟨offs S j + q, h7, by rw [hp j (by omega)]; omega, ?_, ?_⟩
      · rw [hp (j + 1) (by omega), offs_succ]; omega
      · have hlt : offs S j + q < ((List.range n).flatMap S).length := by
          rw [flatMap_length_offs]
          have := offs_mono S (show j + 1 ≤ n from hj)
          rw [offs_succ] at this; omega
        have hi := hw.ind _ hlt
        rw [get_flatMap S hj hq, h5, hsi] at hi
        rw [hi]; exact h6

theorem get0_blockAt [Zero K] {m k o : Nat} {vals : List K} (ho : o < m) :
    (blockAt m vals k)⟦o⟧ = vals⟦k * m + o⟧ := by
  rw [blockAt, get0_map_range _ ho]

theorem sum_map_flatMap_range {M α : Type _} [AddCommMonoid M] (g : Nat → List α) (f : α → M) (n : Nat) :
    (((List.range n).flatMap g).map f).sum = ∑ a ∈ range n, ((g a).map f).sum := by
  induction n with
  | zero => simp
  | succ n ih =>
    rw [List.range_succ, List.flatMap_append, List.map_append, List.sum_append, ih, sum_range_succ]
    simp

/-- A sum over one row, as a sum over the list of stored entries. -/
theorem sum_row_eq_stored {M : Type _} [AddCommMonoid M] {A : SR K}
    {i : Nat} (hi : i < A.nbrows) (f : Nat → M) :
    (A.stored.map fun e => if e.1 = i then f e.2 else 0).sum =
      ∑ k ∈ Ico A.browptr⟦i⟧ A.browptr⟦i + 1⟧, f k := by
  unfold SR.stored
  rw [sum_map_flatMap_range, sum_eq_single i]
  · rw [List.map_map]
    simp only [Function.comp_def, if_true]
    exact sum_map_range' _ _ _
  · intro a _ ha
    rw [List.map_map]
    simp only [Function.comp_def, if_neg ha]
    rw [sum_map_range' (f := fun _ => (0 : M))]; simp
  · intro h; exact absurd (mem_range.mpr hi) h

/-- Sum over the entries of a column that satisfy a condition. -/
theorem sum_map_filter {M α : Type _} [AddCommMonoid M] (l : List α) (p : α → Bool) (f : α → M) :
    ((l.filter p).map f).sum = (l.map fun a => if p a then f a else 0).sum := by
  induction l with
  | nil => rfl
  | cons a l ih =>
    rw [List.filter_cons]
    by_cases h : p a <;> simp [h, ih]

/-- **C05**, matrix form: the column storage denotes the same matrix as the row storage,
for both block layouts. -/
theorem convert_BSR_to_BSC_same_matrix [AddCommMonoid K] (A : SR K) (bs : Nat) (hbs : 0 < bs)
    (hA : A.Full (bs * bs))
    (srt : List (CSEntry K) → List (CSEntry K)) (hsrt : SortsByRow srt)
    (gptr gind : List Nat) (gvals : List K) (gdiag : List Int)
    (h1 : gptr.length = A.nbrows + 1) (h2 : gind.length = A.browptr⟦A.nbrows⟧)
    (h3 : gvals.length = A.browptr⟦A.nbrows⟧ * (bs * bs)) (h4 : gdiag.length = A.nbrows) :
    ∃ c, convertBSC (bs * bs) srt A gptr gind gvals gdiag = .ok c ∧
      c.Full (bs * bs) ∧ c.nbcols = A.nbrows ∧
      ∀ (stor : Stor), ∀ I < A.nbrows * bs, ∀ J < A.nbrows * bs,
        c.bentry stor bs I J = A.bentry stor bs I J := by
  obtain ⟨c, e, hf, hn, _, _, h⟩ := convert_BSR_to_BSC_correct A (bs * bs) hA srt hsrt gptr gind gvals
    gdiag h1 h2 h3 h4
  refine ⟨c, e, hf, hn, fun stor I hI J hJ => ?_⟩
  have hIb : I / bs < A.nbrows := (Nat.div_lt_iff_lt_mul hbs).mpr hI
  have hJb : J / bs < A.nbrows := (Nat.div_lt_iff_lt_mul hbs).mpr hJ
  have ho := stor.off_lt (Nat.mod_lt I hbs) (Nat.mod_lt J hbs)
  set o := stor.off bs (I % bs) (J % bs)
  have hperm := (h _ hJb).1
  have hs := (hperm.map fun e => if e.1 = I / bs then e.2⟦o⟧ else 0).sum_eq
  have hl : c.bentry stor bs I J = ((c.col (bs * bs) (J / bs)).map
      fun e => if e.1 = I / bs then e.2⟦o⟧ else 0).sum := by
    unfold SC.bentry SC.col
    rw [List.map_map]
    simp only [Function.comp_def, get0_blockAt ho]
    rw [sum_map_range' (f := fun k => if c.browind⟦k⟧ = I / bs then c.vals⟦k * (bs * bs) + o⟧ else 0)]
  have hr : A.bentry stor bs I J = ((A.colEntries (bs * bs) (J / bs)).map
      fun e => if e.1 = I / bs then e.2⟦o⟧ else 0).sum := by
    unfold SR.bentry SR.colEntries
    rw [List.map_map]
    simp only [Function.comp_def, get0_blockAt ho]
    rw [sum_map_filter, hA.end_eq _ hIb, ← sum_row_eq_stored hIb]
    congr 1
    refine List.map_congr_left fun e _ => ?_
    by_cases h1 : e.1 = I / bs <;> by_cases h2 : A.bcolind⟦e.2⟧ = J / bs <;> simp [h1, h2, o]
  rw [hl, hr, hs]

/-- **C06** `convert_BSR_to_BSC_1based` gives the result of `convert_BSR_to_BSC` with 1 added to
all row indices and column pointers and to all `diagind` (so the "no diagonal" marker -1 becomes 0);
values are the same. -/
theorem convert_BSR_to_BSC_1based_correct [Zero K] (A : SR K) (m : Nat) (hA : A.Full m)
    (srt : List (CSEntry K) → List (CSEntry K)) (hsrt : SortsByRow srt)
    (gptr gind : List Nat) (gvals : List K) (gdiag : List Int)
    (h1 : gptr.length = A.nbrows + 1) (h2 : gind.length = A.browptr⟦A.nbrows⟧)
    (h3 : gvals.length = A.browptr⟦A.nbrows⟧ * m) (h4 : gdiag.length = A.nbrows) :
    ∃ c c1, convertBSC m srt A gptr gind gvals gdiag = .ok c ∧
      convertBSC1 m srt A gptr gind gvals gdiag = .ok c1 ∧
      c1 = { c with bcolptr := c.bcolptr.map (· + 1), browind := c.browind.map (· + 1),
                    diagind := c.diagind.map (· + 1) } := by
  obtain ⟨c, e, hf, hn, hnnz, hdl, h⟩ := convert_BSR_to_BSC_correct A m hA srt hsrt gptr gind gvals
    gdiag h1 h2 h3 h4
  have shift : ∀ {α : Type} [AddMonoidWithOne α] (a : List α) (k : Nat), k = a.length →
      forRange 0 k (fun i (a : List α) => do
        let v ← rd a i
        wr a i (v + 1)) a = .ok (a.map (· + 1)) := by
    intro α _ a k hk
    obtain ⟨a', e, hl, hv⟩ := forRange_map (a := a) (n := k) (body := fun i (a : List α) => do
        let v ← rd a i
        wr a i (v + 1)) (fun _ v => v + 1) (fun i hi a' hl => by
      rw [rd_eq (by omega), ok_bind, wr_eq (by omega)])
    rw [e]
    congr 1
    apply ext_get0 (by simp [hl])
    intro i hi
    have hia : i < a.length := by omega
    rw [hv i hia, if_pos (by omega)]
    simp [get0, hia]
  refine ⟨c, _, e, ?_, rfl⟩
  unfold convertBSC1
  have := hA.ptr_len
  rw [e, ok_bind, shift c.bcolptr _ hf.ptr_len.symm, ok_bind, shift c.diagind _ (by omega), ok_bind,
    rd_eq (by omega), ok_bind, shift c.browind _ (by rw [hf.ind_len, hnnz]), ok_bind]

/-- **C09** `inclusive_scan`: entry `i` of the result is the sum of the entries `0..i`. The
out-of-place variant gives the same and leaves its argument alone (it is passed by const reference). -/
theorem inclusive_scan_correct (v : List Nat) :
    ∃ w, inclusiveScan v = .ok w ∧ inclusiveScanCopy v = .ok w ∧ w.length = v.length ∧
      ∀ i < v.length, w⟦i⟧ = ∑ j ∈ range (i + 1), v⟦j⟧ := by
  have : Ok (inclusiveScan v) (fun w => w.length = v.length ∧
      ∀ i < v.length, w⟦i⟧ = ∑ j ∈ range (i + 1), v⟦j⟧) := by
    unfold inclusiveScan
    rcases Nat.eq_zero_or_pos v.length with h0 | hpos
    · have : v = [] := List.eq_nil_of_length_eq_zero h0
      subst this
      exact Ok.pure ⟨rfl, by simp⟩
    refine (forRange_ok (fun k w => w.length = v.length ∧
      ∀ i < v.length, w⟦i⟧ = if i < k then ∑ j ∈ range (i + 1), v⟦j⟧ else v⟦i⟧) hpos
      ⟨rfl, fun i _ => ?_⟩ ?_).mono ?_
    · split
      · next h => have : i = 0 := by omega
                  subst this; simp
      · rfl
    · rintro i w h1 h2 ⟨hl, hI⟩
      rw [rd_eq (by omega), ok_bind, rd_eq (by omega), ok_bind, wr_eq (by omega)]
      refine Ok.pure ⟨by simp [hl], fun t ht => ?_⟩
      rw [get0_set]
      by_cases h : i = t
      · subst h
        rw [if_pos ⟨rfl, by omega⟩, if_pos (by omega), hI i ht, if_neg (by omega), hI (i - 1) (by omega),
          if_pos (by omega), sum_range_succ _ i, Nat.add_comm, Nat.sub_add_cancel h1]
      · rw [if_neg (by tauto), hI t ht]
        by_cases h' : t < i
        · rw [if_pos h', if_pos (by omega)]
        · rw [if_neg h', if_neg (by omega)]
    · rintro w ⟨hl, hI⟩
      exact ⟨hl, fun i hi => by rw [hI i hi, if_pos hi]⟩
  obtain ⟨w, e, hl, h⟩ := this
  exact ⟨w, e, e, hl, h⟩

example : inclusiveScan [3, 0, 4, 1] = .ok [3, 3, 7, 8] := by decide

/-- **C07** `ColumnAdjacency` never throws, and for each column its segment lists exactly the stored
entries of that column - row and location in the row storage - in storage order. -/
theorem column_adjacency_correct (A : SR K) (m : Nat) (hA : A.Full m) :
    ∃ c, colAdjacency A = .ok c ∧ c.ptrs.length = A.nbrows + 1 ∧ c.ptrs⟦0⟧ = 0 ∧
      c.ptrs⟦A.nbrows⟧ = A.browptr⟦A.nbrows⟧ ∧ c.col_rows.length = A.browptr⟦A.nbrows⟧ ∧
      c.rows_loc.length = A.browptr⟦A.nbrows⟧ ∧
      ∀ j < A.nbrows, c.ptrs⟦j⟧ ≤ c.ptrs⟦j + 1⟧ ∧
        (List.range' c.ptrs⟦j⟧ (c.ptrs⟦j + 1⟧ - c.ptrs⟦j⟧)).map
          (fun k => (c.col_rows⟦k⟧, c.rows_loc⟦k⟧)) =
        A.stored.filter (fun e => A.bcolind⟦e.2⟧ == j) := by
  set n := A.nbrows with hn
  set nnz := A.browptr⟦n⟧ with hnnz
  set T : Nat → List (Nat × Nat) := fun j => A.stored.filter (fun e => A.bcolind⟦e.2⟧ == j) with hT
  have hpl := hA.ptr_len
  have hil := hA.ind_len
  have hTlen : ∀ j, (T j).length = ((List.range nnz).filter (fun k => A.bcolind⟦k⟧ == j)).length := by
    intro j
    rw [hnnz, hn, ← hA.stored_snd, List.filter_map, List.length_map]
    rfl
  have htot : offs T n = nnz := by
    rw [hT, offs_filter A.stored (fun e => A.bcolind⟦e.2⟧) n
      (fun e he => (hA.of_mem_stored he).2.2), hA.stored_length]
  have main : Ok (colAdjacency A) (fun c => c.ptrs.length = n + 1 ∧ c.col_rows.length = nnz ∧
      c.rows_loc.length = nnz ∧ (∀ t ≤ n, c.ptrs⟦t⟧ = offs T t) ∧
      ∀ j < n, ∀ q e, (T j)[q]? = some e →
        c.col_rows⟦offs T j + q⟧ = e.1 ∧ c.rows_loc⟦offs T j + q⟧ = e.2) := by
    unfold colAdjacency
    rw [rd_eq (by omega), ok_bind]
    refine Ok.bind (P := fun p => p.length = n + 1 ∧ p⟦0⟧ = 0 ∧ ∀ t < n, p⟦t + 1⟧ = (T t).length) ?_ ?_
    · refine (forRange_ok (fun k p => p.length = n + 1 ∧ p⟦0⟧ = 0 ∧ ∀ t < n,
        p⟦t + 1⟧ = ((List.range k).filter (fun k => A.bcolind⟦k⟧ == t)).length) (Nat.zero_le _)
        ⟨by simp [hn], by rw [get0_replicate], fun t _ => by rw [get0_replicate]; rfl⟩ ?_).mono ?_
      · rintro k p _ hk ⟨hl, h0, hI⟩
        have hc := hA.col_lt k hk
        rw [rd_eq (by omega), ok_bind, rd_eq (by omega), ok_bind, wr_eq (by omega)]
        refine Ok.pure ⟨by simp [hl], by rw [get0_set_ne (by omega)]; exact h0, fun t ht => ?_⟩
        rw [get0_set, List.range_succ, List.filter_append, List.length_append]
        by_cases h : A.bcolind⟦k⟧ = t
        · rw [if_pos ⟨by omega, by omega⟩, ← h, hI _ (by omega)]; simp
        · rw [if_neg (by omega), hI _ ht]; simp [h]
      · rintro p ⟨hl, h0, hI⟩
        exact ⟨hl, h0, fun t ht => by rw [hI t ht, hTlen]⟩
    · rintro p ⟨hl, h0, hp⟩
      rw [rd_eq (by omega), ok_bind, if_neg (by simp [h0])]
      obtain ⟨w, ew, _, hwl, hw⟩ := inclusive_scan_correct p
      have hwo : ∀ t ≤ n, w⟦t⟧ = offs T t := by
        intro t ht
        rw [hw t (by omega), sum_range_succ', h0, Nat.add_zero, offs]
        exact sum_congr rfl fun s hs => hp s (by rw [mem_range] at hs; omega)
      dsimp only
      rw [ew, ok_bind, rd_eq (by omega), ok_bind, if_neg (by
        rw [show w.length - 1 = n by omega, hwo n (by omega), htot]; simp [hnnz, hn])]
      rw [hA.nested (body := fun irow jj (s : List Nat × List Nat × List Nat) => do
        let (colfill, col_rows, rows_loc) := s
        let colind ← rd A.bcolind jj
        let p ← rd w colind
        let f ← rd colfill colind
        let col_rows ← wr col_rows (p + f) irow
        let rows_loc ← wr rows_loc (p + f) jj
        let colfill ← wr colfill colind (f + 1)
        .ok (colfill, col_rows, rows_loc))]
      refine Ok.bind (forList_ok (fun (done : List (Nat × Nat)) (s : List Nat × List Nat × List Nat) =>
        s.1.length = n ∧ s.2.1.length = nnz ∧ s.2.2.length = nnz ∧
        (∀ j < n, s.1⟦j⟧ = (done.filter (fun e => A.bcolind⟦e.2⟧ == j)).length) ∧
        ∀ j < n, ∀ q e, (done.filter (fun e => A.bcolind⟦e.2⟧ == j))[q]? = some e →
          s.2.1⟦offs T j + q⟧ = e.1 ∧ s.2.2⟦offs T j + q⟧ = e.2) ?_ ?_) ?_
      · exact ⟨by simp [hn], by simp [hnnz, hn], by simp [hnnz, hn],
          fun j _ => by rw [get0_replicate]; rfl, by simp⟩
      · rintro done ⟨i, k⟩ rest ⟨f, cr, rl⟩ hst ⟨l1, l2, l3, hf, hI⟩
        obtain ⟨hi, hk, hc⟩ := hA.of_mem_stored (e := (i, k)) (by rw [hst]; simp)
        simp only at hi hk hc l1 l2 l3 hf hI
        dsimp only
        set cc := A.bcolind⟦k⟧ with hcc
        have hfl : ∀ j, (done.filter (fun e => A.bcolind⟦e.2⟧ == j)).length ≤ (T j).length := by
          intro j
          simp only [hT]
          rw [hst, List.filter_append, List.length_append]; omega
        have hflc : (done.filter (fun e => A.bcolind⟦e.2⟧ == cc)).length < (T cc).length := by
          simp only [hT]
          rw [hst, List.filter_append, List.length_append, List.filter_cons]
          simp [← hcc]
        have hpos : offs T cc + f⟦cc⟧ < nnz := by
          have := offs_mono T (show cc + 1 ≤ n from hc)
          rw [offs_succ] at this
          rw [hf cc hc]; omega
        rw [rd_eq (by omega), ok_bind, ← hcc, rd_eq (by omega), ok_bind, rd_eq (by omega), ok_bind,
          hwo cc (by omega), wr_eq (by omega), ok_bind, wr_eq (by omega), ok_bind, wr_eq (by omega),
          ok_bind]
        refine Ok.pure ⟨by simp [l1], by simp [l2], by simp [l3], ?_, ?_⟩
        · intro j hj
          simp only
          rw [get0_set, List.filter_append, List.length_append]
          by_cases h : cc = j
          · rw [if_pos ⟨h, by omega⟩, ← h, hf _ hc]; simp [← hcc]
          · rw [if_neg (by tauto), hf _ hj]; simp [← hcc, h]
        · intro j hj q e he
          simp only
          rw [List.filter_append] at he
          have old : ∀ q e, (done.filter (fun e => A.bcolind⟦e.2⟧ == j))[q]? = some e →
              offs T cc + f⟦cc⟧ ≠ offs T j + q := by
            intro q e hqe heq
            have hq := (List.getElem?_eq_some_iff.mp hqe).1
            rw [hf cc hc] at heq
            have hq2 := hfl j
            rcases Nat.lt_trichotomy cc j with h | h | h
            · have := offs_mono T (show cc + 1 ≤ j from h)
              rw [offs_succ] at this; omega
            · subst h; omega
            · have := offs_mono T (show j + 1 ≤ cc from h)
              rw [offs_succ] at this; omega
          by_cases hq : q < (done.filter (fun e => A.bcolind⟦e.2⟧ == j)).length
          · rw [List.getElem?_append_left hq] at he
            rw [get0_set_ne (old q e he), get0_set_ne (old q e he)]
            exact hI j hj q e he
          · rw [List.getElem?_append_right (by omega)] at he
            have hq0 := (List.getElem?_eq_some_iff.mp he).1
            by_cases h : cc = j
            · subst h
              simp only [List.filter_cons, ← hcc, beq_self_eq_true, if_true, List.filter_nil,
                List.length_singleton] at hq0 he
              have hqe : q = f⟦cc⟧ := by rw [hf _ hc]; omega
              have : q - (done.filter (fun e => A.bcolind⟦e.2⟧ == cc)).length = 0 := by omega
              rw [this] at he
              simp at he
              subst he hqe
              exact ⟨get0_set_self (by omega), get0_set_self (by omega)⟩
            · simp [← hcc, h] at hq0
      · rintro ⟨f, cr, rl⟩ ⟨l1, l2, l3, hf, hI⟩
        exact Ok.pure ⟨by simp only; omega, l2, l3, hwo, hI⟩
  obtain ⟨c, e, l1, l2, l3, hp, hI⟩ := main
  refine ⟨c, e, l1, by rw [hp 0 (by omega)]; rfl, by rw [hp n (by omega), htot], l2, l3, ?_⟩
  intro j hj
  rw [hp j (by omega), hp (j + 1) (by omega), offs_succ]
  refine ⟨by omega, ?_⟩
  rw [Nat.add_sub_cancel_left]
  apply List.ext_getElem
  · simp [hT]
  · intro q hq1 hq2
    simp only [List.getElem_map, List.getElem_range', Nat.one_mul]
    have := hI j hj q _ (List.getElem?_eq_getElem hq2)
    exact Prod.ext this.1 this.2

/-! ### Column-oriented product -/

section gemv
variable [CommRing K]

/-- Atomic additions in some order. -/
theorem forList_add {ι : Type _} {l : List ι} {body : ι → List K → C (List K)} {y : List K}
    (cell : ι → Nat) (g : ι → K) (hlt : ∀ e ∈ l, cell e < y.length)
    (h : ∀ e ∈ l, ∀ y' : List K, y'.length = y.length →
      body e y' = .ok (y'.set (cell e) (y'⟦cell e⟧ + g e))) :
    Ok (forList l body y) (fun y' => y'.length = y.length ∧ ∀ c < y.length,
      y'⟦c⟧ = y⟦c⟧ + (l.map fun e => if cell e = c then g e else 0).sum) := by
  refine forList_ok (fun done y' => y'.length = y.length ∧ ∀ c < y.length,
      y'⟦c⟧ = y⟦c⟧ + (done.map fun e => if cell e = c then g e else 0).sum) ⟨rfl, by simp⟩ ?_
  rintro done e rest y' hl ⟨hlen, hI⟩
  rw [h e (by simp [hl]) y' hlen]
  refine Ok.pure ⟨by simp [hlen], fun c hc => ?_⟩
  have := hlt e (by simp [hl])
  rw [get0_set, List.map_append, List.sum_append]
  by_cases hce : cell e = c
  · subst hce
    rw [if_pos ⟨rfl, by omega⟩, hI _ hc]; simp [add_assoc]
  · rw [if_neg (by tauto), hI c hc]; simp [hce]

omit [CommRing K] in
theorem SC.Full.ptr_le {A : SC K} {m : Nat} (hA : A.Full m) {i j : Nat} (hij : i ≤ j)
    (hj : j ≤ A.nbcols) : A.bcolptr⟦i⟧ ≤ A.bcolptr⟦j⟧ := by
  induction j, hij using Nat.le_induction with
  | base => exact Nat.le_refl _
  | succ j hij ih => exact (ih (by omega)).trans (hA.ptr_mono j (by omega))

/-- **C04** `bcsc_gemv3` gives `a A x + b y` for every order in which the iterations of the
initialisation loop run and every order in which the atomic additions happen;
`z` may be the same array as `y`. -/
theorem bcsc_gemv3_correct (stor : Stor) (bs : Nat) (hbs : 0 < bs) (A : SC K)
    (hA : A.Full (bs * bs)) (a b : K) (x : List K) (yy : Option (List K)) (zz : List K)
    (hx : x.length = A.nbcols * bs) (hyy : ∀ y ∈ yy, y.length = A.nbcols * bs)
    (hz : zz.length = A.nbcols * bs)
    (ord1 : List Nat) (ho1 : ord1.Perm (List.range (A.nbcols * bs)))
    (ord2 : List (Nat × Nat × Nat)) (ho2 : ord2.Perm (bcscUpdates bs A)) :
    ∃ z', bcscGemv3 stor bs ord1 ord2 A a x b yy zz = .ok z' ∧ z'.length = A.nbcols * bs ∧
      ∀ I < A.nbcols * bs,
        z'⟦I⟧ = a * ∑ J ∈ range (A.nbcols * bs), A.bentry stor bs I J * x⟦J⟧
          + b * (yy.getD zz)⟦I⟧ := by
  have hmem : ∀ e ∈ ord2, e.1 < A.nbcols ∧ e.2.1 < A.bcolptr⟦A.nbcols⟧ ∧ e.2.2 < bs := by
    intro e he
    rw [ho2.mem_iff, bcscUpdates, List.mem_flatMap] at he
    obtain ⟨j, hj, he⟩ := he
    rw [List.mem_flatMap] at he
    obtain ⟨ii, hii, he⟩ := he
    rw [List.mem_map] at he
    obtain ⟨kb, hkb, rfl⟩ := he
    rw [List.mem_range] at hj hkb
    rw [List.mem_range'_1] at hii
    have := hA.ptr_le (show j + 1 ≤ A.nbcols from hj) (Nat.le_refl _)
    have := hA.ptr_mono j hj
    exact ⟨hj, by dsimp only; omega, hkb⟩
  have main : Ok (bcscGemv3 stor bs ord1 ord2 A a x b yy zz) (fun z' => z'.length = A.nbcols * bs ∧
      ∀ I < A.nbcols * bs, z'⟦I⟧ = b * (yy.getD zz)⟦I⟧ +
        (ord2.map fun e => if A.browind⟦e.2.1⟧ * bs + e.2.2 = I then
          ∑ k ∈ range bs, a * A.vals⟦e.2.1 * (bs * bs) + stor.off bs e.2.2 k⟧ * x⟦e.1 * bs + k⟧
          else 0).sum) := by
    unfold bcscGemv3
    rw [parFor_eq ho1]
    refine (forList_par (fun i => b * (yy.getD zz)⟦i⟧) (ho1.nodup_iff.mpr List.nodup_range)
      (fun i hi => by rw [hz, ← List.mem_range]; exact ho1.mem_iff.mp hi) ?_).bind ?_
    · intro i hi y' hl hyi
      have hi' := List.mem_range.mp (ho1.mem_iff.mp hi)
      unfold bcscInit
      cases yy with
      | none => simp only [Option.getD_none]; rw [rd_eq (by omega), ok_bind, wr_eq (by omega), hyi]
      | some y =>
        have := hyy y (by simp)
        simp only [Option.getD_some]; rw [rd_eq (by omega), ok_bind, wr_eq (by omega)]
    · rintro z1 ⟨hl1, h1⟩
      refine (forList_add (fun e : Nat × Nat × Nat => A.browind⟦e.2.1⟧ * bs + e.2.2)
        (fun e => ∑ k ∈ range bs, a * A.vals⟦e.2.1 * (bs * bs) + stor.off bs e.2.2 k⟧ *
          x⟦e.1 * bs + k⟧) ?_ ?_).mono ?_
      · intro e he
        obtain ⟨h2, h3, h4⟩ := hmem e he
        rw [hl1, hz]
        exact blk_lt (hA.row_lt _ h3) h4
      · intro e he y' hl
        obtain ⟨h2, h3, h4⟩ := hmem e he
        have hc : A.browind⟦e.2.1⟧ * bs + e.2.2 < y'.length := by
          rw [hl, hl1, hz]; exact blk_lt (hA.row_lt _ h3) h4
        unfold bcscAdd
        rw [rd_eq (by rw [hA.ind_len]; exact h3), ok_bind, blkDot_eq h4 hA.val_len hx h3 h2, ok_bind,
          rd_eq hc, ok_bind, wr_eq hc]
      · rintro z' ⟨hl, h⟩
        refine ⟨by omega, fun I hI => ?_⟩
        rw [h I (by omega), h1 I (by omega), if_pos (ho1.mem_iff.mpr (List.mem_range.mpr hI))]
  obtain ⟨z', e, hl, h⟩ := main
  refine ⟨z', e, hl, fun I hI => ?_⟩
  rw [h I hI, add_comm]
  congr 1
  rw [(ho2.map _).sum_eq, bcscUpdates, sum_map_flatMap_range, sum_range_mul_blocks, mul_sum]
  refine sum_congr rfl fun j hj => ?_
  rw [mem_range] at hj
  have flat : ∀ (l : List Nat) (f : Nat × Nat × Nat → K),
      ((l.flatMap fun ii => (List.range bs).map fun kb => (j, ii, kb)).map f).sum =
      (l.map fun ii => ∑ kb ∈ range bs, f (j, ii, kb)).sum := by
    intro l f
    induction l with
    | nil => rfl
    | cons ii l ih =>
      rw [List.flatMap_cons, List.map_append, List.sum_append, ih, List.map_cons, List.sum_cons]
      congr 1
      rw [List.map_map]; rfl
  rw [flat, sum_map_range']
  dsimp only
  simp only [SC.bentry, mul_sum, sum_mul]
  conv_rhs => rw [sum_comm' (t' := Ico A.bcolptr⟦j⟧ A.bcolptr⟦j + 1⟧) (s' := fun _ => range bs) (by
    intro k ii
    by_cases hk : k < bs
    · have e1 : (j * bs + k) / bs = j := by
        rw [Nat.mul_comm, Nat.mul_add_div hbs, Nat.div_eq_of_lt hk, Nat.add_zero]
      rw [e1]
    · simp [hk])]
  refine sum_congr rfl fun ii _ => ?_
  · by_cases hr : A.browind⟦ii⟧ = I / bs
    · rw [sum_eq_single (I % bs)]
      · rw [if_pos (by rw [hr, Nat.mul_comm]; exact Nat.div_add_mod I bs)]
        refine sum_congr rfl fun k hk => ?_
        rw [mem_range] at hk
        have e1 : (j * bs + k) % bs = k := by
          rw [Nat.mul_comm, Nat.mul_add_mod, Nat.mod_eq_of_lt hk]
        rw [if_pos hr, e1, mul_assoc]
      · intro kb hkb hne
        rw [mem_range] at hkb
        rw [if_neg]
        intro heq
        apply hne
        rw [← heq, Nat.mul_comm, Nat.mul_add_mod, Nat.mod_eq_of_lt hkb]
      · intro hh; exact absurd (mem_range.mpr (Nat.mod_lt _ hbs)) hh
    · rw [sum_eq_zero, sum_eq_zero]
      · intro k _; rw [if_neg hr]; simp
      · intro kb hkb
        rw [mem_range] at hkb
        rw [if_neg]
        intro heq
        apply hr
        rw [← heq, Nat.mul_comm, Nat.mul_add_div hbs, Nat.div_eq_of_lt hkb, Nat.add_zero]

/-- **C04**, agreement with the row product: converting a block-row matrix to columns and
using the column product gives the same vector as the block-row product. -/
theorem bcsc_gemv3_eq_bsr_gemv3 (stor : Stor) (bs : Nat) (hbs : 0 < bs) (A : SR K)
    (hA : A.Full (bs * bs)) (srt : List (CSEntry K) → List (CSEntry K)) (hsrt : SortsByRow srt)
    (gptr gind : List Nat) (gvals : List K) (gdiag : List Int)
    (h1 : gptr.length = A.nbrows + 1) (h2 : gind.length = A.browptr⟦A.nbrows⟧)
    (h3 : gvals.length = A.browptr⟦A.nbrows⟧ * (bs * bs)) (h4 : gdiag.length = A.nbrows)
    (a b : K) (x : List K) (yy : Option (List K)) (zz : List K)
    (hx : x.length = A.nbrows * bs) (hyy : ∀ y ∈ yy, y.length = A.nbrows * bs)
    (hz : zz.length = A.nbrows * bs)
    (order : List Nat) (ho : order.Perm (List.range A.nbrows)) :
    ∃ c, convertBSC (bs * bs) srt A gptr gind gvals gdiag = .ok c ∧
      ∀ ord1 ord2, ord1.Perm (List.range (A.nbrows * bs)) → ord2.Perm (bcscUpdates bs c) →
        bcscGemv3 stor bs ord1 ord2 c a x b yy zz = bsrGemv3 stor bs order A a x b yy zz := by
  obtain ⟨c, e, hf, hn, hent⟩ := convert_BSR_to_BSC_same_matrix A bs hbs hA srt hsrt gptr gind gvals
    gdiag h1 h2 h3 h4
  refine ⟨c, e, fun ord1 ord2 ho1 ho2 => ?_⟩
  obtain ⟨z1, e1, l1, r1⟩ := bcsc_gemv3_correct stor bs hbs c hf a b x yy zz (by rw [hn, hx])
    (by rw [hn]; exact hyy) (by rw [hn, hz]) ord1 (by rw [hn]; exact ho1) ord2 ho2
  obtain ⟨z2, e2, l2, r2⟩ := bsr_gemv3_correct stor bs hbs A hA a b x yy zz hx hyy hz order ho
  rw [e1, e2]
  congr 1
  rw [hn] at l1 r1
  apply ext_get0 (by rw [l1, l2])
  intro I hI
  rw [l1] at hI
  rw [r1 I hI, r2 I hI]
  congr 2
  exact sum_congr rfl fun J hJ => by rw [hent stor I hI J (mem_range.mp hJ)]

end gemv

/-! ### Non-vacuity -/

/-- An insertion sort by row index, to run the model on examples. -/
def insRow (e : CSEntry K) : List (CSEntry K) → List (CSEntry K)
  | [] => [e]
  | f :: l => if e.1 ≤ f.1 then e :: f :: l else f :: insRow e l

def isortRow (l : List (CSEntry K)) : List (CSEntry K) := l.foldr insRow []

theorem insRow_perm (e : CSEntry K) (l : List (CSEntry K)) : (insRow e l).Perm (e :: l) := by
  induction l with
  | nil => exact List.Perm.refl _
  | cons f l ih =>
    unfold insRow
    split
    · exact List.Perm.refl _
    · exact (ih.cons f).trans (List.Perm.swap e f l)

theorem insRow_sorted (e : CSEntry K) (l : List (CSEntry K))
    (h : l.Pairwise (fun a b => a.1 ≤ b.1)) : (insRow e l).Pairwise (fun a b => a.1 ≤ b.1) := by
  induction l with
  | nil => simp [insRow]
  | cons f l ih =>
    rw [List.pairwise_cons] at h
    unfold insRow
    split
    · next hle =>
      refine List.pairwise_cons.mpr ⟨?_, List.pairwise_cons.mpr h⟩
      intro b hb
      rcases List.mem_cons.mp hb with rfl | hb
      · exact hle
      · exact hle.trans (h.1 b hb)
    · next hle =>
      refine List.pairwise_cons.mpr ⟨?_, ih h.2⟩
      intro b hb
      rcases List.mem_cons.mp ((insRow_perm e l).mem_iff.mp hb) with rfl | hb
      · omega
      · exact h.1 b hb

/-- The hypothesis on the sort can be met. -/
theorem isortRow_sorts : SortsByRow (isortRow (K := K)) := by
  intro l
  induction l with
  | nil => exact ⟨List.Perm.refl _, List.Pairwise.nil⟩
  | cons e l ih =>
    exact ⟨(insRow_perm e _).trans (ih.1.cons e), insRow_sorted e _ ih.2⟩

example : convertBSC 4 isortRow exBsr [7, 7, 7] [7, 7, 7] [7, 7, 7, 7, 7, 7, 7, 7, 7, 7, 7, 7] [7, 7]
    = .ok ⟨[0, 1, 3], [0, 0, 1], [1, 2, 3, 4, 5, 6, 7, 8, 9, 10, 11, 12], [0, 2], 2⟩ := by
  decide +kernel

/-- A conversion with an unsorted row, a repeated entry and a missing diagonal entry. -/
def exNoDiag : SR ℚ where
  browptr := [0, 2, 4, 4]
  bcolind := [2, 1, 0, 0]
  vals := [2, 3, 5, 7]
  diagind := []
  browendptr := [2, 4, 4]
  nbrows := 3
  nnzb := 4
  nbstored := 4

example : exNoDiag.Full := by constructor <;> decide

example : convertBSC 1 isortRow exNoDiag [7, 7, 7, 7] [7, 7, 7, 7] [7, 7, 7, 7] [7, 7, 7]
    = .ok ⟨[0, 2, 3, 4], [1, 1, 0, 0], [5, 7, 3, 2], [-1, -1, -1], 3⟩ := by
  decide +kernel

example : convertBSC1 1 isortRow exNoDiag [7, 7, 7, 7] [7, 7, 7, 7] [7, 7, 7, 7] [7, 7, 7]
    = .ok ⟨[1, 3, 4, 5], [2, 2, 1, 1], [5, 7, 3, 2], [0, 0, 0], 3⟩ := by
  decide +kernel

example : colAdjacency exCsr = .ok ⟨[0, 0, 1, 1, 1, 2], [1, 0, 2, 4, 3, 5], [0, 1, 4, 6]⟩ := by
  decide +kernel

/-- Column storage of a 2x2 block matrix, with an out-of-order schedule of the atomic additions. -/
def exBsc : SC ℚ := ⟨[0, 1, 3], [0, 0, 1], [1, 2, 3, 4, 5, 6, 7, 8, 9, 10, 11, 12], [0, 2], 2⟩

example : exBsc.Full (2 * 2) := by constructor <;> decide

example : [(1, 2, 1), (0, 0, 0), (1, 1, 1), (1, 1, 0), (0, 0, 1), (1, 2, 0)].Perm (bcscUpdates 2 exBsc) := by
  decide

example : bcscGemv3 .rowMajor 2 [3, 1, 0, 2]
    [(1, 2, 1), (0, 0, 0), (1, 1, 1), (1, 1, 0), (0, 0, 1), (1, 2, 0)]
    exBsc 2 [1, 10, 100, 1000] 3 none [1, 1, 1, 1] = .ok [13045, 17489, 21803, 26203] := by
  decide +kernel

end Blasted
