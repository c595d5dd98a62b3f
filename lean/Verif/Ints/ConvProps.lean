import Verif.Ints.PosProps
import Verif.Transpose.Props
import Verif.Coo.BsrProps

/-!
# Property C67: conversions and column adjacency with bounded indices
-/

namespace Blasted
open Finset

variable {K V : Type}

theorem rdI_eq {α : Type _} {imax : Nat} {a : List α} (h : a.length ≤ imax + 1) (e : Nat) : rdI imax a e = rd a e := by
  unfold rdI
  by_cases he : e ≤ imax
  · rw [ick_eq he, ok_bind]
  · rw [ick_ub (by omega), rd_ub (by omega)]
    rfl

theorem wrI_eq {α : Type _} {imax : Nat} {a : List α} (h : a.length ≤ imax + 1) (e : Nat) (v : α) :
    wrI imax a e v = wr a e v := by
  unfold wrI
  by_cases he : e ≤ imax
  · rw [ick_eq he, ok_bind]
  · rw [ick_ub (by omega), wr_ub (by omega)]
    rfl

/-- Two loops that agree on the states that satisfy an invariant. -/
theorem forList_congr_inv {ι σ : Type _} {l : List ι} {f g : ι → σ → C σ} (I : σ → Prop) {s : σ} (h0 : I s)
    (h : ∀ i ∈ l, ∀ s, I s → f i s = g i s) (hp : ∀ i ∈ l, ∀ s s', I s → g i s = .ok s' → I s') :
    forList l f s = forList l g s ∧ ∀ s', forList l g s = .ok s' → I s' := by
  induction l generalizing s with
  | nil =>
    refine ⟨rfl, fun s' e => ?_⟩
    rw [forList_nil] at e
    injection e with e
    exact e ▸ h0
  | cons i l ih =>
    rw [forList_cons, forList_cons, h i (by simp) s h0]
    rcases hg : g i s with e | s'
    · exact ⟨rfl, fun s' e => by rw [error_bind] at e; cases e⟩
    · rw [ok_bind, ok_bind]
      exact ih (hp i (by simp) s s' h0 hg) (fun i hi => h i (by simp [hi])) (fun i hi => hp i (by simp [hi]))

theorem forRange_congr_inv {σ : Type _} {lo hi : Nat} {f g : Nat → σ → C σ} (I : σ → Prop) {s : σ} (h0 : I s)
    (h : ∀ i, lo ≤ i → i < hi → ∀ s, I s → f i s = g i s)
    (hp : ∀ i, lo ≤ i → i < hi → ∀ s s', I s → g i s = .ok s' → I s') :
    forRange lo hi f s = forRange lo hi g s ∧ ∀ s', forRange lo hi g s = .ok s' → I s' := by
  refine forList_congr_inv I h0 ?_ ?_
  · intro i hi; simp [List.mem_range'_1] at hi; exact h i hi.1 (by omega)
  · intro i hi; simp [List.mem_range'_1] at hi; exact hp i hi.1 (by omega)

/-- The same for an invariant that depends on the loop counter. -/
theorem forRange_congr_pos {σ : Type _} {n : Nat} {f g : Nat → σ → C σ} (I : Nat → σ → Prop) {s : σ} (h0 : I 0 s)
    (h : ∀ i < n, ∀ s, I i s → f i s = g i s) (hp : ∀ i < n, ∀ s s', I i s → g i s = .ok s' → I (i + 1) s') :
    forRange 0 n f s = forRange 0 n g s ∧ ∀ s', forRange 0 n g s = .ok s' → I n s' := by
  induction n with
  | zero =>
    rw [forRange_self, forRange_self]
    refine ⟨rfl, fun s' e => ?_⟩
    injection e with e
    exact e ▸ h0
  | succ n ih =>
    obtain ⟨e, hi⟩ := ih (fun i hi => h i (by omega)) (fun i hi => hp i (by omega))
    rw [forRange_succ_right (Nat.zero_le _), forRange_succ_right (Nat.zero_le _), e]
    rcases hg : forRange 0 n g s with er | s1
    · exact ⟨rfl, fun s' e => by cases e⟩
    · rw [ok_bind, ok_bind, h n (by omega) s1 (hi s1 hg)]
      exact ⟨rfl, fun s' e => hp n (by omega) s1 s' (hi s1 hg) e⟩

theorem wr_length {α : Type _} {a a' : List α} {i : Nat} {v : α} (h : wr a i v = .ok a') :
    a'.length = a.length ∧ i < a.length := by
  by_cases hi : i < a.length
  · rw [wr_eq hi] at h
    injection h with h
    exact ⟨by rw [← h, List.length_set], hi⟩
  · rw [wr_ub (by omega)] at h
    cases h

theorem bind_ok {α β : Type _} {m : C α} {f : α → C β} {b : β} (h : (m >>= f) = .ok b) : ∃ a, m = .ok a ∧ f a = .ok b := by
  rcases m with e | a
  · cases h
  · exact ⟨a, rfl, h⟩

/-! ### Column adjacency -/

theorem colCountI_eq {imax : Nat} {A : SR K} {jj : Nat} {ptrs : List Nat} (hs : ptrs.sum < imax)
    (hl : ptrs.length ≤ imax) : colCountI imax A jj ptrs = (do
      let c ← rd A.bcolind jj
      let v ← rd ptrs (c + 1)
      wr ptrs (c + 1) (v + 1)) := by
  unfold colCountI
  congr 1; funext c
  rw [rdI_eq (by omega)]
  by_cases hc : c + 1 < ptrs.length
  · rw [rd_eq hc, ok_bind, ok_bind]
    have : ptrs⟦c + 1⟧ ≤ ptrs.sum := by
      rw [get0_eq_getElem hc]
      exact List.le_sum_of_mem (List.getElem_mem hc)
    rw [ick_eq (by omega), ok_bind, wrI_eq (by omega)]
  · rw [rd_ub (by omega)]; rfl

theorem sum_set_add_one {l : List Nat} {i : Nat} (hi : i < l.length) : (l.set i (l⟦i⟧ + 1)).sum = l.sum + 1 := by
  induction l generalizing i with
  | nil => simp at hi
  | cons a l ih =>
    cases i with
    | zero => simp [get0]; omega
    | succ i =>
      have := ih (i := i) (by simpa using hi)
      have h2 : (a :: l)⟦i + 1⟧ = l⟦i⟧ := by simp [get0]
      rw [h2, List.set_cons_succ, List.sum_cons, this, List.sum_cons]
      omega

/-- The step of the fill loop with unbounded indices (as in `colAdjacency`). -/
private def colFillC (A : SR K) (w : List Nat) (irow jj : Nat) (s : List Nat × List Nat × List Nat) :
    C (List Nat × List Nat × List Nat) := do
  let (colfill, col_rows, rows_loc) := s
  let colind ← rd A.bcolind jj
  let p ← rd w colind
  let f ← rd colfill colind
  let col_rows ← wr col_rows (p + f) irow
  let rows_loc ← wr rows_loc (p + f) jj
  let colfill ← wr colfill colind (f + 1)
  .ok (colfill, col_rows, rows_loc)

private theorem colFillI_eq {imax : Nat} {A : SR K} {w : List Nat} {irow jj N : Nat} (hN : N ≤ imax)
    {s : List Nat × List Nat × List Nat} (hs : s.2.1.length = N ∧ s.2.2.length = N) :
    colFillI imax A w irow jj s = colFillC A w irow jj s := by
  obtain ⟨cf, cr, rl⟩ := s
  dsimp only at hs
  unfold colFillI colFillC
  dsimp only
  congr 1; funext c
  congr 1; funext p
  congr 1; funext f
  rw [wrI_eq (by omega)]
  by_cases h : p + f < N
  · rw [wr_eq (by omega), ok_bind, ok_bind, wrI_eq (by omega), wr_eq (by omega), ok_bind, ok_bind, ick_eq (by omega),
      ok_bind]
  · rw [wr_ub (by omega)]; rfl

private theorem colFillC_inv {A : SR K} {w : List Nat} {irow jj N : Nat}
    {s s' : List Nat × List Nat × List Nat} (hs : s.2.1.length = N ∧ s.2.2.length = N)
    (h : colFillC A w irow jj s = .ok s') : s'.2.1.length = N ∧ s'.2.2.length = N := by
  unfold colFillC at h
  dsimp only at h
  obtain ⟨c, -, h⟩ := bind_ok h
  obtain ⟨p, -, h⟩ := bind_ok h
  obtain ⟨f, -, h⟩ := bind_ok h
  obtain ⟨a, ha, h⟩ := bind_ok h
  obtain ⟨b, hb, h⟩ := bind_ok h
  obtain ⟨d, -, h⟩ := bind_ok h
  injection h with h
  subst h
  exact ⟨(wr_length ha).1.trans hs.1, (wr_length hb).1.trans hs.2⟩

/-- **C67**, column adjacency: with at most `imax` stored entries and fewer than `imax` rows, no index of
`ColumnAdjacency` overflows. -/
theorem column_adjacency_int (imax : Nat) (A : SR K) {m : Nat} (hA : A.Full m) (hn : A.nbrows < imax)
    (hnnz : A.browptr⟦A.nbrows⟧ ≤ imax) : colAdjacencyI imax A = colAdjacency A := by
  have hpl := hA.ptr_len
  have hil := hA.ind_len
  unfold colAdjacencyI colAdjacency
  rw [ick_eq (by omega), ok_bind]
  dsimp only
  rw [rd_eq (by omega), ok_bind, ok_bind]
  -- the counts
  set N := A.browptr⟦A.nbrows⟧ with hN
  have hc0 : ∀ (p : List Nat), p = List.replicate (A.nbrows + 1) 0 →
      ∃ q, forRange 0 N (colCountI imax A) p = .ok q ∧ forRange 0 N (fun jj ptrs => do
        let c ← rd A.bcolind jj
        let v ← rd ptrs (c + 1)
        wr ptrs (c + 1) (v + 1)) p = .ok q ∧ q.length = A.nbrows + 1 ∧ q.sum = N := by
    rintro p rfl
    have key := forRange_ok (lo := 0) (hi := N) (body := colCountI imax A) (s := List.replicate (A.nbrows + 1) 0)
      (fun j q => forRange 0 j (fun jj ptrs => do
          let c ← rd A.bcolind jj
          let v ← rd ptrs (c + 1)
          wr ptrs (c + 1) (v + 1)) (List.replicate (A.nbrows + 1) 0) = .ok q ∧ q.length = A.nbrows + 1 ∧ q.sum = j)
      (Nat.zero_le _) ⟨forRange_self _ _ _, by simp, by simp⟩ (by
        rintro j q - hj ⟨e, hl, hs⟩
        rw [colCountI_eq (by omega) (by omega)]
        have hc := hA.col_lt j hj
        rw [rd_eq (by omega), ok_bind, rd_eq (by omega), ok_bind, wr_eq (by omega)]
        refine ⟨_, rfl, ?_, by rw [List.length_set, hl], by rw [sum_set_add_one (by omega), hs]⟩
        rw [forRange_succ_right (Nat.zero_le _), e, ok_bind, rd_eq (by omega), ok_bind, rd_eq (by omega), ok_bind,
          wr_eq (by omega)])
    obtain ⟨q, e, h1, h2, h3⟩ := key
    exact ⟨q, e, h1, h2, h3⟩
  obtain ⟨q, e1, e2, hql, hqs⟩ := hc0 _ rfl
  rw [e1, e2, ok_bind, ok_bind]
  have hscan : inclusiveScanI imax q = inclusiveScan q := by
    obtain ⟨w, h1, h2, _⟩ := (inclusive_scan_int imax q (fun i hi => by
      have : q⟦i⟧ ≤ q.sum := by
        rw [get0_eq_getElem hi]
        exact List.le_sum_of_mem (List.getElem_mem hi)
      omega)).1 (by omega)
    rw [h1, h2]
  rw [hscan]
  have hfill : ∀ w : List Nat, forRange 0 A.nbrows (fun irow (s : List Nat × List Nat × List Nat) => do
        let lo ← rd A.browptr irow
        let hi ← rdI imax A.browptr (irow + 1)
        forRange lo hi (colFillI imax A w irow) s)
        (List.replicate A.nbrows 0, List.replicate N 0, List.replicate N 0) =
      forRange 0 A.nbrows (fun irow (s : List Nat × List Nat × List Nat) => do
        let lo ← rd A.browptr irow
        let hi ← rd A.browptr (irow + 1)
        forRange lo hi (fun jj (s : List Nat × List Nat × List Nat) => do
          let (colfill, col_rows, rows_loc) := s
          let colind ← rd A.bcolind jj
          let p ← rd w colind
          let f ← rd colfill colind
          let col_rows ← wr col_rows (p + f) irow
          let rows_loc ← wr rows_loc (p + f) jj
          let colfill ← wr colfill colind (f + 1)
          .ok (colfill, col_rows, rows_loc)) s)
        (List.replicate A.nbrows 0, List.replicate N 0, List.replicate N 0) := by
    intro w
    refine (forRange_congr_inv (fun s => s.2.1.length = N ∧ s.2.2.length = N) (by simp) ?_ ?_).1
    · rintro irow - hi s hs
      dsimp only
      rw [rdI_eq (by omega), rd_eq (by omega), ok_bind, ok_bind, rd_eq (by omega), ok_bind, ok_bind]
      exact (forRange_congr_inv (g := colFillC A w irow) (fun s => s.2.1.length = N ∧ s.2.2.length = N) hs
        (fun jj _ _ s hs => colFillI_eq hnnz hs) (fun jj _ _ s s' hs h => colFillC_inv hs h)).1
    · rintro irow - hi s s' hs h
      rw [rd_eq (by omega), ok_bind, rd_eq (by omega), ok_bind] at h
      exact (forRange_congr_inv (f := colFillC A w irow) (g := colFillC A w irow)
        (fun s => s.2.1.length = N ∧ s.2.2.length = N) hs
        (fun jj _ _ s hs => rfl) (fun jj _ _ s s' hs h => colFillC_inv hs h)).2 s' h
  simp only [hfill]

/-! ### Row-to-column conversion -/

theorem readBlockI_eq {imax bs2 : Nat} {vals : List K} (h : vals.length ≤ imax + 1) (jj : Nat) :
    readBlockI imax bs2 vals jj = readBlock bs2 vals jj :=
  forRange_congr fun i _ _ s => by rw [rdI_eq h]

theorem bscScatterI_eq {imax bs2 : Nat} {A : SR K} (h : A.vals.length ≤ imax + 1) (hp : A.browptr.length ≤ imax + 1) :
    bscScatterI imax bs2 A = bscScatter bs2 A := by
  unfold bscScatterI bscScatter
  simp only [readBlockI_eq h, rdI_eq hp]

theorem bscPutI_eq {imax bs2 icol N : Nat} (h1 : N ≤ imax) (h2 : N * bs2 ≤ imax) (e : CSEntry K) {s : BscState K}
    (hs : s.browind.length = N ∧ s.vals.length = N * bs2) : bscPutI imax bs2 icol e s = bscPut bs2 icol e s := by
  unfold bscPutI bscPut
  by_cases h : s.iz < N
  · have hv := (forRange_congr_inv (lo := 0) (hi := bs2) (f := fun i vals => do
        let v ← rd e.2 i
        wrI imax vals (s.iz * bs2 + i) v) (g := fun i vals => do
        let v ← rd e.2 i
        wr vals (s.iz * bs2 + i) v) (s := s.vals) (fun v => v.length = N * bs2) hs.2
      (fun i _ _ v hv => by
        congr 1; funext x
        rw [wrI_eq (by omega)])
      (fun i _ _ v v' hv h => by
        obtain ⟨x, -, h⟩ := bind_ok h
        exact (wr_length h).1.trans hv)).1
    rw [hv, wr_eq (by omega), ok_bind, ok_bind]
    congr 1; funext vals
    congr 1; funext b
    simp only [ick_eq (show s.iz + 1 ≤ imax by omega), ok_bind]
  · rw [wr_ub (by omega)]; rfl

theorem bscPut_inv {bs2 icol N : Nat} {e : CSEntry K} {s s' : BscState K}
    (hs : s.browind.length = N ∧ s.vals.length = N * bs2) (h : bscPut bs2 icol e s = .ok s') :
    s'.browind.length = N ∧ s'.vals.length = N * bs2 := by
  unfold bscPut at h
  obtain ⟨a, ha, h⟩ := bind_ok h
  obtain ⟨v, hv, h⟩ := bind_ok h
  obtain ⟨b, -, h⟩ := bind_ok h
  have hd : s'.browind = a ∧ s'.vals = v := by
    dsimp only at h
    split at h
    · obtain ⟨d, -, h⟩ := bind_ok h
      injection h with h
      subst h
      exact ⟨rfl, rfl⟩
    · rw [ok_bind] at h
      injection h with h
      subst h
      exact ⟨rfl, rfl⟩
  rw [hd.1, hd.2]
  refine ⟨(wr_length ha).1.trans hs.1, ?_⟩
  exact (forRange_congr_inv (f := fun i vals => do
        let v ← rd e.2 i
        wr vals (s.iz * bs2 + i) v) (fun v => v.length = N * bs2) hs.2 (fun i _ _ v _ => rfl)
      (fun i _ _ v v' hv h => by
        obtain ⟨x, -, h⟩ := bind_ok h
        exact (wr_length h).1.trans hv)).2 v hv

/-- **C67**, row-to-column conversion: the conversion with bounded indices gives the same as with unbounded ones if the
number of stored scalars is representable, and overflows otherwise. -/
theorem convert_BSR_to_BSC_int (imax : Nat) (A : SR K) (m : Nat) (hA : A.Full m) (hm : 0 < m)
    (srt : List (CSEntry K) → List (CSEntry K)) (gptr gind : List Nat) (gvals : List K) (gdiag : List Int)
    (h2 : gind.length = A.browptr⟦A.nbrows⟧) (h3 : gvals.length = A.browptr⟦A.nbrows⟧ * m) (hn : A.nbrows < imax) :
    (A.browptr⟦A.nbrows⟧ * m ≤ imax →
      convertBSCI imax m srt A gptr gind gvals gdiag = convertBSC m srt A gptr gind gvals gdiag) ∧
    (imax < A.browptr⟦A.nbrows⟧ * m → convertBSCI imax m srt A gptr gind gvals gdiag = .error .ub) := by
  have hpl := hA.ptr_len
  have hvl := hA.val_len
  unfold convertBSCI convertBSC
  rw [rd_eq (by omega), ok_bind, ok_bind, ick_eq (by omega), ok_bind]
  set N := A.browptr⟦A.nbrows⟧ with hN
  constructor
  · intro hs
    have hN1 : N ≤ imax := Nat.le_trans (Nat.le_mul_of_pos_right N hm) hs
    have hout := fun cv : List (List (CSEntry K)) => (forRange_congr_inv (lo := 0) (hi := A.nbrows) (f := fun icol s => do
        let bcolptr ← wr s.bcolptr icol s.iz
        let diagind ← wr s.diagind icol (-1)
        let col ← rd cv icol
        forList col (bscPutI imax m icol) { s with bcolptr := bcolptr, diagind := diagind }) (g := fun icol s => do
        let bcolptr ← wr s.bcolptr icol s.iz
        let diagind ← wr s.diagind icol (-1)
        let col ← rd cv icol
        forList col (bscPut m icol) { s with bcolptr := bcolptr, diagind := diagind })
        (s := (⟨0, gptr, gind, gvals, gdiag⟩ : BscState K))
        (fun s => s.browind.length = N ∧ s.vals.length = N * m) ⟨h2, h3⟩
        (fun icol _ _ s hi => by
          congr 1; funext p
          congr 1; funext d
          congr 1; funext col
          exact (forList_congr_inv (fun s => s.browind.length = N ∧ s.vals.length = N * m) hi
            (fun e _ s hi => bscPutI_eq hN1 hs e hi) (fun e _ s s' hi h => bscPut_inv hi h)).1)
        (fun icol _ _ s s' hi h => by
          obtain ⟨p, -, h⟩ := bind_ok h
          obtain ⟨d, -, h⟩ := bind_ok h
          obtain ⟨col, -, h⟩ := bind_ok h
          exact (forList_congr_inv (f := bscPut m icol)
            (s := { iz := s.iz, bcolptr := p, browind := s.browind, vals := s.vals, diagind := d })
            (fun s => s.browind.length = N ∧ s.vals.length = N * m) hi
            (fun e _ s hi => rfl) (fun e _ s s' hi h => bscPut_inv hi h)).2 s' h)).1
    simp only [ick_eq hs, ok_bind, bscScatterI_eq (show A.vals.length ≤ imax + 1 by omega)
      (show A.browptr.length ≤ imax + 1 by omega), hout]
  · intro hs
    rw [ick_ub hs]
    rfl

/-- **C67**, conversion to 1-based column storage. -/
theorem convert_BSR_to_BSC_1based_int [Zero K] (imax : Nat) (A : SR K) (m : Nat) (hA : A.Full m) (hm : 0 < m)
    (srt : List (CSEntry K) → List (CSEntry K)) (hsrt : SortsByRow srt)
    (gptr gind : List Nat) (gvals : List K) (gdiag : List Int)
    (h1 : gptr.length = A.nbrows + 1) (h2 : gind.length = A.browptr⟦A.nbrows⟧)
    (h3 : gvals.length = A.browptr⟦A.nbrows⟧ * m) (h4 : gdiag.length = A.nbrows) (hn : A.nbrows < imax)
    (hs : A.browptr⟦A.nbrows⟧ * m < imax) :
    convertBSC1I imax m srt A gptr gind gvals gdiag = convertBSC1 m srt A gptr gind gvals gdiag := by
  obtain ⟨c, e, hf, hcn, hnnz, hdl, h⟩ := convert_BSR_to_BSC_correct A m hA srt hsrt gptr gind gvals
    gdiag h1 h2 h3 h4
  have hN1 : A.browptr⟦A.nbrows⟧ < imax := Nat.lt_of_le_of_lt (Nat.le_mul_of_pos_right _ hm) hs
  unfold convertBSC1I convertBSC1
  rw [(convert_BSR_to_BSC_int imax A m hA hm srt gptr gind gvals gdiag h2 h3 hn).1 (by omega), e, ok_bind, ok_bind]
  have shift : ∀ (a : List Nat) (k : Nat), k ≤ a.length → (∀ i < k, a⟦i⟧ < imax) →
      forRange 0 k (fun i (a : List Nat) => do
        let v ← rd a i
        let w ← ick imax (v + 1)
        wr a i w) a = forRange 0 k (fun i (a : List Nat) => do
        let v ← rd a i
        wr a i (v + 1)) a := by
    intro a k hk hb
    refine (forRange_congr_pos (fun i b => b.length = a.length ∧ ∀ j < k, i ≤ j → b⟦j⟧ = a⟦j⟧)
      ⟨rfl, fun _ _ _ => rfl⟩ ?_ ?_).1
    · rintro i hi b ⟨hl, hv⟩
      have := hb i hi
      rw [rd_eq (by omega), ok_bind, ok_bind, hv i hi (Nat.le_refl _), ick_eq (by omega), ok_bind]
    · rintro i hi b b' ⟨hl, hv⟩ e
      rw [rd_eq (by omega), ok_bind, wr_eq (by omega)] at e
      injection e with e
      subst e
      refine ⟨by rw [List.length_set, hl], fun j hj hij => ?_⟩
      rw [get0_set_ne (by omega), hv j hj (by omega)]
  have shiftd : forRange 0 c.nbcols (fun i (a : List Int) => do
        let v ← rd a i
        if (imax : Int) < v + 1 then .error .ub
        wr a i (v + 1)) c.diagind = forRange 0 c.nbcols (fun i (a : List Int) => do
        let v ← rd a i
        wr a i (v + 1)) c.diagind := by
    refine (forRange_congr_pos (fun i b => b.length = A.nbrows ∧ ∀ j < A.nbrows, i ≤ j → b⟦j⟧ = c.diagind⟦j⟧)
      ⟨hdl, fun _ _ _ => rfl⟩ ?_ ?_).1
    · rintro i hi b ⟨hl, hv⟩
      have hb : c.diagind⟦i⟧ + 1 ≤ imax := by
        rcases (h i (by omega)).2.2 with ⟨h, -⟩ | ⟨p, h, -, hp, -⟩
        · omega
        · have := hf.ptr_le (i := i + 1) (j := c.nbcols) (by omega) (by omega)
          omega
      rw [rd_eq (by omega), ok_bind, ok_bind, hv i (by omega) (Nat.le_refl _), if_neg (by omega)]
    · rintro i hi b b' ⟨hl, hv⟩ e
      rw [rd_eq (by omega), ok_bind, wr_eq (by omega)] at e
      injection e with e
      subst e
      refine ⟨by rw [List.length_set, hl], fun j hj hij => ?_⟩
      rw [get0_set_ne (by omega), hv j hj (by omega)]
  have hpl := hA.ptr_len
  have hcp := hf.ptr_len
  have hci := hf.ind_len
  rw [shift _ _ (by omega) (fun i hi => by
    have := hf.ptr_le (i := i) (j := c.nbcols) (by omega) (by omega)
    omega), shiftd]
  congr 1; funext bp
  congr 1; funext d
  rw [rd_eq (by omega), ok_bind, ok_bind, shift _ _ (by omega) (fun i hi => by
    have := hf.row_lt i (by omega)
    omega)]

/-! ### Coordinate storage to block rows -/

theorem bsrCount_bnnz {curbrow curbcol : Nat} {s s1 s' : BsrPass} (h1 : bsrTally curbrow s = .ok s1)
    (h : bsrAddBlock curbrow curbcol s1 = .ok s') : s1.bnnz = s.bnnz ∧ s'.bnnz ≤ s.bnnz + 1 := by
  have e1 : s1.bnnz = s.bnnz := by
    unfold bsrTally at h1
    obtain ⟨t, -, h1⟩ := bind_ok h1
    split at h1
    · injection h1 with h1; rw [h1]
    · obtain ⟨a, -, h1⟩ := bind_ok h1
      obtain ⟨b, -, h1⟩ := bind_ok h1
      injection h1 with h1; rw [← h1]
  refine ⟨e1, ?_⟩
  unfold bsrAddBlock at h
  obtain ⟨lo, -, h⟩ := bind_ok h
  split at h
  · cases h
  · split at h
    · obtain ⟨d, -, h⟩ := bind_ok h
      injection h with h
      rw [← h, ← e1]
    · injection h with h
      rw [← h]
      omega

theorem bsrAddBlockI_eq {imax curbrow curbcol : Nat} {s : BsrPass} (h : s.bnnz < imax) :
    bsrAddBlockI imax curbrow curbcol s = bsrAddBlock curbrow curbcol s := by
  unfold bsrAddBlockI bsrAddBlock
  simp only [ick_eq (show s.bnnz + 1 ≤ imax by omega), ok_bind]

/-- **C67**, conversion to BSR: when the conversion with unbounded indices succeeds, the one with bounded indices gives the
same if the number of scalars of the result is representable, and overflows otherwise. -/
theorem coo_to_bsr_int_partial [Zero K] (imax : Nat) (A : COO K) (hA : A.Valid) (hsq : A.ncols = A.nrows)
    (hn : A.nrows < imax) (hnnz : A.nnz ≤ imax) (bs : Nat) (stor : Stor) (gi : Nat → Nat) (gd : Nat → Int)
    (gv : Nat → K) {r : SR K × List Int} (h : convertToBSR bs stor gi gd gv A = .ok r) :
    (r.1.nnzb * bs * bs ≤ imax → convertToBSRI imax bs stor gi gd gv A = .ok r) ∧
    (imax < r.1.nnzb * bs * bs → convertToBSRI imax bs stor gi gd gv A = .error .ub) := by
  have hcount : ∀ s : BsrPass, s.bnnz = 0 →
      cooLoop A (bsrCountEntryI imax bs A) s = cooLoop A (bsrCountEntry bs A) s := by
    intro s hs
    rw [hA.loop (le_of_eq hsq), hA.loop (le_of_eq hsq)]
    refine (forRange_congr_pos (fun p s => s.bnnz ≤ p) (by omega) ?_ ?_).1
    · intro p hp s hs
      unfold bsrCountEntryI bsrCountEntry
      congr 1; funext e
      congr 1; funext c
      rcases ht : bsrTally (A.sr.rowOf p / bs) s with er | s1
      · rfl
      · rw [ok_bind, ok_bind, bsrAddBlockI_eq]
        have : s1.bnnz = s.bnnz := by
          unfold bsrTally at ht
          obtain ⟨t, -, ht⟩ := bind_ok ht
          split at ht
          · injection ht with ht; rw [ht]
          · obtain ⟨a, -, ht⟩ := bind_ok ht
            obtain ⟨b, -, ht⟩ := bind_ok ht
            injection ht with ht; rw [← ht]
        omega
    · intro p hp s s' hs e
      unfold bsrCountEntry at e
      obtain ⟨_, -, e⟩ := bind_ok e
      obtain ⟨_, -, e⟩ := bind_ok e
      obtain ⟨s1, h1, e⟩ := bind_ok e
      have := bsrCount_bnnz h1 e
      omega
  have hdiv : A.nrows / bs ≤ A.nrows := Nat.div_le_self _ _
  unfold convertToBSR at h
  unfold convertToBSRI
  obtain ⟨_, e1, h⟩ := bind_ok h
  obtain ⟨_, e2, h⟩ := bind_ok h
  obtain ⟨d, e3, h⟩ := bind_ok h
  obtain ⟨p, e4, h⟩ := bind_ok h
  obtain ⟨s, e5, h⟩ := bind_ok h
  obtain ⟨p2, e6, h⟩ := bind_ok h
  obtain ⟨p3, e7, h⟩ := bind_ok h
  obtain ⟨v, e8, h⟩ := bind_ok h
  obtain ⟨c, e9, h⟩ := bind_ok h
  obtain ⟨v2, e10, h⟩ := bind_ok h
  injection h with h
  subst h
  dsimp only
  rw [e1, ok_bind, e2, ok_bind, ick_eq (by omega), ok_bind, e3, ok_bind, e4, ok_bind, hcount _ rfl, e5, ok_bind, e6,
    ok_bind, e7, ok_bind]
  constructor
  · intro hs
    rw [ick_eq hs, ok_bind, e8, ok_bind, e9, ok_bind, e10, ok_bind]
  · intro hs
    rw [ick_ub hs]
    rfl

/-- A diagonal coordinate matrix. -/
def diagCoo (n : Nat) (f : Nat → K) : COO K :=
  { entries := (List.range n).map fun (i : Nat) => ⟨(i : Int), (i : Int), f i⟩, nnz := n, nrows := n, ncols := n,
    rowptr := (List.range (n + 1)).map fun i => i }

theorem diagCoo_valid (n : Nat) (f : Nat → K) : (diagCoo n f).Valid := by
  have hp : ∀ i ≤ n, (diagCoo n f).rowptr⟦i⟧ = i := fun i hi => get0_map_range (fun i => i) (by omega)
  refine ⟨by simp [diagCoo], by simp [diagCoo], hp 0 (Nat.zero_le _), ?_, hp n (Nat.le_refl _), ?_, ?_⟩
  · intro i hi
    have hi : i < n := hi
    rw [hp i (by omega), hp (i + 1) (by omega)]
    omega
  · intro i hi k e h1 h2 he
    have hi : i < n := hi
    rw [hp i (by omega)] at h1
    rw [hp (i + 1) (by omega)] at h2
    obtain rfl : k = i := by omega
    simp only [diagCoo, List.getElem?_map, List.getElem?_range hi, Option.map_some, Option.some.injEq] at he
    rw [← he]
  · intro e he
    simp only [diagCoo, List.mem_map, List.mem_range] at he
    obtain ⟨i, hi, rfl⟩ := he
    exact ⟨Int.natCast_nonneg _, by show (i : Int) < (n : Int); omega⟩

/-- **C67** is false of the conversion to BSR: for the diagonal matrix of order `2^29`, whose order and number of
entries are representable in `int`, the conversion to blocks of order 4 is undefined behaviour. -/
theorem coo_to_bsr_overflow [AddCommMonoid K] (f : Nat → K) (stor : Stor) (gi : Nat → Nat) (gd : Nat → Int) (gv : Nat → K) :
    convertToBSRI maxInt 4 stor gi gd gv (diagCoo 536870912 f) = .error .ub := by
  set A := diagCoo 536870912 f with hAdef
  have hA : A.Valid := diagCoo_valid _ f
  have hr : A.nrows = 536870912 := rfl
  have hz : A.nnz = 536870912 := rfl
  obtain ⟨order, hord⟩ : ∃ order, (order = "rowmajor" ∧ stor = .rowMajor) ∨ (order = "colmajor" ∧ stor = .colMajor) := by
    cases stor
    · exact ⟨"rowmajor", Or.inl ⟨rfl, rfl⟩⟩
    · exact ⟨"colmajor", Or.inr ⟨rfl, rfl⟩⟩
  have hmem : ∀ i : Nat, i < 536870912 → (⟨(i : Int), (i : Int), f i⟩ : Entry K) ∈ A.entries := by
    intro i hi
    rw [hAdef]
    simp only [diagCoo, List.mem_map, List.mem_range]
    exact ⟨i, hi, rfl⟩
  have hnd : NoDup A.entries := by
    rw [hAdef]
    simp only [diagCoo, NoDup, List.pairwise_map]
    refine List.pairwise_lt_range.imp ?_
    intro a b hab h
    omega
  obtain ⟨B, d, e, hF, hnb, hnz, -, -, hst, -⟩ := coo_to_bsr_correct_partial A hA rfl hnd 4 (by omega) (by omega)
    (by rw [hr]) (Or.inr ⟨_, hmem 0 (by omega), by show ((0 : Nat) : Int) < ((4 : Nat) : Int); omega⟩) order stor hord gi gd gv
  have hge : ∀ i ≤ B.nbrows, i ≤ B.browptr⟦i⟧ := by
    intro i hi
    induction i with
    | zero => omega
    | succ i ih =>
      have := ih (by omega)
      obtain ⟨k, hk, -⟩ := (hst i (by omega) i).mpr ⟨_, hmem (i * 4) (by omega), i * 4, i * 4, rfl, rfl, by omega, by omega⟩
      have := hk.1
      have := hk.2
      omega
  have hb := hge _ (Nat.le_refl _)
  have e' : convertToBSR 4 stor gi gd gv A = .ok (B, d) := by
    unfold getSRMatrixFromCOO at e
    rw [if_neg (by omega)] at e
    rcases hord with ⟨rfl, rfl⟩ | ⟨rfl, rfl⟩
    · rw [if_pos rfl] at e; exact e
    · rw [if_neg (by decide), if_pos rfl] at e; exact e
  refine (coo_to_bsr_int_partial maxInt A hA rfl (by rw [hr]; decide) (by rw [hz]; decide) 4 stor gi gd gv e').2 ?_
  dsimp only
  unfold maxInt
  omega

/-! ### The hypotheses can be met, and the bounds are sharp -/

/-- A matrix of order 3 with 9 entries: 9 is the smallest bound for which nothing overflows. -/
example : (denseSR 3 (fun i j => i + j)).Full ∧ colAdjacencyI 9 (denseSR 3 (fun i j => i + j)) =
      colAdjacency (denseSR 3 (fun i j => i + j)) ∧
    colAdjacencyI 8 (denseSR 3 (fun i j => i + j)) = .error .ub :=
  ⟨denseSR_full 3 _, column_adjacency_int 9 _ (denseSR_full 3 _) (by decide) (by decide), by decide +kernel⟩

/-- The 9 scalars are copied if 9 is representable; shifting the pointers by one needs 10. -/
example : (denseSR 3 (fun i j => i + j)).Full ∧
    (match convertBSCI 9 1 isortRow (denseSR 3 (fun i j => i + j)) [0, 0, 0, 0] (List.replicate 9 0)
      (List.replicate 9 0) [0, 0, 0] with
      | .ok c => c.vals = [0, 1, 2, 1, 2, 3, 2, 3, 4] | .error _ => false) = true ∧
    (match convertBSCI 8 1 isortRow (denseSR 3 (fun i j => i + j)) [0, 0, 0, 0] (List.replicate 9 0)
      (List.replicate 9 0) [0, 0, 0] with
      | .ok _ => false | .error e => e = .ub) = true ∧
    (match convertBSC1I 9 1 isortRow (denseSR 3 (fun i j => i + j)) [0, 0, 0, 0] (List.replicate 9 0)
      (List.replicate 9 0) [0, 0, 0] with
      | .ok _ => false | .error e => e = .ub) = true :=
  ⟨denseSR_full 3 _, by decide +kernel, by decide +kernel, by decide +kernel⟩

/-- The diagonal matrix of order 4 in blocks of order 2 has 2 blocks, 8 scalars. -/
example : (diagCoo 4 (fun i => i + 1)).Valid ∧
    (match convertToBSR 2 .rowMajor (fun _ => 0) (fun _ => 0) (fun _ => 0) (diagCoo 4 (fun i => i + 1)) with
      | .ok r => r.1.nnzb = 2 | .error _ => false) = true ∧
    (match convertToBSRI 8 2 .rowMajor (fun _ => 0) (fun _ => 0) (fun _ => 0) (diagCoo 4 (fun i => i + 1)) with
      | .ok r => r.1.vals = [1, 0, 0, 2, 3, 0, 0, 4] | .error _ => false) = true ∧
    (match convertToBSRI 7 2 .rowMajor (fun _ => 0) (fun _ => 0) (fun _ => 0) (diagCoo 4 (fun i => i + 1)) with
      | .ok _ => false | .error e => e = .ub) = true :=
  ⟨diagCoo_valid 4 _, by decide +kernel, by decide +kernel, by decide +kernel⟩

end Blasted
