import Verif.Reorder.Model
import Verif.Algo.Lemmas
import Verif.Base.Sweep
import Verif.Transpose.Props

/-!
# Lemmas about moving rows and columns of flat sparse-row storage
-/

namespace Blasted
open Finset

variable {K : Type}

/-! ### Storage as a family of rows -/

/-- The three arrays hold exactly the rows `S 0, …, S (n-1)` one after another. -/
structure Rows [Zero K] (m n : Nat) (S : Nat → List (CSEntry K)) (ptr ind : List Nat)
    (vals : List K) : Prop where
  ptr_len : ptr.length = n + 1
  ptr_eq : ∀ i ≤ n, ptr⟦i⟧ = offs S i
  ind_len : ind.length = offs S n
  val_len : vals.length = offs S n * m
  flat : segEntries m 0 (offs S n) ind vals = (List.range n).flatMap S

/-- The entries of row `i`, in storage order: pairs (column, block). -/
def SR.row [Zero K] (m : Nat) (A : SR K) (i : Nat) : List (CSEntry K) :=
  segEntries m A.browptr⟦i⟧ (A.browptr⟦i + 1⟧ - A.browptr⟦i⟧) A.bcolind A.vals

theorem segEntries_length [Zero K] (m base N : Nat) (ind : List Nat) (vals : List K) :
    (segEntries m base N ind vals).length = N := by simp [segEntries]

theorem segEntries_get? [Zero K] {m base N q : Nat} {ind : List Nat} {vals : List K} (h : q < N) :
    (segEntries m base N ind vals)[q]? = some (ind⟦base + q⟧, blockAt m vals (base + q)) := by
  simp [segEntries, h]

theorem segEntries_append [Zero K] (m base N N' : Nat) (ind : List Nat) (vals : List K) :
    segEntries m base (N + N') ind vals =
      segEntries m base N ind vals ++ segEntries m (base + N) N' ind vals := by
  simp only [segEntries, List.range_add, List.map_append, List.map_map]
  congr 1
  refine List.map_congr_left fun q _ => ?_
  simp [Nat.add_assoc]

theorem SR.Full.rows [Zero K] {A : SR K} {m : Nat} (hA : A.Full m) :
    Rows m A.nbrows (A.row m) A.browptr A.bcolind A.vals := by
  have hoffs : ∀ i ≤ A.nbrows, A.browptr⟦i⟧ = offs (A.row m) i := by
    intro i
    induction i with
    | zero => intro _; rw [hA.ptr_zero]; rfl
    | succ i ih =>
      intro hi
      have := hA.ptr_mono i (by omega)
      rw [offs_succ, ← ih (by omega), SR.row, segEntries_length]
      omega
  have hflat : ∀ i ≤ A.nbrows, segEntries m 0 A.browptr⟦i⟧ A.bcolind A.vals =
      (List.range i).flatMap (A.row m) := by
    intro i
    induction i with
    | zero => intro _; rw [hA.ptr_zero]; rfl
    | succ i ih =>
      intro hi
      have := hA.ptr_mono i (by omega)
      rw [List.range_succ, List.flatMap_append, ← ih (by omega)]
      conv_lhs => rw [show A.browptr⟦i + 1⟧ = A.browptr⟦i⟧ + (A.browptr⟦i + 1⟧ - A.browptr⟦i⟧) by omega]
      rw [segEntries_append]
      simp [SR.row]
  exact ⟨hA.ptr_len, hoffs, by rw [hA.ind_len, hoffs _ (Nat.le_refl _)],
    by rw [hA.val_len, hoffs _ (Nat.le_refl _)], by
      rw [← hoffs _ (Nat.le_refl _)]; exact hflat _ (Nat.le_refl _)⟩

theorem Rows.row_eq [Zero K] {m n : Nat} {S : Nat → List (CSEntry K)} {ptr ind : List Nat}
    {vals : List K} (h : Rows m n S ptr ind vals) {i : Nat} (hi : i < n) :
    segEntries m ptr⟦i⟧ (ptr⟦i + 1⟧ - ptr⟦i⟧) ind vals = S i := by
  rw [h.ptr_eq i (by omega), h.ptr_eq (i + 1) (by omega), offs_succ, Nat.add_sub_cancel_left]
  apply List.ext_getElem?
  intro q
  by_cases hq : q < (S i).length
  · rw [segEntries_get? hq, ← get_flatMap S hi hq, ← h.flat]
    have := offs_mono S (show i + 1 ≤ n from hi)
    rw [offs_succ] at this
    rw [segEntries_get? (by omega)]
    simp
  · rw [List.getElem?_eq_none (by rw [segEntries_length]; omega), List.getElem?_eq_none (by omega)]

/-- The rows determine the arrays. -/
theorem Rows.unique [Zero K] {m n : Nat} {S : Nat → List (CSEntry K)} {ptr ind ptr' ind' : List Nat}
    {vals vals' : List K} (h : Rows m n S ptr ind vals) (h' : Rows m n S ptr' ind' vals') :
    ptr = ptr' ∧ ind = ind' ∧ vals = vals' := by
  have hget : ∀ q < offs S n, ind⟦q⟧ = ind'⟦q⟧ ∧ blockAt m vals q = blockAt m vals' q := by
    intro q hq
    have : (segEntries m 0 (offs S n) ind vals)[q]? = (segEntries m 0 (offs S n) ind' vals')[q]? := by
      rw [h.flat, h'.flat]
    rw [segEntries_get? hq, segEntries_get? hq] at this
    simpa using this
  refine ⟨ext_get0 (by rw [h.ptr_len, h'.ptr_len]) fun i hi => ?_,
    ext_get0 (by rw [h.ind_len, h'.ind_len]) fun q hq => (hget q (by rw [← h.ind_len]; exact hq)).1,
    ext_get0 (by rw [h.val_len, h'.val_len]) fun c hc => ?_⟩
  · rw [h.ptr_len] at hi
    rw [h.ptr_eq i (by omega), h'.ptr_eq i (by omega)]
  · rw [h.val_len] at hc
    have hm : 0 < m := by
      rcases Nat.eq_zero_or_pos m with h0 | h0
      · subst h0; simp at hc
      · exact h0
    have hq : c / m < offs S n := Nat.div_lt_of_lt_mul (by rw [Nat.mul_comm]; exact hc)
    have h1 := (hget _ hq).2
    have e : c = c / m * m + c % m := by rw [Nat.mul_comm]; exact (Nat.div_add_mod c m).symm
    have hk := Nat.mod_lt c hm
    have h2 : (blockAt m vals (c / m))⟦c % m⟧ = (blockAt m vals' (c / m))⟦c % m⟧ := by rw [h1]
    rw [get0_blockAt hk, get0_blockAt hk, ← e] at h2
    exact h2

theorem Rows.congr [Zero K] {m n : Nat} {S S' : Nat → List (CSEntry K)} {ptr ind : List Nat}
    {vals : List K} (h : Rows m n S ptr ind vals) (hS : ∀ i < n, S i = S' i) :
    Rows m n S' ptr ind vals := by
  have ho : ∀ i ≤ n, offs S i = offs S' i := fun i hi =>
    offs_congr fun t ht => by rw [hS t (by omega)]
  refine ⟨h.ptr_len, fun i hi => by rw [h.ptr_eq i hi, ho i hi], by rw [h.ind_len, ho n (Nat.le_refl _)],
    by rw [h.val_len, ho n (Nat.le_refl _)], ?_⟩
  rw [← ho n (Nat.le_refl _), h.flat]
  rw [List.flatMap_def, List.flatMap_def]
  congr 1
  exact List.map_congr_left fun i hi => hS i (List.mem_range.mp hi)

theorem mem_segEntries [Zero K] {m base N : Nat} {ind : List Nat} {vals : List K} {e : CSEntry K} :
    e ∈ segEntries m base N ind vals ↔ ∃ q < N, e = (ind⟦base + q⟧, blockAt m vals (base + q)) := by
  simp [segEntries, eq_comm]

theorem get0_tail {ptr : List Nat} (i : Nat) : (ptr.tail)⟦i⟧ = ptr⟦i + 1⟧ := by
  cases ptr with
  | nil => simp [get0]
  | cons a l => simp [get0]

/-- Storage holding rows with valid column indices is complete storage. -/
theorem Rows.full [Zero K] {m : Nat} {S : Nat → List (CSEntry K)} {A : SR K}
    (h : Rows m A.nbrows S A.browptr A.bcolind A.vals) (he : A.browendptr = A.browptr.tail)
    (hc : ∀ i < A.nbrows, ∀ e ∈ S i, e.1 < A.nbrows) : A.Full m where
  ptr_len := h.ptr_len
  ptr_zero := by rw [h.ptr_eq 0 (by omega)]; rfl
  ptr_mono := fun i hi => by
    rw [h.ptr_eq i (by omega), h.ptr_eq (i + 1) (by omega), offs_succ]; omega
  end_len := by rw [he, List.length_tail, h.ptr_len]; rfl
  end_eq := fun i _ => by rw [he, get0_tail]
  ind_len := by rw [h.ind_len, h.ptr_eq _ (Nat.le_refl _)]
  val_len := by rw [h.val_len, h.ptr_eq _ (Nat.le_refl _)]
  col_lt := fun k hk => by
    rw [h.ptr_eq _ (Nat.le_refl _)] at hk
    have : (A.bcolind⟦k⟧, blockAt m A.vals k) ∈ (List.range A.nbrows).flatMap S := by
      rw [← h.flat, mem_segEntries]
      exact ⟨k, hk, by simp⟩
    rw [List.mem_flatMap] at this
    obtain ⟨i, hi, hm⟩ := this
    exact hc i (List.mem_range.mp hi) _ hm

theorem SR.Full.row_col_lt [Zero K] {A : SR K} {m : Nat} (hA : A.Full m) {i : Nat} (hi : i < A.nbrows)
    {e : CSEntry K} (he : e ∈ A.row m i) : e.1 < A.nbrows := by
  rw [SR.row, mem_segEntries] at he
  obtain ⟨q, hq, rfl⟩ := he
  exact hA.col_lt _ (hA.lt_nnz hi (by omega))

theorem SR.row_block_len [Zero K] {A : SR K} {m i : Nat} {e : CSEntry K} (he : e ∈ A.row m i) :
    e.2.length = m := by
  rw [SR.row, mem_segEntries] at he
  obtain ⟨q, hq, rfl⟩ := he
  exact blockAt_length _ _ _

/-- The matrix denoted by flat storage: cell `c` of block `(i,j)`. -/
def SR.cell [AddCommMonoid K] (m : Nat) (A : SR K) (i j c : Nat) : K :=
  ∑ k ∈ Ico A.browptr⟦i⟧ A.browendptr⟦i⟧, if A.bcolind⟦k⟧ = j then A.vals⟦k * m + c⟧ else 0

/-- Sum of the cells `c` of the entries of a row with column `j`. -/
def rowCell [AddCommMonoid K] (l : List (CSEntry K)) (j c : Nat) : K :=
  (l.map fun e => if e.1 = j then e.2⟦c⟧ else 0).sum

theorem SR.Full.cell_eq [AddCommMonoid K] {A : SR K} {m : Nat} (hA : A.Full m) {i : Nat}
    (hi : i < A.nbrows) (j : Nat) {c : Nat} (hc : c < m) :
    A.cell m i j c = rowCell (A.row m i) j c := by
  rw [SR.cell, hA.end_eq i hi, rowCell, SR.row, segEntries, List.map_map, sum_Ico_eq_sum_range]
  change ((List.range _).map _).sum = _
  congr 1
  refine List.map_congr_left fun q _ => ?_
  simp only [Function.comp_def]
  rw [get0_blockAt hc]

theorem rowCell_perm [AddCommMonoid K] {l l' : List (CSEntry K)} (h : l.Perm l') (j c : Nat) :
    rowCell l j c = rowCell l' j c := (h.map _).sum_eq

/-! ### Copying entries -/

theorem copyBlock_ok [Zero K] {m jj pos : Nat} {src dst : List K} (hs : jj * m + m ≤ src.length)
    (hd : pos * m + m ≤ dst.length) :
    Ok (copyBlock m src jj dst pos) (fun d => d.length = dst.length ∧
      blockAt m d pos = blockAt m src jj ∧ ∀ q, q ≠ pos → blockAt m d q = blockAt m dst q) := by
  unfold copyBlock
  refine (forRange_ok (fun t d => d.length = dst.length ∧ (∀ k < t, d⟦pos * m + k⟧ = src⟦jj * m + k⟧) ∧
    ∀ q, q ≠ pos → ∀ k < m, d⟦q * m + k⟧ = dst⟦q * m + k⟧) (Nat.zero_le _)
    ⟨rfl, by simp, fun _ _ _ _ => rfl⟩ ?_).mono ?_
  · rintro t d _ ht ⟨hl, h1, h2⟩
    rw [rd_eq (by omega), ok_bind, wr_eq (by omega)]
    refine Ok.pure ⟨by simp [hl], fun k hk => ?_, fun q hq k hk => ?_⟩
    · rw [get0_set]
      by_cases e : t = k
      · subst e; rw [if_pos ⟨rfl, by omega⟩]
      · rw [if_neg (by omega)]; exact h1 k (by omega)
    · rw [get0_set_ne]
      · exact h2 q hq k hk
      · intro e
        exact hq (blk_inj ht hk e).1.symm
  · rintro d ⟨hl, h1, h2⟩
    refine ⟨hl, List.map_congr_left fun k hk => h1 k (List.mem_range.mp hk), fun q hq =>
      List.map_congr_left fun k hk => h2 q hq k (List.mem_range.mp hk)⟩

theorem segEntries_congr [Zero K] {m base N base' : Nat} {ind ind' : List Nat} {vals vals' : List K}
    (h : ∀ q < N, ind⟦base + q⟧ = ind'⟦base' + q⟧ ∧ blockAt m vals (base + q) = blockAt m vals' (base' + q)) :
    segEntries m base N ind vals = segEntries m base' N ind' vals' := by
  refine List.map_congr_left fun q hq => ?_
  rw [(h q (List.mem_range.mp hq)).1, (h q (List.mem_range.mp hq)).2]

/-- Writing one more entry after the first `p`. -/
theorem segEntries_put [Zero K] {m p : Nat} {ind : List Nat} {vals d : List K} {c : Nat} {b : List K}
    (hp : p < ind.length) (h1 : blockAt m d p = b) (h2 : ∀ q, q ≠ p → blockAt m d q = blockAt m vals q) :
    segEntries m 0 (p + 1) (ind.set p c) d = segEntries m 0 p ind vals ++ [(c, b)] := by
  rw [segEntries_append]
  congr 1
  · refine segEntries_congr fun q hq => ?_
    rw [get0_set_ne (by omega), h2 _ (by omega)]
    exact ⟨rfl, rfl⟩
  · simp only [segEntries, Nat.zero_add, List.range_one, List.map_cons, List.map_nil, Nat.add_zero]
    rw [get0_set_self hp, h1]

/-- `p` is a permutation of `0 … n-1`. -/
abbrev IsPerm (p : List Nat) (n : Nat) : Prop := p.Perm (List.range n)

theorem IsPerm.length {p : List Nat} {n : Nat} (h : IsPerm p n) : p.length = n := by
  simpa using List.Perm.length_eq h

theorem IsPerm.lt {p : List Nat} {n : Nat} (h : IsPerm p n) {i : Nat} (hi : i < n) : p⟦i⟧ < n := by
  have hl := h.length
  rw [get0_eq_getElem (by omega)]
  exact List.mem_range.mp (h.mem_iff.mp (List.getElem_mem _))

theorem IsPerm.inj {p : List Nat} {n : Nat} (h : IsPerm p n) {i j : Nat} (hi : i < n) (hj : j < n)
    (e : p⟦i⟧ = p⟦j⟧) : i = j := by
  have hl := h.length
  rw [get0_eq_getElem (by omega), get0_eq_getElem (by omega)] at e
  exact (List.Nodup.getElem_inj_iff (h.nodup_iff.mpr List.nodup_range)).mp e

theorem IsPerm.surj {p : List Nat} {n : Nat} (h : IsPerm p n) {j : Nat} (hj : j < n) :
    ∃ i < n, p⟦i⟧ = j := by
  have hl := h.length
  obtain ⟨i, hi, e⟩ := List.mem_iff_getElem.mp (h.mem_iff.mpr (List.mem_range.mpr hj))
  exact ⟨i, by omega, by rw [get0_eq_getElem hi, e]⟩

theorem IsPerm.map_eq {p : List Nat} {n : Nat} (h : IsPerm p n) :
    p = (List.range n).map fun i => p⟦i⟧ := by
  refine ext_get0 (by simp [h.length]) fun i hi => ?_
  rw [h.length] at hi
  rw [get0_map_range _ hi]

theorem IsPerm.sum {M : Type _} [AddCommMonoid M] {p : List Nat} {n : Nat} (h : IsPerm p n)
    (f : Nat → M) : ∑ i ∈ range n, f p⟦i⟧ = ∑ i ∈ range n, f i := by
  change ((List.range n).map _).sum = ((List.range n).map _).sum
  rw [← (List.Perm.map f h).sum_eq]
  conv_rhs => rw [h.map_eq]
  rw [List.map_map]; rfl

/-! ### Forward row reordering -/

theorem moveRow_ok [Zero K] {A : SR K} {m : Nat} (hA : A.Full m) {rp : List Nat}
    (hp : IsPerm rp A.nbrows) {i : Nat} (hi : i < A.nbrows) {s : RowMove K}
    (h0 : s.pos + (A.row m rp⟦i⟧).length ≤ A.browptr⟦A.nbrows⟧)
    (h1 : s.rptr.length = A.nbrows + 1) (h2 : s.cind.length = A.browptr⟦A.nbrows⟧)
    (h3 : s.val.length = A.browptr⟦A.nbrows⟧ * m) :
    Ok (moveRow m rp A i s) (fun s' => s'.pos = s.pos + (A.row m rp⟦i⟧).length ∧
      s'.rptr = s.rptr.set i s.pos ∧ s'.cind.length = s.cind.length ∧ s'.val.length = s.val.length ∧
      segEntries m 0 s'.pos s'.cind s'.val = segEntries m 0 s.pos s.cind s.val ++ A.row m rp⟦i⟧) := by
  have hl := hp.length
  have hlt := hp.lt hi
  have hpl := hA.ptr_len
  have hil := hA.ind_len
  have hmono := hA.ptr_mono _ hlt
  have hrl : (A.row m rp⟦i⟧).length = A.browptr⟦rp⟦i⟧ + 1⟧ - A.browptr⟦rp⟦i⟧⟧ := segEntries_length ..
  unfold moveRow
  rw [rd_eq (by omega), ok_bind, wr_eq (by omega), ok_bind, rd_eq (by omega), ok_bind,
    rd_eq (by omega), ok_bind]
  refine (forRange_ok (s := { s with rptr := s.rptr.set i s.pos }) (fun jj (s' : RowMove K) => s'.pos = s.pos + (jj - A.browptr⟦rp⟦i⟧⟧) ∧
      s'.rptr = s.rptr.set i s.pos ∧ s'.cind.length = s.cind.length ∧ s'.val.length = s.val.length ∧
      segEntries m 0 s'.pos s'.cind s'.val = segEntries m 0 s.pos s.cind s.val ++
        segEntries m A.browptr⟦rp⟦i⟧⟧ (jj - A.browptr⟦rp⟦i⟧⟧) A.bcolind A.vals) hmono
      ⟨by simp, rfl, rfl, rfl, by simp [segEntries]⟩ ?_).mono ?_
  · rintro jj s' hlo hhi ⟨e1, e2, e3, e4, e5⟩
    have hjn := hA.lt_nnz hlt hhi
    have hseg : s'.pos * m + m ≤ s'.val.length := by
      rw [e4, h3, ← Nat.succ_mul]; exact Nat.mul_le_mul_right _ (by omega)
    rw [rd_eq (by omega), ok_bind, wr_eq (by omega), ok_bind]
    refine (copyBlock_ok (hA.blk_le hjn) hseg).bind ?_
    rintro d ⟨hd, hd1, hd2⟩
    refine Ok.pure ⟨by simp only; omega, e2, by simp [e3], by simp only; omega, ?_⟩
    simp only
    rw [segEntries_put (by omega) hd1 hd2, e5, List.append_assoc]
    congr 1
    rw [show jj + 1 - A.browptr⟦rp⟦i⟧⟧ = (jj - A.browptr⟦rp⟦i⟧⟧) + 1 by omega, segEntries_append]
    congr 1
    simp only [segEntries, List.range_one, List.map_cons, List.map_nil, Nat.add_zero]
    rw [show A.browptr⟦rp⟦i⟧⟧ + (jj - A.browptr⟦rp⟦i⟧⟧) = jj by omega]
  · rintro s' ⟨e1, e2, e3, e4, e5⟩
    refine ⟨by rw [hrl]; exact e1, e2, e3, e4, e5⟩

theorem offs_rp [Zero K] {A : SR K} {m : Nat} (hA : A.Full m) {rp : List Nat}
    (hp : IsPerm rp A.nbrows) :
    offs (fun i => A.row m rp⟦i⟧) A.nbrows = A.browptr⟦A.nbrows⟧ := by
  rw [hA.rows.ptr_eq _ (Nat.le_refl _)]
  exact hp.sum fun i => (A.row m i).length

theorem reorderRowsFwd_ok [Zero K] {A : SR K} {m : Nat} (hA : A.Full m) {rp : List Nat}
    (hp : IsPerm rp A.nbrows) :
    Ok (reorderRowsFwd m rp A) (fun B => Rows m A.nbrows (fun i => A.row m rp⟦i⟧) B.browptr B.bcolind B.vals ∧
      B.browendptr = B.browptr.tail ∧ B.nbrows = A.nbrows ∧ B.diagind = A.diagind ∧
      B.nnzb = A.nnzb ∧ B.nbstored = A.nbstored) := by
  have hpl := hA.ptr_len
  have hil := hA.ind_len
  have hvl := hA.val_len
  have hoffs := offs_rp hA hp
  unfold reorderRowsFwd
  rw [rd_eq (by omega), ok_bind, wr_eq (by simp), ok_bind]
  refine (forRange_ok (fun i (s : RowMove K) => s.pos = offs (fun i => A.row m rp⟦i⟧) i ∧
      s.rptr.length = A.nbrows + 1 ∧ (∀ t < i, s.rptr⟦t⟧ = offs (fun i => A.row m rp⟦i⟧) t) ∧
      s.cind.length = A.browptr⟦A.nbrows⟧ ∧
      s.val.length = A.browptr⟦A.nbrows⟧ * m ∧
      segEntries m 0 s.pos s.cind s.val = (List.range i).flatMap fun i => A.row m rp⟦i⟧)
      (Nat.zero_le _) ⟨rfl, by simp, by simp, by simp, by simp, rfl⟩ ?_).bind ?_
  · rintro i s _ hi ⟨e1, e2, e3, e5, e6, e7⟩
    have hmo := offs_mono (fun i => A.row m rp⟦i⟧) (show i + 1 ≤ A.nbrows from hi)
    rw [offs_succ] at hmo
    refine (moveRow_ok hA hp hi (by omega) e2 e5 e6).mono ?_
    rintro s' ⟨f1, f2, f3, f4, f5⟩
    refine ⟨by rw [f1, offs_succ, e1], by rw [f2]; simp [e2], fun t ht => ?_,
      by omega, by omega, ?_⟩
    · rw [f2, get0_set]
      by_cases e : i = t
      · subst e; rw [if_pos ⟨rfl, by omega⟩, e1]
      · rw [if_neg (by omega)]; exact e3 t (by omega)
    · rw [f5, e7, List.range_succ, List.flatMap_append]; simp
  · rintro s ⟨e1, e2, e3, e5, e6, e7⟩
    rw [hoffs] at e1
    rw [cassert_true (by simp [e1]), ok_bind]
    refine Ok.bind (P := fun bp => bp.length = A.nbrows + 1 ∧ (∀ t < A.nbrows, bp⟦t⟧ = s.rptr⟦t⟧) ∧
      bp⟦A.nbrows⟧ = A.browptr⟦A.nbrows⟧) ?_ ?_
    · refine (forRange_map (a := A.browptr) (n := A.nbrows) (fun i _ => s.rptr⟦i⟧) ?_).mono ?_
      · intro i hi a' ha'
        rw [rd_eq (by omega), ok_bind, wr_eq (by omega)]
      · rintro bp ⟨hbl, hb⟩
        refine ⟨by omega, fun t ht => ?_, ?_⟩
        · rw [hb t (by omega), if_pos ht]
        · rw [hb _ (by omega), if_neg (by omega)]
    · rintro bp ⟨b1, b2, b3⟩
      refine Ok.bind (P := fun cv : List Nat × List K => cv.1.length = A.bcolind.length ∧
        cv.2.length = A.vals.length ∧ segEntries m 0 s.pos cv.1 cv.2 = segEntries m 0 s.pos s.cind s.val) ?_ ?_
      · refine forRange_ok (fun t (cv : List Nat × List K) => cv.1.length = A.bcolind.length ∧
          cv.2.length = A.vals.length ∧ segEntries m 0 t cv.1 cv.2 = segEntries m 0 t s.cind s.val)
          (Nat.zero_le _) ⟨rfl, rfl, rfl⟩ ?_
        rintro t cv _ ht ⟨g1, g2, g3⟩
        have hseg : t * m + m ≤ A.browptr⟦A.nbrows⟧ * m := by
          rw [← Nat.succ_mul]; exact Nat.mul_le_mul_right _ (by omega)
        rw [rd_eq (by omega), ok_bind, wr_eq (by omega), ok_bind]
        refine (copyBlock_ok (by omega) (by omega)).bind ?_
        rintro d ⟨hd, hd1, hd2⟩
        refine Ok.pure ⟨by simp [g1], by simp only; omega, ?_⟩
        simp only
        rw [segEntries_put (by omega) hd1 hd2, g3, segEntries_append m 0 t 1]
        simp [segEntries]
      · rintro cv ⟨g1, g2, g3⟩
        refine Ok.pure ⟨⟨b1, fun i hi => ?_, by rw [hoffs]; simp only; omega,
          by rw [hoffs]; simp only; omega, ?_⟩, rfl, rfl, rfl, rfl, rfl⟩
        · simp only
          by_cases h : i < A.nbrows
          · rw [b2 i h, e3 i h]
          · have : i = A.nbrows := by omega
            subst this; rw [b3, hoffs]
        · simp only
          rw [hoffs, ← e7, ← g3, e1]

/-! ### Column reordering -/

theorem permuteColsRow_ok [Zero K] {A : SR K} {m : Nat} (hA : A.Full m) {q : List Nat}
    (hq : q.length = A.nbrows) {i : Nat} (hi : i < A.nbrows) {cv : List Nat × List K}
    (h1 : cv.1.length = A.bcolind.length) (h2 : cv.2.length = A.vals.length)
    (h3 : segEntries m A.browptr⟦i⟧ (A.browptr⟦i + 1⟧ - A.browptr⟦i⟧) cv.1 cv.2 = A.row m i) :
    Ok (permuteColsRow m q A.browptr i cv) (fun cv' => cv'.1.length = A.bcolind.length ∧
      cv'.2.length = A.vals.length ∧
      (segEntries m A.browptr⟦i⟧ (A.browptr⟦i + 1⟧ - A.browptr⟦i⟧) cv'.1 cv'.2).Perm
        ((A.row m i).map fun e => (q⟦e.1⟧, e.2)) ∧
      (segEntries m A.browptr⟦i⟧ (A.browptr⟦i + 1⟧ - A.browptr⟦i⟧) cv'.1 cv'.2).Pairwise
        (fun a b => a.1 ≤ b.1) ∧
      ∀ k, k < A.browptr⟦i⟧ ∨ A.browptr⟦i + 1⟧ ≤ k → k < A.browptr⟦A.nbrows⟧ →
        cv'.1⟦k⟧ = cv.1⟦k⟧ ∧ blockAt m cv'.2 k = blockAt m cv.2 k) := by
  have hpl := hA.ptr_len
  have hil := hA.ind_len
  have hvl := hA.val_len
  have hmono := hA.ptr_mono i hi
  have hnn := hA.ptr_le (show i + 1 ≤ A.nbrows from hi) (Nat.le_refl _)
  unfold permuteColsRow
  rw [rd_eq (by omega), ok_bind, rd_eq (by omega), ok_bind]
  obtain ⟨N, hN⟩ : ∃ N, N = A.browptr⟦i + 1⟧ - A.browptr⟦i⟧ := ⟨_, rfl⟩
  obtain ⟨lo, hlo⟩ : ∃ lo, lo = A.browptr⟦i⟧ := ⟨_, rfl⟩
  rw [← hN, ← hlo] at h3 ⊢
  have hcol : ∀ t < N, cv.1⟦lo + t⟧ < A.nbrows := by
    intro t ht
    refine hA.row_col_lt hi (e := (cv.1⟦lo + t⟧, blockAt m cv.2 (lo + t))) ?_
    rw [← h3, mem_segEntries]
    exact ⟨t, ht, rfl⟩
  refine Ok.bind (P := fun o => o = (List.range N).map fun t => cv.1⟦lo + t⟧) ?_ ?_
  · refine forRange_ok (fun t o => o = (List.range t).map fun t => cv.1⟦lo + t⟧) (Nat.zero_le _) rfl ?_
    rintro t o _ ht rfl
    rw [rd_eq (by omega), ok_bind, List.range_succ, List.map_append]
    exact Ok.pure rfl
  rintro o rfl
  refine Ok.bind (P := fun rc => rc.length = cv.1.length ∧ ∀ k < cv.1.length,
    rc⟦k⟧ = if lo ≤ k ∧ k < lo + N then q⟦cv.1⟦k⟧⟧ else cv.1⟦k⟧) ?_ ?_
  · refine forRange_ok (fun t rc => rc.length = cv.1.length ∧ ∀ k < cv.1.length,
      rc⟦k⟧ = if lo ≤ k ∧ k < lo + t then q⟦cv.1⟦k⟧⟧ else cv.1⟦k⟧) (Nat.zero_le _)
      ⟨rfl, fun k _ => by rw [if_neg (by omega)]⟩ ?_
    rintro t rc _ ht ⟨g1, g2⟩
    rw [rd_eq (by simpa using ht), ok_bind, get0_map_range _ ht, rd_eq (by have := hcol t ht; omega),
      ok_bind, wr_eq (by omega)]
    refine Ok.pure ⟨by simp [g1], fun k hk => ?_⟩
    rw [get0_set]
    by_cases e : lo + t = k
    · subst e; rw [if_pos ⟨rfl, by omega⟩, if_pos (by omega)]
    · rw [if_neg (by omega), g2 k hk]
      by_cases h5 : lo ≤ k ∧ k < lo + t
      · rw [if_pos h5, if_pos (by omega)]
      · rw [if_neg h5, if_neg (by omega)]
  rintro rc ⟨g1, g2⟩
  have hmul : (lo + N) * m ≤ cv.2.length := by
    rw [h2, hvl]; exact Nat.mul_le_mul_right _ (by omega)
  refine (sortBlockInner_ok (m := m) (N := N) (base := lo) (colind := rc) (vals := cv.2) (by omega)
    hmul).mono ?_
  rintro cv' ⟨s1, s2, s3, s4, s5, s6⟩
  refine ⟨by omega, by omega, ?_, ?_, fun k hk hkn => ⟨?_, ?_⟩⟩
  · refine s5.trans ?_
    rw [← h3, segEntries, segEntries, List.map_map]
    refine List.Perm.of_eq (List.map_congr_left fun t ht => ?_)
    rw [List.mem_range] at ht
    simp only [Function.comp_def]
    rw [g2 _ (by omega), if_pos (by omega)]
  · rw [segEntries, List.pairwise_map]
    refine List.Pairwise.imp_of_mem ?_ (List.pairwise_lt_range (n := N))
    intro a b ha hb hab
    rw [List.mem_range] at ha hb
    exact s6 a b (by omega) hb
  · rw [s3 k (by omega), g2 k (by omega), if_neg (by omega)]
  · refine List.map_congr_left fun t ht => ?_
    rw [List.mem_range] at ht
    refine s4 k (by omega) t ht ?_
    rw [h2, hvl]; exact blk_lt hkn ht

theorem permuteCols_ok [Zero K] {A : SR K} {m : Nat} (hA : A.Full m) {q : List Nat}
    (hq : q.length = A.nbrows) (hq2 : ∀ j < A.nbrows, q⟦j⟧ < A.nbrows) {ord : List Nat}
    (hord : IsPerm ord A.nbrows) :
    Ok (permuteCols m q ord A) (fun B => B.Full m ∧ B.browptr = A.browptr ∧
      B.browendptr = A.browendptr ∧ B.nbrows = A.nbrows ∧ B.diagind = A.diagind ∧
      B.nnzb = A.nnzb ∧ B.nbstored = A.nbstored ∧
      ∀ i < A.nbrows, (B.row m i).Perm ((A.row m i).map fun e => (q⟦e.1⟧, e.2)) ∧
        (B.row m i).Pairwise (fun a b => a.1 ≤ b.1)) := by
  unfold permuteCols
  rw [parFor_eq hord]
  have hmem : ∀ i, i ∈ ord ↔ i < A.nbrows := fun i => by rw [hord.mem_iff, List.mem_range]
  have hnd : ord.Nodup := hord.nodup_iff.mpr List.nodup_range
  refine (forList_ok (fun done (cv : List Nat × List K) => cv.1.length = A.bcolind.length ∧
      cv.2.length = A.vals.length ∧
      ∀ i < A.nbrows, if i ∈ done then
        (segEntries m A.browptr⟦i⟧ (A.browptr⟦i + 1⟧ - A.browptr⟦i⟧) cv.1 cv.2).Perm
          ((A.row m i).map fun e => (q⟦e.1⟧, e.2)) ∧
        (segEntries m A.browptr⟦i⟧ (A.browptr⟦i + 1⟧ - A.browptr⟦i⟧) cv.1 cv.2).Pairwise
          (fun a b => a.1 ≤ b.1)
      else segEntries m A.browptr⟦i⟧ (A.browptr⟦i + 1⟧ - A.browptr⟦i⟧) cv.1 cv.2 = A.row m i)
      ⟨rfl, rfl, fun i _ => by rw [if_neg (by simp)]; rfl⟩ ?_).bind ?_
  · rintro done i rest cv hsp ⟨h1, h2, h3⟩
    have hi : i < A.nbrows := (hmem i).mp (by rw [hsp]; simp)
    have hnot : i ∉ done := by
      rw [hsp] at hnd
      have := List.nodup_append.mp hnd
      intro hc
      exact this.2.2 i hc i (by simp) rfl
    have hrow := h3 i hi
    rw [if_neg hnot] at hrow
    refine (permuteColsRow_ok hA hq hi h1 h2 hrow).mono ?_
    rintro cv' ⟨g1, g2, g3, g4, g5⟩
    refine ⟨g1, g2, fun r hr => ?_⟩
    by_cases hri : r = i
    · subst hri
      rw [if_pos (by simp)]
      exact ⟨g3, g4⟩
    · have hsame : segEntries m A.browptr⟦r⟧ (A.browptr⟦r + 1⟧ - A.browptr⟦r⟧) cv'.1 cv'.2 =
          segEntries m A.browptr⟦r⟧ (A.browptr⟦r + 1⟧ - A.browptr⟦r⟧) cv.1 cv.2 := by
        refine segEntries_congr fun t ht => ?_
        have hk := hA.lt_nnz (k := A.browptr⟦r⟧ + t) hr (by omega)
        refine g5 _ ?_ hk
        rcases Nat.lt_or_gt_of_ne hri with h | h
        · left; have := hA.ptr_le (show r + 1 ≤ i from h) (by omega); omega
        · right; have := hA.ptr_le (show i + 1 ≤ r from h) (by omega); omega
      have hthis := h3 r hr
      by_cases hd : r ∈ done
      · rw [if_pos hd] at hthis
        rw [if_pos (by simp [hd]), hsame]; exact hthis
      · rw [if_neg hd] at hthis
        rw [if_neg (by simp [hd, hri]), hsame]; exact hthis
  · rintro cv ⟨h1, h2, h3⟩
    refine Ok.pure ?_
    have hrows : ∀ i < A.nbrows, (segEntries m A.browptr⟦i⟧ (A.browptr⟦i + 1⟧ - A.browptr⟦i⟧) cv.1 cv.2).Perm
          ((A.row m i).map fun e => (q⟦e.1⟧, e.2)) ∧
        (segEntries m A.browptr⟦i⟧ (A.browptr⟦i + 1⟧ - A.browptr⟦i⟧) cv.1 cv.2).Pairwise
          (fun a b => a.1 ≤ b.1) := by
      intro i hi
      have := h3 i hi
      rwa [if_pos ((hmem i).mpr hi)] at this
    refine ⟨⟨hA.ptr_len, hA.ptr_zero, hA.ptr_mono, hA.end_len, hA.end_eq, h1.trans hA.ind_len,
      h2.trans hA.val_len, ?_⟩, rfl, rfl, rfl, rfl, rfl, rfl, hrows⟩
    intro k hk
    simp only at hk ⊢
    obtain ⟨hr, hin⟩ := hA.rowOf_spec hk
    have hme : (cv.1⟦k⟧, blockAt m cv.2 k) ∈ segEntries m A.browptr⟦A.rowOf k⟧
        (A.browptr⟦A.rowOf k + 1⟧ - A.browptr⟦A.rowOf k⟧) cv.1 cv.2 := by
      rw [mem_segEntries]
      have h5 := hin.1
      have h6 := hin.2
      refine ⟨k - A.browptr⟦A.rowOf k⟧, by omega, ?_⟩
      rw [show A.browptr⟦A.rowOf k⟧ + (k - A.browptr⟦A.rowOf k⟧) = k by omega]
    have := (hrows _ hr).1.mem_iff.mp hme
    rw [List.mem_map] at this
    obtain ⟨e, he, heq⟩ := this
    have := hq2 _ (hA.row_col_lt hr he)
    rw [show cv.1⟦k⟧ = q⟦e.1⟧ from (congrArg Prod.fst heq).symm]
    exact this

/-! ### Inverse row reordering -/

theorem collectRow_ok [Zero K] {A : SR K} {m : Nat} (hA : A.Full m) {rp : List Nat}
    (hp : IsPerm rp A.nbrows) {i : Nat} (hi : i < A.nbrows) {brows : List (List (CSEntry K))}
    (h1 : brows.length = A.nbrows) (h2 : brows⟦rp⟦i⟧⟧ = []) :
    Ok (collectRow m rp A i brows) (fun b => b = brows.set rp⟦i⟧ (A.row m i)) := by
  have hl := hp.length
  have hlt := hp.lt hi
  have hpl := hA.ptr_len
  have hil := hA.ind_len
  have hmono := hA.ptr_mono i hi
  unfold collectRow
  rw [rd_eq (by omega), ok_bind, rd_eq (by omega), ok_bind, h2, cassert_true (show (([] : List (CSEntry K)).length == 0) = true from rfl), ok_bind,
    rd_eq (by omega), ok_bind, rd_eq (by omega), ok_bind]
  obtain ⟨lo, hlo⟩ : ∃ lo, lo = A.browptr⟦i⟧ := ⟨_, rfl⟩
  obtain ⟨hi', hhi⟩ : ∃ h, h = A.browptr⟦i + 1⟧ := ⟨_, rfl⟩
  rw [← hlo, ← hhi] at hmono ⊢
  refine (forRange_ok (fun jj (row : List (CSEntry K)) => row.length = hi' - lo ∧
      (∀ e ∈ row, e.2.length = m) ∧ row.take (jj - lo) = segEntries m lo (jj - lo) A.bcolind A.vals)
      hmono ⟨by simp, by simp, by simp [segEntries]⟩ ?_).bind ?_
  · rintro jj row h3 h4 ⟨g1, g2, g3⟩
    have hjn := hA.lt_nnz hi (k := jj) (by omega)
    rw [rd_eq (by omega), ok_bind]
    have hrl : jj - lo < row.length := by omega
    have hrd : rd row (jj - lo) = .ok row[jj - lo] := by simp [rd, hrl]
    rw [hrd, ok_bind]
    refine (copyBlock_ok (hA.blk_le hjn) (by
      rw [g2 _ (List.getElem_mem hrl)]; simp)).bind ?_
    rintro d ⟨hd, hd1, hd2⟩
    have hdl : d.length = m := by rw [hd, g2 _ (List.getElem_mem hrl)]
    rw [wr_eq hrl]
    refine Ok.pure ⟨by simp [g1], ?_, ?_⟩
    · intro e he
      rcases List.mem_or_eq_of_mem_set he with h | rfl
      · exact g2 e h
      · exact hdl
    · have hdeq : d = blockAt m A.vals jj := by
        rw [← hd1]
        refine ext_get0 (by rw [blockAt_length, hdl]) fun k hk => ?_
        rw [get0_blockAt (by omega)]; simp
      rw [show jj + 1 - lo = (jj - lo) + 1 by omega, segEntries_append, ← g3, hdeq]
      rw [List.take_succ_eq_append_getElem (by simpa using hrl)]
      congr 1
      · rw [List.take_set_of_le (Nat.le_refl _)]
      · simp only [List.getElem_set_self, segEntries, List.range_one, List.map_cons, List.map_nil,
          Nat.add_zero]
        rw [show lo + (jj - lo) = jj by omega]
  · rintro row ⟨g1, g2, g3⟩
    rw [wr_eq (by omega)]
    refine Ok.pure ?_
    rw [← g1, List.take_length] at g3
    rw [SR.row, ← hlo, ← hhi, g3, g1]

theorem writeRow_ok [Zero K] {m n nnz i : Nat} {S : Nat → List (CSEntry K)}
    {brows : List (List (CSEntry K))} (hb : brows.length = n) (hbs : ∀ i < n, brows⟦i⟧ = S i)
    (hlen : ∀ i < n, ∀ e ∈ S i, e.2.length = m) (htot : offs S n = nnz) (hi : i < n)
    {s : List Nat × List Nat × List K} (h1 : s.1.length = n + 1) (h2 : s.2.1.length = nnz)
    (h3 : s.2.2.length = nnz * m) (h4 : s.1⟦i⟧ = offs S i)
    (h5 : segEntries m 0 (offs S i) s.2.1 s.2.2 = (List.range i).flatMap S) :
    Ok (writeRow m brows i s) (fun s' => s'.1 = s.1.set (i + 1) (offs S (i + 1)) ∧
      s'.2.1.length = nnz ∧ s'.2.2.length = nnz * m ∧
      segEntries m 0 (offs S (i + 1)) s'.2.1 s'.2.2 = (List.range (i + 1)).flatMap S) := by
  have hmo := offs_mono S (show i + 1 ≤ n from hi)
  unfold writeRow
  rw [rd_eq (by omega), ok_bind, rd_eq (by omega), ok_bind, wr_eq (by omega), ok_bind, hbs i hi, h4]
  have e0 : (S i).length + offs S i = offs S (i + 1) := by rw [offs_succ]; omega
  rw [e0]
  refine (forRange_ok (fun jj (cv : List Nat × List K) => cv.1.length = nnz ∧ cv.2.length = nnz * m ∧
      segEntries m 0 jj cv.1 cv.2 = (List.range i).flatMap S ++ (S i).take (jj - offs S i))
      (by omega) ⟨h2, h3, by simpa using h5⟩ ?_).bind ?_
  · rintro jj cv h6 h7 ⟨g1, g2, g3⟩
    have hrl : jj - offs S i < (S i).length := by omega
    have hrd : rd (S i) (jj - offs S i) = .ok (S i)[jj - offs S i] := by simp [rd, hrl]
    have hel := hlen i hi _ (List.getElem_mem hrl)
    have hseg : jj * m + m ≤ cv.2.length := by
      rw [g2, ← Nat.succ_mul]; exact Nat.mul_le_mul_right _ (by omega)
    rw [hrd, ok_bind, wr_eq (by omega), ok_bind]
    refine (copyBlock_ok (by rw [hel]; simp) hseg).bind ?_
    rintro d ⟨hd, hd1, hd2⟩
    refine Ok.pure ⟨by simp [g1], by simp only; omega, ?_⟩
    simp only
    have hdeq : blockAt m d jj = (S i)[jj - offs S i].2 := by
      rw [hd1]
      refine ext_get0 (by rw [blockAt_length, hel]) fun k hk => ?_
      rw [blockAt_length] at hk
      rw [get0_blockAt hk]; simp
    rw [segEntries_put (by omega) hdeq hd2, g3, List.append_assoc,
      show jj + 1 - offs S i = (jj - offs S i) + 1 by omega, List.take_succ_eq_append_getElem hrl]
  · rintro cv ⟨g1, g2, g3⟩
    refine Ok.pure ⟨rfl, g1, g2, ?_⟩
    simp only
    rw [g3, ← e0, Nat.add_sub_cancel, List.take_length, List.range_succ, List.flatMap_append]
    simp

theorem reorderRowsInv_ok [Zero K] {A : SR K} {m : Nat} (hA : A.Full m) {rp : List Nat}
    (hp : IsPerm rp A.nbrows) {S : Nat → List (CSEntry K)} (hS : ∀ i < A.nbrows, S rp⟦i⟧ = A.row m i) :
    Ok (reorderRowsInv m rp A) (fun B => Rows m A.nbrows S B.browptr B.bcolind B.vals ∧
      B.browendptr = B.browptr.tail ∧ B.nbrows = A.nbrows ∧ B.diagind = A.diagind ∧
      B.nnzb = A.nnzb ∧ B.nbstored = A.nbstored) := by
  have hpl := hA.ptr_len
  have hoffs : offs S A.nbrows = A.browptr⟦A.nbrows⟧ := by
    rw [hA.rows.ptr_eq _ (Nat.le_refl _), offs, ← hp.sum]
    exact sum_congr rfl fun i hi => by rw [hS i (mem_range.mp hi)]
  have hlen : ∀ i < A.nbrows, ∀ e ∈ S i, e.2.length = m := by
    intro i hi e he
    obtain ⟨t, ht, rfl⟩ := hp.surj hi
    rw [hS t ht] at he
    exact SR.row_block_len he
  unfold reorderRowsInv
  refine Ok.bind (P := fun b : List (List (CSEntry K)) => b.length = A.nbrows ∧
    ∀ i < A.nbrows, b⟦i⟧ = S i) ?_ ?_
  · refine (forRange_ok (fun t (b : List (List (CSEntry K))) => b.length = A.nbrows ∧
      (∀ i < t, b⟦rp⟦i⟧⟧ = S rp⟦i⟧) ∧ ∀ i < A.nbrows, t ≤ i → b⟦rp⟦i⟧⟧ = []) (Nat.zero_le _)
      ⟨by simp, by simp, fun i hi _ => by rw [get0_replicate_of_lt (hp.lt hi)]⟩ ?_).mono ?_
    · rintro t b _ ht ⟨h1, h2, h3⟩
      refine (collectRow_ok hA hp ht h1 (h3 t ht (Nat.le_refl _))).mono ?_
      rintro b' rfl
      refine ⟨by simp [h1], fun i hi => ?_, fun i hi hti => ?_⟩
      · by_cases e : i = t
        · subst e
          rw [get0_set_self (by rw [h1]; exact hp.lt ht), hS i ht]
        · rw [get0_set_ne (fun h => e (hp.inj ht (by omega) h).symm)]
          exact h2 i (by omega)
      · rw [get0_set_ne (fun h => by have := hp.inj ht hi h; omega)]
        exact h3 i hi (by omega)
    · rintro b ⟨h1, h2, _⟩
      refine ⟨h1, fun i hi => ?_⟩
      obtain ⟨t, ht, rfl⟩ := hp.surj hi
      exact h2 t ht
  · rintro b ⟨h1, h2⟩
    rw [wr_eq (by omega), ok_bind]
    refine (forRange_ok (fun t (s : List Nat × List Nat × List K) => s.1.length = A.nbrows + 1 ∧
      s.2.1.length = A.browptr⟦A.nbrows⟧ ∧ s.2.2.length = A.browptr⟦A.nbrows⟧ * m ∧
      (∀ i ≤ t, s.1⟦i⟧ = offs S i) ∧ segEntries m 0 (offs S t) s.2.1 s.2.2 = (List.range t).flatMap S)
      (Nat.zero_le _) ⟨by simp [hpl], hA.ind_len, hA.val_len, ?_, rfl⟩ ?_).bind ?_
    · intro i hi
      have : i = 0 := by omega
      subst this
      exact get0_set_self (by omega)
    · rintro t s _ ht ⟨g1, g2, g3, g4, g5⟩
      refine (writeRow_ok h1 h2 hlen hoffs ht g1 g2 g3 (g4 t (Nat.le_refl _)) g5).mono ?_
      rintro s' ⟨k1, k2, k3, k4⟩
      refine ⟨by rw [k1]; simp [g1], k2, k3, fun i hi => ?_, k4⟩
      rw [k1, get0_set]
      by_cases e : t + 1 = i
      · subst e; rw [if_pos ⟨rfl, by omega⟩]
      · rw [if_neg (by tauto)]; exact g4 i (by omega)
    · rintro s ⟨g1, g2, g3, g4, g5⟩
      exact Ok.pure ⟨⟨g1, g4, by rw [hoffs]; exact g2, by rw [hoffs]; exact g3, g5⟩,
        rfl, rfl, rfl, rfl, rfl⟩

end Blasted
