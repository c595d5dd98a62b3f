import Verif.Coo.MMLemmas

/-!
# Lemmas for reading Matrix Market files: finding and sorting the rows
-/

namespace Blasted
open Finset

variable {K : Type}

/-- What `std::sort` guarantees: the result is a rearrangement of the sequence, in increasing order of the key. -/
def IsSort (srt : (Entry K → Int) → List (Entry K) → List (Entry K)) : Prop :=
  ∀ key l, (srt key l).Perm l ∧ (srt key l).Pairwise fun a b => key a ≤ key b

/-- The number of entries in rows before `r`. -/
def rowCnt (es : List (Entry K)) (r : Nat) : Nat := es.countP fun e => decide (e.rowind < (r : Int))

/-- Rows of the entries, in the form used by the counting lemmas. -/
def rowKeys (es : List (Entry K)) : List (Nat × Nat) := es.map fun e => (e.rowind.toNat, 0)

theorem rowKeys_length (es : List (Entry K)) : (rowKeys es).length = es.length := by simp [rowKeys]

theorem rowKeys_cnt {es : List (Entry K)} (h : ∀ e ∈ es, 0 ≤ e.rowind) (r : Nat) : cntLt (rowKeys es) r = rowCnt es r := by
  unfold cntLt rowKeys rowCnt
  rw [List.countP_map]
  refine List.countP_congr fun e he => ?_
  have := h e he
  simp
  omega

theorem rowKeys_sorted {es : List (Entry K)}
    (hs : es.Pairwise fun a b => a.rowind ≤ b.rowind) : (rowKeys es).Pairwise fun a b => a.1 ≤ b.1 := by
  unfold rowKeys
  rw [List.pairwise_map]
  refine hs.imp fun {a b} hab => ?_
  exact Int.toNat_le_toNat hab

theorem rowCnt_pos {es : List (Entry K)} (h : ∀ e ∈ es, 0 ≤ e.rowind)
    (hs : es.Pairwise fun a b => a.rowind ≤ b.rowind) {r k : Nat} (hk : k < es.length) :
    (rowCnt es r ≤ k ∧ k < rowCnt es (r + 1)) ↔ es[k].rowind = (r : Int) := by
  rw [← rowKeys_cnt h, ← rowKeys_cnt h, cntLt_pos (rowKeys_sorted hs) (by rw [rowKeys_length]; exact hk)]
  have := h es[k] (List.getElem_mem hk)
  simp only [rowKeys, List.getElem_map]
  omega

theorem rowCnt_mono (es : List (Entry K)) {r s : Nat} (h : r ≤ s) : rowCnt es r ≤ rowCnt es s :=
  List.countP_mono_left fun e _ he => by simp at he ⊢; omega

theorem rowCnt_le (es : List (Entry K)) (r : Nat) : rowCnt es r ≤ es.length := List.countP_le_length

theorem rowCnt_zero {es : List (Entry K)} (h : ∀ e ∈ es, 0 ≤ e.rowind) : rowCnt es 0 = 0 := by
  refine List.countP_eq_zero.mpr fun e he => ?_
  have := h e he
  simp; omega

theorem rowCnt_all {es : List (Entry K)} {n : Nat} (h : ∀ e ∈ es, e.rowind < (n : Int)) : rowCnt es n = es.length :=
  List.countP_eq_length.mpr fun e he => by simpa using h e he

theorem rowCnt_perm {es es' : List (Entry K)} (h : es.Perm es') (r : Nat) : rowCnt es r = rowCnt es' r :=
  h.countP_eq _

theorem sorted_get {es : List (Entry K)} (hs : es.Pairwise fun a b => a.rowind ≤ b.rowind) {i j : Nat} (h : i ≤ j)
    (hj : j < es.length) : es[i].rowind ≤ es[j].rowind := by
  rcases Nat.lt_or_eq_of_le h with h | rfl
  · exact List.pairwise_iff_getElem.mp hs i j (by omega) hj h
  · exact le_refl _

theorem rowScanNew_eq {es : List (Entry K)} {it : Nat} (hit : it < es.length) (h1 : 1 ≤ it) (s : RowScan) :
    rowScanNew es it s = if es[it].rowind ≠ es[it - 1].rowind then do
        let rowits ← wr s.rowits s.nextrow (some it)
        let rowptr ← wr s.rowptr s.nextrow s.k
        .ok { s with rowits := rowits, rowptr := rowptr, nextrow := s.nextrow + 1 }
      else .ok s := by
  unfold rowScanNew
  rw [rd_getElem hit, rd_getElem (show it - 1 < es.length by omega)]
  rfl

/-- The row pointers and iterators, when no row is empty. -/
theorem rowScan_ok {es : List (Entry K)} {n : Nat} (hn : 0 < n) (hr : ∀ e ∈ es, 0 ≤ e.rowind ∧ e.rowind < (n : Int))
    (hs : es.Pairwise fun a b => a.rowind ≤ b.rowind) (hall : ∀ r < n, ∃ e ∈ es, e.rowind = (r : Int)) (g : Nat → Nat) :
    Ok (rowScan g es n) (fun s => s.rowptr.length = n + 1 ∧ s.rowits.length = n + 1 ∧
      (∀ r ≤ n, s.rowptr⟦r⟧ = rowCnt es r) ∧ ∀ r ≤ n, s.rowits[r]? = some (some (rowCnt es r))) := by
  have h0 : ∀ e ∈ es, 0 ≤ e.rowind := fun e he => (hr e he).1
  obtain ⟨e0, he0, hr0⟩ := hall 0 hn
  have hne : es ≠ [] := by rintro rfl; cases he0
  have hlen : 0 < es.length := List.length_pos_iff.mpr hne
  have hfirst : es[0].rowind = 0 := by
    obtain ⟨t, ht, rfl⟩ := List.getElem_of_mem he0
    have := sorted_get hs (Nat.zero_le t) ht
    have := h0 es[0] (List.getElem_mem hlen)
    omega
  have hstep : ∀ t, 1 ≤ t → (ht : t < es.length) → es[t].rowind ≤ es[t - 1].rowind + 1 := by
    intro t h1 ht
    by_contra hlt
    have hb := hr es[t] (List.getElem_mem ht)
    have ha := hr es[t - 1] (List.getElem_mem _)
    obtain ⟨e, he, her⟩ := hall (es[t - 1].rowind.toNat + 1) (by omega)
    obtain ⟨q, hq, rfl⟩ := List.getElem_of_mem he
    by_cases hqt : q < t
    · have := sorted_get hs (show q ≤ t - 1 by omega) (by omega)
      omega
    · have := sorted_get hs (show t ≤ q by omega) hq
      omega
  have hlast : es[es.length - 1].rowind = (n : Int) - 1 := by
    obtain ⟨e, he, her⟩ := hall (n - 1) (by omega)
    obtain ⟨q, hq, rfl⟩ := List.getElem_of_mem he
    have := sorted_get hs (show q ≤ es.length - 1 by omega) (by omega)
    have := hr es[es.length - 1] (List.getElem_mem _)
    omega
  unfold rowScan rowScanB
  dsimp only [assertB]
  rw [wr_eq (by simp), ok_bind, wr_eq (by simp), ok_bind, if_neg hne]
  obtain ⟨s, hs1, hI⟩ := forRange_ok (body := fun it s => do
      let s ← rowScanNew es it s
      .ok { s with k := s.k + 1 })
    (s := { rowptr := (fresh (n + 1) g).set 0 0, rowits := (List.replicate (n + 1) none).set 0 (some 0), k := 1, nextrow := 1 })
    (fun it (s : RowScan) => s.rowptr.length = n + 1 ∧ s.rowits.length = n + 1 ∧ s.k = it ∧
      (s.nextrow : Int) = (es[it - 1]?.map Entry.rowind).getD 0 + 1 ∧
      (∀ r < s.nextrow, s.rowptr⟦r⟧ = rowCnt es r) ∧ ∀ r < s.nextrow, s.rowits[r]? = some (some (rowCnt es r)))
    (lo := 1) (hi := es.length) hlen
    (by
      refine ⟨by simp, by simp, rfl, ?_, ?_, ?_⟩
      · rw [List.getElem?_eq_getElem hlen]; simp [hfirst]
      · intro r hr1
        obtain rfl : r = 0 := by simp at hr1; omega
        rw [get0_set_self (by simp), rowCnt_zero h0]
      · intro r hr1
        obtain rfl : r = 0 := by simp at hr1; omega
        simp [rowCnt_zero h0])
    (by
      rintro it s hlo hhi ⟨i1, i2, i3, i4, i5, i6⟩
      rw [rowScanNew_eq hhi hlo]
      have hit' : it - 1 < es.length := by omega
      rw [List.getElem?_eq_getElem hit'] at i4
      simp only [Option.map_some, Option.getD_some] at i4
      have hmono := sorted_get hs (show it - 1 ≤ it by omega) hhi
      have hst := hstep it hlo hhi
      have hrb := hr es[it] (List.getElem_mem hhi)
      have hra := h0 es[it - 1] (List.getElem_mem hit')
      by_cases hc : es[it].rowind ≠ es[it - 1].rowind
      · have hnr : es[it].rowind = (s.nextrow : Int) := by omega
        have hcnt : rowCnt es s.nextrow = it := by
          have p1 := (rowCnt_pos h0 hs (r := s.nextrow - 1) hit').mpr (by omega)
          have p2 := (rowCnt_pos h0 hs (r := s.nextrow) hhi).mpr hnr
          rw [show s.nextrow - 1 + 1 = s.nextrow by omega] at p1
          omega
        rw [if_pos hc, wr_eq (by omega), ok_bind, wr_eq (by omega), ok_bind]
        refine Ok.pure ⟨by simpa using i1, by simpa using i2, by simp [i3], ?_, ?_, ?_⟩
        · rw [Nat.add_sub_cancel, List.getElem?_eq_getElem hhi]
          simp [hnr]
        · intro r hr1
          simp only at hr1 ⊢
          by_cases hrr : r = s.nextrow
          · subst hrr; rw [get0_set_self (by omega), hcnt, i3]
          · rw [get0_set_ne (by omega)]; exact i5 r (by omega)
        · intro r hr1
          simp only at hr1 ⊢
          by_cases hrr : r = s.nextrow
          · subst hrr; rw [List.getElem?_set_self (by omega), hcnt]
          · rw [List.getElem?_set_ne (by omega)]; exact i6 r (by omega)
      · rw [if_neg hc, ok_bind]
        refine Ok.pure ⟨i1, i2, by simp [i3], ?_, i5, i6⟩
        rw [Nat.add_sub_cancel, List.getElem?_eq_getElem hhi]
        simp only [Option.map_some, Option.getD_some]
        omega)
  obtain ⟨i1, i2, -, i4, i5, i6⟩ := hI
  rw [List.getElem?_eq_getElem (by omega)] at i4
  simp only [Option.map_some, Option.getD_some] at i4
  have hnr : s.nextrow = n := by omega
  rw [hs1, ok_bind, cassert_true (by simp [hnr]), ok_bind, wr_eq (by omega), ok_bind, wr_eq (by omega), ok_bind]
  have hcn : rowCnt es n = es.length := rowCnt_all fun e he => (hr e he).2
  refine Ok.pure ⟨by simpa using i1, by simpa using i2, ?_, ?_⟩
  · intro r hrn
    simp only
    by_cases hrr : r = n
    · subst hrr; rw [get0_set_self (by omega), hcn]
    · rw [get0_set_ne (by omega)]; exact i5 r (by omega)
  · intro r hrn
    simp only
    by_cases hrr : r = n
    · subst hrr; rw [List.getElem?_set_self (by omega), hcn]
    · rw [List.getElem?_set_ne (by omega)]; exact i6 r (by omega)

/-- When a row is empty the assertion after the loop fails. -/
theorem rowScan_abort {es : List (Entry K)} {n : Nat} (hne : es ≠ []) (hr : ∀ e ∈ es, 0 ≤ e.rowind ∧ e.rowind < (n : Int))
    (hs : es.Pairwise fun a b => a.rowind ≤ b.rowind) (hex : ∃ r < n, ∀ e ∈ es, e.rowind ≠ (r : Int)) (g : Nat → Nat) :
    rowScan g es n = .error .abort := by
  have hlen : 0 < es.length := List.length_pos_iff.mpr hne
  let row : Nat → Int := fun t => (es[t]?.map Entry.rowind).getD 0
  have hrow : ∀ t (ht : t < es.length), row t = es[t].rowind := by
    intro t ht; simp [row, List.getElem?_eq_getElem ht]
  have hcard : ∀ it ≤ es.length, ((range it).image row).card + 1 ≤ n := by
    intro it hit
    obtain ⟨r, hr1, hr2⟩ := hex
    have hsub : (range it).image row ⊆ ((range n).erase r).image (fun x : Nat => (x : Int)) := by
      intro x hx
      obtain ⟨t, ht, rfl⟩ := mem_image.mp hx
      have ht' : t < es.length := by have := mem_range.mp ht; omega
      rw [hrow t ht']
      have hb := hr es[t] (List.getElem_mem ht')
      have hnr := hr2 es[t] (List.getElem_mem ht')
      refine mem_image.mpr ⟨es[t].rowind.toNat, ?_, by omega⟩
      rw [mem_erase, mem_range]
      constructor <;> omega
    have h1 := card_le_card hsub
    have h2 := card_image_le (s := (range n).erase r) (f := fun x : Nat => (x : Int))
    rw [card_erase_of_mem (mem_range.mpr hr1), card_range] at h2
    omega
  unfold rowScan rowScanB
  dsimp only [assertB]
  rw [wr_eq (by simp), ok_bind, wr_eq (by simp), ok_bind, if_neg hne]
  obtain ⟨s, hs1, hI⟩ := forRange_ok (body := fun it s => do
      let s ← rowScanNew es it s
      .ok { s with k := s.k + 1 })
    (s := { rowptr := (fresh (n + 1) g).set 0 0, rowits := (List.replicate (n + 1) none).set 0 (some 0), k := 1, nextrow := 1 })
    (fun it (s : RowScan) => s.rowptr.length = n + 1 ∧ s.rowits.length = n + 1 ∧
      s.nextrow = ((range it).image row).card)
    (lo := 1) (hi := es.length) hlen
    ⟨by simp, by simp, by simp⟩
    (by
      rintro it s hlo hhi ⟨i1, i2, i4⟩
      rw [rowScanNew_eq hhi hlo]
      have hit' : it - 1 < es.length := by omega
      have hc1 := hcard it (by omega)
      rw [range_add_one, image_insert]
      by_cases hc : es[it].rowind ≠ es[it - 1].rowind
      · rw [if_pos hc, wr_eq (by omega), ok_bind, wr_eq (by omega), ok_bind]
        have hmono := sorted_get hs (show it - 1 ≤ it by omega) hhi
        refine Ok.pure ⟨by simpa using i1, by simpa using i2, ?_⟩
        rw [card_insert_of_notMem, i4]
        intro hx
        obtain ⟨t, ht, hte⟩ := mem_image.mp hx
        have ht' := mem_range.mp ht
        rw [hrow t (by omega), hrow it hhi] at hte
        have := sorted_get hs (show t ≤ it - 1 by omega) hit'
        omega
      · rw [if_neg hc, ok_bind]
        refine Ok.pure ⟨i1, i2, ?_⟩
        rw [insert_eq_self.mpr, i4]
        rw [hrow it hhi]
        refine mem_image.mpr ⟨it - 1, mem_range.mpr (by omega), ?_⟩
        rw [hrow _ hit']
        exact (not_not.mp hc).symm)
  obtain ⟨-, -, i4⟩ := hI
  have := hcard es.length (Nat.le_refl _)
  rw [hs1, ok_bind]
  have hnn : ¬ s.nextrow = n := by omega
  simp [cassert, hnn]

/-- Sorting each row. -/
theorem sortRows_ok {srt : (Entry K → Int) → List (Entry K) → List (Entry K)} (hsrt : IsSort srt) {es : List (Entry K)}
    {n : Nat} (hr : ∀ e ∈ es, 0 ≤ e.rowind ∧ e.rowind < (n : Int))
    (hs : es.Pairwise fun a b => a.rowind ≤ b.rowind) {its : List (Option Nat)} (hl : its.length = n + 1)
    (hits : ∀ r ≤ n, its[r]? = some (some (rowCnt es r))) :
    Ok (forRange 0 n (sortRow srt its) es) (fun es' => es'.Perm es ∧ es'.Pairwise lexLe) := by
  have h0 : ∀ e ∈ es, 0 ≤ e.rowind := fun e he => (hr e he).1
  have hrd : ∀ r ≤ n, rd its r = .ok (some (rowCnt es r)) := by
    intro r hrn
    rw [rd_getElem (by omega)]
    have := hits r hrn
    rw [List.getElem?_eq_getElem (by omega)] at this
    rw [Option.some.inj this]
  obtain ⟨es', h1, P, h2, h3, h4⟩ := forRange_ok (body := sortRow srt its) (s := es)
    (fun t (es' : List (Entry K)) => ∃ P, es' = P ++ es.drop (rowCnt es t) ∧ P.Perm (es.take (rowCnt es t)) ∧ P.Pairwise lexLe)
    (Nat.zero_le n)
    ⟨[], by rw [rowCnt_zero h0]; simp, by rw [rowCnt_zero h0]; simp, List.Pairwise.nil⟩
    (by
      rintro t es' - ht ⟨P, rfl, hP, hPs⟩
      obtain ⟨lo, hlo⟩ : ∃ lo, rowCnt es t = lo := ⟨_, rfl⟩
      obtain ⟨hi, hhi⟩ : ∃ hi, rowCnt es (t + 1) = hi := ⟨_, rfl⟩
      have hlohi : lo ≤ hi := by rw [← hlo, ← hhi]; exact rowCnt_mono es (by omega)
      have hhil : hi ≤ es.length := by rw [← hhi]; exact rowCnt_le es _
      have hPl : P.length = lo := by rw [hP.length_eq, List.length_take, hlo]; omega
      rw [hlo] at hP ⊢
      unfold sortRow
      rw [hrd t (by omega), ok_bind, hrd (t + 1) (by omega), hlo, hhi]
      simp only [derefIt, ok_bind]
      rw [if_neg (by omega)]
      have a1 : (P ++ es.drop lo).take lo = P := by rw [List.take_append_of_le_length (by omega), List.take_of_length_le (by omega)]
      have a2 : ((P ++ es.drop lo).take hi).drop lo = (es.take hi).drop lo := by
        rw [List.take_append, List.drop_append, List.drop_of_length_le (by rw [List.length_take]; omega),
          List.take_of_length_le (by omega), hPl, Nat.sub_self, List.drop_zero, List.nil_append, List.take_drop,
          show lo + (hi - lo) = hi by omega]
      have a3 : (P ++ es.drop lo).drop hi = es.drop hi := by
        rw [List.drop_append, List.drop_of_length_le (by omega), List.nil_append, List.drop_drop, hPl,
          show lo + (hi - lo) = hi by omega]
      rw [a1, a2, a3]
      have hM : ∀ e ∈ (es.take hi).drop lo, e.rowind = (t : Int) := by
        intro e he
        obtain ⟨k, hk, rfl⟩ := List.getElem_of_mem he
        rw [List.length_drop, List.length_take] at hk
        rw [List.getElem_drop, List.getElem_take]
        exact (rowCnt_pos h0 hs (by omega)).mp (by rw [hlo, hhi]; omega)
      have hPr : ∀ e ∈ P, e.rowind < (t : Int) := by
        intro e he
        obtain ⟨k, hk, rfl⟩ := List.getElem_of_mem (hP.mem_iff.mp he)
        rw [List.length_take] at hk
        rw [List.getElem_take]
        have hb := h0 es[k] (List.getElem_mem _)
        by_contra hge
        have := rowCnt_mono es (show t ≤ es[k].rowind.toNat by omega)
        have := (rowCnt_pos h0 hs (r := es[k].rowind.toNat) (k := k) (by omega)).mpr (by omega)
        omega
      obtain ⟨s1, s2⟩ := hsrt Entry.colind ((es.take hi).drop lo)
      refine Ok.pure ⟨P ++ srt Entry.colind ((es.take hi).drop lo), by rw [List.append_assoc], ?_, ?_⟩
      · have : es.take hi = es.take lo ++ (es.take hi).drop lo := by
          have := (List.take_append_drop lo (es.take hi)).symm
          rwa [List.take_take, Nat.min_eq_left hlohi] at this
        rw [this]
        refine hP.append ?_
        rwa [← this]
      · refine List.pairwise_append.mpr ⟨hPs, ?_, ?_⟩
        · refine List.Pairwise.imp_of_mem ?_ s2
          intro a b ha hb hab
          have ha' := hM a (s1.mem_iff.mp ha)
          have hb' := hM b (s1.mem_iff.mp hb)
          exact .inr ⟨by omega, hab⟩
        · intro a ha b hb
          have hb' := hM b (s1.mem_iff.mp hb)
          have := hPr a ha
          exact .inl (by omega))
  have hcn : rowCnt es n = es.length := rowCnt_all fun e he => (hr e he).2
  rw [hcn, List.drop_length, List.append_nil] at h2
  rw [hcn, List.take_length] at h3
  subst h2
  exact ⟨_, h1, h3, h4⟩

end Blasted
