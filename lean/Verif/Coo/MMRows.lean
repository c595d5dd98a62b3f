import Verif.Coo.MMBad

/-!
# Which coordinate files are read, and as what (C85): lemmas

The rows found by the reader are the groups of entries with equal row numbers, whatever these numbers are.
-/

namespace Blasted
open Finset

variable {K : Type}

/-- The number of entries with a group number less than `r`. -/
def rkCnt (rk : Entry K → Nat) (es : List (Entry K)) (r : Nat) : Nat := es.countP fun e => decide (rk e < r)

theorem rkCnt_eq (rk : Entry K → Nat) (es : List (Entry K)) (r : Nat) : rkCnt rk es r = cntLt (es.map fun e => (rk e, 0)) r := by
  unfold cntLt rkCnt
  rw [List.countP_map]
  rfl

theorem rkCnt_pos {rk : Entry K → Nat} {es : List (Entry K)} (hs : es.Pairwise fun a b => rk a ≤ rk b) {r k : Nat} (hk : k < es.length) :
    (rkCnt rk es r ≤ k ∧ k < rkCnt rk es (r + 1)) ↔ rk es[k] = r := by
  rw [rkCnt_eq, rkCnt_eq, cntLt_pos (by rw [List.pairwise_map]; exact hs) (by rw [List.length_map]; exact hk), List.getElem_map]

theorem rkCnt_mono (rk : Entry K → Nat) (es : List (Entry K)) {r s : Nat} (h : r ≤ s) : rkCnt rk es r ≤ rkCnt rk es s :=
  List.countP_mono_left fun e _ he => by simp at he ⊢; omega

theorem rkCnt_le (rk : Entry K → Nat) (es : List (Entry K)) (r : Nat) : rkCnt rk es r ≤ es.length := List.countP_le_length

theorem rkCnt_zero (rk : Entry K → Nat) (es : List (Entry K)) : rkCnt rk es 0 = 0 := List.countP_eq_zero.mpr (by simp)

theorem rkCnt_all {rk : Entry K → Nat} {es : List (Entry K)} {n : Nat} (h : ∀ e ∈ es, rk e < n) : rkCnt rk es n = es.length :=
  List.countP_eq_length.mpr fun e he => by simpa using h e he

/-- The loop that finds the rows, up to entry `hi`, when the entries before it are in at most `n + 1` groups. -/
theorem scan_groups {rk : Entry K → Nat} {es : List (Entry K)} (hne : es ≠ []) (hs : es.Pairwise fun a b => rk a ≤ rk b)
    (hinj : ∀ a ∈ es, ∀ b ∈ es, rk a = rk b ↔ a.rowind = b.rowind) {d : Nat} (hd : ∀ e ∈ es, rk e < d) (hall : ∀ r < d, ∃ e ∈ es, rk e = r)
    {n hi : Nat} (h1 : 1 ≤ hi) (hhi : hi ≤ es.length) (hn : ∀ t (h : t < es.length), t < hi → rk es[t] ≤ n) (g : Nat → Nat) :
    Ok (forRange 1 hi (fun it s => do
      let s ← rowScanNew es it s
      .ok { s with k := s.k + 1 }) { rowptr := (fresh (n + 1) g).set 0 0, rowits := (List.replicate (n + 1) none).set 0 (some 0), k := 1, nextrow := 1 })
    fun s => s.rowptr.length = n + 1 ∧ s.rowits.length = n + 1 ∧ s.k = hi ∧ s.nextrow = rk (es[hi - 1]'(by omega)) + 1 ∧
      (∀ r < s.nextrow, s.rowptr⟦r⟧ = rkCnt rk es r) ∧ (∀ r < s.nextrow, s.rowits[r]? = some (some (rkCnt rk es r))) ∧
      ∀ r, s.nextrow ≤ r → r ≤ n → s.rowits[r]? = some none := by
  have hlen : 0 < es.length := List.length_pos_iff.mpr hne
  have sget : ∀ i j (hj : j < es.length) (h : i ≤ j), rk (es[i]'(by omega)) ≤ rk es[j] := by
    intro i j hj h
    rcases Nat.lt_or_eq_of_le h with h | rfl
    · exact List.pairwise_iff_getElem.mp hs i j (by omega) hj h
    · exact Nat.le_refl _
  have hfirst : rk es[0] = 0 := by
    obtain ⟨e, he, her⟩ := hall 0 (by have := hd es[0] (List.getElem_mem hlen); omega)
    obtain ⟨t, ht, rfl⟩ := List.getElem_of_mem he
    have := sget 0 t ht (Nat.zero_le t)
    omega
  have hstep : ∀ t, 1 ≤ t → (ht : t < es.length) → rk es[t] ≤ rk (es[t - 1]'(by omega)) + 1 := by
    intro t h1 ht
    by_contra hlt
    have hb := hd es[t] (List.getElem_mem ht)
    obtain ⟨e, he, her⟩ := hall (rk (es[t - 1]'(by omega)) + 1) (by omega)
    obtain ⟨q, hq, rfl⟩ := List.getElem_of_mem he
    by_cases hqt : q < t
    · have := sget q (t - 1) (by omega) (by omega)
      omega
    · have := sget t q hq (by omega)
      omega
  obtain ⟨s, hs1, hI⟩ := forRange_ok (body := fun it s => do
      let s ← rowScanNew es it s
      .ok { s with k := s.k + 1 })
    (s := { rowptr := (fresh (n + 1) g).set 0 0, rowits := (List.replicate (n + 1) none).set 0 (some 0), k := 1, nextrow := 1 })
    (fun it (s : RowScan) => s.rowptr.length = n + 1 ∧ s.rowits.length = n + 1 ∧ s.k = it ∧
      s.nextrow = (es[it - 1]?.map rk).getD 0 + 1 ∧
      (∀ r < s.nextrow, s.rowptr⟦r⟧ = rkCnt rk es r) ∧ (∀ r < s.nextrow, s.rowits[r]? = some (some (rkCnt rk es r))) ∧
      ∀ r, s.nextrow ≤ r → r ≤ n → s.rowits[r]? = some none)
    (lo := 1) (hi := hi) h1
    (by
      refine ⟨by simp, by simp, rfl, ?_, ?_, ?_, ?_⟩
      · rw [List.getElem?_eq_getElem hlen]; simp [hfirst]
      · intro r hr1
        obtain rfl : r = 0 := by simp at hr1; omega
        rw [get0_set_self (by simp), rkCnt_zero]
      · intro r hr1
        obtain rfl : r = 0 := by simp at hr1; omega
        simp [rkCnt_zero]
      · intro r hr1 hr2
        simp only at hr1
        rw [List.getElem?_set_ne (by omega), List.getElem?_replicate, if_pos (by omega)])
    (by
      rintro it s hlo hhi' ⟨i1, i2, i3, i4, i5, i6, i7⟩
      have hit : it < es.length := by omega
      rw [rowScanNew_eq hit hlo]
      have hit' : it - 1 < es.length := by omega
      rw [List.getElem?_eq_getElem hit'] at i4
      simp only [Option.map_some, Option.getD_some] at i4
      have hmono := sget (it - 1) it hit (by omega)
      have hst := hstep it hlo hit
      have hnb := hn it hit hhi'
      have hiff := hinj es[it] (List.getElem_mem hit) es[it - 1] (List.getElem_mem hit')
      by_cases hc : es[it].rowind ≠ es[it - 1].rowind
      · have hnr : rk es[it] = s.nextrow := by
          have : rk es[it] ≠ rk es[it - 1] := fun h => hc (hiff.1 h)
          omega
        have hcnt : rkCnt rk es s.nextrow = it := by
          have p1 := (rkCnt_pos hs (r := s.nextrow - 1) hit').mpr (by omega)
          have p2 := (rkCnt_pos hs (r := s.nextrow) hit).mpr hnr
          rw [show s.nextrow - 1 + 1 = s.nextrow by omega] at p1
          omega
        rw [if_pos hc, wr_eq (by omega), ok_bind, wr_eq (by omega), ok_bind]
        refine Ok.pure ⟨by simpa using i1, by simpa using i2, by simp [i3], ?_, ?_, ?_, ?_⟩
        · rw [Nat.add_sub_cancel, List.getElem?_eq_getElem hit]
          simp [hnr]
        · intro r hr1
          simp only at hr1 ⊢
          by_cases hrr : r = s.nextrow
          · subst hrr; rw [get0_set_self (by omega), hcnt, i3]
          · rw [get0_set_ne (by omega)]; exact i5 r (by omega)
        · intro r hr1
          simp only at hr1 ⊢
          by_cases hrr : r = s.nextrow
          · subst hrr; rw [List.getElem?_set_self (by omega), hcnt]
          · rw [List.getElem?_set_ne (by omega)]; exact i6 r (by omega)
        · intro r hr1 hr2
          simp only at hr1 ⊢
          rw [List.getElem?_set_ne (by omega)]
          exact i7 r (by omega) hr2
      · rw [if_neg hc, ok_bind]
        refine Ok.pure ⟨i1, i2, by simp [i3], ?_, i5, i6, i7⟩
        rw [Nat.add_sub_cancel, List.getElem?_eq_getElem hit]
        simp only [Option.map_some, Option.getD_some]
        rw [hiff.2 (not_not.mp hc)]
        exact i4)
  obtain ⟨i1, i2, i3, i4, i5, i6, i7⟩ := hI
  rw [List.getElem?_eq_getElem (by omega)] at i4
  exact ⟨s, hs1, i1, i2, i3, i4, i5, i6, i7⟩

/-- Sorting each group. -/
theorem sortGroups_ok {srt : (Entry K → Int) → List (Entry K) → List (Entry K)} (hsrt : IsSort srt) {rk : Entry K → Nat} {es : List (Entry K)}
    {n : Nat} (hr : ∀ e ∈ es, rk e < n) (hs : es.Pairwise fun a b => rk a ≤ rk b) {its : List (Option Nat)} (hl : its.length = n + 1)
    (hits : ∀ r ≤ n, its[r]? = some (some (rkCnt rk es r))) :
    Ok (forRange 0 n (sortRow srt its) es) (fun es' => es'.Perm es ∧ es'.Pairwise fun a b => rk a < rk b ∨ (rk a = rk b ∧ a.colind ≤ b.colind)) := by
  have hrd : ∀ r ≤ n, rd its r = .ok (some (rkCnt rk es r)) := by
    intro r hrn
    rw [rd_getElem (by omega)]
    have := hits r hrn
    rw [List.getElem?_eq_getElem (by omega)] at this
    rw [Option.some.inj this]
  obtain ⟨es', h1, P, h2, h3, h4⟩ := forRange_ok (body := sortRow srt its) (s := es)
    (fun t (es' : List (Entry K)) => ∃ P, es' = P ++ es.drop (rkCnt rk es t) ∧ P.Perm (es.take (rkCnt rk es t)) ∧
      P.Pairwise fun a b => rk a < rk b ∨ (rk a = rk b ∧ a.colind ≤ b.colind))
    (Nat.zero_le n)
    ⟨[], by rw [rkCnt_zero]; simp, by rw [rkCnt_zero]; simp, List.Pairwise.nil⟩
    (by
      rintro t es' - ht ⟨P, rfl, hP, hPs⟩
      obtain ⟨lo, hlo⟩ : ∃ lo, rkCnt rk es t = lo := ⟨_, rfl⟩
      obtain ⟨hi, hhi⟩ : ∃ hi, rkCnt rk es (t + 1) = hi := ⟨_, rfl⟩
      have hlohi : lo ≤ hi := by rw [← hlo, ← hhi]; exact rkCnt_mono rk es (by omega)
      have hhil : hi ≤ es.length := by rw [← hhi]; exact rkCnt_le rk es _
      have hPl : P.length = lo := by rw [hP.length_eq, List.length_take, hlo]; omega
      rw [hlo] at hP ⊢
      unfold sortRow
      rw [hrd t (by omega), ok_bind, hrd (t + 1) (by omega), hlo, hhi]
      simp only [derefIt, ok_bind]
      rw [if_neg (by omega)]
      have a1 : (P ++ es.drop lo).take lo = P := by rw [List.take_append_of_le_length (by omega), List.take_of_length_le (by omega)]
      have a2 : ((P ++ es.drop lo).take hi).drop lo = (es.take hi).drop lo := by
        rw [List.take_append, List.drop_append, List.drop_of_length_le (by rw [List.length_take]; omega),
          List.take_of_length_le (by omega), hPl, Nat.sub_self, List.drop_zero, List.nil_append, List.take_drop,
          show lo + (hi - lo) = hi by omega]
      have a3 : (P ++ es.drop lo).drop hi = es.drop hi := by
        rw [List.drop_append, List.drop_of_length_le (by omega), List.nil_append, List.drop_drop, hPl,
          show lo + (hi - lo) = hi by omega]
      rw [a1, a2, a3]
      have hM : ∀ e ∈ (es.take hi).drop lo, rk e = t := by
        intro e he
        obtain ⟨k, hk, rfl⟩ := List.getElem_of_mem he
        rw [List.length_drop, List.length_take] at hk
        rw [List.getElem_drop, List.getElem_take]
        exact (rkCnt_pos hs (by omega)).mp (by rw [hlo, hhi]; omega)
      have hPr : ∀ e ∈ P, rk e < t := by
        intro e he
        obtain ⟨k, hk, rfl⟩ := List.getElem_of_mem (hP.mem_iff.mp he)
        rw [List.length_take] at hk
        rw [List.getElem_take]
        by_contra hge
        have := rkCnt_mono rk es (show t ≤ rk es[k] by omega)
        have := (rkCnt_pos hs (r := rk es[k]) (k := k) (by omega)).mpr rfl
        omega
      obtain ⟨s1, s2⟩ := hsrt Entry.colind ((es.take hi).drop lo)
      refine Ok.pure ⟨P ++ srt Entry.colind ((es.take hi).drop lo), by rw [List.append_assoc], ?_, ?_⟩
      · have : es.take hi = es.take lo ++ (es.take hi).drop lo := by
          have := (List.take_append_drop lo (es.take hi)).symm
          rwa [List.take_take, Nat.min_eq_left hlohi] at this
        rw [this]
        refine hP.append ?_
        rwa [← this]
      · refine List.pairwise_append.mpr ⟨hPs, ?_, ?_⟩
        · refine List.Pairwise.imp_of_mem ?_ s2
          intro a b ha hb hab
          have ha' := hM a (s1.mem_iff.mp ha)
          have hb' := hM b (s1.mem_iff.mp hb)
          exact .inr ⟨by omega, hab⟩
        · intro a ha b hb
          have hb' := hM b (s1.mem_iff.mp hb)
          have := hPr a ha
          exact .inl (by omega))
  have hcn : rkCnt rk es n = es.length := rkCnt_all hr
  rw [hcn, List.drop_length, List.append_nil] at h2
  rw [hcn, List.take_length] at h3
  subst h2
  exact ⟨_, h1, h3, h4⟩

/-- What follows the sorting by rows, depending on the number `d` of groups. -/
theorem scanAndSort {srt : (Entry K → Int) → List (Entry K) → List (Entry K)} (hsrt : IsSort srt) {rk : Entry K → Nat} {es : List (Entry K)}
    (hne : es ≠ []) (hs : es.Pairwise fun a b => rk a ≤ rk b)
    (hinj : ∀ a ∈ es, ∀ b ∈ es, rk a = rk b ↔ a.rowind = b.rowind) {d : Nat} (hd : ∀ e ∈ es, rk e < d) (hall : ∀ r < d, ∃ e ∈ es, rk e = r)
    (dbg : Bool) (n : Nat) (g : Nat → Nat) :
    (n + 2 ≤ d → rowScanB dbg g es n = .error .ub) ∧
    (d ≠ n → d ≤ n + 1 → rowScanB true g es n = .error .abort) ∧
    (0 < n → (d = n ∨ dbg = false ∧ d = n + 1) → ∃ sc es', rowScanB dbg g es n = .ok sc ∧ forRange 0 n (sortRow srt sc.rowits) es = .ok es' ∧ es'.Perm es ∧
      (es'.Pairwise fun a b => min (rk a) (n - 1) < min (rk b) (n - 1) ∨ (min (rk a) (n - 1) = min (rk b) (n - 1) ∧ a.colind ≤ b.colind)) ∧
      sc.rowptr.length = n + 1 ∧ ∀ r ≤ n, sc.rowptr⟦r⟧ = es.countP fun e => decide (min (rk e) (n - 1) < r)) ∧
    (n = 0 → d = 1 → ∃ sc, rowScanB false g es n = .ok sc ∧ sc.rowptr = [es.length]) ∧
    (d < n → ∃ sc, rowScanB false g es n = .ok sc ∧ forRange 0 n (sortRow srt sc.rowits) es = .error .ub) := by
  have hlen : 0 < es.length := List.length_pos_iff.mpr hne
  have hd0 : 0 < d := by have := hd es[0] (List.getElem_mem hlen); omega
  have sget : ∀ i j (hj : j < es.length) (h : i ≤ j), rk (es[i]'(by omega)) ≤ rk es[j] := by
    intro i j hj h
    rcases Nat.lt_or_eq_of_le h with h | rfl
    · exact List.pairwise_iff_getElem.mp hs i j (by omega) hj h
    · exact Nat.le_refl _
  have hlast : rk (es[es.length - 1]'(by omega)) + 1 = d := by
    obtain ⟨e, he, her⟩ := hall (d - 1) (by omega)
    obtain ⟨q, hq, rfl⟩ := List.getElem_of_mem he
    have := sget q (es.length - 1) (by omega) (by omega)
    have := hd es[es.length - 1] (List.getElem_mem _)
    omega
  -- what is known of the state after the loop
  have hloop := fun hdn : d ≤ n + 1 => scan_groups hne hs hinj hd hall (n := n) (hi := es.length) hlen (Nat.le_refl _)
    (fun t ht _ => by have := hd es[t] (List.getElem_mem ht); omega) g
  have hstart : ∀ dbg, rowScanB dbg g es n = (do
      let s ← forRange 1 es.length (fun it s => do
        let s ← rowScanNew es it s
        .ok { s with k := s.k + 1 }) { rowptr := (fresh (n + 1) g).set 0 0, rowits := (List.replicate (n + 1) none).set 0 (some 0), k := 1, nextrow := 1 }
      assertB dbg (decide (s.nextrow = n))
      let rowits ← wr s.rowits n (some es.length)
      let rowptr ← wr s.rowptr n es.length
      .ok { s with rowits := rowits, rowptr := rowptr }) := by
    intro dbg
    unfold rowScanB
    rw [wr_eq (by simp), ok_bind, wr_eq (by simp), ok_bind, if_neg hne]
  refine ⟨fun hdn => ?_, fun h1 h2 => ?_, fun h0 hdn => ?_, fun h0 h1 => ?_, fun hdn => ?_⟩
  · -- too many groups
    obtain ⟨it, hit⟩ : ∃ it, rkCnt rk es (n + 1) = it := ⟨_, rfl⟩
    obtain ⟨e, he, her⟩ := hall (n + 1) (by omega)
    obtain ⟨q, hq, rfl⟩ := List.getElem_of_mem he
    have hq1 := (rkCnt_pos hs hq).mpr her
    have hitl : it < es.length := by omega
    have hit1 : 1 ≤ it := by
      obtain ⟨e, he, her⟩ := hall 0 (by omega)
      have : 0 < rkCnt rk es (n + 1) := List.countP_pos_iff.mpr ⟨e, he, by simp [her]⟩
      omega
    have hrk_it : rk es[it] = n + 1 := (rkCnt_pos hs hitl).mp ⟨by omega, by omega⟩
    have hlow : ∀ t (h : t < es.length), t < it → rk es[t] ≤ n := by
      intro t h1 h2
      by_contra hc
      have := (rkCnt_pos hs (r := rk es[t]) h1).mpr rfl
      have := rkCnt_mono rk es (show n + 1 ≤ rk es[t] by omega)
      omega
    have hprev : rk (es[it - 1]'(by omega)) = n := by
      have h1 := hlow (it - 1) (by omega) (by omega)
      obtain ⟨e, he, her⟩ := hall n (by omega)
      obtain ⟨p, hp, rfl⟩ := List.getElem_of_mem he
      have hpp := (rkCnt_pos hs hp).mpr her
      have := sget p (it - 1) (by omega) (by omega)
      omega
    obtain ⟨s, e1, i1, i2, i3, i4, -⟩ := scan_groups hne hs hinj hd hall (n := n) (hi := it) hit1 (by omega) hlow g
    rw [hstart, forRange_split hit1 (Nat.le_of_lt hitl), e1, ok_bind, forRange_split (mid := it + 1) (by omega) (by omega),
      forRange_succ_right (Nat.le_refl _), forRange_self, ok_bind]
    have hbad : rowScanNew es it s = .error .ub := by
      rw [rowScanNew_eq hitl hit1, if_pos, wr_ub (by omega), error_bind]
      intro hc
      have := (hinj es[it] (List.getElem_mem _) es[it - 1] (List.getElem_mem _)).2 hc
      omega
    rw [hbad]
    rfl
  · obtain ⟨s, e1, i1, i2, i3, i4, -⟩ := hloop h2
    rw [hstart, e1, ok_bind]
    have : s.nextrow ≠ n := by omega
    simp [assertB, cassert, this]
  · obtain ⟨s, e1, i1, i2, i3, i4, i5, i6, i7⟩ := hloop (by omega)
    have hass : assertB dbg (decide (s.nextrow = n)) = .ok () := by
      rcases hdn with h | ⟨h, -⟩
      · have : s.nextrow = n := by omega
        cases dbg <;> simp [assertB, cassert, this]
      · subst h; rfl
    have hcn : ∀ r, r < n → rkCnt rk es r = es.countP fun e => decide (min (rk e) (n - 1) < r) := by
      intro r hr
      refine List.countP_congr fun e he => ?_
      simp only [decide_eq_true_eq]
      omega
    have hcN : es.countP (fun e => decide (min (rk e) (n - 1) < n)) = es.length :=
      List.countP_eq_length.mpr fun e he => by simp only [decide_eq_true_eq]; omega
    have hrs : rowScanB dbg g es n = .ok { s with rowits := s.rowits.set n (some es.length), rowptr := s.rowptr.set n es.length } := by
      rw [hstart, e1, ok_bind, hass, ok_bind, wr_eq (by omega), ok_bind, wr_eq (by omega), ok_bind]
    obtain ⟨es', t1, t2, t3⟩ := sortGroups_ok hsrt (rk := fun e => min (rk e) (n - 1)) (es := es) (n := n)
      (its := s.rowits.set n (some es.length)) (fun e _ => by omega) (hs.imp fun {a b} h => by omega) (by simpa using i2)
      (by
        intro r hr
        by_cases hrn : r = n
        · subst hrn
          rw [List.getElem?_set_self (by omega)]
          unfold rkCnt
          rw [hcN]
        · rw [List.getElem?_set_ne (by omega), i6 r (by omega), hcn r (by omega)]
          rfl)
    refine ⟨_, es', hrs, t1, t2, t3, by simpa using i1, fun r hr => ?_⟩
    dsimp only
    by_cases hrn : r = n
    · subst hrn
      rw [get0_set_self (by omega), hcN]
    · rw [get0_set_ne (by omega), i5 r (by omega), hcn r (by omega)]
  · subst h0
    obtain ⟨s, e1, i1, i2, -⟩ := hloop (by omega)
    refine ⟨{ s with rowits := s.rowits.set 0 (some es.length), rowptr := s.rowptr.set 0 es.length }, ?_, ?_⟩
    · rw [hstart, e1, ok_bind]
      dsimp only [assertB]
      rw [ok_bind, wr_eq (by omega), ok_bind, wr_eq (by omega), ok_bind]
    · dsimp only
      match hp : s.rowptr, i1 with
      | [x], _ => rfl
  · obtain ⟨s, e1, i1, i2, i3, i4, i5, i6, i7⟩ := hloop (by omega)
    have hnr : s.nextrow = d := by omega
    refine ⟨{ s with rowits := s.rowits.set n (some es.length), rowptr := s.rowptr.set n es.length }, ?_, ?_⟩
    · rw [hstart, e1, ok_bind]
      dsimp only [assertB]
      rw [ok_bind, wr_eq (by omega), ok_bind, wr_eq (by omega), ok_bind]
    · dsimp only
      have hrd : ∀ r < d, rd (s.rowits.set n (some es.length)) r = .ok (some (rkCnt rk es r)) := by
        intro r hr
        unfold rd
        rw [List.getElem?_set_ne (by omega), i6 r (by omega)]
      have hrdn : rd (s.rowits.set n (some es.length)) d = .ok none := by
        unfold rd
        rw [List.getElem?_set_ne (by omega), i7 d (by omega) (by omega)]
      obtain ⟨es', t1, -⟩ := forRange_ok (body := sortRow srt (s.rowits.set n (some es.length))) (s := es) (fun _ _ => True) (lo := 0) (hi := d - 1)
        (Nat.zero_le _) trivial (by
          rintro t es' - ht -
          unfold sortRow
          rw [hrd t (by omega), ok_bind, hrd (t + 1) (by omega)]
          simp only [derefIt, ok_bind]
          rw [if_neg (by have := rkCnt_mono rk es (show t ≤ t + 1 by omega); omega)]
          exact Ok.pure trivial)
      rw [forRange_split (mid := d - 1) (by omega) (by omega), t1, ok_bind, forRange_split (mid := d) (by omega) (by omega)]
      have : forRange (d - 1) d (sortRow srt (s.rowits.set n (some es.length))) es' = .error .ub := by
        obtain ⟨c, rfl⟩ : ∃ c, d = c + 1 := ⟨d - 1, by omega⟩
        rw [Nat.add_sub_cancel, forRange_succ_right (Nat.le_refl _), forRange_self, ok_bind]
        unfold sortRow
        rw [hrd c (by omega), ok_bind, hrdn]
        rfl
      rw [this, error_bind]

end Blasted
