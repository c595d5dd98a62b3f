import Verif.Coo.Lemmas

/-!
# Lemmas for the conversion to block sparse rows
-/

namespace Blasted
open Finset

variable {K : Type}

/-! ### Lists of blocks ordered by block-row -/

/-- Number of blocks in block-rows before `I`. -/
def cntLt (bl : List (Nat × Nat)) (I : Nat) : Nat := bl.countP fun q => q.1 < I

theorem split_rows {bl : List (Nat × Nat)} (hs : bl.Pairwise fun a b => a.1 ≤ b.1) (I : Nat) :
    ∃ L M R, bl = L ++ (M ++ R) ∧ (∀ a ∈ L, a.1 < I) ∧ (∀ a ∈ M, a.1 = I) ∧ (∀ a ∈ R, I < a.1) := by
  induction bl with
  | nil => exact ⟨[], [], [], rfl, by simp, by simp, by simp⟩
  | cons q bl ih =>
    rw [List.pairwise_cons] at hs
    obtain ⟨L, M, R, h, hL, hM, hR⟩ := ih hs.2
    rcases Nat.lt_trichotomy q.1 I with hq | hq | hq
    · refine ⟨q :: L, M, R, by simp [h], ?_, hM, hR⟩
      simpa [hq] using hL
    · have hL0 : L = [] := by
        cases L with
        | nil => rfl
        | cons a L =>
          have := hs.1 a (by simp [h])
          have := hL a (by simp)
          omega
      subst hL0
      refine ⟨[], q :: M, R, by simpa using h, by simp, ?_, hR⟩
      simpa [hq] using hM
    · have hL0 : L = [] := by
        cases L with
        | nil => rfl
        | cons a L =>
          have := hs.1 a (by simp [h])
          have := hL a (by simp)
          omega
      have hM0 : M = [] := by
        cases M with
        | nil => rfl
        | cons a M =>
          have := hs.1 a (by simp [h])
          have := hM a (by simp)
          omega
      subst hL0 hM0
      refine ⟨[], [], q :: R, by simpa using h, by simp, by simp, ?_⟩
      simpa [hq] using hR

theorem cntLt_split {L M R : List (Nat × Nat)} {I : Nat} (hL : ∀ a ∈ L, a.1 < I) (hM : ∀ a ∈ M, a.1 = I)
    (hR : ∀ a ∈ R, I < a.1) :
    cntLt (L ++ (M ++ R)) I = L.length ∧ cntLt (L ++ (M ++ R)) (I + 1) = L.length + M.length := by
  unfold cntLt
  rw [List.countP_append, List.countP_append, List.countP_append, List.countP_append]
  have a1 : L.countP (fun q => decide (q.1 < I)) = L.length := List.countP_eq_length.mpr (by simpa using hL)
  have a2 : M.countP (fun q => decide (q.1 < I)) = 0 := List.countP_eq_zero.mpr (fun q hq => by simp [hM q hq])
  have a3 : R.countP (fun q => decide (q.1 < I)) = 0 :=
    List.countP_eq_zero.mpr (fun q hq => by have := hR q hq; simp; omega)
  have b1 : L.countP (fun q => decide (q.1 < I + 1)) = L.length :=
    List.countP_eq_length.mpr (fun q hq => by have := hL q hq; simp; omega)
  have b2 : M.countP (fun q => decide (q.1 < I + 1)) = M.length :=
    List.countP_eq_length.mpr (fun q hq => by simp [hM q hq])
  have b3 : R.countP (fun q => decide (q.1 < I + 1)) = 0 :=
    List.countP_eq_zero.mpr (fun q hq => by have := hR q hq; simp; omega)
  omega

theorem cntLt_mono (bl : List (Nat × Nat)) {I J : Nat} (h : I ≤ J) : cntLt bl I ≤ cntLt bl J := by
  unfold cntLt
  exact List.countP_mono_left fun q _ hq => by simp at hq ⊢; omega

theorem cntLt_le (bl : List (Nat × Nat)) (I : Nat) : cntLt bl I ≤ bl.length := List.countP_le_length

theorem cntLt_all {bl : List (Nat × Nat)} {n : Nat} (h : ∀ q ∈ bl, q.1 < n) : cntLt bl n = bl.length :=
  List.countP_eq_length.mpr (by simpa using h)

theorem cntLt_zero (bl : List (Nat × Nat)) : cntLt bl 0 = 0 := List.countP_eq_zero.mpr (by simp)

/-- Positions of block-row `I`. -/
theorem cntLt_pos {bl : List (Nat × Nat)} (hs : bl.Pairwise fun a b => a.1 ≤ b.1) {I k : Nat} (hk : k < bl.length) :
    (cntLt bl I ≤ k ∧ k < cntLt bl (I + 1)) ↔ bl[k].1 = I := by
  obtain ⟨L, M, R, h, hL, hM, hR⟩ := split_rows hs I
  subst h
  obtain ⟨e1, e2⟩ := cntLt_split hL hM hR
  rw [e1, e2]
  simp only [List.getElem_append]
  split
  · rename_i hl
    have := hL _ (List.getElem_mem hl)
    constructor
    · intro h; omega
    · intro h; omega
  · rename_i hl
    split
    · rename_i hm
      have := hM _ (List.getElem_mem hm)
      constructor
      · intro _; exact this
      · intro _; omega
    · rename_i hm
      have hlen : k - L.length - M.length < R.length := by
        simp only [List.length_append] at hk; omega
      have := hR _ (List.getElem_mem hlen)
      constructor
      · intro h; omega
      · intro h; omega

theorem idxOf_map_snd {M : List (Nat × Nat)} {I : Nat} (hM : ∀ a ∈ M, a.1 = I) (c : Nat) :
    (M.map Prod.snd).idxOf c = M.idxOf (I, c) := by
  induction M with
  | nil => rfl
  | cons q M ih =>
    obtain ⟨q1, q2⟩ := q
    have hq : q1 = I := hM (q1, q2) (by simp)
    subst hq
    rw [List.map_cons, List.idxOf_cons, List.idxOf_cons, ih (fun a ha => hM a (by simp [ha]))]
    have : ((q1, q2) == (q1, c)) = (q2 == c) := by
      by_cases h : q2 = c <;> simp [h]
    rw [this]

/-- Searching a block-row for a block column. -/
theorem findFrom_eq {bl : List (Nat × Nat)} (hs : bl.Pairwise fun a b => a.1 ≤ b.1) (I c : Nat) :
    findFrom (bl.map Prod.snd) (cntLt bl I) (cntLt bl (I + 1)) c =
      if (I, c) ∈ bl then bl.idxOf (I, c) else cntLt bl (I + 1) := by
  obtain ⟨L, M, R, h, hL, hM, hR⟩ := split_rows hs I
  subst h
  obtain ⟨e1, e2⟩ := cntLt_split hL hM hR
  have hnL : (I, c) ∉ L := fun h => by have := hL _ h; simp at this
  have hnR : (I, c) ∉ R := fun h => by have := hR _ h; simp at this
  unfold findFrom
  rw [e1, e2]
  have e3 : ((((L ++ (M ++ R)).map Prod.snd).take (L.length + M.length)).drop L.length) = M.map Prod.snd := by
    rw [← List.append_assoc, List.map_append, List.take_left' (by simp), List.map_append, List.drop_left' (by simp)]
  rw [e3, idxOf_map_snd hM]
  by_cases hm : (I, c) ∈ M
  · rw [if_pos (by simp [hm]), List.idxOf_append_of_notMem hnL, List.idxOf_append_of_mem hm]
  · rw [if_neg (by simp [hnL, hm, hnR]), List.idxOf_eq_length hm]

/-! ### First pass -/

/-- What the first pass has established after the first `p` entries; `key t` is the block of entry `t`, `bl` are the
blocks found so far. -/
structure PassInv (nb : Nat) (key : Nat → Nat × Nat) (p : Nat) (s : BsrPass) (bl : List (Nat × Nat)) : Prop where
  bcol : s.bcolidxs = bl.map Prod.snd
  bnnz : s.bnnz = bl.length
  nodup : bl.Nodup
  mem : ∀ q, q ∈ bl ↔ ∃ t < p, key t = q
  sorted : bl.Pairwise fun a b => a.1 ≤ b.1
  first : bl.Pairwise fun a b => ∃ t < p, key t = a ∧ ∀ u ≤ t, key u ≠ b
  ptr_len : s.browptr.length = nb + 1
  tally_len : s.tally.length = nb
  diag_len : s.diagind.length = nb
  tally : ∀ (I : Nat) (h : I < s.tally.length), s.tally[I] = true ↔ ∃ t < p, (key t).1 = I
  ptr : ∀ I < nb, (∃ t < p, (key t).1 = I) → s.browptr⟦I⟧ = cntLt bl I
  ptr0 : ∀ I < nb, (¬ ∃ t < p, (key t).1 = I) → s.browptr⟦I⟧ = 0
  diag : ∀ I < nb, s.diagind⟦I⟧ = if (I, I) ∈ bl then (bl.idxOf (I, I) : Int) else -1

/-- After the tally lines the block-row of the entry has its row pointer. -/
theorem bsrTally_ok {nb : Nat} {key : Nat → Nat × Nat} {p : Nat} {s : BsrPass} {bl : List (Nat × Nat)}
    (h : PassInv nb key p s bl) (hI : (key p).1 < nb) (hord : ∀ t < p, (key t).1 ≤ (key p).1) :
    Ok (bsrTally (key p).1 s) (fun s' => s'.bcolidxs = s.bcolidxs ∧ s'.bnnz = s.bnnz ∧ s'.diagind = s.diagind ∧
      s'.browptr.length = nb + 1 ∧ s'.tally.length = nb ∧
      (∀ (I : Nat) (h : I < s'.tally.length), s'.tally[I] = true ↔ ∃ t < p + 1, (key t).1 = I) ∧
      (∀ I < nb, (∃ t < p + 1, (key t).1 = I) → s'.browptr⟦I⟧ = cntLt bl I) ∧
      (∀ I < nb, (¬ ∃ t < p + 1, (key t).1 = I) → s'.browptr⟦I⟧ = 0)) := by
  have hall : ∀ q ∈ bl, q.1 ≤ (key p).1 := by
    intro q hq
    obtain ⟨t, ht, rfl⟩ := (h.mem q).mp hq
    exact hord t ht
  have hT : (key p).1 < s.tally.length := by rw [h.tally_len]; exact hI
  unfold bsrTally
  rw [rd_getElem hT, ok_bind]
  by_cases ht : s.tally[(key p).1] = true
  · rw [if_pos ht]
    have hex := (h.tally _ hT).mp ht
    have hiff : ∀ I, (∃ t < p + 1, (key t).1 = I) ↔ ∃ t < p, (key t).1 = I := by
      intro I
      constructor
      · rintro ⟨t, ht, rfl⟩
        rcases Nat.lt_or_ge t p with hlt | hge
        · exact ⟨t, hlt, rfl⟩
        · have : t = p := by omega
          subst this; exact hex
      · rintro ⟨t, ht, rfl⟩; exact ⟨t, by omega, rfl⟩
    refine Ok.pure ⟨rfl, rfl, rfl, h.ptr_len, h.tally_len, fun I hI' => ?_, fun I hI' he => ?_, fun I hI' he => ?_⟩
    · rw [hiff]; exact h.tally I hI'
    · exact h.ptr I hI' ((hiff I).mp he)
    · exact h.ptr0 I hI' (fun h' => he ((hiff I).mpr h'))
  · rw [if_neg ht, wr_eq (by rw [h.ptr_len]; omega), ok_bind, wr_eq hT, ok_bind]
    have hnex : ¬ ∃ t < p, (key t).1 = (key p).1 := fun hh => ht ((h.tally _ hT).mpr hh)
    have hlt : ∀ q ∈ bl, q.1 < (key p).1 := by
      intro q hq
      obtain ⟨t, ht', rfl⟩ := (h.mem q).mp hq
      have := hord t ht'
      rcases Nat.lt_or_ge (key t).1 (key p).1 with h1 | h1
      · exact h1
      · exact absurd ⟨t, ht', by omega⟩ hnex
    have hiff : ∀ I, I ≠ (key p).1 → ((∃ t < p + 1, (key t).1 = I) ↔ ∃ t < p, (key t).1 = I) := by
      intro I hne
      constructor
      · rintro ⟨t, ht, rfl⟩
        rcases Nat.lt_or_ge t p with hlt | hge
        · exact ⟨t, hlt, rfl⟩
        · have : t = p := by omega
          subst this; exact absurd rfl hne
      · rintro ⟨t, ht, rfl⟩; exact ⟨t, by omega, rfl⟩
    refine Ok.pure ⟨rfl, rfl, rfl, by simp [h.ptr_len], by simp [h.tally_len], fun I hI' => ?_, fun I hI' he => ?_,
      fun I hI' he => ?_⟩
    · simp only [List.getElem_set]
      by_cases hh : (key p).1 = I
      · rw [if_pos hh]; simp only [true_iff]; exact ⟨p, by omega, hh⟩
      · rw [if_neg hh, hiff I (Ne.symm hh)]
        exact h.tally I (by simpa using hI')
    · show (s.browptr.set _ _)⟦I⟧ = _
      by_cases hh : (key p).1 = I
      · subst hh
        rw [get0_set_self (by rw [h.ptr_len]; omega), h.bnnz, cntLt_all hlt]
      · rw [get0_set_ne hh]
        exact h.ptr I hI' ((hiff I (Ne.symm hh)).mp he)
    · show (s.browptr.set _ _)⟦I⟧ = _
      by_cases hh : (key p).1 = I
      · exact absurd ⟨p, by omega, hh⟩ he
      · rw [get0_set_ne hh]
        exact h.ptr0 I hI' (fun h' => he ((hiff I (Ne.symm hh)).mpr h'))

theorem cntLt_append_one (bl : List (Nat × Nat)) (q : Nat × Nat) {I : Nat} (h : I ≤ q.1) :
    cntLt (bl ++ [q]) I = cntLt bl I := by
  unfold cntLt
  rw [List.countP_append]
  simp; omega

theorem bsrCount_step {nb : Nat} {key : Nat → Nat × Nat} {p : Nat} {s : BsrPass} {bl : List (Nat × Nat)}
    (h : PassInv nb key p s bl) (hI : (key p).1 < nb) (hord : ∀ t < p, (key t).1 ≤ (key p).1) :
    Ok (bsrTally (key p).1 s >>= bsrAddBlock (key p).1 (key p).2)
      (fun s' => ∃ bl', PassInv nb key (p + 1) s' bl') := by
  have hall : ∀ q ∈ bl, q.1 < (key p).1 + 1 := by
    intro q hq
    obtain ⟨t, ht, rfl⟩ := (h.mem q).mp hq
    have := hord t ht
    omega
  refine (bsrTally_ok h hI hord).bind ?_
  rintro s' ⟨g1, g2, g3, g4, g5, g6, g7, g8⟩
  have hptr := g7 _ hI ⟨p, by omega, rfl⟩
  have hlen : s'.bcolidxs.length = bl.length := by rw [g1, h.bcol, List.length_map]
  have hcnt : cntLt bl ((key p).1 + 1) = bl.length := cntLt_all hall
  have hfind := findFrom_eq h.sorted (key p).1 (key p).2
  rw [hcnt] at hfind
  unfold bsrAddBlock
  rw [rd_eq (by rw [g4]; omega), ok_bind, hptr, if_neg (by rw [hlen]; exact Nat.not_lt.mpr (cntLt_le _ _)), hlen, g1,
    h.bcol, hfind]
  by_cases hm : ((key p).1, (key p).2) ∈ bl
  · rw [if_pos hm, if_neg (by have := List.idxOf_lt_length_of_mem hm; omega)]
    refine Ok.pure ⟨bl, ⟨g1.trans h.bcol, g2.trans h.bnnz, h.nodup, fun q => ?_, h.sorted,
      h.first.imp fun ⟨t, ht, h1, h2⟩ => ⟨t, by omega, h1, h2⟩, g4, g5,
      by rw [g3]; exact h.diag_len, g6, g7, g8, by rw [g3]; exact h.diag⟩⟩
    rw [h.mem]
    constructor
    · rintro ⟨t, ht, rfl⟩; exact ⟨t, by omega, rfl⟩
    · rintro ⟨t, ht, rfl⟩
      rcases Nat.lt_or_ge t p with hlt | hge
      · exact ⟨t, hlt, rfl⟩
      · have : t = p := by omega
        subst this
        exact (h.mem _).mp hm
  · rw [if_neg hm, if_pos rfl]
    have hd : Ok (if (key p).2 = (key p).1 then wr s'.diagind (key p).1 (s'.bnnz : Int) else .ok s'.diagind : C (List Int))
        (fun d => d.length = nb ∧ ∀ I < nb, d⟦I⟧ = if (I, I) ∈ bl ++ [key p] then
          ((bl ++ [key p]).idxOf (I, I) : Int) else -1) := by
      by_cases hd : (key p).2 = (key p).1
      · rw [if_pos hd, wr_eq (by rw [g3, h.diag_len]; exact hI)]
        have hkp : key p = ((key p).1, (key p).1) := Prod.ext rfl hd
        refine Ok.pure ⟨by simp [g3, h.diag_len], fun I hI' => ?_⟩
        by_cases hh : (key p).1 = I
        · rw [← hh, get0_set_self (by rw [g3, h.diag_len]; exact hI), if_pos (by simp [← hkp]), g2, h.bnnz,
            List.idxOf_append_of_notMem (by rw [hd] at hm; exact hm), ← hkp]
          simp
        · have hne : (I, I) ≠ key p := fun e => hh (by rw [← e])
          rw [get0_set_ne hh, g3, h.diag I hI']
          by_cases hi : (I, I) ∈ bl
          · rw [if_pos hi, if_pos (by simp [hi]), List.idxOf_append_of_mem hi]
          · rw [if_neg hi, if_neg (by simp [hi, hne])]
      · rw [if_neg hd]
        refine Ok.pure ⟨by simp [g3, h.diag_len], fun I hI' => ?_⟩
        have hne : (I, I) ≠ key p := fun e => hd (by rw [← e])
        rw [g3, h.diag I hI']
        by_cases hi : (I, I) ∈ bl
        · rw [if_pos hi, if_pos (by simp [hi]), List.idxOf_append_of_mem hi]
        · rw [if_neg hi, if_neg (by simp [hi, hne])]
    obtain ⟨d, ed, hdl, hdv⟩ := hd
    rw [ed, ok_bind]
    refine Ok.pure ⟨bl ++ [key p], ⟨?_, ?_, ?_, ?_, ?_, ?_, g4, g5, hdl, g6, ?_, g8, hdv⟩⟩
    · simp
    · simp [g2, h.bnnz]
    · rw [List.nodup_append]
      refine ⟨h.nodup, by simp, fun a ha b hb => ?_⟩
      simp only [List.mem_singleton] at hb
      subst hb
      rintro rfl
      exact hm ha
    · intro q
      rw [List.mem_append, h.mem, List.mem_singleton]
      constructor
      · rintro (⟨t, ht, rfl⟩ | rfl)
        · exact ⟨t, by omega, rfl⟩
        · exact ⟨p, by omega, rfl⟩
      · rintro ⟨t, ht, rfl⟩
        rcases Nat.lt_or_ge t p with hlt | hge
        · exact .inl ⟨t, hlt, rfl⟩
        · have : t = p := by omega
          subst this
          exact .inr rfl
    · rw [List.pairwise_append]
      refine ⟨h.sorted, by simp, fun a ha b hb => ?_⟩
      simp only [List.mem_singleton] at hb
      subst hb
      have := hall a ha
      omega
    · rw [List.pairwise_append]
      refine ⟨h.first.imp fun ⟨t, ht, h1, h2⟩ => ⟨t, by omega, h1, h2⟩, by simp, fun a ha b hb => ?_⟩
      simp only [List.mem_singleton] at hb
      subst hb
      obtain ⟨t, ht, rfl⟩ := (h.mem a).mp ha
      exact ⟨t, by omega, rfl, fun u hu e => hm ((h.mem _).mpr ⟨u, by omega, e⟩)⟩
    · intro I hI' he
      have hle : I ≤ (key p).1 := by
        obtain ⟨t, ht, rfl⟩ := he
        rcases Nat.lt_or_ge t p with hlt | hge
        · exact hord t hlt
        · have : t = p := by omega
          subst this; exact Nat.le_refl _
      rw [cntLt_append_one _ _ hle]
      exact g7 I hI' he

/-! ### Row pointers of empty block-rows -/

theorem bsrFixPtr_ok {nb : Nat} {key : Nat → Nat × Nat} {p : Nat} {s : BsrPass} {bl : List (Nat × Nat)}
    (h : PassInv nb key p s bl) (hkey : ∀ t < p, (key t).1 < nb) (h0 : nb = 0 ∨ ∃ t < p, (key t).1 = 0) :
    Ok (wr s.browptr nb s.bnnz >>= bsrFixPtr nb) (fun b => b.length = nb + 1 ∧ ∀ I ≤ nb, b⟦I⟧ = cntLt bl I) := by
  have hall : ∀ q ∈ bl, q.1 < nb := by
    intro q hq
    obtain ⟨t, ht, rfl⟩ := (h.mem q).mp hq
    exact hkey t ht
  rw [wr_eq (by rw [h.ptr_len]; omega), ok_bind]
  have hstart : (s.browptr.set nb s.bnnz).length = nb + 1 := by simp [h.ptr_len]
  have hnb : (s.browptr.set nb s.bnnz)⟦nb⟧ = cntLt bl nb := by
    rw [get0_set_self (by rw [h.ptr_len]; omega), h.bnnz, cntLt_all hall]
  have hget : ∀ I < nb, (s.browptr.set nb s.bnnz)⟦I⟧ = s.browptr⟦I⟧ := fun I hI => get0_set_ne (by omega)
  unfold bsrFixPtr
  rcases Nat.eq_zero_or_pos nb with hz | hpos
  · subst hz
    have : ∀ body : Nat → List Nat → C (List Nat), forDown 1 0 body (s.browptr.set 0 s.bnnz) = .ok (s.browptr.set 0 s.bnnz) := fun _ => rfl
    rw [this]
    refine Ok.pure ⟨hstart, fun I hI => ?_⟩
    have : I = 0 := by omega
    subst this
    exact hnb
  · obtain ⟨t0, ht0, ht0'⟩ : ∃ t < p, (key t).1 = 0 := by
      rcases h0 with h0 | h0
      · omega
      · exact h0
    have hpos1 : ∀ I, 0 < I → 0 < cntLt bl I := by
      intro I hI
      unfold cntLt
      rw [List.countP_pos_iff]
      exact ⟨key t0, (h.mem _).mpr ⟨t0, ht0, rfl⟩, by simp [ht0', hI]⟩
    refine (forDown_ok (fun t (b : List Nat) => b.length = nb + 1 ∧ (∀ I ≤ nb, t ≤ I → b⟦I⟧ = cntLt bl I) ∧
      (∀ I < t, b⟦I⟧ = s.browptr⟦I⟧)) (show 1 ≤ nb from hpos) ⟨hstart, fun I hI hI' => ?_, fun I hI => hget I hI⟩ ?_).mono ?_
    · have : I = nb := by omega
      subst this; exact hnb
    · rintro t b h1 h2 ⟨hb, hge, hlt⟩
      rw [rd_eq (by omega), ok_bind, hlt t (by omega)]
      have htn : t < nb := by omega
      by_cases hex : ∃ u < p, (key u).1 = t
      · rw [h.ptr t htn hex, if_neg (by have := hpos1 t (by omega); omega)]
        refine Ok.pure ⟨hb, fun I hI hI' => ?_, fun I hI => hlt I (by omega)⟩
        rcases Nat.lt_or_ge t I with h3 | h3
        · exact hge I hI (by omega)
        · have : I = t := by omega
          subst this
          rw [hlt I (by omega), h.ptr I htn hex]
      · rw [h.ptr0 t htn hex, if_pos rfl, rd_eq (by omega), ok_bind, wr_eq (by omega)]
        refine Ok.pure ⟨by simp [hb], fun I hI hI' => ?_, fun I hI => ?_⟩
        · rcases Nat.lt_or_ge t I with h3 | h3
          · rw [get0_set_ne (by omega)]; exact hge I hI (by omega)
          · have : I = t := by omega
            subst this
            rw [get0_set_self (by omega), hge (I + 1) (by omega) (by omega)]
            unfold cntLt
            refine List.countP_congr fun q hq => ?_
            have : q.1 ≠ I := fun e => by
              obtain ⟨u, hu, rfl⟩ := (h.mem q).mp hq
              exact hex ⟨u, hu, e⟩
            simp only [decide_eq_true_eq]; omega
        · rw [get0_set_ne (by omega)]; exact hlt I (by omega)
    · rintro b ⟨hb, hge, hlt⟩
      refine ⟨hb, fun I hI => ?_⟩
      rcases Nat.eq_zero_or_pos I with hz | hz
      · subst hz
        rw [hlt 0 (by omega), h.ptr 0 hpos ⟨t0, ht0, ht0'⟩]
      · exact hge I hI hz

end Blasted
