import Verif.Coo.BsrLemmas
import Verif.Coo.CsrProps

/-!
# Property C39: conversion of a coordinate matrix to BSR
-/

namespace Blasted
open Finset

variable {K : Type}

theorem COO.Valid.loop {A : COO K} (hA : A.Valid) (hsq : A.ncols ≤ A.nrows) {σ : Type} (body : Nat → Nat → σ → C σ)
    (s : σ) : cooLoop A body s = forRange 0 A.nnz (fun p => body (A.sr.rowOf p) p) s := by
  have h := (hA.full hsq).nested_pos body s
  have h2 : A.sr.browptr⟦A.sr.nbrows⟧ = A.nnz := hA.ptr_last
  rw [h2] at h
  exact h

theorem COO.Valid.rowOf_mono {A : COO K} (hA : A.Valid) (hsq : A.ncols ≤ A.nrows) {t u : Nat} (htu : t ≤ u)
    (hu : u < A.nnz) : A.sr.rowOf t ≤ A.sr.rowOf u := by
  have hF := hA.full hsq
  have h2 : A.sr.browptr⟦A.sr.nbrows⟧ = A.nnz := hA.ptr_last
  have a := hF.rowOf_spec (p := t) (by omega)
  have b := hF.rowOf_spec (p := u) (by omega)
  by_contra hlt
  have := hF.ptr_le (i := A.sr.rowOf u + 1) (j := A.sr.rowOf t) (by omega) (by omega)
  have := a.2.1
  have := b.2.2
  omega

/-- The block of entry `t`. -/
def blkKey (bs : Nat) (A : COO K) (t : Nat) : Nat × Nat := (A.sr.rowOf t / bs, A.sr.bcolind⟦t⟧ / bs)

/-- The position inside its block of entry `t`. -/
def blkOff (bs : Nat) (stor : Stor) (A : COO K) (t : Nat) : Nat :=
  stor.off bs (A.sr.rowOf t % bs) (A.sr.bcolind⟦t⟧ % bs)

theorem bsrCountEntry_eq {A : COO K} (hA : A.Valid) (bs : Nat) {p : Nat} (hp : p < A.nnz)
    (s : BsrPass) : bsrCountEntry bs A (A.sr.rowOf p) p s =
      (bsrTally (blkKey bs A p).1 s >>= bsrAddBlock (blkKey bs A p).1 (blkKey bs A p).2) := by
  have hpe : p < A.entries.length := by rw [hA.nnz_eq]; exact hp
  have hc := (hA.col _ (List.getElem_mem hpe)).1
  unfold bsrCountEntry
  rw [rd_getElem hpe, ok_bind, toIdx, if_pos hc, ok_bind]
  unfold blkKey
  rw [COO.sr_col hpe]

theorem bsrPass_ok {A : COO K} (hA : A.Valid) (hsq : A.ncols ≤ A.nrows) {bs : Nat} (hbs : 0 < bs)
    (hdiv : A.nrows % bs = 0) (s : BsrPass) (h0 : PassInv (A.nrows / bs) (blkKey bs A) 0 s []) :
    Ok (cooLoop A (bsrCountEntry bs A) s) (fun s' => ∃ bl, PassInv (A.nrows / bs) (blkKey bs A) A.nnz s' bl) := by
  have hF := hA.full hsq
  have h2 : A.sr.browptr⟦A.sr.nbrows⟧ = A.nnz := hA.ptr_last
  rw [hA.loop hsq]
  refine forRange_ok (fun p s => ∃ bl, PassInv (A.nrows / bs) (blkKey bs A) p s bl) (Nat.zero_le _) ⟨[], h0⟩ ?_
  rintro p s - hp ⟨bl, hinv⟩
  rw [bsrCountEntry_eq hA bs hp]
  refine bsrCount_step hinv ?_ ?_
  · have h3 : A.sr.rowOf p < A.nrows := (hF.rowOf_spec (p := p) (by omega)).1
    show A.sr.rowOf p / bs < A.nrows / bs
    rw [Nat.div_lt_iff_lt_mul hbs, Nat.div_mul_cancel (Nat.dvd_of_mod_eq_zero hdiv)]
    exact h3
  · intro t ht
    exact Nat.div_le_div_right (hA.rowOf_mono hsq (Nat.le_of_lt ht) hp)

theorem Stor.off_inj {stor : Stor} {bs a b a' b' : Nat} (ha : a < bs) (hb : b < bs) (ha' : a' < bs) (hb' : b' < bs)
    (h : stor.off bs a b = stor.off bs a' b') : a = a' ∧ b = b' := by
  cases stor with
  | rowMajor => exact blk_ne hb hb' h
  | colMajor => exact (blk_ne ha ha' h).symm

theorem blk_same {bs : Nat} {stor : Stor} (hbs : 0 < bs) {i j i' j' : Nat} (h1 : i / bs = i' / bs) (h2 : j / bs = j' / bs)
    (h3 : stor.off bs (i % bs) (j % bs) = stor.off bs (i' % bs) (j' % bs)) : i = i' ∧ j = j' := by
  obtain ⟨e1, e2⟩ := Stor.off_inj (Nat.mod_lt _ hbs) (Nat.mod_lt _ hbs) (Nat.mod_lt _ hbs) (Nat.mod_lt _ hbs) h3
  have a1 := Nat.div_add_mod i bs
  have a2 := Nat.div_add_mod i' bs
  have a3 := Nat.div_add_mod j bs
  have a4 := Nat.div_add_mod j' bs
  rw [h1, e1] at a1
  rw [h2, e2] at a3
  exact ⟨by omega, by omega⟩

theorem bsrCopyEntry_eq {A : COO K} (hA : A.Valid) {bs : Nat} (stor : Stor)
    {nb : Nat} {s : BsrPass} {bl : List (Nat × Nat)} (hinv : PassInv nb (blkKey bs A) A.nnz s bl)
    {browptr : List Nat} (hlen : browptr.length = nb + 1) (hptr : ∀ I ≤ nb, browptr⟦I⟧ = cntLt bl I) {p : Nat}
    (hp : p < A.nnz) (hkey : (blkKey bs A p).1 < nb) [Zero K] (vals : List K) :
    bsrCopyEntry bs stor A browptr (bl.map Prod.snd) (A.sr.rowOf p) p vals =
      wr vals (bl.idxOf (blkKey bs A p) * (bs * bs) + blkOff bs stor A p) A.sr.vals⟦p⟧ := by
  have hpe : p < A.entries.length := by rw [hA.nnz_eq]; exact hp
  have hc := (hA.col _ (List.getElem_mem hpe)).1
  have hmem : blkKey bs A p ∈ bl := (hinv.mem _).mpr ⟨p, hp, rfl⟩
  have hfind := findFrom_eq hinv.sorted (blkKey bs A p).1 (blkKey bs A p).2
  rw [Prod.mk.eta, if_pos hmem] at hfind
  have hidx := List.idxOf_lt_length_of_mem hmem
  have hpos := (cntLt_pos hinv.sorted (I := (blkKey bs A p).1) hidx).mpr (by rw [List.getElem_idxOf hidx])
  unfold bsrCopyEntry
  rw [rd_getElem hpe, ok_bind, toIdx, if_pos hc, ok_bind]
  have hk1 : A.sr.rowOf p / bs = (blkKey bs A p).1 := rfl
  have hk2 : A.entries[p].colind.toNat / bs = (blkKey bs A p).2 := by unfold blkKey; rw [COO.sr_col hpe]
  dsimp only
  rw [hk1, hk2, rd_eq (by omega), ok_bind, rd_eq (by omega), ok_bind, hptr _ (by omega), hptr _ (by omega), if_neg, if_neg, hfind]
  · have hoff : blockOffset bs stor (A.sr.rowOf p) A.entries[p].colind.toNat = blkOff bs stor A p := by
      unfold blkOff blockOffset
      rw [COO.sr_col hpe]
      dsimp only
      rw [← Nat.mod_eq_sub_div_mul, ← Nat.mod_eq_sub_div_mul]
      cases stor <;> rfl
    rw [hoff, Nat.mul_assoc, COO.sr_val hpe]
  · rw [hfind]; omega
  · have := cntLt_le bl ((blkKey bs A p).1 + 1)
    rw [List.length_map]
    omega

theorem noDup_idx {A : COO K} (hA : A.Valid) (hsq : A.ncols ≤ A.nrows) (hnd : NoDup A.entries) {t u : Nat} (ht : t < A.nnz)
    (hu : u < A.nnz) (h1 : A.sr.rowOf t = A.sr.rowOf u) (h2 : A.sr.bcolind⟦t⟧ = A.sr.bcolind⟦u⟧) : t = u := by
  have hte : t < A.entries.length := by rw [hA.nnz_eq]; exact ht
  have hue : u < A.entries.length := by rw [hA.nnz_eq]; exact hu
  have r1 := (hA.rowOf_get hsq hte).1
  have r2 := (hA.rowOf_get hsq hue).1
  have c1 := (hA.col_toNat hsq hte).1
  have c2 := (hA.col_toNat hsq hue).1
  rw [COO.sr_col hte, COO.sr_col hue] at h2
  have hp := List.pairwise_iff_getElem.mp hnd
  rcases Nat.lt_trichotomy t u with h | h | h
  · exact absurd ⟨by omega, by omega⟩ (hp t u hte hue h)
  · exact h
  · exact absurd ⟨by omega, by omega⟩ (hp u t hue hte h)

theorem bsrCopy_ok [AddCommMonoid K] {A : COO K} (hA : A.Valid) (hsq : A.ncols ≤ A.nrows) (hnd : NoDup A.entries)
    {bs : Nat} (hbs : 0 < bs)
    (stor : Stor) {nb : Nat} {s : BsrPass} {bl : List (Nat × Nat)} (hinv : PassInv nb (blkKey bs A) A.nnz s bl)
    (hkey : ∀ t < A.nnz, (blkKey bs A t).1 < nb)
    {browptr : List Nat} (hlen : browptr.length = nb + 1) (hptr : ∀ I ≤ nb, browptr⟦I⟧ = cntLt bl I) (vals : List K)
    (hv : vals.length = bl.length * (bs * bs)) (hv0 : ∀ k < vals.length, vals⟦k⟧ = 0) :
    Ok (cooLoop A (bsrCopyEntry bs stor A browptr (bl.map Prod.snd)) vals) (fun v =>
      v.length = bl.length * (bs * bs) ∧ ∀ (k : Nat) (hk : k < bl.length), ∀ o < bs * bs, v⟦k * (bs * bs) + o⟧ =
        ∑ t ∈ range A.nnz, if blkKey bs A t = bl[k] ∧ blkOff bs stor A t = o then A.sr.vals⟦t⟧ else 0) := by
  rw [hA.loop hsq]
  refine forRange_ok (fun p (v : List K) => v.length = bl.length * (bs * bs) ∧
    ∀ (k : Nat) (hk : k < bl.length), ∀ o < bs * bs, v⟦k * (bs * bs) + o⟧ =
        ∑ t ∈ range p, if blkKey bs A t = bl[k] ∧ blkOff bs stor A t = o then A.sr.vals⟦t⟧ else 0) (Nat.zero_le _)
    ⟨hv, fun k hk o ho => ?_⟩ ?_
  · rw [hv0 _ (by rw [hv]; exact blk_lt hk ho)]; simp
  · rintro p v - hp ⟨hl, hval⟩
    rw [bsrCopyEntry_eq hA stor hinv hlen hptr hp (hkey p hp)]
    have hmem : blkKey bs A p ∈ bl := (hinv.mem _).mpr ⟨p, hp, rfl⟩
    have hidx := List.idxOf_lt_length_of_mem hmem
    have hoff : blkOff bs stor A p < bs * bs := Stor.off_lt stor (Nat.mod_lt _ hbs) (Nat.mod_lt _ hbs)
    rw [wr_eq (by rw [hl]; exact blk_lt hidx hoff)]
    refine Ok.pure ⟨by simp [hl], fun k hk o ho => ?_⟩
    rw [Finset.sum_range_succ]
    by_cases hsame : bl.idxOf (blkKey bs A p) * (bs * bs) + blkOff bs stor A p = k * (bs * bs) + o
    · obtain ⟨e1, e2⟩ := blk_ne hoff ho hsame
      subst e1 e2
      rw [get0_set_self (by rw [hl]; exact blk_lt hidx hoff), if_pos ⟨(List.getElem_idxOf hidx).symm, rfl⟩,
        Finset.sum_eq_zero, zero_add]
      intro t ht
      rw [Finset.mem_range] at ht
      rw [if_neg]
      rintro ⟨g1, g2⟩
      rw [List.getElem_idxOf hidx] at g1
      unfold blkKey at g1
      rw [Prod.mk.injEq] at g1
      obtain ⟨q1, q2⟩ := blk_same hbs g1.1 g1.2 g2
      have := noDup_idx hA hsq hnd (show t < A.nnz by omega) hp q1 q2
      omega
    · rw [get0_set_ne hsame, hval k hk o ho, if_neg, add_zero]
      rintro ⟨g1, g2⟩
      apply hsame
      rw [g1, g2, hinv.nodup.idxOf_getElem]

/-- The block conversion, with a result that does not depend on what the memory contained. -/
theorem coo_to_bsr_result [AddCommMonoid K] (A : COO K) (hA : A.Valid) (hsq : A.ncols = A.nrows)
    (hnd : NoDup A.entries) (bs : Nat) (hbs : 0 < bs) (hbs1 : bs ≠ 1) (hdiv : A.nrows % bs = 0)
    (hfirst : A.nrows = 0 ∨ ∃ e ∈ A.entries, e.rowind < bs) (order : String) (stor : Stor)
    (hord : (order = "rowmajor" ∧ stor = .rowMajor) ∨ (order = "colmajor" ∧ stor = .colMajor)) :
    ∃ B d, (∀ gi gd gv, getSRMatrixFromCOO bs order gi gd gv A = .ok (B, d)) ∧ B.Full (bs * bs) ∧ B.nbrows * bs = A.nrows ∧
      B.nnzb = B.browptr⟦B.nbrows⟧ ∧ B.nbstored = B.browptr⟦B.nbrows⟧ ∧
      (∀ I < A.nrows, ∀ J, B.bentry stor bs I J = cooEntry A.entries I J) ∧
      (∀ i < B.nbrows, ∀ j, B.Stores i j ↔ ∃ e ∈ A.entries, ∃ I J : Nat, e.rowind = I ∧ e.colind = J ∧ I / bs = i ∧ J / bs = j) ∧
      (∀ i < B.nbrows, ∀ k l, B.InRow i k → B.InRow i l → B.bcolind⟦k⟧ = B.bcolind⟦l⟧ → k = l) ∧
      d.length = B.nbrows ∧ B.diagind = d.map Int.toNat ∧
      (∀ i < B.nbrows, (¬ B.Stores i i → d⟦i⟧ = -1) ∧
        (B.Stores i i → ∃ k : Nat, d⟦i⟧ = k ∧ B.InRow i k ∧ B.bcolind⟦k⟧ = i)) ∧
      (∀ i < B.nbrows, ∀ k l, B.InRow i k → B.InRow i l → k < l →
        ∃ t < A.entries.length, blkKey bs A t = (i, B.bcolind⟦k⟧) ∧ ∀ u ≤ t, blkKey bs A u ≠ (i, B.bcolind⟦l⟧)) := by
  have hsq' : A.ncols ≤ A.nrows := le_of_eq hsq
  have hF := hA.full hsq'
  have hlast : A.sr.browptr⟦A.sr.nbrows⟧ = A.nnz := hA.ptr_last
  obtain ⟨nb, hnb⟩ : ∃ nb, A.nrows / bs = nb := ⟨_, rfl⟩
  have hnb' : nb * bs = A.nrows := by rw [← hnb, Nat.div_mul_cancel (Nat.dvd_of_mod_eq_zero hdiv)]
  have hkey : ∀ t < A.nnz, (blkKey bs A t).1 < nb ∧ (blkKey bs A t).2 < nb := by
    intro t ht
    have h3 : A.sr.rowOf t < A.nrows := (hF.rowOf_spec (p := t) (by omega)).1
    have h4 : A.sr.bcolind⟦t⟧ < A.nrows := hF.col_lt t (by omega)
    exact ⟨by show A.sr.rowOf t / bs < nb; rw [Nat.div_lt_iff_lt_mul hbs, hnb']; exact h3,
      by show A.sr.bcolind⟦t⟧ / bs < nb; rw [Nat.div_lt_iff_lt_mul hbs, hnb']; exact h4⟩
  have h0 : nb = 0 ∨ ∃ t < A.nnz, (blkKey bs A t).1 = 0 := by
    rcases hfirst with h | ⟨e, he, hr⟩
    · left; rw [← hnb, h, Nat.zero_div]
    · right
      obtain ⟨t, ht, rfl⟩ := List.getElem_of_mem he
      refine ⟨t, by rw [← hA.nnz_eq]; exact ht, ?_⟩
      have := (hA.rowOf_get hsq' ht).1
      exact Nat.div_eq_of_lt (by omega)
  -- the run
  have e1 : ∀ gd, forRange 0 nb (fun i (d : List Int) => wr d i (-1)) (fresh nb gd) = .ok (List.replicate nb (-1)) := by
    intro gd
    rw [forRange_fill (fun _ => (-1 : Int)) (by simp) (fun i hi l hl => wr_eq (by omega))]
    simp [List.map_const']
  have e2 : ∀ gi, forRange 0 (nb + 1) (fun i (p : List Nat) => wr p i 0) (fresh (nb + 1) gi) = .ok (List.replicate (nb + 1) 0) := by
    intro gi
    rw [forRange_fill (fun _ => (0 : Nat)) (by simp) (fun i hi l hl => wr_eq (by omega))]
    simp [List.map_const']
  have hinit : PassInv nb (blkKey bs A) 0
      { browptr := List.replicate (nb + 1) 0, diagind := List.replicate nb (-1), bcolidxs := []
        tally := List.replicate nb false, bnnz := 0 } [] :=
    ⟨rfl, rfl, List.nodup_nil, by simp, List.Pairwise.nil, List.Pairwise.nil, by simp, by simp, by simp, by simp,
      fun I hI ⟨t, ht, _⟩ => by omega, fun I hI _ => by rw [get0_replicate],
      fun I hI => by rw [get0_replicate_of_lt hI]; simp⟩
  obtain ⟨s, es, bl, hinv⟩ := bsrPass_ok hA hsq' hbs hdiv _ (by rw [hnb]; exact hinit)
  rw [hnb] at hinv
  obtain ⟨bp, ebp, hbl, hbp⟩ := bsrFixPtr_ok hinv (fun t ht => (hkey t ht).1) h0
  have e3 : ∀ gv, forRange 0 (s.bnnz * bs * bs) (fun i (v : List K) => wr v i 0) (fresh (s.bnnz * bs * bs) gv) =
      .ok (List.replicate (s.bnnz * bs * bs) 0) := by
    intro gv
    rw [forRange_fill (fun _ => (0 : K)) (by simp) (fun i hi l hl => wr_eq (by omega))]
    simp [List.map_const']
  have e4 : ∀ gi, forRange 0 s.bnnz (fun i (c : List Nat) => do
      let b ← rd s.bcolidxs i
      wr c i b) (fresh s.bnnz gi) = .ok (bl.map Prod.snd) := by
    intro gi
    rw [forRange_fill (fun i => s.bcolidxs⟦i⟧) (by simp)]
    · congr 1
      refine ext_get0 (by simp [hinv.bnnz]) fun k hk => ?_
      rw [get0_map_range _ (by simpa using hk), hinv.bcol]
    · intro i hi l hl
      have := hinv.bnnz
      rw [rd_eq (by rw [hinv.bcol, List.length_map]; omega), ok_bind, wr_eq (by omega)]
  obtain ⟨v, ev, hvl, hvv⟩ := bsrCopy_ok hA hsq' hnd hbs stor hinv (fun t ht => (hkey t ht).1) hbl hbp
    (List.replicate (s.bnnz * bs * bs) 0) (by rw [List.length_replicate, hinv.bnnz, Nat.mul_assoc])
    (fun k _ => get0_replicate _ _)
  -- the result
  have hall : ∀ q ∈ bl, q.1 < nb ∧ q.2 < nb := by
    intro q hq
    obtain ⟨t, ht, rfl⟩ := (hinv.mem q).mp hq
    exact hkey t ht
  have hcn : cntLt bl nb = bl.length := cntLt_all fun q hq => (hall q hq).1
  refine ⟨{ browptr := bp, bcolind := bl.map Prod.snd, vals := v, diagind := s.diagind.map Int.toNat
            browendptr := rowEnds nb bp, nbrows := nb, nnzb := s.bnnz, nbstored := s.bnnz }, s.diagind, ?_, ?_⟩
  · intro gi gd gv
    have hrun : convertToBSR bs stor gi gd gv A = .ok
        ({ browptr := bp, bcolind := bl.map Prod.snd, vals := v, diagind := s.diagind.map Int.toNat
           browendptr := rowEnds nb bp, nbrows := nb, nnzb := s.bnnz, nbstored := s.bnnz }, s.diagind) := by
      unfold convertToBSR
      rw [cassert_true (by simp [hsq]), ok_bind, cassert_true (by simp [hdiv]), ok_bind]
      dsimp only
      rw [hnb, e1, ok_bind, e2, ok_bind, es, ok_bind]
      obtain ⟨b1, hb1, hb2⟩ : ∃ b1, wr s.browptr nb s.bnnz = .ok b1 ∧ bsrFixPtr nb b1 = .ok bp := by
        cases hw : wr s.browptr nb s.bnnz with
        | error e => rw [hw] at ebp; cases ebp
        | ok b1 => rw [hw] at ebp; exact ⟨b1, rfl, ebp⟩
      rw [hb1, ok_bind, hb2, ok_bind, e3, ok_bind, e4, ok_bind, ev, ok_bind]
    unfold getSRMatrixFromCOO
    rw [if_neg hbs1]
    rcases hord with ⟨h1, h2⟩ | ⟨h1, h2⟩
    · rw [if_pos h1]; subst h2; exact hrun
    · rw [if_neg (by rw [h1]; decide), if_pos h1]; subst h2; exact hrun
  · obtain ⟨B, hB⟩ : ∃ B : SR K, B = { browptr := bp, bcolind := bl.map Prod.snd, vals := v, diagind := s.diagind.map Int.toNat
                                       browendptr := rowEnds nb bp, nbrows := nb, nnzb := s.bnnz, nbstored := s.bnnz } := ⟨_, rfl⟩
    rw [← hB]
    have q1 : B.browptr = bp := by rw [hB]
    have q2 : B.bcolind = bl.map Prod.snd := by rw [hB]
    have q3 : B.vals = v := by rw [hB]
    have q4 : B.nbrows = nb := by rw [hB]
    have q5 : B.browendptr = rowEnds nb bp := by rw [hB]
    have q6 : B.nnzb = bl.length := by rw [hB]; exact hinv.bnnz
    have q7 : B.nbstored = bl.length := by rw [hB]; exact hinv.bnnz
    have hcol : ∀ (k : Nat) (hk : k < bl.length), B.bcolind⟦k⟧ = bl[k].2 := by
      intro k hk
      rw [q2, get0_eq_getElem (by simpa using hk), List.getElem_map]
    have hBF : B.Full (bs * bs) := by
      refine ⟨by rw [q1, q4]; exact hbl, by rw [q1, hbp 0 (by omega), cntLt_zero], fun i hi => ?_, ?_, fun i hi => ?_, ?_,
        ?_, fun k hk => ?_⟩
      · rw [q4] at hi
        rw [q1, hbp i (by omega), hbp (i + 1) (by omega)]
        exact cntLt_mono bl (by omega)
      · rw [q5, q4]; exact rowEnds_length hbl
      · rw [q4] at hi
        rw [q5, q1]; exact rowEnds_get hi
      · rw [q2, q1, q4, hbp nb (Nat.le_refl _), hcn, List.length_map]
      · rw [q3, q1, q4, hbp nb (Nat.le_refl _), hcn]; exact hvl
      · rw [q1, q4, hbp nb (Nat.le_refl _), hcn] at hk
        rw [hcol k hk, q4]
        exact (hall _ (List.getElem_mem hk)).2
    have hrowiff : ∀ i < nb, ∀ k, B.InRow i k ↔ ∃ hk : k < bl.length, bl[k].1 = i := by
      intro i hi k
      unfold SR.InRow
      rw [q1, hbp i (by omega), hbp (i + 1) (by omega)]
      constructor
      · intro h
        have hk : k < bl.length := by have := cntLt_le bl (i + 1); omega
        exact ⟨hk, (cntLt_pos hinv.sorted hk).mp h⟩
      · rintro ⟨hk, h⟩
        exact (cntLt_pos hinv.sorted hk).mpr h
    have hstore : ∀ i < nb, ∀ j, B.Stores i j ↔ (i, j) ∈ bl := by
      intro i hi j
      constructor
      · rintro ⟨k, hk, hc⟩
        obtain ⟨hk', hr⟩ := (hrowiff i hi k).mp hk
        rw [hcol k hk'] at hc
        rw [← hr, ← hc]
        exact List.getElem_mem hk'
      · intro h
        have hidx := List.idxOf_lt_length_of_mem h
        refine ⟨bl.idxOf (i, j), (hrowiff i hi _).mpr ⟨hidx, ?_⟩, ?_⟩
        · rw [List.getElem_idxOf hidx]
        · rw [hcol _ hidx, List.getElem_idxOf hidx]
    refine ⟨hBF, by rw [q4]; exact hnb', by rw [q6, q1, q4, hbp nb (Nat.le_refl _), hcn],
      by rw [q7, q1, q4, hbp nb (Nat.le_refl _), hcn], ?_, ?_, ?_, by rw [q4]; exact hinv.diag_len, by rw [hB], ?_, ?_⟩
    · -- denotation
      intro I hI J
      have hIb : I / bs < nb := by rw [Nat.div_lt_iff_lt_mul hbs, hnb']; exact hI
      have hoff : stor.off bs (I % bs) (J % bs) < bs * bs := Stor.off_lt stor (Nat.mod_lt _ hbs) (Nat.mod_lt _ hbs)
      rw [SR.bentry, hBF.end_eq _ (by rw [q4]; exact hIb), hA.cooEntry_eq hsq']
      by_cases hm : (I / bs, J / bs) ∈ bl
      · have hidx := List.idxOf_lt_length_of_mem hm
        rw [Finset.sum_eq_single (bl.idxOf (I / bs, J / bs))]
        · rw [if_pos (by rw [hcol _ hidx, List.getElem_idxOf hidx]), q3, hvv _ hidx _ hoff]
          refine Finset.sum_congr rfl fun t ht => if_congr ?_ rfl rfl
          rw [List.getElem_idxOf hidx]
          unfold blkKey blkOff
          rw [Prod.mk.injEq]
          constructor
          · rintro ⟨⟨h1, h2⟩, h3⟩; exact blk_same hbs h1 h2 h3
          · rintro ⟨h1, h2⟩; rw [h1, h2]; exact ⟨⟨rfl, rfl⟩, rfl⟩
        · intro k hk hne
          rw [Finset.mem_Ico] at hk
          obtain ⟨hk', hr⟩ := (hrowiff _ hIb k).mp hk
          rw [if_neg]
          intro hc
          rw [hcol k hk'] at hc
          apply hne
          rw [show (I / bs, J / bs) = bl[k] from Prod.ext hr.symm hc.symm, hinv.nodup.idxOf_getElem]
        · intro h
          exact absurd (Finset.mem_Ico.mpr ((hrowiff _ hIb _).mpr ⟨hidx, by rw [List.getElem_idxOf hidx]⟩)) h
      · rw [Finset.sum_eq_zero, Finset.sum_eq_zero]
        · intro t ht
          rw [Finset.mem_range] at ht
          rw [if_neg]
          rintro ⟨h1, h2⟩
          exact hm ((hinv.mem _).mpr ⟨t, ht, by unfold blkKey; rw [h1, h2]⟩)
        · intro k hk
          rw [Finset.mem_Ico] at hk
          obtain ⟨hk', hr⟩ := (hrowiff _ hIb k).mp hk
          rw [if_neg]
          intro hc
          rw [hcol k hk'] at hc
          apply hm
          rw [show (I / bs, J / bs) = bl[k] from Prod.ext hr.symm hc.symm]
          exact List.getElem_mem hk'
    · -- stored blocks
      intro i hi j
      rw [q4] at hi
      rw [hstore i hi, hinv.mem]
      constructor
      · rintro ⟨t, ht, hk⟩
        have hte : t < A.entries.length := by rw [hA.nnz_eq]; exact ht
        have r1 := (hA.rowOf_get hsq' hte).1
        have c1 := (hA.col_toNat hsq' hte).1
        unfold blkKey at hk
        rw [COO.sr_col hte, Prod.mk.injEq] at hk
        exact ⟨_, List.getElem_mem hte, _, _, r1, c1, hk.1, hk.2⟩
      · rintro ⟨e, he, I, J, h1, h2, h3, h4⟩
        obtain ⟨t, ht, rfl⟩ := List.getElem_of_mem he
        refine ⟨t, by rw [← hA.nnz_eq]; exact ht, ?_⟩
        have r1 := (hA.rowOf_get hsq' ht).1
        unfold blkKey
        rw [COO.sr_col ht, h2]
        have : A.sr.rowOf t = I := by omega
        rw [this, h3, Int.toNat_natCast, h4]
    · intro i hi k l hk hl h
      rw [q4] at hi
      obtain ⟨hk', hr⟩ := (hrowiff i hi k).mp hk
      obtain ⟨hl', hr'⟩ := (hrowiff i hi l).mp hl
      rw [hcol k hk', hcol l hl'] at h
      exact (List.Nodup.getElem_inj_iff hinv.nodup).mp (Prod.ext (hr.trans hr'.symm) h)
    · intro i hi
      rw [q4] at hi
      have hd := hinv.diag i hi
      refine ⟨fun hn => ?_, fun hy => ?_⟩
      · rw [hd, if_neg (fun h => hn ((hstore i hi i).mpr h))]
      · have hm := (hstore i hi i).mp hy
        have hidx := List.idxOf_lt_length_of_mem hm
        rw [if_pos hm] at hd
        refine ⟨_, hd, (hrowiff i hi _).mpr ⟨hidx, by rw [List.getElem_idxOf hidx]⟩, ?_⟩
        rw [hcol _ hidx, List.getElem_idxOf hidx]
    · -- order of the blocks
      intro i hi k l hk hl hkl
      rw [q4] at hi
      obtain ⟨hk', hr⟩ := (hrowiff i hi k).mp hk
      obtain ⟨hl', hr'⟩ := (hrowiff i hi l).mp hl
      obtain ⟨t, ht, h1, h2⟩ := List.pairwise_iff_getElem.mp hinv.first k l hk' hl' hkl
      refine ⟨t, by rw [hA.nnz_eq]; exact ht, ?_, fun u hu e => h2 u hu ?_⟩
      · rw [h1, hcol k hk', ← hr]
      · rw [e, hcol l hl', ← hr']

theorem COO.Valid.blkKey_iff {A : COO K} (hA : A.Valid) (hsq : A.ncols ≤ A.nrows) {bs i j t : Nat}
    (ht : t < A.entries.length) : blkKey bs A t = (i, j) ↔ InBlock bs i j A.entries[t] := by
  have r := (hA.rowOf_get hsq ht).1
  have c := (hA.col_toNat hsq ht).1
  unfold blkKey
  rw [COO.sr_col ht, Prod.mk.injEq]
  constructor
  · rintro ⟨h1, h2⟩
    exact ⟨_, _, r, c, h1, h2⟩
  · rintro ⟨I, J, h1, h2, h3, h4⟩
    have : A.sr.rowOf t = I := by omega
    rw [this, h2]
    exact ⟨h3, h4⟩

/-- **C39** (in part) `getSRMatrixFromCOO` with a block size different from 1 returns, for either storage order and whatever
the memory contained, complete block storage that denotes the matrix of the coordinate entries. The stored blocks are exactly those in
which there is an entry, each stored once; the diagonal location of a block-row without a diagonal block is -1, and otherwise it is the position of the
diagonal block. The blocks of a block-row are stored in the order of their first entries. What is missing: matrices whose first block-row is empty, for which the conversion aborts (`coo_to_bsr_first_empty_aborts`), and repeated
positions, of which the last entry is kept (`coo_duplicates_differ`). -/
theorem coo_to_bsr_correct_partial [AddCommMonoid K] (A : COO K) (hA : A.Valid) (hsq : A.ncols = A.nrows)
    (hnd : NoDup A.entries) (bs : Nat) (hbs : 0 < bs) (hbs1 : bs ≠ 1) (hdiv : A.nrows % bs = 0)
    (hfirst : A.nrows = 0 ∨ ∃ e ∈ A.entries, e.rowind < bs) (order : String) (stor : Stor)
    (hord : (order = "rowmajor" ∧ stor = .rowMajor) ∨ (order = "colmajor" ∧ stor = .colMajor))
    (gi : Nat → Nat) (gd : Nat → Int) (gv : Nat → K) :
    ∃ B d, getSRMatrixFromCOO bs order gi gd gv A = .ok (B, d) ∧ B.Full (bs * bs) ∧ B.nbrows * bs = A.nrows ∧
      B.nnzb = B.browptr⟦B.nbrows⟧ ∧ B.nbstored = B.browptr⟦B.nbrows⟧ ∧
      (∀ I < A.nrows, ∀ J, B.bentry stor bs I J = cooEntry A.entries I J) ∧
      (∀ i < B.nbrows, ∀ j, B.Stores i j ↔ ∃ e ∈ A.entries, ∃ I J : Nat, e.rowind = I ∧ e.colind = J ∧ I / bs = i ∧ J / bs = j) ∧
      (∀ i < B.nbrows, ∀ k l, B.InRow i k → B.InRow i l → B.bcolind⟦k⟧ = B.bcolind⟦l⟧ → k = l) ∧
      d.length = B.nbrows ∧ B.diagind = d.map Int.toNat ∧
      (∀ i < B.nbrows, (¬ B.Stores i i → d⟦i⟧ = -1) ∧
        (B.Stores i i → ∃ k : Nat, d⟦i⟧ = k ∧ B.InRow i k ∧ B.bcolind⟦k⟧ = i)) ∧
      (∀ i < B.nbrows, ∀ k l, B.InRow i k → B.InRow i l → k < l →
        ∃ (t : Nat) (ht : t < A.entries.length), InBlock bs i B.bcolind⟦k⟧ A.entries[t] ∧
          ∀ (u : Nat) (hu : u < A.entries.length), InBlock bs i B.bcolind⟦l⟧ A.entries[u] → t < u) := by
  obtain ⟨B, d, h1, h2, h3, h4, h5, h6, h7, h8, h9, h10, h11, h12⟩ :=
    coo_to_bsr_result A hA hsq hnd bs hbs hbs1 hdiv hfirst order stor hord
  refine ⟨B, d, h1 gi gd gv, h2, h3, h4, h5, h6, h7, h8, h9, h10, h11, fun i hi k l hk hl hkl => ?_⟩
  obtain ⟨t, ht, e1, e2⟩ := h12 i hi k l hk hl hkl
  refine ⟨t, ht, (hA.blkKey_iff (le_of_eq hsq) ht).mp e1, fun u hu hb => ?_⟩
  by_contra hlt
  exact e2 u (by omega) ((hA.blkKey_iff (le_of_eq hsq) hu).mpr hb)

/-- **C39** The result of the block conversion does not depend on what the memory contained. -/
theorem coo_to_bsr_unique [AddCommMonoid K] (A : COO K) (hA : A.Valid) (hsq : A.ncols = A.nrows)
    (hnd : NoDup A.entries) (bs : Nat) (hbs : 0 < bs) (hbs1 : bs ≠ 1) (hdiv : A.nrows % bs = 0)
    (hfirst : A.nrows = 0 ∨ ∃ e ∈ A.entries, e.rowind < bs) (order : String) (hord : order = "rowmajor" ∨ order = "colmajor")
    (gi gi' : Nat → Nat) (gd gd' : Nat → Int) (gv gv' : Nat → K) :
    getSRMatrixFromCOO bs order gi gd gv A = getSRMatrixFromCOO bs order gi' gd' gv' A := by
  rcases hord with h | h
  · obtain ⟨B, d, h1, -⟩ := coo_to_bsr_result A hA hsq hnd bs hbs hbs1 hdiv hfirst order .rowMajor (.inl ⟨h, rfl⟩)
    rw [h1, h1]
  · obtain ⟨B, d, h1, -⟩ := coo_to_bsr_result A hA hsq hnd bs hbs hbs1 hdiv hfirst order .colMajor (.inr ⟨h, rfl⟩)
    rw [h1, h1]

/-- **C39** The block columns of every block-row of the result ascend, as the comment in `convertToBSR` claims, when the entries are ordered by row and
column and every block with an entry has one in its first scalar row; that the last condition cannot be dropped is `coo_to_bsr_unsorted`. With an entry
in every diagonal block all diagonal locations are valid. -/
theorem coo_to_bsr_sorted [AddCommMonoid K] (A : COO K) (hA : A.Valid) (hsq : A.ncols = A.nrows)
    (hlex : A.entries.Pairwise lexLt) (bs : Nat) (hbs : 0 < bs) (hbs1 : bs ≠ 1) (hdiv : A.nrows % bs = 0)
    (htouch : FirstRowTouches bs A.entries)
    (hdiag : ∀ i < A.nrows / bs, ∃ e ∈ A.entries, InBlock bs i i e) (order : String)
    (hord : order = "rowmajor" ∨ order = "colmajor") (gi : Nat → Nat) (gd : Nat → Int) (gv : Nat → K) :
    ∃ B d, getSRMatrixFromCOO bs order gi gd gv A = .ok (B, d) ∧ B.Sorted ∧ B.HasDiag := by
  have hnd : NoDup A.entries := hlex.imp fun h h' => by unfold lexLt at h; omega
  have hfirst : A.nrows = 0 ∨ ∃ e ∈ A.entries, e.rowind < bs := by
    rcases Nat.eq_zero_or_pos A.nrows with h | h
    · exact .inl h
    · have hle : bs ≤ A.nrows := Nat.le_of_dvd h (Nat.dvd_of_mod_eq_zero hdiv)
      obtain ⟨e, he, I, J, h1, h2, h3, h4⟩ := hdiag 0 (Nat.div_pos hle hbs)
      rcases (Nat.div_eq_zero_iff).mp h3 with h3 | h3
      · omega
      · exact .inr ⟨e, he, by omega⟩
  obtain ⟨stor, hst⟩ : ∃ stor : Stor, (order = "rowmajor" ∧ stor = .rowMajor) ∨ (order = "colmajor" ∧ stor = .colMajor) := by
    rcases hord with h | h
    · exact ⟨_, .inl ⟨h, rfl⟩⟩
    · exact ⟨_, .inr ⟨h, rfl⟩⟩
  obtain ⟨B, d, h1, h2, h3, h4, h5, h6, h7, h8, h9, h10, h11, h12⟩ :=
    coo_to_bsr_correct_partial A hA hsq hnd bs hbs hbs1 hdiv hfirst order stor hst gi gd gv
  have hnb : A.nrows / bs = B.nbrows := by rw [← h3, Nat.mul_div_cancel _ hbs]
  refine ⟨B, d, h1, ?_, ?_⟩
  · intro i hi k l hk hkl hl
    have ik : B.InRow i k := ⟨hk, by omega⟩
    have il : B.InRow i l := ⟨by omega, hl⟩
    obtain ⟨t, ht, ⟨I, J, e1, e2, e3, e4⟩, hlater⟩ := h12 i hi k l ik il hkl
    obtain ⟨e, he, I', J', f1, f2, f3, f4⟩ := (h7 i hi _).mp ⟨l, il, rfl⟩
    obtain ⟨e', he', g1, g2⟩ := htouch e he
    obtain ⟨u, hu, rfl⟩ := List.getElem_of_mem he'
    rw [f1, ← Int.natCast_ediv, f3] at g1
    have hcu := (hA.col _ (List.getElem_mem hu)).1
    obtain ⟨J2, hJ2⟩ := Int.eq_ofNat_of_zero_le hcu
    have hJ2' : A.entries[u].colind = (J2 : Int) := hJ2
    rw [f2, hJ2', ← Int.natCast_ediv, ← Int.natCast_ediv, f4] at g2
    have htu : t < u := hlater u hu ⟨bs * i, J2, by rw [g1]; push_cast; rfl, hJ2', Nat.mul_div_cancel_left _ hbs, by omega⟩
    have hlt := List.pairwise_iff_getElem.mp hlex t u ht hu htu
    have hI : bs * i ≤ I := by rw [← e3, Nat.mul_comm]; exact Nat.div_mul_le_self I bs
    have hle : J ≤ J2 := by
      have hI' : (bs : Int) * i ≤ I := by exact_mod_cast hI
      rcases hlt with hlt | ⟨-, hlt⟩
      · rw [e1, g1] at hlt; omega
      · rw [e2, hJ2'] at hlt; omega
    have hcle : B.bcolind⟦k⟧ ≤ B.bcolind⟦l⟧ := by
      rw [← e4, show B.bcolind⟦l⟧ = J2 / bs by omega]
      exact Nat.div_le_div_right hle
    rcases Nat.lt_or_ge B.bcolind⟦k⟧ B.bcolind⟦l⟧ with h | h
    · exact h
    · have := h8 i hi k l ik il (by omega)
      omega
  · have hd : ∀ i < B.nbrows, ∃ k : Nat, d⟦i⟧ = k ∧ B.InRow i k ∧ B.bcolind⟦k⟧ = i := by
      intro i hi
      refine (h11 i hi).2 ((h7 i hi i).mpr ?_)
      exact hdiag i (by omega)
    have hdi : ∀ i < B.nbrows, ∃ k : Nat, B.diagind⟦i⟧ = k ∧ B.InRow i k ∧ B.bcolind⟦k⟧ = i := by
      intro i hi
      obtain ⟨k, a1, a2⟩ := hd i hi
      refine ⟨k, ?_, a2⟩
      rw [h10, get0_eq_getElem (by rw [List.length_map]; omega), List.getElem_map, ← get0_eq_getElem (by omega), a1]
      rfl
    refine ⟨by rw [h10, List.length_map]; exact h9, fun i hi => ?_, fun i hi => ?_, fun i hi => ?_⟩
    all_goals
      obtain ⟨k, a1, a2, a3⟩ := hdi i hi
      rw [a1]
    · exact a2.1
    · exact a2.2
    · exact a3

/-- **C39** Every other storage order string is rejected by an exception, and a matrix that is not square or whose dimension is
not a multiple of the block size by an assertion. -/
theorem coo_to_bsr_rejects [Zero K] (A : COO K) (bs : Nat) (hbs1 : bs ≠ 1) (order : String) (gi : Nat → Nat)
    (gd : Nat → Int) (gv : Nat → K) :
    (order ≠ "rowmajor" → order ≠ "colmajor" → getSRMatrixFromCOO bs order gi gd gv A =
      .error (.throw "std::runtime_error" "getSRMatrixFromCOO: invalid storage order!")) ∧
    (order = "rowmajor" ∨ order = "colmajor" → (A.nrows : Int) ≠ A.ncols ∨ A.nrows % bs ≠ 0 →
      getSRMatrixFromCOO bs order gi gd gv A = .error .abort) := by
  constructor
  · intro h1 h2
    unfold getSRMatrixFromCOO
    rw [if_neg hbs1, if_neg h1, if_neg h2]
  · intro h1 h2
    have key : ∀ stor, convertToBSR bs stor gi gd gv A = .error .abort := by
      intro stor
      unfold convertToBSR cassert
      by_cases h3 : (A.nrows : Int) = A.ncols
      · have h4 : A.nrows % bs ≠ 0 := by
          rcases h2 with h2 | h2
          · exact absurd h3 h2
          · exact h2
        simp only [h3, h4, decide_true, decide_false, if_true]
        rfl
      · simp only [h3, decide_false]
        rfl
    unfold getSRMatrixFromCOO
    rw [if_neg hbs1]
    rcases h1 with rfl | rfl
    · rw [if_pos rfl]; exact key _
    · rw [if_neg (by decide), if_pos rfl]; exact key _

/-- A 4 × 4 coordinate matrix, ordered by rows and columns, with block structure `[* *; * .]` for block size 2. -/
def exCoo4 : COO ℚ where
  entries := [⟨0, 0, 1⟩, ⟨0, 3, 2⟩, ⟨1, 1, 3⟩, ⟨2, 0, 4⟩, ⟨3, 1, 5⟩]
  nnz := 5
  nrows := 4
  ncols := 4
  rowptr := [0, 2, 3, 4, 5]

theorem exCoo4_valid : exCoo4.Valid where
  nnz_eq := rfl
  ptr_len := rfl
  ptr_zero := rfl
  ptr_mono := by decide
  ptr_last := rfl
  row := by
    intro i hi k e h1 h2 h3
    have hi' : i < 4 := hi
    have hk : k < 5 := by
      have := (List.getElem?_eq_some_iff.mp h3).1
      exact this
    interval_cases i <;> interval_cases k <;>
      first
      | (exfalso; revert h1 h2; decide)
      | (simp only [exCoo4, List.getElem?_cons_zero, List.getElem?_cons_succ, Option.some.injEq] at h3; subst h3; rfl)
  col := by decide

example : exCoo4.Valid ∧ exCoo4.ncols = exCoo4.nrows ∧ NoDup exCoo4.entries ∧ exCoo4.nrows % 2 = 0 ∧
    (∃ e ∈ exCoo4.entries, e.rowind < 2) ∧
    getSRMatrixFromCOO 2 "rowmajor" (fun _ => 9) (fun _ => 9) (fun _ => 9) exCoo4 =
      .ok ({ browptr := [0, 2, 3], bcolind := [0, 1, 0], vals := [1, 0, 0, 3, 0, 2, 0, 0, 4, 0, 0, 5], diagind := [0, 0]
             browendptr := [2, 3], nbrows := 2, nnzb := 3, nbstored := 3 }, [0, -1]) ∧
    getSRMatrixFromCOO 2 "colmajor" (fun _ => 9) (fun _ => 9) (fun _ => 9) exCoo4 =
      .ok ({ browptr := [0, 2, 3], bcolind := [0, 1, 0], vals := [1, 0, 0, 3, 0, 0, 2, 0, 4, 0, 0, 5], diagind := [0, 0]
             browendptr := [2, 3], nbrows := 2, nnzb := 3, nbstored := 3 }, [0, -1]) :=
  ⟨exCoo4_valid, rfl, by unfold NoDup; decide, rfl, by decide, by decide +kernel, by decide +kernel⟩

/-- A 4 × 4 coordinate matrix, ordered by rows and columns, whose blocks of size 2 all have an entry in their first row. -/
def exCoo4d : COO ℚ where
  entries := [⟨0, 0, 4⟩, ⟨0, 3, 1⟩, ⟨1, 1, 4⟩, ⟨2, 0, 1⟩, ⟨2, 2, 4⟩, ⟨3, 3, 4⟩]
  nnz := 6
  nrows := 4
  ncols := 4
  rowptr := [0, 2, 3, 5, 6]

theorem exCoo4d_valid : exCoo4d.Valid where
  nnz_eq := rfl
  ptr_len := rfl
  ptr_zero := rfl
  ptr_mono := by decide
  ptr_last := rfl
  row := by
    intro i hi k e h1 h2 h3
    have hi' : i < 4 := hi
    have hk : k < 6 := by
      have := (List.getElem?_eq_some_iff.mp h3).1
      exact this
    interval_cases i <;> interval_cases k <;>
      first
      | (exfalso; revert h1 h2; decide)
      | (simp only [exCoo4d, List.getElem?_cons_zero, List.getElem?_cons_succ, Option.some.injEq] at h3; subst h3; rfl)
  col := by decide

example : exCoo4d.Valid ∧ exCoo4d.ncols = exCoo4d.nrows ∧ exCoo4d.entries.Pairwise lexLt ∧ NoDup exCoo4d.entries ∧ exCoo4d.nrows % 2 = 0 ∧
    (∃ e ∈ exCoo4d.entries, e.rowind < 2) ∧ FirstRowTouches 2 exCoo4d.entries ∧ (∀ i < exCoo4d.nrows / 2, ∃ e ∈ exCoo4d.entries, InBlock 2 i i e) :=
  ⟨exCoo4d_valid, rfl, by unfold lexLt; decide, by unfold NoDup; decide, rfl, by decide, by unfold FirstRowTouches; decide, by
    intro i hi
    have hi' : i < 2 := hi
    interval_cases i
    · exact ⟨⟨0, 0, 4⟩, by decide, 0, 0, rfl, rfl, rfl, rfl⟩
    · exact ⟨⟨2, 2, 4⟩, by decide, 2, 2, rfl, rfl, rfl, rfl⟩⟩

/-- The comment in `convertToBSR` claims that rows ordered by columns give block-rows ordered by block columns. They do
not: entries ordered by row and column for which the block columns of the first block-row come out as 0, 2, 1. -/
theorem coo_to_bsr_unsorted :
    ∃ (A : COO ℚ) (B : SR ℚ) (d : List Int), A.entries.Pairwise lexLt ∧
      (∀ i < A.nrows, ∃ e ∈ A.entries, e.rowind = i ∧ e.colind = i) ∧
      getSRMatrixFromCOO 2 "rowmajor" (fun _ => 0) (fun _ => 0) (fun _ => 0) A = .ok (B, d) ∧
      B.bcolind = [0, 2, 1, 1, 2] ∧ ¬ B.Sorted := by
  refine ⟨{ entries := [⟨0, 0, 1⟩, ⟨0, 4, 1⟩, ⟨1, 1, 1⟩, ⟨1, 2, 1⟩, ⟨2, 2, 1⟩, ⟨3, 3, 1⟩, ⟨4, 4, 1⟩, ⟨5, 5, 1⟩]
            nnz := 8, nrows := 6, ncols := 6, rowptr := [0, 2, 4, 5, 6, 7, 8] }, _, _, ?_, ?_, rfl, ?_, ?_⟩
  · unfold lexLt; decide
  · decide
  · decide +kernel
  · intro h
    have := h 0 (by decide) 1 2 (by decide) (by decide) (by decide)
    revert this
    decide +kernel

/-- Of two entries with the same position CSR conversion keeps the sum and BSR conversion the last one. -/
theorem coo_duplicates_differ :
    ∃ A : COO ℚ, (∃ B d, getSRMatrixFromCOO 1 "rowmajor" (fun _ => 0) (fun _ => 0) (fun _ => 0) A = .ok (B, d) ∧ B.entry 0 0 = 3) ∧
      (∃ B d, getSRMatrixFromCOO 2 "rowmajor" (fun _ => 0) (fun _ => 0) (fun _ => 0) A = .ok (B, d) ∧
        B.bentry .rowMajor 2 0 0 = 2) :=
  ⟨{ entries := [⟨0, 0, 1⟩, ⟨0, 0, 2⟩, ⟨1, 1, 5⟩], nnz := 3, nrows := 2, ncols := 2, rowptr := [0, 2, 3] },
    ⟨_, _, rfl, by decide +kernel⟩, ⟨_, _, rfl, by decide +kernel⟩⟩

/-- When the first block-row is empty and there are entries, the repair of the row pointers takes the pointer 0 of the first block-row that has entries for that of an
empty one. -/
theorem bsrFixPtr_first_empty {nb : Nat} {key : Nat → Nat × Nat} {p : Nat} {s : BsrPass} {bl : List (Nat × Nat)}
    (h : PassInv nb key p s bl) (hkey : ∀ t < p, (key t).1 < nb) {r : Nat} (hr : ∃ t < p, (key t).1 = r) (hr0 : 0 < r)
    (hmin : ∀ t < p, r ≤ (key t).1) :
    Ok (wr s.browptr nb s.bnnz >>= bsrFixPtr nb) (fun b => b.length = nb + 1 ∧ b⟦r⟧ = b⟦r + 1⟧ ∧ b⟦r⟧ ≤ bl.length) := by
  have hall : ∀ q ∈ bl, r ≤ q.1 ∧ q.1 < nb := by
    intro q hq
    obtain ⟨t, ht, rfl⟩ := (h.mem q).mp hq
    exact ⟨hmin t ht, hkey t ht⟩
  have hrn : r < nb := by
    obtain ⟨t, ht, e⟩ := hr
    rw [← e]; exact hkey t ht
  have hzero : ∀ I ≤ r, cntLt bl I = 0 := by
    intro I hI
    unfold cntLt
    rw [List.countP_eq_zero]
    intro q hq
    have := (hall q hq).1
    simp only [decide_eq_true_eq]; omega
  have hpos : ∀ I, r < I → 0 < cntLt bl I := by
    intro I hI
    obtain ⟨t, ht, e⟩ := hr
    unfold cntLt
    rw [List.countP_pos_iff]
    exact ⟨key t, (h.mem _).mpr ⟨t, ht, rfl⟩, by simp only [decide_eq_true_eq]; omega⟩
  rw [wr_eq (by rw [h.ptr_len]; omega), ok_bind]
  have hstart : (s.browptr.set nb s.bnnz).length = nb + 1 := by simp [h.ptr_len]
  have hnb : (s.browptr.set nb s.bnnz)⟦nb⟧ = cntLt bl nb := by
    rw [get0_set_self (by rw [h.ptr_len]; omega), h.bnnz, cntLt_all fun q hq => (hall q hq).2]
  have hget : ∀ I < nb, (s.browptr.set nb s.bnnz)⟦I⟧ = s.browptr⟦I⟧ := fun I hI => get0_set_ne (by omega)
  unfold bsrFixPtr
  refine (forDown_ok (fun t (b : List Nat) => b.length = nb + 1 ∧ (∀ I ≤ nb, t ≤ I → b⟦I⟧ = cntLt bl (max I (r + 1))) ∧
    (∀ I < t, b⟦I⟧ = s.browptr⟦I⟧)) (show 1 ≤ nb by omega) ⟨hstart, fun I hI hI' => ?_, fun I hI => hget I hI⟩ ?_).mono ?_
  · have : I = nb := by omega
    subst this
    rw [hnb, Nat.max_eq_left (by omega)]
  · rintro t b h1 h2 ⟨hb, hge, hlt⟩
    rw [rd_eq (by omega), ok_bind, hlt t (by omega)]
    have htn : t < nb := by omega
    by_cases hp0 : s.browptr⟦t⟧ = 0
    · rw [if_pos hp0, rd_eq (by omega), ok_bind, wr_eq (by omega)]
      refine Ok.pure ⟨by simp [hb], fun I hI hI' => ?_, fun I hI => by rw [get0_set_ne (by omega)]; exact hlt I (by omega)⟩
      rcases Nat.lt_or_ge t I with h3 | h3
      · rw [get0_set_ne (by omega)]; exact hge I hI (by omega)
      · have : I = t := by omega
        subst this
        rw [get0_set_self (by omega), hge (I + 1) (by omega) (by omega)]
        rcases Nat.lt_or_ge r I with h4 | h4
        · rw [Nat.max_eq_left (by omega), Nat.max_eq_left (by omega)]
          have hex : ¬ ∃ u < p, (key u).1 = I := fun hex => by
            rw [h.ptr I htn hex] at hp0
            have := hpos I h4
            omega
          unfold cntLt
          refine List.countP_congr fun q hq => ?_
          have : q.1 ≠ I := fun e => by
            obtain ⟨u, hu, rfl⟩ := (h.mem q).mp hq
            exact hex ⟨u, hu, e⟩
          simp only [decide_eq_true_eq]; omega
        · rw [Nat.max_eq_right (by omega), Nat.max_eq_right (by omega)]
    · rw [if_neg hp0]
      refine Ok.pure ⟨hb, fun I hI hI' => ?_, fun I hI => hlt I (by omega)⟩
      rcases Nat.lt_or_ge t I with h3 | h3
      · exact hge I hI (by omega)
      · have : I = t := by omega
        subst this
        have hex : ∃ u < p, (key u).1 = I := by
          by_contra hex
          exact hp0 (h.ptr0 I htn hex)
        have hptr := h.ptr I htn hex
        have hrI : r < I := by
          by_contra hrI
          rw [hptr, hzero I (by omega)] at hp0
          exact hp0 rfl
        rw [hlt I (by omega), hptr, Nat.max_eq_left (by omega)]
  · rintro b ⟨hb, hge, -⟩
    have h1 := hge r (by omega) (by omega)
    have h2 := hge (r + 1) (by omega) (by omega)
    rw [Nat.max_eq_right (by omega)] at h1
    rw [Nat.max_self] at h2
    exact ⟨hb, by rw [h1, h2], by rw [h1]; exact cntLt_le bl _⟩

/-- **C39** does not hold when the first block-row is empty: the conversion of every such matrix with at least one entry aborts. -/
theorem coo_to_bsr_first_empty_aborts [Zero K] (A : COO K) (hA : A.Valid) (hsq : A.ncols = A.nrows) (bs : Nat) (hbs : 0 < bs)
    (hbs1 : bs ≠ 1) (hdiv : A.nrows % bs = 0) (hne : A.entries ≠ []) (hfirst : ∀ e ∈ A.entries, (bs : Int) ≤ e.rowind)
    {order : String} (hord : order = "rowmajor" ∨ order = "colmajor") (gi : Nat → Nat) (gd : Nat → Int) (gv : Nat → K) :
    getSRMatrixFromCOO bs order gi gd gv A = .error .abort := by
  have hsq' : A.ncols ≤ A.nrows := le_of_eq hsq
  have hF := hA.full hsq'
  have hlast : A.sr.browptr⟦A.sr.nbrows⟧ = A.nnz := hA.ptr_last
  obtain ⟨nb, hnb⟩ : ∃ nb, A.nrows / bs = nb := ⟨_, rfl⟩
  have hnb' : nb * bs = A.nrows := by rw [← hnb, Nat.div_mul_cancel (Nat.dvd_of_mod_eq_zero hdiv)]
  have hkey : ∀ t < A.nnz, (blkKey bs A t).1 < nb := by
    intro t ht
    have h3 : A.sr.rowOf t < A.nrows := (hF.rowOf_spec (p := t) (by omega)).1
    show A.sr.rowOf t / bs < nb
    rw [Nat.div_lt_iff_lt_mul hbs, hnb']; exact h3
  have hn0 : 0 < A.nnz := by
    rw [← hA.nnz_eq]; exact List.length_pos_iff.mpr hne
  have hr0 : 0 < (blkKey bs A 0).1 := by
    have h0 : 0 < A.entries.length := by rw [hA.nnz_eq]; exact hn0
    have h1 := (hA.rowOf_get hsq' h0).1
    have h2 := hfirst _ (List.getElem_mem h0)
    exact Nat.div_pos (by omega) hbs
  have hmin : ∀ t < A.nnz, (blkKey bs A 0).1 ≤ (blkKey bs A t).1 := fun t ht =>
    Nat.div_le_div_right (hA.rowOf_mono hsq' (Nat.zero_le t) ht)
  have e1 : forRange 0 nb (fun i (d : List Int) => wr d i (-1)) (fresh nb gd) = .ok (List.replicate nb (-1)) := by
    rw [forRange_fill (fun _ => (-1 : Int)) (by simp) (fun i hi l hl => wr_eq (by omega))]
    simp [List.map_const']
  have e2 : forRange 0 (nb + 1) (fun i (p : List Nat) => wr p i 0) (fresh (nb + 1) gi) = .ok (List.replicate (nb + 1) 0) := by
    rw [forRange_fill (fun _ => (0 : Nat)) (by simp) (fun i hi l hl => wr_eq (by omega))]
    simp [List.map_const']
  have hinit : PassInv nb (blkKey bs A) 0
      { browptr := List.replicate (nb + 1) 0, diagind := List.replicate nb (-1), bcolidxs := []
        tally := List.replicate nb false, bnnz := 0 } [] :=
    ⟨rfl, rfl, List.nodup_nil, by simp, List.Pairwise.nil, List.Pairwise.nil, by simp, by simp, by simp, by simp,
      fun I hI ⟨t, ht, _⟩ => by omega, fun I hI _ => by rw [get0_replicate],
      fun I hI => by rw [get0_replicate_of_lt hI]; simp⟩
  obtain ⟨s, es, bl, hinv⟩ := bsrPass_ok hA hsq' hbs hdiv _ (by rw [hnb]; exact hinit)
  rw [hnb] at hinv
  obtain ⟨bp, ebp, hbl, hbp, hble⟩ := bsrFixPtr_first_empty hinv hkey ⟨0, hn0, rfl⟩ hr0 hmin
  have e3 : forRange 0 (s.bnnz * bs * bs) (fun i (v : List K) => wr v i 0) (fresh (s.bnnz * bs * bs) gv) =
      .ok (List.replicate (s.bnnz * bs * bs) 0) := by
    rw [forRange_fill (fun _ => (0 : K)) (by simp) (fun i hi l hl => wr_eq (by omega))]
    simp [List.map_const']
  have e4 : forRange 0 s.bnnz (fun i (c : List Nat) => do
      let b ← rd s.bcolidxs i
      wr c i b) (fresh s.bnnz gi) = .ok (bl.map Prod.snd) := by
    rw [forRange_fill (fun i => s.bcolidxs⟦i⟧) (by simp)]
    · congr 1
      refine ext_get0 (by simp [hinv.bnnz]) fun k hk => ?_
      rw [get0_map_range _ (by simpa using hk), hinv.bcol]
    · intro i hi l hl
      have := hinv.bnnz
      rw [rd_eq (by rw [hinv.bcol, List.length_map]; omega), ok_bind, wr_eq (by omega)]
  have ev : ∀ (stor : Stor) (vals : List K), cooLoop A (bsrCopyEntry bs stor A bp (bl.map Prod.snd)) vals = .error .abort := by
    intro stor vals
    have hpe : 0 < A.entries.length := by rw [hA.nnz_eq]; exact hn0
    have hc := (hA.col _ (List.getElem_mem hpe)).1
    have hrn := hkey 0 hn0
    rw [hA.loop hsq', forRange_split (Nat.zero_le 1) hn0, forRange_succ_right (Nat.le_refl 0), forRange_self, ok_bind]
    have : bsrCopyEntry bs stor A bp (bl.map Prod.snd) (A.sr.rowOf 0) 0 vals = .error .abort := by
      unfold bsrCopyEntry
      rw [rd_getElem hpe, ok_bind, toIdx, if_pos hc, ok_bind]
      have hk1 : A.sr.rowOf 0 / bs = (blkKey bs A 0).1 := rfl
      dsimp only
      rw [hk1, rd_eq (by omega), ok_bind, rd_eq (by omega), ok_bind, ← hbp, if_neg (by rw [List.length_map]; omega), if_pos]
      unfold findFrom
      rw [List.drop_of_length_le (by simp), List.idxOf_nil, Nat.add_zero]
    rw [this, error_bind]
  have hrun : ∀ stor, convertToBSR bs stor gi gd gv A = .error .abort := by
    intro stor
    unfold convertToBSR
    rw [cassert_true (by simp [hsq]), ok_bind, cassert_true (by simp [hdiv]), ok_bind]
    dsimp only
    rw [hnb, e1, ok_bind, e2, ok_bind, es, ok_bind]
    obtain ⟨b1, hb1, hb2⟩ : ∃ b1, wr s.browptr nb s.bnnz = .ok b1 ∧ bsrFixPtr nb b1 = .ok bp := by
      cases hw : wr s.browptr nb s.bnnz with
      | error e => rw [hw] at ebp; cases ebp
      | ok b1 => rw [hw] at ebp; exact ⟨b1, rfl, ebp⟩
    rw [hb1, ok_bind, hb2, ok_bind, e3, ok_bind, e4, ok_bind, ev, error_bind]
  unfold getSRMatrixFromCOO
  rw [if_neg hbs1]
  rcases hord with h1 | h1
  · rw [if_pos h1]; exact hrun _
  · rw [if_neg (by rw [h1]; decide), if_pos h1]; exact hrun _

/-- A matrix that meets these conditions: diagonal entries in the second of two block-rows. -/
example : getSRMatrixFromCOO 2 "rowmajor" (fun _ => 0) (fun _ => 0) (fun _ => 0)
    ({ entries := [⟨2, 2, 1⟩, ⟨3, 3, 2⟩], nnz := 2, nrows := 4, ncols := 4, rowptr := [0, 0, 0, 1, 2] } : COO ℚ) = .error .abort := by
  decide +kernel

end Blasted
