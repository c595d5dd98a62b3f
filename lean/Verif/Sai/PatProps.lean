import Verif.Sai.PatLemmas

/-!
# The assembly patterns are correct (C43)
-/

namespace Blasted
open Finset

variable {V : Type _} {A : SR V}

/-- Result of the size loops: `ne i` equations for row `i`, `segs` the lists to be stored. -/
theorem sizes_ok (A : SR V) (ne : Nat → Nat) (Seg : Nat → Nat → List (Nat × Int)) {body : Nat → SaiSizes → C SaiSizes}
    (hb : ∀ i < A.nbrows, ∀ s : SaiSizes, i < s.nVars.length → i < s.nEqns.length → i + 1 < s.sairowptr.length →
      body i s = .ok ⟨s.nVars.set i (A.rowLen i), s.nEqns.set i (ne i), s.sairowptr.set (i + 1) (A.rowLen i),
        s.totalcoeffs + ((List.range (A.rowLen i)).flatMap (Seg i)).length⟩) :
    ∃ z, forRange 0 A.nbrows body ⟨List.replicate A.nbrows 0, List.replicate A.nbrows 0,
        List.replicate (A.nbrows + 1) 0, 0⟩ = .ok z ∧
      (z.nVars.length = A.nbrows ∧ ∀ i < A.nbrows, z.nVars⟦i⟧ = A.rowLen i) ∧
      (z.nEqns.length = A.nbrows ∧ ∀ i < A.nbrows, z.nEqns⟦i⟧ = ne i) ∧
      (z.sairowptr.length = A.nbrows + 1 ∧ z.sairowptr⟦0⟧ = 0 ∧ ∀ i < A.nbrows, z.sairowptr⟦i + 1⟧ = A.rowLen i) ∧
      z.totalcoeffs = (segsRow A.rowLen Seg A.nbrows).length := by
  refine forRange_ok (fun t (z : SaiSizes) =>
      (z.nVars.length = A.nbrows ∧ ∀ i < t, z.nVars⟦i⟧ = A.rowLen i) ∧
      (z.nEqns.length = A.nbrows ∧ ∀ i < t, z.nEqns⟦i⟧ = ne i) ∧
      (z.sairowptr.length = A.nbrows + 1 ∧ z.sairowptr⟦0⟧ = 0 ∧ ∀ i < t, z.sairowptr⟦i + 1⟧ = A.rowLen i) ∧
      z.totalcoeffs = (segsRow A.rowLen Seg t).length) (Nat.zero_le _) ?_ ?_
  · exact ⟨⟨by simp, by simp⟩, ⟨by simp, by simp⟩, ⟨by simp, get0_replicate _ _, by simp⟩, by simp [segsRow_zero]⟩
  · rintro t ⟨z1, z2, z3, z4⟩ - ht ⟨⟨a1, a2⟩, ⟨b1, b2⟩, ⟨c1, c0, c2⟩, d⟩
    simp only at a1 a2 b1 b2 c1 c0 c2 d
    rw [hb t ht _ (by simp only; omega) (by simp only; omega) (by simp only; omega)]
    refine Ok.pure ⟨⟨by simp [a1], fun i hi => ?_⟩, ⟨by simp [b1], fun i hi => ?_⟩,
      ⟨by simp [c1], ?_, fun i hi => ?_⟩, ?_⟩
    · by_cases e : i = t
      · subst e; simp only; exact get0_set_self (by omega)
      · simp only; rw [get0_set_ne (fun h => e h.symm)]; exact a2 i (by omega)
    · by_cases e : i = t
      · subst e; simp only; exact get0_set_self (by omega)
      · simp only; rw [get0_set_ne (fun h => e h.symm)]; exact b2 i (by omega)
    · simp only; rw [get0_set_ne (by omega)]; exact c0
    · by_cases e : i = t
      · subst e; simp only; exact get0_set_self (by omega)
      · simp only; rw [get0_set_ne (by omega)]; exact c2 i (by omega)
    · simp only
      rw [d, segsRow_succ, segsTo, List.length_append]

/-- The central equations of the rows before `t` have been recorded. -/
def CentralTo (n : Nat) (ce : Nat → Nat) (t : Nat) (l : List Int) : Prop :=
  l.length = n ∧ ∀ i < t, l⟦i⟧ = ((ce i : Nat) : Int)

theorem CentralTo.step {n : Nat} {ce : Nat → Nat} {t : Nat} {l : List Int} (h : CentralTo n ce t l) (ht : t < n) :
    CentralTo n ce (t + 1) (l.set t ((ce t : Nat) : Int)) := by
  refine ⟨by simp [h.1], fun i hi => ?_⟩
  by_cases e : i = t
  · subst e; exact get0_set_self (by have := h.1; omega)
  · rw [get0_set_ne (fun h => e h.symm)]; exact h.2 i (by omega)

/-! ### Complete SAI -/

theorem saiFillRow_ok (h : A.ViewOk) (hst : A.bcolind.length ≤ A.nbstored) {i : Nat} (hi : i < A.nbrows)
    {z : SaiSizes} (z1 : z.nVars.length = A.nbrows) (z2 : ∀ i < A.nbrows, z.nVars⟦i⟧ = A.rowLen i)
    (z3 : z.nEqns.length = A.nbrows) (z4 : ∀ i < A.nbrows, z.nEqns⟦i⟧ = (A.constraints i).length)
    {p b : List Nat} (hp : p.length = A.nbrows + 1) (hs : ∀ i ≤ A.nbrows, p⟦i⟧ = slotStart A.rowLen i)
    (hbl : b.length = slotStart A.rowLen A.nbrows + 1)
    (hb : ∀ i < A.nbrows, ∀ c ≤ A.rowLen i, b⟦slotStart A.rowLen i + c⟧ = (segsTo A.rowLen (saiSeg A) i c).length)
    {s : SaiFill} (hf : FilledTo A (saiSeg A) i 0 (s.bpos, s.browind))
    (hc : CentralTo A.nbrows (fun i => (A.constraints i).idxOf i) i s.localCentralRow) :
    Ok (saiFillRow A z p b i s) (fun s => FilledTo A (saiSeg A) (i + 1) 0 (s.bpos, s.browind) ∧
      CentralTo A.nbrows (fun i => (A.constraints i).idxOf i) (i + 1) s.localCentralRow) := by
  have hcl := hc.1
  have hmem := h.mem_constraints_self hi
  unfold saiFillRow
  rw [saiConstraints_eq h hi, ok_bind, rd_eq (by omega), ok_bind, z4 i hi, cassert_true (by simp), ok_bind,
    saiCentral_ok (A.constraints_sorted i) hmem (by omega), ok_bind, rd_eq (by simp; omega), ok_bind,
    get0_set_self (by omega), cassert_true (by rw [bne_iff_ne]; omega), ok_bind, rd_eq (by omega), ok_bind, z2 i hi,
    h.rd_ptr hi, ok_bind, h.rd_end hi, ok_bind, saiLri_ok h hi, ok_bind, saiCheckLocal_ok h hi, ok_bind]
  refine (saiStoreRow_ok h hi hp hs hbl hb hf).bind fun br hbr => ?_
  rw [saiCheckRow_ok h hst hi hp hs hbl hb hbr, ok_bind]
  exact Ok.pure ⟨hbr, hc.step hi⟩

theorem saiCheckPtr_ok (h : A.ViewOk) {p : List Nat} (hp : p.length = A.nbrows + 1)
    (hs : ∀ i ≤ A.nbrows, p⟦i⟧ = slotStart A.rowLen i) : saiCheckPtr A p (slotStart A.rowLen A.nbrows) = .ok () := by
  unfold saiCheckPtr
  refine forRange_check fun i _ hi => ?_
  have := slot_lt A.rowLen hi (h.row_pos hi)
  rw [rd_eq (by omega), ok_bind, hs i hi.le, cassert_true (by simp; omega), ok_bind]

theorem flatMap_saiSeg_length (i : Nat) :
    ((List.range (A.rowLen i)).flatMap (saiSeg A i)).length = (A.reach i).length := by
  rw [reach_length, List.length_flatMap]
  congr 1
  refine List.map_congr_left fun c _ => saiSeg_length i c

theorem mem_saiSeg {i c k : Nat} {e : Int} (hc : c < A.rowLen i) :
    (k, e) ∈ saiSeg A i c ↔ A.Has A.bcolind⟦A.browptr⟦i⟧ + c⟧ k ∧ 0 ≤ e ∧
      (A.constraints i)[e.toNat]? = some A.bcolind⟦k⟧ := by
  have hnd : (A.constraints i).Nodup := (A.constraints_sorted i).imp (fun h => Nat.ne_of_lt h)
  have hmem : ∀ k, A.Has A.bcolind⟦A.browptr⟦i⟧ + c⟧ k → A.bcolind⟦k⟧ ∈ A.constraints i := fun k hk =>
    SR.mem_constraints.mpr ⟨_, has_slot hc, k, hk, rfl⟩
  unfold saiSeg saiLen
  rw [List.mem_map]
  constructor
  · rintro ⟨u, hu, he⟩
    rw [List.mem_range] at hu
    obtain ⟨rfl, rfl⟩ := Prod.mk.inj he
    have hk := has_slot hu
    refine ⟨hk, by omega, ?_⟩
    rw [Int.toNat_natCast, List.getElem?_eq_getElem (List.idxOf_lt_length_of_mem (hmem _ hk)), List.getElem_idxOf]
  · rintro ⟨hk, he, hcs⟩
    refine ⟨k - A.browptr⟦A.bcolind⟦A.browptr⟦i⟧ + c⟧⟧, ?_, ?_⟩
    · rw [List.mem_range]; have := hk.1; have := hk.2; unfold SR.rowLen; omega
    · have e1 : A.browptr⟦A.bcolind⟦A.browptr⟦i⟧ + c⟧⟧ + (k - A.browptr⟦A.bcolind⟦A.browptr⟦i⟧ + c⟧⟧) = k := by
        have := hk.1; omega
      rw [e1]
      obtain ⟨hlt, hget⟩ := List.getElem?_eq_some_iff.mp hcs
      rw [← hget, hnd.idxOf_getElem]
      congr 1; omega

theorem saiSeg_pairwise (i c : Nat) : (saiSeg A i c).Pairwise fun p q => p.1 < q.1 := by
  unfold saiSeg
  rw [List.pairwise_map]
  refine List.Pairwise.imp ?_ List.pairwise_lt_range
  intro a b hab
  simp only; omega

/-- **C43**, `left_SAI_pattern`: for every matrix or triangular view with sorted rows and stored diagonal, the
call succeeds (no assertion or debug check fires) and for every row `i` the local problem has as equations
exactly the columns stored in the rows of row `i`'s pattern, in increasing order, and the pattern lists exactly the
entries of those rows with the right equation numbers. -/
theorem left_sai_pattern_correct (h : A.ViewOk) (hst : A.bcolind.length ≤ A.nbstored) :
    ∃ sp, leftSaiPattern A = .ok sp ∧ sp.Sized A.nbrows ∧ ∀ i < A.nbrows, ∃ cs : List Nat,
      cs.Pairwise (· < ·) ∧
      (∀ j, j ∈ cs ↔ ∃ k, A.Has i k ∧ ∃ l, A.Has A.bcolind⟦k⟧ l ∧ A.bcolind⟦l⟧ = j) ∧
      sp.Local A i cs := by
  obtain ⟨z, hz, ⟨z1, z2⟩, ⟨z3, z4⟩, ⟨z5, z6, z7⟩, z8⟩ := sizes_ok A (fun i => (A.constraints i).length) (saiSeg A)
    (body := saiSizeRow A) (fun i hi s h1 h2 h3 => by
      rw [saiSizeRow_eq h hi h1 h2 h3, flatMap_saiSeg_length])
  obtain ⟨p, hp, hpl, hps⟩ := scan_starts z5 z6 z7
  obtain ⟨b0, hb0, hcnt⟩ := forRange_ok (body := saiCountRow A p)
    (s := List.replicate (slotStart A.rowLen A.nbrows + 1) 0)
    (fun t b => Counted A.nbrows A.rowLen (saiLen A) t 0 b) (Nat.zero_le A.nbrows) Counted.start
    (fun t b _ ht hb => saiCountRow_ok h ht hpl hps hb)
  obtain ⟨b, hb, hbl, hbs, hbn, hbz⟩ := scan_segs (Seg := saiSeg A) hcnt.length hcnt.zero (fun i hi c hc => by
    rw [hcnt.rows i hi c hc, saiSeg_length])
  obtain ⟨f, hf, hff, hfc⟩ := forRange_ok (body := saiFillRow A z p b)
    (s := ⟨List.replicate A.nbrows (-1), List.replicate z.totalcoeffs 0, List.replicate z.totalcoeffs 0⟩)
    (fun t s => FilledTo A (saiSeg A) t 0 (s.bpos, s.browind) ∧
      CentralTo A.nbrows (fun i => (A.constraints i).idxOf i) t s.localCentralRow) (Nat.zero_le A.nbrows)
    ⟨⟨by simp [z8], by simp [z8], by simp [segsTo_zero, segsRow_zero], by simp [segsTo_zero, segsRow_zero]⟩,
      by simp, by simp⟩
    (fun t s _ ht hs => saiFillRow_ok h hst ht z1 z2 z3 z4 hpl hps hbl hbs hs.1 hs.2)
  refine ⟨⟨f.bpos, f.browind, b, p, z.nVars, z.nEqns, f.localCentralRow⟩, ?_, ?_, ?_⟩
  · unfold leftSaiPattern
    simp only
    rw [hz, ok_bind, hp, ok_bind, rd_eq (by omega), ok_bind, hps _ le_rfl, saiCheckPtr_ok h hpl hps, ok_bind, hb0,
      ok_bind, hb, ok_bind, ok_bind, rd_eq (by omega), ok_bind, hbn, z8, cassert_true (by simp), ok_bind, ← z8, hf,
      ok_bind]
  · rw [FilledTo, segsTo_zero] at hff
    exact sized_of (nv := A.rowLen) (Seg := saiSeg A) z1 z3 hfc.1 hpl z2 hbl hps hbz hbs hbn hff
  · rw [FilledTo, segsTo_zero] at hff
    intro i hi
    have hcol : ∀ c < A.rowLen i, SaiPattern.column ⟨f.bpos, f.browind, b, p, z.nVars, z.nEqns, f.localCentralRow⟩ i c
        = saiSeg A i c := fun c hc => column_eq (nv := A.rowLen) hps hbs hff hi hc
    refine ⟨A.constraints i, A.constraints_sorted i, fun j => SR.mem_constraints, z2 i hi, z4 i hi, ?_, ?_, ?_⟩
    · simp only
      rw [hfc.2 i hi]
      refine ⟨by omega, ?_⟩
      rw [Int.toNat_natCast, List.getElem?_eq_getElem (List.idxOf_lt_length_of_mem (h.mem_constraints_self hi)),
        List.getElem_idxOf]
    · intro c hc
      rw [hcol c hc]; exact saiSeg_pairwise i c
    · intro c hc k e
      rw [hcol c hc]; exact mem_saiSeg hc

/-! ### Incomplete SAI -/

/-- Positions of row `r` and of row `i` with equal columns. -/
def isaiPairList (A : SR V) (i r : Nat) : List (Nat × Nat) :=
  (List.range' A.browptr⟦r⟧ (A.rowLen r)).flatMap fun kk =>
    ((List.range' A.browptr⟦i⟧ (A.rowLen i)).filter fun ll => A.bcolind⟦ll⟧ = A.bcolind⟦kk⟧).map fun ll => (kk, ll)

theorem forList_filter {ι σ : Type _} (l : List ι) (P : ι → Prop) [DecidablePred P] (act : ι → σ → C σ) (s : σ) :
    forList l (fun x s => if P x then act x s else .ok s) s = forList (l.filter P) act s := by
  induction l generalizing s with
  | nil => rfl
  | cons x l ih =>
    rw [forList_cons, List.filter_cons]
    by_cases hx : P x
    · rw [if_pos hx, if_pos (by simpa using hx), forList_cons]
      congr 1; funext s'; exact ih s'
    · rw [if_neg hx, if_neg (by simpa using hx), ok_bind]; exact ih s

theorem isaiPairs_eq (h : A.ViewOk) {i r : Nat} (hi : i < A.nbrows) (hr : r < A.nbrows) {σ : Type _}
    (act : Nat → Nat → σ → C σ) (s : σ) :
    isaiPairs A i r act s = forList (isaiPairList A i r) (fun p => act p.1 p.2) s := by
  unfold isaiPairs isaiPairList
  rw [h.rd_ptr hr, ok_bind, h.rd_end hr, ok_bind, forList_flatMap, forRange]
  refine forList_congr fun kk hkk s => ?_
  rw [List.mem_range'_1] at hkk
  rw [h.rd_ptr hi, ok_bind, h.rd_end hi, ok_bind, forList_map, ← forList_filter, forRange]
  refine forList_congr fun ll hll s => ?_
  rw [List.mem_range'_1] at hll
  rw [h.rd_col hi ⟨hll.1, by omega⟩, ok_bind, h.rd_col hr ⟨hkk.1, by omega⟩, ok_bind]

/-- Segment of slot `c` of row `i`. -/
def isaiSeg (A : SR V) (i c : Nat) : List (Nat × Int) :=
  (isaiPairList A i A.bcolind⟦A.browptr⟦i⟧ + c⟧).map fun p => (p.1, (((p.2 - A.browptr⟦i⟧ : Nat)) : Int))

theorem isaiSeg_length (i c : Nat) : (isaiSeg A i c).length = (isaiPairList A i A.bcolind⟦A.browptr⟦i⟧ + c⟧).length := by
  simp [isaiSeg]

theorem forList_count {ι : Type _} (l : List ι) (t : Nat) :
    forList l (fun _ t => .ok (t + 1)) t = .ok (t + l.length) := by
  induction l generalizing t with
  | nil => rfl
  | cons x l ih => rw [forList_cons, ok_bind, ih, List.length_cons]; congr 1; omega

theorem isaiSizeRow_eq (h : A.ViewOk) {i : Nat} (hi : i < A.nbrows) {s : SaiSizes} (h1 : i < s.nVars.length)
    (h2 : i < s.nEqns.length) (h3 : i + 1 < s.sairowptr.length) :
    isaiSizeRow A i s = .ok ⟨s.nVars.set i (A.rowLen i), s.nEqns.set i (A.rowLen i),
      s.sairowptr.set (i + 1) (A.rowLen i),
      s.totalcoeffs + ((List.range (A.rowLen i)).flatMap (isaiSeg A i)).length⟩ := by
  unfold isaiSizeRow
  rw [h.rd_ptr hi, ok_bind, h.rd_end hi, ok_bind, wr_eq h1, ok_bind, rd_eq (by simpa using h1), ok_bind,
    get0_set_self h1, wr_eq h2, ok_bind, wr_eq h3, ok_bind]
  obtain ⟨t, ht, hte⟩ := forRange_ok (body := fun jj t => do
      let colind ← rd A.bcolind jj
      isaiPairs A i colind (fun _ _ t => .ok (t + 1)) t) (s := s.totalcoeffs)
    (fun jj t => t = s.totalcoeffs + ((List.range (jj - A.browptr⟦i⟧)).flatMap (isaiSeg A i)).length)
    (h.ptr_le hi) (by simp) (by
      intro jj t hlo hhi ht
      have hk : A.Has i jj := ⟨hlo, hhi⟩
      rw [h.rd_col hi hk, ok_bind, isaiPairs_eq h hi (h.col_lt' hi hk), forList_count]
      refine Ok.pure ?_
      have e : A.browptr⟦i⟧ + (jj - A.browptr⟦i⟧) = jj := by omega
      rw [show jj + 1 - A.browptr⟦i⟧ = jj - A.browptr⟦i⟧ + 1 by omega, List.range_succ, List.flatMap_append,
        List.length_append, ht]
      simp [isaiSeg_length, e, Nat.add_assoc])
  rw [ht, ok_bind, hte]
  rfl

theorem isaiCountRow_ok (h : A.ViewOk) {i : Nat} (hi : i < A.nbrows) {p nvs : List Nat}
    (hp : p.length = A.nbrows + 1) (hs : ∀ i ≤ A.nbrows, p⟦i⟧ = slotStart A.rowLen i)
    (z1 : nvs.length = A.nbrows) (z2 : ∀ i < A.nbrows, nvs⟦i⟧ = A.rowLen i) {s : List Nat × List Int}
    (hb : Counted A.nbrows A.rowLen (fun i c => (isaiSeg A i c).length) i 0 s.1)
    (hc : CentralTo A.nbrows (fun i => A.diagind⟦i⟧ - A.browptr⟦i⟧) i s.2) :
    Ok (isaiCountRow A p nvs i s) (fun s =>
      Counted A.nbrows A.rowLen (fun i c => (isaiSeg A i c).length) (i + 1) 0 s.1 ∧
      CentralTo A.nbrows (fun i => A.diagind⟦i⟧ - A.browptr⟦i⟧) (i + 1) s.2) := by
  have hdge := h.diag_ge i hi
  have hdlt := h.diag_lt i hi
  unfold isaiCountRow
  rw [rd_eq (by omega), ok_bind, h.rd_ptr hi, ok_bind, h.rd_end hi, ok_bind, hs i hi.le]
  refine Ok.bind (forRange_ok (fun jj (s : List Nat × List Int) =>
    Counted A.nbrows A.rowLen (fun i c => (isaiSeg A i c).length) i (jj - A.browptr⟦i⟧) s.1 ∧
    CentralTo A.nbrows (fun i => A.diagind⟦i⟧ - A.browptr⟦i⟧) (if A.diagind⟦i⟧ < jj then i + 1 else i) s.2)
    (h.ptr_le hi) ⟨by simpa using hb, by rw [if_neg (by omega)]; exact hc⟩ ?_) ?_
  · rintro jj ⟨b, l⟩ hlo hhi ⟨hb, hc⟩
    simp only at hb hc
    have hk : A.Has i jj := ⟨hlo, hhi⟩
    have hcl : jj - A.browptr⟦i⟧ < A.rowLen i := by unfold SR.rowLen; omega
    have hslot := slot_lt A.rowLen hi hcl
    have hst := hb.step hi hcl
    have e : A.browptr⟦i⟧ + (jj - A.browptr⟦i⟧) = jj := by omega
    have hbl := hb.length
    rw [h.rd_col hi hk, ok_bind, isaiPairs_eq h hi (h.col_lt' hi hk),
      inc_forList (q := slotStart A.rowLen i + (jj - A.browptr⟦i⟧) + 1) (by simp only; omega) (by
        intro _ _ b' hb'
        simp only at hb'
        rw [rd_eq (by omega), ok_bind, hs (i + 1) hi, slotStart_succ, cassert_true (by simpa using hcl), ok_bind,
          rd_eq (by omega), ok_bind, wr_eq (by omega)]), ok_bind]
    simp only [isaiSeg_length, e] at hst
    rw [show jj + 1 - A.browptr⟦i⟧ = jj - A.browptr⟦i⟧ + 1 by omega]
    by_cases hd : A.bcolind⟦jj⟧ = i
    · have hjd : jj = A.diagind⟦i⟧ := h.inj hi hk ⟨hdge, hdlt⟩ (by rw [hd, h.diag_col i hi])
      rw [if_neg (by omega)] at hc
      have hl := hc.1
      rw [if_pos hd, wr_eq (by simp only; omega), ok_bind]
      refine Ok.pure ⟨by simpa only [isaiSeg_length] using hst, ?_⟩
      rw [if_pos (by omega), hjd]
      exact hc.step hi
    · have hjd : jj ≠ A.diagind⟦i⟧ := by
        rintro rfl; exact hd (h.diag_col i hi)
      rw [if_neg hd, ok_bind]
      refine Ok.pure ⟨by simpa only [isaiSeg_length] using hst, ?_⟩
      by_cases h2 : A.diagind⟦i⟧ < jj
      · rw [if_pos h2] at hc; rw [if_pos (by omega)]; exact hc
      · rw [if_neg h2] at hc; rw [if_neg (by omega)]; exact hc
  · rintro ⟨b, l⟩ ⟨hb, hc⟩
    simp only at hb hc ⊢
    rw [if_pos hdlt] at hc
    have hl := hc.1
    have hv := hc.2 i (Nat.lt_succ_self i)
    simp only at hv
    rw [rd_eq (by omega), ok_bind, hv, cassert_true (by simp), ok_bind, rd_eq (by omega), ok_bind, z2 i hi,
      cassert_true (by unfold SR.rowLen; simp only [decide_eq_true_eq]; omega), ok_bind]
    exact Ok.pure ⟨Counted.row hb, hc⟩

theorem isaiFillRow_ok (h : A.ViewOk) {i : Nat} (hi : i < A.nbrows) {p b : List Nat}
    (hp : p.length = A.nbrows + 1) (hs : ∀ i ≤ A.nbrows, p⟦i⟧ = slotStart A.rowLen i)
    (hbl : b.length = slotStart A.rowLen A.nbrows + 1)
    (hb : ∀ i < A.nbrows, ∀ c ≤ A.rowLen i, b⟦slotStart A.rowLen i + c⟧ = (segsTo A.rowLen (isaiSeg A) i c).length)
    {s : List Nat × List Int} (hf : FilledTo A (isaiSeg A) i 0 s) :
    Ok (isaiFillRow A p b i s) (FilledTo A (isaiSeg A) (i + 1) 0) := by
  unfold isaiFillRow
  rw [rd_eq (by omega), ok_bind, h.rd_ptr hi, ok_bind, h.rd_end hi, ok_bind, hs i hi.le]
  refine Ok.mono (forRange_ok (fun jj s => FilledTo A (isaiSeg A) i (jj - A.browptr⟦i⟧) s)
    (h.ptr_le hi) (by simpa using hf) ?_) (fun s' hs' => ?_)
  · intro jj s hlo hhi hf
    have hk : A.Has i jj := ⟨hlo, hhi⟩
    have hc := h.col_lt' hi hk
    have hcl : jj - A.browptr⟦i⟧ < A.rowLen i := by unfold SR.rowLen; omega
    have hslot := slot_lt A.rowLen hi hcl
    have hjj : A.browptr⟦i⟧ + (jj - A.browptr⟦i⟧) = jj := by omega
    have htot := segsTo_length_le A.rowLen (isaiSeg A) hi hcl
    rw [isaiSeg_length, hjj] at htot
    rw [h.rd_col hi hk, ok_bind, rd_eq (by omega), ok_bind, isaiPairs_eq h hi hc, hb i hi _ hcl.le]
    refine Ok.bind (forList_ok (fun done (r : (List Nat × List Int) × Nat) =>
      SegFilled (segsRow A.rowLen (isaiSeg A) A.nbrows).length (segsTo A.rowLen (isaiSeg A) i (jj - A.browptr⟦i⟧) ++
        done.map fun p => (p.1, (((p.2 - A.browptr⟦i⟧ : Nat)) : Int))) r.1 ∧ r.2 = done.length)
      ⟨by simpa using hf, rfl⟩ ?_) ?_
    · rintro done ⟨kk, ll⟩ rest ⟨r, t⟩ hl ⟨hr, ht⟩
      simp only at hr ht ⊢
      subst ht
      have hlen : (segsTo A.rowLen (isaiSeg A) i (jj - A.browptr⟦i⟧) ++
          done.map fun p => (p.1, (((p.2 - A.browptr⟦i⟧ : Nat)) : Int))).length =
          (segsTo A.rowLen (isaiSeg A) i (jj - A.browptr⟦i⟧)).length + done.length := by simp
      have hlt : done.length < (isaiPairList A i A.bcolind⟦jj⟧).length := by rw [hl]; simp
      have hst := hr.step (by rw [hlen]; omega) kk (((ll - A.browptr⟦i⟧ : Nat)) : Int)
      obtain ⟨r1, r2, -, -⟩ := hr
      rw [wr_eq (by omega), ok_bind, wr_eq (by omega), ok_bind]
      rw [hlen] at hst
      exact Ok.pure ⟨by simpa using hst, by simp⟩
    · rintro ⟨r, t⟩ ⟨hr, -⟩
      refine Ok.pure ?_
      rw [FilledTo, show jj + 1 - A.browptr⟦i⟧ = jj - A.browptr⟦i⟧ + 1 by omega, segsTo_succ, isaiSeg, hjj]
      exact hr
  · rw [FilledTo, segsTo_zero, segsRow_succ]
    exact hs'

theorem mem_isaiSeg {i c k : Nat} {e : Int} : (k, e) ∈ isaiSeg A i c ↔
    A.Has A.bcolind⟦A.browptr⟦i⟧ + c⟧ k ∧ 0 ≤ e ∧ (A.rowCols i)[e.toNat]? = some A.bcolind⟦k⟧ := by
  unfold isaiSeg isaiPairList
  simp only [List.mem_map, List.mem_flatMap, List.mem_filter, List.mem_range'_1, decide_eq_true_eq, SR.Has]
  constructor
  · rintro ⟨⟨kk, ll⟩, ⟨k', hk', l', ⟨hl', hcol⟩, he'⟩, he⟩
    obtain ⟨rfl, rfl⟩ := Prod.mk.inj he'
    obtain ⟨rfl, rfl⟩ := Prod.mk.inj he
    simp only at *
    refine ⟨⟨hk'.1, by unfold SR.rowLen at hk'; omega⟩, by omega, ?_⟩
    have e1 : A.browptr⟦i⟧ + (l' - A.browptr⟦i⟧) = l' := by omega
    rw [Int.toNat_natCast, SR.rowCols, List.getElem?_map, List.getElem?_range' (by omega), Option.map_some, Nat.one_mul,
      e1, hcol]
  · rintro ⟨⟨h1, h2⟩, h3, h4⟩
    rw [SR.rowCols, List.getElem?_map, Option.map_eq_some_iff] at h4
    obtain ⟨l, hl, hcol⟩ := h4
    obtain ⟨hlt, hget⟩ := List.getElem?_eq_some_iff.mp hl
    rw [List.getElem_range', Nat.one_mul] at hget
    rw [List.length_range'] at hlt
    exact ⟨(k, l), ⟨k, ⟨h1, by unfold SR.rowLen; omega⟩, l, ⟨⟨by omega, by omega⟩, hcol⟩, rfl⟩,
      by simp only [Prod.mk.injEq, true_and]; omega⟩

theorem isaiSeg_pairwise (h : A.ViewOk) {i c : Nat} (hi : i < A.nbrows) :
    (isaiSeg A i c).Pairwise fun p q => p.1 < q.1 := by
  unfold isaiSeg isaiPairList
  rw [List.pairwise_map, List.pairwise_flatMap]
  constructor
  · intro k _
    rw [List.pairwise_map]
    refine List.Pairwise.imp_of_mem ?_ (List.Pairwise.filter _ (List.pairwise_lt_range' _ Nat.one_pos))
    intro a b ha hb hab
    simp only [List.mem_filter, List.mem_range'_1, decide_eq_true_eq] at ha hb
    have := h.sorted i hi a b ha.1.1 hab (by unfold SR.rowLen at hb; omega)
    omega
  · refine List.Pairwise.imp ?_ (List.pairwise_lt_range' _ Nat.one_pos)
    intro a b hab x hx y hy
    obtain ⟨_, _, rfl⟩ := List.mem_map.mp hx
    obtain ⟨_, _, rfl⟩ := List.mem_map.mp hy
    exact hab

/-- **C43**, `left_incomplete_SAI_pattern`: for every matrix or triangular view with sorted rows and stored
diagonal, the call succeeds and for every row `i` the equations are the columns of row `i` itself, and the
pattern lists exactly the entries lying in the rows and columns of row `i`'s pattern. -/
theorem left_incomplete_sai_pattern_correct (h : A.ViewOk) :
    ∃ sp, leftIsaiPattern A = .ok sp ∧ sp.Sized A.nbrows ∧ ∀ i < A.nbrows, sp.Local A i (A.rowCols i) := by
  obtain ⟨z, hz, ⟨z1, z2⟩, ⟨z3, z4⟩, ⟨z5, z6, z7⟩, z8⟩ := sizes_ok A A.rowLen (isaiSeg A)
    (body := isaiSizeRow A) (fun i hi s h1 h2 h3 => isaiSizeRow_eq h hi h1 h2 h3)
  obtain ⟨p, hp, hpl, hps⟩ := scan_starts z5 z6 z7
  obtain ⟨cl, hcl, hcnt, hcen⟩ := forRange_ok (body := isaiCountRow A p z.nVars)
    (s := (List.replicate (slotStart A.rowLen A.nbrows + 1) 0, List.replicate A.nbrows (-1)))
    (fun t (s : List Nat × List Int) => Counted A.nbrows A.rowLen (fun i c => (isaiSeg A i c).length) t 0 s.1 ∧
      CentralTo A.nbrows (fun i => A.diagind⟦i⟧ - A.browptr⟦i⟧) t s.2) (Nat.zero_le A.nbrows)
    ⟨Counted.start, by simp, by simp⟩
    (fun t s _ ht hs => isaiCountRow_ok h ht hpl hps z1 z2 hs.1 hs.2)
  obtain ⟨b, hb, hbl, hbs, hbn, hbz⟩ := scan_segs (Seg := isaiSeg A) hcnt.length hcnt.zero hcnt.rows
  obtain ⟨f, hf, hff⟩ := forRange_ok (body := isaiFillRow A p b)
    (s := (List.replicate z.totalcoeffs 0, List.replicate z.totalcoeffs 0))
    (fun t s => FilledTo A (isaiSeg A) t 0 s) (Nat.zero_le A.nbrows)
    ⟨by simp [z8], by simp [z8], by simp [segsTo_zero, segsRow_zero], by simp [segsTo_zero, segsRow_zero]⟩
    (fun t s _ ht hs => isaiFillRow_ok h ht hpl hps hbl hbs hs)
  rw [FilledTo, segsTo_zero] at hff
  refine ⟨⟨f.1, f.2, b, p, z.nVars, z.nEqns, cl.2⟩, ?_, ?_, ?_⟩
  · unfold leftIsaiPattern
    simp only
    rw [hz, ok_bind, hp, ok_bind, rd_eq (by omega), ok_bind, hps _ le_rfl, hcl, ok_bind, hb, ok_bind,
      rd_eq (by omega), ok_bind, hbn, z8, cassert_true (by simp), ok_bind, ← z8, hf, ok_bind]
  · exact sized_of (nv := A.rowLen) (Seg := isaiSeg A) z1 z3 hcen.1 hpl z2 hbl hps hbz hbs hbn hff
  · intro i hi
    have hcol : ∀ c < A.rowLen i, SaiPattern.column ⟨f.1, f.2, b, p, z.nVars, z.nEqns, cl.2⟩ i c
        = isaiSeg A i c := fun c hc => column_eq (nv := A.rowLen) hps hbs hff hi hc
    have hdge := h.diag_ge i hi
    have hdlt := h.diag_lt i hi
    refine ⟨z2 i hi, by rw [SR.rowCols_length]; exact z4 i hi, ?_, ?_, ?_⟩
    · simp only
      rw [hcen.2 i hi]
      simp only
      refine ⟨by omega, ?_⟩
      have e1 : A.browptr⟦i⟧ + (A.diagind⟦i⟧ - A.browptr⟦i⟧) = A.diagind⟦i⟧ := by omega
      rw [Int.toNat_natCast, SR.rowCols, List.getElem?_map, List.getElem?_range' (by unfold SR.rowLen; omega),
        Option.map_some, Nat.one_mul, e1, h.diag_col i hi]
    · intro c hc
      rw [hcol c hc]; exact isaiSeg_pairwise h hi
    · intro c hc k e
      rw [hcol c hc]; exact mem_isaiSeg

end Blasted
