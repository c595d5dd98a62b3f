import Verif.Sai.Lemmas

/-!
# The phases of the pattern computations
-/

namespace Blasted
open Finset

variable {V : Type _} {A : SR V}

/-! ### Counting -/

/-- Increments of one array cell. -/
theorem inc_forList {ι : Type _} {l : List ι} {q : Nat} {body : ι → List Nat → C (List Nat)} {b : List Nat}
    (hq : q < b.length) (h : ∀ x ∈ l, ∀ b' : List Nat, b'.length = b.length →
      body x b' = .ok (b'.set q (b'⟦q⟧ + 1))) :
    forList l body b = .ok (b.set q (b⟦q⟧ + l.length)) := by
  induction l generalizing b with
  | nil =>
    rw [forList_nil]
    congr 1
    refine ext_get0 (by simp) fun i _ => ?_
    rw [get0_set]
    split
    · rename_i h; rw [← h.1]; simp
    · rfl
  | cons x l ih =>
    rw [forList_cons, h x (by simp) b rfl, ok_bind, ih (by simpa using hq)
      (fun y hy b' hb' => h y (by simp [hy]) b' (by simpa using hb')), get0_set_self hq, List.set_set,
      List.length_cons]
    congr 2; omega

section count
variable {n : Nat} {nv : Nat → Nat} {len : Nat → Nat → Nat}

/-- Rows before `t` and the first `c` slots of row `t` have been counted. -/
structure Counted (n : Nat) (nv : Nat → Nat) (len : Nat → Nat → Nat) (t c : Nat) (b : List Nat) : Prop where
  length : b.length = slotStart nv n + 1
  zero : b⟦0⟧ = 0
  rows : ∀ i < t, ∀ c' < nv i, b⟦slotStart nv i + c' + 1⟧ = len i c'
  cur : ∀ c' < c, b⟦slotStart nv t + c' + 1⟧ = len t c'
  rest : ∀ q, slotStart nv t + c ≤ q → b⟦q + 1⟧ = 0

theorem Counted.start : Counted n nv len 0 0 (List.replicate (slotStart nv n + 1) 0) :=
  ⟨by simp, get0_replicate _ _, by simp, by simp, fun q _ => get0_replicate _ _⟩

theorem Counted.step {t c : Nat} {b : List Nat} (h : Counted n nv len t c b) (ht : t < n) (hc : c < nv t) :
    Counted n nv len t (c + 1) (b.set (slotStart nv t + c + 1) (b⟦slotStart nv t + c + 1⟧ + len t c)) := by
  have hl := slot_lt nv ht hc
  have hlen := h.length
  refine ⟨by simp [h.length], ?_, fun i hi c' hc' => ?_, fun c' hc' => ?_, fun q hq => ?_⟩
  · rw [get0_set_ne (by omega)]; exact h.zero
  · have := slot_lt nv hi hc'
    rw [get0_set_ne (by omega)]; exact h.rows i hi c' hc'
  · by_cases e : c' = c
    · subst e
      rw [get0_set_self (by omega), h.rest _ le_rfl, Nat.zero_add]
    · rw [get0_set_ne (by omega)]; exact h.cur c' (by omega)
  · rw [get0_set_ne (by omega)]; exact h.rest q (by omega)

theorem Counted.row {t : Nat} {b : List Nat} (h : Counted n nv len t (nv t) b) : Counted n nv len (t + 1) 0 b := by
  refine ⟨h.length, h.zero, fun i hi c hc => ?_, by simp, fun q hq => h.rest q ?_⟩
  · by_cases e : i = t
    · subst e; exact h.cur c hc
    · exact h.rows i (by omega) c hc
  · rw [slotStart_succ] at hq; omega

end count

/-! ### Complete SAI -/

/-- Length of the segment of slot `c` of row `i`. -/
def saiLen (A : SR V) (i c : Nat) : Nat := A.rowLen A.bcolind⟦A.browptr⟦i⟧ + c⟧

/-- Segment of slot `c` of row `i`. -/
def saiSeg (A : SR V) (i c : Nat) : List (Nat × Int) :=
  (List.range (saiLen A i c)).map fun u =>
    (A.browptr⟦A.bcolind⟦A.browptr⟦i⟧ + c⟧⟧ + u,
      (((A.constraints i).idxOf A.bcolind⟦A.browptr⟦A.bcolind⟦A.browptr⟦i⟧ + c⟧⟧ + u⟧ : Nat) : Int))

theorem saiSeg_length (i c : Nat) : (saiSeg A i c).length = saiLen A i c := by simp [saiSeg]

theorem has_slot {i c : Nat} (hc : c < A.rowLen i) : A.Has i (A.browptr⟦i⟧ + c) := by
  unfold SR.rowLen at hc
  exact ⟨by omega, by omega⟩

theorem saiCountRow_ok (h : A.ViewOk) {i : Nat} (hi : i < A.nbrows) {p b : List Nat}
    (hp : p.length = A.nbrows + 1) (hs : ∀ i ≤ A.nbrows, p⟦i⟧ = slotStart A.rowLen i)
    (hb : Counted A.nbrows A.rowLen (saiLen A) i 0 b) :
    Ok (saiCountRow A p i b) (Counted A.nbrows A.rowLen (saiLen A) (i + 1) 0) := by
  unfold saiCountRow
  rw [h.rd_ptr hi, ok_bind, h.rd_end hi, ok_bind]
  refine Ok.mono (forRange_ok (fun jj b => Counted A.nbrows A.rowLen (saiLen A) i (jj - A.browptr⟦i⟧) b)
    (h.ptr_le hi) (by simpa using hb) ?_) (fun b' hb' => Counted.row hb')
  intro jj b hlo hhi hb
  have hk : A.Has i jj := ⟨hlo, hhi⟩
  have hc := h.col_lt' hi hk
  have hcl : jj - A.browptr⟦i⟧ < A.rowLen i := by unfold SR.rowLen; omega
  have hslot := slot_lt A.rowLen hi hcl
  rw [h.rd_col hi hk, ok_bind, h.rd_ptr hc, ok_bind, h.rd_end hc, ok_bind]
  have hst := hb.step hi hcl
  have e : A.browptr⟦i⟧ + (jj - A.browptr⟦i⟧) = jj := by omega
  have hsub : jj + 1 - A.browptr⟦i⟧ = jj - A.browptr⟦i⟧ + 1 := by omega
  simp only [saiLen, e] at hst
  rw [hsub]
  refine ⟨_, inc_forList (q := slotStart A.rowLen i + (jj - A.browptr⟦i⟧) + 1) (by have := hb.length; omega) ?_, ?_⟩
  · intro _ _ b' hb'
    have := hb.length
    rw [rd_eq (by omega), ok_bind, rd_eq (by omega), ok_bind, hs i hi.le, hs (i + 1) hi, slotStart_succ]
    rw [cassert_true (by simpa using hcl), ok_bind, rd_eq (by omega), ok_bind, wr_eq (by omega)]
  · rw [List.length_range']
    exact hst

theorem saiCentral_ok {cs : List Nat} {i : Nat} {l : List Int} (hcs : cs.Pairwise (· < ·)) (hi : i ∈ cs)
    (hl : i < l.length) : saiCentral cs.length cs i l = .ok (l.set i (cs.idxOf i : Int)) := by
  have hidx := List.idxOf_lt_length_of_mem hi
  have hnd : cs.Nodup := hcs.imp (fun h => Nat.ne_of_lt h)
  unfold saiCentral
  obtain ⟨v, hv, e⟩ := forRange_ok (body := fun icons lcr => do
      let c ← rd cs icons
      if i = c then wr lcr i (icons : Int) else .ok lcr) (s := l)
    (fun t v => v = if cs.idxOf i < t then l.set i (cs.idxOf i : Int) else l) (Nat.zero_le cs.length) (by simp) (by
      intro t v _ ht hv
      rw [rd_getElem ht, ok_bind]
      by_cases e : i = cs[t]
      · have e' : cs.idxOf i = t := by rw [e, hnd.idxOf_getElem]
        rw [if_neg (by omega)] at hv
        rw [if_pos e, hv, wr_eq hl]
        refine Ok.pure ?_
        rw [if_pos (by omega), e']
      · rw [if_neg e]
        refine Ok.pure ?_
        rw [hv]
        have hne : cs.idxOf i ≠ t := by
          intro e'
          apply e
          have := List.getElem_idxOf hidx
          simp only [e'] at this
          exact this.symm
        by_cases h2 : cs.idxOf i < t
        · rw [if_pos h2, if_pos (by omega)]
        · rw [if_neg h2, if_neg (by omega)])
  rw [hv, e, if_pos hidx]

theorem saiLocalRows_ok (h : A.ViewOk) {cs : List Nat} {r : Nat} (hr : r < A.nbrows) (hcs : cs.Pairwise (· < ·))
    (hsub : ∀ j ∈ A.rowCols r, j ∈ cs) :
    saiLocalRows A cs r = .ok ((A.rowCols r).map fun j => ((cs.idxOf j : Nat) : Int)) := by
  have hnd : cs.Nodup := hcs.imp (fun h => Nat.ne_of_lt h)
  have hmem : ∀ u < A.rowLen r, A.bcolind⟦A.browptr⟦r⟧ + u⟧ ∈ cs := by
    intro u hu
    refine hsub _ (List.mem_map.mpr ⟨_, ?_, rfl⟩)
    rw [List.mem_range'_1]; omega
  unfold saiLocalRows
  rw [h.rd_ptr hr, ok_bind, h.rd_end hr, ok_bind]
  obtain ⟨v, hv, hl, hval⟩ := forRange_ok (body := fun i lr =>
    forRange A.browptr⟦r⟧ A.browendptr⟦r⟧ (fun kk lr => do
      let c ← rd cs i
      let j ← rd A.bcolind kk
      if c = j then wr lr (kk - A.browptr⟦r⟧) (i : Int) else .ok lr) lr)
    (s := List.replicate (A.browendptr⟦r⟧ - A.browptr⟦r⟧) (-1))
    (fun t lr => lr.length = A.rowLen r ∧ ∀ u < A.rowLen r, lr⟦u⟧ =
      if cs.idxOf A.bcolind⟦A.browptr⟦r⟧ + u⟧ < t then ((cs.idxOf A.bcolind⟦A.browptr⟦r⟧ + u⟧ : Nat) : Int) else -1)
    (Nat.zero_le cs.length) ⟨by simp [SR.rowLen], fun u hu => by
      rw [get0_replicate_of_lt (by unfold SR.rowLen at hu; exact hu)]; simp⟩ (by
      rintro t lr _ ht ⟨hl, hval⟩
      refine Ok.mono (forRange_ok (fun kk lr' => lr'.length = A.rowLen r ∧ ∀ u < A.rowLen r, lr'⟦u⟧ =
        if cs.idxOf A.bcolind⟦A.browptr⟦r⟧ + u⟧ < (if A.browptr⟦r⟧ + u < kk then t + 1 else t)
        then ((cs.idxOf A.bcolind⟦A.browptr⟦r⟧ + u⟧ : Nat) : Int) else -1) (h.ptr_le hr)
        ⟨hl, fun u hu => by rw [if_neg (show ¬ A.browptr⟦r⟧ + u < A.browptr⟦r⟧ by omega)]; exact hval u hu⟩ ?_) ?_
      · rintro kk lr' hlo hhi ⟨hl', hval'⟩
        rw [rd_getElem ht, ok_bind, h.rd_col hr ⟨hlo, hhi⟩, ok_bind]
        have hmk := hmem (kk - A.browptr⟦r⟧) (by unfold SR.rowLen; omega)
        have hk : A.browptr⟦r⟧ + (kk - A.browptr⟦r⟧) = kk := by omega
        rw [hk] at hmk
        by_cases e : cs[t] = A.bcolind⟦kk⟧
        · have hidx : cs.idxOf A.bcolind⟦kk⟧ = t := by rw [← e, hnd.idxOf_getElem]
          have hlt : kk - A.browptr⟦r⟧ < lr'.length := by rw [hl']; unfold SR.rowLen; omega
          rw [if_pos e, wr_eq hlt]
          refine Ok.pure ⟨by simp [hl'], fun u hu => ?_⟩
          by_cases eu : u = kk - A.browptr⟦r⟧
          · subst eu
            rw [get0_set_self hlt, hk, if_pos (Nat.lt_succ_self kk), if_pos (by omega), hidx]
          · rw [get0_set_ne (fun e => eu e.symm), hval' u hu]
            by_cases h3 : A.browptr⟦r⟧ + u < kk
            · rw [if_pos h3, if_pos (show A.browptr⟦r⟧ + u < kk + 1 by omega)]
            · rw [if_neg h3, if_neg (show ¬ A.browptr⟦r⟧ + u < kk + 1 by omega)]
        · rw [if_neg e]
          refine Ok.pure ⟨hl', fun u hu => ?_⟩
          rw [hval' u hu]
          by_cases eu : A.browptr⟦r⟧ + u = kk
          · rw [eu, if_neg (show ¬ kk < kk by omega), if_pos (show kk < kk + 1 by omega)]
            have hne : cs.idxOf A.bcolind⟦kk⟧ ≠ t := by
              intro e'
              apply e
              have := List.getElem_idxOf (List.idxOf_lt_length_of_mem hmk)
              simp only [e'] at this
              exact this
            by_cases h2 : cs.idxOf A.bcolind⟦kk⟧ < t
            · rw [if_pos h2, if_pos (by omega)]
            · rw [if_neg h2, if_neg (by omega)]
          · by_cases h3 : A.browptr⟦r⟧ + u < kk
            · rw [if_pos h3, if_pos (show A.browptr⟦r⟧ + u < kk + 1 by omega)]
            · rw [if_neg h3, if_neg (show ¬ A.browptr⟦r⟧ + u < kk + 1 by omega)]
      · rintro lr' ⟨hl', hval'⟩
        refine ⟨hl', fun u hu => ?_⟩
        rw [hval' u hu, if_pos (show A.browptr⟦r⟧ + u < A.browendptr⟦r⟧ by unfold SR.rowLen at hu; omega)])
  rw [hv]
  congr 1
  refine ext_get0 (by simp [hl, SR.rowCols]) fun u hu => ?_
  rw [hl] at hu
  have e : ((A.rowCols r).map fun j => ((cs.idxOf j : Nat) : Int))⟦u⟧ =
      ((cs.idxOf A.bcolind⟦A.browptr⟦r⟧ + u⟧ : Nat) : Int) := by
    rw [get0_eq_getElem (by simpa [SR.rowCols] using hu)]
    simp [SR.rowCols]
  rw [hval u hu, if_pos (List.idxOf_lt_length_of_mem (hmem u hu)), e]

theorem idx_bound {cs : List Nat} {j : Nat} (h : j ∈ cs) :
    (0 : Int) ≤ ((cs.idxOf j : Nat) : Int) ∧ ((cs.idxOf j : Nat) : Int) < (cs.length : Int) :=
  ⟨by omega, by have := List.idxOf_lt_length_of_mem h; omega⟩

/-- The local rows of all slots of row `i`. -/
def saiLri (A : SR V) (i : Nat) : List (List Int) :=
  (A.rowCols i).map fun r => (A.rowCols r).map fun j => (((A.constraints i).idxOf j : Nat) : Int)

theorem saiLri_get {i jj : Nat} (hk : A.Has i jj) :
    rd (saiLri A i) (jj - A.browptr⟦i⟧) =
      .ok ((A.rowCols A.bcolind⟦jj⟧).map fun j => (((A.constraints i).idxOf j : Nat) : Int)) := by
  have := hk.1; have := hk.2
  have hl : jj - A.browptr⟦i⟧ < (saiLri A i).length := by simp [saiLri, SR.rowCols, SR.rowLen]; omega
  rw [rd_getElem hl]
  have e : A.browptr⟦i⟧ + (jj - A.browptr⟦i⟧) = jj := by omega
  simp [saiLri, SR.rowCols, e]

theorem rowCols_sub (i : Nat) {jj : Nat} (hk : A.Has i jj) : ∀ j ∈ A.rowCols A.bcolind⟦jj⟧, j ∈ A.constraints i := by
  intro j hj
  obtain ⟨l, hl, rfl⟩ := List.mem_map.mp hj
  rw [List.mem_range'_1] at hl
  refine SR.mem_constraints.mpr ⟨jj, hk, l, ⟨hl.1, ?_⟩, rfl⟩
  unfold SR.rowLen at hl; omega

theorem saiLri_ok (h : A.ViewOk) {i : Nat} (hi : i < A.nbrows) :
    forRange A.browptr⟦i⟧ A.browendptr⟦i⟧ (fun jj lri => do
      let col ← rd A.bcolind jj
      let lr ← saiLocalRows A (A.constraints i) col
      wr lri (jj - A.browptr⟦i⟧) lr) (List.replicate (A.rowLen i) []) = .ok (saiLri A i) := by
  obtain ⟨v, hv, hl, hval⟩ := forRange_ok (body := fun jj lri => do
      let col ← rd A.bcolind jj
      let lr ← saiLocalRows A (A.constraints i) col
      wr lri (jj - A.browptr⟦i⟧) lr) (s := List.replicate (A.rowLen i) [])
    (fun jj lri => lri.length = A.rowLen i ∧ ∀ u, A.browptr⟦i⟧ + u < jj → lri[u]? = (saiLri A i)[u]?)
    (h.ptr_le hi) ⟨by simp, by intro u hu; omega⟩ (by
      rintro jj lri hlo hhi ⟨hl, hval⟩
      have hk : A.Has i jj := ⟨hlo, hhi⟩
      have hlt : jj - A.browptr⟦i⟧ < lri.length := by rw [hl]; unfold SR.rowLen; omega
      rw [h.rd_col hi hk, ok_bind, saiLocalRows_ok h (h.col_lt' hi hk) (A.constraints_sorted i) (rowCols_sub i hk),
        ok_bind, wr_eq hlt]
      refine Ok.pure ⟨by simp [hl], fun u hu => ?_⟩
      rw [List.getElem?_set]
      by_cases e : jj - A.browptr⟦i⟧ = u
      · subst e
        rw [if_pos rfl, if_pos hlt]
        have := saiLri_get hk
        unfold rd at this
        split at this
        · rename_i v hv; rw [hv]; cases this; rfl
        · cases this
      · rw [if_neg e]; exact hval u (by omega))
  rw [hv]
  congr 1
  apply List.ext_getElem?
  intro u
  by_cases hu : A.browptr⟦i⟧ + u < A.browendptr⟦i⟧
  · exact hval u hu
  · rw [List.getElem?_eq_none (by rw [hl]; unfold SR.rowLen; omega),
      List.getElem?_eq_none (by simp [saiLri, SR.rowCols, SR.rowLen]; omega)]

/-- A loop of checks. -/
theorem forRange_check {lo hi : Nat} {body : Nat → Unit → C Unit}
    (h : ∀ i, lo ≤ i → i < hi → body i () = .ok ()) : forRange lo hi body () = .ok () := by
  have := forList_eq_foldl (l := List.range' lo (hi - lo)) (body := body) (s := ()) (g := fun _ _ => ())
    (fun i hi s => by rw [List.mem_range'_1] at hi; exact h i hi.1 (by omega))
  exact this

theorem saiCheckLocal_ok (h : A.ViewOk) {i : Nat} (hi : i < A.nbrows) :
    saiCheckLocal A (A.constraints i).length i (saiLri A i) = .ok () := by
  unfold saiCheckLocal
  rw [h.rd_ptr hi, ok_bind, h.rd_end hi, ok_bind]
  refine forRange_check fun jj hlo hhi => ?_
  have hk : A.Has i jj := ⟨hlo, hhi⟩
  rw [saiLri_get hk, ok_bind]
  refine forRange_check fun u _ hu => ?_
  rw [rd_getElem hu, ok_bind, List.getElem_map]
  have := idx_bound (rowCols_sub i hk _ (List.getElem_mem (by simpa using hu)))
  rw [cassert_true (by simp), ok_bind, cassert_true (by simpa using this.2), ok_bind]

/-- Rows before `t` and the first `c` slots of row `t` have been written. -/
abbrev FilledTo (A : SR V) (Seg : Nat → Nat → List (Nat × Int)) (t c : Nat) (s : List Nat × List Int) : Prop :=
  SegFilled (segsRow A.rowLen Seg A.nbrows).length (segsTo A.rowLen Seg t c) s

theorem saiStoreRow_ok (h : A.ViewOk) {i : Nat} (hi : i < A.nbrows) {p b : List Nat}
    (hp : p.length = A.nbrows + 1) (hs : ∀ i ≤ A.nbrows, p⟦i⟧ = slotStart A.rowLen i)
    (hbl : b.length = slotStart A.rowLen A.nbrows + 1)
    (hb : ∀ i < A.nbrows, ∀ c ≤ A.rowLen i, b⟦slotStart A.rowLen i + c⟧ = (segsTo A.rowLen (saiSeg A) i c).length)
    {s : List Nat × List Int} (hf : FilledTo A (saiSeg A) i 0 s) :
    Ok (saiStoreRow A p b i (saiLri A i) s) (FilledTo A (saiSeg A) (i + 1) 0) := by
  unfold saiStoreRow
  rw [h.rd_ptr hi, ok_bind, h.rd_end hi, ok_bind]
  refine Ok.mono (forRange_ok (fun jj s => FilledTo A (saiSeg A) i (jj - A.browptr⟦i⟧) s)
    (h.ptr_le hi) (by simpa using hf) ?_) (fun s' hs' => ?_)
  · intro jj s hlo hhi hf
    have hk : A.Has i jj := ⟨hlo, hhi⟩
    have hc := h.col_lt' hi hk
    have hcl : jj - A.browptr⟦i⟧ < A.rowLen i := by unfold SR.rowLen; omega
    have hslot := slot_lt A.rowLen hi hcl
    have hsub : jj + 1 - A.browptr⟦i⟧ = jj - A.browptr⟦i⟧ + 1 := by omega
    have hjj : A.browptr⟦i⟧ + (jj - A.browptr⟦i⟧) = jj := by omega
    have htot := segsTo_length_le A.rowLen (saiSeg A) hi hcl
    rw [h.rd_col hi hk, ok_bind, h.rd_ptr hc, ok_bind, h.rd_end hc, ok_bind, hsub]
    have hseg : ∀ u < A.rowLen A.bcolind⟦jj⟧, (saiSeg A i (jj - A.browptr⟦i⟧)).take (u + 1) =
        (saiSeg A i (jj - A.browptr⟦i⟧)).take u ++ [(A.browptr⟦A.bcolind⟦jj⟧⟧ + u,
          (((A.constraints i).idxOf A.bcolind⟦A.browptr⟦A.bcolind⟦jj⟧⟧ + u⟧ : Nat) : Int))] := by
      intro u hu
      rw [List.take_add_one]
      congr 1
      simp [saiSeg, saiLen, hjj, hu]
    have hsl : (saiSeg A i (jj - A.browptr⟦i⟧)).length = A.rowLen A.bcolind⟦jj⟧ := by
      rw [saiSeg_length, saiLen, hjj]
    refine Ok.mono (forRange_ok (fun kk s => SegFilled (segsRow A.rowLen (saiSeg A) A.nbrows).length
      (segsTo A.rowLen (saiSeg A) i (jj - A.browptr⟦i⟧) ++
        (saiSeg A i (jj - A.browptr⟦i⟧)).take (kk - A.browptr⟦A.bcolind⟦jj⟧⟧)) s) (h.ptr_le hc)
      (by simpa using hf) ?_) ?_
    · intro kk s h1 h2 hf
      have hu : kk - A.browptr⟦A.bcolind⟦jj⟧⟧ < A.rowLen A.bcolind⟦jj⟧ := by unfold SR.rowLen; omega
      have hlen : (segsTo A.rowLen (saiSeg A) i (jj - A.browptr⟦i⟧) ++
          (saiSeg A i (jj - A.browptr⟦i⟧)).take (kk - A.browptr⟦A.bcolind⟦jj⟧⟧)).length =
          (segsTo A.rowLen (saiSeg A) i (jj - A.browptr⟦i⟧)).length + (kk - A.browptr⟦A.bcolind⟦jj⟧⟧) := by
        rw [List.length_append, List.length_take, hsl]; omega
      have hst := hf.step (by rw [hlen]; omega) kk
        (((A.constraints i).idxOf A.bcolind⟦kk⟧ : Nat) : Int)
      obtain ⟨f1, f2, -, -⟩ := hf
      rw [rd_eq (by omega), ok_bind, hs i hi.le, rd_eq (by omega), ok_bind, hb i hi _ hcl.le, wr_eq (by omega), ok_bind,
        saiLri_get hk, ok_bind]
      have hkk : A.browptr⟦A.bcolind⟦jj⟧⟧ + (kk - A.browptr⟦A.bcolind⟦jj⟧⟧) = kk := by omega
      have e : rd ((A.rowCols A.bcolind⟦jj⟧).map fun j => (((A.constraints i).idxOf j : Nat) : Int))
          (kk - A.browptr⟦A.bcolind⟦jj⟧⟧) = .ok (((A.constraints i).idxOf A.bcolind⟦kk⟧ : Nat) : Int) := by
        rw [rd_getElem (by simpa [SR.rowCols] using hu)]
        simp [SR.rowCols, hkk]
      rw [e, ok_bind, wr_eq (by omega), ok_bind]
      refine Ok.pure ?_
      rw [show kk + 1 - A.browptr⟦A.bcolind⟦jj⟧⟧ = kk - A.browptr⟦A.bcolind⟦jj⟧⟧ + 1 by omega, hseg _ hu,
        ← List.append_assoc, hkk]
      rw [hlen] at hst
      exact hst
    · intro s hf
      rw [List.take_of_length_le (by rw [hsl]; rfl), ← segsTo_succ] at hf
      exact hf
  · rw [FilledTo, segsTo_zero, segsRow_succ]
    exact hs'

/-- Entries of a filled array. -/
theorem SegFilled.get {N : Nat} {l : List (Nat × Int)} {s : List Nat × List Int} (h : SegFilled N l s) {t : Nat}
    (ht : t < l.length) (hN : l.length ≤ N) : rd s.1 t = .ok l[t].1 ∧ rd s.2 t = .ok l[t].2 := by
  obtain ⟨h1, h2, h3, h4⟩ := h
  constructor
  · rw [rd_getElem (by omega)]
    congr 1
    have : (s.1.take l.length)[t]'(by simp; omega) = (l.map Prod.fst)[t]'(by simpa using ht) := by simp only [h3]
    simpa using this
  · rw [rd_getElem (by omega)]
    congr 1
    have : (s.2.take l.length)[t]'(by simp; omega) = (l.map Prod.snd)[t]'(by simpa using ht) := by simp only [h4]
    simpa using this

theorem saiCheckRow_ok (h : A.ViewOk) (hst : A.bcolind.length ≤ A.nbstored) {i : Nat} (hi : i < A.nbrows)
    {p b : List Nat} (hp : p.length = A.nbrows + 1) (hs : ∀ i ≤ A.nbrows, p⟦i⟧ = slotStart A.rowLen i)
    (hbl : b.length = slotStart A.rowLen A.nbrows + 1)
    (hb : ∀ i < A.nbrows, ∀ c ≤ A.rowLen i, b⟦slotStart A.rowLen i + c⟧ = (segsTo A.rowLen (saiSeg A) i c).length)
    {s : List Nat × List Int} (hf : FilledTo A (saiSeg A) (i + 1) 0 s) :
    saiCheckRow A p b (A.constraints i).length i s = .ok () := by
  unfold saiCheckRow
  rw [rd_eq (by omega), ok_bind, rd_eq (by omega), ok_bind, hs i hi.le, hs (i + 1) hi, slotStart_succ]
  refine forRange_check fun icol h1 h2 => ?_
  obtain ⟨c, rfl⟩ := Nat.exists_eq_add_of_le h1
  have hcl : c < A.rowLen i := by omega
  have hslot := slot_lt A.rowLen hi hcl
  rw [rd_eq (by omega), ok_bind, rd_eq (by omega), ok_bind, hb i hi c hcl.le, Nat.add_assoc, hb i hi (c + 1) hcl,
    segsTo_succ, List.length_append]
  refine forRange_check fun j h3 h4 => ?_
  obtain ⟨u, rfl⟩ := Nat.exists_eq_add_of_le h3
  have hu : u < (saiSeg A i c).length := by omega
  obtain ⟨rest, hr⟩ := segsTo_split A.rowLen (saiSeg A) (i := i) (c := c + 1) (d := A.rowLen i) hcl
  rw [segsTo_succ] at hr
  rw [FilledTo, segsTo_zero, segsRow_succ] at hf
  obtain ⟨rest', hr'⟩ := segsRow_split A.rowLen (saiSeg A) (n := A.nbrows) (i := i + 1) hi
  have hN : (segsTo A.rowLen (saiSeg A) i (A.rowLen i)).length ≤ (segsRow A.rowLen (saiSeg A) A.nbrows).length := by
    rw [← segsRow_succ, hr', List.length_append]; omega
  have htlen : (segsTo A.rowLen (saiSeg A) i c).length + u < (segsTo A.rowLen (saiSeg A) i (A.rowLen i)).length := by
    rw [hr]; simp; omega
  obtain ⟨g1, g2⟩ := hf.get htlen hN
  have e : (segsTo A.rowLen (saiSeg A) i (A.rowLen i))[(segsTo A.rowLen (saiSeg A) i c).length + u] =
      (saiSeg A i c)[u] := by
    simp only [hr]
    rw [List.getElem_append_left (by simp; omega), List.getElem_append_right (by omega)]
    simp
  rw [e] at g1 g2
  have hk := has_slot hcl
  have hc := h.col_lt' hi hk
  have hu' : u < A.rowLen A.bcolind⟦A.browptr⟦i⟧ + c⟧ := by rw [saiSeg_length] at hu; exact hu
  have hk2 := has_slot hu'
  have hbd := idx_bound (rowCols_sub i hk A.bcolind⟦A.browptr⟦A.bcolind⟦A.browptr⟦i⟧ + c⟧⟧ + u⟧
    (List.mem_map.mpr ⟨_, by rw [List.mem_range'_1]; omega, rfl⟩))
  rw [g1, ok_bind]
  have e1 : (saiSeg A i c)[u].1 = A.browptr⟦A.bcolind⟦A.browptr⟦i⟧ + c⟧⟧ + u := by simp [saiSeg]
  have e2 : (saiSeg A i c)[u].2 =
    (((A.constraints i).idxOf A.bcolind⟦A.browptr⟦A.bcolind⟦A.browptr⟦i⟧ + c⟧⟧ + u⟧ : Nat) : Int) := by simp [saiSeg]
  have := h.end_le _ hc
  have := hk2.2
  rw [e1, cassert_true (by simp; omega), ok_bind, g2, ok_bind, e2, cassert_true (by simp), ok_bind,
    cassert_true (by simpa using hbd.2), ok_bind]

theorem SR.ViewOk.mem_constraints_self (h : A.ViewOk) {i : Nat} (hi : i < A.nbrows) : i ∈ A.constraints i := by
  have hd : A.Has i A.diagind⟦i⟧ := ⟨h.diag_ge i hi, h.diag_lt i hi⟩
  refine SR.mem_constraints.mpr ⟨_, hd, A.diagind⟦i⟧, ?_, h.diag_col i hi⟩
  rw [h.diag_col i hi]; exact hd

end Blasted
