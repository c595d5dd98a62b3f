import Verif.Coo.Lemmas
import Mathlib.Algebra.Field.Rat
import Mathlib.Tactic.IntervalCases

/-!
# Property C38: conversion of a coordinate matrix to CSR
-/

namespace Blasted
open Finset

variable {K : Type}

theorem csrCopyEntries_ok {A : COO K} (hA : A.Valid) (s : List Nat × List K) (h1 : s.1.length = A.nnz)
    (h2 : s.2.length = A.nnz) :
    csrCopyEntries A s = .ok (A.entries.map (fun e => e.colind.toNat), A.entries.map Entry.value) := by
  obtain ⟨v, hv, hl1, hl2, hp1, hp2⟩ := forRange_ok (s := s) (body := fun i (s : List Nat × List K) => do
      let e ← rd A.entries i
      let c ← toIdx e.colind
      let bcolind ← wr s.1 i c
      let vals ← wr s.2 i e.value
      .ok (bcolind, vals))
    (fun t (s : List Nat × List K) => s.1.length = A.nnz ∧ s.2.length = A.nnz ∧
      (∀ k < t, s.1[k]? = (A.entries[k]?).map fun e => e.colind.toNat) ∧
      (∀ k < t, s.2[k]? = (A.entries[k]?).map Entry.value)) (Nat.zero_le A.nnz)
    ⟨h1, h2, by simp, by simp⟩ (by
      rintro t s - ht ⟨h1, h2, h3, h4⟩
      have hte : t < A.entries.length := by rw [hA.nnz_eq]; exact ht
      have hc := (hA.col _ (List.getElem_mem hte)).1
      simp only [rd_getElem hte, ok_bind, toIdx, if_pos hc, wr_eq (show t < s.1.length by omega),
        wr_eq (show t < s.2.length by omega)]
      refine Ok.pure ⟨by simp [h1], by simp [h2], fun k hk => ?_, fun k hk => ?_⟩
      · rw [List.getElem?_set]
        by_cases h : t = k
        · subst h; rw [if_pos rfl, if_pos (by omega)]; simp [hte]
        · rw [if_neg h]; exact h3 k (by omega)
      · rw [List.getElem?_set]
        by_cases h : t = k
        · subst h; rw [if_pos rfl, if_pos (by omega)]; simp [hte]
        · rw [if_neg h]; exact h4 k (by omega))
  unfold csrCopyEntries
  rw [hv]
  have he := hA.nnz_eq
  congr 1
  refine Prod.ext ?_ ?_
  · apply List.ext_getElem?
    intro k
    by_cases hk : k < A.nnz
    · rw [hp1 k hk, List.getElem?_map]
    · rw [List.getElem?_eq_none (by omega), List.getElem?_eq_none (by simp; omega)]
  · apply List.ext_getElem?
    intro k
    by_cases hk : k < A.nnz
    · rw [hp2 k hk, List.getElem?_map]
    · rw [List.getElem?_eq_none (by omega), List.getElem?_eq_none (by simp; omega)]

/-- What `convertToCSR` leaves in `diagind[i]`: a position of a diagonal entry of row `i`, if there is one; otherwise
whatever the new array contained. -/
def DiagAt (A : COO K) (gd : Nat → Int) (i : Nat) (d : Int) : Prop :=
  (∃ k : Nat, d = k ∧ A.sr.InRow i k ∧ ∃ e, A.entries[k]? = some e ∧ e.colind = i) ∨
  ((∀ k e, A.sr.InRow i k → A.entries[k]? = some e → e.colind ≠ i) ∧ d = gd i)

theorem csrDiagRow_ok {A : COO K} (hA : A.Valid) {i : Nat} (hi : i < A.nrows) (gd : Nat → Int) (d : List Int)
    (hd : d.length = A.nrows) (hdi : d⟦i⟧ = gd i) :
    Ok (csrDiagRow A i d) (fun d' => d'.length = A.nrows ∧ (∀ k, k ≠ i → d'⟦k⟧ = d⟦k⟧) ∧ DiagAt A gd i d'⟦i⟧) := by
  have hl := hA.ptr_len
  have hlast := hA.ptr_last
  have hmono := hA.ptr_mono i hi
  have hle : A.rowptr⟦i + 1⟧ ≤ A.nnz := by
    have : ∀ j, i + 1 ≤ j → j ≤ A.nrows → A.rowptr⟦i + 1⟧ ≤ A.rowptr⟦j⟧ := by
      intro j hj
      induction j, hj using Nat.le_induction with
      | base => intro _; exact Nat.le_refl _
      | succ j hj ih => intro h; exact (ih (by omega)).trans (hA.ptr_mono j (by omega))
    rw [← hlast]; exact this _ (by omega) (Nat.le_refl _)
  unfold csrDiagRow
  rw [rd_eq (by omega), ok_bind, rd_eq (by omega), ok_bind]
  refine (forRange_ok (fun t (d' : List Int) => d'.length = A.nrows ∧ (∀ k, k ≠ i → d'⟦k⟧ = d⟦k⟧) ∧
    ((∃ k : Nat, d'⟦i⟧ = k ∧ A.rowptr⟦i⟧ ≤ k ∧ k < t ∧ ∃ e, A.entries[k]? = some e ∧ e.colind = i) ∨
      ((∀ k e, A.rowptr⟦i⟧ ≤ k → k < t → A.entries[k]? = some e → e.colind ≠ i) ∧ d'⟦i⟧ = gd i))) hmono
    ⟨hd, fun _ _ => rfl, .inr ⟨fun k _ h1 h2 => by omega, hdi⟩⟩ ?_).mono ?_
  · rintro t d' h1 h2 ⟨g1, g2, g3⟩
    have hte : t < A.entries.length := by rw [hA.nnz_eq]; omega
    have hr : A.entries[t].rowind = i := hA.row i hi t _ h1 h2 (List.getElem?_eq_getElem hte)
    rw [rd_getElem hte, ok_bind]
    by_cases hc : A.entries[t].colind = A.entries[t].rowind
    · rw [if_pos hc, wr_eq (by omega)]
      refine Ok.pure ⟨by simp [g1], fun k hk => ?_, .inl ⟨t, ?_, h1, by omega, _, List.getElem?_eq_getElem hte, by omega⟩⟩
      · rw [get0_set_ne (Ne.symm hk)]; exact g2 k hk
      · rw [get0_set_self (by omega)]
    · rw [if_neg hc]
      refine Ok.pure ⟨g1, g2, ?_⟩
      rcases g3 with ⟨k, e1, e2, e3, e4⟩ | ⟨e1, e2⟩
      · exact .inl ⟨k, e1, e2, by omega, e4⟩
      · refine .inr ⟨fun k e hk1 hk2 hke => ?_, e2⟩
        rcases Nat.lt_or_ge k t with hkt | hkt
        · exact e1 k e hk1 hkt hke
        · have : k = t := by omega
          subst this
          rw [List.getElem?_eq_getElem hte] at hke
          cases hke
          omega
  · rintro d' ⟨g1, g2, g3⟩
    refine ⟨g1, g2, ?_⟩
    rcases g3 with ⟨k, e1, e2, e3, e4⟩ | ⟨e1, e2⟩
    · exact .inl ⟨k, e1, ⟨e2, e3⟩, e4⟩
    · exact .inr ⟨fun k e hk => e1 k e hk.1 hk.2, e2⟩

/-- **C38** `getSRMatrixFromCOO` with block size 1 returns, whatever the storage order string and the previous contents
of the memory, complete CSR storage denoting the matrix of the coordinate entries; it has one stored entry for each coordinate entry, in
the same order, and the diagonal locations point to diagonal entries in all rows that have one. -/
theorem coo_to_csr_correct [AddCommMonoid K] (A : COO K) (hA : A.Valid) (hsq : A.ncols ≤ A.nrows) (order : String)
    (gi : Nat → Nat) (gd : Nat → Int) (gv : Nat → K) :
    ∃ B d, getSRMatrixFromCOO 1 order gi gd gv A = .ok (B, d) ∧ B.Full ∧ B.nbrows = A.nrows ∧
      B.nnzb = A.nnz ∧ B.nbstored = A.nnz ∧ B.browptr = A.rowptr ∧
      (∀ k e, A.entries[k]? = some e → ((B.bcolind⟦k⟧ : Nat) : Int) = e.colind ∧ B.vals⟦k⟧ = e.value) ∧
      (∀ i < A.nrows, ∀ j, B.entry i j = cooEntry A.entries i j) ∧
      d.length = A.nrows ∧ B.diagind = d.map Int.toNat ∧
      (∀ i < A.nrows, (∃ k, B.InRow i k ∧ B.bcolind⟦k⟧ = i) →
        d⟦i⟧ = ((B.diagind⟦i⟧ : Nat) : Int) ∧ B.InRow i B.diagind⟦i⟧ ∧ B.bcolind⟦B.diagind⟦i⟧⟧ = i) := by
  have hl := hA.ptr_len
  have hF := hA.full hsq
  have e2 : forRange 0 (A.nrows + 1) (fun i browptr => do
      let p ← rd A.rowptr i
      wr browptr i p) (fresh (A.nrows + 1) gi) = .ok A.rowptr := by
    rw [forRange_fill (fun i => A.rowptr⟦i⟧) (by simp)]
    · congr 1
      refine ext_get0 (by simp [hl]) fun k hk => ?_
      rw [get0_map_range _ (by simpa using hk)]
    · intro i hi l hll
      rw [rd_eq (by omega), ok_bind, wr_eq (by omega)]
  obtain ⟨d, e3, hd1, hd2⟩ := forRange_ok (body := csrDiagRow A) (s := fresh A.nrows gd)
    (fun t (d : List Int) => d.length = A.nrows ∧ (∀ i < A.nrows, t ≤ i → d⟦i⟧ = gd i) ∧
      ∀ i < t, DiagAt A gd i d⟦i⟧) (Nat.zero_le A.nrows)
    ⟨by simp, fun i hi _ => get0_map_range gd hi, by simp⟩ (by
      rintro t d - ht ⟨h1, h2, h3⟩
      refine (csrDiagRow_ok hA ht gd d h1 (h2 t ht (Nat.le_refl _))).mono ?_
      rintro d' ⟨g1, g2, g3⟩
      refine ⟨g1, fun i hi hti => ?_, fun i hi => ?_⟩
      · rw [g2 i (by omega)]; exact h2 i hi (by omega)
      · by_cases h : i = t
        · subst h; exact g3
        · rw [g2 i h]; exact h3 i (by omega))
  refine ⟨{ A.sr with diagind := d.map Int.toNat }, d, ?_, ?_, rfl, rfl, rfl, rfl, ?_, ?_, hd1, rfl, ?_⟩
  · unfold getSRMatrixFromCOO convertToCSR
    rw [if_pos rfl, csrCopyEntries_ok hA _ (by simp) (by simp), ok_bind, e2, ok_bind, e3, ok_bind,
      rd_eq (by omega), ok_bind, hA.ptr_last]
    rfl
  · exact { ptr_len := hF.ptr_len, ptr_zero := hF.ptr_zero, ptr_mono := hF.ptr_mono, end_len := hF.end_len
            end_eq := hF.end_eq, ind_len := hF.ind_len, val_len := hF.val_len, col_lt := hF.col_lt }
  · intro k e hke
    obtain ⟨hk, he⟩ := List.getElem?_eq_some_iff.mp hke
    subst he
    exact ⟨by rw [show ({ A.sr with diagind := d.map Int.toNat } : SR K).bcolind = A.sr.bcolind from rfl, COO.sr_col hk]; exact (hA.col_toNat hsq hk).1.symm,
      COO.sr_val hk⟩
  · intro i hi j
    exact hA.entry_sr hsq hi j
  · rintro i hi ⟨k, hk, hc⟩
    have hklt : k < A.entries.length := by
      have h1 : k < A.rowptr⟦A.nrows⟧ := hF.lt_nnz hi hk.2
      rw [hA.ptr_last] at h1; rw [hA.nnz_eq]; exact h1
    have hcol : A.entries[k].colind = i := by
      have h1 : A.sr.bcolind⟦k⟧ = i := hc
      rw [COO.sr_col hklt] at h1
      rw [(hA.col_toNat hsq hklt).1, h1]
    rcases hd2.2 i hi with ⟨q, g1, g2, e, g3, g4⟩ | ⟨g1, -⟩
    · have hget : (d.map Int.toNat)⟦i⟧ = q := by
        rw [get0_eq_getElem (by simp; omega), List.getElem_map]
        rw [get0_eq_getElem (by omega)] at g1
        rw [g1]; rfl
      obtain ⟨hq, he⟩ := List.getElem?_eq_some_iff.mp g3
      subst he
      show d⟦i⟧ = (((d.map Int.toNat)⟦i⟧ : Nat) : Int) ∧ A.sr.InRow i (d.map Int.toNat)⟦i⟧ ∧ A.sr.bcolind⟦(d.map Int.toNat)⟦i⟧⟧ = i
      rw [hget]
      refine ⟨g1, g2, ?_⟩
      rw [COO.sr_col hq, g4]; rfl
    · exact absurd hcol (g1 k _ hk (List.getElem?_eq_getElem hklt))

/-- **C38** When the entries are ordered by row and column without repetition (as after `readMatrixMarket`), the columns
of the CSR storage increase in every row; and when every row has a diagonal entry the diagonal locations are correct everywhere. -/
theorem coo_to_csr_sorted [AddCommMonoid K] (A : COO K) (hA : A.Valid) (hsq : A.ncols ≤ A.nrows)
    (hlex : A.entries.Pairwise lexLt) (order : String) (gi : Nat → Nat) (gd : Nat → Int) (gv : Nat → K) :
    ∃ B d, getSRMatrixFromCOO 1 order gi gd gv A = .ok (B, d) ∧ B.Sorted ∧
      ((∀ i < A.nrows, ∃ e ∈ A.entries, e.rowind = i ∧ e.colind = i) → B.HasDiag) := by
  obtain ⟨B, d, hB, hF, hn, -, -, hp, hc, -, hdl, hdi, hd⟩ := coo_to_csr_correct A hA hsq order gi gd gv
  have hlt : ∀ i k, i < A.nrows → B.InRow i k → k < A.entries.length := by
    intro i k hi hk
    have := hF.lt_nnz (by omega) hk.2
    rw [hp, hn, hA.ptr_last] at this
    rw [hA.nnz_eq]; exact this
  have hrow : ∀ i k, i < A.nrows → B.InRow i k → ∀ hk : k < A.entries.length, A.entries[k].rowind = i := by
    intro i k hi hk hk'
    unfold SR.InRow at hk
    rw [hp] at hk
    exact hA.row_get hi hk hk'
  refine ⟨B, d, hB, ?_, fun h => ?_⟩
  · intro i hi k l h1 h2 h3
    rw [hn] at hi
    have ik : B.InRow i k := ⟨h1, by omega⟩
    have il : B.InRow i l := ⟨by omega, h3⟩
    have kl := hlt i k hi ik
    have ll := hlt i l hi il
    have := List.pairwise_iff_getElem.mp hlex k l kl ll h2
    have r1 := hrow i k hi ik kl
    have r2 := hrow i l hi il ll
    have c1 := (hc k _ (List.getElem?_eq_getElem kl)).1
    have c2 := (hc l _ (List.getElem?_eq_getElem ll)).1
    unfold lexLt at this
    omega
  · have key : ∀ i < B.nbrows, B.InRow i B.diagind⟦i⟧ ∧ B.bcolind⟦B.diagind⟦i⟧⟧ = i := by
      intro i hi
      rw [hn] at hi
      obtain ⟨e, he, h1, h2⟩ := h i hi
      obtain ⟨k, hk, rfl⟩ := List.getElem_of_mem he
      have hr := hA.rowOf_get hsq hk
      have hin := (hA.full hsq).rowOf_spec (p := k)
        (by show k < A.rowptr⟦A.nrows⟧; rw [hA.ptr_last, ← hA.nnz_eq]; exact hk)
      have hri : A.sr.rowOf k = i := by omega
      rw [hri] at hin
      have hbin : B.InRow i k := by unfold SR.InRow; rw [hp]; exact hin.2
      have hci := (hc k _ (List.getElem?_eq_getElem hk)).1
      exact (hd i hi ⟨k, hbin, by omega⟩).2
    exact { diag_len := by rw [hdi, List.length_map, hdl, hn]
            diag_ge := fun i hi => (key i hi).1.1
            diag_lt := fun i hi => (key i hi).1.2
            diag_col := fun i hi => (key i hi).2 }

/-- **C38** When the entries are ordered by row and column without repetition and every row has a diagonal entry, all conversions of the same coordinate matrix with block
size 1 give the same storage, whatever the previous contents of the memory and the storage order string. -/
theorem coo_to_csr_unique [AddCommMonoid K] (A : COO K) (hA : A.Valid) (hsq : A.ncols ≤ A.nrows)
    (hlex : A.entries.Pairwise lexLt) (hdg : ∀ i < A.nrows, ∃ e ∈ A.entries, e.rowind = i ∧ e.colind = i) (order order' : String)
    (gi gi' : Nat → Nat) (gd gd' : Nat → Int) (gv gv' : Nat → K) :
    getSRMatrixFromCOO 1 order gi gd gv A = getSRMatrixFromCOO 1 order' gi' gd' gv' A := by
  obtain ⟨B, d, e1, hF, hn, hz, hs, hp, hc, -, hdl, hdi, hd⟩ := coo_to_csr_correct A hA hsq order gi gd gv
  obtain ⟨B', d', e1', hF', hn', hz', hs', hp', hc', -, hdl', hdi', hd'⟩ := coo_to_csr_correct A hA hsq order' gi' gd' gv'
  obtain ⟨_, _, f1, f2, f3⟩ := coo_to_csr_sorted A hA hsq hlex order gi gd gv
  obtain ⟨_, _, f1', f2', f3'⟩ := coo_to_csr_sorted A hA hsq hlex order' gi' gd' gv'
  rw [e1] at f1; cases f1
  rw [e1'] at f1'; cases f1'
  have hD := f3 hdg
  have hD' := f3' hdg
  have hlast : A.rowptr⟦A.nrows⟧ = A.entries.length := by rw [hA.ptr_last, hA.nnz_eq]
  have hcol : B.bcolind = B'.bcolind := by
    have l1 := hF.ind_len
    have l2 := hF'.ind_len
    rw [hp, hn] at l1
    rw [hp', hn'] at l2
    refine ext_get0 (by omega) fun k hk => ?_
    have hk' : k < A.entries.length := by omega
    have := (hc k _ (List.getElem?_eq_getElem hk')).1
    have := (hc' k _ (List.getElem?_eq_getElem hk')).1
    omega
  have hval : B.vals = B'.vals := by
    have l1 := hF.val_len
    have l2 := hF'.val_len
    rw [hp, hn, Nat.mul_one] at l1
    rw [hp', hn', Nat.mul_one] at l2
    refine ext_get0 (by omega) fun k hk => ?_
    have hk' : k < A.entries.length := by omega
    rw [(hc k _ (List.getElem?_eq_getElem hk')).2, (hc' k _ (List.getElem?_eq_getElem hk')).2]
  have hend : B.browendptr = B'.browendptr := by
    refine ext_get0 (by rw [hF.end_len, hF'.end_len]; omega) fun k hk => ?_
    have hk' := hF.end_len ▸ hk
    rw [hF.end_eq k hk', hF'.end_eq k (by omega), hp, hp']
  have hdia : B.diagind = B'.diagind := by
    refine ext_get0 (by rw [hD.diag_len, hD'.diag_len]; omega) fun k hk => ?_
    have hk' : k < B.nbrows := hD.diag_len ▸ hk
    have a1 := hD'.diag_ge k (by omega)
    have a2 := hD'.diag_lt k (by omega)
    rw [hp', ← hp] at a1 a2
    refine f2.inj hk' ⟨hD.diag_ge k hk', hD.diag_lt k hk'⟩ ⟨a1, a2⟩ ?_
    rw [hD.diag_col k hk', hcol, hD'.diag_col k (by omega)]
  have hdd : d = d' := by
    refine ext_get0 (by omega) fun k hk => ?_
    have hk' : k < A.nrows := by omega
    rw [(hd k hk' ⟨_, ⟨hD.diag_ge k (by omega), hD.diag_lt k (by omega)⟩, hD.diag_col k (by omega)⟩).1,
      (hd' k hk' ⟨_, ⟨hD'.diag_ge k (by omega), hD'.diag_lt k (by omega)⟩, hD'.diag_col k (by omega)⟩).1, hdia]
  rw [e1, e1', hdd]
  congr 2
  cases B; cases B'
  simp only at *
  subst hp hp' hcol hval hend hdia
  congr 1
  · omega
  · omega
  · omega

/-- A 3 × 3 coordinate matrix without a diagonal entry in row 1. -/
def exCoo : COO ℚ where
  entries := [⟨0, 0, 5⟩, ⟨0, 2, 1⟩, ⟨1, 0, 2⟩, ⟨2, 1, 3⟩, ⟨2, 2, 4⟩]
  nnz := 5
  nrows := 3
  ncols := 3
  rowptr := [0, 2, 3, 5]

theorem exCoo_valid : exCoo.Valid where
  nnz_eq := rfl
  ptr_len := rfl
  ptr_zero := rfl
  ptr_mono := by decide
  ptr_last := rfl
  row := by
    intro i hi k e h1 h2 h3
    have hi' : i < 3 := hi
    have hk : k < 5 := by
      have := (List.getElem?_eq_some_iff.mp h3).1
      exact this
    interval_cases i <;> interval_cases k <;>
      first
      | (exfalso; revert h1 h2; decide)
      | (simp only [exCoo, List.getElem?_cons_zero, List.getElem?_cons_succ, Option.some.injEq] at h3; subst h3; rfl)
  col := by decide

example : exCoo.Valid ∧ exCoo.ncols ≤ exCoo.nrows ∧ exCoo.entries.Pairwise lexLt ∧
    getSRMatrixFromCOO 1 "" (fun _ => 9) (fun _ => -77) (fun _ => 9) exCoo =
      .ok ({ browptr := [0, 2, 3, 5], bcolind := [0, 2, 0, 1, 2], vals := [5, 1, 2, 3, 4], diagind := [0, 0, 4]
             browendptr := [2, 3, 5], nbrows := 3, nnzb := 5, nbstored := 5 }, [0, -77, 4]) :=
  ⟨exCoo_valid, by decide, by unfold lexLt; decide, by decide +kernel⟩

/-- A 2 × 2 coordinate matrix with both diagonal entries, as in `coo_to_csr_unique`. -/
example : ∃ A : COO ℚ, A.Valid ∧ A.ncols ≤ A.nrows ∧ A.entries.Pairwise lexLt ∧ (∀ i < A.nrows, ∃ e ∈ A.entries, e.rowind = i ∧ e.colind = i) ∧
    getSRMatrixFromCOO 1 "" (fun _ => 9) (fun _ => -77) (fun _ => 9) A = getSRMatrixFromCOO 1 "rowmajor" (fun _ => 4) (fun k => k) (fun _ => 1) A := by
  have hV : COO.Valid (⟨[⟨0, 0, 5⟩, ⟨0, 1, 1⟩, ⟨1, 1, 2⟩], 3, 2, 2, [0, 2, 3]⟩ : COO ℚ) :=
    { nnz_eq := rfl, ptr_len := rfl, ptr_zero := rfl, ptr_mono := by decide, ptr_last := rfl
      row := by
        intro i hi k e h1 h2 h3
        have hi' : i < 2 := hi
        have hk : k < 3 := (List.getElem?_eq_some_iff.mp h3).1
        interval_cases i <;> interval_cases k <;>
          first
          | (exfalso; revert h1 h2; decide)
          | (simp only [List.getElem?_cons_zero, List.getElem?_cons_succ, Option.some.injEq] at h3; subst h3; rfl)
      col := by decide }
  exact ⟨_, hV, by decide, by unfold lexLt; decide, by decide, coo_to_csr_unique _ hV (by decide) (by unfold lexLt; decide) (by decide) _ _ _ _ _ _ _ _⟩

/-- In a row without a diagonal entry `convertToCSR` leaves the location uninitialised: it is whatever the memory contained. -/
theorem coo_to_csr_diag_uninitialised (g : Int) :
    ∃ B d, getSRMatrixFromCOO 1 "rowmajor" (fun _ => 0) (fun _ => g) (fun _ => 0) exCoo = .ok (B, d) ∧ d⟦1⟧ = g := by
  refine ⟨_, _, rfl, rfl⟩

end Blasted
