import Verif.Reorder.Mc64Spec
import Verif.Ints.Model

/-!
# Properties of the MC64 wrapper (C69)
-/

namespace Blasted
open Finset

variable {K : Type}

theorem SC.mem_col [Zero K] {c : SC K} {m j : Nat} {e : CSEntry K} :
    e ∈ c.col m j ↔ ∃ k, c.bcolptr⟦j⟧ ≤ k ∧ k < c.bcolptr⟦j + 1⟧ ∧ c.browind⟦k⟧ = e.1 ∧
      blockAt m c.vals k = e.2 := by
  simp only [SC.col, List.mem_map, List.mem_range'_1]
  constructor
  · rintro ⟨k, hk, rfl⟩; exact ⟨k, hk.1, by omega, rfl, rfl⟩
  · rintro ⟨k, h1, h2, h3, h4⟩; exact ⟨k, ⟨h1, by omega⟩, Prod.ext h3 h4⟩

theorem SR.mem_colEntries [Zero K] {A : SR K} {m j : Nat} {e : CSEntry K} :
    e ∈ A.colEntries m j ↔ e.1 < A.nbrows ∧ ∃ k, A.InRow e.1 k ∧ A.bcolind⟦k⟧ = j ∧
      blockAt m A.vals k = e.2 := by
  simp only [SR.colEntries, List.mem_map, List.mem_filter, SR.mem_stored]
  constructor
  · rintro ⟨⟨i, k⟩, ⟨⟨h1, h2⟩, h3⟩, rfl⟩
    exact ⟨h1, k, h2, by simpa using h3, rfl⟩
  · rintro ⟨h1, k, h2, h3, h4⟩
    exact ⟨(e.1, k), ⟨⟨h1, h2⟩, by simpa using h3⟩, Prod.ext rfl h4⟩

theorem SR.stored_pairwise {V : Type _} {A : SR V} : A.stored.Pairwise fun a b => a.1 ≤ b.1 ∧ (a.1 = b.1 → a.2 < b.2) := by
  rw [SR.stored, List.pairwise_flatMap]
  refine ⟨fun i _ => ?_, ?_⟩
  · rw [List.pairwise_map]
    exact (List.pairwise_lt_range' ).imp fun h => ⟨le_rfl, fun _ => h⟩
  · refine (List.pairwise_lt_range).imp ?_
    rintro i j hij a ha b hb
    simp only [List.mem_map] at ha hb
    obtain ⟨k, _, rfl⟩ := ha
    obtain ⟨l, _, rfl⟩ := hb
    exact ⟨hij.le, fun h => absurd h hij.ne⟩

theorem SR.colEntries_nodup [Zero K] {A : SR K} (hR : A.NoRepeats) (m j : Nat) :
    ((A.colEntries m j).map Prod.fst).Nodup := by
  rw [SR.colEntries, List.map_map, List.Nodup, List.pairwise_map, List.pairwise_filter]
  refine SR.stored_pairwise.imp_of_mem ?_
  intro a b ha hb hab h1 h2
  simp only [Function.comp]
  intro e
  rw [SR.mem_stored] at ha hb
  have := hR a.1 ha.1 a.2 b.2 ha.2 (by rw [e]; exact hb.2) (by
    rw [beq_iff_eq] at h1 h2; rw [h1, h2])
  have := hab.2 e
  omega

theorem blockAt_one [Zero K] (vals : List K) (k : Nat) : blockAt 1 vals k = [vals⟦k⟧] := by
  simp [blockAt]

/-- The 1-based column storage produced by the conversion is a valid input for MC64 and denotes the matrix. -/
theorem mc64_input [Zero K] (A : SR K) (hA : A.Full 1) (hR : A.NoRepeats) (hn : 1 ≤ A.nbrows)
    (srt : List (CSEntry K) → List (CSEntry K)) (hsrt : SortsByRow srt)
    (gptr gind : List Nat) (gvals : List K) (gdiag : List Int)
    (h1 : gptr.length = A.nbrows + 1) (h2 : gind.length = A.browptr⟦A.nbrows⟧)
    (h3 : gvals.length = A.browptr⟦A.nbrows⟧) (h4 : gdiag.length = A.nbrows) :
    ∃ c, convertBSC1 1 srt A gptr gind gvals gdiag = .ok c ∧ c.nbcols = A.nbrows ∧
      MC64Input A.nbrows A.browptr⟦A.nbrows⟧ c.bcolptr c.browind c.vals ∧
      MC64Denotes A c.bcolptr c.browind c.vals := by
  obtain ⟨c, c1, e, e1, hc1⟩ := convert_BSR_to_BSC_1based_correct A 1 hA srt hsrt gptr gind gvals gdiag h1 h2
    (by omega) h4
  obtain ⟨c', e', hf, hnb, hnnz, _, hcol⟩ := convert_BSR_to_BSC_correct A 1 hA srt hsrt gptr gind gvals gdiag
    h1 h2 (by omega) h4
  rw [e] at e'
  injection e' with e'
  subst e'
  have hpl := hf.ptr_len
  have hil := hf.ind_len
  have hvl := hf.val_len
  rw [hnb] at hpl
  have hp : ∀ j ≤ A.nbrows, c1.bcolptr⟦j⟧ = c.bcolptr⟦j⟧ + 1 := by
    intro j hj
    rw [hc1]
    show (c.bcolptr.map (· + 1))⟦j⟧ = _
    rw [get0_eq_getElem (by simp; omega), get0_eq_getElem (by omega), List.getElem_map]
  have hi : ∀ p < c.browind.length, c1.browind⟦p⟧ = c.browind⟦p⟧ + 1 := by
    intro p hp
    rw [hc1]
    show (c.browind.map (· + 1))⟦p⟧ = _
    rw [get0_eq_getElem (by simp; omega), get0_eq_getElem (by omega), List.getElem_map]
  have hv : c1.vals = c.vals := by rw [hc1]
  have hlt : ∀ j < A.nbrows, ∀ p, p < c.bcolptr⟦j + 1⟧ → p < c.browind.length := by
    intro j hj p hp
    rw [hil, hnb]
    exact hp.trans_le (hf.ptr_le (by omega) (by omega))
  refine ⟨c1, e1, by rw [hc1]; exact hnb, ⟨hn, ?_, ?_, ?_, ?_, ?_, ?_, ?_, ?_⟩, ?_⟩
  · rw [hc1]; simp [hpl]
  · rw [hp 0 (by omega), hf.ptr_zero]
  · intro j hj
    rw [hp j (by omega), hp (j + 1) (by omega)]
    have := hf.ptr_mono j (by omega)
    omega
  · rw [hp _ le_rfl, ← hnnz, hnb]
  · rw [hc1]; simp [hil, hnnz]
  · rw [hv, hvl, hnnz, Nat.mul_one]
  · intro p hpp
    rw [hi p (by omega)]
    have := hf.row_lt p (by omega)
    omega
  · intro j hj p q hp1 hp2 hq1 hq2 epq
    rw [hp j (by omega)] at hp1 hq1
    rw [hp (j + 1) (by omega)] at hp2 hq2
    rw [hi p (hlt j hj p (by omega)), hi q (hlt j hj q (by omega))] at epq
    have hnd : ((c.col 1 j).map Prod.fst).Nodup :=
      (((hcol j hj).1.map Prod.fst).nodup_iff).mpr (SR.colEntries_nodup hR 1 j)
    rw [SC.col, List.map_map, List.nodup_map_iff_inj_on (List.nodup_range')] at hnd
    exact hnd p (by simp; omega) q (by simp; omega) (by simp only [Function.comp]; omega)
  · intro i hi' j hj x
    have hmem : ((i, [x]) : CSEntry K) ∈ c.col 1 j ↔ ((i, [x]) : CSEntry K) ∈ A.colEntries 1 j :=
      (hcol j hj).1.mem_iff
    rw [SC.mem_col, SR.mem_colEntries] at hmem
    simp only [blockAt_one, List.cons.injEq, and_true] at hmem
    constructor
    · rintro ⟨p, ⟨hp1, hp2, hp3⟩, hx⟩
      rw [hp j (by omega)] at hp1
      rw [hp (j + 1) (by omega)] at hp2
      rw [hi p (hlt j hj p (by omega))] at hp3
      rw [hv] at hx
      exact (hmem.mp ⟨p, by omega, by omega, by omega, hx⟩).2
    · intro hk
      obtain ⟨p, hp1, hp2, hp3, hx⟩ := hmem.mpr ⟨hi', hk⟩
      refine ⟨p, ⟨?_, ?_, ?_⟩, by rw [hv]; exact hx⟩
      · rw [hp j (by omega)]; omega
      · rw [hp (j + 1) (by omega)]; omega
      · rw [hi p (hlt j hj p (by omega))]; omega

/-! ### The loop after the call -/

theorem mc64Finish_ok [Zero K] (exp : K → K) (job : Int) (n : Nat) (dw rs cs : List K) (cp : List Int)
    (hcp : cp.length = n) (hdw : job = 5 → 2 * n ≤ dw.length) (hrs : job = 5 → rs.length = n)
    (hcs : job = 5 → cs.length = n) :
    Ok (mc64Finish exp job n dw rs cs cp) (fun s => s.2 = cp.map (fun c => ((c.natAbs : Nat) : Int) - 1) ∧
      (job ≠ 5 → s.1 = (rs, cs)) ∧
      (job = 5 → s.1.1.length = n ∧ s.1.2.length = n ∧
        ∀ i < n, s.1.1⟦i⟧ = exp dw⟦i⟧ ∧ s.1.2⟦i⟧ = exp dw⟦n + i⟧)) := by
  unfold mc64Finish
  refine (forRange_ok (fun t (s : (List K × List K) × List Int) => s.2.length = n ∧
      (∀ i < n, s.2⟦i⟧ = if i < t then ((cp⟦i⟧.natAbs : Nat) : Int) - 1 else cp⟦i⟧) ∧
      (job ≠ 5 → s.1 = (rs, cs)) ∧
      (job = 5 → s.1.1.length = n ∧ s.1.2.length = n ∧
        ∀ i < t, s.1.1⟦i⟧ = exp dw⟦i⟧ ∧ s.1.2⟦i⟧ = exp dw⟦n + i⟧)) (Nat.zero_le _)
    ⟨hcp, by simp, fun _ => rfl, fun h => ⟨hrs h, hcs h, by simp⟩⟩ ?_).mono ?_
  · rintro t ⟨⟨r, c⟩, p⟩ _ ht ⟨h1, h2, h3, h4⟩
    dsimp only at h1 h2 h3 h4 ⊢
    have hsc : Ok (mc64Scale exp job n dw t (r, c)) (fun sc =>
        (job ≠ 5 → sc = (rs, cs)) ∧ (job = 5 → sc.1.length = n ∧ sc.2.length = n ∧
        ∀ i < t + 1, sc.1⟦i⟧ = exp dw⟦i⟧ ∧ sc.2⟦i⟧ = exp dw⟦n + i⟧)) := by
      unfold mc64Scale
      by_cases h5 : job = 5
      · obtain ⟨l1, l2, h4⟩ := h4 h5
        have := hdw h5
        rw [if_pos h5, rd_eq (by omega), ok_bind, wr_eq (by show t < r.length; omega), ok_bind,
          rd_eq (by omega), ok_bind, wr_eq (by show t < c.length; omega), ok_bind]
        refine Ok.pure ⟨fun h => absurd h5 h, fun _ => ⟨by simp [l1], by simp [l2], fun i hi => ?_⟩⟩
        simp only [get0_set, l1, l2]
        by_cases e : t = i
        · subst e; simp [ht]
        · simp only [e, false_and, if_false]; exact h4 i (by omega)
      · rw [if_neg h5]
        exact Ok.pure ⟨fun _ => h3 h5, fun h => absurd h h5⟩
    refine hsc.bind ?_
    rintro sc ⟨g3, g4⟩
    rw [rd_eq (by omega), ok_bind, wr_eq (by omega), ok_bind]
    refine Ok.pure ⟨by simp [h1], fun i hi => ?_, g3, g4⟩
    dsimp only
    rw [get0_set]
    by_cases e : t = i
    · subst e
      rw [if_pos ⟨rfl, by omega⟩, if_pos (by omega), h2 t hi, if_neg (by omega)]
    · rw [if_neg (by tauto), h2 i hi]
      by_cases h : i < t
      · rw [if_pos h, if_pos (by omega)]
      · rw [if_neg h, if_neg (by omega)]
  · rintro ⟨sc, p⟩ ⟨h1, h2, h3, h4⟩
    dsimp only at h1 h2 h3 h4 ⊢
    refine ⟨?_, h3, h4⟩
    apply ext_get0 (by simp [h1, hcp])
    intro i hi
    rw [h2 i (by omega), if_pos (by omega)]
    conv_rhs => rw [get0_eq_getElem (by simp; omega), List.getElem_map]
    rw [get0_eq_getElem (by omega : i < cp.length)]

theorem invertPermutationZ_eq {p : List Int} (hp : ∀ x ∈ p, 0 ≤ x) :
    invertPermutationZ p = invertPermutation (p.map Int.toNat) := by
  unfold invertPermutationZ invertPermutation
  rw [List.length_map]
  refine forRange_congr fun i _ hi s => ?_
  rw [rd_eq hi, rd_eq (by simpa using hi), ok_bind, ok_bind]
  have h0 : 0 ≤ p⟦i⟧ := by rw [get0_eq_getElem hi]; exact hp _ (List.getElem_mem hi)
  rw [if_neg (by omega)]
  congr 1
  rw [get0_eq_getElem hi, get0_eq_getElem (by simpa using hi), List.getElem_map]

/-- The magnitudes minus one of a permutation of `1 … n`. -/
theorem mc64_perm {cperm : List Int} {n : Nat} (h : (cperm.map Int.natAbs).Perm (List.range' 1 n)) :
    cperm.length = n ∧ (∀ c ∈ cperm, 1 ≤ c.natAbs) ∧ IsPerm (cperm.map fun c => c.natAbs - 1) n := by
  refine ⟨by simpa using h.length_eq, fun c hc => ?_, ?_⟩
  · have := h.mem_iff.mp (List.mem_map_of_mem (f := Int.natAbs) hc)
    simp only [List.mem_range'_1] at this
    omega
  · have := h.map (fun x => x - 1)
    rw [List.map_map] at this
    refine this.trans ?_
    rw [List.range_eq_range', List.range'_eq_map_range, List.range'_eq_map_range, List.map_map]
    simp [Function.comp_def]

theorem mc64_work (job : Int) (n nnz : Nat) (h1 : 1 ≤ job) (h5 : job ≤ 5) :
    ∃ w, getWorkSizes job n nnz = .ok w ∧ MC64Work job n nnz w.1 w.2 ∧
      (1 ≤ n → 1 ≤ w.1 ∧ (2 ≤ job → (job = 3 → 1 ≤ nnz) → 1 ≤ w.2)) ∧ (job = 5 → 2 * n ≤ w.2) := by
  have : job = 1 ∨ job = 2 ∨ job = 3 ∨ job = 4 ∨ job = 5 := by omega
  rcases this with rfl | rfl | rfl | rfl | rfl
  all_goals refine ⟨_, by simp only [getWorkSizes]; rfl, ?_, ?_, ?_⟩
  all_goals simp [MC64Work]
  all_goals omega

section
variable [Field K] [LinearOrder K] [IsStrictOrderedRing K]

omit [LinearOrder K] [IsStrictOrderedRing K] in
theorem SR.cell_stored {A : SR K} (hA : A.Full 1) (hR : A.NoRepeats) {i j k : Nat} (hi : i < A.nbrows)
    (hk : A.InRow i k) (hj : A.bcolind⟦k⟧ = j) : A.cell 1 i j 0 = A.vals⟦k⟧ := by
  rw [SR.cell, hA.end_eq i hi, sum_eq_single k]
  · rw [if_pos hj]; simp
  · intro l hl hlk
    rw [mem_Ico] at hl
    rw [if_neg]
    intro h
    exact hlk (hR i hi l k hl hk (by rw [h, hj]))
  · intro h
    exact absurd (mem_Ico.mpr hk) h

omit [LinearOrder K] [IsStrictOrderedRing K] in
theorem SR.cell_absent {A : SR K} (hA : A.Full 1) {i j : Nat} (hi : i < A.nbrows)
    (h : ∀ k, A.InRow i k → A.bcolind⟦k⟧ ≠ j) : A.cell 1 i j 0 = 0 := by
  rw [SR.cell, hA.end_eq i hi]
  refine sum_eq_zero fun k hk => ?_
  rw [mem_Ico] at hk
  rw [if_neg (h k hk)]

/-- What the permuted and scaled matrix `B` must look like: every diagonal entry is stored and, with scaling,
diagonal entries have modulus 1 and no entry has larger modulus. -/
structure LargeDiagonal (scaled : Prop) (B : SR K) : Prop where
  stored : ∀ i < B.nbrows, ∃ k, B.InRow i k ∧ B.bcolind⟦k⟧ = i
  diag_one : scaled → ∀ i < B.nbrows, |B.cell 1 i i 0| = 1
  le_one : scaled → ∀ i < B.nbrows, ∀ j < B.nbrows, |B.cell 1 i j 0| ≤ 1

omit [IsStrictOrderedRing K] in
/-- Every column of the original that a row of the original stores is stored under its new name. -/
theorem reorderScale_forward_stored {A : SR K} (hA : A.Full 1) {r : RS K} (hr : r.Valid A.nbrows)
    (hrow : FactorLen r.rowscale A.nbrows) (hcol : FactorLen r.colscale A.nbrows) {ords : Nat → List Nat}
    (ho : ∀ t < 3, (ords t).Perm (List.range A.nbrows)) {B : SR K}
    (e : reorderScale 1 r .forward ords A = .ok B) {i j k : Nat} (hi : i < A.nbrows) (hj : j < A.nbrows)
    (hk : A.InRow (at' r.rp i) k) (hc : A.bcolind⟦k⟧ = at' r.cp j) : ∃ k, B.InRow i k ∧ B.bcolind⟦k⟧ = j := by
  obtain ⟨vals, e1, hl, _⟩ := apply_scaling_forward A 1 hA r hrow hcol _ _ (ho 0 (by omega)) (ho 1 (by omega))
  have hB : SR.Full { A with vals := vals } 1 :=
    ⟨hA.ptr_len, hA.ptr_zero, hA.ptr_mono, hA.end_len, hA.end_eq, hA.ind_len,
      hl.trans hA.val_len, hA.col_lt⟩
  obtain ⟨B', e2, _, _, hrows⟩ := applyOrdering_rows hB (r := r) hr .forward (ho 2 (by omega))
  unfold reorderScale at e
  simp only at e
  rw [e1, ok_bind, e2] at e
  injection e with e
  subst e
  have him := (hrows i hi).1
  have hmem : ((A.bcolind⟦k⟧, blockAt 1 vals k) : CSEntry K) ∈
      SR.row 1 { A with vals := vals } (at' r.rp i) := by
    rw [SR.row, mem_segEntries]
    refine ⟨k - A.browptr⟦at' r.rp i⟧, by have := hk.1; have := hk.2; dsimp only; omega, ?_⟩
    have := hk.1
    dsimp only
    rw [show A.browptr⟦at' r.rp i⟧ + (k - A.browptr⟦at' r.rp i⟧) = k by omega]
  have hmem2 := him.mem_iff.mpr (List.mem_map_of_mem (f := fun e : CSEntry K => (colName r .forward e.1, e.2)) hmem)
  rw [SR.row, mem_segEntries] at hmem2
  obtain ⟨q, hq, hqe⟩ := hmem2
  refine ⟨B'.browptr⟦i⟧ + q, ⟨by omega, by omega⟩, ?_⟩
  have := congrArg Prod.fst hqe
  simp only at this
  rw [← this, hc]
  have := hr.colName_inv hj
  rcases hr.col with h0 | ⟨h0, h1⟩
  · simp [colName, at', h0]
  · by_cases hz : r.cp.length > 0
    · simp only [colName, at', if_pos hz]
      exact h1.2.1 j hj
    · simp [colName, at', hz]

/-- **C69** `MC64::compute` for jobs 2 to 5 hands MC64 a valid 1-based column copy of the matrix with sufficient work
arrays; it throws exactly if MC64 reports a nonzero code; otherwise it installs a column ordering (and, for job 5, invertible
scalings) such that applying it FORWARD to the matrix succeeds and gives a matrix with a full diagonal, for
job 5 with diagonal entries of modulus 1 and no entry of larger modulus. For any routine meeting the contract of MC64, any correct sort, any old contents of allocated memory, and any order of the parallel loops.
Missing: job 1, for which the code is undefined (`mc64_job1_undefined`). -/
theorem mc64_compute_correct_partial (A : SR K) (hA : A.Full 1) (hR : A.NoRepeats) (hn : 1 ≤ A.nbrows)
    (job : Int) (hj2 : 2 ≤ job) (hj5 : job ≤ 5) (hj3 : job = 3 → 1 ≤ A.browptr⟦A.nbrows⟧)
    (srt : List (CSEntry K) → List (CSEntry K)) (hsrt : SortsByRow srt)
    (gptr gind : List Nat) (gvals : List K) (gdiag : List Int)
    (h1 : gptr.length = A.nbrows + 1) (h2 : gind.length = A.browptr⟦A.nbrows⟧)
    (h3 : gvals.length = A.browptr⟦A.nbrows⟧) (h4 : gdiag.length = A.nbrows)
    (mc : MC64Fn K) (exp : K → K) (hexp : ∀ x, 0 < exp x) (hmc : MC64Contract mc exp)
    (r : RS K) (hrp : r.rp = []) (hrs : job ≠ 5 → r.rowscale = [] ∧ r.colscale = []) :
    ∃ colptr rowind a liw ldw,
      MC64Input A.nbrows A.browptr⟦A.nbrows⟧ colptr rowind a ∧ MC64Denotes A colptr rowind a ∧
      MC64Work job A.nbrows A.browptr⟦A.nbrows⟧ liw ldw ∧
      ((mc job A.nbrows A.browptr⟦A.nbrows⟧ colptr rowind a liw ldw).info0 ≠ 0 →
        mc64Compute srt gptr gind gvals gdiag mc exp job A r = .error (.throw "std::runtime_error"
          (if (mc job A.nbrows A.browptr⟦A.nbrows⟧ colptr rowind a liw ldw).info0 = 1 then
            "MC64: Matrix was structurally singular!"
          else "MC64 failed! Error code = " ++
            toString (mc job A.nbrows A.browptr⟦A.nbrows⟧ colptr rowind a liw ldw).info0))) ∧
      ((mc job A.nbrows A.browptr⟦A.nbrows⟧ colptr rowind a liw ldw).info0 = 0 →
        ∃ r', mc64Compute srt gptr gind gvals gdiag mc exp job A r = .ok r' ∧ r'.Valid A.nbrows ∧
          r'.rp = [] ∧ r'.cp.length = A.nbrows ∧
          FactorOk r'.rowscale A.nbrows ∧ FactorOk r'.colscale A.nbrows ∧
          ∀ ords : Nat → List Nat, (∀ t < 3, (ords t).Perm (List.range A.nbrows)) →
            ∃ B, reorderScale 1 r' .forward ords A = .ok B ∧ B.Full 1 ∧ B.nbrows = A.nbrows ∧
              LargeDiagonal (job = 5) B) := by
  obtain ⟨c, e, hnb, hin, hden⟩ := mc64_input A hA hR hn srt hsrt gptr gind gvals gdiag h1 h2 h3 h4
  obtain ⟨w, ew, hw, hwp, hw5⟩ := mc64_work job A.nbrows A.browptr⟦A.nbrows⟧ (by omega) hj5
  obtain ⟨hw1, hw2⟩ := hwp hn
  have hw2 := hw2 hj2 hj3
  have hpl := hA.ptr_len
  have hcpl := hin.ptr_len
  have hlast := hin.ptr_last
  set o := mc job A.nbrows A.browptr⟦A.nbrows⟧ c.bcolptr c.browind c.vals w.1 w.2 with ho
  have hrun : mc64Compute srt gptr gind gvals gdiag mc exp job A r = (do
      mc64Check o.info0
      let s ← mc64Finish exp job A.nbrows o.dw (if job = 5 then vresizeK r.rowscale A.nbrows else r.rowscale)
        (if job = 5 then vresizeK r.colscale A.nbrows else r.colscale) o.cperm
      let icp ← invertPermutationZ s.2
      .ok { r with cp := s.2.map Int.toNat, icp := icp, rowscale := s.1.1, colscale := s.1.2 }) := by
    unfold mc64Compute
    rw [e, ok_bind]
    have a1 : cassert (A.nbrows == c.nbcols) = .ok () := by simp [cassert, hnb]
    have a2 : cassert (A.browptr⟦A.nbrows⟧ + 1 == c.bcolptr⟦c.nbcols⟧) = .ok () := by
      rw [hnb, hlast]; simp [cassert]
    have a3 : addrFirst A.nbrows = .ok () := if_neg (by omega)
    have a4 : addrFirst w.1 = .ok () := if_neg (by omega)
    have a5 : addrFirst w.2 = .ok () := if_neg (by omega)
    rw [a1, ok_bind, rd_eq (by omega), ok_bind, rd_eq (by omega), ok_bind, a2, ok_bind, ew, ok_bind, a3,
      ok_bind, a4, ok_bind, a5, ok_bind]
    simp only [hnb, ← ho]
  refine ⟨c.bcolptr, c.browind, c.vals, w.1, w.2, hin, hden, hw, fun h => ?_, fun h => ?_⟩
  · rw [hrun]
    unfold mc64Check
    rw [if_neg h]
    by_cases h' : o.info0 = 1
    · rw [if_pos h', if_pos h']; rfl
    · rw [if_neg h', if_neg h']; rfl
  · obtain ⟨hperm, hdw, hst, hsc⟩ := hmc job A.nbrows _ c.bcolptr c.browind c.vals w.1 w.2 (by omega) hj5 hin
      hw h
    rw [← ho] at hperm hdw hst hsc
    obtain ⟨hcl, hc1, hcp⟩ := mc64_perm hperm
    obtain ⟨⟨⟨rs, cs⟩, p⟩, ef, hp, hs, hs5⟩ := mc64Finish_ok exp job A.nbrows o.dw
      (if job = 5 then vresizeK r.rowscale A.nbrows else r.rowscale)
      (if job = 5 then vresizeK r.colscale A.nbrows else r.colscale) o.cperm hcl
      (fun h5 => by rw [hdw]; exact hw5 h5)
      (fun h5 => by rw [if_pos h5]; simp [vresizeK]; omega)
      (fun h5 => by rw [if_pos h5]; simp [vresizeK]; omega)
    dsimp only at hp hs hs5
    have hp0 : ∀ x ∈ p, 0 ≤ x := by
      intro x hx
      rw [hp, List.mem_map] at hx
      obtain ⟨y, hy, rfl⟩ := hx
      have := hc1 y hy
      omega
    have hpn : p.map Int.toNat = o.cperm.map fun c => c.natAbs - 1 := by
      rw [hp, List.map_map]
      refine List.map_congr_left fun y hy => ?_
      have := hc1 y hy
      simp only [Function.comp]
      omega
    have hpat : ∀ i < A.nbrows, (p.map Int.toNat)⟦i⟧ = o.cperm⟦i⟧.natAbs - 1 := by
      intro i hi
      rw [hpn, get0_eq_getElem (by simp; omega), List.getElem_map, get0_eq_getElem (by omega)]
    rw [← hpn] at hcp
    obtain ⟨icp, ei, hinv⟩ := invert_permutation_correct _ _ hcp
    have hplen := hcp.length
    set r' : RS K := { r with cp := p.map Int.toNat, icp := icp, rowscale := rs, colscale := cs } with hr'
    have hV : r'.Valid A.nbrows := ⟨.inl hrp, .inr ⟨hcp, hinv⟩⟩
    have hat : ∀ i < A.nbrows, at' r'.cp i = o.cperm⟦i⟧.natAbs - 1 := by
      intro i hi
      unfold at'
      rw [if_pos (by show (p.map Int.toNat).length > 0; omega)]
      exact hpat i hi
    have hatrp : ∀ i, at' r'.rp i = i := by
      intro i
      have : r'.rp = [] := hrp
      simp [at', this]
    -- the scaling factors
    have hfac : FactorOk rs A.nbrows ∧ FactorOk cs A.nbrows := by
      by_cases h5 : job = 5
      · obtain ⟨l1, l2, hv⟩ := hs5 h5
        exact ⟨.inr ⟨l1, fun i hi => by rw [(hv i hi).1]; exact (hexp _).ne'⟩,
          .inr ⟨l2, fun i hi => by rw [(hv i hi).2]; exact (hexp _).ne'⟩⟩
      · have := hs h5
        rw [if_neg h5, if_neg h5, (hrs h5).1, (hrs h5).2] at this
        injection this with q1 q2
        exact ⟨.inl q1, .inl q2⟩
    refine ⟨r', ?_, hV, hrp, hplen, hfac.1, hfac.2, fun ords hords => ?_⟩
    · rw [hrun, h, show mc64Check 0 = .ok () from if_pos rfl, ok_bind, ef, ok_bind, invertPermutationZ_eq hp0, ei,
        ok_bind]
    · obtain ⟨B, eB, hBF, hBn, hBc⟩ := reorder_scale_forward A 1 hA r' hV hfac.1.len hfac.2.len ords hords
      have hstA : ∀ i < A.nbrows, ∃ k, A.InRow i k ∧ A.bcolind⟦k⟧ = at' r'.cp i := by
        intro i hi
        obtain ⟨q, hq⟩ := hst i hi
        have hlt : o.cperm⟦i⟧.natAbs - 1 < A.nbrows := by rw [← hpat i hi]; exact hcp.lt hi
        obtain ⟨k, hk, hkc, _⟩ := (hden i hi _ hlt _).mp ⟨q, hq, rfl⟩
        exact ⟨k, hk, by rw [hat i hi]; exact hkc⟩
      have hrfac : ∀ i < A.nbrows, job = 5 → factor r'.rowscale i = exp o.dw⟦i⟧ ∧
          factor r'.colscale i = exp o.dw⟦A.nbrows + i⟧ := by
        intro i hi h5
        obtain ⟨l1, l2, hv⟩ := hs5 h5
        unfold factor
        rw [if_pos (show rs.length > 0 by omega), if_pos (show cs.length > 0 by omega)]
        exact hv i hi
      have habs : ∀ i < A.nbrows, ∀ j < A.nbrows, job = 5 → |B.cell 1 i j 0| =
          exp o.dw⟦i⟧ * |A.cell 1 i (at' r'.cp j) 0| * exp o.dw⟦A.nbrows + at' r'.cp j⟧ := by
        intro i hi j hj h5
        have hjl : at' r'.cp j < A.nbrows := at'_lt (.inr hcp) hj
        rw [hBc i hi j hj 0 (by omega), hatrp, (hrfac i hi h5).1, (hrfac _ hjl h5).2, abs_mul, abs_mul,
          abs_of_pos (hexp _), abs_of_pos (hexp _)]
      refine ⟨B, eB, hBF, hBn, ⟨fun i hi => ?_, fun h5 i hi => ?_, fun h5 i hi j hj => ?_⟩⟩
      · rw [hBn] at hi
        obtain ⟨k, hk, hkc⟩ := hstA i hi
        exact reorderScale_forward_stored hA hV hfac.1.len hfac.2.len hords eB hi hi (by rw [hatrp]; exact hk) hkc
      · rw [hBn] at hi
        obtain ⟨k, hk, hkc⟩ := hstA i hi
        have hil : at' r'.cp i < A.nbrows := at'_lt (.inr hcp) hi
        obtain ⟨q, hq, hqv⟩ := (hden i hi _ hil A.vals⟦k⟧).mpr ⟨k, hk, hkc, rfl⟩
        rw [habs i hi i hi h5, SR.cell_stored hA hR hi hk hkc, ← hqv]
        rw [hat i hi] at hq ⊢
        exact (hsc h5).2 i hi q hq
      · rw [hBn] at hi hj
        rw [habs i hi j hj h5]
        have hjl : at' r'.cp j < A.nbrows := at'_lt (.inr hcp) hj
        by_cases hex : ∃ k, A.InRow i k ∧ A.bcolind⟦k⟧ = at' r'.cp j
        · obtain ⟨k, hk, hkc⟩ := hex
          obtain ⟨q, hq, hqv⟩ := (hden i hi _ hjl A.vals⟦k⟧).mpr ⟨k, hk, hkc, rfl⟩
          rw [SR.cell_stored hA hR hi hk hkc, ← hqv]
          exact (hsc h5).1 i hi _ hjl q hq
        · rw [SR.cell_absent hA hi (fun k hk hkc => hex ⟨k, hk, hkc⟩)]
          simp

/-- **C69** With job 5 the installed ordering maximises the product of the diagonal: for every assignment `σ` of distinct
columns to the rows, the entries `(i, σ(i))` of the permuted and scaled matrix have a product of modulus at most that of the diagonal. -/
theorem large_diagonal_product {B : SR K} (h : LargeDiagonal True B) (σ : Nat → Nat)
    (hσ : ∀ i < B.nbrows, σ i < B.nbrows) :
    ∏ i ∈ range B.nbrows, |B.cell 1 i (σ i) 0| ≤ ∏ i ∈ range B.nbrows, |B.cell 1 i i 0| := by
  rw [prod_congr rfl (fun i hi => h.diag_one trivial i (mem_range.mp hi)), prod_const_one]
  exact prod_le_one (fun i _ => abs_nonneg _) fun i hi =>
    h.le_one trivial i (mem_range.mp hi) _ (hσ i (mem_range.mp hi))

end

/-- **C69** A job other than 1 to 5 is reported by an exception before MC64 is called, whatever MC64 does. -/
theorem mc64_invalid_job [Zero K] (A : SR K) (hA : A.Full 1) (hR : A.NoRepeats) (hn : 1 ≤ A.nbrows)
    (job : Int) (hj : job < 1 ∨ 5 < job) (srt : List (CSEntry K) → List (CSEntry K)) (hsrt : SortsByRow srt)
    (gptr gind : List Nat) (gvals : List K) (gdiag : List Int)
    (h1 : gptr.length = A.nbrows + 1) (h2 : gind.length = A.browptr⟦A.nbrows⟧)
    (h3 : gvals.length = A.browptr⟦A.nbrows⟧) (h4 : gdiag.length = A.nbrows)
    (mc : MC64Fn K) (exp : K → K) (r : RS K) :
    mc64Compute srt gptr gind gvals gdiag mc exp job A r =
      .error (.throw "std::runtime_error" "Invalid MC64 job!") := by
  obtain ⟨c, e, hnb, hin, _⟩ := mc64_input A hA hR hn srt hsrt gptr gind gvals gdiag h1 h2 h3 h4
  have hpl := hA.ptr_len
  have hcpl := hin.ptr_len
  unfold mc64Compute
  have a1 : cassert (A.nbrows == c.nbcols) = .ok () := by simp [cassert, hnb]
  have a2 : cassert (A.browptr⟦A.nbrows⟧ + 1 == c.bcolptr⟦c.nbcols⟧) = .ok () := by
    rw [hnb, hin.ptr_last]; simp [cassert]
  have a3 : getWorkSizes job A.nbrows A.browptr⟦A.nbrows⟧ =
      .error (.throw "std::runtime_error" "Invalid MC64 job!") := by
    unfold getWorkSizes
    rw [if_neg (by omega), if_neg (by omega), if_neg (by omega), if_neg (by omega), if_neg (by omega)]
  rw [e, ok_bind, a1, ok_bind, rd_eq (by omega), ok_bind, rd_eq (by omega), ok_bind, a2, ok_bind, a3]
  rfl

/-- Job 1 is documented, but the wrapper then forms the address of the first element of an empty vector: undefined behaviour for
every matrix. -/
theorem mc64_job1_undefined [Zero K] (A : SR K) (hA : A.Full 1) (hR : A.NoRepeats) (hn : 1 ≤ A.nbrows)
    (srt : List (CSEntry K) → List (CSEntry K)) (hsrt : SortsByRow srt)
    (gptr gind : List Nat) (gvals : List K) (gdiag : List Int)
    (h1 : gptr.length = A.nbrows + 1) (h2 : gind.length = A.browptr⟦A.nbrows⟧)
    (h3 : gvals.length = A.browptr⟦A.nbrows⟧) (h4 : gdiag.length = A.nbrows)
    (mc : MC64Fn K) (exp : K → K) (r : RS K) :
    mc64Compute srt gptr gind gvals gdiag mc exp 1 A r = .error .ub := by
  obtain ⟨c, e, hnb, hin, _⟩ := mc64_input A hA hR hn srt hsrt gptr gind gvals gdiag h1 h2 h3 h4
  have hpl := hA.ptr_len
  have hcpl := hin.ptr_len
  unfold mc64Compute
  have a1 : cassert (A.nbrows == c.nbcols) = .ok () := by simp [cassert, hnb]
  have a2 : cassert (A.browptr⟦A.nbrows⟧ + 1 == c.bcolptr⟦c.nbcols⟧) = .ok () := by
    rw [hnb, hin.ptr_last]; simp [cassert]
  have a3 : getWorkSizes 1 A.nbrows A.browptr⟦A.nbrows⟧ = .ok (5 * A.nbrows, 0) := rfl
  have a4 : addrFirst A.nbrows = .ok () := if_neg (by omega)
  have a5 : addrFirst (5 * A.nbrows) = .ok () := if_neg (by omega)
  rw [e, ok_bind, a1, ok_bind, rd_eq (by omega), ok_bind, rd_eq (by omega), ok_bind, a2, ok_bind, a3, ok_bind, a4,
    ok_bind]
  dsimp only
  rw [a5]
  rfl

/-! ### A concrete case -/

/-- Rows `0 ↦ {1: 2, 2: 1}`, `1 ↦ {0: 4}`, `2 ↦ {1: 1, 2: -8}`: the diagonal of the first two rows is missing. -/
def exMc : SR ℚ :=
  { browptr := [0, 2, 3, 5], bcolind := [1, 2, 0, 1, 2], vals := [2, 1, 4, 1, -8],
    diagind := [0, 0, 4], browendptr := [2, 3, 5], nbrows := 3, nnzb := 5, nbstored := 5 }

theorem exMc_full : exMc.Full := by constructor <;> decide
theorem exMc_sorted : exMc.Sorted := SR.sorted_of_check (by decide)

/-- A stand-in for `exp` over the rationals. -/
def exMcExp (x : ℚ) : ℚ := if 0 < x then x else 1

/-- A routine that solves the problem for `exMc` (job 5) and reports failure otherwise. -/
def exMcFn : MC64Fn ℚ := fun job n ne colptr rowind a liw ldw =>
  if job = 5 ∧ n = 3 ∧ ne = 5 ∧ colptr = [1, 2, 4, 6] ∧ rowind = [2, 1, 3, 1, 3] ∧ a = [4, 2, 1, 1, -8] ∧
      liw = 15 ∧ ldw = 14 then
    ⟨0, [2, -1, 3], [1/2, 1/4, 1/8] ++ [1, 1, 1] ++ List.replicate 8 0⟩
  else ⟨1, [], []⟩

theorem exMc_contract : MC64Contract exMcFn exMcExp := by
  intro job n ne colptr rowind a liw ldw _ _ hin hw h
  have hc : job = 5 ∧ n = 3 ∧ ne = 5 ∧ colptr = [1, 2, 4, 6] ∧ rowind = [2, 1, 3, 1, 3] ∧
      a = [4, 2, 1, 1, -8] ∧ liw = 15 ∧ ldw = 14 := by
    by_contra hc
    rw [exMcFn, if_neg hc] at h
    exact absurd h (by decide)
  obtain ⟨rfl, rfl, rfl, rfl, rfl, rfl, rfl, rfl⟩ := hc
  have hv : exMcFn 5 3 5 [1, 2, 4, 6] [2, 1, 3, 1, 3] [4, 2, 1, 1, -8] 15 14 =
      ⟨0, [2, -1, 3], [1/2, 1/4, 1/8] ++ [1, 1, 1] ++ List.replicate 8 0⟩ := by decide +kernel
  have hp : ∀ i j p, i < 3 → j < 3 → MC64At [1, 2, 4, 6] [2, 1, 3, 1, 3] i j p → p < 5 := by
    rintro i j p _ hj ⟨_, h2, _⟩
    have : ∀ j < 3, ([1, 2, 4, 6] : List Nat)⟦j + 1⟧ ≤ 6 := by decide
    have := this j hj
    omega
  dsimp only
  rw [hv]
  refine ⟨by decide, by decide, ?_, fun _ => ⟨?_, ?_⟩⟩
  · have : ∀ i < 3, ∃ p < 5, MC64At [1, 2, 4, 6] [2, 1, 3, 1, 3] i
        (([2, -1, 3] : List Int)⟦i⟧.natAbs - 1) p := by unfold MC64At; decide
    exact fun i hi => (this i hi).imp fun p hp => hp.2
  · have : ∀ i < 3, ∀ j < 3, ∀ p < 5, MC64At [1, 2, 4, 6] [2, 1, 3, 1, 3] i j p →
        exMcExp (([1/2, 1/4, 1/8] ++ [1, 1, 1] ++ List.replicate 8 0 : List ℚ))⟦i⟧ *
          |([4, 2, 1, 1, -8] : List ℚ)⟦p⟧| *
          exMcExp (([1/2, 1/4, 1/8] ++ [1, 1, 1] ++ List.replicate 8 0 : List ℚ))⟦3 + j⟧ ≤ 1 := by
      unfold MC64At; decide +kernel
    exact fun i hi j hj p h => this i hi j hj p (hp i j p hi hj h) h
  · have : ∀ i < 3, ∀ p < 5, MC64At [1, 2, 4, 6] [2, 1, 3, 1, 3] i (([2, -1, 3] : List Int)⟦i⟧.natAbs - 1) p →
        exMcExp (([1/2, 1/4, 1/8] ++ [1, 1, 1] ++ List.replicate 8 0 : List ℚ))⟦i⟧ *
          |([4, 2, 1, 1, -8] : List ℚ)⟦p⟧| *
          exMcExp (([1/2, 1/4, 1/8] ++ [1, 1, 1] ++ List.replicate 8 0 : List ℚ))⟦3 +
            (([2, -1, 3] : List Int)⟦i⟧.natAbs - 1)⟧ = 1 := by
      unfold MC64At; decide +kernel
    have hc : ∀ i < 3, ([2, -1, 3] : List Int)⟦i⟧.natAbs - 1 < 3 := by decide
    exact fun i hi p h => this i hi p (hp i _ p hi (hc i hi) h) h

/-- Non-vacuity of C69: for this matrix the routine answers, and the whole chain runs. -/
example : mc64Compute (fun l => l.insertionSort fun a b => a.1 ≤ b.1) [0, 0, 0, 0] [0, 0, 0, 0, 0]
      [0, 0, 0, 0, 0] [0, 0, 0] exMcFn exMcExp 5 exMc {} =
    .ok { cp := [1, 0, 2], icp := [1, 0, 2], rowscale := [1/2, 1/4, 1/8], colscale := [1, 1, 1] } := by
  decide +kernel

example : (reorderScale (K := ℚ) 1 { cp := [1, 0, 2], icp := [1, 0, 2], rowscale := [1/2, 1/4, 1/8], colscale := [1, 1, 1] }
      .forward (fun _ => [0, 1, 2]) exMc).map (fun B => (B.bcolind, B.vals)) =
    .ok ([0, 2, 1, 0, 2], [1, 1/2, 1, 1/8, -1]) := by decide +kernel

example : ∃ r', mc64Compute (fun l => l.insertionSort fun a b => a.1 ≤ b.1) [0, 0, 0, 0] [0, 0, 0, 0, 0]
      [0, 0, 0, 0, 0] [0, 0, 0] exMcFn exMcExp 5 exMc {} = .ok r' ∧ r'.Valid 3 := by
  obtain ⟨colptr, rowind, a, liw, ldw, _, _, _, hbad, hok⟩ := mc64_compute_correct_partial exMc exMc_full
    exMc_sorted.noRepeats (by decide) 5 (by decide) (by decide) (by decide)
    (fun l => l.insertionSort fun a b => a.1 ≤ b.1)
    (fun l => ⟨List.perm_insertionSort _ l, List.pairwise_insertionSort _ l⟩)
    [0, 0, 0, 0] [0, 0, 0, 0, 0] [0, 0, 0, 0, 0] [0, 0, 0] rfl rfl rfl rfl exMcFn exMcExp
    (fun x => by unfold exMcExp; split <;> [assumption; exact zero_lt_one]) exMc_contract {} rfl (by simp)
  by_cases h : (exMcFn 5 exMc.nbrows exMc.browptr⟦exMc.nbrows⟧ colptr rowind a liw ldw).info0 = 0
  · obtain ⟨r', e, hV, _⟩ := hok h
    exact ⟨r', e, hV⟩
  · have := hbad h
    rw [show mc64Compute (fun l => l.insertionSort fun a b => a.1 ≤ b.1) [0, 0, 0, 0] [0, 0, 0, 0, 0]
      [0, 0, 0, 0, 0] [0, 0, 0] exMcFn exMcExp 5 exMc {} =
      .ok { cp := [1, 0, 2], icp := [1, 0, 2], rowscale := [1/2, 1/4, 1/8], colscale := [1, 1, 1] } by
      decide +kernel] at this
    exact absurd this (by simp)

/-! ### The work sizes in `int` -/

/-- `getWorkSizes` (`src/reorderingscaling.cpp` lines 409-443) with its products and sums in `int`. -/
def getWorkSizesI (imax : Nat) (job : Int) (nrows nnz : Nat) : C (Nat × Nat) :=
  if job = 1 then do
    let a ← ick imax (5 * nrows)
    .ok (a, 0)
  else if job = 2 then do
    let a ← ick imax (4 * nrows)
    .ok (a, nrows)
  else if job = 3 then do
    let a ← ick imax (10 * nrows)
    let b ← ick imax (a + nnz)
    .ok (b, nnz)
  else if job = 4 then do
    let a ← ick imax (5 * nrows)
    let b ← ick imax (2 * nrows)
    let d ← ick imax (b + nnz)
    .ok (a, d)
  else if job = 5 then do
    let a ← ick imax (5 * nrows)
    let b ← ick imax (3 * nrows)
    let d ← ick imax (b + nnz)
    .ok (a, d)
  else .error (.throw "std::runtime_error" "Invalid MC64 job!")

/-- **C69** In `int` the sizes are those above if they are representable, and otherwise the arithmetic overflows. -/
theorem mc64_work_sizes_int (imax : Nat) (job : Int) (n nnz liw ldw : Nat)
    (hok : getWorkSizes job n nnz = .ok (liw, ldw)) (hn : n ≤ imax) (hnnz : nnz ≤ imax) :
    (liw ≤ imax ∧ ldw ≤ imax → getWorkSizesI imax job n nnz = .ok (liw, ldw)) ∧
    (¬(liw ≤ imax ∧ ldw ≤ imax) → getWorkSizesI imax job n nnz = .error .ub) := by
  unfold getWorkSizes at hok
  unfold getWorkSizesI
  have key : ∀ x, x ≤ imax → ick imax x = .ok x := fun x h => if_pos h
  have key' : ∀ x, ¬ x ≤ imax → ick imax x = .error .ub := fun x h => if_neg h
  split_ifs at hok ⊢ <;> try (injection hok with hok; injection hok with q1 q2; subst q1 q2)
  · exact ⟨fun h => by rw [key _ h.1]; rfl, fun h => by rw [key' _ (fun h' => h ⟨h', by omega⟩)]; rfl⟩
  · exact ⟨fun h => by rw [key _ h.1]; rfl, fun h => by rw [key' _ (fun h' => h ⟨h', by omega⟩)]; rfl⟩
  · refine ⟨fun h => by rw [key _ (by omega), ok_bind, key _ h.1]; rfl, fun h => ?_⟩
    by_cases h1 : 10 * n ≤ imax
    · rw [key _ h1, ok_bind, key' _ (fun h' => h ⟨h', by omega⟩)]; rfl
    · rw [key' _ h1]; rfl
  · refine ⟨fun h => by rw [key _ h.1, ok_bind, key _ (by omega), ok_bind, key _ h.2]; rfl, fun h => ?_⟩
    by_cases h1 : 5 * n ≤ imax
    · rw [key _ h1, ok_bind, key _ (by omega), ok_bind, key' _ (fun h' => h ⟨h1, h'⟩)]; rfl
    · rw [key' _ h1]; rfl
  · refine ⟨fun h => by rw [key _ h.1, ok_bind, key _ (by omega), ok_bind, key _ h.2]; rfl, fun h => ?_⟩
    by_cases h1 : 5 * n ≤ imax
    · rw [key _ h1, ok_bind, key _ (by omega), ok_bind, key' _ (fun h' => h ⟨h1, h'⟩)]; rfl
    · rw [key' _ h1]; rfl

example : getWorkSizesI maxInt 3 200000000 200000000 = .error .ub := by decide +kernel
example : getWorkSizesI maxInt 5 1000 5000 = .ok (5000, 8000) := by decide +kernel

end Blasted
