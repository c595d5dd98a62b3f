import Verif.Solve.BgsModel
import Verif.Solve.SgsProps
import Verif.Transpose.Props

/-!
# Backward Gauss-Seidel on compressed columns (C32)
-/

namespace Blasted

open Finset

variable {K : Type}

/-- What `compute` establishes: the columns of `c` hold the matrix `A`, in order of rows, and `diagind` locates the
diagonal entries. -/
structure ColsOf [Field K] (A : SR K) (c : SC K) : Prop where
  full : c.Full 1
  cols : c.nbcols = A.nbrows
  diag_len : c.diagind.length = A.nbrows
  entry : ∀ i < A.nbrows, ∀ j < A.nbrows, (∑ k ∈ Ico c.bcolptr⟦j⟧ c.bcolptr⟦j + 1⟧,
    if c.browind⟦k⟧ = i then c.vals⟦k⟧ else 0) = A.entry i j
  sorted : ∀ j < A.nbrows, ∀ p q, c.bcolptr⟦j⟧ ≤ p → p ≤ q → q < c.bcolptr⟦j + 1⟧ → c.browind⟦p⟧ ≤ c.browind⟦q⟧
  diag : ∀ j < A.nbrows, ∃ p : Nat, c.diagind⟦j⟧ = (p : Int) ∧ c.bcolptr⟦j⟧ ≤ p ∧ p < c.bcolptr⟦j + 1⟧ ∧
    c.browind⟦p⟧ = j

section
variable [Field K]

/-- The entries of column `j` before the diagonal are those of the upper triangle. -/
theorem ColsOf.upper {A : SR K} {c : SC K} (h : ColsOf A c) {i j p : Nat} (hij : i < j) (hj : j < A.nbrows)
    (hp : c.bcolptr⟦j⟧ ≤ p) (hp2 : p < c.bcolptr⟦j + 1⟧) (hpj : c.browind⟦p⟧ = j) :
    (∑ k ∈ Ico c.bcolptr⟦j⟧ p, if c.browind⟦k⟧ = i then c.vals⟦k⟧ else 0) = A.entry i j := by
  rw [← h.entry i (by omega) j hj, ← sum_Ico_consecutive _ hp hp2.le]
  rw [left_eq_add]
  refine sum_eq_zero fun k hk => ?_
  rw [mem_Ico] at hk
  have := h.sorted j hj p k hp hk.1 hk.2
  rw [if_neg (by omega)]

theorem cscBgsColumn_ok {A : SR K} {c : SC K} (h : ColsOf A c) {d zz : List K} (hd : d.length = A.nbrows)
    (hz : zz.length = A.nbrows) {j : Nat} (hj : j < A.nbrows) {temp : List K} (ht : temp.length = A.nbrows) :
    Ok (cscBgsColumn c d zz j temp) (fun t => t.length = A.nbrows ∧
      ∀ i < j, t⟦i⟧ = temp⟦i⟧ - A.entry i j * zz⟦j⟧ * d⟦i⟧) := by
  obtain ⟨p, e, h1, h2, h3⟩ := h.diag j hj
  have hdl := h.diag_len
  have hpl := h.full.ptr_len
  have hc := h.cols
  have hle := h.full.ptr_le (i := j + 1) (j := c.nbcols) (by omega) (le_refl _)
  have hil := h.full.ind_len
  have hvl := h.full.val_len
  unfold cscBgsColumn
  rw [rd_eq (by omega), ok_bind, rd_eq (by omega), ok_bind, e, Int.toNat_natCast]
  unfold forDown
  refine (forList_add (fun k => c.browind⟦k⟧) (fun k => - (c.vals⟦k⟧ * zz⟦j⟧ * d⟦c.browind⟦k⟧⟧)) (y := temp) ?_ ?_).mono ?_
  · intro k hk
    rw [List.mem_reverse, List.mem_range'_1] at hk
    have := h.full.row_lt k (by omega)
    omega
  · intro k hk y hy
    rw [List.mem_reverse, List.mem_range'_1] at hk
    have := h.full.row_lt k (by omega)
    rw [rd_eq (by omega), ok_bind, rd_eq (by omega), ok_bind, rd_eq (by omega), ok_bind, rd_eq (by omega), ok_bind,
      rd_eq (by omega), ok_bind, wr_eq (by omega), sub_eq_add_neg]
  · rintro t ⟨hl, ht'⟩
    refine ⟨by omega, fun i hi => ?_⟩
    rw [ht' i (by omega), ← h.upper hi hj h1 h2 h3, List.map_reverse, List.sum_reverse, sub_eq_add_neg]
    congr 1
    rw [sum_mul, sum_mul, ← sum_neg_distrib, Finset.sum_eq_multiset_sum]
    have : (Ico c.bcolptr⟦j⟧ p).val = ((List.range' c.bcolptr⟦j⟧ (p - c.bcolptr⟦j⟧) : List Nat) : Multiset Nat) := rfl
    rw [this, Multiset.map_coe, Multiset.sum_coe]
    congr 1
    refine List.map_congr_left fun k _ => ?_
    by_cases hk : c.browind⟦k⟧ = i
    · rw [if_pos hk, if_pos hk, hk]
    · rw [if_neg hk, if_neg hk, zero_mul, zero_mul, neg_zero]

theorem cscBgsSweep_ok {A : SR K} {c : SC K} (h : ColsOf A c) {d rr zz temp : List K} (hd : d.length = A.nbrows)
    (hr : rr.length = A.nbrows) (hz : zz.length = A.nbrows) (ht : temp.length = A.nbrows) {ord : List Nat}
    (hord : ord.Perm (List.range A.nbrows)) :
    Ok (cscBgsSweep c d rr ord (temp, zz)) (fun s => s.1.length = A.nbrows ∧ s.2.length = A.nbrows ∧
      ∀ i < A.nbrows, s.2⟦i⟧ = d⟦i⟧ * (rr⟦i⟧ - ∑ j ∈ Ico (i + 1) A.nbrows, A.entry i j * s.2⟦j⟧)) := by
  unfold cscBgsSweep
  rw [h.cols]
  refine (par_cells hord ht (fun i => rr⟦i⟧ * d⟦i⟧) fun i hi y hy => by
    rw [rd_eq (by omega), ok_bind, rd_eq (by omega), ok_bind, wr_eq (by omega)]).bind fun t₁ ht1 => ?_
  refine (forDown_ok (fun J s => s.1.length = A.nbrows ∧ s.2.length = A.nbrows ∧
    (∀ i < A.nbrows, J ≤ i → s.2⟦i⟧ = d⟦i⟧ * (rr⟦i⟧ - ∑ j ∈ Ico (i + 1) A.nbrows, A.entry i j * s.2⟦j⟧)) ∧
    ∀ i < J, s.1⟦i⟧ = d⟦i⟧ * (rr⟦i⟧ - ∑ j ∈ Ico J A.nbrows, A.entry i j * s.2⟦j⟧)) (Nat.zero_le _)
    ⟨ht1.1, hz, fun i hi hle => by omega, fun i hi => ?_⟩ ?_).mono fun s hs =>
      ⟨hs.1, hs.2.1, fun i hi => hs.2.2.1 i hi (Nat.zero_le _)⟩
  · dsimp only
    rw [ht1.2 i hi, Ico_self, sum_empty, sub_zero, mul_comm]
  · rintro j ⟨temp, zz⟩ _ hj ⟨g1, g2, g3, g4⟩
    dsimp only at g1 g2 g3 g4 ⊢
    rw [rd_eq (by omega), ok_bind, wr_eq (by omega), ok_bind]
    refine (cscBgsColumn_ok h hd (by simpa using g2) hj g1).bind fun t ht => Ok.pure ?_
    have hsum : ∀ i a, j < a → ∑ k ∈ Ico a A.nbrows, A.entry i k * (zz.set j temp⟦j⟧)⟦k⟧ =
        ∑ k ∈ Ico a A.nbrows, A.entry i k * zz⟦k⟧ := by
      intro i a ha
      refine sum_congr rfl fun k hk => ?_
      rw [mem_Ico] at hk
      rw [get0_set_ne (by omega)]
    refine ⟨ht.1, by simpa using g2, fun i hi hle => ?_, fun i hi => ?_⟩
    · rw [hsum i _ (by omega)]
      by_cases hij : i = j
      · subst hij
        rw [get0_set_self (by omega)]
        exact g4 i (by omega)
      · rw [get0_set_ne (by omega)]
        exact g3 i hi (by omega)
    · dsimp only
      rw [ht.2 i hi, get0_set_self (by omega), sum_eq_sum_Ico_succ_bot hj, hsum i _ (by omega),
        get0_set_self (by omega), g4 i (by omega)]
      ring

end

section
variable [Field K] [DecidableEq K]

/-- **C32**: one thread, any number of sweeps: the application solves with the upper triangle, `(D+U) z = r`. -/
theorem csc_bgs_apply_correct {A : SR K} {c : SC K} (h : ColsOf A c) {d : List K} (hI : DiagInv A d) {k : Nat}
    (hk : 1 ≤ k) {ord0 : List Nat} (h0 : ord0.Perm (List.range A.nbrows)) {ord : Nat → List Nat}
    (hord : ∀ t, (ord t).Perm (List.range A.nbrows)) {gtemp rr zz : List K} (hg : gtemp.length = A.nbrows)
    (hr : rr.length = A.nbrows) (hz : zz.length = A.nbrows) :
    ∃ z', cscBgsApply c d k ord0 ord gtemp rr zz = .ok z' ∧ z'.length = A.nbrows ∧
      ∀ i < A.nbrows, ∑ j ∈ range A.nbrows, (if i ≤ j then A.entry i j else 0) * z'⟦j⟧ = rr⟦i⟧ := by
  have H : Ok (cscBgsApply c d k ord0 ord gtemp rr zz) (fun z' => z'.length = A.nbrows ∧
      ∀ i < A.nbrows, z'⟦i⟧ = d⟦i⟧ * (rr⟦i⟧ - ∑ j ∈ Ico (i + 1) A.nbrows, A.entry i j * z'⟦j⟧)) := by
    unfold cscBgsApply
    rw [h.cols]
    refine (par_cells h0 hg (fun _ => (0 : K)) fun i hi y hy => wr_eq (by omega)).bind fun t₁ ht1 => ?_
    refine (forRange_ok (fun t s => s.1.length = A.nbrows ∧ s.2.length = A.nbrows ∧ (1 ≤ t →
      ∀ i < A.nbrows, s.2⟦i⟧ = d⟦i⟧ * (rr⟦i⟧ - ∑ j ∈ Ico (i + 1) A.nbrows, A.entry i j * s.2⟦j⟧)))
      (Nat.zero_le k) ⟨ht1.1, hz, fun h => by omega⟩ ?_).bind fun s hs => Ok.pure ⟨hs.2.1, hs.2.2 hk⟩
    rintro t ⟨temp, zz⟩ _ _ ⟨g1, g2, _⟩
    exact (cscBgsSweep_ok h hI.len hr g2 g1 (hord t)).mono fun s hs => ⟨hs.1, hs.2.1, fun _ => hs.2.2⟩
  obtain ⟨z', e, hl, hz'⟩ := H
  refine ⟨z', e, hl, fun i hi => ?_⟩
  have e1 : ∑ j ∈ range A.nbrows, (if i ≤ j then A.entry i j else 0) * z'⟦j⟧ =
      ∑ j ∈ Ico i A.nbrows, A.entry i j * z'⟦j⟧ := by
    rw [range_eq_Ico, ← sum_Ico_consecutive _ (Nat.zero_le i) hi.le]
    rw [sum_eq_zero (s := Ico 0 i) fun j hj => by
      rw [mem_Ico] at hj
      rw [if_neg (by omega), zero_mul], zero_add]
    refine sum_congr rfl fun j hj => ?_
    rw [mem_Ico] at hj
    rw [if_pos hj.1]
  rw [e1, sum_eq_sum_Ico_succ_bot hi, hz' i hi, ← mul_assoc, hI.right i hi]
  ring

/-- **C32**, setup: `compute` succeeds if no diagonal entry is zero, for every correct sort and whatever the contents of
newly allocated arrays. -/
theorem csc_bgs_compute_correct {A : SR K} (hA : A.Full) (hS : A.Sorted) (hD : A.HasDiag)
    (hu : ∀ i < A.nbrows, A.entry i i ≠ 0) {ord : List Nat} (hord : ord.Perm (List.range A.nbrows)) {g : List K}
    (hg : g.length = A.nbrows) {d : Option (List K)} (hd : ∀ l, d = some l → l.length = A.nbrows)
    {srt : List (CSEntry K) → List (CSEntry K)} (hsrt : SortsByRow srt)
    {gptr gind : List Nat} {gvals : List K} {gdiag : List Int}
    (h1 : gptr.length = A.nbrows + 1) (h2 : gind.length = A.browptr⟦A.nbrows⟧)
    (h3 : gvals.length = A.browptr⟦A.nbrows⟧) (h4 : gdiag.length = A.nbrows) :
    ∃ dinv c, cscBgsCompute A ord g d srt gptr gind gvals gdiag = .ok (dinv, c) ∧ DiagInv A dinv ∧ ColsOf A c := by
  obtain ⟨dinv, e1, hI⟩ := jacobi_setup_correct hA hS hD hord (fun i hi => isUnit_iff_ne_zero.mpr (hu i hi)) hg hd
  obtain ⟨c, e2, f1, f2, f3, f4, f5⟩ := convert_BSR_to_BSC_correct A 1 hA srt hsrt gptr gind gvals gdiag h1 h2
    (by omega) h4
  obtain ⟨c', e3, f6⟩ := convert_BSR_to_BSC_same_matrix A 1 (by omega) hA srt hsrt gptr gind gvals gdiag h1 h2
    (by omega) h4
  have hcc : c' = c := by
    rw [show 1 * 1 = 1 from rfl, e2] at e3
    exact (Except.ok.inj e3).symm
  subst hcc
  refine ⟨dinv, c', ?_, hI, f1, f2, f4, ?_, ?_, ?_⟩
  · unfold cscBgsCompute
    rw [e1, ok_bind, e2, ok_bind]
  · intro i hi j hj
    have := f6.2.2 .rowMajor i (by omega) j (by omega)
    unfold SC.bentry SR.bentry at this
    simp only [Nat.div_one, Nat.mod_one, Nat.mul_one, Stor.off, Nat.add_zero] at this
    exact this
  · intro j hj p q hp hpq hq
    rcases Nat.eq_or_lt_of_le hpq with rfl | hlt
    · exact le_refl _
    have hw := (f5 j hj).2.1
    unfold SC.col at hw
    rw [List.pairwise_map, List.pairwise_iff_getElem] at hw
    have := hw (p - c'.bcolptr⟦j⟧) (q - c'.bcolptr⟦j⟧) (by simp; omega) (by simp; omega) (by omega)
    simp only [List.getElem_range', Nat.one_mul] at this
    rwa [show c'.bcolptr⟦j⟧ + (p - c'.bcolptr⟦j⟧) = p by omega,
      show c'.bcolptr⟦j⟧ + (q - c'.bcolptr⟦j⟧) = q by omega] at this
  · intro j hj
    rcases (f5 j hj).2.2 with ⟨_, hn⟩ | h
    · refine absurd rfl (hn (j, blockAt 1 A.vals A.diagind⟦j⟧) ?_)
      unfold SR.colEntries
      refine List.mem_map.mpr ⟨(j, A.diagind⟦j⟧), List.mem_filter.mpr ⟨SR.mem_stored.mpr ⟨hj, hD.inRow hj⟩, ?_⟩, rfl⟩
      simp [hD.diag_col j hj]
    · exact h

/-- **C32**: the result is that of row-oriented backward substitution: a backward sweep of the row kernels on any
vector, with `r` as the right-hand side, gives the same vector. -/
theorem csc_bgs_apply_eq_rows {A : SR K} (hA : A.Full) (hS : A.Sorted) (hD : A.HasDiag) {c : SC K} (h : ColsOf A c)
    {d : List K} (hI : DiagInv A d) {k : Nat}
    (hk : 1 ≤ k) {ord0 : List Nat} (h0 : ord0.Perm (List.range A.nbrows)) {ord : Nat → List Nat}
    (hord : ∀ t, (ord t).Perm (List.range A.nbrows)) {gtemp rr zz x : List K} (hg : gtemp.length = A.nbrows)
    (hr : rr.length = A.nbrows) (hz : zz.length = A.nbrows) (hx : x.length = A.nbrows) :
    ∃ z', cscBgsApply c d k ord0 ord gtemp rr zz = .ok z' ∧ bwdSweeps (upperRow A A.vals rr) A.nbrows 1 x = .ok z' := by
  obtain ⟨z', e, hl, hz'⟩ := csc_bgs_apply_correct h hI hk h0 hord hg hr hz
  have hl' : A.vals.length = A.browptr⟦A.nbrows⟧ := by have := hA.val_len; omega
  have hinv : ∀ i < A.nbrows, pinv A.vals⟦A.diagind⟦i⟧⟧ = .ok d⟦i⟧ := by
    intro i hi
    have hent := hA.entry_stored hS hi (hD.inRow hi)
    rw [hD.diag_col i hi] at hent
    rw [← hent]
    have hne : A.entry i i ≠ 0 := left_ne_zero_of_mul_eq_one (hI.right i hi)
    rw [eq_inv_of_mul_eq_one_left (hI.left i hi)]
    exact if_neg hne
  have hU := rowUpd_upper (M := K) hA hS hD hl' hinv hr
  obtain ⟨z'', e2, hl2, hz2⟩ := hU.bwd (fun i j h => h.2) (k := 1) (le_refl _) hx
  refine ⟨z', e, ?_⟩
  rw [e2]
  refine congrArg Except.ok (ext_get0 (by omega) fun i hi => ?_)
  refine hU.unique (rank := fun i => A.nbrows - 1 - i) (fun i hi j hj hd => by have := hd.2; omega) hz2
    (fun i hi => ?_) i (by omega)
  have := hz' i hi
  have hm := upDiag_mul hA hS hD hi (get0 z')
  simp only [smul_eq_mul] at hm
  rw [hm] at this
  rw [← this, add_sub_cancel_right, smul_eq_mul, ← mul_assoc, hI.left i hi, one_mul]

end

/-- Non-vacuity of the theorems of this file. -/
example : (cscBgsCompute exStar [2, 0, 1, 3] [7, 7, 7, 7] none isortRow (List.replicate 5 9) (List.replicate 10 9)
      (List.replicate 10 9) (List.replicate 4 9) >>= fun s =>
    cscBgsApply s.2 s.1 2 [0, 1, 2, 3] (fun _ => [3, 1, 2, 0]) [6, 6, 6, 6] [3, 4, 5, 9] [8, 8, 8, 8]) =
    .ok [1, 1, 1, 1] := by decide +kernel

end Blasted
