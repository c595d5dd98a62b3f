import Verif.Container.ViewModel
import Verif.MatVec.Props
import Mathlib.Algebra.Field.Rat
import Mathlib.Algebra.Order.Ring.Rat

/-!
# Triangular views denote the triangular parts (C34)
-/

namespace Blasted
open Finset

variable {V : Type _}

/-- Storage in which every row occupies some range of positions (not necessarily adjacent to the
next row's, so views qualify), sorted by column, containing the diagonal entry at the recorded position. -/
structure SR.ViewOk (A : SR V) : Prop where
  ptr_len : A.nbrows ≤ A.browptr.length
  end_len : A.nbrows ≤ A.browendptr.length
  diag_len : A.nbrows ≤ A.diagind.length
  diag_ge : ∀ i < A.nbrows, A.browptr⟦i⟧ ≤ A.diagind⟦i⟧
  diag_lt : ∀ i < A.nbrows, A.diagind⟦i⟧ < A.browendptr⟦i⟧
  diag_col : ∀ i < A.nbrows, A.bcolind⟦A.diagind⟦i⟧⟧ = i
  end_le : ∀ i < A.nbrows, A.browendptr⟦i⟧ ≤ A.bcolind.length
  sorted : ∀ i < A.nbrows, ∀ k l, A.browptr⟦i⟧ ≤ k → k < l → l < A.browendptr⟦i⟧ →
    A.bcolind⟦k⟧ < A.bcolind⟦l⟧
  col_lt : ∀ i < A.nbrows, ∀ k, A.browptr⟦i⟧ ≤ k → k < A.browendptr⟦i⟧ → A.bcolind⟦k⟧ < A.nbrows

/-- Complete storage with sorted rows and stored diagonal qualifies. -/
theorem SR.Full.viewOk {A : SR V} {m : Nat} (hA : A.Full m) (hS : A.Sorted) (hD : A.HasDiag) : A.ViewOk where
  ptr_len := by have := hA.ptr_len; omega
  end_len := hA.end_len.ge
  diag_len := hD.diag_len.ge
  diag_ge := hD.diag_ge
  diag_lt i hi := by rw [hA.end_eq i hi]; exact hD.diag_lt i hi
  diag_col := hD.diag_col
  end_le i hi := by rw [hA.end_eq i hi, hA.ind_len]; exact hA.ptr_le (by omega) le_rfl
  sorted i hi k l h1 h2 h3 := hS i hi k l h1 h2 (by rw [← hA.end_eq i hi]; exact h3)
  col_lt i hi k h1 h2 := hA.col_lt k (hA.lt_nnz hi (by rw [← hA.end_eq i hi]; exact h2))

namespace SR.ViewOk
variable {A : SR V}

/-- Positions up to the diagonal are those of columns up to the row. -/
theorem col_le_iff (h : A.ViewOk) {i k : Nat} (hi : i < A.nbrows) (h1 : A.browptr⟦i⟧ ≤ k)
    (h2 : k < A.browendptr⟦i⟧) : A.bcolind⟦k⟧ ≤ i ↔ k ≤ A.diagind⟦i⟧ := by
  have hd := h.diag_col i hi
  constructor
  · intro hc
    by_contra hk
    have := h.sorted i hi _ _ (h.diag_ge i hi) (by omega) h2
    omega
  · intro hk
    rcases Nat.lt_or_eq_of_le hk with hk | rfl
    · have := h.sorted i hi _ _ h1 hk (h.diag_lt i hi)
      omega
    · exact hd.le

theorem col_ge_iff (h : A.ViewOk) {i k : Nat} (hi : i < A.nbrows) (h1 : A.browptr⟦i⟧ ≤ k)
    (h2 : k < A.browendptr⟦i⟧) : i ≤ A.bcolind⟦k⟧ ↔ A.diagind⟦i⟧ ≤ k := by
  have hd := h.diag_col i hi
  constructor
  · intro hc
    by_contra hk
    have := h.sorted i hi _ _ h1 (by omega) (h.diag_lt i hi)
    omega
  · intro hk
    rcases Nat.lt_or_eq_of_le hk with hk | rfl
    · have := h.sorted i hi _ _ (h.diag_ge i hi) hk h2
      omega
    · exact hd.ge

/-- In the last row nothing is stored after the diagonal. -/
theorem last_row (h : A.ViewOk) (hn : 0 < A.nbrows) :
    A.browendptr⟦A.nbrows - 1⟧ = A.diagind⟦A.nbrows - 1⟧ + 1 := by
  have hi : A.nbrows - 1 < A.nbrows := by omega
  have h1 := h.diag_lt _ hi
  by_contra hne
  have h2 := h.sorted _ hi _ (A.diagind⟦A.nbrows - 1⟧ + 1) (h.diag_ge _ hi) (Nat.lt_succ_self _) (by omega)
  have h3 := h.col_lt _ hi (A.diagind⟦A.nbrows - 1⟧ + 1) (by have := h.diag_ge _ hi; omega) (by omega)
  rw [h.diag_col _ hi] at h2
  omega

theorem sum_lower {M : Type _} [AddCommMonoid M] (h : A.ViewOk) {i : Nat} (hi : i < A.nbrows) (j : Nat) (f : Nat → M) :
    (∑ k ∈ Ico A.browptr⟦i⟧ (A.diagind⟦i⟧ + 1), if A.bcolind⟦k⟧ = j then f k else 0) =
      if j ≤ i then ∑ k ∈ Ico A.browptr⟦i⟧ A.browendptr⟦i⟧, if A.bcolind⟦k⟧ = j then f k else 0 else 0 := by
  have h1 := h.diag_ge i hi
  have h2 := h.diag_lt i hi
  split
  · rename_i hj
    rw [← sum_Ico_consecutive _ (show A.browptr⟦i⟧ ≤ A.diagind⟦i⟧ + 1 by omega) h2, eq_comm]
    have h0 : (∑ k ∈ Ico (A.diagind⟦i⟧ + 1) A.browendptr⟦i⟧, if A.bcolind⟦k⟧ = j then f k else 0) = 0 := ?_
    · rw [h0, add_zero]
    refine sum_eq_zero fun k hk => if_neg ?_
    have hk := mem_Ico.mp hk
    have := (h.col_le_iff hi (k := k) (by omega) (by omega)).not
    omega
  · refine sum_eq_zero fun k hk => if_neg ?_
    have hk := mem_Ico.mp hk
    have := (h.col_le_iff hi (k := k) (by omega) (by omega))
    omega

theorem sum_upper {M : Type _} [AddCommMonoid M] (h : A.ViewOk) {i : Nat} (hi : i < A.nbrows) (j : Nat) (f : Nat → M) :
    (∑ k ∈ Ico A.diagind⟦i⟧ A.browendptr⟦i⟧, if A.bcolind⟦k⟧ = j then f k else 0) =
      if i ≤ j then ∑ k ∈ Ico A.browptr⟦i⟧ A.browendptr⟦i⟧, if A.bcolind⟦k⟧ = j then f k else 0 else 0 := by
  have h1 := h.diag_ge i hi
  have h2 := h.diag_lt i hi
  split
  · rename_i hj
    rw [← sum_Ico_consecutive _ h1 h2.le, eq_comm]
    have h0 : (∑ k ∈ Ico A.browptr⟦i⟧ A.diagind⟦i⟧, if A.bcolind⟦k⟧ = j then f k else 0) = 0 := ?_
    · rw [h0, zero_add]
    refine sum_eq_zero fun k hk => if_neg ?_
    have hk := mem_Ico.mp hk
    have := (h.col_ge_iff hi (k := k) (by omega) (by omega)).not
    omega
  · refine sum_eq_zero fun k hk => if_neg ?_
    have hk := mem_Ico.mp hk
    have := (h.col_ge_iff hi (k := k) (by omega) (by omega))
    omega

end SR.ViewOk

/-- Number of stored entries in columns selected by `P`, over all rows. -/
def SR.countIn (A : SR V) (P : Nat → Nat → Prop) [∀ i j, Decidable (P i j)] : Nat :=
  ∑ i ∈ range A.nbrows, #{k ∈ Ico A.browptr⟦i⟧ A.browendptr⟦i⟧ | P i A.bcolind⟦k⟧}

theorem lowerView_ok {A : SR V} (h : A.ViewOk) {gp ge : List Nat} (hgp : gp.length = A.nbrows)
    (hge : ge.length = A.nbrows) :
    Ok (lowerView A gp ge) (fun L => ∃ p e n, L = { A with browptr := p, browendptr := e, nnzb := n } ∧
      p.length = A.nbrows ∧ e.length = A.nbrows ∧ (∀ i < A.nbrows, p⟦i⟧ = A.browptr⟦i⟧) ∧
      (∀ i < A.nbrows, e⟦i⟧ = A.diagind⟦i⟧ + 1) ∧
      n = ∑ i ∈ range A.nbrows, (A.diagind⟦i⟧ - A.browptr⟦i⟧ + 1)) := by
  have := h.ptr_len
  have := h.diag_len
  unfold lowerView
  refine Ok.bind (forRange_ok (fun t s => s.rowptr.length = A.nbrows ∧ s.rowendptr.length = A.nbrows ∧
    (∀ i < t, s.rowptr⟦i⟧ = A.browptr⟦i⟧) ∧ (∀ i < t, s.rowendptr⟦i⟧ = A.diagind⟦i⟧ + 1) ∧
    s.nnz = ∑ i ∈ range t, (A.diagind⟦i⟧ - A.browptr⟦i⟧ + 1)) (Nat.zero_le _)
    ⟨hgp, hge, by simp, by simp, by simp⟩ ?_) ?_
  · rintro t s _ ht ⟨h1, h2, h3, h4, h5⟩
    unfold lowerViewStep
    rw [rd_eq (by omega), ok_bind, wr_eq (by omega), ok_bind, rd_eq (by omega), ok_bind, wr_eq (by omega),
      ok_bind]
    refine Ok.pure ⟨by simp [h1], by simp [h2], fun i hi => ?_, fun i hi => ?_, ?_⟩
    · by_cases e : i = t
      · subst e; rw [get0_set_self (by omega)]
      · rw [get0_set_ne (fun h => e h.symm)]; exact h3 i (by omega)
    · by_cases e : i = t
      · subst e; rw [get0_set_self (by omega)]
      · rw [get0_set_ne (fun h => e h.symm)]; exact h4 i (by omega)
    · simp only [h5, sum_range_succ]
  · rintro ⟨p, e, n⟩ ⟨h1, h2, h3, h4, h5⟩
    exact Ok.pure ⟨p, e, n, rfl, h1, h2, h3, h4, h5⟩

theorem upperLoop_ok {A : SR V} (h : A.ViewOk) {gp ge : List Nat} (hgp : gp.length = A.nbrows)
    (hge : ge.length = A.nbrows) :
    Ok (forRange 0 A.nbrows (upperViewStep A) ⟨gp, ge, 0⟩) (fun s => s.rowptr.length = A.nbrows ∧
      s.rowendptr.length = A.nbrows ∧ (∀ i < A.nbrows, s.rowptr⟦i⟧ = A.diagind⟦i⟧) ∧
      (∀ i < A.nbrows, s.rowendptr⟦i⟧ = A.browendptr⟦i⟧) ∧
      s.nnz = ∑ i ∈ range A.nbrows, (A.browendptr⟦i⟧ - A.diagind⟦i⟧)) := by
  have := h.end_len
  have := h.diag_len
  refine forRange_ok (fun t (s : ViewArrays) => s.rowptr.length = A.nbrows ∧ s.rowendptr.length = A.nbrows ∧
    (∀ i < t, s.rowptr⟦i⟧ = A.diagind⟦i⟧) ∧ (∀ i < t, s.rowendptr⟦i⟧ = A.browendptr⟦i⟧) ∧
    s.nnz = ∑ i ∈ range t, (A.browendptr⟦i⟧ - A.diagind⟦i⟧)) (Nat.zero_le _)
    ⟨hgp, hge, by simp, by simp, by simp⟩ ?_
  rintro t s _ ht ⟨h1, h2, h3, h4, h5⟩
  unfold upperViewStep
  rw [rd_eq (by omega), ok_bind, wr_eq (by omega), ok_bind, rd_eq (by omega), ok_bind, wr_eq (by omega),
    ok_bind]
  refine Ok.pure ⟨by simp [h1], by simp [h2], fun i hi => ?_, fun i hi => ?_, ?_⟩
  · by_cases e : i = t
    · subst e; rw [get0_set_self (by omega)]
    · rw [get0_set_ne (fun h => e h.symm)]; exact h3 i (by omega)
  · by_cases e : i = t
    · subst e; rw [get0_set_self (by omega)]
    · rw [get0_set_ne (fun h => e h.symm)]; exact h4 i (by omega)
  · simp only [h5, sum_range_succ]

/-- **C34**, lower: for every matrix, block size and layout, whatever was in the fresh memory, the view
denotes the lower (block-)triangular part with the diagonal, counts its entries, and
refers to the same column, value and diagonal arrays. -/
theorem lower_view_correct {A : SR V} (h : A.ViewOk) {gp ge : List Nat} (hgp : gp.length = A.nbrows)
    (hge : ge.length = A.nbrows) :
    ∃ L, lowerView A gp ge = .ok L ∧ L.ViewOk ∧
      (L.nbrows = A.nbrows ∧ L.bcolind = A.bcolind ∧ L.vals = A.vals ∧ L.diagind = A.diagind) ∧
      L.nnzb = A.countIn (fun i j => j ≤ i) ∧
      (∀ [AddCommMonoid V], ∀ i < A.nbrows, ∀ j, L.entry i j = if j ≤ i then A.entry i j else 0) ∧
      ∀ [AddCommMonoid V], ∀ stor bs I J, I < A.nbrows * bs →
        L.bentry stor bs I J = if J / bs ≤ I / bs then A.bentry stor bs I J else 0 := by
  obtain ⟨_, e, p, q, n, rfl, h1, h2, h3, h4, h5⟩ := lowerView_ok h hgp hge
  refine ⟨_, e, ⟨h1.ge, h2.ge, h.diag_len, ?_, ?_, h.diag_col, ?_, ?_, ?_⟩, ⟨rfl, rfl, rfl, rfl⟩, ?_, ?_, ?_⟩
  · intro i hi
    simp only at hi ⊢
    rw [h3 i hi]; exact h.diag_ge i hi
  · intro i hi
    simp only at hi ⊢
    rw [h4 i hi]; exact Nat.lt_succ_self _
  · intro i hi
    simp only at hi ⊢
    rw [h4 i hi]
    have := h.diag_lt i hi
    have := h.end_le i hi
    omega
  · intro i hi k l hk hkl hl
    simp only at hi hk hl ⊢
    rw [h3 i hi] at hk
    rw [h4 i hi] at hl
    have := h.diag_lt i hi
    exact h.sorted i hi k l hk hkl (by omega)
  · intro i hi k hk hl
    simp only at hi hk hl ⊢
    rw [h3 i hi] at hk
    rw [h4 i hi] at hl
    have := h.diag_lt i hi
    exact h.col_lt i hi k hk (by omega)
  · show n = _
    rw [h5]
    refine sum_congr rfl fun i hi => ?_
    have hi := mem_range.mp hi
    have := h.diag_ge i hi
    have := h.diag_lt i hi
    have : {k ∈ Ico A.browptr⟦i⟧ A.browendptr⟦i⟧ | A.bcolind⟦k⟧ ≤ i} = Ico A.browptr⟦i⟧ (A.diagind⟦i⟧ + 1) := by
      ext k
      rw [mem_filter, mem_Ico, mem_Ico]
      constructor
      · rintro ⟨⟨a, b⟩, c⟩
        exact ⟨a, Nat.lt_succ_of_le ((h.col_le_iff hi a b).mp c)⟩
      · rintro ⟨a, b⟩
        exact ⟨⟨a, by omega⟩, (h.col_le_iff hi a (by omega)).mpr (by omega)⟩
    rw [this, Nat.card_Ico]
    omega
  · intro _ i hi j
    unfold SR.entry
    simp only
    rw [h3 i hi, h4 i hi]
    exact h.sum_lower hi j _
  · intro _ stor bs I J hI
    have hi : I / bs < A.nbrows := Nat.div_lt_of_lt_mul (by rw [Nat.mul_comm]; exact hI)
    unfold SR.bentry
    simp only
    rw [h3 _ hi, h4 _ hi]
    exact h.sum_lower hi (J / bs) _

/-- **C34**, upper. The assertions and debug checks do not fire. -/
theorem upper_view_correct {A : SR V} (h : A.ViewOk) (hn : 0 < A.nbrows) {gp ge : List Nat}
    (hgp : gp.length = A.nbrows) (hge : ge.length = A.nbrows) :
    ∃ U, upperView A gp ge = .ok U ∧ U.ViewOk ∧
      (U.nbrows = A.nbrows ∧ U.bcolind = A.bcolind ∧ U.vals = A.vals ∧ U.diagind = A.diagind) ∧
      U.nnzb = A.countIn (fun i j => i ≤ j) ∧
      (∀ [AddCommMonoid V], ∀ i < A.nbrows, ∀ j, U.entry i j = if i ≤ j then A.entry i j else 0) ∧
      ∀ [AddCommMonoid V], ∀ stor bs I J, I < A.nbrows * bs →
        U.bentry stor bs I J = if I / bs ≤ J / bs then A.bentry stor bs I J else 0 := by
  have hel := h.end_len
  have hdl := h.diag_len
  obtain ⟨⟨p, q, n⟩, e, h1, h2, h3, h4, h5⟩ := upperLoop_ok h hgp hge
  simp only at h1 h2 h3 h4 h5
  have hlast := h.last_row hn
  set U : SR V := { A with browptr := p, browendptr := q, nnzb := n } with hU
  have hOk : U.ViewOk := by
    refine ⟨h1.ge, h2.ge, h.diag_len, ?_, ?_, h.diag_col, ?_, ?_, ?_⟩
    · intro i hi
      exact (h3 i hi).le
    · intro i hi
      show _ < q⟦i⟧
      rw [h4 i hi]; exact h.diag_lt i hi
    · intro i hi
      show q⟦i⟧ ≤ _
      rw [h4 i hi]
      exact h.end_le i hi
    · intro i hi k l hk hkl hl
      replace hk : p⟦i⟧ ≤ k := hk
      replace hl : l < q⟦i⟧ := hl
      rw [h3 i hi] at hk
      rw [h4 i hi] at hl
      have := h.diag_ge i hi
      exact h.sorted i hi k l (by omega) hkl hl
    · intro i hi k hk hl
      replace hk : p⟦i⟧ ≤ k := hk
      replace hl : k < q⟦i⟧ := hl
      rw [h3 i hi] at hk
      rw [h4 i hi] at hl
      have := h.diag_ge i hi
      exact h.col_lt i hi k (by omega) hl
  have ha1 : lastRowAssert A = .ok () := by
    unfold lastRowAssert
    rw [rd_eq (by omega), ok_bind, rd_eq (by omega), ok_bind, hlast]
    exact cassert_true (by simp)
  have ha2 : lastRowAssert U = .ok () := by
    unfold lastRowAssert
    rw [rd_eq (show A.nbrows - 1 < q.length by omega), ok_bind, rd_eq (show A.nbrows - 1 < A.diagind.length by omega),
      ok_bind]
    refine cassert_true ?_
    show (q⟦A.nbrows - 1⟧ == A.diagind⟦A.nbrows - 1⟧ + 1) = true
    rw [h4 _ (by omega), hlast]
    simp
  have ha3 : upperDebug U = .ok () := by
    have : Ok (upperDebug U) (fun _ => True) := by
      refine forRange_ok (fun _ _ => True) (Nat.zero_le _) trivial ?_
      rintro i ⟨⟩ _ hi _
      rw [rd_eq (show i < p.length by simp only [hU] at hi; omega), ok_bind,
        rd_eq (show i < q.length by simp only [hU] at hi; omega), ok_bind]
      by_cases hlo : U.browptr⟦i⟧ ≤ U.browendptr⟦i⟧
      · refine forRange_ok (fun _ _ => True) hlo trivial ?_
        rintro k ⟨⟩ hk1 hk2 _
        have hk3 := hOk.end_le i hi
        rw [rd_eq (show k < U.bcolind.length from lt_of_lt_of_le hk2 hk3), ok_bind,
          rd_eq (lt_of_lt_of_le hi hOk.diag_len), ok_bind]
        refine ⟨(), cassert_true ?_, trivial⟩
        by_cases hkd : k = U.diagind⟦i⟧
        · simp [hkd]
        · have h7 := hOk.col_le_iff hi hk1 hk2
          have h6 : U.browptr⟦i⟧ = U.diagind⟦i⟧ := h3 i hi
          have : U.bcolind⟦k⟧ > i := by
            rw [gt_iff_lt, ← Nat.not_le, h7]
            rw [h6] at hk1
            exact fun h => hkd (le_antisymm h hk1)
          simp [this]
      · have := hOk.diag_ge i hi
        have := hOk.diag_lt i hi
        omega
    obtain ⟨⟨⟩, e, _⟩ := this
    exact e
  refine ⟨U, ?_, hOk, ⟨rfl, rfl, rfl, rfl⟩, ?_, ?_, ?_⟩
  · unfold upperView
    rw [ha1, ok_bind, e, ok_bind]
    simp only
    rw [← hU, ha2, ok_bind, ha3, ok_bind]
  · show n = _
    rw [h5]
    refine sum_congr rfl fun i hi => ?_
    have hi := mem_range.mp hi
    have h6 := h.diag_ge i hi
    have : {k ∈ Ico A.browptr⟦i⟧ A.browendptr⟦i⟧ | i ≤ A.bcolind⟦k⟧} = Ico A.diagind⟦i⟧ A.browendptr⟦i⟧ := by
      ext k
      rw [mem_filter, mem_Ico, mem_Ico]
      constructor
      · rintro ⟨⟨a, b⟩, c⟩
        exact ⟨(h.col_ge_iff hi a b).mp c, b⟩
      · rintro ⟨a, b⟩
        exact ⟨⟨by omega, b⟩, (h.col_ge_iff hi (by omega) b).mpr a⟩
    rw [this, Nat.card_Ico]
  · intro _ i hi j
    show (∑ k ∈ Ico p⟦i⟧ q⟦i⟧, if A.bcolind⟦k⟧ = j then A.vals⟦k⟧ else 0) = _
    rw [h3 i hi, h4 i hi]
    exact h.sum_upper hi j _
  · intro _ stor bs I J hI
    have hi : I / bs < A.nbrows := Nat.div_lt_of_lt_mul (by rw [Nat.mul_comm]; exact hI)
    show (∑ k ∈ Ico p⟦I / bs⟧ q⟦I / bs⟧, if A.bcolind⟦k⟧ = J / bs then _ else 0) = _
    rw [h3 _ hi, h4 _ hi]
    exact h.sum_upper hi (J / bs) _

/-- **C34** The two views add up to the matrix plus its diagonal. -/
theorem triangular_views_sum [AddCommGroup V] {A L U : SR V} (h : A.ViewOk) (hn : 0 < A.nbrows)
    {gp ge gp' ge' : List Nat} (h1 : gp.length = A.nbrows) (h2 : ge.length = A.nbrows)
    (h3 : gp'.length = A.nbrows) (h4 : ge'.length = A.nbrows) (hL : lowerView A gp ge = .ok L)
    (hU : upperView A gp' ge' = .ok U) {i j : Nat} (hi : i < A.nbrows) :
    L.entry i j + U.entry i j - (if i = j then A.entry i j else 0) = A.entry i j := by
  obtain ⟨L', e, _, _, _, h5, _⟩ := lower_view_correct h h1 h2
  obtain ⟨U', e', _, _, _, h6, _⟩ := upper_view_correct h hn h3 h4
  rw [hL] at e; cases e
  rw [hU] at e'; cases e'
  rw [h5 i hi, h6 i hi]
  rcases Nat.lt_trichotomy i j with h | rfl | h
  · rw [if_neg (by omega), if_pos (by omega), if_neg (by omega)]; simp
  · simp
  · rw [if_pos (by omega), if_neg (by omega), if_neg (by omega)]; simp

/-- **C34**, sharing: the views depend on the values only by referring to them: taking a view and then
storing other values in the matrix is the same as taking it afterwards. -/
theorem triangular_views_share (A : SR V) (v : List V) (gp ge : List Nat) :
    (lowerView { A with vals := v } gp ge = (lowerView A gp ge).map fun L => { L with vals := v }) ∧
    upperView { A with vals := v } gp ge = (upperView A gp ge).map fun U => { U with vals := v } := by
  constructor
  · unfold lowerView
    change (forRange 0 A.nbrows (lowerViewStep A) ⟨gp, ge, 0⟩ >>= _) = _
    cases forRange 0 A.nbrows (lowerViewStep A) ⟨gp, ge, 0⟩ <;> rfl
  · unfold upperView
    change (lastRowAssert A >>= fun _ => (forRange 0 A.nbrows (upperViewStep A) ⟨gp, ge, 0⟩ >>= _)) = _
    cases lastRowAssert A with
    | error e => rfl
    | ok _ =>
      rw [ok_bind, ok_bind]
      cases forRange 0 A.nbrows (upperViewStep A) ⟨gp, ge, 0⟩ with
      | error e => rfl
      | ok s =>
        rw [ok_bind, ok_bind]
        simp only
        change (lastRowAssert { A with browptr := s.rowptr, browendptr := s.rowendptr, nnzb := s.nnz } >>=
          fun _ => upperDebug { A with browptr := s.rowptr, browendptr := s.rowendptr, nnzb := s.nnz } >>=
          fun _ => _) = _
        cases lastRowAssert { A with browptr := s.rowptr, browendptr := s.rowendptr, nnzb := s.nnz } with
        | error e => rfl
        | ok _ =>
          rw [ok_bind, ok_bind]
          cases upperDebug { A with browptr := s.rowptr, browendptr := s.rowendptr, nnzb := s.nnz } <;> rfl

/-- The only way in which `m` can fail is undefined behaviour. -/
def UbOnly {α : Type} (m : C α) : Prop := ∀ e, m = .error e → e = .ub

theorem UbOnly.bind {α β : Type} {m : C α} {f : α → C β} (hm : UbOnly m) (hf : ∀ a, UbOnly (f a)) :
    UbOnly (m >>= f) := by
  intro e he
  cases m with
  | error e' =>
    have : e' = e := by injection he
    exact this ▸ hm e' rfl
  | ok a => exact hf a e he

theorem UbOnly.rd {α : Type} (a : List α) (i : Nat) : UbOnly (rd a i) := by
  intro e he
  unfold Blasted.rd at he
  split at he
  · cases he
  · cases he; rfl

theorem UbOnly.wr {α : Type} (a : List α) (i : Nat) (v : α) : UbOnly (wr a i v) := by
  intro e he
  unfold Blasted.wr at he
  split at he
  · cases he
  · cases he; rfl

theorem UbOnly.forList {ι σ : Type} {body : ι → σ → C σ} (h : ∀ i s, UbOnly (body i s)) :
    ∀ (l : List ι) (s : σ), UbOnly (forList l body s)
  | [], _ => fun _ he => by cases he
  | i :: l, s => by
    rw [forList_cons]
    exact (h i s).bind fun s' => UbOnly.forList h l s'

/-- A view cannot be used for a matrix-vector product: `apply` takes the end of a row from the next row's begin
and reads past the end of the view's pointer array, for every matrix, every order of the rows and all vectors. -/
theorem lower_view_apply_ub {K : Type} [CommRing K] {A : SR K} (h : A.ViewOk) (hn : 0 < A.nbrows)
    {gp ge : List Nat} (hgp : gp.length = A.nbrows) (hge : ge.length = A.nbrows) {order : List Nat}
    (ho : order.Perm (List.range A.nbrows)) (x y : List K) :
    ∃ L, lowerView A gp ge = .ok L ∧ csrApply order L x y = .error .ub := by
  obtain ⟨_, e, p, q, n, rfl, h1, h2, h3, h4, h5⟩ := lowerView_ok h hgp hge
  refine ⟨_, e, ?_⟩
  unfold csrApply
  rw [parFor_eq ho]
  have hub : ∀ i (y : List K), UbOnly (csrApplyRow
      { A with browptr := p, browendptr := q, nnzb := n } x i y) := fun i y =>
    (UbOnly.wr _ _ _).bind fun _ => (UbOnly.rd _ _).bind fun _ => (UbOnly.rd _ _).bind fun _ =>
      UbOnly.forList (fun _ _ => (UbOnly.rd _ _).bind fun _ => (UbOnly.rd _ _).bind fun _ =>
        (UbOnly.rd _ _).bind fun _ => (UbOnly.rd _ _).bind fun _ => UbOnly.wr _ _ _) _ _
  have hlast : ∀ y : List K, csrApplyRow { A with browptr := p, browendptr := q, nnzb := n } x (A.nbrows - 1) y
      = .error .ub := by
    intro y
    unfold csrApplyRow
    cases hw : wr y (A.nbrows - 1) (0 : K) with
    | error e => rw [UbOnly.wr _ _ _ e hw]; rfl
    | ok y' =>
      simp only
      rw [ok_bind, rd_eq (by omega), ok_bind]
      have : rd p (A.nbrows - 1 + 1) = .error .ub := by
        unfold rd
        rw [List.getElem?_eq_none (by omega)]
      rw [this]
      rfl
  have hgen : ∀ (l : List Nat), A.nbrows - 1 ∈ l → ∀ y : List K,
      forList l (csrApplyRow { A with browptr := p, browendptr := q, nnzb := n } x) y = .error .ub := by
    intro l
    induction l with
    | nil => intro hm; simp at hm
    | cons i l ih =>
      intro hm y
      rw [forList_cons]
      by_cases hi : A.nbrows - 1 = i
      · rw [← hi, hlast]; rfl
      · cases hr : csrApplyRow { A with browptr := p, browendptr := q, nnzb := n } x i y with
        | error e => rw [hub i y e hr]; rfl
        | ok y' => rw [ok_bind]; exact ih (by simpa [hi] using hm) y'
  exact hgen order (ho.mem_iff.mpr (List.mem_range.mpr (by omega))) y

/-! ### Concrete cases -/

/-- Rows `0 ↦ {0, 2}`, `1 ↦ {0, 1, 2}`, `2 ↦ {1, 2}`. -/
def exView : SR ℚ :=
  { browptr := [0, 2, 5, 7], bcolind := [0, 2, 0, 1, 2, 1, 2], vals := [1, 2, 3, 4, 5, 6, 7],
    diagind := [0, 3, 6], browendptr := [2, 5, 7], nbrows := 3, nnzb := 7, nbstored := 7 }

theorem exView_ok : exView.ViewOk :=
  SR.Full.viewOk (m := 1) (by constructor <;> decide) (SR.sorted_of_check (by decide)) (by constructor <;> decide)

example : lowerView exView [9, 9, 9] [8, 8, 8] =
    .ok { exView with browptr := [0, 2, 5], browendptr := [1, 4, 7], nnzb := 5 } := by decide +kernel
example : upperView exView [9, 9, 9] [8, 8, 8] =
    .ok { exView with browptr := [0, 3, 6], browendptr := [2, 5, 7], nnzb := 5 } := by decide +kernel

end Blasted
