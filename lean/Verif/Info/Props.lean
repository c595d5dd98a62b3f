import Verif.Info.Model
import Verif.Base.Sweep
import Verif.MatVec.Lemmas
import Mathlib.Algebra.Order.Ring.Rat
import Mathlib.Algebra.Field.Rat
import Mathlib.Algebra.Order.BigOperators.Group.Finset
import Mathlib.Tactic.Linarith
import Mathlib.Tactic.NormNum
import Mathlib.Order.Bounds.Basic

/-!
# C54 and C48: maximum norm and diagonal dominance
-/

namespace Blasted

open Finset

variable {K : Type} [Field K] [LinearOrder K] [IsStrictOrderedRing K]

/-! ### C54 -/

omit [IsStrictOrderedRing K] in
theorem maxnorm_ok {tiny lowest : K} (ht : 0 < tiny) (hl : lowest ≤ 0) {parts : List Nat → List (List Nat)}
    (hp : IsParts parts) (vec : List K) :
    Ok (maxnorm tiny lowest parts vec) (fun r => tiny ≤ r ∧ (∀ i < vec.length, |vec⟦i⟧| ≤ r) ∧
      (r = tiny ∨ ∃ i < vec.length, r = |vec⟦i⟧|)) := by
  have hmem : ∀ c ∈ parts (List.range vec.length), ∀ i ∈ c, i < vec.length := fun c hc i hi =>
    List.mem_range.mp ((hp _).mem_iff.mp (List.mem_flatten.mpr ⟨c, hc, hi⟩))
  unfold maxnorm
  refine (forList_ok (fun done (r : K) => tiny ≤ r ∧ (∀ c ∈ done, ∀ i ∈ c, |vec⟦i⟧| ≤ r) ∧
      (r = tiny ∨ ∃ i < vec.length, r = |vec⟦i⟧|)) ⟨le_refl _, by simp, Or.inl rfl⟩ ?_).mono ?_
  · rintro done c rest r hsp ⟨h1, h2, h3⟩
    have hc : c ∈ parts (List.range vec.length) := by rw [hsp]; simp
    refine Ok.bind (P := fun s => (∀ i ∈ c, |vec⟦i⟧| ≤ s) ∧ (s = lowest ∨ ∃ i < vec.length, s = |vec⟦i⟧|)) ?_ ?_
    · refine forList_ok (fun done (s : K) => (∀ i ∈ done, |vec⟦i⟧| ≤ s) ∧
        (s = lowest ∨ ∃ i < vec.length, s = |vec⟦i⟧|)) ⟨by simp, Or.inl rfl⟩ ?_
      rintro done' i rest' s hsp' ⟨g1, g2⟩
      have hi := hmem c hc i (by rw [hsp']; simp)
      rw [rd_eq hi, ok_bind]
      refine Ok.pure ⟨fun j hj => ?_, ?_⟩
      · rw [List.mem_append, List.mem_singleton] at hj
        rcases hj with hj | rfl
        · split
          next hlt => exact (g1 j hj).trans (le_of_lt hlt)
          next => exact g1 j hj
        · split
          next => exact le_refl _
          next hlt => exact not_lt.mp hlt
      · split
        next => exact Or.inr ⟨i, hi, rfl⟩
        next => exact g2
    · rintro s ⟨g1, g2⟩
      refine Ok.pure ⟨h1.trans (le_max_left _ _), fun c' hc' i hi => ?_, ?_⟩
      · rw [List.mem_append, List.mem_singleton] at hc'
        rcases hc' with hc' | rfl
        · exact (h2 c' hc' i hi).trans (le_max_left _ _)
        · exact (g1 i hi).trans (le_max_right _ _)
      · rcases g2 with rfl | g2
        · rw [max_eq_left (hl.trans (ht.le.trans h1))]
          exact h3
        · rcases max_choice r s with h | h
          · rw [h]; exact h3
          · rw [h]; exact Or.inr g2
  · rintro r ⟨h1, h2, h3⟩
    refine ⟨h1, fun i hi => ?_, h3⟩
    obtain ⟨c, hc, hic⟩ := List.mem_flatten.mp ((hp _).mem_iff.mpr (List.mem_range.mpr hi))
    exact h2 c hc i hic

omit [IsStrictOrderedRing K] in
/-- **C54**, for vectors with an entry that is not below the least normal number: for every division of
the work among threads, `maxnorm` returns the greatest absolute value. The full claim, without that
restriction, is false: see `maxnorm_zero_wrong`. -/
theorem maxnorm_correct_partial {tiny lowest : K} (ht : 0 < tiny) (hl : lowest ≤ 0)
    {parts : List Nat → List (List Nat)} (hp : IsParts parts) (vec : List K)
    (hv : ∃ i < vec.length, tiny ≤ |vec⟦i⟧|) :
    Ok (maxnorm tiny lowest parts vec) (fun r => IsGreatest {x | ∃ i < vec.length, x = |vec⟦i⟧|} r) := by
  refine (maxnorm_ok ht hl hp vec).mono ?_
  rintro r ⟨h1, h2, h3⟩
  refine ⟨?_, ?_⟩
  · rcases h3 with rfl | h3
    · obtain ⟨i, hi, hge⟩ := hv
      exact ⟨i, hi, le_antisymm hge (h2 i hi)⟩
    · exact h3
  · rintro x ⟨i, hi, rfl⟩
    exact h2 i hi

omit [IsStrictOrderedRing K] in
/-- **C54**, what is returned in general: the greater of the greatest absolute value and the least
normal number. In particular the result does not depend on the division of the work. -/
theorem maxnorm_deterministic {tiny lowest : K} (ht : 0 < tiny) (hl : lowest ≤ 0)
    {parts parts' : List Nat → List (List Nat)} (hp : IsParts parts) (hp' : IsParts parts') (vec : List K) :
    maxnorm tiny lowest parts vec = maxnorm tiny lowest parts' vec := by
  obtain ⟨r, hr, h1, h2, h3⟩ := maxnorm_ok ht hl hp vec
  obtain ⟨r', hr', h1', h2', h3'⟩ := maxnorm_ok ht hl hp' vec
  rw [hr, hr']
  congr 1
  refine le_antisymm ?_ ?_
  · rcases h3 with rfl | ⟨i, hi, rfl⟩
    · exact h1'
    · exact h2' i hi
  · rcases h3' with rfl | ⟨i, hi, rfl⟩
    · exact h1
    · exact h2 i hi

/-- **C54** fails for the zero vector, whose norm is reported as a positive number, however the work is
divided. -/
theorem maxnorm_zero_wrong {tiny lowest : K} (ht : 0 < tiny) (hl : lowest ≤ 0)
    {parts : List Nat → List (List Nat)} (hp : IsParts parts) (n : Nat) :
    maxnorm tiny lowest parts (List.replicate n (0 : K)) = .ok tiny := by
  obtain ⟨r, hr, h1, h2, h3⟩ := maxnorm_ok ht hl hp (List.replicate n (0 : K))
  rw [hr]
  congr 1
  rcases h3 with h3 | ⟨i, _, h3⟩
  · exact h3
  · rw [get0_replicate, abs_zero] at h3
    rw [h3] at h1
    exact absurd h1 (not_le.mpr ht)

/-- Two threads that take alternate iterations. -/
def exParts (l : List Nat) : List (List Nat) := [l.filter (fun i => i % 2 = 1), l.filter (fun i => ¬ i % 2 = 1)]

theorem exParts_isParts : IsParts exParts := by
  intro l
  simp only [exParts, List.flatten_cons, List.flatten_nil, List.append_nil]
  have := List.filter_append_perm (fun i => decide (i % 2 = 1)) l
  refine List.Perm.trans (List.Perm.of_eq ?_) this
  congr 1
  refine List.filter_congr fun i _ => ?_
  exact decide_not

example : maxnorm (1 / 1000 : ℚ) (-1000) exParts [1, -5, 3] = .ok 5 := by decide +kernel

/-! ### C48: sums -/

/-- The terms of a row of blocks, selected by block column and column inside the block. -/
theorem SR.Full.sum_abs_row {stor : Stor} {bs : Nat} {A : SR K} (hA : A.Full (bs * bs)) (hS : A.Sorted)
    {p : Nat} (hp : p / bs < A.nbrows) (c : Nat → Nat → Prop) [∀ a b, Decidable (c a b)] :
    ∑ q ∈ range (A.nbrows * bs), (if c (q / bs) (q % bs) then |A.bentry stor bs p q| else 0) =
      ∑ k ∈ Ico A.browptr⟦p / bs⟧ A.browptr⟦p / bs + 1⟧, ∑ b ∈ range bs,
        if c A.bcolind⟦k⟧ b then |A.vals⟦k * (bs * bs) + stor.off bs (p % bs) b⟧| else 0 := by
  have habs : ∀ q, |A.bentry stor bs p q| = ∑ k ∈ Ico A.browptr⟦p / bs⟧ A.browptr⟦p / bs + 1⟧,
      if A.bcolind⟦k⟧ = q / bs then |A.vals⟦k * (bs * bs) + stor.off bs (p % bs) (q % bs)⟧| else 0 := by
    intro q
    rw [SR.bentry, hA.end_eq _ hp]
    by_cases h : ∃ k ∈ Ico A.browptr⟦p / bs⟧ A.browptr⟦p / bs + 1⟧, A.bcolind⟦k⟧ = q / bs
    · obtain ⟨k, hk, hkq⟩ := h
      have hu : ∀ l ∈ Ico A.browptr⟦p / bs⟧ A.browptr⟦p / bs + 1⟧, l ≠ k → A.bcolind⟦l⟧ ≠ q / bs := by
        intro l hl hne h
        exact hne (hS.inj hp (mem_Ico.mp hl) (mem_Ico.mp hk) (by rw [h, hkq]))
      rw [Finset.sum_eq_single k (fun l hl hne => if_neg (hu l hl hne)) (fun h => absurd hk h),
        Finset.sum_eq_single k (fun l hl hne => if_neg (hu l hl hne)) (fun h => absurd hk h),
        if_pos hkq, if_pos hkq]
    · have hn : ∀ k ∈ Ico A.browptr⟦p / bs⟧ A.browptr⟦p / bs + 1⟧, A.bcolind⟦k⟧ ≠ q / bs := fun k hk hh =>
        h ⟨k, hk, hh⟩
      rw [Finset.sum_eq_zero (fun l hl => if_neg (hn l hl)), Finset.sum_eq_zero (fun l hl => if_neg (hn l hl)),
        abs_zero]
  rw [sum_range_mul_blocks]
  have hdiv : ∀ j b, b < bs → (j * bs + b) / bs = j ∧ (j * bs + b) % bs = b := by
    intro j b hb
    constructor
    · rw [Nat.mul_comm, Nat.mul_add_div (by omega), Nat.div_eq_of_lt hb]; omega
    · rw [Nat.mul_comm, Nat.mul_add_mod, Nat.mod_eq_of_lt hb]
  calc ∑ j ∈ range A.nbrows, ∑ b ∈ range bs,
        (if c ((j * bs + b) / bs) ((j * bs + b) % bs) then |A.bentry stor bs p (j * bs + b)| else 0)
      = ∑ j ∈ range A.nbrows, ∑ b ∈ range bs, ∑ k ∈ Ico A.browptr⟦p / bs⟧ A.browptr⟦p / bs + 1⟧,
        (if A.bcolind⟦k⟧ = j then
          (if c A.bcolind⟦k⟧ b then |A.vals⟦k * (bs * bs) + stor.off bs (p % bs) b⟧| else 0) else 0) := by
        refine sum_congr rfl fun j _ => sum_congr rfl fun b hb => ?_
        obtain ⟨e1, e2⟩ := hdiv j b (mem_range.mp hb)
        rw [habs, e1, e2]
        by_cases hc : c j b
        · rw [if_pos hc]
          refine sum_congr rfl fun k _ => ?_
          by_cases hk : A.bcolind⟦k⟧ = j
          · rw [if_pos hk, if_pos hk, hk, if_pos hc]
          · rw [if_neg hk, if_neg hk]
        · rw [if_neg hc]
          symm
          refine sum_eq_zero fun k _ => ?_
          by_cases hk : A.bcolind⟦k⟧ = j
          · rw [if_pos hk, hk, if_neg hc]
          · rw [if_neg hk]
    _ = ∑ k ∈ Ico A.browptr⟦p / bs⟧ A.browptr⟦p / bs + 1⟧, ∑ b ∈ range bs, ∑ j ∈ range A.nbrows,
        (if A.bcolind⟦k⟧ = j then
          (if c A.bcolind⟦k⟧ b then |A.vals⟦k * (bs * bs) + stor.off bs (p % bs) b⟧| else 0) else 0) := by
        rw [sum_comm]
        rw [show (∑ b ∈ range bs, ∑ j ∈ range A.nbrows, ∑ k ∈ Ico A.browptr⟦p / bs⟧ A.browptr⟦p / bs + 1⟧,
          (if A.bcolind⟦k⟧ = j then
          (if c A.bcolind⟦k⟧ b then |A.vals⟦k * (bs * bs) + stor.off bs (p % bs) b⟧| else 0) else 0)) =
          ∑ b ∈ range bs, ∑ k ∈ Ico A.browptr⟦p / bs⟧ A.browptr⟦p / bs + 1⟧, ∑ j ∈ range A.nbrows,
          (if A.bcolind⟦k⟧ = j then
          (if c A.bcolind⟦k⟧ b then |A.vals⟦k * (bs * bs) + stor.off bs (p % bs) b⟧| else 0) else 0) from
          sum_congr rfl fun b _ => sum_comm]
        rw [sum_comm]
    _ = _ := by
        refine sum_congr rfl fun k hk => sum_congr rfl fun b _ => ?_
        have hc := hA.col_lt k (hA.lt_nnz hp (mem_Ico.mp hk).2)
        rw [Finset.sum_ite_eq, if_pos (mem_range.mpr hc)]

/-! ### C48: the loops -/

omit [IsStrictOrderedRing K] in
theorem addAbsBlock_ok (stor : Stor) {bs : Nat} {vals : List K} {k : Nat}
    (hk : ∀ c < bs * bs, k * (bs * bs) + c < vals.length) (skip : Nat → Nat → Bool) {row : List K}
    (hr : row.length = bs) :
    Ok (addAbsBlock stor bs vals k skip row) (fun r => r.length = bs ∧ ∀ i < bs,
      r⟦i⟧ = row⟦i⟧ + ∑ j ∈ range bs, if skip i j then 0 else |vals⟦k * (bs * bs) + stor.off bs i j⟧|) := by
  unfold addAbsBlock
  refine (forRange_ok (fun t (r : List K) => r.length = bs ∧ ∀ i < bs,
      r⟦i⟧ = row⟦i⟧ + if i < t then (∑ j ∈ range bs, if skip i j then 0 else
        |vals⟦k * (bs * bs) + stor.off bs i j⟧|) else 0) (Nat.zero_le _) ⟨hr, fun i _ => by simp⟩ ?_).mono ?_
  · rintro t r _ ht ⟨h1, h2⟩
    refine (forRange_ok (fun n (r' : List K) => r'.length = bs ∧ ∀ i < bs,
      r'⟦i⟧ = r⟦i⟧ + if i = t then (∑ j ∈ range n, if skip i j then 0 else
        |vals⟦k * (bs * bs) + stor.off bs i j⟧|) else 0) (Nat.zero_le _) ⟨h1, fun i _ => by simp⟩ ?_).mono ?_
    · rintro n r' _ hn ⟨g1, g2⟩
      by_cases hs : skip t n = true
      · rw [if_pos hs]
        refine Ok.pure ⟨g1, fun i hi => ?_⟩
        rw [g2 i hi, sum_range_succ]
        by_cases hit : i = t
        · subst hit; simp [hs]
        · simp [hit]
      · rw [if_neg hs, rd_eq (by omega), ok_bind, rd_eq (hk _ (stor.off_lt ht hn)), ok_bind, wr_eq (by omega)]
        refine Ok.pure ⟨by rw [List.length_set]; exact g1, fun i hi => ?_⟩
        by_cases hit : i = t
        · subst hit
          rw [get0_set_self (by omega), g2 i hi, if_pos rfl, if_pos rfl, sum_range_succ, if_neg hs, add_assoc]
        · rw [get0_set_ne (Ne.symm hit), g2 i hi, if_neg hit, if_neg hit]
    · rintro r' ⟨g1, g2⟩
      refine ⟨g1, fun i hi => ?_⟩
      rw [g2 i hi, h2 i hi]
      rcases Nat.lt_trichotomy i t with h | h | h
      · rw [if_pos h, if_neg (show ¬ i = t by omega), if_pos (show i < t + 1 by omega), add_zero]
      · rw [if_neg (show ¬ i < t by omega), if_pos h, if_pos (show i < t + 1 by omega), add_zero]
      · rw [if_neg (by omega), if_neg (by omega), if_neg (by omega), add_zero]
  · rintro r ⟨h1, h2⟩
    exact ⟨h1, fun i hi => by rw [h2 i hi, if_pos hi]⟩

omit [IsStrictOrderedRing K] in
theorem addAbsBlocks_ok (stor : Stor) {bs : Nat} {vals : List K} {lo hi : Nat} (hle : lo ≤ hi)
    (hk : ∀ k, lo ≤ k → k < hi → ∀ c < bs * bs, k * (bs * bs) + c < vals.length) {row : List K}
    (hr : row.length = bs) :
    Ok (forRange lo hi (fun jj r => addAbsBlock stor bs vals jj (fun _ _ => false) r) row) (fun r =>
      r.length = bs ∧ ∀ i < bs,
      r⟦i⟧ = row⟦i⟧ + ∑ k ∈ Ico lo hi, ∑ j ∈ range bs, |vals⟦k * (bs * bs) + stor.off bs i j⟧|) := by
  refine forRange_ok (fun t (r : List K) => r.length = bs ∧ ∀ i < bs,
      r⟦i⟧ = row⟦i⟧ + ∑ k ∈ Ico lo t, ∑ j ∈ range bs, |vals⟦k * (bs * bs) + stor.off bs i j⟧|) hle
      ⟨hr, fun i _ => by simp⟩ ?_
  rintro t r h1 h2 ⟨g1, g2⟩
  refine (addAbsBlock_ok stor (hk t h1 h2) _ g1).mono ?_
  rintro r' ⟨g3, g4⟩
  refine ⟨g3, fun i hi => ?_⟩
  rw [g4 i hi, g2 i hi, sum_Ico_succ_top h1, add_assoc]
  simp

/-! ### C48: specification -/

/-- Diagonal dominance of row `p` of the lower factor, which has unit diagonal blocks and the stored blocks left of the
diagonal. -/
def lowerDom (stor : Stor) (bs : Nat) (A : SR K) (p : Nat) : K :=
  1 - ∑ q ∈ range (A.nbrows * bs), if q / bs < p / bs then |A.bentry stor bs p q| else 0

/-- Sum of the absolute values of the off-diagonal entries of row `p` of the upper factor, which consists of the
stored diagonal blocks and the blocks right of them. -/
def upperOff (stor : Stor) (bs : Nat) (A : SR K) (p : Nat) : K :=
  ∑ q ∈ range (A.nbrows * bs), if p / bs ≤ q / bs ∧ q ≠ p then |A.bentry stor bs p q| else 0

/-- Diagonal dominance of row `p` of the upper factor. -/
def upperDom (stor : Stor) (bs : Nat) (A : SR K) (p : Nat) : K :=
  1 - upperOff stor bs A p / |A.bentry stor bs p p|

section
variable {stor : Stor} {bs : Nat} {A : SR K}

omit [LinearOrder K] [IsStrictOrderedRing K] in
theorem bentry_diag (hA : A.Full (bs * bs)) (hS : A.Sorted) (hD : A.HasDiag) {I i : Nat} (hI : I < A.nbrows)
    (hi : i < bs) : A.bentry stor bs (I * bs + i) (I * bs + i) =
      A.vals⟦A.diagind⟦I⟧ * (bs * bs) + stor.off bs i i⟧ := by
  have e1 : (I * bs + i) / bs = I := by
    rw [Nat.mul_comm, Nat.mul_add_div (by omega), Nat.div_eq_of_lt hi]; omega
  have e2 : (I * bs + i) % bs = i := by rw [Nat.mul_comm, Nat.mul_add_mod, Nat.mod_eq_of_lt hi]
  have hd := hD.inRow hI
  rw [SR.bentry, e1, e2, hA.end_eq _ hI, Finset.sum_eq_single A.diagind⟦I⟧]
  · rw [if_pos (hD.diag_col I hI)]
  · intro k hk hne
    rw [if_neg]
    intro h
    exact hne (hS.inj hI (mem_Ico.mp hk) hd (by rw [h, hD.diag_col I hI]))
  · intro h; exact absurd (mem_Ico.mpr hd) h

theorem lowerSum_eq (hA : A.Full (bs * bs)) (hS : A.Sorted) (hD : A.HasDiag) {I i : Nat} (hI : I < A.nbrows)
    (hi : i < bs) : ∑ k ∈ Ico A.browptr⟦I⟧ A.diagind⟦I⟧, ∑ j ∈ range bs,
      |A.vals⟦k * (bs * bs) + stor.off bs i j⟧| = 1 - lowerDom stor bs A (I * bs + i) := by
  have e1 : (I * bs + i) / bs = I := by
    rw [Nat.mul_comm, Nat.mul_add_div (by omega), Nat.div_eq_of_lt hi]; omega
  have e2 : (I * bs + i) % bs = i := by rw [Nat.mul_comm, Nat.mul_add_mod, Nat.mod_eq_of_lt hi]
  have hd := hD.inRow hI
  have := hA.sum_abs_row (stor := stor) hS (p := I * bs + i) (by rw [e1]; exact hI) (fun a _ => a < I)
  rw [e1, e2] at this
  rw [lowerDom, e1, this, sub_sub_cancel, ← Finset.sum_Ico_consecutive _ hd.1 hd.2.le]
  rw [show (∑ k ∈ Ico A.diagind⟦I⟧ A.browptr⟦I + 1⟧, ∑ b ∈ range bs,
    if A.bcolind⟦k⟧ < I then |A.vals⟦k * (bs * bs) + stor.off bs i b⟧| else 0) = 0 from ?_, add_zero]
  · refine sum_congr rfl fun k hk => sum_congr rfl fun b _ => ?_
    have hk := mem_Ico.mp hk
    have := (hS.lt_iff hI ⟨hk.1, hk.2.trans hd.2⟩ hd).mpr hk.2
    rw [hD.diag_col I hI] at this
    rw [if_pos this]
  · refine sum_eq_zero fun k hk => sum_eq_zero fun b _ => ?_
    have hk := mem_Ico.mp hk
    have h1 := (hS.lt_iff hI ⟨hd.1.trans hk.1, hk.2⟩ hd).mp
    rw [hD.diag_col I hI] at h1
    rw [if_neg]
    intro h
    have := h1 h
    omega

theorem upperSum_eq (hA : A.Full (bs * bs)) (hS : A.Sorted) (hD : A.HasDiag) {I i : Nat} (hI : I < A.nbrows)
    (hi : i < bs) : (∑ j ∈ range bs, if (i == j) = true then 0 else
        |A.vals⟦A.diagind⟦I⟧ * (bs * bs) + stor.off bs i j⟧|) +
      ∑ k ∈ Ico (A.diagind⟦I⟧ + 1) A.browptr⟦I + 1⟧, ∑ j ∈ range bs,
        |A.vals⟦k * (bs * bs) + stor.off bs i j⟧| = upperOff stor bs A (I * bs + i) := by
  have e1 : (I * bs + i) / bs = I := by
    rw [Nat.mul_comm, Nat.mul_add_div (by omega), Nat.div_eq_of_lt hi]; omega
  have e2 : (I * bs + i) % bs = i := by rw [Nat.mul_comm, Nat.mul_add_mod, Nat.mod_eq_of_lt hi]
  have hd := hD.inRow hI
  have := hA.sum_abs_row (stor := stor) hS (p := I * bs + i) (by rw [e1]; exact hI)
    (fun a b => I ≤ a ∧ ¬ (a = I ∧ b = i))
  rw [e1, e2] at this
  have hq : ∀ q, (I ≤ q / bs ∧ ¬ (q / bs = I ∧ q % bs = i)) ↔ (I ≤ q / bs ∧ q ≠ I * bs + i) := by
    intro q
    refine and_congr_right fun _ => not_congr ⟨?_, ?_⟩
    · rintro ⟨h1, h2⟩
      have := Nat.div_add_mod q bs
      rw [h1, h2, Nat.mul_comm] at this
      exact this.symm
    · rintro rfl; exact ⟨e1, e2⟩
  simp only [hq] at this
  rw [upperOff, e1, this, ← Finset.sum_Ico_consecutive _ hd.1 hd.2.le, Finset.sum_eq_sum_Ico_succ_bot hd.2]
  rw [show (∑ k ∈ Ico A.browptr⟦I⟧ A.diagind⟦I⟧, ∑ b ∈ range bs,
    if I ≤ A.bcolind⟦k⟧ ∧ ¬ (A.bcolind⟦k⟧ = I ∧ b = i) then
      |A.vals⟦k * (bs * bs) + stor.off bs i b⟧| else 0) = 0 from ?_, zero_add]
  · congr 1
    · refine sum_congr rfl fun j _ => ?_
      rw [hD.diag_col I hI]
      by_cases h : i = j
      · subst h; simp
      · have h' : ¬ j = i := fun hh => h hh.symm
        simp [h, h']
    · refine sum_congr rfl fun k hk => sum_congr rfl fun b _ => ?_
      have hk := mem_Ico.mp hk
      have h1 := (hS.lt_iff hI hd ⟨by have := hd.1; omega, hk.2⟩).mpr (by omega)
      rw [hD.diag_col I hI] at h1
      rw [if_pos ⟨h1.le, by omega⟩]
  · refine sum_eq_zero fun k hk => sum_eq_zero fun b _ => ?_
    have hk := mem_Ico.mp hk
    have h1 := (hS.lt_iff hI ⟨hk.1, hk.2.trans hd.2⟩ hd).mpr hk.2
    rw [hD.diag_col I hI] at h1
    rw [if_neg (by omega)]

/-! ### C48: minima -/

/-- `r` is the least element of `l`, or some number not less than 1 if `l` is empty. -/
def MinInv (l : List K) (r : K) : Prop := (∀ x ∈ l, r ≤ x) ∧ (r ∈ l ∨ (l = [] ∧ 1 ≤ r))

omit [IsStrictOrderedRing K] in
theorem MinInv.append {l l' : List K} {r r' : K} (h : MinInv l r) (h' : MinInv l' r')
    (h1 : ∀ x ∈ l ++ l', x ≤ 1) : MinInv (l ++ l') (min r r') := by
  refine ⟨fun x hx => ?_, ?_⟩
  · rw [List.mem_append] at hx
    rcases hx with hx | hx
    · exact (min_le_left _ _).trans (h.1 x hx)
    · exact (min_le_right _ _).trans (h'.1 x hx)
  · rcases h.2 with ha | ⟨rfl, ha⟩
    · rcases h'.2 with hb | ⟨rfl, hb⟩
      · rcases min_choice r r' with e | e <;> rw [e]
        · exact Or.inl (List.mem_append_left _ ha)
        · exact Or.inl (List.mem_append_right _ hb)
      · rw [min_eq_left ((h1 r (by simp [ha])).trans hb)]
        exact Or.inl (List.mem_append_left _ ha)
    · rcases h'.2 with hb | ⟨rfl, hb⟩
      · rw [min_eq_right ((h1 r' (by simp [hb])).trans ha)]
        exact Or.inl (by simpa using hb)
      · exact Or.inr ⟨rfl, le_min ha hb⟩

omit [Field K] [IsStrictOrderedRing K] in
theorem ite_gt_eq_min (a b : K) : (if a > b then b else a) = min a b := by
  split
  next h => rw [min_eq_right (le_of_lt h)]
  next h => rw [min_eq_left (not_lt.mp h)]

/-- The four numbers describe the given rows: sums and minima of the dominance. -/
def DDInv (stor : Stor) (bs : Nat) (A : SR K) (ps : List Nat) (s : DDom K) : Prop :=
  s.lavg = (ps.map (lowerDom stor bs A)).sum ∧ s.uavg = (ps.map (upperDom stor bs A)).sum ∧
  MinInv (ps.map (lowerDom stor bs A)) s.lmin ∧ MinInv (ps.map (upperDom stor bs A)) s.umin

theorem lowerDom_le (p : Nat) : lowerDom stor bs A p ≤ 1 := by
  unfold lowerDom
  have : 0 ≤ ∑ q ∈ range (A.nbrows * bs), if q / bs < p / bs then |A.bentry stor bs p q| else 0 :=
    sum_nonneg fun q _ => by split; exacts [abs_nonneg _, le_refl _]
  linarith

theorem upperOff_nonneg (p : Nat) : 0 ≤ upperOff stor bs A p :=
  sum_nonneg fun q _ => by split; exacts [abs_nonneg _, le_refl _]

theorem upperDom_le (p : Nat) : upperDom stor bs A p ≤ 1 := by
  unfold upperDom
  have := div_nonneg (upperOff_nonneg (stor := stor) (bs := bs) (A := A) p) (abs_nonneg (A.bentry stor bs p p))
  linarith

theorem DDInv.append {ps ps' : List Nat} {s s' : DDom K} (h : DDInv stor bs A ps s) (h' : DDInv stor bs A ps' s') :
    DDInv stor bs A (ps ++ ps') ⟨s.lavg + s'.lavg, min s.lmin s'.lmin, s.uavg + s'.uavg, min s.umin s'.umin⟩ := by
  unfold DDInv at *
  simp only [List.map_append, List.sum_append]
  refine ⟨by rw [h.1, h'.1], by rw [h.2.1, h'.2.1], h.2.2.1.append h'.2.2.1 ?_, h.2.2.2.append h'.2.2.2 ?_⟩
  · intro x hx
    rw [List.mem_append, List.mem_map, List.mem_map] at hx
    rcases hx with ⟨p, _, rfl⟩ | ⟨p, _, rfl⟩ <;> exact lowerDom_le p
  · intro x hx
    rw [List.mem_append, List.mem_map, List.mem_map] at hx
    rcases hx with ⟨p, _, rfl⟩ | ⟨p, _, rfl⟩ <;> exact upperDom_le p

omit [IsStrictOrderedRing K] in
theorem DDInv.nil {b : K} (hb : 1 ≤ b) : DDInv stor bs A [] ⟨0, b, 0, b⟩ :=
  ⟨rfl, rfl, ⟨by simp, Or.inr ⟨rfl, hb⟩⟩, by simp, Or.inr ⟨rfl, hb⟩⟩

theorem ddRow_ok (hA : A.Full (bs * bs)) (hS : A.Sorted) (hD : A.HasDiag) {inf : K} (hinf : 1 ≤ inf)
    (hnz : ∀ p < A.nbrows * bs, A.bentry stor bs p p ≠ 0) {I : Nat} (hI : I < A.nbrows) :
    Ok (ddRow inf stor bs A I) (DDInv stor bs A ((List.range bs).map fun i => I * bs + i)) := by
  have hd := hD.inRow hI
  have hl := hA.ptr_len
  have he := hA.end_len
  have hin : ∀ k, A.browptr⟦I⟧ ≤ k → k < A.browptr⟦I + 1⟧ → ∀ c < bs * bs,
      k * (bs * bs) + c < A.vals.length := by
    intro k _ hk c hc
    rw [hA.val_len]
    exact blk_lt (hA.lt_nnz hI hk) hc
  unfold ddRow
  rw [rd_eq (by rw [hD.diag_len]; exact hI), ok_bind]
  refine (addAbsBlock_ok stor (hin _ hd.1 hd.2) _ (List.length_replicate)).bind ?_
  rintro u ⟨hu1, hu2⟩
  rw [rd_eq (by omega), ok_bind, hA.end_eq I hI]
  refine (addAbsBlocks_ok stor (show A.diagind⟦I⟧ + 1 ≤ A.browptr⟦I + 1⟧ from hd.2)
    (fun k h1 h2 => hin k (by have := hd.1; omega) h2) hu1).bind ?_
  rintro u' ⟨hu1', hu2'⟩
  rw [rd_eq (by omega), ok_bind]
  refine (addAbsBlocks_ok stor hd.1 (fun k h1 h2 => hin k h1 (h2.trans hd.2)) (List.length_replicate)).bind ?_
  rintro l ⟨hl1, hl2⟩
  have hU : ∀ i < bs, u'⟦i⟧ = upperOff stor bs A (I * bs + i) := by
    intro i hi
    rw [hu2' i hi, hu2 i hi, get0_replicate, zero_add]
    exact upperSum_eq hA hS hD hI hi
  have hL : ∀ i < bs, l⟦i⟧ = 1 - lowerDom stor bs A (I * bs + i) := by
    intro i hi
    rw [hl2 i hi, get0_replicate, zero_add]
    exact lowerSum_eq hA hS hD hI hi
  refine forRange_ok (fun t (s : DDom K) => DDInv stor bs A ((List.range t).map fun i => I * bs + i) s)
    (Nat.zero_le _) (DDInv.nil hinf) ?_
  intro t s _ ht hs
  have hp : I * bs + t < A.nbrows * bs := blk_lt hI ht
  have hne := hnz _ hp
  rw [bentry_diag hA hS hD hI ht] at hne
  rw [rd_eq (by omega), ok_bind, rd_eq (by omega), ok_bind, rd_eq (hin _ hd.1 hd.2 _ (stor.off_lt ht ht)), ok_bind]
  rw [fdiv, if_neg (abs_ne_zero.mpr hne), ok_bind]
  have h1 : DDInv stor bs A [I * bs + t] ⟨1 - l⟦t⟧, 1 - l⟦t⟧,
      1 - u'⟦t⟧ / |A.vals⟦A.diagind⟦I⟧ * (bs * bs) + stor.off bs t t⟧|,
      1 - u'⟦t⟧ / |A.vals⟦A.diagind⟦I⟧ * (bs * bs) + stor.off bs t t⟧|⟩ := by
    rw [hL t ht, hU t ht, ← bentry_diag (stor := stor) hA hS hD hI ht, sub_sub_cancel]
    exact ⟨by simp, by simp [upperDom], ⟨by simp, by simp⟩, by simp [upperDom], by simp [upperDom]⟩
  refine Ok.pure ?_
  have := hs.append h1
  rw [List.range_succ, List.map_append]
  simp only [ite_gt_eq_min]
  exact this

/-- **C48**. For every division of the rows among threads, the reported minimal diagonal dominance of each
factor is the least over all rows of `1 - (sum of absolute off-diagonal entries) / |diagonal entry|`, where the
lower factor has unit diagonal; and the reported average is the mean over all rows. -/
theorem diagonal_dominance_correct (hbs : 0 < bs) (hA : A.Full (bs * bs)) (hS : A.Sorted) (hD : A.HasDiag)
    (hn : 0 < A.nbrows) (hnz : ∀ p < A.nbrows * bs, A.bentry stor bs p p ≠ 0)
    {inf big : K} (hinf : 1 ≤ inf) (hbig : 1 ≤ big)
    {parts : List Nat → List (List Nat)} (hp : IsParts parts) :
    Ok (diagonalDominance inf big parts stor bs A) (fun r =>
      IsLeast {x | ∃ p < A.nbrows * bs, x = lowerDom stor bs A p} r.lmin ∧
      IsLeast {x | ∃ p < A.nbrows * bs, x = upperDom stor bs A p} r.umin ∧
      r.lavg = (∑ p ∈ range (A.nbrows * bs), lowerDom stor bs A p) / ((A.nbrows * bs : Nat) : K) ∧
      r.uavg = (∑ p ∈ range (A.nbrows * bs), upperDom stor bs A p) / ((A.nbrows * bs : Nat) : K)) := by
  have hmem : ∀ c ∈ parts (List.range A.nbrows), ∀ i ∈ c, i < A.nbrows := fun c hc i hi =>
    List.mem_range.mp ((hp _).mem_iff.mp (List.mem_flatten.mpr ⟨c, hc, hi⟩))
  unfold diagonalDominance
  refine Ok.bind (P := DDInv stor bs A ((parts (List.range A.nbrows)).flatten.flatMap fun I =>
    (List.range bs).map fun i => I * bs + i)) ?_ ?_
  · refine forList_ok (fun done (s : DDom K) => DDInv stor bs A (done.flatten.flatMap fun I =>
      (List.range bs).map fun i => I * bs + i) s) (DDInv.nil hinf) ?_
    intro done c rest s hsp hs
    have hc : c ∈ parts (List.range A.nbrows) := by rw [hsp]; simp
    refine Ok.bind (P := DDInv stor bs A (c.flatMap fun I => (List.range bs).map fun i => I * bs + i)) ?_ ?_
    · refine forList_ok (fun done (s : DDom K) => DDInv stor bs A (done.flatMap fun I =>
        (List.range bs).map fun i => I * bs + i) s) (DDInv.nil hbig) ?_
      intro done' I rest' s' hsp' hs'
      have hI := hmem c hc I (by rw [hsp']; simp)
      refine (ddRow_ok hA hS hD hinf hnz hI).bind fun r hr => Ok.pure ?_
      have := hs'.append hr
      simp only [List.flatMap_append, List.flatMap_cons, List.flatMap_nil, List.append_nil]
      unfold ddCombine
      simp only [ite_gt_eq_min]
      exact this
    · intro m hm
      refine Ok.pure ?_
      have := hs.append hm
      simp only [List.flatten_append, List.flatMap_append, List.flatten_cons, List.flatten_nil, List.append_nil]
      exact this
  · intro s hs
    have hpos : 0 < A.nbrows * bs := Nat.mul_pos hn hbs
    have hne : ((A.nbrows * bs : Nat) : K) ≠ 0 := by
      exact_mod_cast Nat.pos_iff_ne_zero.mp hpos
    rw [fdiv, if_neg hne, ok_bind, fdiv, if_neg hne, ok_bind]
    have hperm : ((parts (List.range A.nbrows)).flatten.flatMap fun I =>
        (List.range bs).map fun i => I * bs + i).Perm (List.range (A.nbrows * bs)) := by
      refine ((hp (List.range A.nbrows)).flatMap_right _).trans ?_
      refine (List.perm_ext_iff_of_nodup ?_ List.nodup_range).mpr fun p => ?_
      · rw [List.nodup_flatMap]
        refine ⟨fun I _ => List.nodup_range.map fun a b h => by
          have : I * bs + a = I * bs + b := h
          omega, ?_⟩
        refine List.nodup_range.imp ?_
        intro I J hne' x hx hx'
        simp only [List.mem_map, List.mem_range] at hx hx'
        obtain ⟨a, ha, rfl⟩ := hx
        obtain ⟨b, hb, hab⟩ := hx'
        have e1 : (I * bs + a) / bs = I := by
          rw [Nat.mul_comm, Nat.mul_add_div (by omega), Nat.div_eq_of_lt ha]; omega
        have e2 : (J * bs + b) / bs = J := by
          rw [Nat.mul_comm, Nat.mul_add_div (by omega), Nat.div_eq_of_lt hb]; omega
        rw [hab, e1] at e2
        exact hne' e2
      · simp only [List.mem_flatMap, List.mem_map, List.mem_range]
        constructor
        · rintro ⟨I, hI, i, hi, rfl⟩; exact blk_lt hI hi
        · intro h
          refine ⟨p / bs, Nat.div_lt_of_lt_mul (by rw [Nat.mul_comm]; exact h), p % bs, Nat.mod_lt _ hbs, ?_⟩
          rw [Nat.mul_comm]; exact Nat.div_add_mod p bs
    have hleast : ∀ (f : Nat → K) (r : K), MinInv (((parts (List.range A.nbrows)).flatten.flatMap fun I =>
        (List.range bs).map fun i => I * bs + i).map f) r → IsLeast {x | ∃ p < A.nbrows * bs, x = f p} r := by
      intro f r hr
      refine ⟨?_, ?_⟩
      · rcases hr.2 with h | ⟨h, _⟩
        · obtain ⟨p, hp1, rfl⟩ := List.mem_map.mp h
          exact ⟨p, List.mem_range.mp (hperm.mem_iff.mp hp1), rfl⟩
        · have := hperm.length_eq
          have h0 := congrArg List.length h
          rw [List.length_map, this, List.length_range] at h0
          simp only [List.length_nil] at h0
          omega
      · rintro x ⟨p, hp1, rfl⟩
        exact hr.1 _ (List.mem_map.mpr ⟨p, hperm.mem_iff.mpr (List.mem_range.mpr hp1), rfl⟩)
    refine Ok.pure ⟨hleast _ _ hs.2.2.1, hleast _ _ hs.2.2.2, ?_, ?_⟩
    · show s.lavg / _ = _
      rw [hs.1, (hperm.map _).sum_eq]
      rfl
    · show s.uavg / _ = _
      rw [hs.2.1, (hperm.map _).sum_eq]
      rfl

/-- **C48**, consequences: both reported minima are at most 1, and they are positive exactly if every row of the
factor is strictly diagonally dominant. -/
theorem diagonal_dominance_positive (hbs : 0 < bs) (hA : A.Full (bs * bs)) (hS : A.Sorted) (hD : A.HasDiag)
    (hn : 0 < A.nbrows) (hnz : ∀ p < A.nbrows * bs, A.bentry stor bs p p ≠ 0)
    {inf big : K} (hinf : 1 ≤ inf) (hbig : 1 ≤ big)
    {parts : List Nat → List (List Nat)} (hp : IsParts parts) :
    Ok (diagonalDominance inf big parts stor bs A) (fun r => r.lmin ≤ 1 ∧ r.umin ≤ 1 ∧
      (0 < r.lmin ↔ ∀ p < A.nbrows * bs,
        ∑ q ∈ range (A.nbrows * bs), (if q / bs < p / bs then |A.bentry stor bs p q| else 0) < 1) ∧
      (0 < r.umin ↔ ∀ p < A.nbrows * bs,
        ∑ q ∈ range (A.nbrows * bs), (if p / bs ≤ q / bs ∧ q ≠ p then |A.bentry stor bs p q| else 0) <
          |A.bentry stor bs p p|)) := by
  refine (diagonal_dominance_correct hbs hA hS hD hn hnz hinf hbig hp).mono ?_
  rintro r ⟨⟨⟨pl, hpl, el⟩, hl⟩, ⟨⟨pu, hpu, eu⟩, hu⟩, _, _⟩
  refine ⟨el ▸ lowerDom_le pl, eu ▸ upperDom_le pu, ⟨fun h p hp' => ?_, fun h => ?_⟩, fun h p hp' => ?_, fun h => ?_⟩
  · have := hl ⟨p, hp', rfl⟩
    unfold lowerDom at this
    linarith
  · rw [el, lowerDom]
    have := h pl hpl
    linarith
  · have h1 := hu ⟨p, hp', rfl⟩
    have h2 : 0 < upperDom stor bs A p := lt_of_lt_of_le h h1
    unfold upperDom at h2
    have h3 : upperOff stor bs A p / |A.bentry stor bs p p| < 1 := by linarith
    exact (div_lt_one (abs_pos.mpr (hnz p hp'))).mp h3
  · rw [eu, upperDom]
    have h3 : upperOff stor bs A pu / |A.bentry stor bs pu pu| < 1 :=
      (div_lt_one (abs_pos.mpr (hnz pu hpu))).mpr (h pu hpu)
    linarith

end

/-- A matrix of two block rows with blocks of dimension 2. -/
def exDD : SR ℚ where
  browptr := [0, 2, 4]
  bcolind := [0, 1, 0, 1]
  vals := [4, 1, 0, 4, 1, 0, 0, 1, 1/2, 0, 0, 1/4, 5, 1, 1, -5]
  diagind := [0, 3]
  browendptr := [2, 4]
  nbrows := 2
  nnzb := 4
  nbstored := 4

/-- The hypotheses hold for a concrete block matrix, and the results are as expected. -/
example : exDD.Full (2 * 2) ∧ exDD.Sorted ∧ exDD.HasDiag ∧
    (∀ p < exDD.nbrows * 2, exDD.bentry .rowMajor 2 p p ≠ 0) ∧
    diagonalDominance 1000 1000000 exParts .rowMajor 2 exDD = .ok ⟨13/16, 1/2, 57/80, 1/2⟩ := by
  refine ⟨{ ptr_len := rfl, ptr_zero := rfl, ptr_mono := by decide, end_len := rfl, end_eq := by decide
            ind_len := rfl, val_len := rfl, col_lt := by decide }, SR.sorted_of_check (by decide),
    { diag_len := rfl, diag_ge := by decide, diag_lt := by decide, diag_col := by decide },
    by decide +kernel, by decide +kernel⟩

end Blasted
