import Verif.ILU.SweepLemmas
import Verif.Race.AsyncProps

/-!
# Few asynchronous sweeps of the factorization (C99)

The theorems on the asynchronous factorization so far need `2 n - 1` sweeps. Here the matrix is (weighted) dominant, and the number of sweeps is arbitrary: the error of the factors left
by `k` sweeps is `q ^ k` times a constant that depends neither on the size nor on the pattern, for every `q` larger than the ratio of dominance.
-/

namespace Blasted

open Finset

variable {K : Type} [Field K] [LinearOrder K] [IsStrictOrderedRing K]

/-! ### The majorants exist -/

/-- The comparison matrix with its off-diagonal entries multiplied by `tau`. -/
def compMat (S : Nat → Nat → K) (tau : K) (i j : Nat) : K := if i = j then |S i i| else -(tau * |S i j|)

omit [IsStrictOrderedRing K] in
theorem compMat_diag (S : Nat → Nat → K) (tau : K) (i : Nat) : compMat S tau i i = |S i i| := if_pos rfl

omit [IsStrictOrderedRing K] in
theorem compMat_off (S : Nat → Nat → K) (tau : K) {i j : Nat} (h : i ≠ j) : compMat S tau i j = -(tau * |S i j|) := if_neg h

theorem compMat_wdominant {n : Nat} {S : Nat → Nat → K} {d : Nat → K} {rho tau : K} (h : WDominant n S d rho) (ht : 0 ≤ tau) :
    WDominant n (compMat S tau) d (tau * rho) where
  pos := h.pos
  diag := fun i hi => by rw [compMat_diag]; exact abs_ne_zero.mpr (h.diag i hi)
  dom := fun i hi => by
    rw [compMat_diag, abs_abs, mul_assoc]
    refine le_trans (le_of_eq ?_) (mul_le_mul_of_nonneg_left (h.dom i hi) ht)
    rw [mul_sum]
    refine sum_congr rfl fun j hj => ?_
    rw [compMat_off S tau (ne_of_mem_erase hj).symm, abs_neg, abs_mul, abs_abs, abs_of_nonneg ht, mul_assoc]

section hat
variable {V : Type} {A : SR V} {m : Nat} {pos : ILUPos} {S : Nat → Nat → K} {d : Nat → K} {rho : K}

/-- The absolute values of the matrix at the stored positions. -/
def absAt (A : SR V) (S : Nat → Nat → K) (p : Nat) : K := |S (A.rowOf p) A.bcolind⟦p⟧|

/-- The majorant that belongs to factors `u` of the comparison matrix. -/
def hatOf (A : SR V) (S : Nat → Nat → K) (u : List K) (p : Nat) : K :=
  if A.rowOf p = A.bcolind⟦p⟧ then absAt A S p - u⟦p⟧ else -u⟦p⟧

/-- What is known of the factors of the comparison matrix. -/
structure CompFac (A : SR V) (pos : ILUPos) (S : Nat → Nat → K) (d : Nat → K) (rho tau : K) (u : List K) : Prop where
  len : u.length = A.browptr⟦A.nbrows⟧
  hat : Hat A pos (absAt A S) tau (hatOf A S u)
  few : FewFac A.nbrows (compMat S tau) (lowerFactor A u) (upperFactor A u) d (excess A.nbrows (upperFactor A u) d) (tau * rho)
  exc : ∀ i < A.nbrows, (1 - tau * rho) * (|S i i| * d i) ≤ excess A.nbrows (upperFactor A u) d i
  piv : ∀ i < A.nbrows, upperFactor A u i i = |S i i| - hatOf A S u A.diagind⟦i⟧

theorem exists_compFac (hA : A.Full m) (hSo : A.Sorted) (hD : A.HasDiag) (hpos : ILUPosOk A pos) (hS : WDominant A.nbrows S d rho)
    (hz : ∀ i < A.nbrows, ∀ j < A.nbrows, (∀ p, A.InRow i p → A.bcolind⟦p⟧ ≠ j) → S i j = 0) (h0 : 0 ≤ rho) {tau : K} (ht : 0 ≤ tau) (h1 : tau * rho < 1) :
    ∃ u, CompFac A pos S d rho tau u := by
  have hC := compMat_wdominant hS ht
  obtain ⟨u, hl, he, hpv⟩ := exists_exact_ilu hA hSo hD hpos hC h1
  have hF := fewFac_of_exact hA hD hl hC (mul_nonneg ht h0) h1 he
  have hsg := exact_signs hA hD hl hS.pos
    (fun i _ j _ hij => by rw [compMat_off S tau hij]; exact neg_nonpos.mpr (mul_nonneg ht (abs_nonneg _)))
    (fun i hi j hj hst => by
      have hij : i ≠ j := fun hij => hst _ (hD.inRow hi) (by rw [hD.diag_col i hi]; exact hij)
      rw [compMat_off S tau hij, hz i hi j hj hst, abs_zero, mul_zero, neg_zero])
    (fun i hi => by
      have e1 := hC.dom i hi
      have e2 : ∑ j ∈ range A.nbrows, compMat S tau i j * d j = |compMat S tau i i| * d i - ∑ j ∈ (range A.nbrows).erase i, |compMat S tau i j| * d j := by
        rw [← sum_erase_add _ _ (mem_range.mpr hi), compMat_diag, abs_abs, add_comm, sub_eq_add_neg, ← sum_neg_distrib]
        congr 1
        refine sum_congr rfl fun j hj => ?_
        rw [compMat_off S tau (ne_of_mem_erase hj).symm, abs_neg, abs_of_nonneg (mul_nonneg ht (abs_nonneg _))]
        ring
      have e3 : 0 < |compMat S tau i i| * d i := mul_pos (abs_pos.mpr (hC.diag i hi)) (hS.pos i hi)
      rw [e2]
      nlinarith) he
  -- the entries of the factors
  have hent : ∀ p < A.browptr⟦A.nbrows⟧, A.rowOf p ≠ A.bcolind⟦p⟧ → u⟦p⟧ ≤ 0 := by
    intro p hp hne
    obtain ⟨hi, hrow⟩ := hA.rowOf_spec hp
    have hst := facEntry_stored hA hSo hl hi hrow
    rcases lt_or_gt_of_ne hne with h | h
    · have := (hsg _ hi).2.1 _ (hA.col_lt p hp) h
      unfold upperFactor at this
      rwa [if_pos h.le, hst] at this
    · have := (hsg _ hi).1 _ h
      unfold lowerFactor at this
      rwa [if_pos h, hst] at this
  have hdiag : ∀ i < A.nbrows, upperFactor A u i i = u⟦A.diagind⟦i⟧⟧ := fun i hi => upperFactor_diag hA hSo hD hl hi
  have hat_diag : ∀ i < A.nbrows, hatOf A S u A.diagind⟦i⟧ = |S i i| - u⟦A.diagind⟦i⟧⟧ := by
    intro i hi
    unfold hatOf absAt
    rw [if_pos (hD.rowOf_diag hA hi), hA.rowOf_eq hi (hD.inRow hi), hD.diag_col i hi]
  have abs_diag : ∀ i < A.nbrows, absAt A S A.diagind⟦i⟧ = |S i i| := by
    intro i hi
    unfold absAt
    rw [hA.rowOf_eq hi (hD.inRow hi), hD.diag_col i hi]
  have hsum : ∀ p < A.browptr⟦A.nbrows⟧, posSum pos (hatOf A S u) p = posSum pos (get0 u) p := by
    intro p hp
    unfold posSum
    refine sum_congr rfl fun t ht => ?_
    obtain ⟨-, h3, h4⟩ := hpos.dep hA hSo hp ht
    unfold hatOf
    rw [if_neg (by omega), if_neg (by omega), neg_mul_neg]
  have hsum0 : ∀ p < A.browptr⟦A.nbrows⟧, 0 ≤ posSum pos (hatOf A S u) p := by
    intro p hp
    rw [hsum p hp]
    refine sum_nonneg fun t ht => ?_
    obtain ⟨⟨h1, h2⟩, h3, h4⟩ := hpos.dep hA hSo hp ht
    exact mul_nonneg_of_nonpos_of_nonpos (hent _ (by omega) (by omega)) (hent _ (by omega) (by omega))
  have heq : ∀ p < A.browptr⟦A.nbrows⟧, posSum pos (hatOf A S u) p +
      (if A.bcolind⟦p⟧ < A.rowOf p then u⟦p⟧ * u⟦A.diagind⟦A.bcolind⟦p⟧⟧⟧ else u⟦p⟧) = compMat S tau (A.rowOf p) A.bcolind⟦p⟧ := by
    intro p hp
    obtain ⟨hi, hrow⟩ := hA.rowOf_spec hp
    rw [hsum p hp, ← luProd_eq hA hSo hD hpos hl hi hrow]
    exact he _ hi p hrow
  have hdia : ∀ p < A.browptr⟦A.nbrows⟧, A.rowOf p = A.bcolind⟦p⟧ → hatOf A S u p = posSum pos (hatOf A S u) p := by
    intro p hp hrc
    have h2 := heq p hp
    rw [if_neg (by omega), ← hrc, compMat_diag] at h2
    have : hatOf A S u p = |S (A.rowOf p) (A.rowOf p)| - u⟦p⟧ := by
      unfold hatOf absAt; rw [if_pos hrc, ← hrc]
    rw [this]
    linear_combination -h2
  refine ⟨u, hl, ⟨?_, ?_, ?_, hdia, ?_⟩, hF, ?_, ?_⟩
  · intro p hp
    by_cases hrc : A.rowOf p = A.bcolind⟦p⟧
    · rw [hdia p hp hrc]; exact hsum0 p hp
    · unfold hatOf
      rw [if_neg hrc]
      exact neg_nonneg.mpr (hent p hp hrc)
  · intro c hc
    have := (hsg c hc).2.2.1
    rw [hdiag c hc] at this
    rw [hat_diag c hc, abs_diag c hc]
    linarith
  · intro p hp hlt
    have h2 := heq p hp
    rw [if_neg (by omega), compMat_off S tau hlt.ne] at h2
    have : hatOf A S u p = -u⟦p⟧ := if_neg hlt.ne
    rw [this]
    unfold absAt
    linear_combination -h2
  · intro p hp hlt
    have h2 := heq p hp
    rw [if_pos hlt, compMat_off S tau hlt.ne'] at h2
    have h3 : hatOf A S u p = -u⟦p⟧ := if_neg hlt.ne'
    have hcn := hA.col_lt p hp
    rw [h3, hat_diag _ hcn, abs_diag _ hcn]
    unfold absAt
    linear_combination -h2
  · intro i hi
    have := exact_excess hA hD hl hC h1 hi fun k hk => he k (by omega)
    rwa [compMat_diag, abs_abs] at this
  · intro i hi
    rw [hdiag i hi, hat_diag i hi]
    ring

end hat

/-! ### Updates -/

section upd
variable {A : SR K} {scal : Nat → Nat → K → C K} {pos : ILUPos} {S : Nat → Nat → K}

omit [IsStrictOrderedRing K] in
/-- The value of a component update in terms of `IsUpd`. -/
theorem iluComp_isUpd (hA : A.Full) (hSo : A.Sorted) (hD : A.HasDiag) (hpos : ILUPosOk A pos) (hscal : Scales A scal S) {p : Nat}
    (hp : p < A.browptr⟦A.nbrows⟧) {x : Nat → K} (hx : A.bcolind⟦p⟧ < A.rowOf p → x A.diagind⟦A.bcolind⟦p⟧⟧ ≠ 0) :
    ∃ v, iluComp A scal pos p (readView A.browptr⟦A.nbrows⟧ x) = .ok v ∧ IsUpd A pos (fun p => S (A.rowOf p) A.bcolind⟦p⟧) x p v := by
  rw [iluComp_view hA hSo hD hpos (hscal.scalOk hA) hp (g := x) fun q hq => by unfold readView; rw [if_pos (by omega)]]
  unfold facVal IsUpd
  split
  · rename_i hlt
    have hne := hx hlt
    refine ⟨(S (A.rowOf p) A.bcolind⟦p⟧ - posSum pos x p) * (x A.diagind⟦A.bcolind⟦p⟧⟧)⁻¹, ?_, ?_⟩
    · simp only [pinv, if_neg hne, ok_bind]
    · rw [mul_assoc, inv_mul_cancel₀ hne, mul_one]
  · exact ⟨_, rfl, rfl⟩

theorem exact_isUpd (hA : A.Full) (hSo : A.Sorted) (hD : A.HasDiag) (hpos : ILUPosOk A pos) {u : List K} (hl : u.length = A.browptr⟦A.nbrows⟧)
    (he : ExactILU A S u) : ∀ p < A.browptr⟦A.nbrows⟧, IsUpd A pos (fun p => S (A.rowOf p) A.bcolind⟦p⟧) (get0 u) p u⟦p⟧ := by
  intro p hp
  obtain ⟨hi, hrow⟩ := hA.rowOf_spec hp
  have h1 := he _ hi p hrow
  rw [luProd_eq hA hSo hD hpos hl hi hrow] at h1
  unfold IsUpd
  split
  · rename_i hlt
    rw [if_pos hlt] at h1
    linear_combination h1
  · rename_i hlt
    rw [if_neg hlt] at h1
    linear_combination h1

end upd

/-! ### Initial guesses -/

/-- Initial guesses from which the sweeps are safe: the diagonal is that of the matrix, the entries above are not larger than those of the matrix, and those below, multiplied with the diagonal
entry of their column, are not larger than those of the matrix. -/
structure SafeGuess (A : SR K) (S : Nat → Nat → K) (x : List K) : Prop where
  len : x.length = A.browptr⟦A.nbrows⟧
  diag : ∀ i < A.nbrows, x⟦A.diagind⟦i⟧⟧ = S i i
  upper : ∀ i < A.nbrows, ∀ p, A.InRow i p → i < A.bcolind⟦p⟧ → |x⟦p⟧| ≤ |S i A.bcolind⟦p⟧|
  lower : ∀ i < A.nbrows, ∀ p, A.InRow i p → A.bcolind⟦p⟧ < i → |x⟦p⟧| * |S A.bcolind⟦p⟧ A.bcolind⟦p⟧| ≤ |S i A.bcolind⟦p⟧|

section few
variable {A : SR K} {scal : Nat → Nat → K → C K} {pos : ILUPos} {S : Nat → Nat → K} {d : Nat → K} {rho : K}

theorem SafeGuess.box (hA : A.Full) (hSo : A.Sorted) (hD : A.HasDiag) (hpos : ILUPosOk A pos) {x : List K} (h : SafeGuess A S x) {h0 : Nat → K}
    (H : Hat A pos (absAt A S) 1 h0) : ∀ p < A.browptr⟦A.nbrows⟧, InBox A (fun p => S (A.rowOf p) A.bcolind⟦p⟧) h0 p x⟦p⟧ := by
  intro p hp
  obtain ⟨hi, hrow⟩ := hA.rowOf_spec hp
  have hs : 0 ≤ posSum pos h0 p := by
    unfold posSum
    refine sum_nonneg fun t ht => ?_
    obtain ⟨⟨h1, h2⟩, -, -⟩ := hpos.dep hA hSo hp ht
    exact mul_nonneg (H.nn _ (by omega)) (H.nn _ (by omega))
  unfold InBox
  rcases lt_trichotomy A.bcolind⟦p⟧ (A.rowOf p) with hlt | heq | hgt
  · rw [if_neg (by omega)]
    have hcn := hA.col_lt p hp
    have e1 := h.lower _ hi p hrow hlt
    have e2 := H.low p hp hlt
    have e3 := H.piv _ hcn
    have e4 : absAt A S A.diagind⟦A.bcolind⟦p⟧⟧ = |S A.bcolind⟦p⟧ A.bcolind⟦p⟧| := by
      unfold absAt
      rw [hA.rowOf_eq hcn (hD.inRow hcn), hD.diag_col _ hcn]
    have hdn := hA.lt_nnz hcn (hD.inRow hcn).2
    have e5 := mul_nonneg (abs_nonneg x⟦p⟧) (H.nn _ hdn)
    rw [one_mul] at e2
    rw [e4] at e2 e3
    unfold absAt at e2
    refine le_of_mul_le_mul_right (a := |S A.bcolind⟦p⟧ A.bcolind⟦p⟧| - h0 A.diagind⟦A.bcolind⟦p⟧⟧) ?_ (by linarith)
    rw [e2]
    linarith
  · rw [if_pos heq.symm]
    have hpd : p = A.diagind⟦A.rowOf p⟧ := hSo.inj hi hrow (hD.inRow hi) (by rw [hD.diag_col _ hi, heq])
    have : x⟦p⟧ = S (A.rowOf p) A.bcolind⟦p⟧ := by
      rw [heq, ← h.diag _ hi, ← hpd]
    dsimp only
    rw [this, sub_self, abs_zero]
    exact H.nn p hp
  · rw [if_neg (by omega), H.up p hp hgt, one_mul]
    have := h.upper _ hi p hrow hgt
    unfold absAt
    linarith

/-- **C99** Starting from a safe guess for a dominant matrix, no update ever divides by zero, and no pivot ever comes near zero: whatever the schedule, however late any thread is, and at every
moment. `log` is any execution of component updates without any barrier. -/
theorem async_ilu_pivots_bounded (hA : A.Full) (hSo : A.Sorted) (hD : A.HasDiag) (hpos : computeILUPositions A = .ok pos) (hscal : Scales A scal S)
    (hS : WDominant A.nbrows S d rho) (hz : ∀ i < A.nbrows, ∀ j < A.nbrows, (∀ p, A.InRow i p → A.bcolind⟦p⟧ ≠ j) → S i j = 0)
    (h0 : 0 ≤ rho) (h1 : rho < 1) {x : List K} (hx : SafeGuess A S x) {log : List (Nat × K)}
    (h : ALog (iluComp A scal pos) mixWhole A.browptr⟦A.nbrows⟧ (memOf x) log) :
    (∀ i < A.nbrows, (1 - rho) * |S i i| ≤ |upperFactor A (applyLog x log) i i|) ∧
      ∀ view : Nat → K, (∀ j < A.browptr⟦A.nbrows⟧, (j, view j) ∈ memOf x ∨ (j, view j) ∈ log) →
        ∀ p < A.browptr⟦A.nbrows⟧, ∃ v, iluComp A scal pos p (readView A.browptr⟦A.nbrows⟧ view) = .ok v := by
  obtain ⟨pos', e1, hpo⟩ := compute_ILU_positions_correct A hA hSo hD
  rw [hpos] at e1; cases e1
  obtain ⟨u, hu⟩ := exists_compFac hA hSo hD hpo hS hz h0 zero_le_one (by rwa [one_mul])
  have H := hu.hat
  have hT : ∀ p < A.browptr⟦A.nbrows⟧, absAt A S p = |S (A.rowOf p) A.bcolind⟦p⟧| := fun _ _ => rfl
  have hpiv : ∀ i < A.nbrows, ∀ v, InBox A (fun p => S (A.rowOf p) A.bcolind⟦p⟧) (hatOf A S u) A.diagind⟦i⟧ v → (1 - rho) * |S i i| ≤ |v| := by
    intro i hi v hv
    have e2 := Hat.pivot (a := absAt A S) hA hD hT hi hv
    have e3 := hu.exc i hi
    rw [one_mul, hu.few.wdef i hi] at e3
    have e4 : 0 ≤ ∑ j ∈ Ico (i + 1) A.nbrows, |upperFactor A u i j| * d j :=
      sum_nonneg fun j hj => mul_nonneg (abs_nonneg _) (hS.pos j (mem_Ico.mp hj).2).le
    have e5 : absAt A S A.diagind⟦i⟧ = |S i i| := by
      unfold absAt
      rw [hA.rowOf_eq hi (hD.inRow hi), hD.diag_col i hi]
    have e6 := H.piv i hi
    have e7 := hu.piv i hi
    rw [e5] at e2 e6
    rw [e7, abs_of_pos (show 0 < |S i i| - hatOf A S u A.diagind⟦i⟧ by linarith)] at e3
    refine le_of_mul_le_mul_right ?_ (hS.pos i hi)
    have e8 := mul_le_mul_of_nonneg_right e2 (hS.pos i hi).le
    linarith
  have hne : ∀ i < A.nbrows, ∀ v, InBox A (fun p => S (A.rowOf p) A.bcolind⟦p⟧) (hatOf A S u) A.diagind⟦i⟧ v → v ≠ 0 := by
    intro i hi v hv h2
    have e2 := hpiv i hi v hv
    rw [h2, abs_zero] at e2
    have e3 := mul_pos (sub_pos.mpr h1) (abs_pos.mpr (hS.diag i hi))
    linarith
  have hbx := hx.box hA hSo hD hpo H
  have hlog := h.contract (Q := fun (_ : K) j v => j < A.browptr⟦A.nbrows⟧ → InBox A (fun p => S (A.rowOf p) A.bcolind⟦p⟧) (hatOf A S u) j v) (E := 0) (E' := 0)
    (fun j T hT w hw => hT w hw) (fun j v hv => hv)
    (fun i hi view hview v hv _ => by
      obtain ⟨v', e2, e3⟩ := iluComp_isUpd hA hSo hD hpo hscal hi (x := view) fun hlt => by
        have hcn := hA.col_lt i hi
        have hdn := hA.lt_nnz hcn (hD.inRow hcn).2
        exact hne _ hcn _ (hview _ hdn hdn)
      rw [hv.eq e2]
      exact H.box hA hSo hD hpo hT hi (fun q hq => hview q (by omega) (by omega)) e3)
    (fun w hw hwn _ => by rw [memOf_eq hw]; exact hbx _ hwn)
  refine ⟨fun i hi => ?_, fun view hview p hp => ?_⟩
  · have hdn := hA.lt_nnz hi (hD.inRow hi).2
    rw [upperFactor_diag hA hSo hD (by simp [hx.len]) hi]
    refine hpiv i hi _ ?_
    rcases mem_applyLog (memOf_get0 (x := applyLog x log) (i := A.diagind⟦i⟧) (by simpa [hx.len] using hdn)) with h2 | ⟨h2, _⟩
    · exact hlog _ h2 hdn
    · have e : (applyLog x log)⟦A.diagind⟦i⟧⟧ = x⟦A.diagind⟦i⟧⟧ := memOf_eq (w := (A.diagind⟦i⟧, (applyLog x log)⟦A.diagind⟦i⟧⟧)) h2
      rw [e]; exact hbx _ hdn
  · obtain ⟨v, e2, -⟩ := iluComp_isUpd hA hSo hD hpo hscal hp (x := view) fun hlt => by
      have hcn := hA.col_lt p hp
      have hdn := hA.lt_nnz hcn (hD.inRow hcn).2
      refine hne _ hcn _ ?_
      rcases hview _ hdn with h2 | h2
      · have := memOf_eq h2
        dsimp only at this
        rw [this]; exact hbx _ hdn
      · exact hlog _ h2 hdn
    exact ⟨v, e2⟩

/-- **C99** The error left by `k` asynchronous sweeps of the factorization of a dominant matrix: in every row, the weighted sums of the errors of both factors are `q ^ k` times a constant.
`rho` is the ratio of dominance and `q` any number between `rho` and 1; `x` is a safe guess, `ex` are the exact factors. -/
theorem async_ilu_few_sweeps (hA : A.Full) (hSo : A.Sorted) (hD : A.HasDiag) (hpos : computeILUPositions A = .ok pos) (hscal : Scales A scal S)
    (hS : WDominant A.nbrows S d rho) (hz : ∀ i < A.nbrows, ∀ j < A.nbrows, (∀ p, A.InRow i p → A.bcolind⟦p⟧ ≠ j) → S i j = 0)
    (h0 : 0 ≤ rho) {q : K} (hq : rho < q) (hq1 : q ≤ 1) {ex : List K} (hl : ex.length = A.browptr⟦A.nbrows⟧) (he : ExactILU A S ex)
    {x x' : List K} (hx : SafeGuess A S x) {k : Nat} (h : ARun (iluComp A scal pos) mixWhole k x x') :
    x'.length = A.browptr⟦A.nbrows⟧ ∧ ∀ i < A.nbrows,
      ∑ j ∈ range A.nbrows, |upperFactor A x' i j - upperFactor A ex i j| * d j ≤ 2 * (q * (q + rho) / (q - rho)) * q ^ k * (|S i i| * d i) ∧
      ∑ j ∈ range A.nbrows, |lowerFactor A x' i j - lowerFactor A ex i j| * (|S j j| * d j) ≤
        2 * (q * (q + rho) ^ 2 / (q - rho) ^ 2) * q ^ k * (|S i i| * d i) := by
  obtain ⟨pos', e1, hpo⟩ := compute_ILU_positions_correct A hA hSo hD
  rw [hpos] at e1; cases e1
  have hq0 : 0 < q := lt_of_le_of_lt h0 hq
  have hqr : 0 < q - rho := sub_pos.mpr hq
  have hqs : 0 < q + rho := by linarith
  -- the majorants
  obtain ⟨u0, hu0⟩ := exists_compFac hA hSo hD hpo hS hz h0 zero_le_one (by rw [one_mul]; exact lt_of_lt_of_le hq hq1)
  obtain ⟨u1, hu1⟩ := exists_compFac hA hSo hD hpo hS hz h0 (tau := q⁻¹) (inv_nonneg.mpr hq0.le) (by rw [inv_mul_lt_iff₀ hq0]; linarith)
  have ht2 : 2 / (q + rho) * rho < 1 := by rw [div_mul_eq_mul_div, div_lt_one hqs]; linarith
  obtain ⟨u2, hu2⟩ := exists_compFac hA hSo hD hpo hS hz h0 (tau := 2 / (q + rho)) (div_nonneg zero_le_two hqs.le) ht2
  have hdt : 2 / (q + rho) - q⁻¹ = (q - rho) / (q * (q + rho)) := by field_simp; ring
  have H : Hats A pos (absAt A S) q⁻¹ (2 / (q + rho)) (hatOf A S u0) (hatOf A S u1) (hatOf A S u2) :=
    ⟨hu0.hat, hu1.hat, hu2.hat, (one_le_inv₀ hq0).mpr hq1, sub_pos.mp (by rw [hdt]; exact div_pos hqr (mul_pos hq0 hqs)), fun p _ => abs_nonneg _⟩
  have hT : ∀ p < A.browptr⟦A.nbrows⟧, absAt A S p = |S (A.rowOf p) A.bcolind⟦p⟧| := fun _ _ => rfl
  have hbx := hx.box hA hSo hD hpo H.H0
  have hup := exact_isUpd hA hSo hD hpo hl he
  have hbe := H.H0.box_fixed hA hSo hD hpo hT hup
  have hnz : ∀ i < A.nbrows, ∀ v, InBox A (fun p => S (A.rowOf p) A.bcolind⟦p⟧) (hatOf A S u0) A.diagind⟦i⟧ v → v ≠ 0 := by
    intro i hi v hv h2
    have e2 := Hat.pivot (a := absAt A S) hA hD hT hi hv
    rw [h2, abs_zero] at e2
    have := H.H0.piv i hi
    linarith
  set C : K := 2 * (q * (q + rho) / (q - rho)) with hC
  have hC0 : 0 ≤ C := mul_nonneg zero_le_two (div_nonneg (mul_nonneg hq0.le hqs.le) hqr.le)
  -- the initial error
  have hinit : ∀ p < A.browptr⟦A.nbrows⟧, |x⟦p⟧ - ex⟦p⟧| ≤ C * (hatOf A S u2 p - hatOf A S u1 p) := by
    intro p hp
    have e2 : |x⟦p⟧ - ex⟦p⟧| ≤ 2 * hatOf A S u0 p := by
      have b1 := hbx p hp
      have b2 := hbe p hp
      unfold InBox at b1 b2
      dsimp only at b1 b2
      split at b1
      · rename_i hrc
        rw [if_pos hrc] at b2
        have := abs_sub_le x⟦p⟧ (S (A.rowOf p) A.bcolind⟦p⟧) ex⟦p⟧
        rw [abs_sub_comm (S _ _) ex⟦p⟧] at this
        linarith
      · rename_i hrc
        rw [if_neg hrc] at b2
        have := abs_sub x⟦p⟧ ex⟦p⟧
        linarith
    refine e2.trans ?_
    have e3 := mul_le_mul_of_nonneg_left (H.weight hA hSo hD hpo hp).2 hC0
    refine le_trans (le_of_eq ?_) e3
    rw [hdt, hC]
    field_simp
  -- the rounds
  obtain ⟨log, last, hR, rfl⟩ := h
  have key := hR.contract (rho := q) (E := C)
    (Q := fun E j v => j < A.browptr⟦A.nbrows⟧ → InBox A (fun p => S (A.rowOf p) A.bcolind⟦p⟧) (hatOf A S u0) j v ∧
      |v - ex⟦j⟧| ≤ E * (hatOf A S u2 j - hatOf A S u1 j)) hq0.le hq1 hC0 (fun E j T hT v hv => hT v hv)
    (fun E E' j v hle hv hj => ⟨(hv hj).1, (hv hj).2.trans
      (mul_le_mul_of_nonneg_right hle (sub_nonneg.mpr (H.weight hA hSo hD hpo hj).1))⟩)
    (fun E hE i hi view hview v hv _ => by
      rw [hx.len] at hi hview hv
      obtain ⟨v', e2, e3⟩ := iluComp_isUpd hA hSo hD hpo hscal hi (x := view) fun hlt => by
        have hcn := hA.col_lt i hi
        have hdn := hA.lt_nnz hcn (hD.inRow hcn).2
        exact hnz _ hcn _ (hview _ hdn hdn).1
      rw [hv.eq e2]
      refine ⟨H.H0.box hA hSo hD hpo hT hi (fun p hp => (hview p (by omega) (by omega)).1) e3, ?_⟩
      have := H.contract hA hSo hD hpo hT hi hE (fun p hp => hview p (by omega) (by omega)) hup e3
      rwa [inv_inv] at this)
    (fun w hw hwn => ⟨by rw [memOf_eq hw]; exact hbx _ hwn, by rw [memOf_eq hw]; exact hinit _ hwn⟩)
  have hlen : (applyLog x log).length = A.browptr⟦A.nbrows⟧ := by simp [hx.len]
  have hent : ∀ p < A.browptr⟦A.nbrows⟧, |(applyLog x log)⟦p⟧ - ex⟦p⟧| ≤ C * q ^ k * hatOf A S u2 p := by
    intro p hp
    have e2 := (key.2 _ (hR.mem_last (memOf_get0 (x := applyLog x log) (i := p) (by omega))) hp).2
    dsimp only at e2
    have hE : 0 ≤ C * q ^ k := mul_nonneg hC0 (pow_nonneg hq0.le k)
    have e3 := mul_nonneg hE (H.H1.nn p hp)
    rw [mul_comm (q ^ k)] at e2
    linarith
  refine ⟨hlen, fun i hi => ?_⟩
  set x' := applyLog x log
  have hE : 0 ≤ C * q ^ k := mul_nonneg hC0 (pow_nonneg hq0.le k)
  have hfac : ∀ j < A.nbrows, i ≠ j → |facEntry A x' i j - facEntry A ex i j| ≤ C * q ^ k * |facEntry A u2 i j| := by
    intro j hj hij
    by_cases hst : ∃ p, A.InRow i p ∧ A.bcolind⟦p⟧ = j
    · obtain ⟨p, hp, rfl⟩ := hst
      have hpn := hA.lt_nnz hi hp.2
      rw [facEntry_stored hA hSo hlen hi hp, facEntry_stored hA hSo hl hi hp, facEntry_stored hA hSo hu2.len hi hp]
      refine (hent p hpn).trans (mul_le_mul_of_nonneg_left ?_ hE)
      unfold hatOf
      rw [if_neg (by rw [hA.rowOf_eq hi hp]; exact hij)]
      exact neg_le_abs _
    · have hst' : ∀ p, A.InRow i p → A.bcolind⟦p⟧ ≠ j := fun p hp hc => hst ⟨p, hp, hc⟩
      rw [facEntry_unstored hA hlen hi hst', facEntry_unstored hA hl hi hst', sub_self, abs_zero]
      exact mul_nonneg hE (abs_nonneg _)
  have hF := hu2.few
  have hpd : 0 < |S i i| - hatOf A S u2 A.diagind⟦i⟧ := by
    have := H.H2.piv i hi
    have e5 : absAt A S A.diagind⟦i⟧ = |S i i| := by
      unfold absAt
      rw [hA.rowOf_eq hi (hD.inRow hi), hD.diag_col i hi]
    rw [e5] at this
    linarith
  have hdn := hA.lt_nnz hi (hD.inRow hi).2
  have hdi := hS.pos i hi
  constructor
  · rw [← sum_range_add_sum_Ico _ hi, sum_range_succ, sum_eq_zero (s := range i) fun j hj => by
      rw [upperFactor_zero A x' i j (mem_range.mp hj), upperFactor_zero A ex i j (mem_range.mp hj), sub_self, abs_zero, zero_mul], zero_add]
    have e2 : ∑ j ∈ Ico (i + 1) A.nbrows, |upperFactor A x' i j - upperFactor A ex i j| * d j ≤
        C * q ^ k * ∑ j ∈ Ico (i + 1) A.nbrows, |upperFactor A u2 i j| * d j := by
      rw [mul_sum]
      refine sum_le_sum fun j hj => ?_
      rw [mem_Ico] at hj
      have e3 := hfac j hj.2 (by omega)
      unfold upperFactor
      rw [if_pos (by omega), if_pos (by omega), if_pos (by omega)]
      have := mul_le_mul_of_nonneg_right e3 (hS.pos j hj.2).le
      linarith
    have e3 := hF.wnn i hi
    rw [hF.wdef i hi, hu2.piv i hi, abs_of_pos hpd] at e3
    have e4 := mul_le_mul_of_nonneg_left e3 hE
    rw [upperFactor_diag hA hSo hD hlen hi, upperFactor_diag hA hSo hD hl hi]
    have e5 := mul_le_mul_of_nonneg_right (hent _ hdn) hdi.le
    rw [mul_zero, mul_sub] at e4
    nlinarith
  · rw [← sum_range_add_sum_Ico _ hi, sum_range_succ, sum_eq_zero (s := Ico (i + 1) A.nbrows) fun j hj => by
      rw [mem_Ico] at hj
      unfold lowerFactor
      rw [if_neg (by omega), if_neg (by omega), if_neg (by omega), sub_self, abs_zero, zero_mul], add_zero]
    have e1 : |lowerFactor A x' i i - lowerFactor A ex i i| = 0 := by
      unfold lowerFactor
      rw [if_neg (lt_irrefl _), if_pos rfl, if_neg (lt_irrefl _), sub_self, abs_zero]
    rw [e1, zero_mul, add_zero]
    have hth : 1 - 2 / (q + rho) * rho = (q - rho) / (q + rho) := by field_simp; ring
    have hth0 : 0 < (q - rho) / (q + rho) := div_pos hqr hqs
    have e2 : (q - rho) / (q + rho) * ∑ j ∈ range i, |lowerFactor A x' i j - lowerFactor A ex i j| * (|S j j| * d j) ≤
        C * q ^ k * ∑ j ∈ range i, |lowerFactor A u2 i j| * excess A.nbrows (upperFactor A u2) d j := by
      rw [mul_sum, mul_sum]
      refine sum_le_sum fun j hj => ?_
      rw [mem_range] at hj
      have hjn : j < A.nbrows := by omega
      have e3 := hfac j hjn (by omega)
      have e4 := hu2.exc j hjn
      rw [hth] at e4
      unfold lowerFactor
      rw [if_pos hj, if_pos hj, if_pos hj]
      have e5 := mul_le_mul e3 e4 (mul_nonneg hth0.le (mul_nonneg (abs_nonneg _) (hS.pos j hjn).le)) ((abs_nonneg _).trans e3)
      linarith
    have e3 := hF.rhs i hi
    have e4 : excess A.nbrows (upperFactor A u2) d i ≤ |S i i| * d i := by
      rw [hF.wdef i hi, hu2.piv i hi, abs_of_pos hpd]
      have e5 : 0 ≤ ∑ j ∈ Ico (i + 1) A.nbrows, |upperFactor A u2 i j| * d j :=
        sum_nonneg fun j hj => mul_nonneg (abs_nonneg _) (hS.pos j (mem_Ico.mp hj).2).le
      have e6 := mul_nonneg (H.H2.nn _ hdn) hdi.le
      linarith
    have e5 : 0 ≤ (1 - 2 / (q + rho) * rho) * (|compMat S (2 / (q + rho)) i i| * d i) :=
      mul_nonneg (by rw [hth]; exact hth0.le) (mul_nonneg (abs_nonneg _) hdi.le)
    have e6 : ∑ j ∈ range i, |lowerFactor A u2 i j| * excess A.nbrows (upperFactor A u2) d j ≤ |S i i| * d i := by linarith
    have e7 := e2.trans (mul_le_mul_of_nonneg_left e6 hE)
    refine le_of_mul_le_mul_left (a := (q - rho) / (q + rho)) (e7.trans (le_of_eq ?_)) hth0
    rw [hC]
    field_simp

end few

/-- **C99** The number of sweeps that a given accuracy takes depends on the ratio of dominance only: not on the size of the matrix, its pattern, the scaling, the weights or the schedule. -/
theorem async_ilu_sweeps_needed [Archimedean K] {rho : K} (h0 : 0 ≤ rho) (h1 : rho < 1) {ε : K} (hε : 0 < ε) :
    ∃ k₀ : Nat, ∀ (A : SR K) (scal : Nat → Nat → K → C K) (pos : ILUPos) (S : Nat → Nat → K) (d : Nat → K) (ex x x' : List K) (k : Nat),
      A.Full → A.Sorted → A.HasDiag → computeILUPositions A = .ok pos → Scales A scal S → WDominant A.nbrows S d rho →
      (∀ i < A.nbrows, ∀ j < A.nbrows, (∀ p, A.InRow i p → A.bcolind⟦p⟧ ≠ j) → S i j = 0) →
      ex.length = A.browptr⟦A.nbrows⟧ → ExactILU A S ex → SafeGuess A S x → k₀ ≤ k → ARun (iluComp A scal pos) mixWhole k x x' →
      ∀ i < A.nbrows, ∑ j ∈ range A.nbrows, |upperFactor A x' i j - upperFactor A ex i j| * d j ≤ ε * (|S i i| * d i) ∧
        ∑ j ∈ range A.nbrows, |lowerFactor A x' i j - lowerFactor A ex i j| * (|S j j| * d j) ≤ ε * (|S i i| * d i) := by
  set q : K := (1 + rho) / 2 with hq
  have hqr : rho < q := by rw [hq]; linarith
  have hq1 : q < 1 := by rw [hq]; linarith
  have hq0 : 0 < q := lt_of_le_of_lt h0 hqr
  set M : K := 2 * (q * (q + rho) / (q - rho)) + 2 * (q * (q + rho) ^ 2 / (q - rho) ^ 2) + 1 with hM
  have n1 : 0 ≤ 2 * (q * (q + rho) / (q - rho)) := mul_nonneg zero_le_two (div_nonneg (mul_nonneg hq0.le (by linarith)) (by linarith))
  have n2 : 0 ≤ 2 * (q * (q + rho) ^ 2 / (q - rho) ^ 2) := mul_nonneg zero_le_two (div_nonneg (mul_nonneg hq0.le (sq_nonneg _)) (sq_nonneg _))
  have hM0 : 0 < M := by rw [hM]; linarith
  obtain ⟨k₀, hk⟩ := exists_pow_lt_of_lt_one (div_pos hε hM0) hq1
  refine ⟨k₀, fun A scal pos S d ex x x' k hA hSo hD hpos hscal hS hz hl he hx hkk h i hi => ?_⟩
  have hqk : q ^ k ≤ ε / M := (pow_le_pow_of_le_one hq0.le hq1.le hkk).trans hk.le
  have hw : 0 ≤ |S i i| * d i := mul_nonneg (abs_nonneg _) (hS.pos i hi).le
  have hle : ∀ c : K, 0 ≤ c → c ≤ M → c * q ^ k * (|S i i| * d i) ≤ ε * (|S i i| * d i) := by
    intro c hc hcM
    refine mul_le_mul_of_nonneg_right ?_ hw
    calc c * q ^ k ≤ M * (ε / M) := mul_le_mul hcM hqk (pow_nonneg hq0.le k) hM0.le
      _ = ε := by field_simp
  obtain ⟨e1, e2⟩ := (async_ilu_few_sweeps hA hSo hD hpos hscal hS hz h0 hqr hq1.le hl he hx h).2 i hi
  exact ⟨e1.trans (hle _ n1 (by rw [hM]; linarith)), e2.trans (hle _ n2 (by rw [hM]; linarith))⟩

/-! ### The guesses of the code -/

section guess
variable {A : SR K} {isq : K → K} {us : Bool} {o : Option (List K)} {ord ordc : List Nat} {g x : List K}

/-- **C99** The guess of the type "sgs" is safe (without scaling; with scaling the code reads the scaling vector at wrong positions, see C24). -/
theorem safeGuess_sgs (hA : A.Full) (hSo : A.Sorted) (hD : A.HasDiag) (hnz : ∀ i < A.nbrows, A.entry i i ≠ 0)
    (hord : ord.Perm (List.range A.nbrows)) (hg : g.length = A.browptr⟦A.nbrows⟧) (h : scalarFactInit A .sgs none ord ordc g = .ok x) :
    SafeGuess A (scaledEntry isq false A) x := by
  have hst : ∀ i < A.nbrows, ∀ p, A.InRow i p → scaledEntry isq false A i A.bcolind⟦p⟧ = A.vals⟦p⟧ := by
    intro i hi p hp
    simp only [scaledEntry, scaleFac, Bool.false_eq_true, if_false, one_mul, mul_one]
    exact hA.entry_stored hSo hi hp
  have hdg : ∀ i < A.nbrows, scaledEntry isq false A i i = A.vals⟦A.diagind⟦i⟧⟧ := by
    intro i hi
    have := hst i hi _ (hD.inRow hi)
    rwa [hD.diag_col i hi] at this
  have hv : ∀ i < A.nbrows, A.vals⟦A.diagind⟦i⟧⟧ ≠ 0 := by
    intro i hi
    have := hA.entry_stored hSo hi (hD.inRow hi)
    rw [hD.diag_col i hi] at this
    rw [← this]; exact hnz i hi
  obtain ⟨x', e1, e2, e3⟩ := factInitSgs_ok hA hSo hD hv hord hg
  have e4 : x' = x := by
    have : scalarFactInit A .sgs none ord ordc g = .ok x' := e1
    rw [h] at this
    injection this with this
    exact this.symm
  subst e4
  refine ⟨e2, fun i hi => ?_, fun i hi p hp hlt => ?_, fun i hi p hp hlt => ?_⟩
  · have hp := hD.inRow hi
    rw [e3 _ (hA.lt_nnz hi hp.2), hA.rowOf_eq hi hp, hD.diag_col i hi, if_neg (lt_irrefl _), hdg i hi]
  · rw [e3 _ (hA.lt_nnz hi hp.2), hA.rowOf_eq hi hp, if_neg (by omega), hst i hi p hp]
  · have hcn := hA.col_lt p (hA.lt_nnz hi hp.2)
    rw [e3 _ (hA.lt_nnz hi hp.2), hA.rowOf_eq hi hp, if_pos hlt, hst i hi p hp, hdg _ hcn, ← abs_mul, mul_assoc, inv_mul_cancel₀ (hv _ hcn), mul_one]

/-- **C99** The guess of the types "original" and "zero" (which the code treats alike) is safe if no diagonal entry of the scaled matrix is larger than 1; with the scaling of the code they are all 1. -/
theorem safeGuess_original (hA : A.Full) (hSo : A.Sorted) (hD : A.HasDiag) (ho : ScaleIs isq us A o) (hone : ∀ i < A.nbrows, |scaledEntry isq us A i i| ≤ 1)
    (hord : ord.Perm (List.range A.nbrows)) (hordc : ordc.Perm (List.range A.browptr⟦A.nbrows⟧)) (hg : g.length = A.browptr⟦A.nbrows⟧)
    {ft : FactInit} (hft : ft = .original ∨ ft = .zero) (h : scalarFactInit A ft o ord ordc g = .ok x) : SafeGuess A (scaledEntry isq us A) x := by
  have key : x.length = A.browptr⟦A.nbrows⟧ ∧ ∀ p < A.browptr⟦A.nbrows⟧, x⟦p⟧ = initVal A o p := by
    rcases hft with rfl | rfl
    · obtain ⟨x', e1, e2⟩ := factInitOriginal_ok hA o ho.length hord hordc hg
      have : scalarFactInit A .original o ord ordc g = .ok x' := e1
      rw [h] at this
      injection this with this
      rw [this]; exact e2
    · unfold scalarFactInit at h
      cases hc : parCells A ordc (fun i ilu => wr ilu i 0) g with
      | error e => rw [hc] at h; cases h
      | ok g' =>
        simp only [hc, ok_bind] at h
        have hg' : g'.length = A.browptr⟦A.nbrows⟧ := by
          have := Post.parCells (A := A) (ord := ordc) (body := fun i ilu => wr ilu i 0) (I := fun s : List K => s.length = A.browptr⟦A.nbrows⟧) hg
            (fun i s hs => Post.wr_length hs)
          exact this g' hc
        obtain ⟨x', e1, e2⟩ := factInitOriginal_ok hA o ho.length hord hordc hg'
        rw [h] at e1
        injection e1 with e1
        rw [e1]; exact e2
  have hx : ∀ i < A.nbrows, ∀ p, A.InRow i p → x⟦p⟧ = scaledEntry isq us A i A.bcolind⟦p⟧ := by
    intro i hi p hp
    have hpn := hA.lt_nnz hi hp.2
    rw [key.2 p hpn, ho.initVal hA hSo hpn, hA.rowOf_eq hi hp]
  refine ⟨key.1, fun i hi => ?_, fun i hi p hp _ => ?_, fun i hi p hp _ => ?_⟩
  · have := hx i hi _ (hD.inRow hi)
    rwa [hD.diag_col i hi] at this
  · rw [hx i hi p hp]
  · rw [hx i hi p hp]
    exact mul_le_of_le_one_right (abs_nonneg _) (hone _ (hA.col_lt p (hA.lt_nnz hi hp.2)))

/-- **C99** for the accesses of the threads, the matrix before scaling, and the guesses of the code: `s` asynchronous sweeps in which no job begins before all jobs of the sweep `L` before have ended. -/
theorem async_ilu_few_sweeps_exec (hA : A.Full) (hSo : A.Sorted) (hD : A.HasDiag) {pos : ILUPos} (hpos : computeILUPositions A = .ok pos) (ho : ScaleIs isq us A o)
    {d : Nat → K} {rho : K} (hdom : WDominant A.nbrows A.entry d rho) (hisq : us = true → ∀ i < A.nbrows, isq (A.entry i i) ≠ 0)
    (h0 : 0 ≤ rho) {q : K} (hq : rho < q) (hq1 : q ≤ 1) {ex : List K} (hl : ex.length = A.browptr⟦A.nbrows⟧) (he : ExactILU A (scaledEntry isq us A) ex)
    (hord : ord.Perm (List.range A.nbrows)) (hordc : ordc.Perm (List.range A.browptr⟦A.nbrows⟧)) (hg : g.length = A.browptr⟦A.nbrows⟧)
    {ft : FactInit} (hft : ft = .sgs ∧ us = false ∨ (ft = .original ∨ ft = .zero) ∧ ∀ i < A.nbrows, |scaledEntry isq us A i i| ≤ 1)
    (h : scalarFactInit A ft o ord ordc g = .ok x) {L s k : Nat} (hL : 1 ≤ L) (hk : 1 ≤ k) (hs : k * (2 * L - 1) ≤ s) {x' : List K}
    (hrun : AsyncExec (Lag A.browptr⟦A.nbrows⟧ L) A.browptr⟦A.nbrows⟧ (s * A.browptr⟦A.nbrows⟧) (iluCompP A (scalarScale? o) pos) x x') :
    ∀ i < A.nbrows,
      ∑ j ∈ range A.nbrows, |upperFactor A x' i j - upperFactor A ex i j| * (d j / |scaleFac isq us A j|) ≤
        2 * (q * (q + rho) / (q - rho)) * q ^ k * (|scaledEntry isq us A i i| * (d i / |scaleFac isq us A i|)) ∧
      ∑ j ∈ range A.nbrows, |lowerFactor A x' i j - lowerFactor A ex i j| * (|scaledEntry isq us A j j| * (d j / |scaleFac isq us A j|)) ≤
        2 * (q * (q + rho) ^ 2 / (q - rho) ^ 2) * q ^ k * (|scaledEntry isq us A i i| * (d i / |scaleFac isq us A i|)) := by
  have hx : SafeGuess A (scaledEntry isq us A) x := by
    rcases hft with ⟨rfl, rfl⟩ | ⟨hft, hone⟩
    · have : o = none := by simpa [ScaleIs] using ho
      subst this
      exact safeGuess_sgs hA hSo hD hdom.diag hord hg h
    · exact safeGuess_original hA hSo hD ho hone hord hordc hg hft h
  have hscal : Scales A (scalarScale? o) (scaledEntry isq us A) := by
    intro i hi p hp
    have := ho.scalOk hA hSo p (hA.lt_nnz hi hp.2)
    dsimp only at this
    rw [hA.rowOf_eq hi hp] at this
    exact this
  exact (async_ilu_few_sweeps hA hSo hD hpos hscal (hdom.scaled hisq) (fun i hi j _ hst => by
    unfold scaledEntry
    rw [hA.entry_unstored hi hst, mul_zero, zero_mul]) h0 hq hq1 hl he hx
    (hrun.rounds (isKernel_ilu hA hSo hD hpos) hx.len hL hk fun _ => hs)).2

/-- **C99** for the accesses of the threads: the pivots of all executions, whatever the order between the sweeps. -/
theorem async_ilu_pivots_exec (hA : A.Full) (hSo : A.Sorted) (hD : A.HasDiag) {scal : Nat → Nat → K → C K} {pos : ILUPos} {S : Nat → Nat → K} {d : Nat → K} {rho : K}
    (hpos : computeILUPositions A = .ok pos) (hscal : Scales A scal S) (hS : WDominant A.nbrows S d rho)
    (hz : ∀ i < A.nbrows, ∀ j < A.nbrows, (∀ p, A.InRow i p → A.bcolind⟦p⟧ ≠ j) → S i j = 0) (h0 : 0 ≤ rho) (h1 : rho < 1) (hx : SafeGuess A S x)
    {G : Nat → Nat → Prop} {s : Nat} {x' : List K}
    (h : AsyncExec G A.browptr⟦A.nbrows⟧ (s * A.browptr⟦A.nbrows⟧) (iluCompP A scal pos) x x') :
    ∀ i < A.nbrows, (1 - rho) * |S i i| ≤ |upperFactor A x' i i| := by
  obtain ⟨log, e1, -, rfl⟩ := async_exec_nowait (isKernel_ilu hA hSo hD hpos) hx.len h
  rw [hx.len] at e1
  exact (async_ilu_pivots_bounded hA hSo hD hpos hscal hS hz h0 h1 hx e1).1

end guess

/-! ### Unsafe guesses -/

/-- The dominant matrix `[4 2; 2 4]`. -/
def exD2 : SR ℚ := { exA2 with vals := [4, 2, 2, 4] }

theorem exD2_full : exD2.Full := by constructor <;> decide
theorem exD2_sorted : exD2.Sorted := SR.sorted_of_check (by decide)
theorem exD2_diag : exD2.HasDiag := by constructor <;> decide
theorem exD2_pos : computeILUPositions exD2 = .ok ⟨[2], [1], [0, 0, 0, 0, 1]⟩ := by decide
theorem exD2_dom : WDominant 2 exD2.entry (fun _ => (1 : ℚ)) (1/2) := by
  constructor <;> decide +kernel

/-- **C99** The guess of the type "original" is not safe without scaling: for the diagonally dominant matrix `[4 2; 2 4]` there is an execution of one sweep, and without order between the sweeps one of any number `s` of
sweeps, that ends with a zero pivot; the application then divides by zero. From the guess of the type "sgs" every execution ends with pivots of at least 2. -/
theorem async_ilu_original_unsafe (s : Nat) (hs : 1 ≤ s) :
    ∃ pos x x', WDominant 2 exD2.entry (fun _ => 1) (1/2) ∧ computeILUPositions exD2 = .ok pos ∧
      scalarFactInit exD2 .original none [0, 1] [0, 1, 2, 3] [0, 0, 0, 0] = .ok x ∧
      AsyncExec (Lag 4 s) 4 (s * 4) (iluCompP exD2 (scalarScale? none) pos) x x' ∧ upperFactor exD2 x' 1 1 = 0 ∧
      (∀ (b : List ℚ) (z : Nat → C ℚ), upperRow exD2 x' b 1 z = .error .divzero) ∧
      ∃ y, scalarFactInit exD2 .sgs none [0, 1] [0, 1, 2, 3] [0, 0, 0, 0] = .ok y ∧
        ∀ G y', AsyncExec G 4 (s * 4) (iluCompP exD2 (scalarScale? none) pos) y y' → ∀ i < 2, 2 ≤ |upperFactor exD2 y' i i| := by
  have hv : ∀ i < 4, iluComp exD2 (scalarScale? none) ⟨[2], [1], [0, 0, 0, 0, 1]⟩ i (readView 4 (get0 [4, 2, 2, 4])) = .ok ([4, 2, 1/2, 0] : List ℚ)⟦i⟧ := by decide +kernel
  refine ⟨_, [4, 2, 2, 4], [4, 2, 1/2, 0], exD2_dom, exD2_pos, by decide +kernel, ?_, by decide +kernel, fun b z => ?_, [4, 2, 1/2, 4], by decide +kernel, fun G y' h i hi => ?_⟩
  · refine async_exec_initial (n := 4) (m₀ := [4, 2, 2, 4]) (e := [4, 2, 1/2, 0]) (evals_iluCompP exD2 (scalarScale? none) _) rfl rfl hs hv fun q hq q' h => ?_
    unfold Lag at h
    omega
  · simp [upperRow, exD2, exA2, rd, pinv]
  · have hsc : Scales exD2 (scalarScale? none) (scaledEntry id false exD2) := by
      intro i hi p hp
      have := (show ScaleIs id false exD2 none from rfl).scalOk exD2_full exD2_sorted p (exD2_full.lt_nnz hi hp.2)
      dsimp only at this
      rw [exD2_full.rowOf_eq hi hp] at this
      exact this
    have hy : SafeGuess exD2 (scaledEntry id false exD2) [4, 2, 1/2, 4] :=
      safeGuess_sgs (ord := [0, 1]) (ordc := [0, 1, 2, 3]) (g := [0, 0, 0, 0]) exD2_full exD2_sorted exD2_diag (by decide +kernel) (by decide) (by decide) (by decide +kernel)
    have hw := WDominant.scaled (A := exD2) (isq := id) (us := false) exD2_dom (by decide)
    have := async_ilu_pivots_exec exD2_full exD2_sorted exD2_diag exD2_pos hsc hw (fun i hi j _ hst => by
      unfold scaledEntry
      rw [exD2_full.entry_unstored hi hst, mul_zero, zero_mul]) (by norm_num) (by norm_num) hy h i hi
    refine le_trans (le_of_eq ?_) this
    have : i = 0 ∨ i = 1 := by omega
    rcases this with rfl | rfl <;> decide +kernel

theorem exTri_ilupos : computeILUPositions exTri = .ok ⟨[2, 5], [1, 4], [0, 0, 0, 0, 1, 1, 1, 2]⟩ := by decide

/-- Non-vacuity of `async_ilu_few_sweeps_exec`: six sweeps with `L = 2` on a matrix of order 3 that is dominant in the weights 3, 4, 3. -/
example : ∃ x x', scalarFactInit exTri .sgs none [2, 0, 1] [0, 1, 2, 3, 4, 5, 6] [9, 9, 9, 9, 9, 9, 9] = .ok x ∧
    AsyncExec (Lag 7 2) 7 (6 * 7) (iluCompP exTri (scalarScale? none) ⟨[2, 5], [1, 4], [0, 0, 0, 0, 1, 1, 1, 2]⟩) x x' ∧
    ∀ i < 3, ∑ j ∈ range 3, |upperFactor exTri x' i j - upperFactor exTri exTriFac i j| * (([3, 4, (3 : ℚ)])⟦j⟧ / |scaleFac id false exTri j|) ≤
      2 * (7/8 * (7/8 + 3/4) / (7/8 - 3/4)) * (7/8) ^ 2 * (|scaledEntry id false exTri i i| * (([3, 4, (3 : ℚ)])⟦i⟧ / |scaleFac id false exTri i|)) := by
  have ho : ScaleIs id false exTri none := rfl
  have hsc : Scales exTri (scalarScale? none) (scaledEntry id false exTri) := by
    intro i hi p hp
    have := ho.scalOk exTri_full exTri_sorted p (exTri_full.lt_nnz hi hp.2)
    dsimp only at this
    rw [exTri_full.rowOf_eq hi hp] at this
    exact this
  obtain ⟨k, ⟨log, ps⟩, -, h1, h2⟩ := (async_ilu_exec_terminates (s := 6) (x := [2, -1, -1/2, 2, -1, -1/2, 2]) exTri_full exTri_sorted exTri_diag exTri_ilupos hsc
    (lag_lt (n := 7) (L := 2) (by decide)) rfl (.refl _)).2
  have h : AsyncExec (Lag 7 2) 7 (6 * 7) (iluCompP exTri (scalarScale? none) ⟨[2, 5], [1, 4], [0, 0, 0, 0, 1, 1, 1, 2]⟩) [2, -1, -1/2, 2, -1, -1/2, 2] _ :=
    ⟨k, log, ps, h1, h2, rfl⟩
  have hg : scalarFactInit exTri .sgs none [2, 0, 1] [0, 1, 2, 3, 4, 5, 6] [9, 9, 9, 9, 9, 9, 9] = .ok [2, -1, -1/2, 2, -1, -1/2, 2] := by decide +kernel
  exact ⟨_, _, hg, h, fun i hi => (async_ilu_few_sweeps_exec (q := 7/8) exTri_full exTri_sorted exTri_diag exTri_ilupos ho exTri_wdominant (by decide) (by norm_num) (by norm_num) (by norm_num)
    (by decide) (exTri_exact id) (by decide) (by decide) rfl (.inl ⟨rfl, rfl⟩) hg (L := 2) (k := 2) (by decide) (by decide) (by decide) h i hi).1⟩

end Blasted
