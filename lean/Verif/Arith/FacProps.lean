import Verif.Arith.MatVecLemmas
import Verif.ILU.AsyncProps

/-!
# The ILU(0) factorization, in an arbitrary arithmetic (C62)

Scalars and blocks: `R` are the values, `scal` the scaling statement. Nothing is assumed about the operations.
-/

namespace Blasted

variable {R : Type} [Zero R] [Sub R] [Mul R] [PInvOp R] {A : SR R} {scal : Nat → Nat → R → C R} {pos : ILUPos} {mix : Set R → Set R}

/-- What the code computes for the entry `p` of row `i` when the scaled matrix entry is `T` and the factor array is read as `g`. -/
def facAny {V : Type} (A : SR V) (pos : ILUPos) (T : R) (g : Nat → R) (i p : Nat) : C R :=
  if A.bcolind⟦p⟧ < i then pdiv (subUp (fun t => g pos.lowerp⟦t⟧ * g pos.upperp⟦t⟧) pos.posptr⟦p⟧ pos.posptr⟦p + 1⟧ T) (g A.diagind⟦A.bcolind⟦p⟧⟧)
  else .ok (subUp (fun t => g pos.lowerp⟦t⟧ * g pos.upperp⟦t⟧) pos.posptr⟦p⟧ pos.posptr⟦p + 1⟧ T)

theorem iluUpd_any (hA : A.Full) (hS : A.Sorted) (hD : A.HasDiag) (hpos : ILUPosOk A pos) {T : R} {i p : Nat}
    (hi : i < A.nbrows) (hp : A.InRow i p) (hT : scal i A.bcolind⟦p⟧ A.vals⟦p⟧ = .ok T)
    {r : Nat → C R} {g : Nat → R} (hr : ∀ q < p, r q = .ok (g q)) :
    iluUpd A scal pos i p r = facAny A pos T g i p := by
  have hpn := hA.lt_nnz hi hp.2
  have h1 := hA.ind_len
  have h2 := hA.val_len
  have h3 := hpos.ptr_len
  have h4 := hD.diag_len
  unfold iluUpd facAny
  rw [rd_eq (by omega), ok_bind, rd_eq (by omega), ok_bind, hT, ok_bind, rd_eq (by omega), ok_bind, rd_eq (by omega), ok_bind]
  rw [forRange_foldl (g := fun s t => s - g pos.lowerp⟦t⟧ * g pos.upperp⟦t⟧) (fun t ht1 ht2 s => by
    obtain ⟨h5, h6, h7, h8⟩ := hpos.before hA hS hi hp ht1 ht2
    rw [rd_eq h7, ok_bind, rd_eq h8, ok_bind, hr _ h5, ok_bind, hr _ h6, ok_bind]) T, ok_bind]
  have hc := hA.col_lt p hpn
  by_cases hlow : A.bcolind⟦p⟧ < i
  · rw [if_pos hlow, if_pos hlow, rd_eq (by omega), ok_bind, hr _ (diag_before hA hD hi hp hlow), ok_bind]
    rfl
  · rw [if_neg hlow, if_neg hlow]; rfl

/-- The value computed for an entry depends only on entries at the ends of shorter chains. -/
theorem iluComp_rank (hA : A.Full) (hS : A.Sorted) (hD : A.HasDiag) (hpos : ILUPosOk A pos) {p : Nat} (hp : p < A.browptr⟦A.nbrows⟧)
    {r r' : Nat → C R} (h : ∀ q < A.browptr⟦A.nbrows⟧, iluRank A q < iluRank A p → r q = r' q) : iluComp A scal pos p r = iluComp A scal pos p r' := by
  obtain ⟨hi, hrow⟩ := hA.rowOf_spec hp
  have h1 := hA.ind_len
  have h2 := hA.val_len
  have h3 := hpos.ptr_len
  have h4 := hD.diag_len
  unfold iluComp iluUpd
  rw [rd_eq (by omega), ok_bind, ok_bind, rd_eq (by omega), ok_bind, ok_bind]
  cases scal (A.rowOf p) A.bcolind⟦p⟧ A.vals⟦p⟧ with
  | error e => rfl
  | ok T =>
    rw [ok_bind, ok_bind, rd_eq (by omega), ok_bind, ok_bind, rd_eq (by omega), ok_bind, ok_bind]
    rw [forRange_congr (body' := fun k sum => do
      let l ← rd pos.lowerp k
      let u ← rd pos.upperp k
      let a ← r' l
      let b ← r' u
      .ok (sum - a * b)) (by
      intro t ht1 ht2 s
      obtain ⟨-, -, h7, h8⟩ := hpos.before hA hS hi hrow ht1 ht2
      obtain ⟨k, hk, g3, g4, g5, g6⟩ := hpos.sound _ hi p hrow t ht1 ht2
      have hki : k < A.rowOf p := lt_of_lt_of_le hk (min_le_left _ _)
      have hkj : k < A.bcolind⟦p⟧ := lt_of_lt_of_le hk (min_le_right _ _)
      have hkn : k < A.nbrows := by omega
      have r1 : iluRank A pos.lowerp⟦t⟧ < iluRank A p := by
        unfold iluRank
        rw [hA.rowOf_eq hi g3, g4, if_pos hki]
        split <;> omega
      have r2 : iluRank A pos.upperp⟦t⟧ < iluRank A p := by
        unfold iluRank
        rw [hA.rowOf_eq hkn g5, g6, if_neg (by omega)]
        split <;> omega
      rw [rd_eq h7, ok_bind, ok_bind, rd_eq h8, ok_bind, ok_bind, h _ (hA.lt_nnz hi g3.2) r1, h _ (hA.lt_nnz hkn g5.2) r2])]
    by_cases hlow : A.bcolind⟦p⟧ < A.rowOf p
    · have hc := hA.col_lt p hp
      have hdr := hD.inRow hc
      have r3 : iluRank A A.diagind⟦A.bcolind⟦p⟧⟧ < iluRank A p := by
        unfold iluRank
        rw [hA.rowOf_eq hc hdr, hD.diag_col _ hc, if_neg (by omega), if_pos hlow]
        omega
      simp only [if_pos hlow]
      rw [rd_eq (by omega)]
      simp only [ok_bind]
      rw [h _ (hA.lt_nnz hc hdr.2) r3]
    · simp only [if_neg hlow]

theorem iluSweeps_fixed (hA : A.Full) (hS : A.Sorted) (hD : A.HasDiag) (hpos : ILUPosOk A pos) {k : Nat} (hk : 1 ≤ k) {x0 ex : List R}
    (hl0 : x0.length = A.browptr⟦A.nbrows⟧) (hseq : iluSweeps A scal pos k x0 = .ok ex) :
    ex.length = A.browptr⟦A.nbrows⟧ ∧ ∀ p < A.browptr⟦A.nbrows⟧, iluComp A scal pos p (rd ex) = .ok ex⟦p⟧ := by
  rw [iluSweeps_eq hA, sweepsUp_eq (fun p hp => iluComp_dep hA hS hD hpos scal hp) hl0 hk] at hseq
  exact sweepUp_sound (fun p hp => iluComp_dep hA hS hD hpos scal hp) hl0 hseq

/-- **C62** Sequential factorization: neither the initial guess nor the number of sweeps has an influence on the result. -/
theorem ilu_sweeps_same_bits (hA : A.Full) (hS : A.Sorted) (hD : A.HasDiag) (hpos : computeILUPositions A = .ok pos)
    {k k' : Nat} (hk : 1 ≤ k) (hk' : 1 ≤ k') {x x' ex : List R} (hl : x.length = A.browptr⟦A.nbrows⟧) (hl' : x'.length = A.browptr⟦A.nbrows⟧)
    (hseq : iluSweeps A scal pos k x = .ok ex) : iluSweeps A scal pos k' x' = .ok ex := by
  obtain ⟨pos', h1, hposOk⟩ := compute_ILU_positions_correct A hA hS hD
  rw [hpos] at h1; cases h1
  obtain ⟨h1, h2⟩ := iluSweeps_fixed hA hS hD hposOk hk hl hseq
  rw [iluSweeps_eq hA, sweepsUp_eq (fun p hp => iluComp_dep hA hS hD hposOk scal hp) hl' hk']
  exact sweepUp_complete (fun p hp => iluComp_dep hA hS hD hposOk scal hp) hl' h1 h2

/-- **C62** Asynchronous factorization: after `2n - 1` or more overlapping rounds, each updating every entry at least once and reading values written in the round or the one before, the factors
are those of the sequential factorization, bit for bit, whatever the initial guess, the schedule and the staleness of what was read. -/
theorem async_ilu_same_bits (hm : MixOk mix) (hA : A.Full) (hS : A.Sorted) (hD : A.HasDiag) (hpos : computeILUPositions A = .ok pos)
    {ks : Nat} (hks : 1 ≤ ks) {x0 ex : List R} (hl0 : x0.length = A.browptr⟦A.nbrows⟧) (hseq : iluSweeps A scal pos ks x0 = .ok ex)
    {x : List R} (hl : x.length = A.browptr⟦A.nbrows⟧) {k : Nat} (hk : 2 * A.nbrows - 1 ≤ k) {log last : List (Nat × R)}
    (h : ARounds (iluComp A scal pos) mix x k log last) : applyLog x log = ex := by
  obtain ⟨pos', h1, hposOk⟩ := compute_ILU_positions_correct A hA hS hD
  rw [hpos] at h1; cases h1
  obtain ⟨hle, hfix⟩ := iluSweeps_fixed hA hS hD hposOk hks hl0 hseq
  refine ext_get0 (by simp; omega) fun p hp => ?_
  rw [applyLog_length, hl] at hp
  have hmem := h.mem_last (memOf_get0 (x := applyLog x log) (i := p) (by simp; omega))
  refine h.exact hm (e := get0 ex) (rank := iluRank A) ?_ _ hmem ?_
  · intro q hq view hview v hv
    rw [hl] at hq hv hview
    refine hv.eq ?_
    rw [← hfix q hq]
    exact iluComp_rank hA hS hD hposOk hq fun j hj hjr => by
      unfold readView
      rw [if_pos hj, hview j hj hjr, rd_eq (by omega)]
  · exact lt_of_lt_of_le (iluRank_lt hA hp) hk

/-- **C62** The factors of the sequential factorization stay as they are, bit for bit, in every asynchronous execution that begins with them. -/
theorem async_ilu_stays_same_bits (hm : MixOk mix) (hA : A.Full) (hS : A.Sorted) (hD : A.HasDiag) (hpos : computeILUPositions A = .ok pos)
    {ks : Nat} (hks : 1 ≤ ks) {x0 ex : List R} (hl0 : x0.length = A.browptr⟦A.nbrows⟧) (hseq : iluSweeps A scal pos ks x0 = .ok ex)
    {log : List (Nat × R)} (h : ALog (iluComp A scal pos) mix ex.length (memOf ex) log) : applyLog ex log = ex := by
  obtain ⟨pos', h1, hposOk⟩ := compute_ILU_positions_correct A hA hS hD
  rw [hpos] at h1; cases h1
  obtain ⟨hle, hfix⟩ := iluSweeps_fixed hA hS hD hposOk hks hl0 hseq
  have hw : ∀ w ∈ log, w.2 = ex⟦w.1⟧ := by
    refine h.exact_of_exact hm (e := get0 ex) ?_ (fun w hw _ => memOf_eq hw)
    intro p hp view hview v hv
    refine hv.eq ?_
    rw [← hfix p (by omega)]
    exact iluComp_rank hA hS hD hposOk (by omega) fun j hj _ => by
      unfold readView
      rw [if_pos (by omega), hview j (by omega), rd_eq (by omega)]
  refine ext_get0 (by simp) fun p hp => ?_
  rw [applyLog_length] at hp
  have := memOf_get0 (x := applyLog ex log) (i := p) (by simpa using hp)
  rcases mem_applyLog this with h2 | ⟨h2, _⟩
  · exact hw _ h2
  · exact memOf_eq h2

end Blasted
