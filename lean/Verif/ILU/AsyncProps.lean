import Verif.ILU.ScalarProps

/-!
# Asynchronous ILU(0) (C21, C22)

For scalars and for blocks: `R` is the ring of the values, `scal` the scaling statement, which
turns the matrix into `S` (`hscal`; met by the code's scalings, see `ScaleIs.scalOk` and the block
counterpart). Executions are those of `Async/Model.lean` for the component update `iluComp`.
-/

namespace Blasted

open Finset

variable {R : Type} [Ring R] [PInv R] {A : SR R} {scal : Nat → Nat → R → C R} {pos : ILUPos}
  {S : Nat → Nat → R} {mix : Set R → Set R}

/-- `scal` computes the matrix `S` from the stored values. -/
def Scales (A : SR R) (scal : Nat → Nat → R → C R) (S : Nat → Nat → R) : Prop :=
  ∀ i < A.nbrows, ∀ p, A.InRow i p → scal i A.bcolind⟦p⟧ A.vals⟦p⟧ = .ok (S i A.bcolind⟦p⟧)

omit [PInv R] in
theorem Scales.scalOk (hA : A.Full) (h : Scales A scal S) :
    ScalOk A scal (fun p => S (A.rowOf p) A.bcolind⟦p⟧) := by
  intro p hp
  have := hA.rowOf_spec hp
  exact h _ this.1 p this.2

omit [PInv R] in
theorem exact_pos (hA : A.Full) {ilu : List R} (he : ExactILU A S ilu) (hp : UsedPivotsOk A ilu) :
    ∀ p < A.browptr⟦A.nbrows⟧, luProd A ilu (A.rowOf p) A.bcolind⟦p⟧ = S (A.rowOf p) A.bcolind⟦p⟧ ∧
      (A.bcolind⟦p⟧ < A.rowOf p → IsUnit (upperFactor A ilu A.bcolind⟦p⟧ A.bcolind⟦p⟧)) := by
  intro p hpn
  have := hA.rowOf_spec hpn
  exact ⟨he _ this.1 p this.2, hp _ this.1 p this.2⟩

/-- The length of the chain of dependencies that ends in entry `p`. -/
def iluRank {V : Type} (A : SR V) (p : Nat) : Nat :=
  if A.bcolind⟦p⟧ < A.rowOf p then 2 * A.bcolind⟦p⟧ + 1 else 2 * A.rowOf p

omit [Ring R] [PInv R] in
theorem iluRank_lt {V : Type} {A : SR V} {m : Nat} (hA : A.Full m) {p : Nat}
    (hp : p < A.browptr⟦A.nbrows⟧) : iluRank A p < 2 * A.nbrows - 1 := by
  have h1 := (hA.rowOf_spec hp).1
  unfold iluRank
  split <;> omega

/-- An update that reads exact values for the entries of lower rank yields the exact value. -/
theorem iluComp_exact (hA : A.Full) (hS : A.Sorted) (hD : A.HasDiag) (hpos : ILUPosOk A pos)
    (hscal : Scales A scal S) {ex : List R} (hl : ex.length = A.browptr⟦A.nbrows⟧)
    (he : ExactILU A S ex) (hpv : UsedPivotsOk A ex) {p : Nat} (hp : p < A.browptr⟦A.nbrows⟧)
    {view : Nat → R}
    (hv : ∀ q < A.browptr⟦A.nbrows⟧, iluRank A q < iluRank A p → view q = ex⟦q⟧) :
    iluComp A scal pos p (readView A.browptr⟦A.nbrows⟧ view) = .ok ex⟦p⟧ := by
  obtain ⟨hi, hrow⟩ := hA.rowOf_spec hp
  have hfix := (iluComp_fix_iff hA hS hD hpos (hscal.scalOk hA) hl hp).mpr (exact_pos hA he hpv p hp)
  rw [iluComp_view hA hS hD hpos (hscal.scalOk hA) hp (g := get0 ex) (fun q hq => rd_eq (by omega))] at hfix
  rw [iluComp_view hA hS hD hpos (hscal.scalOk hA) hp (g := view) (fun q hq => by
    unfold readView; rw [if_pos (by omega)])]
  rw [← hfix]
  have hsum : posSum pos view p = posSum pos (get0 ex) p := by
    unfold posSum
    refine sum_congr rfl fun t ht => ?_
    rw [mem_Ico] at ht
    obtain ⟨k, hk, h3, h4, h5, h6⟩ := hpos.sound _ hi p hrow t ht.1 ht.2
    have hki : k < A.rowOf p := lt_of_lt_of_le hk (min_le_left _ _)
    have hkj : k < A.bcolind⟦p⟧ := lt_of_lt_of_le hk (min_le_right _ _)
    have hkn : k < A.nbrows := by omega
    have r1 : iluRank A pos.lowerp⟦t⟧ < iluRank A p := by
      unfold iluRank
      rw [hA.rowOf_eq hi h3, h4, if_pos hki]
      split <;> omega
    have r2 : iluRank A pos.upperp⟦t⟧ < iluRank A p := by
      unfold iluRank
      rw [hA.rowOf_eq hkn h5, h6, if_neg (by omega)]
      split <;> omega
    rw [hv _ (hA.lt_nnz hi h3.2) r1, hv _ (hA.lt_nnz hkn h5.2) r2]
  unfold facVal
  rw [hsum]
  by_cases hlow : A.bcolind⟦p⟧ < A.rowOf p
  · have hc := hA.col_lt p hp
    have hdr := hD.inRow hc
    have r3 : iluRank A A.diagind⟦A.bcolind⟦p⟧⟧ < iluRank A p := by
      unfold iluRank
      rw [hA.rowOf_eq hc hdr, hD.diag_col _ hc, if_neg (by omega), if_pos hlow]
      omega
    rw [if_pos hlow, if_pos hlow, hv _ (hA.lt_nnz hc hdr.2) r3]
  · rw [if_neg hlow, if_neg hlow]

/-- **C21.** Exact factors are a fixed point of every asynchronous execution: starting from factors with
`L U = S` on the pattern and invertible pivots, whatever the order of the updates, and whatever (stale) values
they read, every value written is the one already there. -/
theorem async_ilu_exact_is_fixed (hm : MixOk mix) (hA : A.Full) (hS : A.Sorted) (hD : A.HasDiag)
    (hpos : computeILUPositions A = .ok pos) (hscal : Scales A scal S) {ex : List R}
    (hl : ex.length = A.browptr⟦A.nbrows⟧) (he : ExactILU A S ex) (hpv : UsedPivotsOk A ex)
    {log : List (Nat × R)} (h : ALog (iluComp A scal pos) mix ex.length (memOf ex) log) :
    (∀ w ∈ log, w.2 = ex⟦w.1⟧) ∧ applyLog ex log = ex := by
  obtain ⟨pos', h1, hposOk⟩ := compute_ILU_positions_correct A hA hS hD
  rw [hpos] at h1; cases h1
  have hw : ∀ w ∈ log, w.2 = ex⟦w.1⟧ := by
    refine h.exact_of_exact hm (e := get0 ex) ?_ (fun w hw _ => memOf_eq hw)
    intro p hp view hview v hv
    rw [hl] at hp hv hview
    exact hv.eq (iluComp_exact hA hS hD hposOk hscal hl he hpv hp fun q hq _ => hview q hq)
  refine ⟨hw, ext_get0 (by simp) fun p hp => ?_⟩
  rw [applyLog_length] at hp
  have := memOf_get0 (x := applyLog ex log) (i := p) (by simpa using hp)
  rcases mem_applyLog this with h2 | ⟨h2, _⟩
  · exact hw _ h2
  · exact memOf_eq h2

/-- **C21**, converse: factors with invertible pivots that some asynchronous sweep updating every entry leaves
unchanged (no write changes a value) are exact. -/
theorem async_ilu_fixed_is_exact (hm : MixOk mix) (hA : A.Full) (hS : A.Sorted) (hD : A.HasDiag)
    (hpos : computeILUPositions A = .ok pos) (hscal : Scales A scal S) {x : List R}
    (hl : x.length = A.browptr⟦A.nbrows⟧) (hpv : UsedPivotsOk A x)
    {log : List (Nat × R)} (h : ALog (iluComp A scal pos) mix x.length (memOf x) log)
    (hcov : Covers x.length log) (hsame : ∀ w ∈ log, w.2 = x⟦w.1⟧) : ExactILU A S x := by
  obtain ⟨pos', h1, hposOk⟩ := compute_ILU_positions_correct A hA hS hD
  rw [hpos] at h1; cases h1
  have hT := hscal.scalOk hA
  have key : ∀ w ∈ log, luProd A x (A.rowOf w.1) A.bcolind⟦w.1⟧ = S (A.rowOf w.1) A.bcolind⟦w.1⟧ := by
    clear hcov
    induction h with
    | nil => simp
    | @write log p v view prev hview hp hupd ih =>
      intro w hw
      rcases List.mem_append.mp hw with hw | hw
      · exact ih (fun w hw => hsame w (by simp [hw])) w hw
      · rw [List.mem_singleton.mp hw]
        have hv : v = x⟦p⟧ := hsame (p, v) (by simp)
        rw [hl] at hp hupd hview
        obtain ⟨hi, hrow⟩ := hA.rowOf_spec hp
        have hvw : ∀ q < A.browptr⟦A.nbrows⟧, view q = x⟦q⟧ := by
          intro q hq
          refine hm.single (fun u hu => ?_) (hview q hq)
          rcases hu with hu | hu
          · exact memOf_eq (w := (q, u)) hu
          · exact hsame (q, u) (by simp [hu])
        have hval := iluComp_view hA hS hD hposOk hT hp (g := view)
          (r := readView A.browptr⟦A.nbrows⟧ view) (fun q hq => by
            unfold readView; rw [if_pos (by omega)])
        have hval' := iluComp_view hA hS hD hposOk hT hp (g := get0 x)
          (r := rd x) (fun q hq => rd_eq (by omega))
        have hsum : posSum pos view p = posSum pos (get0 x) p := by
          unfold posSum
          refine sum_congr rfl fun t ht => ?_
          rw [mem_Ico] at ht
          obtain ⟨k, hk, h3, h4, h5, h6⟩ := hposOk.sound _ hi p hrow t ht.1 ht.2
          have hkn : k < A.nbrows := lt_of_lt_of_le (lt_of_lt_of_le hk (min_le_left _ _)) hi.le
          rw [hvw _ (hA.lt_nnz hi h3.2), hvw _ (hA.lt_nnz hkn h5.2)]
        have hc := hA.col_lt p hp
        have heq : iluComp A scal pos p (readView A.browptr⟦A.nbrows⟧ view) =
            iluComp A scal pos p (rd x) := by
          rw [hval, hval']
          unfold facVal
          rw [hsum, hvw _ (hA.lt_nnz hc (hD.inRow hc).2)]
        rw [heq] at hupd
        refine ((iluComp_fix_iff hA hS hD hposOk hT hl hp).mp ?_).1
        rcases hupd with h2 | h2
        · rw [h2, hv]
        · exfalso
          rw [hval'] at h2
          unfold facVal at h2
          split at h2
          · rename_i hlow
            have hu := hpv _ hi p hrow hlow
            rw [upperFactor_diag hA hS hD hl hc] at hu
            obtain ⟨b, hb⟩ := PInv.pinv_unit hu
            rw [hb] at h2; cases h2
          · cases h2
  intro i hi p hp
  have hpn := hA.lt_nnz hi hp.2
  obtain ⟨v, hv⟩ := hcov p (by omega)
  have := key _ hv
  dsimp only at this
  rwa [hA.rowOf_eq hi hp] at this

/-- **C22.** After `2n - 1` or more overlapping rounds, each updating every entry at least once and
reading values written in the round or the one before, the factors are the sequential ones:
whatever the initial guess, schedule and staleness. `ex` is the result of sequential sweeps from any
initial guess. -/
theorem async_ilu_rounds_exact (hm : MixOk mix) (hA : A.Full) (hS : A.Sorted) (hD : A.HasDiag)
    (hpos : computeILUPositions A = .ok pos) (hscal : Scales A scal S)
    {ks : Nat} (hks : 1 ≤ ks) {x0 ex : List R} (hl0 : x0.length = A.browptr⟦A.nbrows⟧)
    (hseq : iluSweeps A scal pos ks x0 = .ok ex)
    {x : List R} (hl : x.length = A.browptr⟦A.nbrows⟧) {k : Nat} (hk : 2 * A.nbrows - 1 ≤ k)
    {log last : List (Nat × R)} (h : ARounds (iluComp A scal pos) mix x k log last) :
    applyLog x log = ex := by
  obtain ⟨pos', h1, hposOk⟩ := compute_ILU_positions_correct A hA hS hD
  rw [hpos] at h1; cases h1
  obtain ⟨hle, hex⟩ := iluSweeps_sound hA hS hD hposOk (hscal.scalOk hA) hks hl0 hseq
  have he : ExactILU A S ex := by
    intro i hi p hp
    have := (hex p (hA.lt_nnz hi hp.2)).1
    rwa [hA.rowOf_eq hi hp] at this
  have hpv : UsedPivotsOk A ex := by
    intro i hi p hp hlt
    have := (hex p (hA.lt_nnz hi hp.2)).2
    rw [hA.rowOf_eq hi hp] at this
    exact this hlt
  refine ext_get0 (by simp; omega) fun p hp => ?_
  rw [applyLog_length, hl] at hp
  have hmem := h.mem_last (memOf_get0 (x := applyLog x log) (i := p) (by simp; omega))
  refine h.exact hm (e := get0 ex) (rank := iluRank A) ?_ _ hmem ?_
  · intro q hq view hview v hv
    rw [hl] at hq hv hview
    exact hv.eq (iluComp_exact hA hS hD hposOk hscal hle he hpv hq hview)
  · exact lt_of_lt_of_le (iluRank_lt hA hp) hk

/-- **C22**, for sweeps completed one after another. -/
theorem async_ilu_sweeps_exact (hm : MixOk mix) (hA : A.Full) (hS : A.Sorted) (hD : A.HasDiag)
    (hpos : computeILUPositions A = .ok pos) (hscal : Scales A scal S)
    {ks : Nat} (hks : 1 ≤ ks) {x0 ex : List R} (hl0 : x0.length = A.browptr⟦A.nbrows⟧)
    (hseq : iluSweeps A scal pos ks x0 = .ok ex)
    {x x' : List R} (hl : x.length = A.browptr⟦A.nbrows⟧) {k : Nat} (hk : 2 * A.nbrows - 1 ≤ k)
    (hk0 : 1 ≤ k) (h : ASweeps (iluComp A scal pos) mix k x x') : x' = ex := by
  obtain ⟨log, last, hr, rfl⟩ := h.rounds hm hk0
  exact async_ilu_rounds_exact hm hA hS hD hpos hscal hks hl0 hseq hl hk hr

/-- The order-2 matrix `[2 1; 1 1]`. -/
def exA2 : SR ℚ :=
  { browptr := [0, 2, 4], bcolind := [0, 1, 0, 1], vals := [2, 1, 1, 1], diagind := [0, 3],
    browendptr := [2, 4], nbrows := 2, nnzb := 4, nbstored := 4 }

theorem exA2_full : exA2.Full := by constructor <;> decide
theorem exA2_sorted : exA2.Sorted := SR.sorted_of_check (by decide)
theorem exA2_diag : exA2.HasDiag := by constructor <;> decide
theorem exA2_pos : computeILUPositions exA2 = .ok ⟨[2], [1], [0, 0, 0, 0, 1]⟩ := by decide
theorem exA2_scales : Scales exA2 (scalarScale? none) exA2.entry := by
  intro i hi p hp
  rw [exA2_full.entry_stored exA2_sorted hi hp]; rfl

/-- **C22 does not hold without completed sweeps.** The sweeps of the code are `omp for ... nowait` loops: a thread
that has finished its part of a sweep goes on with the next sweep although other threads are still at
work. For every number `k` of sweeps there is an interleaving of whole-row updates (each row updated exactly `k` times,
all reads returning current values) after which the factors are not exact: the second row is updated `k`
times before the first row is updated for the first time. (With more than `k` threads this is
an execution of the program: in each sweep one thread takes the first row and is delayed.) -/
theorem async_ilu_nowait_not_exact (k : Nat) (hk : 1 ≤ k) :
    ∃ pos x x', computeILUPositions exA2 = .ok pos ∧
      forList (List.replicate k 1 ++ List.replicate k 0) (iluRow exA2 (scalarScale? none) pos) x = .ok x' ∧
      ¬ ExactILU exA2 exA2.entry x' ∧ UsedPivotsOk exA2 x' ∧
      ∃ ex, iluSweeps exA2 (scalarScale? none) pos 1 x = .ok ex ∧ x' ≠ ex := by
  refine ⟨⟨[2], [1], [0, 0, 0, 0, 1]⟩, [1, 1, 0, 0], [2, 1, 1, 0], exA2_pos, ?_, ?_, ?_, [2, 1, 1/2, 1/2],
    by decide +kernel, by decide +kernel⟩
  · set row := iluRow exA2 (scalarScale? none) ⟨[2], [1], [0, 0, 0, 0, 1]⟩ with hrow
    have e1 : row 1 [1, 1, 0, 0] = .ok [1, 1, 1, 0] := by rw [hrow]; decide +kernel
    have e2 : row 1 [1, 1, 1, 0] = .ok [1, 1, 1, 0] := by rw [hrow]; decide +kernel
    have e3 : row 0 [1, 1, 1, 0] = .ok [2, 1, 1, 0] := by rw [hrow]; decide +kernel
    have e4 : row 0 [2, 1, 1, 0] = .ok [2, 1, 1, 0] := by rw [hrow]; decide +kernel
    have rep : ∀ (i m : Nat) (y : List ℚ), row i y = .ok y → forList (List.replicate m i) row y = .ok y := by
      intro i m y h
      induction m with
      | zero => rfl
      | succ m ih => rw [List.replicate_succ, forList_cons, h, ok_bind, ih]
    obtain ⟨m, rfl⟩ : ∃ m, k = m + 1 := ⟨k - 1, by omega⟩
    rw [forList_append, List.replicate_succ, forList_cons, e1, ok_bind, rep _ _ _ e2, ok_bind,
      List.replicate_succ, forList_cons, e3, ok_bind, rep _ _ _ e4]
  · intro h
    have := h 1 (by decide) 2 (by unfold SR.InRow; decide)
    revert this
    decide +kernel
  · intro i hi p hp hlt
    have hlt2 : exA2.bcolind⟦p⟧ < 1 := by
      have : i < 2 := hi
      omega
    have : exA2.bcolind⟦p⟧ = 0 := by omega
    rw [this]
    exact IsUnit.mk0 _ (by decide +kernel)

/-- Non-vacuity: sequential sweeps on `exA2` succeed, and three (`2n - 1`) completed asynchronous sweeps, here
with the rows in reverse order and each update reading the newest values, reach the exact factors from zero. -/
example : (do
    let x ← forList [3, 2, 1, 0] (fun p x => do
      let v ← iluComp exA2 (scalarScale? none) ⟨[2], [1], [0, 0, 0, 0, 1]⟩ p (rd x)
      wr x p v) [1, 0, 0, 0]
    let x ← forList [3, 2, 1, 0] (fun p x => do
      let v ← iluComp exA2 (scalarScale? none) ⟨[2], [1], [0, 0, 0, 0, 1]⟩ p (rd x)
      wr x p v) x
    forList [3, 2, 1, 0] (fun p x => do
      let v ← iluComp exA2 (scalarScale? none) ⟨[2], [1], [0, 0, 0, 0, 1]⟩ p (rd x)
      wr x p v) x) = .ok [2, 1, 1/2, 1/2] := by
  decide +kernel

end Blasted
