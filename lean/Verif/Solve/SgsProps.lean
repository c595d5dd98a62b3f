import Verif.Solve.IluProps

/-!
# Jacobi and symmetric Gauss-Seidel preconditioners (C29, C30, C31, C52)

The statements are about a ring `R` of matrix entries and a module `M` of vector components; the scalar and block codes
are the two instances stated in the theorems with prefix `scalar_` and `block_`.
-/

namespace Blasted

open Finset

variable {V R M K : Type}

/-- Entry `(i, j)` of the matrix `(D+L) D⁻¹ (D+U)`, where `D`, `L`, `U` are the diagonal and the strictly lower and
upper triangle of `A` and `dinv` the diagonal of `D⁻¹`. -/
def sgsMat [Ring R] (A : SR R) (dinv : List R) (i j : Nat) : R :=
  ∑ k ∈ range A.nbrows, (if k ≤ i then A.entry i k else 0) * dinv⟦k⟧ * (if k ≤ j then A.entry k j else 0)

/-- `dinv` holds the two-sided inverses of the diagonal entries of `A`. -/
structure DiagInv [Ring R] (A : SR R) (dinv : List R) : Prop where
  len : dinv.length = A.nbrows
  right : ∀ i < A.nbrows, A.entry i i * dinv⟦i⟧ = 1
  left : ∀ i < A.nbrows, dinv⟦i⟧ * A.entry i i = 1

section ring
variable [Ring R] [AddCommGroup M] [Module R M] {A : SR R} {dinv : List R}

theorem lowDiag_mul (hA : A.Full) (hS : A.Sorted) (hD : A.HasDiag) {i : Nat} (hi : i < A.nbrows) (x : Nat → M) :
    ∑ k ∈ range A.nbrows, (if k ≤ i then A.entry i k else 0) • x k = lowSum A A.vals i x + A.entry i i • x i := by
  have hl : A.vals.length = A.browptr⟦A.nbrows⟧ := by have := hA.val_len; omega
  rw [← low_mul hA hS hD hl hi]
  have e : ∀ k, (if k ≤ i then A.entry i k else 0) • x k = (if k < i then facEntry A A.vals i k else 0) • x k +
      (if k = i then A.entry i i • x i else 0) := by
    intro k
    have : facEntry A A.vals i k = A.entry i k := rfl
    rw [this]
    rcases lt_trichotomy k i with h | rfl | h
    · rw [if_pos h.le, if_pos h, if_neg h.ne, add_zero]
    · rw [if_pos le_rfl, if_neg (lt_irrefl _), if_pos rfl, zero_smul, zero_add]
    · rw [if_neg (by omega), if_neg (by omega), if_neg (by omega), zero_smul, zero_add]
  rw [sum_congr rfl fun k _ => e k, sum_add_distrib, sum_ite_eq', if_pos (mem_range.mpr hi)]

theorem upDiag_mul (hA : A.Full) (hS : A.Sorted) (hD : A.HasDiag) {i : Nat} (hi : i < A.nbrows) (x : Nat → M) :
    ∑ k ∈ range A.nbrows, (if i ≤ k then A.entry i k else 0) • x k = A.entry i i • x i + upSum A A.vals i x := by
  have hl : A.vals.length = A.browptr⟦A.nbrows⟧ := by have := hA.val_len; omega
  rw [← up_mul hA hS hD hl hi]
  have e : ∀ k, (if i ≤ k then A.entry i k else 0) • x k = (if k = i then A.entry i i • x i else 0) +
      (if i < k then facEntry A A.vals i k else 0) • x k := by
    intro k
    have : facEntry A A.vals i k = A.entry i k := rfl
    rw [this]
    rcases lt_trichotomy k i with h | rfl | h
    · rw [if_neg (by omega), if_neg (by omega), if_neg (by omega), zero_smul, add_zero]
    · rw [if_pos le_rfl, if_neg (lt_irrefl _), if_pos rfl, zero_smul, add_zero]
    · rw [if_pos h.le, if_pos h, if_neg (by omega), zero_add]
  rw [sum_congr rfl fun k _ => e k, sum_add_distrib, sum_ite_eq', if_pos (mem_range.mpr hi)]

/-- Applying `(D+L) D⁻¹ (D+U)` is applying `D+U`, `D⁻¹` and `D+L` one after another. -/
theorem sgsMat_mul (hA : A.Full) (hS : A.Sorted) (hD : A.HasDiag) {i : Nat} (hi : i < A.nbrows) (z : Nat → M) :
    ∑ j ∈ range A.nbrows, sgsMat A dinv i j • z j =
      lowSum A A.vals i (fun k => dinv⟦k⟧ • ∑ j ∈ range A.nbrows, (if k ≤ j then A.entry k j else 0) • z j) +
      A.entry i i • dinv⟦i⟧ • ∑ j ∈ range A.nbrows, (if i ≤ j then A.entry i j else 0) • z j := by
  rw [← lowDiag_mul hA hS hD hi (fun k => dinv⟦k⟧ • ∑ j ∈ range A.nbrows, (if k ≤ j then A.entry k j else 0) • z j)]
  unfold sgsMat
  simp only [sum_smul]
  rw [sum_comm]
  refine sum_congr rfl fun k _ => ?_
  rw [smul_sum, smul_sum]
  refine sum_congr rfl fun j _ => ?_
  rw [smul_smul, smul_smul, mul_assoc]

/-- `z` solves `(D+L) D⁻¹ (D+U) z = r` exactly if it is the result of a forward and a backward substitution. -/
theorem sgs_iff (hA : A.Full) (hS : A.Sorted) (hD : A.HasDiag) (hI : DiagInv A dinv) {r z : Nat → M} :
    (∀ i < A.nbrows, ∑ j ∈ range A.nbrows, sgsMat A dinv i j • z j = r i) ↔
    ∃ y : Nat → M, (∀ i < A.nbrows, y i = dinv⟦i⟧ • (r i - lowSum A A.vals i y)) ∧
      ∀ i < A.nbrows, z i = y i - dinv⟦i⟧ • upSum A A.vals i z := by
  constructor
  · intro h
    refine ⟨fun k => dinv⟦k⟧ • ∑ j ∈ range A.nbrows, (if k ≤ j then A.entry k j else 0) • z j,
      fun i hi => ?_, fun i hi => ?_⟩
    · rw [← h i hi, sgsMat_mul hA hS hD hi, add_sub_cancel_left, smul_smul dinv⟦i⟧ (A.entry i i), hI.left i hi,
        one_smul]
    · dsimp only
      rw [upDiag_mul hA hS hD hi, smul_add, add_sub_cancel_right, smul_smul, hI.left i hi, one_smul]
  · rintro ⟨y, hy, hz⟩ i hi
    have hU : ∀ k < A.nbrows, dinv⟦k⟧ • ∑ j ∈ range A.nbrows, (if k ≤ j then A.entry k j else 0) • z j = y k := by
      intro k hk
      rw [upDiag_mul hA hS hD hk, smul_add, smul_smul, hI.left k hk, one_smul]
      conv_lhs => rw [hz k hk]
      rw [sub_add_cancel]
    rw [sgsMat_mul hA hS hD hi, hU i hi]
    rw [lowSum_congr hS hD hi (h := y) fun k hk hd => hU k hk]
    conv_lhs => rw [hy i hi]
    rw [smul_smul, hI.right i hi, one_smul, add_sub_cancel]

/-- The solution is unique. -/
theorem sgs_unique (hA : A.Full) (hS : A.Sorted) (hD : A.HasDiag) (hI : DiagInv A dinv) {r z z' : Nat → M}
    (h : ∀ i < A.nbrows, ∑ j ∈ range A.nbrows, sgsMat A dinv i j • z j = r i)
    (h' : ∀ i < A.nbrows, ∑ j ∈ range A.nbrows, sgsMat A dinv i j • z' j = r i) : ∀ i < A.nbrows, z i = z' i := by
  obtain ⟨y, h1, h2⟩ := (sgs_iff hA hS hD hI).mp h
  obtain ⟨y', h1', h2'⟩ := (sgs_iff hA hS hD hI).mp h'
  have hyy : ∀ i < A.nbrows, y i = y' i := by
    intro i
    induction i using Nat.strong_induction_on with
    | _ i ih =>
      intro hi
      rw [h1 i hi, h1' i hi, lowSum_congr hS hD hi fun j hj hd => ih j hd.2 hj]
  suffices H : ∀ t i, A.nbrows - 1 - i = t → i < A.nbrows → z i = z' i from fun i hi => H _ i rfl hi
  intro t
  induction t using Nat.strong_induction_on with
  | _ t ih =>
    rintro i rfl hi
    rw [h2 i hi, h2' i hi, hyy i hi, upSum_congr hA hS hD hi fun j hj hd => ih _ (by have := hd.2; omega) j rfl hj]

end ring

/-! ### Setting up the diagonal -/

section setup
variable [Ring R] [PInv R] [AddCommGroup M] [Module R M] {A : SR R} {dinv : List R}

/-- **C29**, setup: if all diagonal entries (blocks) are invertible, `compute` stores their inverses. -/
theorem jacobi_setup_correct (hA : A.Full) (hS : A.Sorted) (hD : A.HasDiag) {ord : List Nat}
    (hord : ord.Perm (List.range A.nbrows)) (hu : ∀ i < A.nbrows, IsUnit (A.entry i i)) {g : List R}
    (hg : g.length = A.nbrows) {d : Option (List R)} (hd : ∀ l, d = some l → l.length = A.nbrows) :
    ∃ dinv, jacobiCompute A ord g d = .ok dinv ∧ DiagInv A dinv := by
  have hex : ∀ i, ∃ b, i < A.nbrows → pinv (A.entry i i) = .ok b := by
    intro i
    by_cases hi : i < A.nbrows
    · obtain ⟨b, hb⟩ := PInv.pinv_unit (hu i hi)
      exact ⟨b, fun _ => hb⟩
    · exact ⟨0, fun h => absurd h hi⟩
  choose b hb using hex
  have key : ∀ l : List R, l.length = A.nbrows → ∃ dinv, jacobiSetup A ord l = .ok dinv ∧ DiagInv A dinv := by
    intro l hl
    obtain ⟨dinv, e, h1, h2⟩ := par_cells hord hl b (body := fun i dblocks => do
        let d ← rd A.diagind i
        let v ← rd A.vals d
        let w ← pinv v
        wr dblocks i w) fun i hi y hy => by
      have hlt := hA.lt_nnz hi (hD.inRow hi).2
      have h2 := hD.diag_len
      have h3 := hA.val_len
      have hent := hA.entry_stored hS hi (hD.inRow hi)
      rw [hD.diag_col i hi] at hent
      rw [rd_eq (by omega), ok_bind, rd_eq (by omega), ok_bind, ← hent, hb i hi, ok_bind, wr_eq (by omega)]
    refine ⟨dinv, e, h1, fun i hi => ?_, fun i hi => ?_⟩
    · rw [h2 i hi]; exact (PInv.pinv_ok (hb i hi)).1
    · rw [h2 i hi]; exact (PInv.pinv_ok (hb i hi)).2
  cases d with
  | none => exact key g hg
  | some l => exact key l (hd l rfl)

/-- A singular diagonal entry makes `compute` divide by zero; there is no other failure. -/
theorem jacobi_setup_divzero (hA : A.Full) (hS : A.Sorted) (hD : A.HasDiag) {ord : List Nat}
    (hord : ord.Perm (List.range A.nbrows)) {i : Nat} (hi : i < A.nbrows) (hu : ¬ IsUnit (A.entry i i)) {g : List R}
    (hg : g.length = A.nbrows) {d : Option (List R)} (hd : ∀ l, d = some l → l.length = A.nbrows) :
    jacobiCompute A ord g d = .error .divzero := by
  have key : ∀ (o : List Nat) (l : List R), l.length = A.nbrows → (∀ j ∈ o, j < A.nbrows) → i ∈ o →
      forList o (jacobiSetupRow A) l = .error .divzero := by
    intro o
    induction o with
    | nil => intro l _ _ h; simp at h
    | cons j o ih =>
      intro l hl ho hio
      have hj : j < A.nbrows := ho j (by simp)
      have hlt := hA.lt_nnz hj (hD.inRow hj).2
      have h2 := hD.diag_len
      have h3 := hA.val_len
      have hent := hA.entry_stored hS hj (hD.inRow hj)
      rw [hD.diag_col j hj] at hent
      rw [forList_cons, jacobiSetupRow, rd_eq (by omega), ok_bind, rd_eq (by omega), ok_bind, ← hent]
      rcases pinv_cases (A.entry j j) with ⟨b, e, h1, h2⟩ | ⟨e, _⟩
      · rw [e, ok_bind, wr_eq (by omega), ok_bind]
        have hne : i ≠ j := by
          rintro rfl
          exact hu ⟨⟨_, b, h1, h2⟩, rfl⟩
        exact ih _ (by simpa using hl) (fun k hk => ho k (by simp [hk])) (by
          rcases List.mem_cons.mp hio with h | h
          · exact absurd h hne
          · exact h)
      · rw [e]; rfl
  have hmem : i ∈ ord := hord.mem_iff.mpr (List.mem_range.mpr hi)
  have hlt : ∀ j ∈ ord, j < A.nbrows := fun j hj => List.mem_range.mp (hord.mem_iff.mp hj)
  cases d with
  | none => exact (parFor_eq hord _ _).trans (key ord g hg hlt hmem)
  | some l => exact (parFor_eq hord _ _).trans (key ord l (hd l rfl) hlt hmem)

omit [Module R M] in
/-- `compute` of the SGS preconditioners prepares the same diagonal, and a work vector of the right length. -/
theorem sgs_setup_correct (hA : A.Full) (hS : A.Sorted) (hD : A.HasDiag) {ord ord2 : List Nat}
    (hord : ord.Perm (List.range A.nbrows)) (hord2 : ord2.Perm (List.range A.nbrows))
    (hu : ∀ i < A.nbrows, IsUnit (A.entry i i)) {g : List R} (hg : g.length = A.nbrows) {gy : List M}
    (hgy : gy.length = A.nbrows) {st : Option (List R × List M)}
    (hst : ∀ s, st = some s → s.1.length = A.nbrows ∧ s.2.length = A.nbrows) :
    ∃ s, sgsCompute A ord ord2 g gy st = .ok s ∧ DiagInv A s.1 ∧ s.2.length = A.nbrows ∧
      (st = none → ∀ i < A.nbrows, s.2⟦i⟧ = 0) := by
  cases st with
  | none =>
    obtain ⟨d, e, h⟩ := jacobi_setup_correct hA hS hD hord hu hg (d := none) (by simp)
    obtain ⟨y, e2, h1, h2⟩ := par_cells hord2 hgy (fun _ => (0 : M)) (body := fun i y => wr y i 0)
      fun i hi y' hy' => wr_eq (by omega)
    refine ⟨(d, y), ?_, h, h1, fun _ => h2⟩
    unfold sgsCompute
    dsimp only
    rw [show jacobiSetup A ord g = .ok d from e, ok_bind, e2, ok_bind]
  | some s =>
    obtain ⟨d, e, h⟩ := jacobi_setup_correct hA hS hD hord hu hg (d := some s.1)
      (by rintro l ⟨⟩; exact (hst s rfl).1)
    refine ⟨(d, s.2), ?_, h, (hst s rfl).2, fun h => by cases h⟩
    unfold sgsCompute
    dsimp only
    rw [show jacobiSetup A ord s.1 = .ok d from e, ok_bind]

omit [PInv R] in
/-- The Jacobi application inverts the (block) diagonal, whatever the old contents of the output. -/
theorem jacobi_apply_correct (hI : DiagInv A dinv) {ord : List Nat} (hord : ord.Perm (List.range A.nbrows))
    {r z : List M} (hr : r.length = A.nbrows) (hz : z.length = A.nbrows) :
    ∃ z', jacobiApply A.nbrows dinv ord r z = .ok z' ∧ z'.length = A.nbrows ∧
      ∀ i < A.nbrows, A.entry i i • z'⟦i⟧ = r⟦i⟧ := by
  have hl := hI.len
  obtain ⟨z', e, h1, h2⟩ := par_cells hord hz (fun i => dinv⟦i⟧ • r⟦i⟧) (body := fun i z => do
      let d ← rd dinv i
      let ri ← rd r i
      wr z i (d • ri)) fun i hi y hy => by
    rw [rd_eq (by omega), ok_bind, rd_eq (by omega), ok_bind, wr_eq (by omega)]
  refine ⟨z', e, h1, fun i hi => ?_⟩
  rw [h2 i hi, smul_smul, hI.right i hi, one_smul]

end setup

/-! ### The application -/

section apply
variable [Ring R] [AddCommGroup M] [Module R M] {A : SR R} {dinv : List R}

/-- **C29**: the sequential application solves with the SGS matrix, for every initialisation, number of sweeps and old
contents of the vectors. -/
theorem sgs_apply_correct (hA : A.Full) (hS : A.Sorted) (hD : A.HasDiag) (hI : DiagInv A dinv) {k : Nat}
    (hk : 1 ≤ k) {init : ApplyInit} {ord : Nat → List Nat} (hord : ∀ t, (ord t).Perm (List.range A.nbrows))
    {r z y : List M} (hr : r.length = A.nbrows) (hz : z.length = A.nbrows) (hy : y.length = A.nbrows) :
    ∃ z' y', sgsApply A dinv k init ord r z y = .ok (z', y') ∧ y'.length = A.nbrows ∧ z'.length = A.nbrows ∧
      ∀ i < A.nbrows, ∑ j ∈ range A.nbrows, sgsMat A dinv i j • z'⟦j⟧ = r⟦i⟧ := by
  have H : Ok (sgsApply A dinv k init ord r z y) (fun p => p.2.length = A.nbrows ∧ p.1.length = A.nbrows ∧
      ∀ i < A.nbrows, ∑ j ∈ range A.nbrows, sgsMat A dinv i j • p.1⟦j⟧ = r⟦i⟧) := by
    unfold sgsApply
    refine (applyInitY_ok init (hord 0) hy).bind fun y₁ hy1 => ?_
    refine ((rowUpd_fgs hA hS hD hI.len hr).fwd (fun i j h => h.2) hk hy1).bind fun y₂ hy2 => ?_
    refine (sgsInitZ_ok init (hord 1) hy2.1 hz).bind fun z₁ hz1 => ?_
    refine ((rowUpd_bgs hA hS hD hI.len hy2.1).bwd (fun i j h => h.2) hk hz1).bind fun z₂ hz2 => ?_
    exact Ok.pure ⟨hy2.1, hz2.1, (sgs_iff hA hS hD hI).mpr ⟨get0 y₂, hy2.2, hz2.2⟩⟩
  obtain ⟨⟨z', y'⟩, e, h⟩ := H
  exact ⟨z', y', e, h⟩

/-- **C30**: with a valid level schedule, the level-scheduled application solves with the SGS matrix for every order of
the rows within the levels. -/
theorem sgs_apply_levels (hA : A.Full) (hS : A.Sorted) (hD : A.HasDiag) (hI : DiagInv A dinv)
    {levels : List Nat} (hL : LevelsOk A levels) {sched sched' : Nat → List Nat → List Nat}
    (hsch : ∀ t l, (sched t l).Perm l) (hsch' : ∀ t l, (sched' t l).Perm l)
    {r z y : List M} (hr : r.length = A.nbrows) (hz : z.length = A.nbrows) (hy : y.length = A.nbrows) :
    ∃ z' y', levelSgsApply A dinv levels sched sched' r z y = .ok (z', y') ∧ y'.length = A.nbrows ∧
      z'.length = A.nbrows ∧ ∀ i < A.nbrows, ∑ j ∈ range A.nbrows, sgsMat A dinv i j • z'⟦j⟧ = r⟦i⟧ := by
  have H : Ok (levelSgsApply A dinv levels sched sched' r z y) (fun p => p.2.length = A.nbrows ∧
      p.1.length = A.nbrows ∧ ∀ i < A.nbrows, ∑ j ∈ range A.nbrows, sgsMat A dinv i j • p.1⟦j⟧ = r⟦i⟧) := by
    unfold levelSgsApply
    refine ((rowUpd_fgs hA hS hD hI.len hr).levelUp hL hsch hy).bind fun y₂ hy2 => ?_
    refine ((rowUpd_bgs hA hS hD hI.len hy2.1).levelDown hL hsch' hz).bind fun z₂ hz2 => ?_
    exact Ok.pure ⟨hy2.1, hz2.1, (sgs_iff hA hS hD hI).mpr ⟨get0 y₂, hy2.2, hz2.2⟩⟩
  obtain ⟨⟨z', y'⟩, e, h⟩ := H
  exact ⟨z', y', e, h⟩

/-- **C30**, for parallel loops with arbitrary interleaving and visibility within each level. -/
theorem sgs_apply_levels_async (hA : A.Full) (hS : A.Sorted) (hD : A.HasDiag) (hI : DiagInv A dinv)
    {levels : List Nat} (hL : LevelsOk A levels) {mix : Set M → Set M} (hm : MixOk mix)
    {r z y z' y' : List M} (hr : r.length = A.nbrows) (hz : z.length = A.nbrows) (hy : y.length = A.nbrows)
    (h : AsyncLevelSgsApply A dinv mix levels r z y z' y') :
    z'.length = A.nbrows ∧ ∀ i < A.nbrows, ∑ j ∈ range A.nbrows, sgsMat A dinv i j • z'⟦j⟧ = r⟦i⟧ := by
  have hy2 := (rowUpd_fgs hA hS hD hI.len hr).alevelsUp hL hm hy h.1
  have hz2 := (rowUpd_bgs hA hS hD hI.len hy2.1).alevelsDown hL hm hz h.2
  exact ⟨hz2.1, (sgs_iff hA hS hD hI).mpr ⟨get0 y', hy2.2, hz2.2⟩⟩

/-- **C31**, general form: as many asynchronous sweeps as the longest chain of dependences in the upper triangle give
the result of the sequential code, whatever the schedule and the staleness of reads. -/
theorem sgs_apply_async_rank (hA : A.Full) (hS : A.Sorted) (hD : A.HasDiag) (hI : DiagInv A dinv)
    {mix : Set M → Set M} (hm : MixOk mix) {rank : Nat → Nat}
    (hrank : ∀ i < A.nbrows, ∀ j < A.nbrows, i < j → Nbr A i j → rank j < rank i) {k : Nat} (hk1 : 1 ≤ k)
    (hk : ∀ i < A.nbrows, rank i < k) {init : ApplyInit} {ord : Nat → List Nat}
    (hord : ∀ t, (ord t).Perm (List.range A.nbrows)) {r z y z' y' : List M} (hr : r.length = A.nbrows)
    (hz : z.length = A.nbrows) (hy : y.length = A.nbrows)
    (h : AsyncSgsApply A dinv mix k init ord r z y z' y') :
    z'.length = A.nbrows ∧ ∀ i < A.nbrows, ∑ j ∈ range A.nbrows, sgsMat A dinv i j • z'⟦j⟧ = r⟦i⟧ := by
  obtain ⟨y₁, z₁, e1, e2, e3, h4⟩ := h
  have hy1 := (applyInitY_ok init (hord 0) hy).post _ e1
  have hy2 := ((rowUpd_fgs hA hS hD hI.len hr).fwd (fun i j h => h.2) hk1 hy1).post _ e2
  have hz1 := (sgsInitZ_ok init (hord 1) hy2.1 hz).post _ e3
  have hz2 := (rowUpd_bgs hA hS hD hI.len hy2.1).arun_up (fun i j h => h.2) hm
    (fun i hi j hj hd => hrank i hi j hj hd.2 hd.1) hk hz1 h4
  exact ⟨hz2.1, (sgs_iff hA hS hD hI).mpr ⟨get0 y', hy2.2, hz2.2⟩⟩

/-- **C31**: as many asynchronous sweeps as rows are exact. -/
theorem sgs_apply_async_exact (hA : A.Full) (hS : A.Sorted) (hD : A.HasDiag) (hI : DiagInv A dinv)
    {mix : Set M → Set M} (hm : MixOk mix) {k : Nat} (hk1 : 1 ≤ k) (hk : A.nbrows ≤ k) {init : ApplyInit}
    {ord : Nat → List Nat} (hord : ∀ t, (ord t).Perm (List.range A.nbrows)) {r z y z' y' : List M}
    (hr : r.length = A.nbrows) (hz : z.length = A.nbrows) (hy : y.length = A.nbrows)
    (h : AsyncSgsApply A dinv mix k init ord r z y z' y') :
    z'.length = A.nbrows ∧ ∀ i < A.nbrows, ∑ j ∈ range A.nbrows, sgsMat A dinv i j • z'⟦j⟧ = r⟦i⟧ :=
  sgs_apply_async_rank hA hS hD hI hm (rank := fun i => A.nbrows - 1 - i)
    (fun i hi j hj hij _ => by omega) hk1 (fun i hi => by omega) hord hr hz hy h

/-- **C52**, SGS: the result does not depend on the old contents of the vectors, the number of sweeps, the
initialisation or the order of the parallel loops. -/
theorem sgs_apply_independent (hA : A.Full) (hS : A.Sorted) (hD : A.HasDiag) (hI : DiagInv A dinv) {k k' : Nat}
    (hk : 1 ≤ k) (hk' : 1 ≤ k') {init init' : ApplyInit} {ord ord' : Nat → List Nat}
    (hord : ∀ t, (ord t).Perm (List.range A.nbrows)) (hord' : ∀ t, (ord' t).Perm (List.range A.nbrows))
    {r z y z' y' : List M} (hr : r.length = A.nbrows) (hz : z.length = A.nbrows) (hy : y.length = A.nbrows)
    (hz' : z'.length = A.nbrows) (hy' : y'.length = A.nbrows) :
    (sgsApply A dinv k init ord r z y).map Prod.fst = (sgsApply A dinv k' init' ord' r z' y').map Prod.fst := by
  obtain ⟨a, b, e, _, h2, h3⟩ := sgs_apply_correct hA hS hD hI hk (init := init) hord hr hz hy
  obtain ⟨a', b', e', _, h2', h3'⟩ := sgs_apply_correct hA hS hD hI hk' (init := init') hord' hr hz' hy'
  rw [e, e']
  have : a = a' := ext_get0 (by omega) fun i hi => sgs_unique hA hS hD hI h3 h3' i (by omega)
  rw [this]
  rfl

/-- **C52**, SGS: the application is linear. -/
theorem sgs_apply_linear {F : Type} [Ring F] [Module F M] [SMulCommClass R F M] (hA : A.Full) (hS : A.Sorted)
    (hD : A.HasDiag) (hI : DiagInv A dinv) {k : Nat} (hk : 1 ≤ k) {init : ApplyInit} {ord : Nat → List Nat}
    (hord : ∀ t, (ord t).Perm (List.range A.nbrows)) {r₁ r₂ r z y : List M} (h₁ : r₁.length = A.nbrows)
    (h₂ : r₂.length = A.nbrows) (hr : r.length = A.nbrows) (hz : z.length = A.nbrows) (hy : y.length = A.nbrows)
    (a b : F) (hlin : ∀ i < A.nbrows, r⟦i⟧ = a • r₁⟦i⟧ + b • r₂⟦i⟧) :
    ∃ z₁ y₁ z₂ y₂ z' y', sgsApply A dinv k init ord r₁ z y = .ok (z₁, y₁) ∧
      sgsApply A dinv k init ord r₂ z y = .ok (z₂, y₂) ∧ sgsApply A dinv k init ord r z y = .ok (z', y') ∧
      ∀ i < A.nbrows, z'⟦i⟧ = a • z₁⟦i⟧ + b • z₂⟦i⟧ := by
  obtain ⟨z₁, y₁, e1, _, _, g1⟩ := sgs_apply_correct hA hS hD hI hk (init := init) hord h₁ hz hy
  obtain ⟨z₂, y₂, e2, _, _, g2⟩ := sgs_apply_correct hA hS hD hI hk (init := init) hord h₂ hz hy
  obtain ⟨z', y', e3, _, _, g3⟩ := sgs_apply_correct hA hS hD hI hk (init := init) hord hr hz hy
  refine ⟨z₁, y₁, z₂, y₂, z', y', e1, e2, e3, ?_⟩
  refine sgs_unique (z' := fun i => a • z₁⟦i⟧ + b • z₂⟦i⟧) hA hS hD hI g3 fun i hi => ?_
  rw [hlin i hi, ← g1 i hi, ← g2 i hi, smul_sum, smul_sum, ← sum_add_distrib]
  refine sum_congr rfl fun j _ => ?_
  rw [smul_add, smul_comm _ a, smul_comm _ b]

/-- **C52**, Jacobi: the application is linear and independent of the old contents of the output. -/
theorem jacobi_apply_linear {F : Type} [Ring F] [Module F M] [SMulCommClass R F M] (hI : DiagInv A dinv)
    {ord : List Nat} (hord : ord.Perm (List.range A.nbrows)) {r₁ r₂ r w₁ w₂ z : List M}
    (h₁ : r₁.length = A.nbrows) (h₂ : r₂.length = A.nbrows) (hr : r.length = A.nbrows)
    (hw₁ : w₁.length = A.nbrows) (hw₂ : w₂.length = A.nbrows) (hz : z.length = A.nbrows)
    (a b : F) (hlin : ∀ i < A.nbrows, r⟦i⟧ = a • r₁⟦i⟧ + b • r₂⟦i⟧) :
    ∃ z₁ z₂ z', jacobiApply A.nbrows dinv ord r₁ w₁ = .ok z₁ ∧ jacobiApply A.nbrows dinv ord r₂ w₂ = .ok z₂ ∧
      jacobiApply A.nbrows dinv ord r z = .ok z' ∧ ∀ i < A.nbrows, z'⟦i⟧ = a • z₁⟦i⟧ + b • z₂⟦i⟧ := by
  obtain ⟨z₁, e1, _, g1⟩ := jacobi_apply_correct hI hord h₁ hw₁
  obtain ⟨z₂, e2, _, g2⟩ := jacobi_apply_correct hI hord h₂ hw₂
  obtain ⟨z', e3, _, g3⟩ := jacobi_apply_correct hI hord hr hz
  refine ⟨z₁, z₂, z', e1, e2, e3, fun i hi => ?_⟩
  have key : ∀ v w : M, A.entry i i • v = w → v = dinv⟦i⟧ • w := by
    rintro v w rfl
    rw [smul_smul, hI.left i hi, one_smul]
  rw [key _ _ (g3 i hi), key _ _ (g1 i hi), key _ _ (g2 i hi), hlin i hi, smul_add, smul_comm _ a, smul_comm _ b]

end apply

/-! ### The scalar and the block code -/

/-- **C29**, scalar code, setup and application: if no diagonal entry is zero, `compute` and `apply` succeed and solve
with `(D+L) D⁻¹ (D+U)`. -/
theorem scalar_sgs_solves [Field K] [DecidableEq K] {A : SR K} (hA : A.Full) (hS : A.Sorted) (hD : A.HasDiag)
    (hu : ∀ i < A.nbrows, A.entry i i ≠ 0) {ord₁ ord₂ : List Nat} (h₁ : ord₁.Perm (List.range A.nbrows))
    (h₂ : ord₂.Perm (List.range A.nbrows)) {g gy : List K} (hg : g.length = A.nbrows) (hgy : gy.length = A.nbrows)
    {k : Nat} (hk : 1 ≤ k) {init : ApplyInit} {ord : Nat → List Nat}
    (hord : ∀ t, (ord t).Perm (List.range A.nbrows)) {r z : List K} (hr : r.length = A.nbrows)
    (hz : z.length = A.nbrows) :
    ∃ dinv y z' y', sgsCompute A ord₁ ord₂ g gy none = .ok (dinv, y) ∧
      sgsApply A dinv k init ord r z y = .ok (z', y') ∧ (∀ i < A.nbrows, dinv⟦i⟧ = (A.entry i i)⁻¹) ∧
      ∀ i < A.nbrows, ∑ j ∈ range A.nbrows, sgsMat A dinv i j * z'⟦j⟧ = r⟦i⟧ := by
  obtain ⟨⟨dinv, y⟩, e1, hI, hy, _⟩ := sgs_setup_correct hA hS hD h₁ h₂
    (fun i hi => isUnit_iff_ne_zero.mpr (hu i hi)) hg hgy (st := none) (by simp)
  obtain ⟨z', y', e2, _, _, h⟩ := sgs_apply_correct hA hS hD hI hk (init := init) hord hr hz hy
  exact ⟨dinv, y, z', y', e1, e2, fun i hi => eq_inv_of_mul_eq_one_left (hI.left i hi), h⟩

section
open scoped Matrix.Module

/-- **C29**, block code, setup and application: if all diagonal blocks are invertible, `compute` and `apply` succeed and
solve with `(D+L) D⁻¹ (D+U)`. -/
theorem block_sgs_solves [Field K] [DecidableEq K] {bs : Nat} {A : SR (Matrix (Fin bs) (Fin bs) K)} (hA : A.Full)
    (hS : A.Sorted) (hD : A.HasDiag) (hu : ∀ i < A.nbrows, (A.entry i i).det ≠ 0) {ord₁ ord₂ : List Nat}
    (h₁ : ord₁.Perm (List.range A.nbrows)) (h₂ : ord₂.Perm (List.range A.nbrows))
    {g : List (Matrix (Fin bs) (Fin bs) K)} {gy : List (Fin bs → K)} (hg : g.length = A.nbrows)
    (hgy : gy.length = A.nbrows) {k : Nat} (hk : 1 ≤ k) {init : ApplyInit} {ord : Nat → List Nat}
    (hord : ∀ t, (ord t).Perm (List.range A.nbrows)) {r z : List (Fin bs → K)} (hr : r.length = A.nbrows)
    (hz : z.length = A.nbrows) :
    ∃ dinv y z' y', sgsCompute A ord₁ ord₂ g gy none = .ok (dinv, y) ∧
      sgsApply A dinv k init ord r z y = .ok (z', y') ∧ (∀ i < A.nbrows, A.entry i i * dinv⟦i⟧ = 1) ∧
      ∀ i < A.nbrows, ∑ j ∈ range A.nbrows, (sgsMat A dinv i j).mulVec z'⟦j⟧ = r⟦i⟧ := by
  obtain ⟨⟨dinv, y⟩, e1, hI, hy, _⟩ := sgs_setup_correct hA hS hD h₁ h₂
    (fun i hi => pinv_iff.mpr ⟨_, if_neg (hu i hi)⟩) hg hgy (st := none) (by simp)
  obtain ⟨z', y', e2, _, _, h⟩ := sgs_apply_correct hA hS hD hI hk (init := init) hord hr hz hy
  exact ⟨dinv, y, z', y', e1, e2, hI.right, h⟩

/-- Non-vacuity of `block_sgs_solves`. -/
example : (sgsCompute (M := Fin 2 → ℚ) exB [2, 0, 1] [0, 1, 2] (List.replicate 3 (mk2 7 7 7 7))
    (List.replicate 3 ![8, 8]) none >>= fun s => sgsApply exB s.1 1 .zero (fun _ => [1, 2, 0])
      [![1, 2], ![3, 4], ![5, 6]] [0, 0, 0] s.2).isOk = true := by decide +kernel

end

/-- Non-vacuity of `scalar_sgs_solves`. -/
example : (sgsCompute (M := ℚ) exStar [2, 0, 1, 3] [0, 1, 2, 3] [7, 7, 7, 7] [8, 8, 8, 8] none >>= fun s =>
    sgsApply exStar s.1 2 .none (fun _ => [3, 1, 2, 0]) [3, 4, 5, 12 + 1/2 + 1/3 + 1/4] [9, 9, 9, 9] s.2).map Prod.fst =
    .ok [1, 1, 1, 1] := by decide +kernel

/-- Non-vacuity of the hypotheses about the diagonal in the other theorems of this file. -/
theorem exStar_diagInv : DiagInv exStar [1/2, 1/3, 1/4, 1/9] where
  len := rfl
  right := by
    intro i hi
    have : i < 4 := hi
    interval_cases i <;> decide +kernel
  left := by
    intro i hi
    have : i < 4 := hi
    interval_cases i <;> decide +kernel

/-- Non-vacuity of `sgs_apply_levels`. -/
example : (levelSgsApply exStar [1/2, 1/3, 1/4, 1/9] [0, 3, 4] (fun _ l => l.reverse) (fun _ l => l)
    [3, 4, 5, 12 + 1/2 + 1/3 + 1/4] [7, 7, 7, 7] [9, 9, 9, 9]).map Prod.fst = .ok ([1, 1, 1, 1] : List ℚ) := by
  decide +kernel

/-- Non-vacuity of `jacobi_setup_divzero`. -/
example : jacobiCompute (R := ℚ) { exStar with vals := [2, 1, 0, 1, 4, 1, 1, 1, 1, 9] } [2, 0, 1, 3] [7, 7, 7, 7]
    none = .error .divzero := by decide +kernel

end Blasted
