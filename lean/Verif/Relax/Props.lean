import Verif.Relax.Lemmas
import Verif.Solve.BgsProps
import Mathlib.Algebra.Order.BigOperators.Group.Finset
import Mathlib.Algebra.Order.Archimedean.Basic
import Mathlib.Algebra.Order.AbsoluteValue.Basic

/-!
# Relaxations (C35, C36, C37)

The specification is in terms of the entries `A.entry i j` of the matrix only: `relaxVal` is row `i` of
`D⁻¹ (b - (A - D) x)`, `jacobiIter` its iteration and `Stops` the stopping rule of the documentation.
-/

namespace Blasted

open Finset

variable {V R M K : Type}

section spec
variable [Ring R] [AddCommGroup M] [Module R M]

/-- Row `i` of `D⁻¹ (b - (A - D) x)`. -/
def relaxVal (A : SR R) (dinv : List R) (b : List M) (x : Nat → M) (i : Nat) : M :=
  dinv⟦i⟧ • (b⟦i⟧ - ∑ j ∈ (range A.nbrows).erase i, A.entry i j • x j)

/-- The iterates of the Jacobi relaxation. -/
def jacobiIter (A : SR R) (dinv : List R) (b : List M) (x : Nat → M) : Nat → Nat → M
  | 0 => x
  | t + 1 => relaxVal A dinv b (jacobiIter A dinv b x t)

/-- `x` solves `A x = b`. -/
def Solves (A : SR R) (b : List M) (x : Nat → M) : Prop :=
  ∀ i < A.nbrows, ∑ j ∈ range A.nbrows, A.entry i j • x j = b⟦i⟧

/-- The norm of the difference between two consecutive Jacobi iterates. -/
def diffNorm [AddCommMonoid K] (sqrt : K → K) (sq : M → K) (A : SR R) (dinv : List R) (b : List M) (x : Nat → M)
    (t : Nat) : K :=
  sqrt (∑ i ∈ range A.nbrows, sq (jacobiIter A dinv b x (t + 1) i - jacobiIter A dinv b x t i))

/-- The stopping rule in step `t`: the difference between the iterates is below the absolute tolerance, or relative to
the difference in the first step it is below the relative tolerance or above the divergence tolerance. A quotient
by zero is not below anything, and above the divergence tolerance unless it is `0/0`. -/
def Stops [Field K] [LinearOrder K] (sqrt : K → K) (sq : M → K) (p : SolveParams K) (A : SR R) (dinv : List R)
    (b : List M) (x : Nat → M) (t : Nat) : Prop :=
  let d := diffNorm sqrt sq A dinv b x
  d t < p.atol ∨ (d 0 ≠ 0 ∧ d t / d 0 < p.rtol) ∨ (d 0 ≠ 0 ∧ p.dtol < d t / d 0) ∨ (d 0 = 0 ∧ d t ≠ 0)

end spec

section basics
variable [Ring R] [AddCommGroup M] [Module R M] {A : SR R} {dinv : List R} {b : List M}

theorem off_sum (hA : A.Full) (hS : A.Sorted) (hD : A.HasDiag) {i : Nat} (hi : i < A.nbrows) (x : Nat → M) :
    lowSum A A.vals i x + upSum A A.vals i x = ∑ j ∈ (range A.nbrows).erase i, A.entry i j • x j := by
  have h1 := row_mul hA hS hD hi x
  rw [← add_sum_erase _ _ (mem_range.mpr hi)] at h1
  have h2 : A.entry i i • x i + ∑ j ∈ (range A.nbrows).erase i, A.entry i j • x j =
      A.entry i i • x i + (lowSum A A.vals i x + upSum A A.vals i x) := by rw [h1]; abel
  exact (add_left_cancel h2).symm

theorem relaxVal_eq (hA : A.Full) (hS : A.Sorted) (hD : A.HasDiag) {i : Nat} (hi : i < A.nbrows) (x : Nat → M) :
    dinv⟦i⟧ • (b⟦i⟧ - (lowSum A A.vals i x + upSum A A.vals i x)) = relaxVal A dinv b x i := by
  rw [off_sum hA hS hD hi]; rfl

theorem relaxVal_congr {i : Nat} {x y : Nat → M} (h : ∀ j < A.nbrows, x j = y j) :
    relaxVal A dinv b x i = relaxVal A dinv b y i := by
  unfold relaxVal
  rw [sum_congr rfl fun j hj => by rw [h j (mem_range.mp (mem_of_mem_erase hj))]]

/-- The kernel as a row update with the specification function. -/
theorem rowUpd_relaxVal (hA : A.Full) (hS : A.Sorted) (hD : A.HasDiag) (hI : DiagInv A dinv) (hb : b.length = A.nbrows) :
    RowUpd (relaxRow A dinv b) A.nbrows (fun i j => Nbr A i j ∧ j ≠ i) (fun i x => relaxVal A dinv b x i) where
  eval i hi r x hx := by
    rw [(rowUpd_relax hA hS hD hI.len hb).eval i hi r x hx, relaxVal_eq hA hS hD hi]
  dep i hi g h hgh := by
    rw [← relaxVal_eq hA hS hD hi, ← relaxVal_eq hA hS hD hi]
    exact (rowUpd_relax hA hS hD hI.len hb).dep i hi g h hgh

/-- `y i = (D⁻¹ (b - (A-D) x)) i` in terms of row `i` of the system. -/
theorem relaxVal_iff (hI : DiagInv A dinv) {i : Nat} (hi : i < A.nbrows) {y : M} {x : Nat → M} :
    y = relaxVal A dinv b x i ↔ A.entry i i • y + ∑ j ∈ (range A.nbrows).erase i, A.entry i j • x j = b⟦i⟧ := by
  unfold relaxVal
  constructor
  · rintro rfl
    rw [smul_smul, hI.right i hi, one_smul, sub_add_cancel]
  · intro h
    rw [← h, add_sub_cancel_right, smul_smul, hI.left i hi, one_smul]

/-- The solutions are the fixed points of `x ↦ D⁻¹ (b - (A-D) x)`. -/
theorem solves_iff (hI : DiagInv A dinv) {x : Nat → M} :
    Solves A b x ↔ ∀ i < A.nbrows, x i = relaxVal A dinv b x i := by
  refine forall₂_congr fun i hi => ?_
  rw [relaxVal_iff hI hi, add_sum_erase _ (fun j => A.entry i j • x j) (mem_range.mpr hi)]

end basics

/-! ### Jacobi (C35) -/

section jacobi
variable [Ring R] [AddCommGroup M] [Module R M] {A : SR R} {dinv : List R} {b : List M}

theorem relaxInto_ok (hA : A.Full) (hS : A.Sorted) (hD : A.HasDiag) (hI : DiagInv A dinv) (hb : b.length = A.nbrows)
    {ord : List Nat} (hord : ord.Perm (List.range A.nbrows)) {x xt : List M} (hx : x.length = A.nbrows)
    (hxt : xt.length = A.nbrows) :
    Ok (relaxInto A dinv b x ord xt) (fun y => y.length = A.nbrows ∧
      ∀ i < A.nbrows, y⟦i⟧ = relaxVal A dinv b (get0 x) i) := by
  obtain ⟨y, e, h1, h2⟩ := par_cells hord hxt (fun i => relaxVal A dinv b (get0 x) i) (body := fun i xt => do
      let v ← relaxRow A dinv b i (rd x)
      wr xt i v) fun i hi y hy => by
    rw [(rowUpd_relaxVal hA hS hD hI hb).eval i hi (rd x) (get0 x) fun j hj => rd_eq (by omega), ok_bind,
      wr_eq (by omega)]
  exact ⟨y, e, h1, h2⟩

omit [Ring R] [Module R M] in
theorem copyInto_ok {n : Nat} {ord : List Nat} (hord : ord.Perm (List.range n)) {x xt : List M} (hx : x.length = n)
    (hxt : xt.length = n) : copyInto n ord xt x = .ok xt := by
  obtain ⟨y, e, h1, h2⟩ := par_cells hord hx (fun i => xt⟦i⟧) (body := fun i x => do
      let t ← rd xt i
      wr x i t) fun i hi y hy => by
    rw [rd_eq (by omega), ok_bind, wr_eq (by omega)]
  rw [show y = xt from ext_get0 (by omega) fun i hi => h2 i (by omega)] at e
  exact e

omit [Ring R] [Module R M] in
theorem diffCopy_ok [AddCommMonoid K] {n : Nat} {ord : List Nat} (hord : ord.Perm (List.range n)) {x xt : List M}
    (hx : x.length = n) (hxt : xt.length = n) (sq : M → K) :
    diffCopy n sq ord xt x = .ok (∑ i ∈ range n, sq (xt⟦i⟧ - x⟦i⟧), xt) := by
  have hmem : ∀ i, i ∈ ord ↔ i < n := fun i => by rw [hord.mem_iff, List.mem_range]
  have hnd : ord.Nodup := hord.nodup_iff.mpr List.nodup_range
  have H : Ok (diffCopy n sq ord xt x) (fun s => s.2.length = n ∧ s.1 = (ord.map fun i => sq (xt⟦i⟧ - x⟦i⟧)).sum ∧
      ∀ i < n, (i ∈ ord → s.2⟦i⟧ = xt⟦i⟧) ∧ (i ∉ ord → s.2⟦i⟧ = x⟦i⟧)) := by
    rw [diffCopy, parFor_eq hord]
    refine forList_ok (fun done (s : K × List M) => s.2.length = n ∧ s.1 = (done.map fun i => sq (xt⟦i⟧ - x⟦i⟧)).sum ∧
      ∀ i < n, (i ∈ done → s.2⟦i⟧ = xt⟦i⟧) ∧ (i ∉ done → s.2⟦i⟧ = x⟦i⟧)) ⟨hx, by simp, by simp⟩ ?_
    rintro done i rest s hsp ⟨hl, hs, hc⟩
    have hi : i < n := (hmem i).mp (by rw [hsp]; simp)
    have hndone : i ∉ done := by
      rw [hsp, List.nodup_append] at hnd
      exact fun hc => hnd.2.2 i hc i (by simp) rfl
    rw [rd_eq (by omega), ok_bind, rd_eq (by omega), ok_bind, wr_eq (by omega), ok_bind]
    refine Ok.pure ⟨by simp [hl], ?_, fun j hj => ?_⟩
    · rw [(hc i hi).2 hndone, hs]
      simp
    · by_cases hji : i = j
      · subst hji
        refine ⟨fun _ => get0_set_self (by omega), fun h => absurd (by simp) h⟩
      · dsimp only
        rw [get0_set_ne hji]
        refine ⟨fun h => (hc j hj).1 ?_, fun h => (hc j hj).2 ?_⟩
        · simp only [List.mem_append, List.mem_singleton] at h
          exact h.resolve_right fun h => hji h.symm
        · exact fun h' => h (List.mem_append_left _ h')
  obtain ⟨⟨s, y⟩, e, h1, h2, h3⟩ := H
  dsimp only at h1 h2 h3
  rw [e, h2, show y = xt from ext_get0 (by omega) fun i hi => (h3 i (by omega)).1 ((hmem i).mpr (by omega))]
  congr 2
  rw [(hord.map _).sum_eq, sum_range, ← List.sum_ofFn]
  congr 1
  rw [List.ofFn_eq_map, ← List.map_coe_finRange_eq_range, List.map_map]
  rfl

variable [Field K] [LinearOrder K] {sqrt : K → K} {sq : M → K} {p : SolveParams K}

/-- The loop over steps, from step `s` on. -/
theorem jacobiRelaxLoop_ok (hA : A.Full) (hS : A.Sorted) (hD : A.HasDiag) (hI : DiagInv A dinv)
    (hb : b.length = A.nbrows) {ord : Nat → List Nat} (hord : ∀ t, (ord t).Perm (List.range A.nbrows))
    {x0 : Nat → M} {left s : Nat} {ref : K} {x xt : List M} (hx : x.length = A.nbrows) (hxt : xt.length = A.nbrows)
    (hxs : ∀ i < A.nbrows, x⟦i⟧ = jacobiIter A dinv b x0 s i)
    (href : p.ctol = true → 1 ≤ s → ref = diffNorm sqrt sq A dinv b x0 0) :
    ∃ x' T, jacobiRelaxLoop sqrt sq p A dinv b ord left s ref x xt = .ok x' ∧ x'.length = A.nbrows ∧ s ≤ T ∧
      T ≤ s + left ∧ (∀ i < A.nbrows, x'⟦i⟧ = jacobiIter A dinv b x0 T i) ∧
      (p.ctol = false → T = s + left) ∧
      (p.ctol = true → (∀ t, s ≤ t → t + 1 < T → ¬ Stops sqrt sq p A dinv b x0 t) ∧
        (T = s + left ∨ s + 1 ≤ T ∧ Stops sqrt sq p A dinv b x0 (T - 1))) := by
  induction left generalizing s ref x xt with
  | zero =>
    exact ⟨x, s, rfl, hx, le_rfl, le_rfl, hxs, fun _ => rfl, fun _ => ⟨fun t h1 h2 => by omega, Or.inl rfl⟩⟩
  | succ left ih =>
    unfold jacobiRelaxLoop
    obtain ⟨y, e, hy1, hy2⟩ := relaxInto_ok hA hS hD hI hb (hord (2 * s)) hx hxt
    have hys : ∀ i < A.nbrows, y⟦i⟧ = jacobiIter A dinv b x0 (s + 1) i := by
      intro i hi
      rw [hy2 i hi]
      exact relaxVal_congr hxs
    rw [e, ok_bind]
    cases hc : p.ctol with
    | false =>
      rw [if_neg (by simp), copyInto_ok (hord (2 * s + 1)) hx hy1, ok_bind]
      obtain ⟨x', T, e', h1, h2, h3, h4, h5, _⟩ := ih (s := s + 1) (ref := ref) hy1 hy1 hys (by simp [hc])
      exact ⟨x', T, e', h1, by omega, by omega, h4, fun h => by have := h5 hc; omega, by simp⟩
    | true =>
      rw [if_pos rfl, diffCopy_ok (hord (2 * s + 1)) hx hy1, ok_bind]
      dsimp only
      have hd : sqrt (∑ i ∈ range A.nbrows, sq (y⟦i⟧ - x⟦i⟧)) = diffNorm sqrt sq A dinv b x0 s := by
        unfold diffNorm
        rw [sum_congr rfl fun i hi => by rw [hys i (mem_range.mp hi), hxs i (mem_range.mp hi)]]
      rw [hd]
      have hr : (if s = 0 then diffNorm sqrt sq A dinv b x0 s else ref) = diffNorm sqrt sq A dinv b x0 0 := by
        by_cases h0 : s = 0
        · rw [if_pos h0, h0]
        · rw [if_neg h0]; exact href hc (by omega)
      rw [hr]
      have hstop : (decide (diffNorm sqrt sq A dinv b x0 s < p.atol) ||
          ratioLt (diffNorm sqrt sq A dinv b x0 s) (diffNorm sqrt sq A dinv b x0 0) p.rtol ||
          ratioGt (diffNorm sqrt sq A dinv b x0 s) (diffNorm sqrt sq A dinv b x0 0) p.dtol) = true ↔
          Stops sqrt sq p A dinv b x0 s := by
        unfold Stops ratioLt ratioGt
        by_cases h0 : diffNorm sqrt sq A dinv b x0 0 = 0 <;> simp [h0, or_assoc]
      by_cases hst : Stops sqrt sq p A dinv b x0 s
      · rw [if_pos (hstop.mpr hst)]
        exact ⟨y, s + 1, rfl, hy1, by omega, by omega, hys, by simp,
          fun _ => ⟨fun t h1 h2 => by omega, Or.inr ⟨le_rfl, hst⟩⟩⟩
      · rw [if_neg fun h => hst (hstop.mp h)]
        obtain ⟨x', T, e', h1, h2, h3, h4, _, h6⟩ := ih (s := s + 1) (ref := diffNorm sqrt sq A dinv b x0 0)
          hy1 hy1 hys (fun _ _ => rfl)
        refine ⟨x', T, e', h1, by omega, by omega, h4, by simp, fun _ => ⟨fun t ht1 ht2 => ?_, ?_⟩⟩
        · rcases Nat.eq_or_lt_of_le ht1 with rfl | hlt
          · exact hst
          · exact (h6 hc).1 t hlt ht2
        · rcases (h6 hc).2 with h | ⟨h, h'⟩
          · left; omega
          · right; exact ⟨by omega, h'⟩

/-- **C35**: `apply_relax` of the Jacobi preconditioners returns the iterate number `T ≤ maxits` of
`x ↦ D⁻¹ (b - (A-D) x)`. Without tolerance checks `T = maxits`; with them `T - 1` is the first step in which the stopping
rule holds, if there is one below `maxits`, and `T = maxits` otherwise. The orders of the parallel loops and the contents
of the work vector do not matter. -/
theorem jacobi_relax_correct (hA : A.Full) (hS : A.Sorted) (hD : A.HasDiag) (hI : DiagInv A dinv)
    (hb : b.length = A.nbrows) {ord : Nat → List Nat} (hord : ∀ t, (ord t).Perm (List.range A.nbrows))
    {g x : List M} (hg : g.length = A.nbrows) (hx : x.length = A.nbrows) :
    ∃ x' T, jacobiRelax sqrt sq p A dinv b ord g x = .ok x' ∧ x'.length = A.nbrows ∧ T ≤ p.maxits ∧
      (∀ i < A.nbrows, x'⟦i⟧ = jacobiIter A dinv b (get0 x) T i) ∧
      (p.ctol = false → T = p.maxits) ∧
      (p.ctol = true → (∀ t, t + 1 < T → ¬ Stops sqrt sq p A dinv b (get0 x) t) ∧
        (T = p.maxits ∨ 1 ≤ T ∧ Stops sqrt sq p A dinv b (get0 x) (T - 1))) := by
  obtain ⟨x', T, e, h1, h2, h3, h4, h5, h6⟩ := jacobiRelaxLoop_ok (sqrt := sqrt) (sq := sq) (p := p) hA hS hD hI hb hord
    (x0 := get0 x) (left := p.maxits) (s := 0) (ref := 1) hx hg (fun _ _ => rfl) (by simp)
  simp only [Nat.zero_add] at h3 h5 h6
  exact ⟨x', T, e, h1, h3, h4, h5, fun hc => ⟨fun t ht => (h6 hc).1 t (Nat.zero_le _) ht, (h6 hc).2⟩⟩

/-- **C36**, Jacobi: a solution is left unchanged, for all parameters. -/
theorem jacobi_relax_fixed (hA : A.Full) (hS : A.Sorted) (hD : A.HasDiag) (hI : DiagInv A dinv)
    (hb : b.length = A.nbrows) {ord : Nat → List Nat} (hord : ∀ t, (ord t).Perm (List.range A.nbrows))
    {g x : List M} (hg : g.length = A.nbrows) (hx : x.length = A.nbrows) (hs : Solves A b (get0 x)) :
    jacobiRelax sqrt sq p A dinv b ord g x = .ok x := by
  obtain ⟨x', T, e, h1, _, h4, _⟩ := jacobi_relax_correct (sqrt := sqrt) (sq := sq) (p := p) hA hS hD hI hb hord hg hx
  rw [e]
  congr 1
  refine ext_get0 (by omega) fun i hi => ?_
  rw [h4 i (by omega)]
  have : ∀ T, ∀ i < A.nbrows, jacobiIter A dinv b (get0 x) T i = x⟦i⟧ := by
    intro T
    induction T with
    | zero => intro i _; rfl
    | succ T ih =>
      intro i hi
      show relaxVal A dinv b (jacobiIter A dinv b (get0 x) T) i = x⟦i⟧
      rw [relaxVal_congr ih, ← (solves_iff hI).mp hs i hi]
  exact this T i (by omega)

/-- **C36**, Jacobi, converse: if one step leaves the vector unchanged, it is a solution. -/
theorem jacobi_relax_converse (hA : A.Full) (hS : A.Sorted) (hD : A.HasDiag) (hI : DiagInv A dinv)
    (hb : b.length = A.nbrows) {ord : Nat → List Nat} (hord : ∀ t, (ord t).Perm (List.range A.nbrows))
    {g x : List M} (hg : g.length = A.nbrows) (hx : x.length = A.nbrows) (h1 : p.maxits = 1)
    (h : jacobiRelax sqrt sq p A dinv b ord g x = .ok x) : Solves A b (get0 x) := by
  obtain ⟨x', T, e, _, hT, h4, h5, h6⟩ := jacobi_relax_correct (sqrt := sqrt) (sq := sq) (p := p) hA hS hD hI hb hord
    hg hx
  rw [h] at e
  cases e
  have hT1 : T = 1 := by
    cases hc : p.ctol with
    | false => rw [h5 hc, h1]
    | true => rcases (h6 hc).2 with h | h <;> omega
  rw [hT1] at h4
  exact (solves_iff hI).mpr h4

end jacobi

/-! ### Chaotic and Gauss-Seidel relaxation (C36) -/

section gs
variable [Ring R] [AddCommGroup M] [Module R M] {A : SR R} {dinv : List R} {b : List M}

/-- `(D+L) y + U x = b`: `y` is the result of a forward Gauss-Seidel sweep from `x`. -/
def ForwardGS (A : SR R) (b : List M) (x y : Nat → M) : Prop :=
  ∀ i < A.nbrows, ∑ j ∈ range A.nbrows, (if j ≤ i then A.entry i j • y j else A.entry i j • x j) = b⟦i⟧

/-- `(D+U) y + L x = b`: `y` is the result of a backward Gauss-Seidel sweep from `x`. -/
def BackwardGS (A : SR R) (b : List M) (x y : Nat → M) : Prop :=
  ∀ i < A.nbrows, ∑ j ∈ range A.nbrows, (if i ≤ j then A.entry i j • y j else A.entry i j • x j) = b⟦i⟧

theorem forwardGS_iff (hI : DiagInv A dinv) {x y : Nat → M} :
    ForwardGS A b x y ↔ ∀ i < A.nbrows, y i = relaxVal A dinv b (fun j => if j < i then y j else x j) i := by
  refine forall₂_congr fun i hi => ?_
  rw [relaxVal_iff hI hi, ← add_sum_erase _ _ (mem_range.mpr hi), if_pos le_rfl]
  rw [sum_congr rfl fun j hj => ?_]
  have hne := ne_of_mem_erase hj
  by_cases h : j < i
  · rw [if_pos h.le, if_pos h]
  · rw [if_neg h, if_neg (by omega)]

theorem backwardGS_iff (hI : DiagInv A dinv) {x y : Nat → M} :
    BackwardGS A b x y ↔ ∀ i < A.nbrows, y i = relaxVal A dinv b (fun j => if i < j then y j else x j) i := by
  refine forall₂_congr fun i hi => ?_
  rw [relaxVal_iff hI hi, ← add_sum_erase _ _ (mem_range.mpr hi), if_pos le_rfl]
  rw [sum_congr rfl fun j hj => ?_]
  have hne := ne_of_mem_erase hj
  by_cases h : i < j
  · rw [if_pos h.le, if_pos h]
  · rw [if_neg h, if_neg (by omega)]

theorem ForwardGS.self_iff {x y : Nat → M} (hxy : ∀ i < A.nbrows, x i = y i) :
    ForwardGS A b x y ↔ Solves A b x := by
  refine forall₂_congr fun i hi => ?_
  rw [sum_congr rfl fun j hj => ?_]
  rw [hxy j (mem_range.mp hj), ite_self]

theorem BackwardGS.self_iff {x y : Nat → M} (hxy : ∀ i < A.nbrows, x i = y i) :
    BackwardGS A b x y ↔ Solves A b x := by
  refine forall₂_congr fun i hi => ?_
  rw [sum_congr rfl fun j hj => ?_]
  rw [hxy j (mem_range.mp hj), ite_self]

theorem ForwardGS.unique (hI : DiagInv A dinv) {x y z : Nat → M} (hy : ForwardGS A b x y) (hz : ForwardGS A b x z) :
    ∀ i < A.nbrows, y i = z i := by
  rw [forwardGS_iff hI] at hy hz
  intro i
  induction i using Nat.strong_induction_on with
  | _ i ih =>
    intro hi
    rw [hy i hi, hz i hi]
    refine relaxVal_congr fun j hj => ?_
    by_cases h : j < i
    · rw [if_pos h, if_pos h, ih j h hj]
    · rw [if_neg h, if_neg h]

theorem BackwardGS.unique (hI : DiagInv A dinv) {x y z : Nat → M} (hy : BackwardGS A b x y)
    (hz : BackwardGS A b x z) : ∀ i < A.nbrows, y i = z i := by
  rw [backwardGS_iff hI] at hy hz
  suffices H : ∀ t i, A.nbrows - 1 - i = t → i < A.nbrows → y i = z i from fun i hi => H _ i rfl hi
  intro t
  induction t using Nat.strong_induction_on with
  | _ t ih =>
    rintro i rfl hi
    rw [hy i hi, hz i hi]
    refine relaxVal_congr fun j hj => ?_
    by_cases h : i < j
    · rw [if_pos h, if_pos h, ih (A.nbrows - 1 - j) (by omega) j rfl hj]
    · rw [if_neg h, if_neg h]

/-- A symmetric sweep is a step of the iteration preconditioned with the SGS matrix `(D+L) D⁻¹ (D+U)`: it adds
the solution of `(D+L) D⁻¹ (D+U) d = b - A x` to `x`. -/
theorem symmetric_sweep (hA : A.Full) (hS : A.Sorted) (hD : A.HasDiag) (hI : DiagInv A dinv) {x y z : Nat → M}
    (hf : ForwardGS A b x y) (hb : BackwardGS A b y z) :
    ∀ i < A.nbrows, ∑ j ∈ range A.nbrows, sgsMat A dinv i j • (z j - x j) =
      b⟦i⟧ - ∑ j ∈ range A.nbrows, A.entry i j • x j := by
  rw [forwardGS_iff hI] at hf
  rw [backwardGS_iff hI] at hb
  have hlow : ∀ i < A.nbrows, lowSum A A.vals i (fun j => if j < i then y j else x j) = lowSum A A.vals i y :=
    fun i hi => lowSum_congr hS hD hi fun j _ hd => if_pos hd.2
  have hup : ∀ i < A.nbrows, upSum A A.vals i (fun j => if j < i then y j else x j) = upSum A A.vals i x :=
    fun i hi => upSum_congr hA hS hD hi fun j _ hd => if_neg (by have := hd.2; omega)
  have hlow' : ∀ i < A.nbrows, lowSum A A.vals i (fun j => if i < j then z j else y j) = lowSum A A.vals i y :=
    fun i hi => lowSum_congr hS hD hi fun j _ hd => if_neg (by have := hd.2; omega)
  have hup' : ∀ i < A.nbrows, upSum A A.vals i (fun j => if i < j then z j else y j) = upSum A A.vals i z :=
    fun i hi => upSum_congr hA hS hD hi fun j _ hd => if_pos hd.2
  have hf' : ∀ i < A.nbrows, A.entry i i • y i + (lowSum A A.vals i y + upSum A A.vals i x) = b⟦i⟧ := by
    intro i hi
    have := (relaxVal_iff hI hi).mp (hf i hi)
    rwa [← off_sum hA hS hD hi, hlow i hi, hup i hi] at this
  have hb' : ∀ i < A.nbrows, A.entry i i • z i + (lowSum A A.vals i y + upSum A A.vals i z) = b⟦i⟧ := by
    intro i hi
    have := (relaxVal_iff hI hi).mp (hb i hi)
    rwa [← off_sum hA hS hD hi, hlow' i hi, hup' i hi] at this
  have hsub : ∀ (i : Nat) (u v : Nat → M), upSum A A.vals i (fun j => u j - v j) = upSum A A.vals i u - upSum A A.vals i v := by
    intro i u v
    unfold upSum
    rw [← sum_sub_distrib]
    exact sum_congr rfl fun p _ => smul_sub _ _ _
  have hsubl : ∀ (i : Nat) (u v : Nat → M),
      lowSum A A.vals i (fun j => u j - v j) = lowSum A A.vals i u - lowSum A A.vals i v := by
    intro i u v
    unfold lowSum
    rw [← sum_sub_distrib]
    exact sum_congr rfl fun p _ => smul_sub _ _ _
  have hmid : ∀ k < A.nbrows, dinv⟦k⟧ • ∑ j ∈ range A.nbrows, (if k ≤ j then A.entry k j else 0) • (z j - x j) =
      y k - x k := by
    intro k hk
    rw [upDiag_mul hA hS hD hk (fun j => z j - x j), hsub]
    have e : A.entry k k • (z k - x k) + (upSum A A.vals k z - upSum A A.vals k x) = A.entry k k • (y k - x k) := by
      have h1 := hf' k hk
      rw [← hb' k hk] at h1
      rw [smul_sub, smul_sub]
      have h2 : A.entry k k • y k + upSum A A.vals k x = A.entry k k • z k + upSum A A.vals k z := by
        have := congrArg (fun v => v - lowSum A A.vals k y) h1
        have l : A.entry k k • y k + (lowSum A A.vals k y + upSum A A.vals k x) - lowSum A A.vals k y =
          A.entry k k • y k + upSum A A.vals k x := by abel
        have r : A.entry k k • z k + (lowSum A A.vals k y + upSum A A.vals k z) - lowSum A A.vals k y =
          A.entry k k • z k + upSum A A.vals k z := by abel
        rwa [l, r] at this
      have h3 : A.entry k k • z k = A.entry k k • y k + upSum A A.vals k x - upSum A A.vals k z := by
        rw [h2, add_sub_cancel_right]
      rw [h3]
      abel
    rw [e, smul_smul, hI.left k hk, one_smul]
  intro i hi
  rw [sgsMat_mul hA hS hD hi (fun j => z j - x j), hmid i hi,
    lowSum_congr hS hD hi (h := fun k => y k - x k) fun k hk _ => hmid k hk, hsubl, row_mul hA hS hD hi x, ← hf' i hi,
    smul_sub]
  abel

/-- A forward sweep of the kernel is a forward Gauss-Seidel sweep. -/
theorem relax_forward (hA : A.Full) (hS : A.Sorted) (hD : A.HasDiag) (hI : DiagInv A dinv) (hb : b.length = A.nbrows)
    {x : List M} (hx : x.length = A.nbrows) :
    Ok (forRange 0 A.nbrows (updRow (relaxRow A dinv b)) x) (fun y => y.length = A.nbrows ∧
      ForwardGS A b (get0 x) (get0 y)) :=
  ((rowUpd_relaxVal hA hS hD hI hb).gsFwd (fun _ _ h => h.2) hx).mono fun _ hy => ⟨hy.1, (forwardGS_iff hI).mpr hy.2⟩

/-- A backward sweep of the kernel is a backward Gauss-Seidel sweep. -/
theorem relax_backward (hA : A.Full) (hS : A.Sorted) (hD : A.HasDiag) (hI : DiagInv A dinv) (hb : b.length = A.nbrows)
    {x : List M} (hx : x.length = A.nbrows) :
    Ok (forDown 0 A.nbrows (updRow (relaxRow A dinv b)) x) (fun y => y.length = A.nbrows ∧
      BackwardGS A b (get0 x) (get0 y)) :=
  ((rowUpd_relaxVal hA hS hD hI hb).gsBwd (fun _ _ h => h.2) hx).mono fun _ hy => ⟨hy.1, (backwardGS_iff hI).mpr hy.2⟩

/-- The iterates of the sequential chaotic relaxation: `k` forward Gauss-Seidel sweeps. -/
inductive ForwardGSs (A : SR R) (b : List M) : Nat → (Nat → M) → (Nat → M) → Prop
  | zero (x : Nat → M) : ForwardGSs A b 0 x x
  | succ {k : Nat} {x y z : Nat → M} : ForwardGSs A b k x y → ForwardGS A b y z → ForwardGSs A b (k + 1) x z

/-- `k` symmetric sweeps: each a forward and a backward Gauss-Seidel sweep. -/
inductive SymmetricGSs (A : SR R) (b : List M) : Nat → (Nat → M) → (Nat → M) → Prop
  | zero (x : Nat → M) : SymmetricGSs A b 0 x x
  | succ {k : Nat} {x y z w : Nat → M} : SymmetricGSs A b k x y → ForwardGS A b y z → BackwardGS A b z w →
      SymmetricGSs A b (k + 1) x w

/-- **C36**, chaotic relaxation with one thread: `k` Gauss-Seidel sweeps on the given vector. -/
theorem chaotic_relax_correct (hA : A.Full) (hS : A.Sorted) (hD : A.HasDiag) (hI : DiagInv A dinv)
    (hb : b.length = A.nbrows) (k : Nat) {x : List M} (hx : x.length = A.nbrows) :
    Ok (chaoticRelax A dinv k b x) (fun x' => x'.length = A.nbrows ∧ ForwardGSs A b k (get0 x) (get0 x')) := by
  unfold chaoticRelax fwdSweeps
  refine forRange_ok (fun t y => y.length = A.nbrows ∧ ForwardGSs A b t (get0 x) (get0 y)) (Nat.zero_le k)
    ⟨hx, .zero _⟩ ?_
  rintro t y _ _ ⟨hl, hy⟩
  exact (relax_forward hA hS hD hI hb hl).mono fun z hz => ⟨hz.1, .succ hy hz.2⟩

/-- **C36**, SGS relaxation with one thread. -/
theorem sgs_relax_correct (hA : A.Full) (hS : A.Sorted) (hD : A.HasDiag) (hI : DiagInv A dinv)
    (hb : b.length = A.nbrows) (k : Nat) {x : List M} (hx : x.length = A.nbrows) :
    Ok (sgsRelax A dinv k b x) (fun x' => x'.length = A.nbrows ∧ SymmetricGSs A b k (get0 x) (get0 x')) := by
  unfold sgsRelax
  refine forRange_ok (fun t y => y.length = A.nbrows ∧ SymmetricGSs A b t (get0 x) (get0 y)) (Nat.zero_le k)
    ⟨hx, .zero _⟩ ?_
  rintro t y _ _ ⟨hl, hy⟩
  exact (relax_forward hA hS hD hI hb hl).bind fun z hz =>
    (relax_backward hA hS hD hI hb hz.1).mono fun w hw => ⟨hw.1, .succ hy hz.2 hw.2⟩

/-- **C36**, level-scheduled SGS relaxation: the same symmetric sweeps, whatever the order within the levels. -/
theorem level_sgs_relax_correct (hA : A.Full) (hS : A.Sorted) (hD : A.HasDiag) (hI : DiagInv A dinv)
    (hb : b.length = A.nbrows) {levels : List Nat} (hL : LevelsOk A levels)
    {sched sched' : Nat → Nat → List Nat → List Nat} (hsch : ∀ s t l, (sched s t l).Perm l)
    (hsch' : ∀ s t l, (sched' s t l).Perm l) (k : Nat) {x : List M} (hx : x.length = A.nbrows) :
    Ok (levelSgsRelax A dinv levels sched sched' k b x) (fun x' => x'.length = A.nbrows ∧
      SymmetricGSs A b k (get0 x) (get0 x')) := by
  unfold levelSgsRelax
  refine forRange_ok (fun t y => y.length = A.nbrows ∧ SymmetricGSs A b t (get0 x) (get0 y)) (Nat.zero_le k)
    ⟨hx, .zero _⟩ ?_
  rintro t y _ _ ⟨hl, hy⟩
  refine ((rowUpd_relaxVal hA hS hD hI hb).gsLevelUp hL (hsch t) hl).bind fun z hz => ?_
  refine ((rowUpd_relaxVal hA hS hD hI hb).gsLevelDown hL (hsch' t) hz.1).mono fun w hw => ?_
  exact ⟨hw.1, .succ hy ((forwardGS_iff hI).mpr hz.2) ((backwardGS_iff hI).mpr hw.2)⟩

/-- The same with arbitrary interleaving and visibility within the levels. -/
theorem level_sgs_relax_async (hA : A.Full) (hS : A.Sorted) (hD : A.HasDiag) (hI : DiagInv A dinv)
    (hb : b.length = A.nbrows) {levels : List Nat} (hL : LevelsOk A levels) {mix : Set M → Set M} (hm : MixOk mix)
    {k : Nat} {x x' : List M} (hx : x.length = A.nbrows) (h : AsyncLevelSgsRelax A dinv mix levels b k x x') :
    x'.length = A.nbrows ∧ SymmetricGSs A b k (get0 x) (get0 x') := by
  induction h with
  | zero => exact ⟨hx, .zero _⟩
  | succ _ h1 h2 ih =>
    obtain ⟨hl, hy⟩ := ih hx
    have hz := (rowUpd_relaxVal hA hS hD hI hb).gsAlevelsUp hL hm hl h1
    have hw := (rowUpd_relaxVal hA hS hD hI hb).gsAlevelsDown hL hm hz.1 h2
    exact ⟨hw.1, .succ hy ((forwardGS_iff hI).mpr hz.2) ((backwardGS_iff hI).mpr hw.2)⟩

theorem ForwardGSs.fixed (hI : DiagInv A dinv) {k : Nat} {x x' : Nat → M} (h : ForwardGSs A b k x x')
    (hs : Solves A b x) : ∀ i < A.nbrows, x' i = x i := by
  induction h with
  | zero => exact fun _ _ => rfl
  | @succ k x y z _ h2 ih =>
    have hy := ih hs
    have : ForwardGS A b y x := fun i hi => by
      rw [← hs i hi]
      refine sum_congr rfl fun j hj => ?_
      rw [hy j (mem_range.mp hj), ite_self]
    exact h2.unique hI this

theorem SymmetricGSs.fixed (hI : DiagInv A dinv) {k : Nat} {x x' : Nat → M} (h : SymmetricGSs A b k x x')
    (hs : Solves A b x) : ∀ i < A.nbrows, x' i = x i := by
  induction h with
  | zero => exact fun _ _ => rfl
  | @succ k x y z w _ h2 h3 ih =>
    have hy := ih hs
    have h4 : ForwardGS A b y x := fun i hi => by
      rw [← hs i hi]
      refine sum_congr rfl fun j hj => ?_
      rw [hy j (mem_range.mp hj), ite_self]
    have hz := h2.unique hI h4
    have h5 : BackwardGS A b z x := fun i hi => by
      rw [← hs i hi]
      refine sum_congr rfl fun j hj => ?_
      rw [hz j (mem_range.mp hj), ite_self]
    exact h3.unique hI h5

/-- **C36**: a solution is a fixed point of the sequential relaxations. -/
theorem relax_fixed (hA : A.Full) (hS : A.Sorted) (hD : A.HasDiag) (hI : DiagInv A dinv) (hb : b.length = A.nbrows)
    {x : List M} (hx : x.length = A.nbrows) (hs : Solves A b (get0 x)) (k : Nat) :
    chaoticRelax A dinv k b x = .ok x ∧ sgsRelax A dinv k b x = .ok x ∧
    ∀ levels, LevelsOk A levels → ∀ sched sched' : Nat → Nat → List Nat → List Nat,
      (∀ s t l, (sched s t l).Perm l) → (∀ s t l, (sched' s t l).Perm l) →
      levelSgsRelax A dinv levels sched sched' k b x = .ok x := by
  refine ⟨?_, ?_, fun levels hL sched sched' h1 h2 => ?_⟩
  · obtain ⟨y, e, hl, hy⟩ := chaotic_relax_correct hA hS hD hI hb k hx
    rw [e, ext_get0 (by omega) fun i hi => hy.fixed hI hs i (by omega)]
  · obtain ⟨y, e, hl, hy⟩ := sgs_relax_correct hA hS hD hI hb k hx
    rw [e, ext_get0 (by omega) fun i hi => hy.fixed hI hs i (by omega)]
  · obtain ⟨y, e, hl, hy⟩ := level_sgs_relax_correct hA hS hD hI hb hL h1 h2 k hx
    rw [e, ext_get0 (by omega) fun i hi => hy.fixed hI hs i (by omega)]

/-- **C36**: a solution is a fixed point of every asynchronous execution of the relaxation kernel, whatever the number and
order of the updates and the staleness of the reads. -/
theorem relax_fixed_async (hA : A.Full) (hS : A.Sorted) (hD : A.HasDiag) (hI : DiagInv A dinv)
    (hb : b.length = A.nbrows) {mix : Set M → Set M} (hm : MixOk mix) {x : List M}
    (hs : Solves A b (get0 x)) {log : List (Nat × M)}
    (h : ALog (relaxRow A dinv b) mix A.nbrows (memOf x) log) : applyLog x log = x :=
  (rowUpd_relaxVal hA hS hD hI hb).fixed hm ((solves_iff hI).mp hs) h

/-- **C36**: in particular for the overlapping sweeps of the chaotic and SGS relaxations. -/
theorem chaotic_relax_fixed_async (hA : A.Full) (hS : A.Sorted) (hD : A.HasDiag) (hI : DiagInv A dinv)
    (hb : b.length = A.nbrows) {mix : Set M → Set M} (hm : MixOk mix) {k : Nat} {x x' : List M}
    (hx : x.length = A.nbrows) (hs : Solves A b (get0 x)) (h : AsyncChaoticRelax A dinv mix k b x x') : x' = x := by
  rcases h with ⟨_, rfl⟩ | ⟨log, last, hr, rfl⟩
  · rfl
  · have hfix : ∀ w ∈ memOf x, w.2 = get0 x w.1 := fun w hw => memOf_eq hw
    have key : (∀ w ∈ log, w.2 = x⟦w.1⟧) ∧ ∀ w ∈ last, w.2 = x⟦w.1⟧ := by
      have hstep : ∀ (B : Set (Nat × M)) (log : List (Nat × M)), (∀ w ∈ B, w.2 = x⟦w.1⟧) →
          ALog (relaxRow A dinv b) mix x.length B log → ∀ w ∈ log, w.2 = x⟦w.1⟧ := by
        intro B log hB hl
        refine hl.exact_of_exact hm (e := get0 x) ?_ (fun w hw _ => hB w hw)
        intro i hi view hview v hv
        rw [hx] at hi hview hv
        rw [(rowUpd_relaxVal hA hS hD hI hb).yields hi hv, (solves_iff hI).mp hs i hi]
        exact relaxVal_congr hview
      induction hr with
      | first hl _ => exact ⟨hstep _ _ hfix hl, hstep _ _ hfix hl⟩
      | next _ hl _ ih =>
        have := hstep _ _ (fun w hw => ih.2 w hw) hl
        exact ⟨fun w hw => (List.mem_append.mp hw).elim (ih.1 w) (this w), this⟩
    refine ext_get0 (by simp) fun i hi => ?_
    rcases mem_applyLog (memOf_get0 hi) with h1 | ⟨h1, _⟩
    · exact key.1 _ h1
    · exact memOf_eq h1

/-- **C36**: the same for the SGS relaxation with threads. -/
theorem sgs_relax_fixed_async (hA : A.Full) (hS : A.Sorted) (hD : A.HasDiag) (hI : DiagInv A dinv)
    (hb : b.length = A.nbrows) {mix : Set M → Set M} (hm : MixOk mix) {k : Nat} {x x' : List M}
    (hx : x.length = A.nbrows) (hs : Solves A b (get0 x)) (h : AsyncSgsRelax A dinv mix k b x x') : x' = x := by
  rcases h with ⟨_, rfl⟩ | h
  · rfl
  · exact chaotic_relax_fixed_async hA hS hD hI hb hm hx hs (k := 2 * k) (Or.inr h)

/-- **C36**, converse for the sequential sweeps: a vector that a forward sweep, a symmetric sweep or a level-scheduled
symmetric sweep leaves unchanged is a solution. -/
theorem relax_converse (hA : A.Full) (hS : A.Sorted) (hD : A.HasDiag) (hI : DiagInv A dinv) (hb : b.length = A.nbrows)
    {x : List M} (hx : x.length = A.nbrows) :
    (chaoticRelax A dinv 1 b x = .ok x → Solves A b (get0 x)) ∧
    (sgsRelax A dinv 1 b x = .ok x → Solves A b (get0 x)) ∧
    ∀ levels, LevelsOk A levels → ∀ sched sched' : Nat → Nat → List Nat → List Nat,
      (∀ s t l, (sched s t l).Perm l) → (∀ s t l, (sched' s t l).Perm l) →
      levelSgsRelax A dinv levels sched sched' 1 b x = .ok x → Solves A b (get0 x) := by
  have hsym : ∀ y : List M, SymmetricGSs A b 1 (get0 x) (get0 y) → y = x → Solves A b (get0 x) := by
    rintro y hy rfl
    have key : ∀ x z : Nat → M, SymmetricGSs A b 1 x z → ∀ i < A.nbrows,
        ∑ j ∈ range A.nbrows, sgsMat A dinv i j • (z j - x j) = b⟦i⟧ - ∑ j ∈ range A.nbrows, A.entry i j • x j := by
      intro x z h
      cases h with
      | succ h1 h2 h3 =>
        cases h1
        exact symmetric_sweep hA hS hD hI h2 h3
    intro i hi
    have := key _ _ hy i hi
    simp only [sub_self, smul_zero, sum_const_zero] at this
    exact (sub_eq_zero.mp this.symm).symm
  refine ⟨fun h => ?_, fun h => ?_, fun levels hL sched sched' h1 h2 h => ?_⟩
  · obtain ⟨y, e, hl, hy⟩ := chaotic_relax_correct hA hS hD hI hb 1 hx
    rw [h] at e
    cases e
    have key : ∀ x z : Nat → M, ForwardGSs A b 1 x z → ForwardGS A b x z := by
      intro x z h
      cases h with
      | succ h1 h2 => cases h1; exact h2
    exact (ForwardGS.self_iff fun _ _ => rfl).mp (key _ _ hy)
  · obtain ⟨y, e, hl, hy⟩ := sgs_relax_correct hA hS hD hI hb 1 hx
    rw [h] at e
    cases e
    exact hsym _ hy rfl
  · obtain ⟨y, e, hl, hy⟩ := level_sgs_relax_correct hA hS hD hI hb hL h1 h2 1 hx
    rw [h] at e
    cases e
    exact hsym _ hy rfl

/-- **C36**, converse for asynchronous sweeps: if a sweep that updates every row once, in any order and with any staleness,
leaves the vector unchanged, the vector is a solution. -/
theorem relax_converse_async (hA : A.Full) (hS : A.Sorted) (hD : A.HasDiag) (hI : DiagInv A dinv)
    (hb : b.length = A.nbrows) {mix : Set M → Set M} (hm : MixOk mix) {x : List M} (hx : x.length = A.nbrows)
    (h : AFree (relaxRow A dinv b) mix 1 x x) : Solves A b (get0 x) := by
  obtain ⟨log, hl, hc, he⟩ := h
  have hval : ∀ w ∈ log, w.2 = x⟦w.1⟧ := by
    rintro ⟨i, v⟩ hw
    have hi : i < x.length := hl.lt _ hw
    obtain ⟨l₁, l₂, rfl⟩ := List.append_of_mem hw
    have hcount := hc i hi
    simp only [List.map_append, List.map_cons, List.count_append, List.count_cons_self] at hcount
    have h2 : ∀ u ∈ l₂, u.1 ≠ i := by
      intro u hu hui
      have : 0 < (l₂.map Prod.fst).count i := List.count_pos_iff.mpr (List.mem_map.mpr ⟨u, hu, hui⟩)
      omega
    have hmem : ∀ (l : List (Nat × M)) (y : List M), (∀ u ∈ l, u.1 ≠ i) → (applyLog y l)⟦i⟧ = y⟦i⟧ := by
      intro l
      induction l with
      | nil => intro y _; rfl
      | cons u l ih =>
        intro y hu
        show (applyLog (y.set u.1 u.2) l)⟦i⟧ = y⟦i⟧
        rw [ih _ fun w hw => hu w (by simp [hw]), get0_set_ne (hu u (by simp))]
    have : x⟦i⟧ = (applyLog x (l₁ ++ (i, v) :: l₂))⟦i⟧ := congrArg (fun y => y⟦i⟧) he
    rw [show l₁ ++ (i, v) :: l₂ = l₁ ++ [(i, v)] ++ l₂ by simp, applyLog_append, hmem _ _ h2, applyLog_append] at this
    rw [this]
    show v = ((applyLog x l₁).set i v)⟦i⟧
    rw [get0_set_self (by simpa using hi)]
  rw [solves_iff hI]
  intro i hi
  have hcov : ∃ v, (i, v) ∈ log := by
    have : 0 < (log.map Prod.fst).count i := by rw [hc i (by omega)]; omega
    obtain ⟨w, hw, rfl⟩ := List.mem_map.mp (List.count_pos_iff.mp this)
    exact ⟨w.2, hw⟩
  obtain ⟨v, hv⟩ := hcov
  rw [← hval _ hv]
  rw [hx] at hl
  clear hc he
  induction hl with
  | nil => simp at hv
  | @write log i' v' view hprev hview hi' hupd ih =>
    by_cases hin : (i, v) ∈ log
    · exact ih (fun w hw => hval w (by simp [hw])) hin
    · rcases List.mem_append.mp hv with h | h
      · exact absurd h hin
      · rw [List.mem_singleton] at h
        cases h
        show v = _
        rw [(rowUpd_relaxVal hA hS hD hI hb).yields hi' hupd]
        refine relaxVal_congr fun j hj => hm.single (v := x⟦j⟧) ?_ (hview j hj)
        rintro u (hu | hu)
        · exact memOf_eq (w := (j, u)) hu
        · exact hval (j, u) (by simp [hu])

end gs

/-! ### Convergence (C37) -/

section convergence

/-- The error of an update in terms of the errors of the values read. -/
theorem relaxVal_error [Ring R] [AddCommGroup M] [Module R M] {A : SR R} {dinv : List R} {b : List M}
    (hI : DiagInv A dinv) {s : Nat → M} (hs : Solves A b s) {i : Nat} (hi : i < A.nbrows) (x : Nat → M) :
    relaxVal A dinv b x i - s i = - ∑ j ∈ (range A.nbrows).erase i, (dinv⟦i⟧ * A.entry i j) • (x j - s j) := by
  conv_lhs => rw [(solves_iff hI).mp hs i hi]
  unfold relaxVal
  rw [← smul_sub, sub_sub_sub_cancel_left, ← sum_sub_distrib, smul_sum, ← sum_neg_distrib]
  refine sum_congr rfl fun j _ => ?_
  rw [mul_smul, ← smul_neg, ← smul_neg, ← smul_sub, neg_sub]

variable [Field K] [LinearOrder K] [IsStrictOrderedRing K]

/-- Strict row diagonal dominance with ratio `rho`. -/
def Dominant (A : SR K) (rho : K) : Prop :=
  ∀ i < A.nbrows, ∑ j ∈ (range A.nbrows).erase i, |A.entry i j| ≤ rho * |A.entry i i|

/-- The block counterpart: the rows of the matrix preconditioned with the inverse diagonal blocks. -/
def BlockDominant {bs : Nat} (A : SR (Matrix (Fin bs) (Fin bs) K)) (dinv : List (Matrix (Fin bs) (Fin bs) K))
    (rho : K) : Prop :=
  ∀ i < A.nbrows, ∀ a : Fin bs, ∑ j ∈ (range A.nbrows).erase i, ∑ c, |(dinv⟦i⟧ * A.entry i j) a c| ≤ rho

theorem relaxVal_contract {A : SR K} {dinv b : List K} {rho : K} (hI : DiagInv A dinv) (hdom : Dominant A rho)
    {s : Nat → K} (hs : Solves A b s) {E : K} (hE : 0 ≤ E) {i : Nat} (hi : i < A.nbrows) {x : Nat → K}
    (hx : ∀ j < A.nbrows, |x j - s j| ≤ E) : |relaxVal A dinv b x i - s i| ≤ rho * E := by
  rw [relaxVal_error hI hs hi, abs_neg]
  have hd : |dinv⟦i⟧| * |A.entry i i| = 1 := by rw [← abs_mul, hI.left i hi, abs_one]
  calc |∑ j ∈ (range A.nbrows).erase i, (dinv⟦i⟧ * A.entry i j) • (x j - s j)|
      ≤ ∑ j ∈ (range A.nbrows).erase i, |(dinv⟦i⟧ * A.entry i j) • (x j - s j)| := abs_sum_le_sum_abs _ _
    _ ≤ ∑ j ∈ (range A.nbrows).erase i, |dinv⟦i⟧| * |A.entry i j| * E := by
        refine sum_le_sum fun j hj => ?_
        rw [smul_eq_mul, abs_mul, abs_mul]
        exact mul_le_mul_of_nonneg_left (hx j (mem_range.mp (mem_of_mem_erase hj)))
          (mul_nonneg (abs_nonneg _) (abs_nonneg _))
    _ = |dinv⟦i⟧| * (∑ j ∈ (range A.nbrows).erase i, |A.entry i j|) * E := by rw [mul_sum, sum_mul]
    _ ≤ |dinv⟦i⟧| * (rho * |A.entry i i|) * E :=
        mul_le_mul_of_nonneg_right (mul_le_mul_of_nonneg_left (hdom i hi) (abs_nonneg _)) hE
    _ = rho * E := by rw [mul_left_comm, hd, mul_one]

section block
open scoped Matrix.Module

theorem block_relaxVal_contract {bs : Nat} {A : SR (Matrix (Fin bs) (Fin bs) K)}
    {dinv : List (Matrix (Fin bs) (Fin bs) K)} {b : List (Fin bs → K)} {rho : K} (hI : DiagInv A dinv)
    (hdom : BlockDominant A dinv rho) {s : Nat → Fin bs → K} (hs : Solves A b s) {E : K} (hE : 0 ≤ E)
    {i : Nat} (hi : i < A.nbrows) {x : Nat → Fin bs → K} (hx : ∀ j < A.nbrows, ∀ a, |x j a - s j a| ≤ E) (a : Fin bs) :
    |relaxVal A dinv b x i a - s i a| ≤ rho * E := by
  have h := congrFun (relaxVal_error hI hs hi x) a
  rw [Pi.sub_apply] at h
  rw [h, Pi.neg_apply, abs_neg, Finset.sum_apply]
  calc |∑ j ∈ (range A.nbrows).erase i, ((dinv⟦i⟧ * A.entry i j) • (x j - s j)) a|
      ≤ ∑ j ∈ (range A.nbrows).erase i, |((dinv⟦i⟧ * A.entry i j) • (x j - s j)) a| := abs_sum_le_sum_abs _ _
    _ ≤ ∑ j ∈ (range A.nbrows).erase i, (∑ c, |(dinv⟦i⟧ * A.entry i j) a c|) * E := by
        refine sum_le_sum fun j hj => ?_
        have : ((dinv⟦i⟧ * A.entry i j) • (x j - s j)) a = ∑ c, (dinv⟦i⟧ * A.entry i j) a c * (x j - s j) c := rfl
        rw [this, sum_mul]
        refine (abs_sum_le_sum_abs _ _).trans (sum_le_sum fun c _ => ?_)
        rw [abs_mul]
        exact mul_le_mul_of_nonneg_left (hx j (mem_range.mp (mem_of_mem_erase hj)) c) (abs_nonneg _)
    _ = (∑ j ∈ (range A.nbrows).erase i, ∑ c, |(dinv⟦i⟧ * A.entry i j) a c|) * E := by rw [sum_mul]
    _ ≤ rho * E := mul_le_mul_of_nonneg_right (hdom i hi a) hE

end block

section scalar
variable {A : SR K} {dinv b : List K} {rho E : K} {s : Nat → K}

/-- **C37**, arbitrary staleness: whatever the order of the updates, and however old the values they read, no value ever
written, and no value in memory, is farther from the solution than the farthest initial value; every value written is
closer by the factor `rho`. -/
theorem chaotic_error_bounded (hA : A.Full) (hS : A.Sorted) (hD : A.HasDiag) (hI : DiagInv A dinv)
    (hb : b.length = A.nbrows) (hdom : Dominant A rho) (h1 : rho ≤ 1) (hs : Solves A b s)
    {x : List K} (hx : x.length = A.nbrows) (hE : 0 ≤ E) (h0 : ∀ i < A.nbrows, |x⟦i⟧ - s i| ≤ E)
    {log : List (Nat × K)} (h : ALog (relaxRow A dinv b) mixWhole A.nbrows (memOf x) log) :
    (∀ w ∈ log, |w.2 - s w.1| ≤ rho * E) ∧ ∀ i < A.nbrows, |(applyLog x log)⟦i⟧ - s i| ≤ E := by
  have hle : rho * E ≤ E := mul_le_of_le_one_left hE h1
  have key := h.contract (Q := fun E j u => |u - s j| ≤ E) (E := E) (E' := rho * E) (fun j S hS w hw => hS w hw)
    (fun j u hu => hu.trans hle)
    (fun i hi view hview v hv => by
      rw [(rowUpd_relaxVal hA hS hD hI hb).yields hi hv]
      exact relaxVal_contract hI hdom hs hE hi hview)
    (fun w hw hwn => by rw [memOf_eq hw]; exact h0 _ hwn)
  refine ⟨key, fun i hi => ?_⟩
  rcases mem_applyLog (memOf_get0 (x := applyLog x log) (i := i) (by simpa [hx] using hi)) with h1 | ⟨h1, _⟩
  · exact (key _ h1).trans hle
  · have e : (applyLog x log)⟦i⟧ = x⟦i⟧ := memOf_eq (w := (i, (applyLog x log)⟦i⟧)) h1
    rw [e]; exact h0 i hi

theorem arun_contract (hA : A.Full) (hS : A.Sorted) (hD : A.HasDiag) (hI : DiagInv A dinv)
    (hb : b.length = A.nbrows) (hdom : Dominant A rho) (hr : 0 ≤ rho) (h1 : rho ≤ 1) (hs : Solves A b s)
    {x x' : List K} (hx : x.length = A.nbrows) (hE : 0 ≤ E) (h0 : ∀ i < A.nbrows, |x⟦i⟧ - s i| ≤ E) {k : Nat}
    (h : ARun (relaxRow A dinv b) mixWhole k x x') : ∀ i < A.nbrows, |x'⟦i⟧ - s i| ≤ rho ^ k * E := by
  obtain ⟨log, last, hR, rfl⟩ := h
  have key := hR.contract (Q := fun E j u => |u - s j| ≤ E) hr h1 hE (fun E j S hS w hw => hS w hw)
    (fun E E' j u hle hu => hu.trans hle)
    (fun E hE i hi view hview v hv => by
      rw [hx] at hi hview hv
      rw [(rowUpd_relaxVal hA hS hD hI hb).yields hi hv]
      exact relaxVal_contract hI hdom hs hE hi hview)
    (fun w hw => by
      by_cases hwn : w.1 < A.nbrows
      · rw [memOf_eq hw]; exact h0 _ hwn
      · have hw' : x[w.1]? = some w.2 := hw
        rw [List.getElem?_eq_none (by omega)] at hw'
        cases hw')
  intro i hi
  exact key.2 _ (hR.mem_last (memOf_get0 (x := applyLog x log) (i := i) (by simpa [hx] using hi)))

/-- **C37**: `k` sweeps of the chaotic relaxation multiply the largest error by at most `rho ^ k`, whatever the schedule. -/
theorem chaotic_converges (hA : A.Full) (hS : A.Sorted) (hD : A.HasDiag) (hI : DiagInv A dinv)
    (hb : b.length = A.nbrows) (hdom : Dominant A rho) (hr : 0 ≤ rho) (h1 : rho ≤ 1) (hs : Solves A b s)
    {x x' : List K} (hx : x.length = A.nbrows) (hE : 0 ≤ E) (h0 : ∀ i < A.nbrows, |x⟦i⟧ - s i| ≤ E) {k : Nat}
    (h : AsyncChaoticRelax A dinv mixWhole k b x x') : ∀ i < A.nbrows, |x'⟦i⟧ - s i| ≤ rho ^ k * E := by
  rcases h with ⟨rfl, rfl⟩ | h
  · simpa using h0
  · exact arun_contract hA hS hD hI hb hdom hr h1 hs hx hE h0 h

/-- **C37**: the same for the SGS relaxation with threads, every step of which is two sweeps. -/
theorem sgs_relax_converges (hA : A.Full) (hS : A.Sorted) (hD : A.HasDiag) (hI : DiagInv A dinv)
    (hb : b.length = A.nbrows) (hdom : Dominant A rho) (hr : 0 ≤ rho) (h1 : rho ≤ 1) (hs : Solves A b s)
    {x x' : List K} (hx : x.length = A.nbrows) (hE : 0 ≤ E) (h0 : ∀ i < A.nbrows, |x⟦i⟧ - s i| ≤ E) {k : Nat}
    (h : AsyncSgsRelax A dinv mixWhole k b x x') : ∀ i < A.nbrows, |x'⟦i⟧ - s i| ≤ rho ^ (2 * k) * E := by
  rcases h with ⟨rfl, rfl⟩ | h
  · simpa using h0
  · exact arun_contract hA hS hD hI hb hdom hr h1 hs hx hE h0 h

/-- **C37**, in the limit: for `rho < 1` every accuracy is reached after some number of sweeps that does not depend on the
schedule. -/
theorem chaotic_limit [Archimedean K] (hA : A.Full) (hS : A.Sorted) (hD : A.HasDiag) (hI : DiagInv A dinv)
    (hb : b.length = A.nbrows) (hdom : Dominant A rho) (hr : 0 ≤ rho) (h1 : rho < 1) (hs : Solves A b s)
    {x : List K} (hx : x.length = A.nbrows) (hE : 0 ≤ E) (h0 : ∀ i < A.nbrows, |x⟦i⟧ - s i| ≤ E) {ε : K} (hε : 0 < ε) :
    ∃ k₀, ∀ k ≥ k₀, ∀ x', AsyncChaoticRelax A dinv mixWhole k b x x' → ∀ i < A.nbrows, |x'⟦i⟧ - s i| < ε := by
  obtain ⟨k₀, hk⟩ : ∃ k₀ : Nat, rho ^ k₀ < ε / (E + 1) :=
    exists_pow_lt_of_lt_one (div_pos hε (add_pos_of_nonneg_of_pos hE one_pos)) h1
  refine ⟨k₀, fun k hkk x' h i hi => ?_⟩
  have hE1 : (0 : K) < E + 1 := add_pos_of_nonneg_of_pos hE one_pos
  calc |x'⟦i⟧ - s i| ≤ rho ^ k * E := chaotic_converges hA hS hD hI hb hdom hr h1.le hs hx hE h0 h i hi
    _ ≤ rho ^ k₀ * E := mul_le_mul_of_nonneg_right (pow_le_pow_of_le_one hr h1.le hkk) hE
    _ ≤ rho ^ k₀ * (E + 1) := mul_le_mul_of_nonneg_left (le_add_of_nonneg_right zero_le_one) (pow_nonneg hr _)
    _ < ε / (E + 1) * (E + 1) := mul_lt_mul_of_pos_right hk hE1
    _ = ε := div_mul_cancel₀ _ hE1.ne'

/-- **C37**: the Jacobi relaxation contracts in the same way. -/
theorem jacobi_converges (hI : DiagInv A dinv) (hdom : Dominant A rho) (hr : 0 ≤ rho) (hs : Solves A b s) (hE : 0 ≤ E)
    {x : Nat → K} (h0 : ∀ i < A.nbrows, |x i - s i| ≤ E) (T : Nat) :
    ∀ i < A.nbrows, |jacobiIter A dinv b x T i - s i| ≤ rho ^ T * E := by
  induction T with
  | zero => simpa [jacobiIter] using h0
  | succ T ih =>
    intro i hi
    rw [pow_succ', mul_assoc]
    exact relaxVal_contract hI hdom hs (mul_nonneg (pow_nonneg hr T) hE) hi ih

end scalar

section blockconv
open scoped Matrix.Module

/-- **C37** for blocks: the same in the maximum norm over all coefficients, with reads that mix coefficients of
different versions of a segment, if the matrix preconditioned with its inverse diagonal blocks is dominant. -/
theorem block_chaotic_converges {bs : Nat} {A : SR (Matrix (Fin bs) (Fin bs) K)}
    {dinv : List (Matrix (Fin bs) (Fin bs) K)} {b : List (Fin bs → K)} {rho E : K} {s : Nat → Fin bs → K}
    (hA : A.Full) (hS : A.Sorted) (hD : A.HasDiag) (hI : DiagInv A dinv)
    (hb : b.length = A.nbrows) (hdom : BlockDominant A dinv rho) (hr : 0 ≤ rho) (h1 : rho ≤ 1) (hs : Solves A b s)
    {x x' : List (Fin bs → K)} (hx : x.length = A.nbrows) (hE : 0 ≤ E)
    (h0 : ∀ i < A.nbrows, ∀ a, |x⟦i⟧ a - s i a| ≤ E) {k : Nat}
    (h : AsyncChaoticRelax A dinv mixTornSeg k b x x') : ∀ i < A.nbrows, ∀ a, |x'⟦i⟧ a - s i a| ≤ rho ^ k * E := by
  rcases h with ⟨rfl, rfl⟩ | ⟨log, last, hR, rfl⟩
  · simpa using h0
  have key := hR.contract (Q := fun E j u => ∀ a, |u a - s j a| ≤ E) hr h1 hE
    (fun E j S hS w hw a => by
      obtain ⟨u, hu, e⟩ := hw a
      rw [e]
      exact hS u hu a)
    (fun E E' j u hle hu a => (hu a).trans hle)
    (fun E hE i hi view hview v hv => by
      rw [hx] at hi hview hv
      rw [(rowUpd_relaxVal hA hS hD hI hb).yields hi hv]
      exact block_relaxVal_contract hI hdom hs hE hi hview)
    (fun w hw => by
      by_cases hwn : w.1 < A.nbrows
      · rw [memOf_eq hw]; exact h0 _ hwn
      · have hw' : x[w.1]? = some w.2 := hw
        rw [List.getElem?_eq_none (by omega)] at hw'
        cases hw')
  intro i hi
  exact key.2 _ (hR.mem_last (memOf_get0 (x := applyLog x log) (i := i) (by simpa [hx] using hi)))

end blockconv
end convergence

/-! ### Linearity and independence of the old output (C52) -/

section linear
variable [Ring R] [AddCommGroup M] [Module R M] {A : SR R} {dinv : List R}

/-- **C52**, no preconditioner: the application copies the input, whatever the old output. -/
theorem no_prec_apply_copies {n : Nat} {ord : List Nat} (hord : ord.Perm (List.range n)) {x y : List M}
    (hx : x.length = n) (hy : y.length = n) : noPrecApply n ord x y = .ok x := copyInto_ok hord hy hx

/-- **C52**, column-oriented Gauss-Seidel with one thread: linear and independent of the old contents of the output, the
work vector and the number of sweeps. -/
theorem csc_bgs_apply_linear [Field K] [DecidableEq K] {A : SR K} {c : SC K} (h : ColsOf A c) {d : List K}
    (hI : DiagInv A d) {k₁ k₂ k₃ : Nat} (hk₁ : 1 ≤ k₁) (hk₂ : 1 ≤ k₂) (hk₃ : 1 ≤ k₃) {ord0 : List Nat}
    (h0 : ord0.Perm (List.range A.nbrows)) {ord : Nat → List Nat} (hord : ∀ t, (ord t).Perm (List.range A.nbrows))
    {g₁ g₂ g₃ r₁ r₂ r w₁ w₂ w₃ : List K} (hg₁ : g₁.length = A.nbrows) (hg₂ : g₂.length = A.nbrows)
    (hg₃ : g₃.length = A.nbrows) (hr₁ : r₁.length = A.nbrows) (hr₂ : r₂.length = A.nbrows) (hr : r.length = A.nbrows)
    (hw₁ : w₁.length = A.nbrows) (hw₂ : w₂.length = A.nbrows) (hw₃ : w₃.length = A.nbrows)
    (a b : K) (hlin : ∀ i < A.nbrows, r⟦i⟧ = a * r₁⟦i⟧ + b * r₂⟦i⟧) :
    ∃ z₁ z₂ z', cscBgsApply c d k₁ ord0 ord g₁ r₁ w₁ = .ok z₁ ∧ cscBgsApply c d k₂ ord0 ord g₂ r₂ w₂ = .ok z₂ ∧
      cscBgsApply c d k₃ ord0 ord g₃ r w₃ = .ok z' ∧ ∀ i < A.nbrows, z'⟦i⟧ = a * z₁⟦i⟧ + b * z₂⟦i⟧ := by
  obtain ⟨z₁, e1, _, f1⟩ := csc_bgs_apply_correct h hI hk₁ h0 hord hg₁ hr₁ hw₁
  obtain ⟨z₂, e2, _, f2⟩ := csc_bgs_apply_correct h hI hk₂ h0 hord hg₂ hr₂ hw₂
  obtain ⟨z', e3, _, f3⟩ := csc_bgs_apply_correct h hI hk₃ h0 hord hg₃ hr hw₃
  refine ⟨z₁, z₂, z', e1, e2, e3, ?_⟩
  suffices H : ∀ t i, A.nbrows - 1 - i = t → i < A.nbrows → z'⟦i⟧ = a * z₁⟦i⟧ + b * z₂⟦i⟧ from
    fun i hi => H _ i rfl hi
  intro t
  induction t using Nat.strong_induction_on with
  | _ t ih =>
    rintro i rfl hi
    have hne : A.entry i i ≠ 0 := left_ne_zero_of_mul_eq_one (hI.right i hi)
    have hsum : ∑ j ∈ range A.nbrows, (if i ≤ j then A.entry i j else 0) * (z'⟦j⟧ - (a * z₁⟦j⟧ + b * z₂⟦j⟧)) = 0 := by
      have : ∀ j, (if i ≤ j then A.entry i j else 0) * (z'⟦j⟧ - (a * z₁⟦j⟧ + b * z₂⟦j⟧)) =
          (if i ≤ j then A.entry i j else 0) * z'⟦j⟧ - (a * ((if i ≤ j then A.entry i j else 0) * z₁⟦j⟧) +
            b * ((if i ≤ j then A.entry i j else 0) * z₂⟦j⟧)) := fun j => by ring
      simp only [this, sum_sub_distrib, sum_add_distrib, ← mul_sum]
      rw [f1 i hi, f2 i hi, f3 i hi, hlin i hi, sub_self]
    rw [sum_eq_single i (fun j hj hji => ?_) (fun hn => absurd (mem_range.mpr hi) hn), if_pos le_rfl] at hsum
    · exact sub_eq_zero.mp ((mul_eq_zero.mp hsum).resolve_left hne)
    · by_cases hij : i ≤ j
      · have hj' := mem_range.mp hj
        rw [ih (A.nbrows - 1 - j) (by omega) j rfl hj', sub_self, mul_zero]
      · rw [if_neg hij, zero_mul]

/-- The symmetric and the chaotic relaxations are linear in the pair of the right-hand side and the old vector. -/
theorem ForwardGSs.linear {F : Type} [Ring F] [Module F M] [SMulCommClass R F M] (hI : DiagInv A dinv) {k : Nat}
    {b₁ b₂ b : List M} {x₁ x₂ x y₁ y₂ y : Nat → M} (a c : F) (hb : ∀ i < A.nbrows, b⟦i⟧ = a • b₁⟦i⟧ + c • b₂⟦i⟧)
    (hx : ∀ i < A.nbrows, x i = a • x₁ i + c • x₂ i) (h₁ : ForwardGSs A b₁ k x₁ y₁) (h₂ : ForwardGSs A b₂ k x₂ y₂)
    (h : ForwardGSs A b k x y) : ∀ i < A.nbrows, y i = a • y₁ i + c • y₂ i := by
  induction k generalizing y₁ y₂ y with
  | zero => cases h₁; cases h₂; cases h; exact hx
  | succ k ih =>
    cases h₁ with
    | succ p₁ q₁ =>
    cases h₂ with
    | succ p₂ q₂ =>
    cases h with
    | succ p q =>
    have hy := ih p₁ p₂ p
    refine q.unique hI (z := fun i => a • y₁ i + c • y₂ i) fun i hi => ?_
    rw [hb i hi, ← q₁ i hi, ← q₂ i hi, smul_sum, smul_sum, ← sum_add_distrib]
    refine sum_congr rfl fun j hj => ?_
    by_cases hji : j ≤ i
    · rw [if_pos hji, if_pos hji, if_pos hji, smul_add, smul_comm _ a, smul_comm _ c]
    · rw [if_neg hji, if_neg hji, if_neg hji, hy j (mem_range.mp hj), smul_add, smul_comm _ a, smul_comm _ c]

/-- **C52**, chaotic relaxation, the part that holds: the result is linear in the input if the output vector is zero
before. -/
theorem chaotic_apply_linear_partial {F : Type} [Ring F] [Module F M] [SMulCommClass R F M] (hA : A.Full) (hS : A.Sorted)
    (hD : A.HasDiag) (hI : DiagInv A dinv) (k : Nat) {b₁ b₂ b z : List M} (h₁ : b₁.length = A.nbrows)
    (h₂ : b₂.length = A.nbrows) (hb : b.length = A.nbrows) (hz : z.length = A.nbrows) (hz0 : ∀ i < A.nbrows, z⟦i⟧ = 0)
    (a c : F) (hlin : ∀ i < A.nbrows, b⟦i⟧ = a • b₁⟦i⟧ + c • b₂⟦i⟧) :
    ∃ z₁ z₂ z', chaoticRelax A dinv k b₁ z = .ok z₁ ∧ chaoticRelax A dinv k b₂ z = .ok z₂ ∧
      chaoticRelax A dinv k b z = .ok z' ∧ ∀ i < A.nbrows, z'⟦i⟧ = a • z₁⟦i⟧ + c • z₂⟦i⟧ := by
  obtain ⟨z₁, e1, _, f1⟩ := chaotic_relax_correct hA hS hD hI h₁ k hz
  obtain ⟨z₂, e2, _, f2⟩ := chaotic_relax_correct hA hS hD hI h₂ k hz
  obtain ⟨z', e3, _, f3⟩ := chaotic_relax_correct hA hS hD hI hb k hz
  refine ⟨z₁, z₂, z', e1, e2, e3, ForwardGSs.linear hI a c hlin (fun i hi => ?_) f1 f2 f3⟩
  rw [hz0 i hi, smul_zero, smul_zero, add_zero]

end linear

/-! ### A concrete case -/

/-- `exStar` is strictly diagonally dominant with ratio `1/2`. -/
theorem exStar_dominant : Dominant exStar (1/2) := by
  intro i hi
  have : i < 4 := hi
  interval_cases i <;> decide +kernel

/-- Its solution for the right-hand side `[3, 4, 5, 12]` is the vector of ones. -/
theorem exStar_solves : Solves exStar [3, 4, 5, 12] (get0 [1, 1, 1, (1 : ℚ)]) := by
  intro i hi
  have : i < 4 := hi
  interval_cases i <;> decide +kernel

/-- **C52** does not hold for the chaotic relaxation: its `apply` iterates on the old contents of the output, so the
result for the same input depends on them. The input is `[3, 4, 5, 12]` and the number of sweeps is 1. -/
theorem chaotic_apply_depends_on_output :
    ∃ z z' w w' : List ℚ, z.length = exStar.nbrows ∧ w.length = exStar.nbrows ∧
      chaoticRelax exStar [1/2, 1/3, 1/4, 1/9] 1 [3, 4, 5, 12] z = .ok z' ∧
      chaoticRelax exStar [1/2, 1/3, 1/4, 1/9] 1 [3, 4, 5, 12] w = .ok w' ∧ z' ≠ w' :=
  ⟨[1, 1, 1, 1], [1, 1, 1, 1], [0, 0, 0, 0], [3/2, 4/3, 5/4, 95/108], rfl, rfl, by decide +kernel, by decide +kernel,
    by decide +kernel⟩

/-- Non-vacuity of the theorems of this file about sequential code: Gauss-Seidel and Jacobi relaxation of `exStar`. -/
example : chaoticRelax (M := ℚ) exStar [1/2, 1/3, 1/4, 1/9] 2 [3, 4, 5, 12] [1, 1, 1, 1] = .ok [1, 1, 1, 1] ∧
    (sgsRelax (M := ℚ) exStar [1/2, 1/3, 1/4, 1/9] 2 [3, 4, 5, 12] [0, 0, 0, 0]).isOk = true ∧
    levelSgsRelax (M := ℚ) exStar [1/2, 1/3, 1/4, 1/9] [0, 3, 4] (fun _ _ l => l.reverse) (fun _ _ l => l) 2 [3, 4, 5, 12]
      [0, 0, 0, 0] = sgsRelax (M := ℚ) exStar [1/2, 1/3, 1/4, 1/9] 2 [3, 4, 5, 12] [0, 0, 0, 0] := by decide +kernel

/-- Non-vacuity of `jacobi_relax_correct`: with `maxits = 5`, the relative tolerance `1/3` is met in step 1, and two
steps are made. (The square root is replaced by the identity.) -/
example : jacobiRelax id (fun v : ℚ => v * v) ⟨1/3, 0, 100, true, 5⟩ exStar [1/2, 1/3, 1/4, 1/9] [3, 4, 5, 12]
    (fun _ => [2, 0, 3, 1]) [7, 7, 7, 7] [0, 0, 0, 0] =
    jacobiRelax id (fun v : ℚ => v * v) ⟨0, 0, 100, false, 2⟩ exStar [1/2, 1/3, 1/4, 1/9] [3, 4, 5, 12]
    (fun _ => [0, 1, 2, 3]) [7, 7, 7, 7] [0, 0, 0, 0] := by decide +kernel

/-- Non-vacuity of `chaotic_converges`: an asynchronous sweep in which all updates read the initial values. -/
example : ∃ x', AsyncChaoticRelax exStar [1/2, 1/3, 1/4, 1/9] mixWhole 1 [3, 4, 5, 12] [0, 0, 0, 0] x' ∧
    x' = [3/2, 4/3, 5/4, (4/3 : ℚ)] := by
  have hview : ∀ (log : List (Nat × ℚ)), ∀ j < 4, (0 : ℚ) ∈ mixWhole {w | (j, w) ∈ memOf [(0 : ℚ), 0, 0, 0] ∨ (j, w) ∈ log} := by
    intro log j hj
    left
    show [(0 : ℚ), 0, 0, 0][j]? = some 0
    interval_cases j <;> rfl
  have h1 : ALog (relaxRow exStar [1/2, 1/3, 1/4, 1/9] [3, 4, 5, 12]) mixWhole 4 (memOf [(0 : ℚ), 0, 0, 0])
      [(3, (4/3 : ℚ)), (2, 5/4), (1, 4/3), (0, 3/2)] := by
    refine .write (log := [(3, (4/3 : ℚ)), (2, 5/4), (1, 4/3)]) (fun _ => 0) (.write (log := [(3, (4/3 : ℚ)), (2, 5/4)])
      (fun _ => 0) (.write (log := [(3, (4/3 : ℚ))]) (fun _ => 0) (.write (log := []) (fun _ => 0) .nil (hview _)
        (by decide) (Or.inl ?_)) (hview _) (by decide) (Or.inl ?_)) (hview _) (by decide) (Or.inl ?_)) (hview _)
        (by decide) (Or.inl ?_) <;> decide +kernel
  refine ⟨_, Or.inr ⟨_, _, .first h1 ?_, rfl⟩, by decide +kernel⟩
  intro i hi
  have : i < 4 := hi
  interval_cases i
  · exact ⟨3/2, by simp⟩
  · exact ⟨4/3, by simp⟩
  · exact ⟨5/4, by simp⟩
  · exact ⟨4/3, by simp⟩

end Blasted
