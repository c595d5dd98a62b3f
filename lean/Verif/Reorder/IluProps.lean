import Verif.Reorder.IluModel
import Verif.Reorder.Props
import Verif.Solve.IluProps

/-!
# Properties of the ILU(0) preconditioner on a reordered matrix (C16)
-/

namespace Blasted
open Finset

variable {K : Type}

theorem SR.cell_one [AddCommMonoid K] (A : SR K) (i j : Nat) : A.cell 1 i j 0 = A.entry i j := by
  unfold SR.cell SR.entry
  simp

theorem SR.Full.nnz_eq_sum [Zero K] {A : SR K} {m : Nat} (hA : A.Full m) :
    A.browptr⟦A.nbrows⟧ = ∑ i ∈ range A.nbrows, (A.row m i).length := by
  have h : ∀ n ≤ A.nbrows, A.browptr⟦n⟧ = ∑ i ∈ range n, (A.row m i).length := by
    intro n
    induction n with
    | zero => intro _; simpa using hA.ptr_zero
    | succ n ih =>
      intro hn
      rw [sum_range_succ, ← ih (by omega)]
      have := hA.ptr_mono n (by omega)
      have e : (A.row m n).length = A.browptr⟦n + 1⟧ - A.browptr⟦n⟧ := by
        simp [SR.row, segEntries]
      omega
  exact h _ le_rfl

/-- Reordering keeps the number of stored entries. -/
theorem applyOrdering_nnz [Zero K] {A : SR K} {m : Nat} (hA : A.Full m) {r : RS K}
    (hr : r.Valid A.nbrows) {ord : List Nat} (hord : IsPerm ord A.nbrows) {B : SR K}
    (h : applyOrdering m r .forward ord A = .ok B) : B.browptr⟦B.nbrows⟧ = A.browptr⟦A.nbrows⟧ := by
  obtain ⟨B', e, hB, hf, hrow⟩ := applyOrdering_rows hA hr .forward hord
  rw [h] at e
  cases e
  rw [hB.nnz_eq_sum, hA.nnz_eq_sum, hf.nbrows, ← at'_sum hr.row fun i => (A.row m i).length]
  refine sum_congr rfl fun i hi => ?_
  have := (hrow i (mem_range.mp hi)).1.length_eq
  simpa using this

section
variable [Field K] [DecidableEq K] [LinearOrder K]

/-- The setting: a well-formed matrix with sorted rows, valid orderings with both row vectors
present or both absent, its reordered copy `B`, **for which the diagonal positions recorded for the
original matrix are correct**, arbitrary contents of fresh memory and a new or used
object. -/
structure ReordSetting (us : Bool) (A : SR K) (r : RS K) (B : SR K) (ordp ord ordc : List Nat)
    (gilu gy gscale : List K) (st : ReordState K) : Prop where
  full : A.Full
  sorted : A.Sorted
  valid : r.Valid A.nbrows
  irp : r.irp.length = r.rp.length
  ordp_perm : ordp.Perm (List.range A.nbrows)
  copy : applyOrdering 1 r .forward ordp A = .ok B
  diag : B.HasDiag
  ord_perm : ord.Perm (List.range A.nbrows)
  ordc_perm : ordc.Perm (List.range A.browptr⟦A.nbrows⟧)
  gilu_len : gilu.length = A.browptr⟦A.nbrows⟧
  gy_len : gy.length = A.nbrows
  gscale_len : gscale.length = A.nbrows
  state : st.base = {} ∨ ((∃ l, st.base.iluvals = some l ∧ l.length = A.browptr⟦A.nbrows⟧) ∧
    (∃ y, st.base.ytemp = some y ∧ y.length = A.nbrows) ∧
    if us then ∃ s, st.base.scale = some s ∧ s.length = A.nbrows else st.base.scale = none)

variable {isq : K → K} {conf : ILUConf} {A B : SR K} {r : RS K} {ordp ord ordc : List Nat}
  {gilu gy gscale : List K} {st st' : ReordState K}

omit [DecidableEq K] [LinearOrder K] in
theorem ReordSetting.facts {us : Bool} (hc : ReordSetting us A r B ordp ord ordc gilu gy gscale st) :
    B.Full ∧ B.nbrows = A.nbrows ∧ B.Sorted ∧ B.browptr⟦B.nbrows⟧ = A.browptr⟦A.nbrows⟧ ∧
      ∀ i < A.nbrows, ∀ j < A.nbrows, B.entry i j = A.entry (at' r.rp i) (at' r.cp j) := by
  obtain ⟨B', e, h1, h2, _, h3, _, h4, h5⟩ := apply_ordering_forward A 1 hc.full r hc.valid ordp hc.ordp_perm
  rw [hc.copy] at e
  cases e
  refine ⟨h1, h2, ?_, applyOrdering_nnz hc.full hc.valid hc.ordp_perm hc.copy, fun i hi j hj => ?_⟩
  · by_cases h : r.cp = []
    · exact h5 h hc.sorted
    · exact h4 h hc.sorted.noRepeats
  · rw [← SR.cell_one, ← SR.cell_one]
    exact h3 i hi j hj 0 (by omega)

omit [DecidableEq K] [LinearOrder K] in
theorem reordStorage_ok (hc : ReordSetting conf.usescaling A r B ordp ord ordc gilu gy gscale st) :
    Ok (reordStorage conf A ord ordc gilu gy gscale st.base) (fun b =>
      (∃ l, b.iluvals = some l ∧ l.length = A.browptr⟦A.nbrows⟧) ∧
      (∃ y, b.ytemp = some y ∧ y.length = A.nbrows) ∧
      if conf.usescaling then ∃ s, b.scale = some s ∧ s.length = A.nbrows else b.scale = none) := by
  unfold reordStorage
  rcases hc.state with h | ⟨⟨l, h1, h1'⟩, h2, h3⟩
  · rw [h]
    simp only [Option.isNone_none, if_true]
    unfold scalarSetupStorage
    refine Ok.bind (par_stored hc.full hc.ordc_perm hc.gilu_len (fun c => A.vals⟦c⟧) fun i hi y' hl => ?_) ?_
    · have := hc.full.val_len
      rw [rd_eq (by omega), ok_bind, wr_eq (by omega)]
    rintro l ⟨hl, _⟩
    unfold allocY
    refine Ok.bind (P := fun y : Option (List K) => ∃ y', y = some y' ∧ y'.length = A.nbrows) ?_ ?_
    · simp only
      refine Ok.bind (par_cells (N := A.nbrows) hc.ord_perm hc.gy_len (fun _ => 0) fun i hi y' hl => wr_eq (by omega)) ?_
      rintro y ⟨hy, _⟩
      exact Ok.pure ⟨y, rfl, hy⟩
    · rintro y hy
      refine Ok.pure ⟨⟨l, rfl, hl⟩, hy, ?_⟩
      unfold allocScale
      cases conf.usescaling
      · simp
      · simpa using hc.gscale_len
  · simp only [h1, Option.isNone_some, Bool.false_eq_true, if_false]
    exact Ok.pure ⟨⟨l, h1, h1'⟩, h2, h3⟩

/-- `compute` is a `compute` of the ordinary preconditioner for the reordered matrix, with storage of
the right shape. -/
theorem reordCompute_split (hc : ReordSetting conf.usescaling A r B ordp ord ordc gilu gy gscale st) :
    ∃ b, CompSetting conf.usescaling B ord ordc gilu gy gscale b ∧
      (∃ y, b.ytemp = some y ∧ y.length = A.nbrows) ∧ ILUShape 1 conf.usescaling B b ∧
      reordCompute isq conf A r ordp ord ordc gilu gy gscale st = (do
        let (_, b') ← scalarCompute isq { conf with precinfo := false } B ord ordc gilu gy gscale b
        .ok { base := b', rsmat := B }) := by
  obtain ⟨hB, hn, hS, hz, _⟩ := hc.facts
  obtain ⟨b, e, ⟨l, h1, h1'⟩, hy, hs⟩ := reordStorage_ok hc
  obtain ⟨pos, hpos, hposOk⟩ := compute_ILU_positions_correct B hB hS hc.diag
  have hsh : ILUShape 1 conf.usescaling B { b with plist := pos } :=
    ⟨⟨l, h1, by omega⟩, by simpa [hn] using hs, hposOk⟩
  refine ⟨{ b with plist := pos }, ⟨hB, hS, hc.diag, by rw [hn]; exact hc.ord_perm,
    by rw [hz]; exact hc.ordc_perm, by rw [hz]; exact hc.gilu_len, by rw [hn]; exact hc.gy_len,
    by rw [hn]; exact hc.gscale_len, Or.inr hsh⟩, hy, hsh, ?_⟩
  unfold reordCompute scalarCompute
  rw [e, ok_bind, hc.copy, ok_bind, hpos, ok_bind]
  simp only [h1, deref, ok_bind, Option.isNone_some, Bool.false_eq_true, if_false]
  cases scalarIlu0Factorize isq B pos conf.nbuildsweeps conf.factinit false ord ordc l b.scale <;> rfl

/-- A state left by a successful `compute` for the reordered matrix `B`. -/
structure ReordReady (isq : K → K) (us : Bool) (B : SR K) (st : ReordState K) (u y : List K) : Prop where
  rsmat : st.rsmat = B
  ilu : st.base.iluvals = some u
  ilu_len : u.length = B.browptr⟦B.nbrows⟧
  exact_lu : ExactILU B (scaledEntry isq us B) u
  ytemp : st.base.ytemp = some y
  y_len : y.length = B.nbrows
  scale : ScaleIs isq us B st.base.scale

/-- **C16**, `compute`: a successful `compute` with at least one build sweep leaves factors whose product is the
(scaled) reordered matrix at every stored position. -/
theorem reord_ilu_compute_exact
    (hc : ReordSetting conf.usescaling A r B ordp ord ordc gilu gy gscale st) (hk : 1 ≤ conf.nbuildsweeps)
    (h : reordCompute isq conf A r ordp ord ordc gilu gy gscale st = .ok st') :
    ∃ u y, ReordReady isq conf.usescaling B st' u y := by
  obtain ⟨hB, hn, hS, hz, _⟩ := hc.facts
  obtain ⟨b, hb, ⟨y, hy, hyl⟩, hsh, e⟩ := reordCompute_split (isq := isq) hc
  rw [e] at h
  cases hf : scalarCompute isq { conf with precinfo := false } B ord ordc gilu gy gscale b with
  | error f => rw [hf] at h; cases h
  | ok res =>
    rw [hf] at h
    obtain ⟨inf, b'⟩ := res
    cases h
    obtain ⟨_, h2, u, h3, h4, h5, _⟩ := scalar_ilu_compute_exact (conf := { conf with precinfo := false })
      hb hk hf
    refine ⟨u, y, rfl, h3, h4, h5, ?_, by omega, h2⟩
    obtain ⟨l, hl, _⟩ := hsh.ilu
    unfold scalarCompute at hf
    simp only [hl, deref, ok_bind, Option.isNone_some, Bool.false_eq_true, if_false] at hf
    cases hg : scalarIlu0Factorize isq B b.plist conf.nbuildsweeps conf.factinit false ord ordc l b.scale with
    | error f => rw [hg] at hf; cases hf
    | ok res => rw [hg] at hf; cases hf; exact hy

omit [DecidableEq K] [LinearOrder K] in
theorem reordRhs_ok {n : Nat} (hr : r.Valid n) (hirp : r.irp.length = r.rp.length)
    {ords : Nat → List Nat} (ho : ∀ t, (ords t).Perm (List.range n)) {ra g : List K}
    (hra : ra.length = n) (hg : g.length = n) :
    Ok (reordRhs n r ords ra g) (fun rb => rb.length = n ∧ ∀ i < n, rb⟦i⟧ = ra⟦at' r.rp i⟧) := by
  unfold reordRhs RS.isRowReordering
  split
  · refine Ok.bind (par_cells (N := n) (ho 0) hg (fun c => ra⟦c⟧) fun i hi y' hl => ?_) ?_
    · rw [rd_eq (by omega), ok_bind, wr_eq (by omega)]
    rintro rb ⟨h1, h2⟩
    obtain ⟨v, e, h3, h4⟩ := apply_ordering_vec_correct 1 n r .forward .row hr.row (ords 1) (ords 2)
      (by simpa using ho 1) (ho 2) rb (by simpa using h1)
    refine ⟨v, e, by simpa using h3, fun i hi => ?_⟩
    have := h4 i hi 0 (by omega)
    simp only [Nat.mul_one, Nat.add_zero] at this
    rw [this]
    exact h2 _ (at'_lt hr.row hi)
  · rename_i h
    refine Ok.pure ⟨hra, fun i hi => ?_⟩
    simp only [hirp, beq_self_eq_true, Bool.and_true, decide_eq_true_eq] at h
    rw [at', if_neg h]

omit [DecidableEq K] [LinearOrder K] in
/-- From the reordered triangular solves to the original system: if `S⁻¹ L U S⁻¹ = B` everywhere, the result
`z'` of `apply`, which is the vector `z` of the triangular solves reordered FORWARD, has `z'(i) = x(cp(cp(i)))` where
`A x = ra`. -/
theorem reord_core (hc : ReordSetting conf.usescaling A r B ordp ord ordc gilu gy gscale st)
    {st' : ReordState K} {u y : List K} (hst : ReordReady isq conf.usescaling B st' u y) (hN : NoFill B)
    (hisq : conf.usescaling = true → ∀ i < A.nbrows, isq (B.entry i i) ≠ 0) {ra rb z z' : List K}
    (hrb : ∀ i < A.nbrows, rb⟦i⟧ = ra⟦at' r.rp i⟧)
    (hz : ∃ w : Nat → K, (∀ i < B.nbrows, z⟦i⟧ = scaleAt st'.base.scale i * w i) ∧
      ∀ i < B.nbrows, ∑ j ∈ range B.nbrows, luProd B u i j * w j = scaleAt st'.base.scale i * rb⟦i⟧)
    (hz' : ∀ i < A.nbrows, z'⟦i⟧ = z⟦at' r.cp i⟧) :
    ∃ x : Nat → K, (∀ i < A.nbrows, ∑ j ∈ range A.nbrows, A.entry i j * x j = ra⟦i⟧) ∧
      ∀ i < A.nbrows, z'⟦i⟧ = x (at' r.cp (at' r.cp i)) := by
  obtain ⟨hB, hn, hS, hz0, hent⟩ := hc.facts
  obtain ⟨w, hw1, hw2⟩ := hz
  have hsc := hst.scale
  have hfac : ∀ i < B.nbrows, scaleAt st'.base.scale i = scaleFac isq conf.usescaling B i := by
    intro i hi
    unfold ScaleIs at hsc
    unfold scaleFac
    split at hsc
    · rename_i hus
      obtain ⟨s', e, hlen, hv⟩ := hsc
      rw [e, hus, if_pos rfl, ← hv i hi]
      rfl
    · rename_i hus
      rw [hsc, if_neg hus]
      rfl
  have hne : ∀ i < B.nbrows, scaleFac isq conf.usescaling B i ≠ 0 := by
    intro i hi
    unfold scaleFac
    split
    · rename_i hus; exact hisq hus i (by omega)
    · exact one_ne_zero
  have hlu := luProd_eq_of_noFill hB hN hst.ilu_len hst.exact_lu (fun i hi j hj hn => by
    unfold scaledEntry
    rw [hB.entry_unstored hi fun k hk e => hn ⟨k, hk, e⟩, mul_zero, zero_mul])
  have hsol : ∀ i < A.nbrows, ∑ j ∈ range A.nbrows, B.entry i j * z⟦j⟧ = rb⟦i⟧ := by
    intro i hi
    have hi' : i < B.nbrows := by omega
    have h1 := hw2 i hi'
    rw [hfac i hi'] at h1
    apply mul_left_cancel₀ (hne i hi')
    rw [← h1, mul_sum, hn]
    refine sum_congr rfl fun j hj => ?_
    have hj' : j < B.nbrows := by rw [hn]; exact mem_range.mp hj
    rw [hlu i hi' j hj', hw1 j hj', hfac j hj']
    unfold scaledEntry
    ring
  have hcp := hc.valid.perm .column
  change r.cp = [] ∨ IsPerm r.cp A.nbrows at hcp
  choose! s hs1 hs2 using fun j => at'_surj (p := r.cp) hcp (j := j)
  have hsinv : ∀ j < A.nbrows, s (at' r.cp j) = j := fun j hj =>
    at'_inj hcp (hs1 _ (at'_lt hcp hj)) hj (hs2 _ (at'_lt hcp hj))
  refine ⟨fun j => z⟦s j⟧, fun i hi => ?_, fun i hi => ?_⟩
  · obtain ⟨t, ht, rfl⟩ := at'_surj hc.valid.row hi
    rw [← hrb t ht, ← hsol t ht, ← at'_sum hcp fun j => A.entry (at' r.rp t) j * z⟦s j⟧]
    refine sum_congr rfl fun j hj => ?_
    have hj' := mem_range.mp hj
    rw [hent t ht j hj', hsinv j hj']
  · show _ = z⟦s _⟧
    rw [hz' i hi, hsinv _ (at'_lt hcp hi)]

/-- **C16**, the general behaviour: for a matrix whose reordered copy has no fill, a successful `compute` and `apply`
give `z(i) = x(cp(cp(i)))` where `x` solves `A x = r`: the column reordering is applied a
second time instead of being undone. -/
theorem reord_ilu_apply_general
    (hc : ReordSetting conf.usescaling A r B ordp ord ordc gilu gy gscale st) (hk : 1 ≤ conf.nbuildsweeps)
    (h : reordCompute isq conf A r ordp ord ordc gilu gy gscale st = .ok st') (hN : NoFill B)
    (hisq : conf.usescaling = true → ∀ i < A.nbrows, isq (B.entry i i) ≠ 0)
    {k : Nat} (hk' : 1 ≤ k) {init : ApplyInit} (hi : init ≠ .none) {ords orda : Nat → List Nat}
    (ho : ∀ t, (ords t).Perm (List.range A.nbrows)) (hoa : ∀ t, (orda t).Perm (List.range A.nbrows))
    {ra za g z : List K} {st'' : ReordState K} (hra : ra.length = A.nbrows) (hza : za.length = A.nbrows)
    (hg : g.length = A.nbrows) (h' : reordApply k init r st' ords orda ra za g = .ok (z, st'')) :
    ∃ x : Nat → K, (∀ i < A.nbrows, ∑ j ∈ range A.nbrows, A.entry i j * x j = ra⟦i⟧) ∧
      ∀ i < A.nbrows, z⟦i⟧ = x (at' r.cp (at' r.cp i)) := by
  obtain ⟨hB, hn, hS, hz0, hent⟩ := hc.facts
  obtain ⟨u, y, hst⟩ := reord_ilu_compute_exact hc hk h
  obtain ⟨rb, e1, hrb1, hrb2⟩ := reordRhs_ok hc.valid hc.irp ho hra hg
  rw [← hn] at e1
  have hp : PivotsOk B u := by
    by_contra hp
    unfold reordApply at h'
    rw [hst.rsmat, hst.ilu, hst.ytemp] at h'
    simp only [Option.getD_some] at h'
    rw [e1, ok_bind, scalar_ilu_apply_divzero hB hS hc.diag hst.ilu_len hp hst.scale.length hk' hi
      (by rw [hn]; exact hoa) (by omega) (by omega) hst.y_len] at h'
    cases h'
  obtain ⟨z1, y1, e, _, hzl, hw⟩ := scalar_ilu_apply_correct hB hS hc.diag hst.ilu_len hp hst.scale.length hk'
    hi (ord := orda) (by rw [hn]; exact hoa) (r := rb) (z := za) (y := y) (by omega) (by omega) hst.y_len
  obtain ⟨v, e2, h3, h4⟩ := apply_ordering_vec_correct 1 A.nbrows r .forward .column (hc.valid.perm .column)
    (ords 3) (ords 4) (by simpa using ho 3) (ho 4) z1 (by omega)
  unfold reordApply at h'
  rw [hst.rsmat, hst.ilu, hst.ytemp] at h'
  simp only [Option.getD_some] at h'
  rw [e1, ok_bind, e, ok_bind] at h'
  simp only at h'
  rw [e2, ok_bind] at h'
  cases h'
  refine reord_core hc hst hN hisq hrb2 hw fun i hi => ?_
  have := h4 i hi 0 (by omega)
  simpa [orderingOf] using this

/-- **C16**, as far as it is true: if moreover the column ordering is absent or its own inverse, `apply`
solves `A z = r` (so `apply(A x) = x`). Missing: every other column permutation
(`reord_ilu_apply_wrong`), and reorderings that move the diagonal positions (`ReordSetting.diag`,
`reord_ilu_stale_diag`). -/
theorem reord_ilu_solves_partial
    (hc : ReordSetting conf.usescaling A r B ordp ord ordc gilu gy gscale st) (hk : 1 ≤ conf.nbuildsweeps)
    (h : reordCompute isq conf A r ordp ord ordc gilu gy gscale st = .ok st') (hN : NoFill B)
    (hisq : conf.usescaling = true → ∀ i < A.nbrows, isq (B.entry i i) ≠ 0)
    (hinv : ∀ i < A.nbrows, at' r.cp (at' r.cp i) = i)
    {k : Nat} (hk' : 1 ≤ k) {init : ApplyInit} (hi : init ≠ .none) {ords orda : Nat → List Nat}
    (ho : ∀ t, (ords t).Perm (List.range A.nbrows)) (hoa : ∀ t, (orda t).Perm (List.range A.nbrows))
    {ra za g z : List K} {st'' : ReordState K} (hra : ra.length = A.nbrows) (hza : za.length = A.nbrows)
    (hg : g.length = A.nbrows) (h' : reordApply k init r st' ords orda ra za g = .ok (z, st'')) :
    ∀ i < A.nbrows, ∑ j ∈ range A.nbrows, A.entry i j * z⟦j⟧ = ra⟦i⟧ := by
  obtain ⟨x, hx1, hx2⟩ := reord_ilu_apply_general hc hk h hN hisq hk' hi ho hoa hra hza hg h'
  intro i hi
  rw [← hx1 i hi]
  refine sum_congr rfl fun j hj => ?_
  rw [hx2 j (mem_range.mp hj), hinv j (mem_range.mp hj)]

/-- **C16**, threaded application: with as many asynchronous sweeps as rows the same holds for every
execution. -/
theorem reord_ilu_solves_async_partial
    (hc : ReordSetting conf.usescaling A r B ordp ord ordc gilu gy gscale st) (hk : 1 ≤ conf.nbuildsweeps)
    (h : reordCompute isq conf A r ordp ord ordc gilu gy gscale st = .ok st') (hN : NoFill B)
    (hisq : conf.usescaling = true → ∀ i < A.nbrows, isq (B.entry i i) ≠ 0)
    (hinv : ∀ i < A.nbrows, at' r.cp (at' r.cp i) = i) {mix : Set K → Set K} (hm : MixOk mix)
    {k : Nat} (hk' : A.nbrows ≤ k) {init : ApplyInit} (hi : init ≠ .none) {ords orda : Nat → List Nat}
    (ho : ∀ t, (ords t).Perm (List.range A.nbrows)) (hoa : ∀ t, (orda t).Perm (List.range A.nbrows))
    {ra za g z : List K} (hra : ra.length = A.nbrows) (hza : za.length = A.nbrows)
    (hg : g.length = A.nbrows) (hp : ∀ u, st'.base.iluvals = some u → PivotsOk B u)
    (h' : ReordApplyAsync mix k init r st' ords orda ra za g z) :
    ∀ i < A.nbrows, ∑ j ∈ range A.nbrows, A.entry i j * z⟦j⟧ = ra⟦i⟧ := by
  obtain ⟨hB, hn, hS, hz0, hent⟩ := hc.facts
  obtain ⟨u, y, hst⟩ := reord_ilu_compute_exact hc hk h
  obtain ⟨rb, e1, hrb1, hrb2⟩ := reordRhs_ok hc.valid hc.irp ho hra hg
  rw [← hn] at e1
  obtain ⟨B', u', y', rb', z1, y1, g1, g2, g3, g4, g5, g6⟩ := h'
  rw [hst.rsmat] at g1; subst g1
  rw [hst.ilu] at g2; cases g2
  rw [hst.ytemp] at g3; cases g3
  rw [e1] at g4; cases g4
  obtain ⟨hzl, hw⟩ := scalar_ilu_apply_async_exact hB hS hc.diag hst.ilu_len (hp u hst.ilu)
    hst.scale.length hm (by omega) hi (by rw [hn]; exact hoa) (by omega) (by omega) hst.y_len g5
  obtain ⟨v, e2, h3, h4⟩ := apply_ordering_vec_correct 1 A.nbrows r .forward .column (hc.valid.perm .column)
    (ords 3) (ords 4) (by simpa using ho 3) (ho 4) z1 (by omega)
  rw [e2] at g6; cases g6
  obtain ⟨x, hx1, hx2⟩ := reord_core hc hst hN hisq hrb2 hw fun i hi => by
    have := h4 i hi 0 (by omega)
    simpa [orderingOf] using this
  intro i hi
  rw [← hx1 i hi]
  refine sum_congr rfl fun j hj => ?_
  rw [hx2 j (mem_range.mp hj), hinv j (mem_range.mp hj)]

end

/-! ### Concrete cases -/

/-- A dense matrix: `4` on the diagonal, `1` elsewhere. -/
def exD : SR ℚ :=
  { browptr := [0, 3, 6, 9], bcolind := [0, 1, 2, 0, 1, 2, 0, 1, 2], vals := [4, 1, 1, 1, 4, 1, 1, 1, 4],
    diagind := [0, 4, 8], browendptr := [3, 6, 9], nbrows := 3, nnzb := 9, nbstored := 9 }

/-- `compute` on a new object and `apply`, both without threads. -/
def reordRun (A : SR ℚ) (r : RS ℚ) (ra : List ℚ) : C (List ℚ) := do
  let st ← reordCompute (fun x : ℚ => x⁻¹) ⟨true, 1, .original, false⟩ A r [0, 1, 2] [2, 0, 1]
    (List.range A.vals.length) (List.replicate A.vals.length 7) [7, 7, 7] [7, 7, 7] {}
  let (z, _) ← reordApply 1 .zero r st (fun _ => [0, 2, 1]) (fun _ => [0, 2, 1]) ra [0, 0, 0] [9, 9, 9]
  .ok z

/-- Rows by a 3-cycle, columns by a swap. -/
def exSwap : RS ℚ := { rp := [1, 2, 0], irp := [2, 0, 1], cp := [1, 0, 2], icp := [1, 0, 2] }

theorem exD_setting : ReordSetting true exD exSwap
    { exD with vals := [4, 1, 1, 1, 1, 4, 1, 4, 1] } [0, 1, 2] [2, 0, 1] (List.range 9)
    (List.replicate 9 7) [7, 7, 7] [7, 7, 7] {} where
  full := by constructor <;> decide
  sorted := SR.sorted_of_check (by decide)
  valid := ⟨.inr (by decide), .inr ⟨by decide, by unfold InverseOf; decide⟩⟩
  irp := rfl
  ordp_perm := by decide
  copy := by decide +kernel
  diag := by constructor <;> decide
  ord_perm := by decide
  ordc_perm := by decide
  gilu_len := rfl
  gy_len := rfl
  gscale_len := rfl
  state := Or.inl rfl

/-- Non-vacuity: the partial theorem applies to a run with a row and an involutive column reordering. -/
example : reordRun exD exSwap [9, 12, 15] = .ok [1, 2, 3] ∧
    (∀ i < 3, at' exSwap.cp (at' exSwap.cp i) = i) := by decide +kernel

/-- **C16** is false for a 3-cycle of the columns: all hypotheses about the input hold, `[9, 12, 15]` is `A` times
`[1, 2, 3]` and ILU(0) of the dense matrix is exact, yet `apply` returns `[3, 1, 2]`. -/
theorem reord_ilu_apply_wrong :
    exD.Full ∧ exD.Sorted ∧ exD.HasDiag ∧ ({ cp := [1, 2, 0], icp := [2, 0, 1] } : RS ℚ).Valid 3 ∧
    (∀ i < 3, ∑ j ∈ range 3, exD.entry i j * [(1 : ℚ), 2, 3]⟦j⟧ = [(9 : ℚ), 12, 15]⟦i⟧) ∧
    reordRun exD { cp := [1, 2, 0], icp := [2, 0, 1] } [9, 12, 15] = .ok [3, 1, 2] := by
  refine ⟨by constructor <;> decide, SR.sorted_of_check (by decide), by constructor <;> decide,
    ⟨.inl rfl, .inr ⟨by decide, by unfold InverseOf; decide⟩⟩, by decide +kernel, by decide +kernel⟩

/-- **C16** is false even for a symmetric permutation that is its own inverse, when it moves the
diagonal positions: `[5, 11, 15]` is `exStale` times `[1, 2, 3]`, elimination creates no fill in the reordered
matrix, without reordering the result is right, with it it is wrong. -/
theorem reord_ilu_stale_diag :
    (∀ i < 3, ∑ j ∈ range 3, exStale.entry i j * [(1 : ℚ), 2, 3]⟦j⟧ = [(5 : ℚ), 11, 15]⟦i⟧) ∧
    reordRun exStale {} [5, 11, 15] = .ok [1, 2, 3] ∧
    reordRun exStale { rp := [2, 1, 0], irp := [2, 1, 0], cp := [2, 1, 0], icp := [2, 1, 0] } [5, 11, 15] =
      .ok [-1/2, 11/4, 3] := by decide +kernel

end Blasted
