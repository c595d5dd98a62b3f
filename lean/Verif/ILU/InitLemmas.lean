import Verif.ILU.FacLemmas

/-!
# Scaling vectors, initialisation of the factors, residual: helper lemmas
-/

namespace Blasted

open Finset

variable {V R K : Type}

/-- A loop that updates the cells `lo, ..., hi-1` one by one, each from its own old value. -/
theorem forRange_cells {α : Type} [Zero α] {lo hi : Nat} (hle : lo ≤ hi) {a : List α}
    (_hhi : hi ≤ a.length) {body : Nat → List α → C (List α)} (f : Nat → α → α)
    (h : ∀ j, lo ≤ j → j < hi → ∀ a' : List α, a'.length = a.length →
      body j a' = .ok (a'.set j (f j a'⟦j⟧))) :
    Ok (forRange lo hi body a) (fun a' => a'.length = a.length ∧
      ∀ c < a.length, a'⟦c⟧ = if lo ≤ c ∧ c < hi then f c a⟦c⟧ else a⟦c⟧) := by
  refine forRange_ok (fun k a' => a'.length = a.length ∧
      ∀ c < a.length, a'⟦c⟧ = if lo ≤ c ∧ c < k then f c a⟦c⟧ else a⟦c⟧) hle
      ⟨rfl, fun c _ => by rw [if_neg (by omega)]⟩ ?_
  rintro j a' h1 h2 ⟨hl, hI⟩
  rw [h j h1 h2 a' hl]
  refine Ok.pure ⟨by simp [hl], fun c hc => ?_⟩
  rw [get0_set]
  by_cases hcj : j = c
  · subst hcj
    rw [if_pos ⟨rfl, by omega⟩, if_pos (by omega), hI j hc, if_neg (by omega)]
  · rw [if_neg (by tauto), hI c hc]
    by_cases h3 : lo ≤ c ∧ c < j
    · rw [if_pos h3, if_pos (by omega)]
    · rw [if_neg h3, if_neg (by omega)]

/-- A parallel loop over the rows in which the iteration for a row overwrites the cells of the row. -/
theorem par_rows {α : Type} [Zero α] {A : SR V} {m : Nat} (hA : A.Full m) {ord : List Nat}
    (hord : ord.Perm (List.range A.nbrows)) {y : List α} (hy : y.length = A.browptr⟦A.nbrows⟧)
    {body : Nat → List α → C (List α)} (f : Nat → α)
    (h : ∀ i < A.nbrows, ∀ y' : List α, y'.length = A.browptr⟦A.nbrows⟧ →
      (∀ c, A.InRow i c → y'⟦c⟧ = y⟦c⟧) →
      Ok (body i y') (fun y'' => y''.length = A.browptr⟦A.nbrows⟧ ∧
        ∀ c < A.browptr⟦A.nbrows⟧, (A.InRow i c → y''⟦c⟧ = f c) ∧ (¬ A.InRow i c → y''⟦c⟧ = y'⟦c⟧))) :
    Ok (parFor A.nbrows ord body y) (fun y' => y'.length = A.browptr⟦A.nbrows⟧ ∧
      ∀ c < A.browptr⟦A.nbrows⟧, y'⟦c⟧ = f c) := by
  rw [parFor_eq hord]
  have hmem : ∀ i, i ∈ ord ↔ i < A.nbrows := fun i => by rw [hord.mem_iff, List.mem_range]
  refine (forList_own (fun c => A.rowOf c) f (hord.nodup_iff.mpr List.nodup_range) ?_).mono ?_
  · intro i hi y' hl hown
    rw [hmem] at hi
    rw [hy] at hl hown ⊢
    refine (h i hi y' hl fun c hc => ?_).mono ?_
    · exact hown c (hA.lt_nnz hi hc.2) (hA.rowOf_eq hi hc)
    · rintro y'' ⟨h1, h2⟩
      refine ⟨h1, fun c hc => ?_⟩
      split
      · rename_i hoc
        have := (hA.rowOf_spec hc).2
        rw [hoc] at this
        exact (h2 c hc).1 this
      · rename_i hoc
        exact (h2 c hc).2 fun hr => hoc (hA.rowOf_eq hi hr)
  · rintro y' ⟨h1, h2⟩
    rw [hy] at h1 h2
    refine ⟨h1, fun c hc => ?_⟩
    rw [h2 c hc, if_pos]
    rw [hmem]
    exact (hA.rowOf_spec hc).1

/-- A parallel loop over all cells of an array, one cell per iteration. -/
theorem par_cells {α : Type} [Zero α] {N : Nat} {ordc : List Nat}
    (hord : ordc.Perm (List.range N)) {y : List α} (hy : y.length = N)
    {body : Nat → List α → C (List α)} (f : Nat → α)
    (h : ∀ i < N, ∀ y' : List α, y'.length = N → body i y' = .ok (y'.set i (f i))) :
    Ok (parFor N ordc body y) (fun y' => y'.length = N ∧ ∀ c < N, y'⟦c⟧ = f c) := by
  rw [parFor_eq hord]
  have hmem : ∀ i, i ∈ ordc ↔ i < N := fun i => by rw [hord.mem_iff, List.mem_range]
  refine (forList_par f (hord.nodup_iff.mpr List.nodup_range) (fun i hi => by
    rw [hy]; exact (hmem i).mp hi) (fun i hi y' hl _ => h i ((hmem i).mp hi) y' (by omega))).mono ?_
  rintro y' ⟨h1, h2⟩
  rw [hy] at h1 h2
  exact ⟨h1, fun c hc => by rw [h2 c hc, if_pos ((hmem c).mpr hc)]⟩

theorem parCells_eq {σ : Type} {A : SR V} {m : Nat} (hA : A.Full m) (ordc : List Nat) (body : Nat → σ → C σ) (s : σ) :
    parCells A ordc body s = parFor A.browptr⟦A.nbrows⟧ ordc body s := by
  have := hA.ptr_len
  rw [parCells, rd_eq (by omega), ok_bind]

/-- A parallel loop over all stored entries, one entry per iteration. -/
theorem par_stored {α : Type} [Zero α] {A : SR V} {m : Nat} (hA : A.Full m) {ordc : List Nat}
    (hord : ordc.Perm (List.range A.browptr⟦A.nbrows⟧)) {y : List α} (hy : y.length = A.browptr⟦A.nbrows⟧)
    {body : Nat → List α → C (List α)} (f : Nat → α)
    (h : ∀ i < A.browptr⟦A.nbrows⟧, ∀ y' : List α, y'.length = A.browptr⟦A.nbrows⟧ →
      body i y' = .ok (y'.set i (f i))) :
    Ok (parCells A ordc body y) (fun y' => y'.length = A.browptr⟦A.nbrows⟧ ∧
      ∀ c < A.browptr⟦A.nbrows⟧, y'⟦c⟧ = f c) := by
  rw [parCells_eq hA]
  exact par_cells hord hy f h

theorem Post.parFor {σ : Type} {n : Nat} {ord : List Nat} {body : Nat → σ → C σ} {s : σ} {I : σ → Prop} (h : I s)
    (hb : ∀ i s, I s → Post (body i s) I) : Post (parFor n ord body s) I := by
  unfold Blasted.parFor
  split
  · exact Post.forList h hb
  · intro _ h; cases h

theorem Post.parCells {σ : Type} {A : SR V} {ord : List Nat} {body : Nat → σ → C σ} {s : σ} {I : σ → Prop} (h : I s)
    (hb : ∀ i s, I s → Post (body i s) I) : Post (parCells A ord body s) I :=
  Post.bind' fun _ => Post.parFor h hb

/-! ### Scaling -/

theorem getScalingVector_ok [Zero K] (isq : K → K) {A : SR K} (hA : A.Full) (hD : A.HasDiag)
    {ord : List Nat} (hord : ord.Perm (List.range A.nbrows)) {s : List K} (hs : s.length = A.nbrows) :
    Ok (getScalingVector isq A ord s) (fun s' => s'.length = A.nbrows ∧
      ∀ i < A.nbrows, s'⟦i⟧ = isq A.vals⟦A.diagind⟦i⟧⟧) := by
  unfold getScalingVector
  refine par_cells hord hs _ fun i hi y' hl => ?_
  have h1 := hD.diag_len
  have h2 := hA.lt_nnz hi (hD.diag_lt i hi)
  have h3 := hA.val_len
  rw [rd_eq (by omega), ok_bind, rd_eq (by omega), ok_bind, wr_eq (by omega)]

theorem getScalingVector_post (isq : K → K) (A : SR K) (ord : List Nat) {s : List K} {n : Nat}
    (hs : s.length = n) : Post (getScalingVector isq A ord s) (fun s' => s'.length = n) := by
  unfold getScalingVector
  refine Post.parFor hs fun i s hs => ?_
  exact Post.bind' fun _ => Post.bind' fun _ => Post.wr_length hs

/-- The scaling factors: `isq` of the diagonal if scaling is on, 1 otherwise. -/
def scaleFac [Field K] (isq : K → K) (usescaling : Bool) (A : SR K) (i : Nat) : K :=
  if usescaling then isq (A.entry i i) else 1

/-- The symmetrically scaled matrix. -/
def scaledEntry [Field K] (isq : K → K) (usescaling : Bool) (A : SR K) (i j : Nat) : K :=
  scaleFac isq usescaling A i * A.entry i j * scaleFac isq usescaling A j

theorem scalarScale_ok [Field K] {A : SR K} {m : Nat} (hA : A.Full m) (s : Option (List K))
    (hs : ∀ t, s = some t → t.length = A.nbrows) :
    ∀ p < A.browptr⟦A.nbrows⟧, scalarScale? s (A.rowOf p) A.bcolind⟦p⟧ A.vals⟦p⟧ =
      .ok (match s with
        | some t => t⟦A.rowOf p⟧ * A.vals⟦p⟧ * t⟦A.bcolind⟦p⟧⟧
        | none => A.vals⟦p⟧) := by
  intro p hp
  have h1 := (hA.rowOf_spec hp).1
  have h2 := hA.col_lt p hp
  cases s with
  | none => rfl
  | some t =>
    have := hs t rfl
    simp only [scalarScale?, scalarScale]
    rw [rd_eq (by omega), ok_bind, rd_eq (by omega), ok_bind, mul_comm A.vals⟦p⟧]

/-! ### Scalar initialisation -/

section scalarinit
variable [Field K] [DecidableEq K]

/-- The matrix value at position `p`, scaled if there is a scaling vector. -/
def initVal (A : SR K) (s : Option (List K)) (p : Nat) : K :=
  match s with
  | some t => t⟦A.rowOf p⟧ * A.vals⟦p⟧ * t⟦A.bcolind⟦p⟧⟧
  | none => A.vals⟦p⟧

omit [DecidableEq K] in
theorem factInitOriginal_ok {A : SR K} (hA : A.Full) (s : Option (List K))
    (hs : ∀ t, s = some t → t.length = A.nbrows) {ord ordc : List Nat}
    (hord : ord.Perm (List.range A.nbrows)) (hordc : ordc.Perm (List.range A.browptr⟦A.nbrows⟧))
    {ilu : List K} (hl : ilu.length = A.browptr⟦A.nbrows⟧) :
    Ok (factInitOriginal A s ord ordc ilu) (fun ilu' => ilu'.length = A.browptr⟦A.nbrows⟧ ∧
      ∀ p < A.browptr⟦A.nbrows⟧, ilu'⟦p⟧ = initVal A s p) := by
  have h1 := hA.ptr_len
  have h2 := hA.val_len
  have h3 := hA.ind_len
  cases s with
  | none =>
    unfold factInitOriginal initVal
    simp only [parCells_eq hA]
    refine par_cells hordc hl _ fun i hi y' hl' => ?_
    rw [rd_eq (by omega), ok_bind, wr_eq (by omega)]
  | some t =>
    have ht := hs t rfl
    unfold factInitOriginal initVal
    refine par_rows hA hord hl _ fun i hi y' hl' _ => ?_
    have h4 := hA.ptr_mono i hi
    have h5 := hA.ptr_le (i := i + 1) (j := A.nbrows) hi (Nat.le_refl _)
    rw [rd_eq (by omega), ok_bind, rd_eq (by omega), ok_bind]
    refine (forRange_cells h4 (by omega) (fun p _ => t⟦i⟧ * A.vals⟦p⟧ * t⟦A.bcolind⟦p⟧⟧) ?_).mono ?_
    · intro j hj1 hj2 a' ha'
      have h6 := hA.col_lt j (by omega)
      rw [rd_eq (by omega), ok_bind, rd_eq (by omega), ok_bind, rd_eq (by omega), ok_bind,
        rd_eq (by omega), ok_bind, wr_eq (by omega)]
    · rintro y'' ⟨h6, h7⟩
      refine ⟨by omega, fun c hc => ⟨fun hr => ?_, fun hr => ?_⟩⟩
      · rw [h7 c (by omega), if_pos (show _ ∧ _ from hr), hA.rowOf_eq hi hr]
      · have hr' : ¬ (A.browptr⟦i⟧ ≤ c ∧ c < A.browptr⟦i + 1⟧) := hr
        rw [h7 c (by omega), if_neg hr']

theorem factInitSgs_ok {A : SR K} (hA : A.Full) (hS : A.Sorted) (hD : A.HasDiag)
    (hnz : ∀ i < A.nbrows, A.vals⟦A.diagind⟦i⟧⟧ ≠ 0) {ord : List Nat}
    (hord : ord.Perm (List.range A.nbrows))
    {ilu : List K} (hl : ilu.length = A.browptr⟦A.nbrows⟧) :
    Ok (factInitSgs A none ord ilu) (fun ilu' => ilu'.length = A.browptr⟦A.nbrows⟧ ∧
      ∀ p < A.browptr⟦A.nbrows⟧, ilu'⟦p⟧ =
        if A.bcolind⟦p⟧ < A.rowOf p then A.vals⟦p⟧ * (A.vals⟦A.diagind⟦A.bcolind⟦p⟧⟧⟧)⁻¹
        else A.vals⟦p⟧) := by
  have h1 := hA.ptr_len
  have h2 := hA.val_len
  have h3 := hA.ind_len
  unfold factInitSgs
  refine par_rows hA hord hl _ fun i hi y' hl' _ => ?_
  have h4 := hA.ptr_mono i hi
  have h5 := hA.ptr_le (i := i + 1) (j := A.nbrows) hi (Nat.le_refl _)
  have hdr := hD.inRow hi
  have hdl := hD.diag_len
  rw [rd_eq (by omega), ok_bind, rd_eq (by omega), ok_bind]
  refine (forRange_cells h4 (by omega) (fun p _ => A.vals⟦p⟧) ?_).bind ?_
  · intro j hj1 hj2 a' ha'
    rw [rd_eq (by omega), ok_bind, wr_eq (by omega)]
  · rintro y1 ⟨h6, h7⟩
    rw [rd_eq (by omega), ok_bind]
    have hd1 := hdr.1
    have hd2 := hdr.2
    refine (forRange_cells hd1 (by omega)
      (fun p a => a * (A.vals⟦A.diagind⟦A.bcolind⟦p⟧⟧⟧)⁻¹) ?_).mono ?_
    · intro j hj1 hj2 a' ha'
      have h8 := hA.col_lt j (by omega)
      have h9 := hA.lt_nnz h8 (hD.diag_lt _ h8)
      rw [rd_eq (by omega), ok_bind, rd_eq (by omega), ok_bind, rd_eq (by omega), ok_bind]
      simp only [pinv, if_neg (hnz _ h8), ok_bind]
      rw [rd_eq (by omega), ok_bind, wr_eq (by omega)]
    · rintro y2 ⟨h8, h9⟩
      refine ⟨by omega, fun c hc => ⟨fun hr => ?_, fun hr => ?_⟩⟩
      · rw [h9 c (by omega), h7 c (by omega), if_pos (show _ ∧ _ from hr), hA.rowOf_eq hi hr]
        have hiff := hS.lt_iff hi hr hdr
        rw [hD.diag_col i hi] at hiff
        by_cases hc' : c < A.diagind⟦i⟧
        · rw [if_pos ⟨hr.1, hc'⟩, if_pos (hiff.mpr hc')]
        · rw [if_neg (by tauto), if_neg (by tauto)]
      · have hr' : ¬ (A.browptr⟦i⟧ ≤ c ∧ c < A.browptr⟦i + 1⟧) := hr
        rw [h9 c (by omega), if_neg (by omega), h7 c (by omega), if_neg hr']

theorem scalarFactInit_post (A : SR K) (ft : FactInit) (s : Option (List K)) (ord ordc : List Nat)
    {ilu : List K} {n : Nat} (hl : ilu.length = n) :
    Post (scalarFactInit A ft s ord ordc ilu) (fun ilu' => ilu'.length = n) := by
  have hO : ∀ ilu : List K, ilu.length = n →
      Post (factInitOriginal A s ord ordc ilu) (fun ilu' => ilu'.length = n) := by
    intro ilu hl
    unfold factInitOriginal
    cases s with
    | none => exact Post.parCells hl fun i s hs => Post.bind' fun _ => Post.wr_length hs
    | some t =>
      refine Post.parFor hl fun i s hs => Post.bind' fun _ => Post.bind' fun _ => ?_
      exact Post.forRange hs fun j s hs => Post.bind' fun _ => Post.bind' fun _ => Post.bind' fun _ =>
        Post.bind' fun _ => Post.wr_length hs
  unfold scalarFactInit
  cases ft with
  | none => exact Post.pure hl
  | original => exact hO _ hl
  | zero => exact Post.bind (Post.parCells hl fun i s hs => Post.wr_length hs) fun _ h => hO _ h
  | sgs =>
    unfold factInitSgs
    cases s with
    | none =>
      refine Post.parFor hl fun i s hs => Post.bind' fun _ => Post.bind' fun _ => ?_
      refine Post.bind (Post.forRange hs fun j s hs => Post.bind' fun _ => Post.wr_length hs) fun s hs => ?_
      refine Post.bind' fun _ => Post.forRange hs fun j s hs => ?_
      exact Post.bind' fun _ => Post.bind' fun _ => Post.bind' fun _ => Post.bind' fun _ =>
        Post.bind' fun _ => Post.wr_length hs
    | some t =>
      refine Post.parFor hl fun i s hs => Post.bind' fun _ => Post.bind' fun _ => ?_
      refine Post.bind (Post.forRange hs fun j s hs => Post.bind' fun _ => Post.bind' fun _ =>
        Post.bind' fun _ => Post.bind' fun _ => Post.wr_length hs) fun s hs => ?_
      refine Post.bind' fun _ => Post.forRange hs fun j s hs => ?_
      exact Post.bind' fun _ => Post.bind' fun _ => Post.bind' fun _ => Post.bind' fun _ =>
        Post.bind' fun _ => Post.bind' fun _ => Post.wr_length hs

end scalarinit

/-! ### Residual -/

section res
variable [Ring R] [PInv R]

omit [PInv R] in
theorem iluResEntry_eq {A : SR R} (hA : A.Full) (hS : A.Sorted) (hD : A.HasDiag)
    {pos : ILUPos} (hpos : ILUPosOk A pos) {scal : Nat → Nat → R → C R} {T : R} {ilu : List R}
    (hl : ilu.length = A.browptr⟦A.nbrows⟧) {i p : Nat}
    (hi : i < A.nbrows) (hp : A.InRow i p) (hT : scal i A.bcolind⟦p⟧ A.vals⟦p⟧ = .ok T) :
    iluResEntry A scal pos ilu i p = .ok (T - luProd A ilu i A.bcolind⟦p⟧) := by
  have hpn := hA.lt_nnz hi hp.2
  have h1 := hA.ind_len
  have h2 := hA.val_len
  have h3 := hpos.ptr_len
  have h4 := hD.diag_len
  rw [luProd_eq hA hS hD hpos hl hi hp]
  unfold iluResEntry
  rw [rd_eq (by omega), ok_bind, rd_eq (by omega), ok_bind, hT, ok_bind, rd_eq (by omega), ok_bind,
    rd_eq (by omega), ok_bind]
  have hloop := forRange_sub (s := T) (hpos.ptr_mono p hpn)
    (f := fun k => do
      let l ← rd pos.lowerp k
      let u ← rd pos.upperp k
      let a ← rd ilu l
      let b ← rd ilu u
      .ok (a * b)) (g := fun t => ilu⟦pos.lowerp⟦t⟧⟧ * ilu⟦pos.upperp⟦t⟧⟧) (by
      intro t ht1 ht2
      obtain ⟨h5, h6, h7, h8⟩ := hpos.before hA hS hi hp ht1 ht2
      rw [rd_eq h7, ok_bind, rd_eq h8, ok_bind, rd_eq (by omega), ok_bind, rd_eq (by omega), ok_bind])
  rw [forRange_congr (body' := fun i s => do
      let t ← (do
        let l ← rd pos.lowerp i
        let u ← rd pos.upperp i
        let a ← rd ilu l
        let b ← rd ilu u
        .ok (a * b))
      .ok (s - t)) (by
      intro t ht1 ht2 s
      obtain ⟨h5, h6, h7, h8⟩ := hpos.before hA hS hi hp ht1 ht2
      have h9 : rd ilu pos.lowerp⟦t⟧ = _ := rd_eq (by omega)
      have h10 : rd ilu pos.upperp⟦t⟧ = _ := rd_eq (by omega)
      simp only [rd_eq h7, rd_eq h8, ok_bind, h9, h10]), hloop, ok_bind]
  have hc := hA.col_lt p hpn
  by_cases hlow : A.bcolind⟦p⟧ < i
  · have := diag_before hA hD hi hp hlow
    rw [if_pos hlow, if_pos hlow, rd_eq (by omega), ok_bind, rd_eq (by omega), ok_bind,
      rd_eq (by omega), ok_bind, posSum, sub_sub]
  · rw [if_neg hlow, if_neg hlow, rd_eq (by omega), ok_bind, posSum, sub_sub]

omit [PInv R] in
/-- The residual norm is the sum over all stored positions, for every order of the rows. -/
theorem iluRes_eq [AddCommMonoid K] (norm : R → K) {A : SR R} (hA : A.Full) (hS : A.Sorted) (hD : A.HasDiag)
    {pos : ILUPos} (hpos : ILUPosOk A pos) {scal : Nat → Nat → R → C R} {T : Nat → R}
    (hT : ScalOk A scal T) {ord : List Nat} (hord : ord.Perm (List.range A.nbrows)) {ilu : List R}
    (hl : ilu.length = A.browptr⟦A.nbrows⟧) :
    iluRes norm A scal pos ord ilu = .ok (∑ i ∈ range A.nbrows,
      ∑ p ∈ Ico A.browptr⟦i⟧ A.browptr⟦i + 1⟧, norm (T p - luProd A ilu i A.bcolind⟦p⟧)) := by
  set F := fun i => ∑ p ∈ Ico A.browptr⟦i⟧ A.browptr⟦i + 1⟧, norm (T p - luProd A ilu i A.bcolind⟦p⟧)
    with hF
  have hptr := hA.ptr_len
  have hrow : ∀ i < A.nbrows, ∀ s : K, (do
      let lo ← rd A.browptr i
      let hi ← rd A.browptr (i + 1)
      forRange lo hi (fun j resnorm => do
        let sum ← iluResEntry A scal pos ilu i j
        .ok (resnorm + norm sum)) s) = .ok (s + F i) := by
    intro i hi s
    rw [rd_eq (by omega), ok_bind, rd_eq (by omega), ok_bind]
    have := forRange_sum (s := s) (hA.ptr_mono i hi)
      (f := fun j => do let sum ← iluResEntry A scal pos ilu i j; .ok (norm sum))
      (g := fun p => norm (T p - luProd A ilu i A.bcolind⟦p⟧)) (by
        intro p hp1 hp2
        have hin : A.InRow i p := ⟨hp1, hp2⟩
        have h := hT p (hA.lt_nnz hi hp2)
        rw [hA.rowOf_eq hi hin] at h
        rw [iluResEntry_eq hA hS hD hpos hl hi hin h, ok_bind])
    rw [← this]
    refine forRange_congr fun p hp1 hp2 s => ?_
    cases iluResEntry A scal pos ilu i p <;> rfl
  unfold iluRes
  rw [parFor_eq hord]
  have hgen : ∀ l : List Nat, (∀ i ∈ l, i < A.nbrows) → ∀ s : K, forList l (fun irow resnorm => do
    let lo ← rd A.browptr irow
    let hi ← rd A.browptr (irow + 1)
    forRange lo hi (fun j resnorm => do
      let sum ← iluResEntry A scal pos ilu irow j
      .ok (resnorm + norm sum)) resnorm) s = .ok (s + (l.map F).sum) := by
    intro l
    induction l with
    | nil => intro _ s; simp
    | cons i l ih =>
      intro hlt s
      rw [forList_cons, hrow i (hlt i (by simp)) s, ok_bind, ih (fun j hj => hlt j (by simp [hj])),
        List.map_cons, List.sum_cons, add_assoc]
  rw [hgen ord (fun i hi => by rw [hord.mem_iff, List.mem_range] at hi; exact hi), zero_add,
    (hord.map F).sum_eq]
  rfl

end res

end Blasted
