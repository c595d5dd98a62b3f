import Verif.Solve.Phases
import Verif.ILU.AsyncProps

/-!
# Application of ILU(0) preconditioners (C25, C26, C27, C28, C52, C55)

The result `z` of an application to `r` satisfies `(S⁻¹ L U S⁻¹) z = r`, where `L`, `U` are the factors held by the
object and `S` the diagonal scaling matrix. Division-free: `z = S w` where `(L U) w = S r`.
-/

namespace Blasted

open Finset

variable {V R M K : Type}

/-! ### Solutions with the factors -/

section ring
variable [Ring R] [AddCommGroup M] [Module R M] {A : SR V} {m : Nat}

/-- The two triangular solves give the solution with the product of the factors. -/
theorem lu_solved (hA : A.Full m) (hS : A.Sorted) (hD : A.HasDiag) {u : List R}
    (hl : u.length = A.browptr⟦A.nbrows⟧) {dinv : Nat → R} (hd : ∀ i < A.nbrows, u⟦A.diagind⟦i⟧⟧ * dinv i = 1)
    {b y w : Nat → M} (hy : ∀ i < A.nbrows, y i = b i - lowSum A u i y)
    (hw : ∀ i < A.nbrows, w i = dinv i • (y i - upSum A u i w)) :
    ∀ i < A.nbrows, ∑ j ∈ range A.nbrows, luProd A u i j • w j = b i := by
  intro i hi
  rw [luProd_mul]
  have hU : ∀ k ∈ range A.nbrows, lowerFactor A u i k • ∑ j ∈ range A.nbrows, upperFactor A u k j • w j =
      lowerFactor A u i k • y k := by
    intro k hk
    have hk' := mem_range.mp hk
    rw [upperFactor_mul hA hS hD hl hk']
    congr 1
    conv_lhs => rw [hw k hk']
    rw [smul_smul, hd k hk', one_smul]
    rw [sub_add_cancel]
  rw [sum_congr rfl hU, lowerFactor_mul hA hS hD hl hi, hy i hi]
  abel

/-- `L U` is injective if the pivots are invertible. -/
theorem lu_injective (hA : A.Full m) (hS : A.Sorted) (hD : A.HasDiag) {u : List R}
    (hl : u.length = A.browptr⟦A.nbrows⟧) (hpiv : PivotsOk A u) {w : Nat → M}
    (h : ∀ i < A.nbrows, ∑ j ∈ range A.nbrows, luProd A u i j • w j = 0) : ∀ i < A.nbrows, w i = 0 := by
  have hL : ∀ i < A.nbrows, ∑ j ∈ range A.nbrows, upperFactor A u i j • w j = 0 := by
    intro i
    induction i using Nat.strong_induction_on with
    | _ i ih =>
      intro hi
      have := h i hi
      rw [luProd_mul, lowerFactor_mul hA hS hD hl hi] at this
      rw [← this, right_eq_add]
      refine sum_eq_zero fun p hp => ?_
      rw [mem_Ico] at hp
      have hlt := (low_dep hS hD hi hp.1 hp.2).2
      dsimp only
      rw [ih _ hlt (by omega), smul_zero]
  have hU : ∀ t i, A.nbrows - 1 - i = t → i < A.nbrows → w i = 0 := by
    intro t
    induction t using Nat.strong_induction_on with
    | _ t ih =>
      rintro i rfl hi
      have := hL i hi
      rw [upperFactor_mul hA hS hD hl hi] at this
      have hz : upSum A u i w = 0 := by
        refine sum_eq_zero fun p hp => ?_
        rw [mem_Ico] at hp
        have hlt := (up_dep hS hD hi hp.1 hp.2).2
        have hc := hA.col_lt p (hA.lt_nnz hi hp.2)
        rw [ih _ (by omega) _ rfl hc, smul_zero]
      rw [hz, add_zero, ← upperFactor_diag hA hS hD hl hi] at this
      obtain ⟨v, hv⟩ := hpiv i hi
      rw [← hv] at this
      have h2 : (↑v⁻¹ : R) • (↑v : R) • w i = 0 := by rw [this, smul_zero]
      rwa [smul_smul, Units.inv_mul, one_smul] at h2
  exact fun i hi => hU _ i rfl hi

/-- The solution with `L U` is unique. -/
theorem lu_unique (hA : A.Full m) (hS : A.Sorted) (hD : A.HasDiag) {u : List R}
    (hl : u.length = A.browptr⟦A.nbrows⟧) (hpiv : PivotsOk A u) {w w' b : Nat → M}
    (h : ∀ i < A.nbrows, ∑ j ∈ range A.nbrows, luProd A u i j • w j = b i)
    (h' : ∀ i < A.nbrows, ∑ j ∈ range A.nbrows, luProd A u i j • w' j = b i) : ∀ i < A.nbrows, w i = w' i := by
  intro i hi
  refine sub_eq_zero.mp (lu_injective hA hS hD hl hpiv (w := fun j => w j - w' j) (fun i hi => ?_) i hi)
  simp only [smul_sub, sum_sub_distrib]
  rw [h i hi, h' i hi, sub_self]

omit [AddCommGroup M] [Module R M] in
theorem not_diag_of_ne (hA : A.Full m) (hD : A.HasDiag) {i p : Nat} (hi : i < A.nbrows) (hp : A.InRow i p)
    (hne : p ≠ A.diagind⟦i⟧) : ∀ k < A.nbrows, p ≠ A.diagind⟦k⟧ := by
  rintro k hk rfl
  obtain rfl := hA.row_unique hi hk hp (hD.inRow hk)
  exact hne rfl

theorem DiagInverted.lowSum_eq {u y : List R} (h : DiagInverted A u y) (hA : A.Full m)
    (hD : A.HasDiag) {i : Nat} (hi : i < A.nbrows) (x : Nat → M) : lowSum A y i x = lowSum A u i x := by
  refine sum_congr rfl fun p hp => ?_
  rw [mem_Ico] at hp
  have hd := hD.diag_lt i hi
  rw [h.off p (not_diag_of_ne hA hD hi ⟨hp.1, by omega⟩ (by omega))]

theorem DiagInverted.upSum_eq {u y : List R} (h : DiagInverted A u y) (hA : A.Full m)
    (hD : A.HasDiag) {i : Nat} (hi : i < A.nbrows) (x : Nat → M) : upSum A y i x = upSum A u i x := by
  refine sum_congr rfl fun p hp => ?_
  rw [mem_Ico] at hp
  have hd := hD.diag_ge i hi
  rw [h.off p (not_diag_of_ne hA hD hi ⟨by omega, hp.2⟩ (by omega))]

theorem DiagInverted.pivots {u y : List R} (h : DiagInverted A u y) (hA : A.Full m) (hS : A.Sorted)
    (hD : A.HasDiag) : PivotsOk A u := by
  intro i hi
  rw [upperFactor_diag hA hS hD h.len hi]
  exact ⟨⟨_, _, (h.diag i hi).1, (h.diag i hi).2⟩, rfl⟩

theorem triUpd_unitLower (hA : A.Full m) (hS : A.Sorted) (hD : A.HasDiag) {ilu : List R}
    (hl : ilu.length = A.browptr⟦A.nbrows⟧) :
    TriUpd (M := M) (unitLowerRow A ilu) A.nbrows (LowDep A) (fun b i x => b i - lowSum A ilu i x) where
  upd rhs hr := rowUpd_unitLower hA hS hD hl hr
  local_ b b' i x h := by rw [h]

theorem triUpd_upper [PInv R] (hA : A.Full m) (hS : A.Sorted) (hD : A.HasDiag) {ilu dinv : List R}
    (hl : ilu.length = A.browptr⟦A.nbrows⟧) (hd : ∀ i < A.nbrows, pinv ilu⟦A.diagind⟦i⟧⟧ = .ok dinv⟦i⟧) :
    TriUpd (M := M) (upperRow A ilu) A.nbrows (UpDep A) (fun b i x => dinv⟦i⟧ • (b i - upSum A ilu i x)) where
  upd rhs hr := rowUpd_upper hA hS hD hl hd hr
  local_ b b' i x h := by rw [h]

theorem triUpd_blockUpper (hA : A.Full m) (hS : A.Sorted) (hD : A.HasDiag) {ilu : List R}
    (hl : ilu.length = A.browptr⟦A.nbrows⟧) :
    TriUpd (M := M) (blockUpperRow A ilu) A.nbrows (UpDep A)
      (fun b i x => ilu⟦A.diagind⟦i⟧⟧ • (b i - upSum A ilu i x)) where
  upd rhs hr := rowUpd_blockUpper hA hS hD hl hr
  local_ b b' i x h := by rw [h]

theorem exists_dinv [PInv R] (hA : A.Full m) (hS : A.Sorted) (hD : A.HasDiag) {ilu : List R}
    (hl : ilu.length = A.browptr⟦A.nbrows⟧) (hp : PivotsOk A ilu) :
    ∃ dinv : List R, ∀ i < A.nbrows, pinv ilu⟦A.diagind⟦i⟧⟧ = .ok dinv⟦i⟧ := by
  have : ∀ i, ∃ b, i < A.nbrows → pinv ilu⟦A.diagind⟦i⟧⟧ = .ok b := by
    intro i
    by_cases hi : i < A.nbrows
    · have := hp i hi
      rw [upperFactor_diag hA hS hD hl hi] at this
      obtain ⟨b, hb⟩ := PInv.pinv_unit this
      exact ⟨b, fun _ => hb⟩
    · exact ⟨0, fun h => absurd h hi⟩
  choose b hb using this
  refine ⟨(List.range A.nbrows).map b, fun i hi => ?_⟩
  rw [get0_map_range _ hi, hb i hi]

/-- The property of the results of applications: `z = S w` with `(L U) w = S r`. -/
def IluApplied (A : SR V) (u : List R) (S : Nat → M → M) (r z : List M) : Prop :=
  z.length = A.nbrows ∧ ∃ w : Nat → M, (∀ i < A.nbrows, z⟦i⟧ = S i (w i)) ∧
    ∀ i < A.nbrows, ∑ j ∈ range A.nbrows, luProd A u i j • w j = S i r⟦i⟧

theorem iluApplied_scalar [PInv R] (hA : A.Full m) (hS : A.Sorted) (hD : A.HasDiag) {u dinv : List R}
    (hl : u.length = A.browptr⟦A.nbrows⟧) (hd : ∀ i < A.nbrows, pinv u⟦A.diagind⟦i⟧⟧ = .ok dinv⟦i⟧)
    {S : Nat → M → M} {r z : List M}
    (h : IluSolved (fun b i x => b i - lowSum A u i x) (fun b i x => dinv⟦i⟧ • (b i - upSum A u i x)) S
      A.nbrows r z) : IluApplied A u S r z := by
  obtain ⟨h0, y, w, h1, h2, h3⟩ := h
  exact ⟨h0, w, h3, lu_solved hA hS hD hl (fun i hi => (PInv.pinv_ok (hd i hi)).1) h1 h2⟩

theorem iluApplied_block (hA : A.Full m) (hS : A.Sorted) (hD : A.HasDiag) {u ilu : List R}
    (hu : DiagInverted A u ilu) {S : Nat → M → M} {r z : List M}
    (h : IluSolved (fun b i x => b i - lowSum A ilu i x)
      (fun b i x => ilu⟦A.diagind⟦i⟧⟧ • (b i - upSum A ilu i x)) S A.nbrows r z) : IluApplied A u S r z := by
  obtain ⟨h0, y, w, h1, h2, h3⟩ := h
  refine ⟨h0, w, h3, lu_solved (y := y) (dinv := fun i => ilu⟦A.diagind⟦i⟧⟧) hA hS hD hu.len
    (fun i hi => (hu.diag i hi).1) (fun i hi => ?_) fun i hi => ?_⟩
  · rw [← hu.lowSum_eq hA hD hi]; exact h1 i hi
  · rw [← hu.upSum_eq hA hD hi]; exact h2 i hi

/-- The result is determined by the factors, the scaling and the right-hand side. -/
theorem IluApplied.unique (hA : A.Full m) (hS : A.Sorted) (hD : A.HasDiag) {u : List R}
    (hl : u.length = A.browptr⟦A.nbrows⟧) (hp : PivotsOk A u) {S : Nat → M → M} {r z z' : List M}
    (h : IluApplied A u S r z) (h' : IluApplied A u S r z') : z = z' := by
  obtain ⟨h0, w, h1, h2⟩ := h
  obtain ⟨h0', w', h1', h2'⟩ := h'
  refine ext_get0 (by omega) fun i hi => ?_
  rw [h1 i (by omega), h1' i (by omega), lu_unique hA hS hD hl hp h2 h2' i (by omega)]

/-- Linear combinations of applications are applications. -/
theorem IluApplied.linear {F : Type} [Ring F] [Module F M] [SMulCommClass R F M] {u : List R}
    {S : Nat → M → M} (hSa : ∀ i x y, S i (x + y) = S i x + S i y)
    (hSm : ∀ i (c : F) x, S i (c • x) = c • S i x) {r₁ r₂ z₁ z₂ r z : List M} {a b : F}
    (h₁ : IluApplied A u S r₁ z₁) (h₂ : IluApplied A u S r₂ z₂)
    (hr : ∀ i < A.nbrows, r⟦i⟧ = a • r₁⟦i⟧ + b • r₂⟦i⟧) (hz : z.length = A.nbrows)
    (hz' : ∀ i < A.nbrows, z⟦i⟧ = a • z₁⟦i⟧ + b • z₂⟦i⟧) : IluApplied A u S r z := by
  obtain ⟨_, w₁, h1, h2⟩ := h₁
  obtain ⟨_, w₂, h1', h2'⟩ := h₂
  refine ⟨hz, fun i => a • w₁ i + b • w₂ i, fun i hi => ?_, fun i hi => ?_⟩
  · rw [hz' i hi, h1 i hi, h1' i hi, hSa, hSm, hSm]
  · rw [hr i hi, hSa, hSm, hSm, ← h2 i hi, ← h2' i hi, smul_sum, smul_sum, ← sum_add_distrib]
    refine sum_congr rfl fun j _ => ?_
    rw [smul_add, smul_comm (luProd A u i j) a, smul_comm (luProd A u i j) b]

end ring

/-! ### C25: the scalar application -/

/-- Component `i` of the scaling: the given vector, or ones. -/
def scaleAt [Field K] (scale : Option (List K)) (i : Nat) : K :=
  match scale with
  | none => 1
  | some s => s⟦i⟧

/-- The scaling vector, if there is one, has the right length. -/
def ScaleLen (scale : Option (List K)) (n : Nat) : Prop := ∀ s, scale = some s → s.length = n

theorem segOk_scalar [Field K] {scale : Option (List K)} {n : Nat} (h : ScaleLen scale n) :
    SegOk (scale.map scalarSeg) (fun i v => scaleAt scale i * v) n := by
  cases scale with
  | none => exact fun i hi v => one_mul v
  | some s =>
    have := h s rfl
    intro i hi v
    show scalarSeg s i v = _
    unfold scalarSeg
    rw [rd_eq (by omega), ok_bind]
    rfl

section scalar
variable [Field K] [DecidableEq K] {A : SR V} {m : Nat} {u : List K} {scale : Option (List K)}

/-- **C25.** The sequential scalar application, for every number of sweeps `k ≥ 1`, initialisation, order of
the parallel copy loops and contents of the output and work vectors: it succeeds, and `z = S w` where
`(L U) w = S r`. -/
theorem scalar_ilu_apply_correct (hA : A.Full m) (hS : A.Sorted) (hD : A.HasDiag)
    (hl : u.length = A.browptr⟦A.nbrows⟧) (hp : PivotsOk A u) (hs : ScaleLen scale A.nbrows) {k : Nat}
    (hk : 1 ≤ k) {init : ApplyInit} (hi : init ≠ .none) {ord : Nat → List Nat}
    (hord : ∀ t, (ord t).Perm (List.range A.nbrows)) {r z y : List K} (hr : r.length = A.nbrows)
    (hz : z.length = A.nbrows) (hy : y.length = A.nbrows) :
    ∃ z' y', scalarIluApply A u scale k init ord r z y = .ok (z', y') ∧ y'.length = A.nbrows ∧
      z'.length = A.nbrows ∧ ∃ w : Nat → K, (∀ i < A.nbrows, z'⟦i⟧ = scaleAt scale i * w i) ∧
        ∀ i < A.nbrows, ∑ j ∈ range A.nbrows, luProd A u i j * w j = scaleAt scale i * r⟦i⟧ := by
  obtain ⟨dinv, hd⟩ := exists_dinv hA hS hD hl hp
  obtain ⟨⟨z', y'⟩, he, h1, h2⟩ := iluApplyWith_ok (triUpd_unitLower (M := K) hA hS hD hl)
    (triUpd_upper (M := K) hA hS hD hl hd) (fun _ _ h => h.2) (fun _ _ h => h.2) (segOk_scalar hs) hk hi hord
    hr hz hy
  obtain ⟨h3, w, h4, h5⟩ := iluApplied_scalar hA hS hD hl hd h2
  exact ⟨z', y', he, h1, h3, w, h4, h5⟩

/-- The values in the output and work vectors before the call, the number of sweeps, the initialisation and the order
of loops have no influence on the result. -/
theorem scalar_ilu_apply_independent (hA : A.Full m) (hS : A.Sorted) (hD : A.HasDiag)
    (hl : u.length = A.browptr⟦A.nbrows⟧) (hp : PivotsOk A u) (hs : ScaleLen scale A.nbrows) {k k' : Nat}
    (hk : 1 ≤ k) (hk' : 1 ≤ k') {init init' : ApplyInit} (hi : init ≠ .none) (hi' : init' ≠ .none)
    {ord ord' : Nat → List Nat} (hord : ∀ t, (ord t).Perm (List.range A.nbrows))
    (hord' : ∀ t, (ord' t).Perm (List.range A.nbrows)) {r z z' y y' : List K} (hr : r.length = A.nbrows)
    (hz : z.length = A.nbrows) (hz' : z'.length = A.nbrows) (hy : y.length = A.nbrows)
    (hy' : y'.length = A.nbrows) :
    ∃ x v v', scalarIluApply A u scale k init ord r z y = .ok (x, v) ∧
      scalarIluApply A u scale k' init' ord' r z' y' = .ok (x, v') := by
  obtain ⟨x, v, e, _, h1, w, h2⟩ := scalar_ilu_apply_correct hA hS hD hl hp hs hk hi hord hr hz hy
  obtain ⟨x', v', e', _, h1', w', h2'⟩ := scalar_ilu_apply_correct hA hS hD hl hp hs hk' hi' hord' hr hz' hy'
  have := IluApplied.unique hA hS hD hl hp (S := fun i (v : K) => scaleAt scale i * v)
    ⟨h1, w, h2⟩ ⟨h1', w', h2'⟩
  subst this
  exact ⟨x, v, v', e, e'⟩

/-- Without initialisation (`INIT_A_NONE`) the application throws. -/
theorem scalar_ilu_apply_none (hA : A.Full m) (hS : A.Sorted) (hD : A.HasDiag)
    (hl : u.length = A.browptr⟦A.nbrows⟧) (hs : ScaleLen scale A.nbrows) {k : Nat}
    (hk : 1 ≤ k) {ord : Nat → List Nat} (hord : ∀ t, (ord t).Perm (List.range A.nbrows)) {r z y : List K}
    (hr : r.length = A.nbrows) (hz : z.length = A.nbrows) (hy : y.length = A.nbrows) :
    scalarIluApply A u scale k .none ord r z y =
      .error (.throw "std::runtime_error" " scalar_ilu0_apply: Invalid init type!") :=
  iluApplyWith_none (triUpd_unitLower (M := K) hA hS hD hl) (fun _ _ h => h.2) (segOk_scalar hs) hk hord hr hz hy

theorem upper_pass_divzero (hA : A.Full m) (hD : A.HasDiag) (hl : u.length = A.browptr⟦A.nbrows⟧)
    {y : List K} (hy : y.length = A.nbrows) {l : List Nat} (hlt : ∀ i ∈ l, i < A.nbrows) {x : List K}
    (hx : x.length = A.nbrows) (hbad : ∃ i ∈ l, u⟦A.diagind⟦i⟧⟧ = 0) :
    forList l (updRow (upperRow A u y)) x = .error .divzero := by
  induction l generalizing x with
  | nil => obtain ⟨i, hi, _⟩ := hbad; cases hi
  | cons i l ih =>
    have hi := hlt i (by simp)
    have h1 := hA.ptr_len
    have h2 := hD.diag_len
    have h3 := hA.lt_nnz hi (hD.diag_lt i hi)
    rw [forList_cons]
    have e : upperRow A u y i (rd x) = (pinv u⟦A.diagind⟦i⟧⟧ >>= fun w => .ok (w • (y⟦i⟧ - upSum A u i (get0 x)))) := by
      unfold upperRow
      rw [rd_eq (by omega), ok_bind, rd_eq (by omega), ok_bind, rd_eq (by omega), ok_bind]
      congr 1
      funext w
      rw [rd_eq (by omega), ok_bind, upSum_eval hA hD hl hi (fun j hj => rd_eq (by omega)), ok_bind, zero_add]
    by_cases h0 : u⟦A.diagind⟦i⟧⟧ = 0
    · have : pinv u⟦A.diagind⟦i⟧⟧ = .error .divzero := by rw [h0]; exact if_pos rfl
      unfold updRow
      rw [e, this]
      rfl
    · obtain ⟨w, hw⟩ := PInv.pinv_unit (isUnit_iff_ne_zero.mpr h0)
      unfold updRow
      rw [e, hw, ok_bind, ok_bind, wr_eq (by omega), ok_bind]
      refine ih (fun j hj => hlt j (by simp [hj])) (by simp [hx]) ?_
      obtain ⟨j, hj, hj0⟩ := hbad
      rcases List.mem_cons.mp hj with rfl | hj
      · exact absurd hj0 h0
      · exact ⟨j, hj, hj0⟩

/-- With a zero pivot the application divides by zero. -/
theorem scalar_ilu_apply_divzero (hA : A.Full m) (hS : A.Sorted) (hD : A.HasDiag)
    (hl : u.length = A.browptr⟦A.nbrows⟧) (hp : ¬ PivotsOk A u) (hs : ScaleLen scale A.nbrows) {k : Nat}
    (hk : 1 ≤ k) {init : ApplyInit} (hi : init ≠ .none) {ord : Nat → List Nat}
    (hord : ∀ t, (ord t).Perm (List.range A.nbrows)) {r z y : List K} (hr : r.length = A.nbrows)
    (hz : z.length = A.nbrows) (hy : y.length = A.nbrows) :
    scalarIluApply A u scale k init ord r z y = .error .divzero := by
  unfold scalarIluApply iluApplyWith
  have hSg := segOk_scalar hs
  obtain ⟨z₁, e1, h1⟩ := applyScaleIn_ok hSg (hord 0) hr hz
  obtain ⟨y₁, e2, h2⟩ := applyInitY_ok init (hord 1) hy
  obtain ⟨y₂, e3, h3⟩ := ((triUpd_unitLower (M := K) hA hS hD hl).upd z₁ h1.1).fwd (fun _ _ h => h.2) hk h2
  obtain ⟨z₂, e4, h4⟩ := applyInitZ_ok hi (hord 2) h3.1 h1.1
  rw [e1, ok_bind, e2, ok_bind, e3, ok_bind, e4, ok_bind]
  obtain ⟨k, rfl⟩ : ∃ j, k = 1 + j := ⟨k - 1, by omega⟩
  have : bwdSweeps (upperRow A u y₂) A.nbrows (1 + k) z₂ = .error .divzero := by
    unfold bwdSweeps
    rw [forRange_split (mid := 1) (by omega) (by omega)]
    have e : forRange 0 1 (fun _ x => forDown 0 A.nbrows (updRow (upperRow A u y₂)) x) z₂ =
        (forDown 0 A.nbrows (updRow (upperRow A u y₂)) z₂ >>= fun s => .ok s) := rfl
    have e' : forDown 0 A.nbrows (updRow (upperRow A u y₂)) z₂ = .error .divzero := by
      unfold forDown
      refine upper_pass_divzero hA hD hl h3.1 (fun i hi => ?_) h4 ?_
      · rw [List.mem_reverse, List.mem_range'_1] at hi; omega
      · by_contra hc
        refine hp fun i hi => ?_
        rw [upperFactor_diag hA hS hD hl hi, isUnit_iff_ne_zero]
        intro h0
        exact hc ⟨i, by rw [List.mem_reverse, List.mem_range'_1]; omega, h0⟩
    rw [e, e']
    rfl
  rw [this]
  rfl

/-- **C52**, scalar ILU: the sequential application is a linear operator. -/
theorem scalar_ilu_apply_linear (hA : A.Full m) (hS : A.Sorted) (hD : A.HasDiag)
    (hl : u.length = A.browptr⟦A.nbrows⟧) (hp : PivotsOk A u) (hs : ScaleLen scale A.nbrows) {k : Nat}
    (hk : 1 ≤ k) {init : ApplyInit} (hi : init ≠ .none) {ord : Nat → List Nat}
    (hord : ∀ t, (ord t).Perm (List.range A.nbrows)) {a b : K} {r₁ r₂ r z y z₁ y₁ z₂ y₂ z₃ y₃ : List K}
    (hr₁ : r₁.length = A.nbrows) (hr₂ : r₂.length = A.nbrows) (hr : r.length = A.nbrows)
    (hz : z.length = A.nbrows) (hy : y.length = A.nbrows)
    (hlin : ∀ i < A.nbrows, r⟦i⟧ = a * r₁⟦i⟧ + b * r₂⟦i⟧)
    (h₁ : scalarIluApply A u scale k init ord r₁ z y = .ok (z₁, y₁))
    (h₂ : scalarIluApply A u scale k init ord r₂ z y = .ok (z₂, y₂))
    (h₃ : scalarIluApply A u scale k init ord r z y = .ok (z₃, y₃)) :
    ∀ i < A.nbrows, z₃⟦i⟧ = a * z₁⟦i⟧ + b * z₂⟦i⟧ := by
  have key : ∀ {r x v : List K}, r.length = A.nbrows → scalarIluApply A u scale k init ord r z y = .ok (x, v) →
      IluApplied A u (fun i (v : K) => scaleAt scale i * v) r x := by
    intro r x v hr h
    obtain ⟨x', v', e, _, h1, w, h2⟩ := scalar_ilu_apply_correct hA hS hD hl hp hs hk hi hord hr hz hy
    rw [h] at e
    cases e
    exact ⟨h1, w, h2⟩
  have h := IluApplied.linear (F := K) (a := a) (b := b) (r := r)
    (z := (List.range A.nbrows).map fun i => a * z₁⟦i⟧ + b * z₂⟦i⟧) (fun i x y => mul_add _ _ _)
    (fun i c x => by simp only [smul_eq_mul]; ring) (key hr₁ h₁) (key hr₂ h₂) hlin (by simp) (fun i hi => by
      rw [get0_map_range _ hi]; rfl)
  have := IluApplied.unique hA hS hD hl hp (key hr h₃) h
  intro i hi
  rw [this, get0_map_range _ hi]

/-- **C27**, scalar: with at least as many asynchronous sweeps as the longest dependency chain, given by any `rank` that
increases along dependencies, the threaded application gives the exact result, for every execution. -/
theorem scalar_ilu_apply_async_rank (hA : A.Full m) (hS : A.Sorted) (hD : A.HasDiag)
    (hl : u.length = A.browptr⟦A.nbrows⟧) (hp : PivotsOk A u) (hs : ScaleLen scale A.nbrows)
    {mix : Set K → Set K} (hm : MixOk mix) {rankL rankU : Nat → Nat}
    (hrL : ∀ i < A.nbrows, ∀ j < A.nbrows, LowDep A i j → rankL j < rankL i)
    (hrU : ∀ i < A.nbrows, ∀ j < A.nbrows, UpDep A i j → rankU j < rankU i) {k : Nat}
    (hkL : ∀ i < A.nbrows, rankL i < k) (hkU : ∀ i < A.nbrows, rankU i < k)
    {init : ApplyInit} (hi : init ≠ .none) {ord : Nat → List Nat}
    (hord : ∀ t, (ord t).Perm (List.range A.nbrows)) {r z y z' y' : List K} (hr : r.length = A.nbrows)
    (hz : z.length = A.nbrows) (hy : y.length = A.nbrows)
    (h : AsyncIluApply (unitLowerRow A u) (upperRow A u) A.nbrows mix (scale.map scalarSeg) k init ord r z y z' y') :
    z'.length = A.nbrows ∧ ∃ w : Nat → K, (∀ i < A.nbrows, z'⟦i⟧ = scaleAt scale i * w i) ∧
      ∀ i < A.nbrows, ∑ j ∈ range A.nbrows, luProd A u i j * w j = scaleAt scale i * r⟦i⟧ := by
  obtain ⟨dinv, hd⟩ := exists_dinv hA hS hD hl hp
  have h2 := asyncIluApply_ok (triUpd_unitLower (M := K) hA hS hD hl)
    (triUpd_upper (M := K) hA hS hD hl hd) (fun _ _ h => h.2) (fun _ _ h => h.2) (segOk_scalar hs) hm hrL hrU hkL
    hkU hi hord hr hz hy h
  exact iluApplied_scalar hA hS hD hl hd h2.2

/-- **C27**, scalar: as many asynchronous sweeps as there are rows give the exact result. -/
theorem scalar_ilu_apply_async_exact (hA : A.Full m) (hS : A.Sorted) (hD : A.HasDiag)
    (hl : u.length = A.browptr⟦A.nbrows⟧) (hp : PivotsOk A u) (hs : ScaleLen scale A.nbrows)
    {mix : Set K → Set K} (hm : MixOk mix) {k : Nat} (hk : A.nbrows ≤ k)
    {init : ApplyInit} (hi : init ≠ .none) {ord : Nat → List Nat}
    (hord : ∀ t, (ord t).Perm (List.range A.nbrows)) {r z y z' y' : List K} (hr : r.length = A.nbrows)
    (hz : z.length = A.nbrows) (hy : y.length = A.nbrows)
    (h : AsyncIluApply (unitLowerRow A u) (upperRow A u) A.nbrows mix (scale.map scalarSeg) k init ord r z y z' y') :
    z'.length = A.nbrows ∧ ∃ w : Nat → K, (∀ i < A.nbrows, z'⟦i⟧ = scaleAt scale i * w i) ∧
      ∀ i < A.nbrows, ∑ j ∈ range A.nbrows, luProd A u i j * w j = scaleAt scale i * r⟦i⟧ := by
  refine scalar_ilu_apply_async_rank hA hS hD hl hp hs hm (rankL := id) (rankU := fun i => A.nbrows - 1 - i)
    (fun i _ j _ h => h.2) (fun i hi j hj h => ?_) (fun i hi => ?_) (fun i hi => ?_) hi hord hr hz hy h
  · have := h.2; omega
  · show i < k; omega
  · omega

/-- **C27**, scalar: the vectors of the exact solution are fixed points: no asynchronous execution of the lower or
the upper sweeps, of any length and with arbitrarily stale reads, changes them; and they are the only vectors
that no row update changes. -/
theorem scalar_ilu_apply_async_fixed (hA : A.Full m) (hS : A.Sorted) (hD : A.HasDiag)
    (hl : u.length = A.browptr⟦A.nbrows⟧) (hp : PivotsOk A u) {mix : Set K → Set K} (hm : MixOk mix)
    {b x : List K} (hb : b.length = A.nbrows) (hx : x.length = A.nbrows) :
    ((∀ i < A.nbrows, ∑ j ∈ range A.nbrows, lowerFactor A u i j * x⟦j⟧ = b⟦i⟧) →
      ∀ log, ALog (unitLowerRow A u b) mix A.nbrows (memOf x) log → applyLog x log = x) ∧
    ((∀ i < A.nbrows, ∑ j ∈ range A.nbrows, upperFactor A u i j * x⟦j⟧ = b⟦i⟧) →
      ∀ log, ALog (upperRow A u b) mix A.nbrows (memOf x) log → applyLog x log = x) ∧
    ((∀ i < A.nbrows, updRow (unitLowerRow A u b) i x = .ok x) →
      ∀ i < A.nbrows, ∑ j ∈ range A.nbrows, lowerFactor A u i j * x⟦j⟧ = b⟦i⟧) ∧
    ((∀ i < A.nbrows, updRow (upperRow A u b) i x = .ok x) →
      ∀ i < A.nbrows, ∑ j ∈ range A.nbrows, upperFactor A u i j * x⟦j⟧ = b⟦i⟧) := by
  obtain ⟨dinv, hd⟩ := exists_dinv hA hS hD hl hp
  have hL := rowUpd_unitLower (M := K) hA hS hD hl hb
  have hU := rowUpd_upper (M := K) hA hS hD hl hd hb
  have eL : ∀ i < A.nbrows, ∑ j ∈ range A.nbrows, lowerFactor A u i j * x⟦j⟧ =
      lowSum A u i (get0 x) + x⟦i⟧ := fun i hi => lowerFactor_mul (M := K) hA hS hD hl hi (get0 x)
  have eU : ∀ i < A.nbrows, ∑ j ∈ range A.nbrows, upperFactor A u i j * x⟦j⟧ =
      u⟦A.diagind⟦i⟧⟧ * x⟦i⟧ + upSum A u i (get0 x) := fun i hi =>
    upperFactor_mul (M := K) hA hS hD hl hi (get0 x)
  refine ⟨fun h log hlog => ?_, fun h log hlog => ?_, fun h i hi => ?_, fun h i hi => ?_⟩
  · refine hL.fixed hm (fun i hi => ?_) hlog
    rw [← h i hi, eL i hi]; ring
  · refine hU.fixed hm (fun i hi => ?_) hlog
    have h1 := (PInv.pinv_ok (hd i hi)).2
    rw [← h i hi, eU i hi, smul_eq_mul, add_sub_cancel_right, ← mul_assoc, h1, one_mul]
  · have e := h i hi
    rw [hL.evalList hi hx] at e
    have e2 := congrArg (fun l => l⟦i⟧) (Except.ok.inj e)
    rw [get0_set_self (by omega)] at e2
    rw [eL i hi, ← e2]; ring
  · have e := h i hi
    rw [hU.evalList hi hx] at e
    have e2 := congrArg (fun l => l⟦i⟧) (Except.ok.inj e)
    rw [get0_set_self (by omega)] at e2
    have h1 := (PInv.pinv_ok (hd i hi)).1
    rw [eU i hi, ← e2, smul_eq_mul, ← mul_assoc, h1]
    ring

/-- **C28**, scalar: with a valid level schedule the level-scheduled application gives the exact result for every
order of the rows within the levels. -/
theorem scalar_ilu_apply_levels (hA : A.Full m) (hS : A.Sorted) (hD : A.HasDiag)
    (hl : u.length = A.browptr⟦A.nbrows⟧) (hp : PivotsOk A u) (hs : ScaleLen scale A.nbrows)
    {levels : List Nat} (hL : LevelsOk A levels) {sched sched' : Nat → List Nat → List Nat}
    (hsch : ∀ t l, (sched t l).Perm l) (hsch' : ∀ t l, (sched' t l).Perm l) {ord : Nat → List Nat}
    (hord : ∀ t, (ord t).Perm (List.range A.nbrows)) {r z y : List K} (hr : r.length = A.nbrows)
    (hz : z.length = A.nbrows) (hy : y.length = A.nbrows) :
    ∃ z' y', levelScalarIluApply A u scale levels sched sched' ord r z y = .ok (z', y') ∧ y'.length = A.nbrows ∧
      z'.length = A.nbrows ∧ ∃ w : Nat → K, (∀ i < A.nbrows, z'⟦i⟧ = scaleAt scale i * w i) ∧
        ∀ i < A.nbrows, ∑ j ∈ range A.nbrows, luProd A u i j * w j = scaleAt scale i * r⟦i⟧ := by
  obtain ⟨dinv, hd⟩ := exists_dinv hA hS hD hl hp
  obtain ⟨⟨z', y'⟩, he, h1, h2⟩ := levelIluApplyWith_ok hL (triUpd_unitLower (M := K) hA hS hD hl)
    (triUpd_upper (M := K) hA hS hD hl hd) (segOk_scalar hs) hsch hsch' hord hr hz hy
  obtain ⟨h3, w, h4, h5⟩ := iluApplied_scalar hA hS hD hl hd h2
  exact ⟨z', y', he, h1, h3, w, h4, h5⟩

/-- **C28**, scalar, for parallel loops with arbitrary interleaving and visibility within each level. -/
theorem scalar_ilu_apply_levels_async (hA : A.Full m) (hS : A.Sorted) (hD : A.HasDiag)
    (hl : u.length = A.browptr⟦A.nbrows⟧) (hp : PivotsOk A u) (hs : ScaleLen scale A.nbrows)
    {levels : List Nat} (hL : LevelsOk A levels) {mix : Set K → Set K} (hm : MixOk mix) {ord : Nat → List Nat}
    (hord : ∀ t, (ord t).Perm (List.range A.nbrows)) {r z y z' y' : List K} (hr : r.length = A.nbrows)
    (hz : z.length = A.nbrows) (hy : y.length = A.nbrows)
    (h : AsyncLevelIluApply (unitLowerRow A u) (upperRow A u) A.nbrows mix (scale.map scalarSeg) levels ord r z y z' y') :
    z'.length = A.nbrows ∧ ∃ w : Nat → K, (∀ i < A.nbrows, z'⟦i⟧ = scaleAt scale i * w i) ∧
      ∀ i < A.nbrows, ∑ j ∈ range A.nbrows, luProd A u i j * w j = scaleAt scale i * r⟦i⟧ := by
  obtain ⟨dinv, hd⟩ := exists_dinv hA hS hD hl hp
  have h2 := asyncLevelIluApply_ok hL (triUpd_unitLower (M := K) hA hS hD hl)
    (triUpd_upper (M := K) hA hS hD hl hd) (segOk_scalar hs) hm hord hr hz hy h
  exact iluApplied_scalar hA hS hD hl hd h2.2

end scalar

/-! ### C26: the block application -/

/-- Segment `i` multiplied with the scaling. -/
def blockScaleAt [Field K] {bs : Nat} (scale : Option (List K)) (i : Nat) (v : Fin bs → K) (a : Fin bs) : K :=
  scaleAt scale (i * bs + a.val) * v a

theorem segOk_block [Field K] {bs : Nat} {scale : Option (List K)} {n : Nat} (h : ScaleLen scale (n * bs)) :
    SegOk (scale.map (blockSeg bs)) (blockScaleAt (bs := bs) scale) n := by
  cases scale with
  | none => exact fun i hi v => funext fun a => one_mul (v a)
  | some s =>
    have hs := h s rfl
    intro i hi v
    show blockSeg bs s i v = _
    have : (i + 1) * bs ≤ n * bs := Nat.mul_le_mul_right _ hi
    rw [Nat.add_mul, Nat.one_mul] at this
    unfold blockSeg
    rw [readBlock_eq (by omega), ok_bind]
    congr 1
    funext a
    unfold blockScaleAt scaleAt blockAt
    rw [get0_map_range _ a.isLt]

section block
open scoped Matrix.Module
variable [Field K] {bs : Nat}

local notation "Blk" => Matrix (Fin bs) (Fin bs) K
local notation "Seg" => Fin bs → K

variable {A : SR V} {m : Nat} {u ilu : List (Matrix (Fin bs) (Fin bs) K)} {scale : Option (List K)}

/-- The result of an application of block factors: `z = S w` where `(L U) w = S r`. -/
def BlockIluSolved (A : SR V) (u : List Blk) (scale : Option (List K)) (r z : List Seg) : Prop :=
  z.length = A.nbrows ∧ ∃ w : Nat → Seg, (∀ i < A.nbrows, z⟦i⟧ = blockScaleAt scale i (w i)) ∧
    ∀ i < A.nbrows, ∑ j ∈ range A.nbrows, (luProd A u i j).mulVec (w j) = blockScaleAt scale i r⟦i⟧

theorem blockIluSolved_iff {r z : List Seg} :
    BlockIluSolved A u scale r z ↔ IluApplied A u (blockScaleAt scale) r z := Iff.rfl

/-- **C26.** The sequential block application: `ilu` holds the factors `u` with the diagonal blocks inverted. -/
theorem block_ilu_apply_correct (hA : A.Full m) (hS : A.Sorted) (hD : A.HasDiag) (hu : DiagInverted A u ilu)
    (hs : ScaleLen scale (A.nbrows * bs)) {k : Nat} (hk : 1 ≤ k) {init : ApplyInit} (hi : init ≠ .none)
    {ord : Nat → List Nat} (hord : ∀ t, (ord t).Perm (List.range A.nbrows)) {r z y : List Seg}
    (hr : r.length = A.nbrows) (hz : z.length = A.nbrows) (hy : y.length = A.nbrows) :
    ∃ z' y', blockIluApply A ilu scale k init ord r z y = .ok (z', y') ∧ y'.length = A.nbrows ∧
      BlockIluSolved A u scale r z' := by
  obtain ⟨⟨z', y'⟩, he, h1, h2⟩ := iluApplyWith_ok (triUpd_unitLower (M := Seg) hA hS hD hu.len')
    (triUpd_blockUpper (M := Seg) hA hS hD hu.len') (fun _ _ h => h.2) (fun _ _ h => h.2) (segOk_block hs) hk hi
    hord hr hz hy
  exact ⟨z', y', he, h1, iluApplied_block hA hS hD hu h2⟩

/-- The result of the block application does not depend on the sweeps, the initialisation, the loop orders and the
old contents of the vectors. -/
theorem block_ilu_apply_independent (hA : A.Full m) (hS : A.Sorted) (hD : A.HasDiag) (hu : DiagInverted A u ilu)
    (hs : ScaleLen scale (A.nbrows * bs)) {k k' : Nat}
    (hk : 1 ≤ k) (hk' : 1 ≤ k') {init init' : ApplyInit} (hi : init ≠ .none) (hi' : init' ≠ .none)
    {ord ord' : Nat → List Nat} (hord : ∀ t, (ord t).Perm (List.range A.nbrows))
    (hord' : ∀ t, (ord' t).Perm (List.range A.nbrows)) {r z z' y y' : List Seg} (hr : r.length = A.nbrows)
    (hz : z.length = A.nbrows) (hz' : z'.length = A.nbrows) (hy : y.length = A.nbrows)
    (hy' : y'.length = A.nbrows) :
    ∃ x v v', blockIluApply A ilu scale k init ord r z y = .ok (x, v) ∧
      blockIluApply A ilu scale k' init' ord' r z' y' = .ok (x, v') := by
  obtain ⟨x, v, e, _, h1⟩ := block_ilu_apply_correct hA hS hD hu hs hk hi hord hr hz hy
  obtain ⟨x', v', e', _, h1'⟩ := block_ilu_apply_correct hA hS hD hu hs hk' hi' hord' hr hz' hy'
  have := IluApplied.unique hA hS hD hu.len (hu.pivots hA hS hD) (blockIluSolved_iff.mp h1)
    (blockIluSolved_iff.mp h1')
  subst this
  exact ⟨x, v, v', e, e'⟩

/-- Without initialisation (`INIT_A_NONE`) the block application throws. -/
theorem block_ilu_apply_none (hA : A.Full m) (hS : A.Sorted) (hD : A.HasDiag)
    (hl : ilu.length = A.browptr⟦A.nbrows⟧) (hs : ScaleLen scale (A.nbrows * bs)) {k : Nat}
    (hk : 1 ≤ k) {ord : Nat → List Nat} (hord : ∀ t, (ord t).Perm (List.range A.nbrows)) {r z y : List Seg}
    (hr : r.length = A.nbrows) (hz : z.length = A.nbrows) (hy : y.length = A.nbrows) :
    blockIluApply A ilu scale k .none ord r z y =
      .error (.throw "std::runtime_error" " scalar_ilu0_apply: Invalid init type!") :=
  iluApplyWith_none (triUpd_unitLower (M := Seg) hA hS hD hl) (fun _ _ h => h.2) (segOk_block hs) hk hord hr hz hy

/-- **C52**, block ILU: the sequential application is a linear operator. -/
theorem block_ilu_apply_linear (hA : A.Full m) (hS : A.Sorted) (hD : A.HasDiag) (hu : DiagInverted A u ilu)
    (hs : ScaleLen scale (A.nbrows * bs)) {k : Nat}
    (hk : 1 ≤ k) {init : ApplyInit} (hi : init ≠ .none) {ord : Nat → List Nat}
    (hord : ∀ t, (ord t).Perm (List.range A.nbrows)) {a b : K} {r₁ r₂ r z y z₁ y₁ z₂ y₂ z₃ y₃ : List Seg}
    (hr₁ : r₁.length = A.nbrows) (hr₂ : r₂.length = A.nbrows) (hr : r.length = A.nbrows)
    (hz : z.length = A.nbrows) (hy : y.length = A.nbrows)
    (hlin : ∀ i < A.nbrows, ∀ c, r⟦i⟧ c = a * r₁⟦i⟧ c + b * r₂⟦i⟧ c)
    (h₁ : blockIluApply A ilu scale k init ord r₁ z y = .ok (z₁, y₁))
    (h₂ : blockIluApply A ilu scale k init ord r₂ z y = .ok (z₂, y₂))
    (h₃ : blockIluApply A ilu scale k init ord r z y = .ok (z₃, y₃)) :
    ∀ i < A.nbrows, ∀ c, z₃⟦i⟧ c = a * z₁⟦i⟧ c + b * z₂⟦i⟧ c := by
  have key : ∀ {r x v : List Seg}, r.length = A.nbrows → blockIluApply A ilu scale k init ord r z y = .ok (x, v) →
      IluApplied A u (blockScaleAt scale) r x := by
    intro r x v hr h
    obtain ⟨x', v', e, _, h1⟩ := block_ilu_apply_correct hA hS hD hu hs hk hi hord hr hz hy
    rw [h] at e
    cases e
    exact blockIluSolved_iff.mp h1
  obtain ⟨_, w₁, p1, q1⟩ := key hr₁ h₁
  obtain ⟨_, w₂, p2, q2⟩ := key hr₂ h₂
  have h : IluApplied A u (blockScaleAt scale) r
      ((List.range A.nbrows).map fun i => (fun c => a * z₁⟦i⟧ c + b * z₂⟦i⟧ c : Seg)) := by
    refine ⟨by simp, fun i c => a * w₁ i c + b * w₂ i c, fun i hi => ?_, fun i hi => ?_⟩
    · rw [get0_map_range _ hi, p1 i hi, p2 i hi]
      funext c
      unfold blockScaleAt
      ring
    · have e : ∀ j, luProd A u i j • (fun c => a * w₁ j c + b * w₂ j c : Seg) =
          fun c => a * (luProd A u i j • w₁ j) c + b * (luProd A u i j • w₂ j) c := by
        intro j
        funext c
        simp only [Matrix.Module.smul_apply, smul_eq_mul, mul_sum, ← sum_add_distrib]
        exact sum_congr rfl fun d _ => by ring
      rw [sum_congr rfl fun j _ => e j]
      funext c
      have e1 := congrFun (q1 i hi) c
      have e2 := congrFun (q2 i hi) c
      rw [Finset.sum_apply] at e1 e2 ⊢
      rw [sum_add_distrib, ← mul_sum, ← mul_sum, e1, e2]
      unfold blockScaleAt
      rw [hlin i hi c]
      ring
  have := IluApplied.unique hA hS hD hu.len (hu.pivots hA hS hD) (key hr h₃) h
  intro i hi c
  rw [this, get0_map_range _ hi]

/-- **C27**, block: as many asynchronous sweeps as there are block rows give the exact result, for every
execution, also when blocks are read while being written. -/
theorem block_ilu_apply_async_exact (hA : A.Full m) (hS : A.Sorted) (hD : A.HasDiag) (hu : DiagInverted A u ilu)
    (hs : ScaleLen scale (A.nbrows * bs)) {mix : Set Seg → Set Seg} (hm : MixOk mix) {k : Nat} (hk : A.nbrows ≤ k)
    {init : ApplyInit} (hi : init ≠ .none) {ord : Nat → List Nat}
    (hord : ∀ t, (ord t).Perm (List.range A.nbrows)) {r z y z' y' : List Seg} (hr : r.length = A.nbrows)
    (hz : z.length = A.nbrows) (hy : y.length = A.nbrows)
    (h : AsyncIluApply (unitLowerRow A ilu) (blockUpperRow A ilu) A.nbrows mix (scale.map (blockSeg bs)) k init ord
      r z y z' y') : BlockIluSolved A u scale r z' := by
  have h2 := asyncIluApply_ok (triUpd_unitLower (M := Seg) hA hS hD hu.len')
    (triUpd_blockUpper (M := Seg) hA hS hD hu.len') (fun _ _ h => h.2) (fun _ _ h => h.2) (segOk_block hs) hm
    (rankL := id) (rankU := fun i => A.nbrows - 1 - i) (fun i _ j _ h => h.2)
    (fun i hi j hj h => by have := h.2; omega) (fun i hi => by show i < k; omega) (fun i hi => by omega)
    hi hord hr hz hy h
  exact iluApplied_block hA hS hD hu h2.2

/-- **C27**, block: the exact solutions of the triangular systems are fixed points. -/
theorem block_ilu_apply_async_fixed (hA : A.Full m) (hS : A.Sorted) (hD : A.HasDiag) (hu : DiagInverted A u ilu)
    {mix : Set Seg → Set Seg} (hm : MixOk mix) {b x : List Seg} (hb : b.length = A.nbrows) :
    ((∀ i < A.nbrows, ∑ j ∈ range A.nbrows, (lowerFactor A u i j).mulVec x⟦j⟧ = b⟦i⟧) →
      ∀ log, ALog (unitLowerRow A ilu b) mix A.nbrows (memOf x) log → applyLog x log = x) ∧
    ((∀ i < A.nbrows, ∑ j ∈ range A.nbrows, (upperFactor A u i j).mulVec x⟦j⟧ = b⟦i⟧) →
      ∀ log, ALog (blockUpperRow A ilu b) mix A.nbrows (memOf x) log → applyLog x log = x) := by
  have hL := rowUpd_unitLower (M := Seg) hA hS hD hu.len' hb
  have hU := rowUpd_blockUpper (M := Seg) hA hS hD hu.len' hb
  have eL : ∀ i < A.nbrows, ∑ j ∈ range A.nbrows, (lowerFactor A u i j).mulVec x⟦j⟧ =
      lowSum A u i (get0 x) + x⟦i⟧ := fun i hi => lowerFactor_mul (M := Seg) hA hS hD hu.len hi (get0 x)
  have eU : ∀ i < A.nbrows, ∑ j ∈ range A.nbrows, (upperFactor A u i j).mulVec x⟦j⟧ =
      u⟦A.diagind⟦i⟧⟧ • x⟦i⟧ + upSum A u i (get0 x) := fun i hi =>
    upperFactor_mul (M := Seg) hA hS hD hu.len hi (get0 x)
  refine ⟨fun h log hlog => ?_, fun h log hlog => ?_⟩
  · refine hL.fixed hm (fun i hi => ?_) hlog
    rw [hu.lowSum_eq hA hD hi, ← h i hi, eL i hi, add_sub_cancel_left]
  · refine hU.fixed hm (fun i hi => ?_) hlog
    rw [hu.upSum_eq hA hD hi, ← h i hi, eU i hi, add_sub_cancel_right, smul_smul, (hu.diag i hi).2, one_smul]

/-- **C28**, block: with a valid level schedule the level-scheduled application gives the exact result for every
order of the rows within the levels. -/
theorem block_ilu_apply_levels (hA : A.Full m) (hS : A.Sorted) (hD : A.HasDiag) (hu : DiagInverted A u ilu)
    (hs : ScaleLen scale (A.nbrows * bs)) {levels : List Nat} (hL : LevelsOk A levels)
    {sched sched' : Nat → List Nat → List Nat}
    (hsch : ∀ t l, (sched t l).Perm l) (hsch' : ∀ t l, (sched' t l).Perm l) {ord : Nat → List Nat}
    (hord : ∀ t, (ord t).Perm (List.range A.nbrows)) {r z y : List Seg} (hr : r.length = A.nbrows)
    (hz : z.length = A.nbrows) (hy : y.length = A.nbrows) :
    ∃ z' y', levelBlockIluApply A ilu scale levels sched sched' ord r z y = .ok (z', y') ∧
      y'.length = A.nbrows ∧ BlockIluSolved A u scale r z' := by
  obtain ⟨⟨z', y'⟩, he, h1, h2⟩ := levelIluApplyWith_ok hL (triUpd_unitLower (M := Seg) hA hS hD hu.len')
    (triUpd_blockUpper (M := Seg) hA hS hD hu.len') (segOk_block hs) hsch hsch' hord hr hz hy
  exact ⟨z', y', he, h1, iluApplied_block hA hS hD hu h2⟩

/-- **C28**, block, for parallel loops with arbitrary interleaving and visibility within each level. -/
theorem block_ilu_apply_levels_async (hA : A.Full m) (hS : A.Sorted) (hD : A.HasDiag) (hu : DiagInverted A u ilu)
    (hs : ScaleLen scale (A.nbrows * bs)) {levels : List Nat} (hL : LevelsOk A levels)
    {mix : Set Seg → Set Seg} (hm : MixOk mix) {ord : Nat → List Nat}
    (hord : ∀ t, (ord t).Perm (List.range A.nbrows)) {r z y z' y' : List Seg} (hr : r.length = A.nbrows)
    (hz : z.length = A.nbrows) (hy : y.length = A.nbrows)
    (h : AsyncLevelIluApply (unitLowerRow A ilu) (blockUpperRow A ilu) A.nbrows mix (scale.map (blockSeg bs)) levels ord
      r z y z' y') : BlockIluSolved A u scale r z' := by
  have h2 := asyncLevelIluApply_ok hL (triUpd_unitLower (M := Seg) hA hS hD hu.len')
    (triUpd_blockUpper (M := Seg) hA hS hD hu.len') (segOk_block hs) hm hord hr hz hy h
  exact iluApplied_block hA hS hD hu h2.2

end block

/-! ### C55: matrices without fill -/

/-- Elimination creates no fill: if `(i,k)` and `(k,j)` are stored and `k < i`, `k < j`, then `(i,j)` is stored. -/
def NoFill (A : SR V) : Prop := ∀ i < A.nbrows, ∀ k < i, ∀ j, k < j → Nbr A i k → Nbr A k j → Nbr A i j

section nofill
variable [Ring R] {A : SR V} {m : Nat}

theorem facEntry_eq_zero (hA : A.Full m) {u : List R} (hl : u.length = A.browptr⟦A.nbrows⟧) {i j : Nat}
    (hi : i < A.nbrows) (h : ¬ Nbr A i j) : facEntry A u i j = 0 :=
  facEntry_unstored hA hl hi fun k hk e => h ⟨k, hk, e⟩

/-- Without fill, `L U` is the matrix everywhere and not only on the pattern. -/
theorem luProd_eq_of_noFill (hA : A.Full m) (hN : NoFill A) {u : List R}
    (hl : u.length = A.browptr⟦A.nbrows⟧) {S : Nat → Nat → R} (hex : ExactILU A S u)
    (hS0 : ∀ i < A.nbrows, ∀ j < A.nbrows, ¬ Nbr A i j → S i j = 0) :
    ∀ i < A.nbrows, ∀ j < A.nbrows, luProd A u i j = S i j := by
  intro i hi j hj
  by_cases hn : Nbr A i j
  · obtain ⟨p, hp, rfl⟩ := hn
    exact hex i hi p hp
  · rw [hS0 i hi j hj hn]
    refine sum_eq_zero fun k hk => ?_
    have hk' := mem_range.mp hk
    unfold lowerFactor upperFactor
    by_cases hki : k < i
    · rw [if_pos hki]
      by_cases h1 : Nbr A i k
      · by_cases hkj : k ≤ j
        · rw [if_pos hkj]
          rcases Nat.eq_or_lt_of_le hkj with rfl | hkj
          · exact absurd h1 hn
          · rw [facEntry_eq_zero hA hl hk' (fun h2 => hn (hN i hi k hki j hkj h1 h2)), mul_zero]
        · rw [if_neg hkj, mul_zero]
      · rw [facEntry_eq_zero hA hl hi h1, zero_mul]
    · rw [if_neg hki]
      by_cases hki' : k = i
      · subst hki'
        by_cases hkj : k ≤ j
        · rw [if_pos hkj, facEntry_eq_zero hA hl hi hn, mul_zero]
        · rw [if_neg hkj, mul_zero]
      · rw [if_neg hki', zero_mul]

end nofill

/-- **C55**, scalar: for a matrix whose elimination creates no fill, a successful sequential `compute`, with any scaling
by nonzero factors, initialisation and number of sweeps, followed by a successful `apply`, gives the
solution of `A z = r`. -/
theorem scalar_ilu_solves [Field K] [DecidableEq K] [LinearOrder K] {isq : K → K} {conf : ILUConf} {A : SR K}
    {ord ordc : List Nat} {gilu gy gscale : List K} {st st' : ILUState K K} {inf : Option (RemInfo K)}
    (hc : CompSetting conf.usescaling A ord ordc gilu gy gscale st) (hk : 1 ≤ conf.nbuildsweeps)
    (hN : NoFill A) (hisq : conf.usescaling = true → ∀ i < A.nbrows, isq (A.entry i i) ≠ 0)
    (h : scalarCompute isq conf A ord ordc gilu gy gscale st = .ok (inf, st'))
    {k : Nat} (hk' : 1 ≤ k) {init : ApplyInit} {ord' : Nat → List Nat}
    (hord' : ∀ t, (ord' t).Perm (List.range A.nbrows)) {u r z y z' y' : List K} (hu : st'.iluvals = some u)
    (hr : r.length = A.nbrows) (hz : z.length = A.nbrows) (hy : y.length = A.nbrows)
    (h' : scalarIluApply A u st'.scale k init ord' r z y = .ok (z', y')) :
    ∀ i < A.nbrows, ∑ j ∈ range A.nbrows, A.entry i j * z'⟦j⟧ = r⟦i⟧ := by
  have hA := hc.full
  have hS := hc.sorted
  have hD := hc.diag
  obtain ⟨_, hsc, u', hu', hl, hex, _⟩ := scalar_ilu_compute_exact hc hk h
  rw [hu] at hu'
  cases hu'
  have hs : ScaleLen st'.scale A.nbrows := by
    intro s hs
    unfold ScaleIs at hsc
    split at hsc
    · obtain ⟨s', e, hlen, _⟩ := hsc
      rw [hs] at e; cases e; exact hlen
    · rw [hs] at hsc; cases hsc
  have hfac : ∀ i < A.nbrows, scaleAt st'.scale i = scaleFac isq conf.usescaling A i := by
    intro i hi
    unfold ScaleIs at hsc
    unfold scaleFac
    split at hsc
    · rename_i hus
      obtain ⟨s', e, hlen, hv⟩ := hsc
      rw [e, hus, if_pos rfl, ← hv i hi]
      rfl
    · rename_i hus
      rw [hsc, if_neg hus]
      rfl
  have hne : ∀ i < A.nbrows, scaleFac isq conf.usescaling A i ≠ 0 := by
    intro i hi
    unfold scaleFac
    split
    · rename_i hus; exact hisq hus i hi
    · exact one_ne_zero
  have hi : init ≠ .none := by
    rintro rfl
    rw [scalar_ilu_apply_none hA hS hD hl hs hk' hord' hr hz hy] at h'
    cases h'
  have hp : PivotsOk A u := by
    by_contra hp
    rw [scalar_ilu_apply_divzero hA hS hD hl hp hs hk' hi hord' hr hz hy] at h'
    cases h'
  obtain ⟨z'', y'', e, _, _, w, hw1, hw2⟩ :=
    scalar_ilu_apply_correct hA hS hD hl hp hs hk' hi hord' hr hz hy
  rw [h'] at e
  cases e
  have hlu := luProd_eq_of_noFill hA hN hl hex (fun i hi j hj hn => by
    unfold scaledEntry
    rw [hA.entry_unstored hi fun k hk e => hn ⟨k, hk, e⟩, mul_zero, zero_mul])
  intro i hi
  have h1 := hw2 i hi
  rw [hfac i hi] at h1
  apply mul_left_cancel₀ (hne i hi)
  rw [← h1, mul_sum]
  refine sum_congr rfl fun j hj => ?_
  have hj' := mem_range.mp hj
  rw [hlu i hi j hj', hw1 j hj', hfac j hj']
  unfold scaledEntry
  ring

/-- **C55**, scalar, with existence: if the (scaled) matrix has factors without zero pivot, then `compute` and `apply`
succeed and solve `A z = r`. -/
theorem scalar_ilu_solves_complete [Field K] [DecidableEq K] [LinearOrder K] {isq : K → K} {conf : ILUConf} {A : SR K}
    {ord ordc : List Nat} {gilu gy gscale : List K} {st : ILUState K K}
    (hc : CompSetting conf.usescaling A ord ordc gilu gy gscale st) (hk : 1 ≤ conf.nbuildsweeps)
    (hft : conf.factinit ≠ .sgs ∨ (conf.usescaling = false ∧ ∀ i < A.nbrows, A.entry i i ≠ 0)) (hN : NoFill A)
    (hisq : conf.usescaling = true → ∀ i < A.nbrows, isq (A.entry i i) ≠ 0) {ex : List K}
    (hl : ex.length = A.browptr⟦A.nbrows⟧) (hex : ExactILU A (scaledEntry isq conf.usescaling A) ex)
    (hp : PivotsOk A ex) {k : Nat} (hk' : 1 ≤ k) {init : ApplyInit} (hi : init ≠ .none) {ord' : Nat → List Nat}
    (hord' : ∀ t, (ord' t).Perm (List.range A.nbrows)) {r z y : List K}
    (hr : r.length = A.nbrows) (hz : z.length = A.nbrows) (hy : y.length = A.nbrows) :
    ∃ inf st' u z' y', scalarCompute isq conf A ord ordc gilu gy gscale st = .ok (inf, st') ∧
      st'.iluvals = some u ∧ scalarIluApply A u st'.scale k init ord' r z y = .ok (z', y') ∧
      ∀ i < A.nbrows, ∑ j ∈ range A.nbrows, A.entry i j * z'⟦j⟧ = r⟦i⟧ := by
  have hA := hc.full
  have hS := hc.sorted
  have hD := hc.diag
  obtain ⟨inf, st', h1, h2⟩ := scalar_ilu_compute_complete hc hk hft hl hex (fun i hi p hq hlt =>
    hp _ (by omega))
  obtain ⟨_, hsc, _⟩ := scalar_ilu_compute_exact hc hk h1
  obtain ⟨z', y', h3, _⟩ := scalar_ilu_apply_correct hA hS hD hl hp hsc.length hk' hi hord' hr hz hy
  exact ⟨inf, st', ex, z', y', h1, h2, h3,
    scalar_ilu_solves hc hk hN hisq h1 hk' hord' h2 hr hz hy h3⟩

section
open scoped Matrix.Module

/-- **C55**, block: for a block matrix whose elimination creates no fill, `compute` followed by `apply` solves
`A z = r`. -/
theorem block_ilu_solves [Field K] [DecidableEq K] [LinearOrder K] {bs : Nat} {isq : K → K} {conf : ILUConf}
    {A : SR (Matrix (Fin bs) (Fin bs) K)} {ord ord2 ordc : List Nat}
    {gilu gdblks : List (Matrix (Fin bs) (Fin bs) K)} {gscale : List K}
    {st st' : ILUState (Matrix (Fin bs) (Fin bs) K) K} {inf : Option (RemInfo K)}
    (hc : BlockSetting conf.usescaling A ord ord2 ordc gilu gdblks gscale st) (hk : 1 ≤ conf.nbuildsweeps)
    (hN : NoFill A) (hisq : conf.usescaling = true → ∀ i < A.nbrows, ∀ a, isq (A.entry i i a a) ≠ 0)
    (h : blockCompute isq conf A ord ord2 ordc gilu gdblks gscale st = .ok (inf, st'))
    {k : Nat} (hk' : 1 ≤ k) {init : ApplyInit} (hi : init ≠ .none) {ord' : Nat → List Nat}
    (hord' : ∀ t, (ord' t).Perm (List.range A.nbrows)) {r z y : List (Fin bs → K)}
    (hr : r.length = A.nbrows) (hz : z.length = A.nbrows) (hy : y.length = A.nbrows) :
    ∃ ilu z' y', st'.iluvals = some ilu ∧ blockIluApply A ilu st'.scale k init ord' r z y = .ok (z', y') ∧
      ∀ i < A.nbrows, ∑ j ∈ range A.nbrows, (A.entry i j).mulVec z'⟦j⟧ = r⟦i⟧ := by
  have hA := hc.full
  have hS := hc.sorted
  have hD := hc.diag
  obtain ⟨_, hsc, u, ilu, hu, hex, hp, hinv⟩ := block_ilu_compute_exact hc hk h
  have hs : ScaleLen st'.scale (A.nbrows * bs) := by
    intro s hs
    unfold BlockScaleIs at hsc
    split at hsc
    · obtain ⟨s', e, hlen, _⟩ := hsc
      rw [hs] at e; cases e; exact hlen
    · rw [hs] at hsc; cases hsc
  have hfac : ∀ i < A.nbrows, ∀ a : Fin bs, scaleAt st'.scale (i * bs + a.val) =
      blockScaleFac isq conf.usescaling A i a := by
    intro i hi a
    unfold BlockScaleIs at hsc
    unfold blockScaleFac
    split at hsc
    · rename_i hus
      obtain ⟨s', e, hlen, hv⟩ := hsc
      rw [e, hus, if_pos rfl, ← hv i hi]
      rfl
    · rename_i hus
      rw [hsc, if_neg hus]
      rfl
  have hne : ∀ i < A.nbrows, ∀ a, blockScaleFac isq conf.usescaling A i a ≠ 0 := by
    intro i hi a
    unfold blockScaleFac
    split
    · rename_i hus; exact hisq hus i hi a
    · exact one_ne_zero
  obtain ⟨z', y', e, _, _, w, hw1, hw2⟩ := block_ilu_apply_correct hA hS hD hinv hs hk' hi hord' hr hz hy
  refine ⟨ilu, z', y', hu, e, ?_⟩
  have hlu := luProd_eq_of_noFill hA hN hinv.len hex (fun i hi j hj hn => by
    ext a b
    simp only [blockScaledEntry, Matrix.of_apply, Matrix.zero_apply]
    rw [hA.entry_unstored hi fun k hk e => hn ⟨k, hk, e⟩, Matrix.zero_apply, mul_zero, zero_mul])
  intro i hi
  funext a
  have h1 := congrFun (hw2 i hi) a
  unfold blockScaleAt at h1
  rw [hfac i hi] at h1
  apply mul_left_cancel₀ (hne i hi a)
  rw [← h1, Finset.sum_apply, Finset.sum_apply, mul_sum]
  refine sum_congr rfl fun j hj => ?_
  have hj' := mem_range.mp hj
  rw [hlu i hi j hj', hw1 j hj']
  unfold Matrix.mulVec dotProduct
  rw [mul_sum]
  refine sum_congr rfl fun b _ => ?_
  unfold blockScaleAt
  rw [hfac j hj']
  simp only [blockScaledEntry, Matrix.of_apply]
  ring

end

/-! ### Examples meeting the hypotheses -/

/-- The factors of `exQ`. -/
def exQilu : List ℚ := [2, 1, 1, 2, 1, 1, 2, 3, 1, 3, 1, 5]

theorem exQilu_pivots : PivotsOk exQ exQilu := by
  intro i hi
  have h4 : i < 4 := hi
  rw [upperFactor_diag exQ_full exQ_sorted exQ_diag (by decide) hi, isUnit_iff_ne_zero]
  interval_cases i <;> decide +kernel

theorem scaleLen_none {n : Nat} : ScaleLen (none : Option (List K)) n := by
  intro s h; cases h

/-- Non-vacuity of `scalar_ilu_apply_correct`: an application on `exQ`, with and without scaling. -/
example : (scalarIluApply exQ exQilu none 1 .zero (fun _ => [3, 1, 2, 0]) [1, 2, 3, 4] [7, 7, 7, 7]
    [9, 9, 9, 9]).map Prod.fst = .ok [19/15, -17/15, 17/15, -2/5] := by decide +kernel

example : (scalarIluApply exQ exQilu (some [1, 2, 3, 4]) 2 .jacobi (fun _ => [3, 1, 2, 0]) [1, 2, 3, 4]
    [7, 7, 7, 7] [9, 9, 9, 9]).isOk = true := by decide +kernel

example : ∃ z' y', scalarIluApply exQ exQilu none 3 .jacobi (fun _ => [3, 1, 2, 0]) [1, 2, 3, 4] [7, 7, 7, 7]
    [9, 9, 9, 9] = .ok (z', y') ∧ y'.length = 4 ∧ z'.length = 4 ∧ ∃ w : Nat → ℚ,
      (∀ i < 4, z'⟦i⟧ = scaleAt none i * w i) ∧
      ∀ i < 4, ∑ j ∈ range 4, luProd exQ exQilu i j * w j = scaleAt none i * ([1, 2, 3, 4] : List ℚ)⟦i⟧ :=
  scalar_ilu_apply_correct exQ_full exQ_sorted exQ_diag (by decide) exQilu_pivots scaleLen_none (by decide)
    (by decide) (fun _ => by decide) rfl rfl rfl

/-- A matrix with the pattern of a star: rows 0 to 2 are coupled to row 3 only. -/
def exStar : SR ℚ :=
  { browptr := [0, 2, 4, 6, 10], bcolind := [0, 3, 1, 3, 2, 3, 0, 1, 2, 3],
    vals := [2, 1, 3, 1, 4, 1, 1, 1, 1, 9], diagind := [0, 2, 4, 9],
    browendptr := [2, 4, 6, 10], nbrows := 4, nnzb := 10, nbstored := 10 }

theorem exStar_full : exStar.Full := by constructor <;> decide
theorem exStar_sorted : exStar.Sorted := SR.sorted_of_check (by decide)
theorem exStar_diag : exStar.HasDiag := by constructor <;> decide

theorem nbr_lt_iff {A : SR V} {i j : Nat} :
    Nbr A i j ↔ ∃ p ∈ List.range' A.browptr⟦i⟧ (A.browptr⟦i + 1⟧ - A.browptr⟦i⟧), A.bcolind⟦p⟧ = j := by
  unfold Nbr SR.InRow
  refine exists_congr fun p => and_congr_left fun _ => ?_
  rw [List.mem_range'_1]
  omega

instance {A : SR V} {i j : Nat} : Decidable (Nbr A i j) := decidable_of_iff _ nbr_lt_iff.symm

/-- `exStar` has two levels: the three leaves and the centre. -/
theorem exStar_levels : LevelsOk exStar [0, 3, 4] where
  pos := by decide
  zero := rfl
  last := rfl
  mono := by
    intro t ht
    have ht' : t < 2 := by simp at ht; omega
    interval_cases t <;> decide
  indep := by
    intro t ht i j h1 h2 h3 h4
    have ht' : t < 2 := by simp at ht; omega
    have hi4 : i < 4 := by interval_cases t <;> simp [get0] at h2 <;> omega
    have hj4 : j < 4 := by interval_cases t <;> simp [get0] at h4 <;> omega
    revert h1 h2 h3 h4
    interval_cases t <;> interval_cases i <;> interval_cases j <;> decide

/-- Non-vacuity of `scalar_ilu_apply_levels`. -/
example : (levelScalarIluApply exStar exStar.vals none [0, 3, 4] (fun _ l => l.reverse) (fun _ l => l)
    (fun _ => [3, 1, 2, 0]) [1, 2, 3, 4] [7, 7, 7, 7] [9, 9, 9, 9]).isOk = true := by decide +kernel

/-- Elimination of the leaves of the star creates no fill. -/
theorem exStar_noFill : NoFill exStar := by
  intro i hi k hk j hj h1 h2
  have hi' : i < 4 := hi
  have hk4 : k < 4 := by omega
  have hj4 : j < 4 := by
    obtain ⟨p, hp, rfl⟩ := h2
    exact exStar_full.col_lt p (exStar_full.lt_nnz (by omega) hp.2)
  revert hk hj h1 h2
  interval_cases i <;> interval_cases k <;> interval_cases j <;> decide

/-- Non-vacuity of `scalar_ilu_solves`: on `exStar` both steps succeed and the result is the solution. -/
example : (scalarCompute (fun x : ℚ => x⁻¹) ⟨true, 1, .original, false⟩ exStar [2, 0, 1, 3] (List.range 10)
      (List.replicate 10 7) (List.replicate 4 7) (List.replicate 4 7) {} >>= fun s =>
    scalarIluApply exStar (s.2.iluvals.getD []) s.2.scale 1 .zero (fun _ => [3, 1, 2, 0]) [3, 4, 5, 12]
      [7, 7, 7, 7] [9, 9, 9, 9]).map Prod.fst = .ok [1, 1, 1, 1] := by decide +kernel

/-- Non-vacuity of `block_ilu_solves`: the block tridiagonal `exB` has no fill. -/
example : (blockCompute (fun x : ℚ => x⁻¹) ⟨true, 1, .original, false⟩ exB [2, 0, 1] [0, 1, 2] (List.range 7)
      (List.replicate 7 (mk2 7 7 7 7)) (List.replicate 3 (mk2 7 7 7 7)) (List.replicate 6 7) {} >>= fun s =>
    blockIluApply exB (s.2.iluvals.getD []) s.2.scale 1 .zero (fun _ => [1, 2, 0]) [![4, 4], ![6, 5], ![4, 9]]
      [0, 0, 0] [0, 0, 0]).map (fun p => p.1.map (fun v => (v 0, v 1))) = .ok [(1, 1), (1, 1), (1, 1)] := by
  decide +kernel

end Blasted
