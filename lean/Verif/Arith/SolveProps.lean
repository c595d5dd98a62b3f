import Verif.Arith.RowLemmas
import Verif.Solve.IluProps
import Verif.Solve.SgsProps

/-!
# Applications of preconditioners, in an arbitrary arithmetic (C62)

Nothing is assumed about the operations: not even that addition is commutative. They may be those of floating-point numbers with any rounding, and the blocks and segments may be
multiplied in any fixed way. What is proved is that the sequential, the level-scheduled and the asynchronous variants compute the same result, bit for bit.
-/

namespace Blasted

variable {V R M K : Type}

/-- The scaling of component `i`, or nothing. -/
def scaleAny [Zero K] [Mul K] (scale : Option (List K)) (i : Nat) (v : K) : K :=
  match scale with
  | none => v
  | some s => s⟦i⟧ * v

theorem segOk_any [Zero K] [Mul K] {scale : Option (List K)} {n : Nat} (h : ScaleLen scale n) : SegOk (scale.map scalarSeg) (scaleAny scale) n := by
  cases scale with
  | none => exact fun i hi v => rfl
  | some s =>
    have := h s rfl
    intro i hi v
    show scalarSeg s i v = _
    unfold scalarSeg
    rw [rd_eq (by omega), ok_bind]
    rfl

section generic
variable [Zero M] {lower upper : List M → Nat → (Nat → C M) → C M} {A : SR V} {f g : (Nat → M) → Nat → (Nat → M) → M} {scale : Option (Nat → M → C M)} {S : Nat → M → M}

theorem ilu_apply_same (hl : TriUpd lower A.nbrows (LowDep A) f) (hu : TriUpd upper A.nbrows (UpDep A) g) (hS : SegOk scale S A.nbrows) {r : List M}
    (hr : r.length = A.nbrows) :
    ∃ x : List M, IluSolved f g S A.nbrows r x ∧
      (∀ k init ord z y, 1 ≤ k → init ≠ ApplyInit.none → (∀ t, (ord t).Perm (List.range A.nbrows)) → z.length = A.nbrows → y.length = A.nbrows →
        ∃ y', iluApplyWith lower upper A.nbrows scale k init ord r z y = .ok (x, y')) ∧
      (∀ levels sched sched' ord z y, LevelsOk A levels → (∀ t l, (sched t l).Perm l) → (∀ t l, (sched' t l).Perm l) → (∀ t, (ord t).Perm (List.range A.nbrows)) →
        z.length = A.nbrows → y.length = A.nbrows → ∃ y', levelIluApplyWith lower upper A.nbrows levels sched sched' scale ord r z y = .ok (x, y')) ∧
      (∀ levels mix ord z y z' y', LevelsOk A levels → MixOk mix → (∀ t, (ord t).Perm (List.range A.nbrows)) → z.length = A.nbrows → y.length = A.nbrows →
        AsyncLevelIluApply lower upper A.nbrows mix scale levels ord r z y z' y' → z' = x) ∧
      (∀ k init mix ord z y z' y', A.nbrows ≤ k → init ≠ ApplyInit.none → MixOk mix → (∀ t, (ord t).Perm (List.range A.nbrows)) → z.length = A.nbrows → y.length = A.nbrows →
        AsyncIluApply lower upper A.nbrows mix scale k init ord r z y z' y' → z' = x) := by
  have hDL : ∀ i j, LowDep A i j → j < i := fun _ _ h => h.2
  have hDU : ∀ i j, UpDep A i j → i < j := fun _ _ h => h.2
  obtain ⟨⟨x, v⟩, -, -, hx⟩ := iluApplyWith_ok hl hu hDL hDU hS (Nat.le_refl 1) (init := .zero) (by simp) (ord := fun _ => List.range A.nbrows) (fun _ => List.Perm.refl _)
    hr hr hr
  dsimp only at hx
  refine ⟨x, hx, ?_, ?_, ?_, ?_⟩
  · intro k init ord z y hk hi hord hz hy
    obtain ⟨⟨x', y'⟩, e, -, h⟩ := iluApplyWith_ok hl hu hDL hDU hS hk hi hord hr hz hy
    rw [hx.unique_any hl hu hDL hDU h]
    exact ⟨y', e⟩
  · intro levels sched sched' ord z y hL hs hs' hord hz hy
    obtain ⟨⟨x', y'⟩, e, -, h⟩ := levelIluApplyWith_ok hL hl hu hS hs hs' hord hr hz hy
    rw [hx.unique_any hl hu hDL hDU h]
    exact ⟨y', e⟩
  · intro levels mix ord z y z' y' hL hm hord hz hy h
    exact (asyncLevelIluApply_ok hL hl hu hS hm hord hr hz hy h).2.unique_any hl hu hDL hDU hx
  · intro k init mix ord z y z' y' hk hi hm hord hz hy h
    exact (asyncIluApply_ok hl hu hDL hDU hS hm (rankL := fun i => i) (rankU := fun i => A.nbrows - 1 - i) (fun _ _ _ _ h => h.2) (fun i hi j hj h => by have := h.2; omega)
      (fun i hi => by omega) (fun i hi => by omega) hi hord hr hz hy h).2.unique_any hl hu hDL hDU hx

end generic

/-- **C62** The application of a scalar ILU factorization in any arithmetic: there is one vector that the sequential code returns for every number of sweeps, initialisation and previous
contents of the vectors, that the level-scheduled code returns for every valid list of levels and every schedule, and that the asynchronous code returns with at least as many sweeps as rows,
for every schedule. (That division does not fail is true of floating-point numbers.) -/
theorem scalar_ilu_apply_same_bits [Zero K] [Add K] [Sub K] [Mul K] [PInvOp K] {A : SR V} {m : Nat} (hA : A.Full m) (hS : A.Sorted) (hD : A.HasDiag) {ilu : List K}
    (hl : ilu.length = A.browptr⟦A.nbrows⟧) (hd : ∀ i < A.nbrows, ∃ w, pinv ilu⟦A.diagind⟦i⟧⟧ = .ok w) {scale : Option (List K)} (hs : ScaleLen scale A.nbrows) {r : List K}
    (hr : r.length = A.nbrows) :
    ∃ x : List K, x.length = A.nbrows ∧
      (∀ k init ord z y, 1 ≤ k → init ≠ ApplyInit.none → (∀ t, (ord t).Perm (List.range A.nbrows)) → z.length = A.nbrows → y.length = A.nbrows →
        ∃ y', scalarIluApply A ilu scale k init ord r z y = .ok (x, y')) ∧
      (∀ levels sched sched' ord z y, LevelsOk A levels → (∀ t l, (sched t l).Perm l) → (∀ t l, (sched' t l).Perm l) → (∀ t, (ord t).Perm (List.range A.nbrows)) →
        z.length = A.nbrows → y.length = A.nbrows → ∃ y', levelScalarIluApply A ilu scale levels sched sched' ord r z y = .ok (x, y')) ∧
      (∀ levels mix ord z y z' y', LevelsOk A levels → MixOk mix → (∀ t, (ord t).Perm (List.range A.nbrows)) → z.length = A.nbrows → y.length = A.nbrows →
        AsyncLevelIluApply (unitLowerRow A ilu) (upperRow A ilu) A.nbrows mix (scale.map scalarSeg) levels ord r z y z' y' → z' = x) ∧
      (∀ k init mix ord z y z' y', A.nbrows ≤ k → init ≠ ApplyInit.none → MixOk mix → (∀ t, (ord t).Perm (List.range A.nbrows)) → z.length = A.nbrows → y.length = A.nbrows →
        AsyncIluApply (unitLowerRow A ilu) (upperRow A ilu) A.nbrows mix (scale.map scalarSeg) k init ord r z y z' y' → z' = x) := by
  obtain ⟨dinv, hd'⟩ : ∃ dinv : List K, ∀ i < A.nbrows, pinv ilu⟦A.diagind⟦i⟧⟧ = .ok dinv⟦i⟧ := by
    have : ∀ i, ∃ b, i < A.nbrows → pinv ilu⟦A.diagind⟦i⟧⟧ = .ok b := fun i => by
      by_cases hi : i < A.nbrows
      · obtain ⟨w, hw⟩ := hd i hi; exact ⟨w, fun _ => hw⟩
      · exact ⟨0, fun h => absurd h hi⟩
    choose b hb using this
    exact ⟨(List.range A.nbrows).map b, fun i hi => by rw [get0_map_range _ hi, hb i hi]⟩
  obtain ⟨x, h0, h1, h2, h3, h4⟩ := ilu_apply_same (triAny_unitLower (M := K) hA hS hD hl) (triAny_upper (M := K) hA hS hD hl hd') (segOk_any hs) hr
  exact ⟨x, h0.1, h1, h2, h3, h4⟩

/-- **C62** The same for the block code, which stores the inverted diagonal blocks: `R` are the blocks, `M` the segments of vectors, and `scale` the scaling of segments. -/
theorem block_ilu_apply_same_bits [Zero R] [Zero M] [Add M] [Sub M] [SMul R M] {A : SR V} {m : Nat} (hA : A.Full m) (hS : A.Sorted) (hD : A.HasDiag) {ilu : List R}
    (hl : ilu.length = A.browptr⟦A.nbrows⟧) {scale : Option (Nat → M → C M)} {S : Nat → M → M} (hs : SegOk scale S A.nbrows) {r : List M} (hr : r.length = A.nbrows) :
    ∃ x : List M, x.length = A.nbrows ∧
      (∀ k init ord z y, 1 ≤ k → init ≠ ApplyInit.none → (∀ t, (ord t).Perm (List.range A.nbrows)) → z.length = A.nbrows → y.length = A.nbrows →
        ∃ y', iluApplyWith (unitLowerRow A ilu) (blockUpperRow A ilu) A.nbrows scale k init ord r z y = .ok (x, y')) ∧
      (∀ levels sched sched' ord z y, LevelsOk A levels → (∀ t l, (sched t l).Perm l) → (∀ t l, (sched' t l).Perm l) → (∀ t, (ord t).Perm (List.range A.nbrows)) →
        z.length = A.nbrows → y.length = A.nbrows →
        ∃ y', levelIluApplyWith (unitLowerRow A ilu) (blockUpperRow A ilu) A.nbrows levels sched sched' scale ord r z y = .ok (x, y')) ∧
      (∀ levels mix ord z y z' y', LevelsOk A levels → MixOk mix → (∀ t, (ord t).Perm (List.range A.nbrows)) → z.length = A.nbrows → y.length = A.nbrows →
        AsyncLevelIluApply (unitLowerRow A ilu) (blockUpperRow A ilu) A.nbrows mix scale levels ord r z y z' y' → z' = x) ∧
      (∀ k init mix ord z y z' y', A.nbrows ≤ k → init ≠ ApplyInit.none → MixOk mix → (∀ t, (ord t).Perm (List.range A.nbrows)) → z.length = A.nbrows → y.length = A.nbrows →
        AsyncIluApply (unitLowerRow A ilu) (blockUpperRow A ilu) A.nbrows mix scale k init ord r z y z' y' → z' = x) := by
  obtain ⟨x, h0, h1, h2, h3, h4⟩ := ilu_apply_same (triAny_unitLower (M := M) hA hS hD hl) (triAny_blockUpper (M := M) hA hS hD hl) hs hr
  exact ⟨x, h0.1, h1, h2, h3, h4⟩

section sgs
variable [Zero R] [Zero M] [Add M] [Sub M] [SMul R M] {A : SR R} {dinv : List R}

theorem sgs_apply_same (hA : A.Full) (hS : A.Sorted) (hD : A.HasDiag) (hd : dinv.length = A.nbrows) {r : List M} (hr : r.length = A.nbrows) :
    ∃ y₀ x : List M, (x.length = A.nbrows ∧ (∀ i < A.nbrows, y₀⟦i⟧ = dinv⟦i⟧ • (r⟦i⟧ - lowAdd A A.vals i (get0 y₀))) ∧
        ∀ i < A.nbrows, x⟦i⟧ = y₀⟦i⟧ - dinv⟦i⟧ • upAdd A A.vals i (get0 x)) ∧
      (∀ k init ord z y, 1 ≤ k → (∀ t, (ord t).Perm (List.range A.nbrows)) → z.length = A.nbrows → y.length = A.nbrows →
        ∃ y', sgsApply A dinv k init ord r z y = .ok (x, y')) ∧
      (∀ levels sched sched' z y, LevelsOk A levels → (∀ t l, (sched t l).Perm l) → (∀ t l, (sched' t l).Perm l) →
        z.length = A.nbrows → y.length = A.nbrows → ∃ y', levelSgsApply A dinv levels sched sched' r z y = .ok (x, y')) ∧
      (∀ levels mix z y z' y', LevelsOk A levels → MixOk mix → z.length = A.nbrows → y.length = A.nbrows →
        AsyncLevelSgsApply A dinv mix levels r z y z' y' → z' = x) ∧
      (∀ k init mix ord z y z' y', 1 ≤ k → A.nbrows ≤ k → MixOk mix → (∀ t, (ord t).Perm (List.range A.nbrows)) → z.length = A.nbrows → y.length = A.nbrows →
        AsyncSgsApply A dinv mix k init ord r z y z' y' → z' = x) := by
  have hf := triAny_fgs (M := M) hA hS hD hd
  have hb := triAny_bgs (M := M) hA hS hD hd
  have hDL : ∀ i j, LowDep A i j → j < i := fun _ _ h => h.2
  have hDU : ∀ i j, UpDep A i j → i < j := fun _ _ h => h.2
  obtain ⟨y₀, -, hy₀, hy₀'⟩ := (hf.upd r hr).fwd hDL (Nat.le_refl 1) hr
  obtain ⟨x, -, hx, hx'⟩ := (hb.upd y₀ hy₀).bwd hDU (Nat.le_refl 1) hr
  have uy : ∀ y : List M, y.length = A.nbrows → (∀ i < A.nbrows, y⟦i⟧ = _) → y = y₀ := fun y h1 h2 =>
    ext_get0 (by omega) fun i hi => fwd_unique hDL (hf.upd r hr).dep h2 hy₀' i (by omega)
  have uz : ∀ z : List M, z.length = A.nbrows → (∀ i < A.nbrows, z⟦i⟧ = _) → z = x := fun z h1 h2 =>
    ext_get0 (by omega) fun i hi => bwd_unique hDU (hb.upd y₀ hy₀).dep h2 hx' i (by omega)
  refine ⟨y₀, x, ⟨hx, hy₀', hx'⟩, ?_, ?_, ?_, ?_⟩
  · intro k init ord z y hk hord hz hy
    unfold sgsApply
    obtain ⟨y₁, e1, hy1⟩ := applyInitY_ok init (hord 0) hy
    obtain ⟨y₂, e2, hy2⟩ := (hf.upd r hr).fwd hDL hk hy1
    obtain rfl := uy y₂ hy2.1 hy2.2
    obtain ⟨z₁, e3, hz1⟩ := sgsInitZ_ok init (hord 1) hy2.1 hz
    obtain ⟨z₂, e4, hz2⟩ := (hb.upd y₂ hy₀).bwd hDU hk hz1
    obtain rfl := uz z₂ hz2.1 hz2.2
    exact ⟨y₂, by rw [show sgsInitY A.nbrows init (ord 0) y = _ from e1, ok_bind, e2, ok_bind, e3, ok_bind, e4, ok_bind]⟩
  · intro levels sched sched' z y hL hs hs' hz hy
    unfold levelSgsApply
    obtain ⟨y₂, e2, hy2⟩ := (hf.upd r hr).levelUp hL hs hy
    obtain rfl := uy y₂ hy2.1 hy2.2
    obtain ⟨z₂, e4, hz2⟩ := (hb.upd y₂ hy₀).levelDown hL hs' hz
    obtain rfl := uz z₂ hz2.1 hz2.2
    exact ⟨y₂, by rw [e2, ok_bind, e4, ok_bind]⟩
  · intro levels mix z y z' y' hL hm hz hy h
    have hy2 := (hf.upd r hr).alevelsUp hL hm hy h.1
    obtain rfl := uy y' hy2.1 hy2.2
    have hz2 := (hb.upd y' hy₀).alevelsDown hL hm hz h.2
    exact uz z' hz2.1 hz2.2
  · intro k init mix ord z y z' y' hk hkn hm hord hz hy h
    obtain ⟨y₁, z₁, e1, e2, e3, h4⟩ := h
    have hy1 := (applyInitY_ok init (hord 0) hy).post _ e1
    have hy2 := ((hf.upd r hr).fwd hDL hk hy1).post _ e2
    obtain rfl := uy y' hy2.1 hy2.2
    have hz1 := (sgsInitZ_ok init (hord 1) hy2.1 hz).post _ e3
    have hz2 := (hb.upd y' hy₀).arun_up hDU hm (rank := fun i => A.nbrows - 1 - i) (fun i hi j hj hd => by have := hd.2; omega) (fun i hi => by omega) hz1 h4
    exact uz z' hz2.1 hz2.2

/-- **C62** The application of symmetric Gauss-Seidel, scalar and block. -/
theorem sgs_apply_same_bits (hA : A.Full) (hS : A.Sorted) (hD : A.HasDiag) (hd : dinv.length = A.nbrows) {r : List M} (hr : r.length = A.nbrows) :
    ∃ x : List M, x.length = A.nbrows ∧
      (∀ k init ord z y, 1 ≤ k → (∀ t, (ord t).Perm (List.range A.nbrows)) → z.length = A.nbrows → y.length = A.nbrows →
        ∃ y', sgsApply A dinv k init ord r z y = .ok (x, y')) ∧
      (∀ levels sched sched' z y, LevelsOk A levels → (∀ t l, (sched t l).Perm l) → (∀ t l, (sched' t l).Perm l) →
        z.length = A.nbrows → y.length = A.nbrows → ∃ y', levelSgsApply A dinv levels sched sched' r z y = .ok (x, y')) ∧
      (∀ levels mix z y z' y', LevelsOk A levels → MixOk mix → z.length = A.nbrows → y.length = A.nbrows →
        AsyncLevelSgsApply A dinv mix levels r z y z' y' → z' = x) ∧
      (∀ k init mix ord z y z' y', 1 ≤ k → A.nbrows ≤ k → MixOk mix → (∀ t, (ord t).Perm (List.range A.nbrows)) → z.length = A.nbrows → y.length = A.nbrows →
        AsyncSgsApply A dinv mix k init ord r z y z' y' → z' = x) := by
  obtain ⟨_, x, h0, h⟩ := sgs_apply_same hA hS hD hd hr
  exact ⟨x, h0.1, h⟩

omit [Add M] [Sub M] in
/-- **C62** The application of Jacobi: each component is the product of the inverted diagonal entry and the component of the argument. -/
theorem jacobi_apply_any (hd : dinv.length = A.nbrows) {r z : List M} (hr : r.length = A.nbrows) (hz : z.length = A.nbrows) :
    ∃ z', (∀ ord, ord.Perm (List.range A.nbrows) → jacobiApply A.nbrows dinv ord r z = .ok z') ∧ z'.length = A.nbrows ∧ ∀ i < A.nbrows, z'⟦i⟧ = dinv⟦i⟧ • r⟦i⟧ := by
  have key : ∀ ord, ord.Perm (List.range A.nbrows) → ∃ z', jacobiApply A.nbrows dinv ord r z = .ok z' ∧ z'.length = A.nbrows ∧ ∀ i < A.nbrows, z'⟦i⟧ = dinv⟦i⟧ • r⟦i⟧ := by
    intro ord ho
    have hmem : ∀ i, i ∈ ord ↔ i < A.nbrows := fun i => by rw [ho.mem_iff, List.mem_range]
    obtain ⟨y', e, hl, h⟩ := forList_par (body := fun i z => do
        let d ← rd dinv i
        let ri ← rd r i
        wr z i (d • ri)) (y := z) (fun i => dinv⟦i⟧ • r⟦i⟧) (ho.nodup_iff.mpr List.nodup_range)
      (fun i hi => by rw [hz]; exact (hmem i).mp hi)
      (fun i hi y' hl _ => by
        have := (hmem i).mp hi
        rw [rd_eq (by omega), ok_bind, rd_eq (by omega), ok_bind, wr_eq (by omega)])
    refine ⟨y', (parFor_eq ho _ _).trans e, by omega, fun i hi => ?_⟩
    rw [h i (by omega), if_pos ((hmem i).mpr hi)]
  obtain ⟨y', h1, h2, h3⟩ := key _ (List.Perm.refl _)
  refine ⟨y', fun order ho => ?_, h2, h3⟩
  obtain ⟨y'', g1, g2, g3⟩ := key order ho
  rw [g1, ext_get0 (g2.trans h2.symm) (fun i hi => by rw [g3 i (by omega), h3 i (by omega)])]

end sgs

end Blasted
