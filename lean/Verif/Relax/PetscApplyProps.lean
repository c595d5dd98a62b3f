import Verif.Relax.PetscApplyModel
import Verif.Relax.PetscProps
import Verif.Solve.DepthProps
import Verif.Solve.DomProps
import Verif.Solve.SymProps
import Verif.Solve.BgsProps
import Verif.Relax.EnergyProps

/-!
# The application callback for PETSc (C75)
-/

namespace Blasted

open Finset

variable {R M K : Type}

/-! ### Specification -/

/-- The number of sweeps and the initialisation with which the application of this class is exact on (block) rows with depths below `n` (`DepthOk`; the number of the row
is a depth, and so is the number of its level): one sweep where the sweeps are sequential, `n` where they are asynchronous. -/
def Prec.sweepsSuffice (n : Nat) : Prec → Prop
  | .cscBgs k _ => 1 ≤ k
  | .asyncSgs k _ _ | .asyncBlockSgs _ _ k _ _ => 1 ≤ k ∧ (n : Int) ≤ k
  | .asyncIlu0 c | .asyncBlockIlu0 _ _ c => c.applyinittype ≠ .none ∧ 1 ≤ c.napplysweeps ∧ (c.threadedapply = true → (n : Int) ≤ c.napplysweeps)
  | _ => True

section scalar
variable [Field K]

/-- Specification: `z'` is the result of the operator of this class applied to `r`. Jacobi: `D z' = r`; (level-scheduled) symmetric Gauss-Seidel:
`(D + L) D⁻¹ (D + U) z' = r`; column-oriented Gauss-Seidel: `(D + U) z' = r`; the ILU(0) classes: `z' = S w` with `L U w = S r`; none: `z' = r`.
The chaotic relaxation is a relaxation of `A x = r` that starts from the old contents `z`: one of its outcomes. -/
def ScalarApplied (o : ScalarPC K) (r z z' : List K) : Prec → Prop
  | .jacobi => ∀ i < o.A.nbrows, o.A.entry i i * z'⟦i⟧ = r⟦i⟧
  | .chaotic k _ => AsyncChaoticRelax o.A o.dinv o.mix k.toNat r z z'
  | .cscBgs .. => ∀ i < o.A.nbrows, ∑ j ∈ range o.A.nbrows, (if i ≤ j then o.A.entry i j else 0) * z'⟦j⟧ = r⟦i⟧
  | .asyncSgs .. | .levelSgs => ∀ i < o.A.nbrows, ∑ j ∈ range o.A.nbrows, sgsMat o.A o.dinv i j * z'⟦j⟧ = r⟦i⟧
  | .asyncIlu0 _ | .asyncLevelIlu0 _ => ScalarIluSolved o.A o.ilu o.scale r z'
  | .noPrec _ => z' = r
  | _ => False

/-- What `compute` of the class has established. -/
def ScalarPC.Computed (o : ScalarPC K) : Prec → Prop
  | .jacobi | .chaotic .. | .asyncSgs .. => DiagInv o.A o.dinv
  | .cscBgs .. => DiagInv o.A o.dinv ∧ ColsOf o.A o.csc
  | .levelSgs => DiagInv o.A o.dinv ∧ LevelsOk o.A o.levels
  | .asyncIlu0 _ => o.ilu.length = o.A.browptr⟦o.A.nbrows⟧ ∧ PivotsOk o.A o.ilu ∧ ScaleLen o.scale o.A.nbrows
  | .asyncLevelIlu0 _ => (o.ilu.length = o.A.browptr⟦o.A.nbrows⟧ ∧ PivotsOk o.A o.ilu ∧ ScaleLen o.scale o.A.nbrows) ∧ LevelsOk o.A o.levels
  | _ => True

/-- The object is set up for its class. -/
structure ScalarPC.Ready (o : ScalarPC K) (prec : Prec) : Prop where
  full : o.A.Full
  sorted : o.A.Sorted
  diag : o.A.HasDiag
  mix : MixOk o.mix
  computed : o.Computed prec

end scalar

section block
open scoped Matrix.Module
variable [Field K] {bs : Nat}

/-- Specification: `z'` is the result of the operator of this block class applied to `r`; as for the scalar classes. -/
def BlockApplied (o : BlockPC K bs) (r z z' : List (Fin bs → K)) : Prec → Prop
  | .bjacobi .. => ∀ i < o.A.nbrows, (o.A.entry i i).mulVec z'⟦i⟧ = r⟦i⟧
  | .blockChaotic _ _ k _ => AsyncChaoticRelax o.A o.dinv o.mix k.toNat r z z'
  | .asyncBlockSgs .. | .levelBsgs .. => ∀ i < o.A.nbrows, ∑ j ∈ range o.A.nbrows, (sgsMat o.A o.dinv i j).mulVec z'⟦j⟧ = r⟦i⟧
  | .asyncBlockIlu0 .. | .asyncLevelBlockIlu0 .. => ∀ u, DiagInverted o.A u o.ilu → BlockIluSolved o.A u o.scale r z'
  | .noPrec _ => z' = r
  | _ => False

/-- What `compute` of the block class has established. -/
def BlockPC.Computed (o : BlockPC K bs) : Prec → Prop
  | .bjacobi .. | .blockChaotic .. | .asyncBlockSgs .. => DiagInv o.A o.dinv
  | .levelBsgs .. => DiagInv o.A o.dinv ∧ LevelsOk o.A o.levels
  | .asyncBlockIlu0 .. => (∃ u, DiagInverted o.A u o.ilu) ∧ ScaleLen o.scale (o.A.nbrows * bs)
  | .asyncLevelBlockIlu0 .. => ((∃ u, DiagInverted o.A u o.ilu) ∧ ScaleLen o.scale (o.A.nbrows * bs)) ∧ LevelsOk o.A o.levels
  | _ => True

/-- The object is set up for its class. -/
structure BlockPC.Ready (o : BlockPC K bs) (prec : Prec) : Prop where
  full : o.A.Full
  sorted : o.A.Sorted
  diag : o.A.HasDiag
  mix : MixOk o.mix
  computed : o.Computed prec

end block

/-! ### The work vector keeps its length -/

theorem ALevel.length {upd : Nat → (Nat → Except Fail M) → Except Fail M} {mix : Set M → Set M} {rows : List Nat} {x x' : List M} (h : ALevel upd mix rows x x') :
    x'.length = x.length := by
  obtain ⟨log, _, _, _, rfl⟩ := h
  exact applyLog_length _ _

theorem ALevels.length {upd : Nat → (Nat → Except Fail M) → Except Fail M} {mix : Set M → Set M} {ls : List (List Nat)} {x x' : List M}
    (h : ALevels upd mix ls x x') : x'.length = x.length := by
  induction h with
  | nil => rfl
  | cons h _ ih => rw [ih, h.length]

theorem ARun.length {upd : Nat → (Nat → Except Fail M) → Except Fail M} {mix : Set M → Set M} {k : Nat} {x x' : List M} (h : ARun upd mix k x x') :
    x'.length = x.length := by
  obtain ⟨log, last, _, rfl⟩ := h
  exact applyLog_length _ _

theorem AsyncIluApply.length_y [Zero M] {lower upper : List M → Nat → (Nat → Except Fail M) → Except Fail M} {n : Nat} {mix : Set M → Set M}
    {scale : Option (Nat → M → Except Fail M)} {k : Nat} {init : ApplyInit} {ord : Nat → List Nat} (hord : ∀ t, (ord t).Perm (List.range n))
    {r z y z' y' : List M} (hy : y.length = n) (h : AsyncIluApply lower upper n mix scale k init ord r z y z' y') : y'.length = n := by
  obtain ⟨z₁, y₁, z₂, z₃, _, e, h1, _⟩ := h
  rw [h1.length]
  exact (applyInitY_ok init (hord 1) hy).post _ e

theorem AsyncSgsApply.length_y [Ring R] [AddCommGroup M] [Module R M] {A : SR R} (hA : A.Full) (hS : A.Sorted) (hD : A.HasDiag) {dinv : List R}
    (hl : dinv.length = A.nbrows) {mix : Set M → Set M} {k : Nat} (hk : 1 ≤ k) {init : ApplyInit} {ord : Nat → List Nat}
    (hord : ∀ t, (ord t).Perm (List.range A.nbrows)) {r z y z' y' : List M} (hr : r.length = A.nbrows) (hy : y.length = A.nbrows)
    (h : AsyncSgsApply A dinv mix k init ord r z y z' y') : y'.length = A.nbrows := by
  obtain ⟨y₁, z₁, e1, e2, _⟩ := h
  have hy1 := (applyInitY_ok init (hord 0) hy).post _ e1
  exact (((rowUpd_fgs hA hS hD hl hr).fwd (fun i j h => h.2) hk hy1).post _ e2).1

/-! ### One application -/

section scalar
variable [Field K] [DecidableEq K]

/-- Every outcome of the virtual function is a normal return with the result of the operator. -/
theorem ScalarApply.applied {o : ScalarPC K} {prec : Prec} (ho : o.Ready prec) {depth : Nat → Nat} {L : Nat} (hd : DepthOk o.A depth L)
    (hk : prec.sweepsSuffice L) {r z y : List K}
    (hr : r.length = o.A.nbrows) (hz : z.length = o.A.nbrows) (hy : y.length = o.A.nbrows) {p : Except Fail (List K × List K)}
    (h : ScalarApply o r z y prec p) :
    ∃ z' y', p = .ok (z', y') ∧ z'.length = o.A.nbrows ∧ y'.length = o.A.nbrows ∧ ScalarApplied o r z z' prec := by
  have hA := ho.full
  have hS := ho.sorted
  have hD := ho.diag
  have hm := ho.mix
  have hc := ho.computed
  cases h with
  | jacobi ord hord =>
    obtain ⟨z', e, h1, h2⟩ := jacobi_apply_correct hc hord hr hz
    exact ⟨z', y, by rw [e]; rfl, h1, hy, h2⟩
  | chaotic k c z' h => exact ⟨z', y, rfl, by rw [h.length, hz], hy, h⟩
  | cscBgs k c ord0 ord g h0 hord hg =>
    obtain ⟨z', e, h1, h2⟩ := csc_bgs_apply_correct hc.2 hc.1 (k := k.toNat) (by have : 1 ≤ k := hk; omega) h0 hord hg hr hz
    exact ⟨z', y, by rw [e]; rfl, h1, hy, h2⟩
  | sgs k i c ord z' y' hord h =>
    have hk' : 1 ≤ k ∧ (L : Int) ≤ k := hk
    have := sgs_apply_depth hA hS hD hc hm hd (by omega) (by omega) hord hr hz hy h
    exact ⟨z', y', rfl, this.1, h.length_y hA hS hD hc.len (by omega) hord hr hy, this.2⟩
  | levelSgs z' y' h =>
    have := sgs_apply_levels_async hA hS hD hc.1 hc.2 hm hr hz hy h
    exact ⟨z', y', rfl, this.1, by rw [h.1.length, hy], this.2⟩
  | seqIlu c ht ord hord =>
    obtain ⟨hi, hk1, _⟩ := hk
    obtain ⟨z', y', e, h0, h1, h2⟩ := scalar_ilu_apply_correct hA hS hD hc.1 hc.2.1 hc.2.2 (k := c.napplysweeps.toNat) (by omega) hi hord hr hz hy
    exact ⟨z', y', e, h1, h0, h2⟩
  | ilu c ht ord z' y' hord h =>
    obtain ⟨hi, hk1, hk2⟩ := hk
    have hk3 := hk2 ht
    have := scalar_ilu_apply_depth hA hS hD hc.1 hc.2.1 hc.2.2 hm hd (by omega) hi hord hr hz hy h
    exact ⟨z', y', rfl, this.1, h.length_y hord hy, this.2⟩
  | iluThrow c ht hi => exact absurd hi hk.1
  | levelIlu c ord z' y' hord h =>
    have := scalar_ilu_apply_levels_async hA hS hD hc.1.1 hc.1.2.1 hc.1.2.2 hc.2 hm hord hr hz hy h
    refine ⟨z', y', rfl, this.1, ?_, this.2⟩
    obtain ⟨z₁, z₃, _, h1, _⟩ := h
    rw [h1.length, hy]
  | noPrec bs ord hord => exact ⟨r, y, by rw [no_prec_apply_copies hord hr hz]; rfl, hr, hy, rfl⟩

end scalar

section block
open scoped Matrix.Module
variable [Field K] {bs : Nat}

/-- Every outcome of the virtual function of a block class is a normal return with the result of the operator. -/
theorem BlockApply.applied {o : BlockPC K bs} {prec : Prec} (ho : o.Ready prec) {depth : Nat → Nat} {L : Nat} (hd : DepthOk o.A depth L)
    (hk : prec.sweepsSuffice L) {r z y : List (Fin bs → K)}
    (hr : r.length = o.A.nbrows) (hz : z.length = o.A.nbrows) (hy : y.length = o.A.nbrows) {p : Except Fail (List (Fin bs → K) × List (Fin bs → K))}
    (h : BlockApply o r z y prec p) :
    ∃ z' y', p = .ok (z', y') ∧ z'.length = o.A.nbrows ∧ y'.length = o.A.nbrows ∧ BlockApplied o r z z' prec := by
  have hA := ho.full
  have hS := ho.sorted
  have hD := ho.diag
  have hm := ho.mix
  have hc := ho.computed
  cases h with
  | jacobi b stor ord hord =>
    obtain ⟨z', e, h1, h2⟩ := jacobi_apply_correct hc hord hr hz
    exact ⟨z', y, by rw [e]; rfl, h1, hy, h2⟩
  | chaotic b stor k c z' h => exact ⟨z', y, rfl, by rw [h.length, hz], hy, h⟩
  | sgs b stor k i c ord z' y' hord h =>
    have hk' : 1 ≤ k ∧ (L : Int) ≤ k := hk
    have := sgs_apply_depth hA hS hD hc hm hd (by omega) (by omega) hord hr hz hy h
    exact ⟨z', y', rfl, this.1, h.length_y hA hS hD hc.len (by omega) hord hr hy, this.2⟩
  | levelSgs b stor z' y' h =>
    have := sgs_apply_levels_async hA hS hD hc.1 hc.2 hm hr hz hy h
    exact ⟨z', y', rfl, this.1, by rw [h.1.length, hy], this.2⟩
  | seqIlu b stor c ht ord hord =>
    obtain ⟨hi, hk1, _⟩ := hk
    obtain ⟨⟨u, hu⟩, hs⟩ := hc
    obtain ⟨z', y', e, h0, h1⟩ := block_ilu_apply_correct hA hS hD hu hs (k := c.napplysweeps.toNat) (by omega) hi hord hr hz hy
    refine ⟨z', y', e, h1.1, h0, fun u' hu' => ?_⟩
    obtain ⟨z'', y'', e', _, h1'⟩ := block_ilu_apply_correct hA hS hD hu' hs (k := c.napplysweeps.toNat) (by omega) hi hord hr hz hy
    rw [e] at e'
    injection e' with e'
    injection e' with e1 _
    subst e1
    exact h1'
  | ilu b stor c ht ord z' y' hord h =>
    obtain ⟨hi, hk1, hk2⟩ := hk
    obtain ⟨⟨u, hu⟩, hs⟩ := hc
    have hk3 := hk2 ht
    exact ⟨z', y', rfl, (block_ilu_apply_depth hA hS hD hu hs hm hd (by omega) hi hord hr hz hy h).1, h.length_y hord hy,
      fun u' hu' => block_ilu_apply_depth hA hS hD hu' hs hm hd (by omega) hi hord hr hz hy h⟩
  | iluThrow b stor c ht hi => exact absurd hi hk.1
  | levelIlu b stor c ord z' y' hord h =>
    obtain ⟨⟨⟨u, hu⟩, hs⟩, hL⟩ := hc
    refine ⟨z', y', rfl, (block_ilu_apply_levels_async hA hS hD hu hs hL hm hord hr hz hy h).1, ?_,
      fun u' hu' => block_ilu_apply_levels_async hA hS hD hu' hs hL hm hord hr hz hy h⟩
    obtain ⟨z₁, z₃, _, h1, _⟩ := h
    rw [h1.length, hy]
  | noPrec b ord hord => exact ⟨r, y, by rw [no_prec_apply_copies hord hr hz]; rfl, hr, hy, rfl⟩

end block

/-! ### The callback -/

theorem petscApply_ok [Add K] [Sub K] {Apply : List M → List M → Except Fail (List M × List M) → Prop} {debug : Bool} {dim len : Int}
    {clk : Clocks K} {z y : List M} {t : Times K} {res : Except Fail (PetscApplyOut M K)} {P : List M → List M → Prop}
    (hP : ∀ p, Apply z y p → ∃ z' y', p = .ok (z', y') ∧ P z' y') (hd : debug = true → dim = len)
    (h : PetscApply Apply debug dim len clk z y t res) : ∃ z' y', res = .ok ⟨0, z', y', addApplyTimes t clk⟩ ∧ P z' y' := by
  unfold PetscApply at h
  rw [if_neg (fun hh => hh.2 (hd hh.1))] at h
  obtain ⟨p, hp, rfl⟩ := h
  obtain ⟨z', y', rfl, h1⟩ := hP p hp
  exact ⟨z', y', rfl, h1⟩

/-- **C75** For every scalar class that has been set up, with enough sweeps, every execution of PETSc's application callback returns normally with error
code 0, leaves in `z` the result of the operator of the class applied to `r`, whatever `z` and the work vector held before, adds the time spent to the
application times and leaves the factorization times alone. -/
theorem scalar_petsc_apply_correct [Field K] [DecidableEq K] (o : ScalarPC K) {prec : Prec} (ho : o.Ready prec) {depth : Nat → Nat} {L : Nat} (hd : DepthOk o.A depth L)
    (hk : prec.sweepsSuffice L)
    (debug : Bool) (clk : Clocks K) {r z y : List K} (hr : r.length = o.A.nbrows) (hz : z.length = o.A.nbrows) (hy : y.length = o.A.nbrows)
    (t : Times K) {res : Except Fail (PetscApplyOut K K)}
    (h : PetscApply (fun z y => ScalarApply o r z y prec) debug (precDim o.A.nbrows 1) r.length clk z y t res) :
    ∃ z' y', res = .ok ⟨0, z', y', ⟨t.factorwall, t.applywall + (clk.w1 - clk.w0), t.factorcpu, t.applycpu + (clk.c1 - clk.c0)⟩⟩ ∧
      z'.length = o.A.nbrows ∧ y'.length = o.A.nbrows ∧ ScalarApplied o r z z' prec :=
  petscApply_ok (P := fun z' y' => z'.length = o.A.nbrows ∧ y'.length = o.A.nbrows ∧ ScalarApplied o r z z' prec)
    (fun _ hp => hp.applied ho hd hk hr hz hy) (fun _ => by unfold precDim; omega) h

section
open scoped Matrix.Module

/-- **C75** The same for the block classes. -/
theorem block_petsc_apply_correct [Field K] {bs : Nat} (o : BlockPC K bs) {prec : Prec} (ho : o.Ready prec) {depth : Nat → Nat} {L : Nat} (hd : DepthOk o.A depth L)
    (hk : prec.sweepsSuffice L)
    (debug : Bool) (clk : Clocks K) {r z y : List (Fin bs → K)} (hr : r.length = o.A.nbrows) (hz : z.length = o.A.nbrows)
    (hy : y.length = o.A.nbrows) (t : Times K) {res : Except Fail (PetscApplyOut (Fin bs → K) K)}
    (h : PetscApply (fun z y => BlockApply o r z y prec) debug (precDim o.A.nbrows bs) (r.length * bs) clk z y t res) :
    ∃ z' y', res = .ok ⟨0, z', y', ⟨t.factorwall, t.applywall + (clk.w1 - clk.w0), t.factorcpu, t.applycpu + (clk.c1 - clk.c0)⟩⟩ ∧
      z'.length = o.A.nbrows ∧ y'.length = o.A.nbrows ∧ BlockApplied o r z z' prec :=
  petscApply_ok (P := fun z' y' => z'.length = o.A.nbrows ∧ y'.length = o.A.nbrows ∧ BlockApplied o r z z' prec)
    (fun _ hp => hp.applied ho hd hk hr hz hy) (fun _ => by unfold precDim; rw [hr]) h

end

/-- **C75** In a debug build a vector of the wrong size is refused with PETSc's error code for sizes, and nothing is changed. -/
theorem petsc_apply_wrong_size [Add K] [Sub K] {Apply : List M → List M → Except Fail (List M × List M) → Prop} {dim len : Int} (hne : dim ≠ len)
    (clk : Clocks K) (z y : List M) (t : Times K) (res : Except Fail (PetscApplyOut M K)) :
    PetscApply Apply true dim len clk z y t res ↔ res = .ok ⟨60, z, y, t⟩ := by
  unfold PetscApply
  rw [if_pos ⟨rfl, hne⟩]
  rfl

/-! ### Sequences of applications -/

theorem petscApplies_ok [AddCommGroup K] {Apply : List M → List M → List M → Except Fail (List M × List M) → Prop} {debug : Bool} {dim : Int}
    {lenOf : List M → Int} {n : Nat} {P : ApplyCall M K → List M → Prop} {cs : List (ApplyCall M K)} {y : List M} {t t' : Times K} {zs : List (List M)}
    (hP : ∀ c ∈ cs, ∀ y : List M, y.length = n → ∀ p, Apply c.r c.z y p → ∃ z' y', p = .ok (z', y') ∧ y'.length = n ∧ P c z')
    (hd : ∀ c ∈ cs, dim = lenOf c.r) (hy : y.length = n) (h : PetscApplies Apply debug dim lenOf cs y t zs t') :
    List.Forall₂ P cs zs ∧ t' = ⟨t.factorwall, t.applywall + (cs.map fun c => c.clk.w1 - c.clk.w0).sum, t.factorcpu,
      t.applycpu + (cs.map fun c => c.clk.c1 - c.clk.c0).sum⟩ := by
  induction h with
  | nil y t => simp
  | @cons c cs y t t' out zs h he hs ih =>
    obtain ⟨z', y', e, h1, h2⟩ := petscApply_ok (P := fun z' y' => y'.length = n ∧ P c z') (hP c (by simp) y hy) (fun _ => hd c (by simp)) h
    injection e with e
    subst e
    obtain ⟨h3, h4⟩ := ih (fun c hc => hP c (by simp [hc])) (fun c hc => hd c (by simp [hc])) h1
    refine ⟨.cons h2 h3, ?_⟩
    rw [h4]
    simp only [addApplyTimes, List.map_cons, List.sum_cons, add_assoc]

/-- **C75** In every history of applications of one scalar object, every call gives the result of the operator for its own right-hand side, whatever the
calls before it; the application times are the sums over all calls. -/
theorem scalar_petsc_applies_correct [Field K] [DecidableEq K] (o : ScalarPC K) {prec : Prec} (ho : o.Ready prec) {depth : Nat → Nat} {L : Nat} (hd : DepthOk o.A depth L)
    (hk : prec.sweepsSuffice L)
    {debug : Bool} {cs : List (ApplyCall K K)} (hr : ∀ c ∈ cs, c.r.length = o.A.nbrows) (hz : ∀ c ∈ cs, c.z.length = o.A.nbrows) {y : List K}
    (hy : y.length = o.A.nbrows) {t t' : Times K} {zs : List (List K)}
    (h : PetscApplies (fun r z y => ScalarApply o r z y prec) debug (precDim o.A.nbrows 1) (fun r => r.length) cs y t zs t') :
    List.Forall₂ (fun c z' => ScalarApplied o c.r c.z z' prec) cs zs ∧ t' = ⟨t.factorwall, t.applywall + (cs.map fun c => c.clk.w1 - c.clk.w0).sum,
      t.factorcpu, t.applycpu + (cs.map fun c => c.clk.c1 - c.clk.c0).sum⟩ :=
  petscApplies_ok (n := o.A.nbrows) (P := fun c z' => ScalarApplied o c.r c.z z' prec)
    (fun c hc y hy p hp => by
      obtain ⟨z', y', e, _, h2, h3⟩ := hp.applied ho hd hk (hr c hc) (hz c hc) hy
      exact ⟨z', y', e, h2, h3⟩)
    (fun c hc => by unfold precDim; have := hr c hc; omega) hy h

section
open scoped Matrix.Module

/-- **C75** The same for block objects. -/
theorem block_petsc_applies_correct [Field K] {bs : Nat} (o : BlockPC K bs) {prec : Prec} (ho : o.Ready prec) {depth : Nat → Nat} {L : Nat} (hd : DepthOk o.A depth L)
    (hk : prec.sweepsSuffice L)
    {debug : Bool} {cs : List (ApplyCall (Fin bs → K) K)} (hr : ∀ c ∈ cs, c.r.length = o.A.nbrows) (hz : ∀ c ∈ cs, c.z.length = o.A.nbrows)
    {y : List (Fin bs → K)} (hy : y.length = o.A.nbrows) {t t' : Times K} {zs : List (List (Fin bs → K))}
    (h : PetscApplies (fun r z y => BlockApply o r z y prec) debug (precDim o.A.nbrows bs) (fun r => r.length * bs) cs y t zs t') :
    List.Forall₂ (fun c z' => BlockApplied o c.r c.z z' prec) cs zs ∧ t' = ⟨t.factorwall, t.applywall + (cs.map fun c => c.clk.w1 - c.clk.w0).sum,
      t.factorcpu, t.applycpu + (cs.map fun c => c.clk.c1 - c.clk.c0).sum⟩ :=
  petscApplies_ok (n := o.A.nbrows) (P := fun c z' => BlockApplied o c.r c.z z' prec)
    (fun c hc y hy p hp => by
      obtain ⟨z', y', e, _, h2, h3⟩ := hp.applied ho hd hk (hr c hc) (hz c hc) hy
      exact ⟨z', y', e, h2, h3⟩)
    (fun c hc => by unfold precDim; have := hr c hc; simp only [this]) hy h

end

/-! ### From the options to the result -/

/-- The part of the configuration the factorization uses. -/
def IluConf.toILU (c : IluConf) : ILUConf := ⟨c.usescaling, c.nbuildsweeps.toNat, c.factinittype, c.compute_precinfo⟩

/-- **C75** From the settings to the result: with the types `seqilu0` and `sfilu0`, for a matrix that is strictly diagonally dominant with some weights,
creation and `compute` succeed and, with as many application sweeps as the pattern is deep where they are threaded, every call of the application callback returns the vector `z = S w` with `L U w = S r`, where `L U` are the exact incomplete
factors of `S A S`; if the elimination creates no fill then `A z = r`. -/
theorem petsc_ilu_end_to_end [Field K] [LinearOrder K] [IsStrictOrderedRing K] {isq : K → K} {s : Settings} (hbs : s.bs = 1)
    (ht : s.prectype = .seqilu0 ∨ s.prectype = .sfilu0) (hinit : s.apply_inittype ≠ .none) (hb : 1 ≤ s.nbuildsweeps) (ha : 1 ≤ s.napplysweeps)
    {A : SR K} {depth : Nat → Nat} {L : Nat} (hd : DepthOk A depth L) (ha' : s.prectype = .sfilu0 → (L : Int) ≤ s.napplysweeps) (hft : s.fact_inittype ≠ .sgs ∨ s.scale = false)
    {ord ordc : List Nat} {gilu gy gscale : List K} {st : ILUState K K} (hc : CompSetting s.scale A ord ordc gilu gy gscale st)
    (hisq : s.scale = true → ∀ i < A.nbrows, isq (A.entry i i) ≠ 0) {d : Nat → K} {rho : K} (hdom : WDominant A.nbrows A.entry d rho) (h1 : rho < 1)
    {mix : Set K → Set K} (hm : MixOk mix) :
    ∃ c inf st' u, createPreconditioner (.async s) = .ok (.asyncIlu0 c) ∧
      scalarCompute isq c.toILU A ord ordc gilu gy gscale st = .ok (inf, st') ∧ st'.iluvals = some u ∧
      ExactILU A (scaledEntry isq s.scale A) u ∧
      ∀ (dinv : List K) (levels : List Nat) (csc : SC K) (debug : Bool) (clk : Clocks K) (r z y : List K) (t : Times K) (res : Except Fail (PetscApplyOut K K)),
        r.length = A.nbrows → z.length = A.nbrows → y.length = A.nbrows →
        PetscApply (fun z y => ScalarApply ⟨A, dinv, levels, u, st'.scale, csc, mix⟩ r z y (.asyncIlu0 c)) debug (precDim A.nbrows 1) r.length clk z y t res →
        ∃ out, res = .ok out ∧ out.ierr = 0 ∧ (∃ w : Nat → K, (∀ i < A.nbrows, out.z⟦i⟧ = scaleFac isq s.scale A i * w i) ∧
            ∀ i < A.nbrows, ∑ j ∈ range A.nbrows, luProd A u i j * w j = scaleFac isq s.scale A i * r⟦i⟧) ∧
          (NoFill A → ∀ i < A.nbrows, ∑ j ∈ range A.nbrows, A.entry i j * out.z⟦j⟧ = r⟦i⟧) := by
  obtain ⟨c, hcr, hsc, hnb, hfi, hai, hna, hta⟩ : ∃ c, createPreconditioner (.async s) = .ok (.asyncIlu0 c) ∧ c.usescaling = s.scale ∧
      c.nbuildsweeps = s.nbuildsweeps ∧ c.factinittype = s.fact_inittype ∧ c.applyinittype = s.apply_inittype ∧ c.napplysweeps = s.napplysweeps ∧
      (c.threadedapply = true → s.prectype = .sfilu0) := by
    rcases ht with ht | ht
    · exact ⟨_, by simp [createPreconditioner, createScalar, hbs, ht]; rfl, rfl, rfl, rfl, rfl, rfl, fun h => by cases h⟩
    · exact ⟨_, by simp [createPreconditioner, createScalar, hbs, ht]; rfl, rfl, rfl, rfl, rfl, rfl, fun _ => ht⟩
  rw [← hsc] at hc hft hisq ⊢
  have hA := hc.full
  obtain ⟨inf, st', u, e, hu, hl, hS, hex, hp, _⟩ := scalar_ilu_dominant_compute (isq := isq) (conf := c.toILU) hc
    (by show 1 ≤ c.nbuildsweeps.toNat; omega) (by rw [← hfi] at hft; exact hft) hisq hdom h1
  refine ⟨c, inf, st', u, hcr, e, hu, hex, ?_⟩
  intro dinv levels csc debug clk r z y t res hr hz hy h
  obtain ⟨z', y', rfl, h2, _, w, h3, h4⟩ := scalar_petsc_apply_correct ⟨A, dinv, levels, u, st'.scale, csc, mix⟩ (prec := .asyncIlu0 c)
    ⟨hA, hc.sorted, hc.diag, hm, hl, hp, hS.length⟩ hd
    ⟨by rw [hai]; exact hinit, by omega, fun h => by have := ha' (hta h); show (L : Int) ≤ _; omega⟩ debug clk hr hz hy t h
  have hfac : ∀ i < A.nbrows, scaleAt st'.scale i = scaleFac isq c.usescaling A i := fun i hi => hS.scaleAt hi
  have hw1 : ∀ i < A.nbrows, z'⟦i⟧ = scaleFac isq c.usescaling A i * w i := fun i hi => by rw [← hfac i hi]; exact h3 i hi
  have hw2 : ∀ i < A.nbrows, ∑ j ∈ range A.nbrows, luProd A u i j * w j = scaleFac isq c.usescaling A i * r⟦i⟧ := fun i hi => by
    rw [← hfac i hi]; exact h4 i hi
  refine ⟨_, rfl, rfl, ⟨w, hw1, hw2⟩, fun hN i hi => ?_⟩
  have hne : scaleFac isq c.usescaling A i ≠ 0 := by
    unfold scaleFac
    split
    · rename_i hus; exact hisq hus i hi
    · exact one_ne_zero
  have hlu := luProd_eq_of_noFill hA hN hl hex (fun i hi j hj hn => by
    unfold scaledEntry
    rw [hA.entry_unstored hi fun k hk e => hn ⟨k, hk, e⟩, mul_zero, zero_mul])
  apply mul_left_cancel₀ hne
  rw [← hw2 i hi, mul_sum]
  refine sum_congr rfl fun j hj => ?_
  have hj' := mem_range.mp hj
  show _ * (_ * z'⟦j⟧) = _
  rw [hlu i hi j hj', hw1 j hj']
  show _ = scaledEntry isq c.usescaling A i j * w j
  unfold scaledEntry
  ring

/-! ### Non-vacuity and what fails -/

/-- An object with the data of every scalar class on the star matrix. -/
def exScalarPC : ScalarPC ℚ :=
  ⟨exStar, [1/2, 1/3, 1/4, 1/9], [0, 3, 4], exStar.vals, none, ⟨[], [], [], [], 0⟩, mixWhole⟩

theorem exScalarPC_ready : exScalarPC.Ready .jacobi ∧ exScalarPC.Ready (.chaotic 1 1) ∧ exScalarPC.Ready (.asyncSgs 4 .zero 1) ∧ exScalarPC.Ready .levelSgs :=
  ⟨⟨exStar_full, exStar_sorted, exStar_diag, mixOk_whole, exStar_diagInv⟩, ⟨exStar_full, exStar_sorted, exStar_diag, mixOk_whole, exStar_diagInv⟩,
    ⟨exStar_full, exStar_sorted, exStar_diag, mixOk_whole, exStar_diagInv⟩, ⟨exStar_full, exStar_sorted, exStar_diag, mixOk_whole, exStar_diagInv, exStar_levels⟩⟩

/-- **C75** The type `gs` is an exception: its application continues from the old contents of `z`, which PETSc does not define, so that
two calls with the same right-hand side return different vectors. -/
theorem petsc_apply_gs_depends_on_output :
    ∃ (o : ScalarPC ℚ) (r z z' w w' : List ℚ), o.Ready (.chaotic 1 1) ∧ r.length = o.A.nbrows ∧ z.length = o.A.nbrows ∧ w.length = o.A.nbrows ∧
      ScalarApply o r z [] (.chaotic 1 1) (.ok (z', [])) ∧ ScalarApply o r w [] (.chaotic 1 1) (.ok (w', [])) ∧ z' ≠ w' := by
  refine ⟨exScalarPC, [3, 4, 5, 12], [1, 1, 1, 1], _, [0, 0, 0, 0], _, exScalarPC_ready.2.1, rfl, rfl, rfl,
    .chaotic 1 1 _ (jacobi_is_async (fun _ => subset_rfl) exStar_full exStar_sorted exStar_diag exStar_diagInv rfl rfl 1).1,
    .chaotic 1 1 _ (jacobi_is_async (fun _ => subset_rfl) exStar_full exStar_sorted exStar_diag exStar_diagInv rfl rfl 1).1, ?_⟩
  decide +kernel

/-- The end-to-end theorem applies to settings with `seqilu0` and the dominant matrix `exM`. -/
example : ∃ c inf st' u, createPreconditioner (.async (sampleSettings .seqilu0 1)) = .ok (.asyncIlu0 c) ∧
      scalarCompute (fun x : ℚ => x⁻¹) c.toILU exM [2, 0, 1, 3] (List.range 12) (List.replicate 12 7) (List.replicate 4 7) (List.replicate 4 7) {} =
        .ok (inf, st') ∧ st'.iluvals = some u ∧ ExactILU exM (scaledEntry (fun x : ℚ => x⁻¹) true exM) u := by
  obtain ⟨c, inf, st', u, h1, h2, h3, h4, _⟩ := petsc_ilu_end_to_end (s := sampleSettings .seqilu0 1) (isq := fun x : ℚ => x⁻¹) rfl (Or.inl rfl) (by decide)
    (by decide) (by decide) (depthOk_id _) (fun h => by cases h) (Or.inl (by decide)) (exM_setting true) (fun _ i hi => inv_ne_zero (exM_dominant.diag i hi)) exM_dominant
    (by norm_num) mixOk_whole
  exact ⟨c, inf, st', u, h1, h2, h3, h4⟩

/-- A history of two applications of the level-scheduled class has the results the theorem says. -/
example {cs : List (ApplyCall ℚ ℚ)} (hr : ∀ c ∈ cs, c.r.length = 4) (hz : ∀ c ∈ cs, c.z.length = 4) {zs : List (List ℚ)} {t t' : Times ℚ}
    (h : PetscApplies (fun r z y => ScalarApply exScalarPC r z y .levelSgs) true 4 (fun r => r.length) cs [0, 0, 0, 0] t zs t') :
    t'.factorwall = t.factorwall := by
  have := (scalar_petsc_applies_correct exScalarPC exScalarPC_ready.2.2.2 (depthOk_id _) trivial hr hz rfl h).2
  rw [this]

example : ∃ zs t', PetscApplies (fun r z y => ScalarApply exScalarPC r z y .jacobi) true 4 (fun r => r.length)
    [⟨[2, 3, 4, 9], [7, 7, 7, 7], ⟨0, 0, 1, 1⟩⟩, ⟨[4, 6, 8, 18], [1, 1, 1, 1], ⟨1, 1, 4, 4⟩⟩] [0, 0, 0, 0] ⟨0, 0, 0, (0 : ℚ)⟩ zs t' ∧
    zs = [[1, 1, 1, 1], [2, 2, 2, (2 : ℚ)]] ∧ t'.applywall = 4 := by
  have call : ∀ (r z y z' : List ℚ) (clk : Clocks ℚ) (t : Times ℚ), r.length = 4 → jacobiApply 4 exScalarPC.dinv [2, 0, 3, 1] r z = .ok z' →
      PetscApply (fun z y => ScalarApply exScalarPC r z y .jacobi) true 4 r.length clk z y t (.ok ⟨0, z', y, addApplyTimes t clk⟩) := by
    intro r z y z' clk t hr h
    unfold PetscApply
    rw [if_neg (by rw [hr]; decide)]
    refine ⟨_, .jacobi [2, 0, 3, 1] (by decide), ?_⟩
    show _ = (jacobiApply 4 exScalarPC.dinv [2, 0, 3, 1] r z >>= fun z' => Except.ok (z', y)) >>= _
    rw [h]; rfl
  exact ⟨_, _, .cons (call _ _ _ [1, 1, 1, 1] _ _ rfl (by decide +kernel)) rfl (.cons (call _ _ _ [2, 2, 2, 2] _ _ rfl (by decide +kernel)) rfl (.nil _ _)),
    rfl, by decide +kernel⟩

section
open scoped Matrix.Module

/-- A block object with the factors `compute` leaves for `exBS`, and a call of the callback on it. -/
def exBlockPC : BlockPC ℚ 2 := ⟨exBS, [], [], exBSstate.iluvals.getD [], exBSstate.scale, mixWhole⟩

def exBlockConf : IluConf := ⟨true, false, false, 2, 1, 1, .original, .zero, false⟩

theorem exBlockPC_ready : exBlockPC.Ready (.asyncBlockIlu0 2 .colMajor exBlockConf) := by
  obtain ⟨inf, hcomp⟩ := exBS_compute
  have hs := exBS_setting true
  obtain ⟨_, hsc, u, ilu, hu, _, _, hinv⟩ := block_ilu_compute_exact (conf := ⟨true, 2, .original, false⟩) hs (by decide) hcomp
  refine ⟨hs.full, hs.sorted, hs.diag, mixOk_whole, ⟨u, ?_⟩, hsc.length⟩
  show DiagInverted exBS u (exBSstate.iluvals.getD [])
  rw [hu]
  exact hinv

example : ∃ out, PetscApply (fun z y => BlockApply exBlockPC [![1, 0], ![2, 1], ![0, 3]] z y (.asyncBlockIlu0 2 .colMajor exBlockConf)) true 6 6
    ⟨1, 2, 4, 7⟩ [![7, 7], ![7, 7], ![7, 7]] [![7, 7], ![7, 7], ![7, 7]] ⟨1, 10, 1, (10 : ℚ)⟩ (.ok out) ∧ out.times.applywall = 13 ∧
    BlockApplied exBlockPC [![1, 0], ![2, 1], ![0, 3]] [![7, 7], ![7, 7], ![7, 7]] out.z (.asyncBlockIlu0 2 .colMajor exBlockConf) := by
  obtain ⟨z, y', hz⟩ := exists_ok (m := blockIluApply exBS (exBSstate.iluvals.getD []) exBSstate.scale 1 .zero (fun _ => [1, 2, 0])
    [![1, 0], ![2, 1], ![0, 3]] [![7, 7], ![7, 7], ![7, 7]] [![7, 7], ![7, 7], ![7, 7]]) (by decide +kernel)
  have h : PetscApply (fun z y => BlockApply exBlockPC [![1, 0], ![2, 1], ![0, 3]] z y (.asyncBlockIlu0 2 .colMajor exBlockConf)) true 6 6
      ⟨1, 2, 4, 7⟩ [![7, 7], ![7, 7], ![7, 7]] [![7, 7], ![7, 7], ![7, 7]] ⟨1, 10, 1, (10 : ℚ)⟩
      (.ok ⟨0, z, y', addApplyTimes ⟨1, 10, 1, (10 : ℚ)⟩ ⟨1, 2, 4, 7⟩⟩) := by
    unfold PetscApply
    rw [if_neg (by decide)]
    refine ⟨_, .seqIlu 2 .colMajor exBlockConf rfl (fun _ => [1, 2, 0]) (fun _ => by decide), ?_⟩
    show _ = blockIluApply exBS (exBSstate.iluvals.getD []) exBSstate.scale 1 .zero (fun _ => [1, 2, 0])
      [![1, 0], ![2, 1], ![0, 3]] [![7, 7], ![7, 7], ![7, 7]] [![7, 7], ![7, 7], ![7, 7]] >>= _
    rw [hz]; rfl
  refine ⟨_, h, by show (10 : ℚ) + (4 - 1) = 13; norm_num, ?_⟩
  obtain ⟨z', y'', e, _, _, h1⟩ := block_petsc_apply_correct exBlockPC exBlockPC_ready (depthOk_id _) ⟨by decide, by decide, fun h => by cases h⟩ true ⟨1, 2, 4, 7⟩ rfl rfl rfl
    ⟨1, 10, 1, (10 : ℚ)⟩ h
  injection e with e
  rw [e]
  exact h1

end

end Blasted
