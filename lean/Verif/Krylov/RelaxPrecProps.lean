import Verif.Krylov.RelaxSpec
import Verif.Krylov.BlockProps
import Verif.Relax.WeightProps
import Verif.Solve.BgsProps
import Verif.Solve.SymProps

/-!
# The solve program with Jacobi and Gauss-Seidel preconditioners (C90)
-/

namespace Blasted

open Finset

/-! ### Sweeps from zero -/

section sweep
variable {K R M : Type} [Field K] [LinearOrder K] [IsStrictOrderedRing K] [Ring R] [AddCommGroup M] [Module R M]

/-- Every update of a row reduces the distance to `s`, measured by `Q`, to the part `rho`. -/
structure RowContracts (A : SR R) (dinv : List R) (b : List M) (s : Nat → M) (Q : K → Nat → M → Prop) (rho : K) : Prop where
  row : ∀ E, 0 ≤ E → ∀ i < A.nbrows, ∀ x : Nat → M, (∀ j < A.nbrows, Q E j (x j - s j)) → Q (rho * E) i (relaxVal A dinv b x i - s i)
  mono : ∀ E E', E ≤ E' → ∀ i < A.nbrows, ∀ v, Q E i v → Q E' i v
  nonneg : 0 ≤ rho
  le_one : rho ≤ 1

variable {A : SR R} {dinv : List R} {b : List M} {s : Nat → M} {Q : K → Nat → M → Prop} {rho E : K}

theorem RowContracts.forward (h : RowContracts A dinv b s Q rho) (hI : DiagInv A dinv) (hE : 0 ≤ E) {x y : Nat → M} (h0 : ∀ i < A.nbrows, Q E i (x i - s i))
    (hf : ForwardGS A b x y) : ∀ i < A.nbrows, Q (rho * E) i (y i - s i) := by
  rw [forwardGS_iff hI] at hf
  intro i
  induction i using Nat.strong_induction_on with
  | _ i ih =>
    intro hi
    rw [hf i hi]
    refine h.row E hE i hi _ fun j hj => ?_
    by_cases hji : j < i
    · rw [if_pos hji]; exact h.mono _ _ (mul_le_of_le_one_left hE h.le_one) j hj _ (ih j hji hj)
    · rw [if_neg hji]; exact h0 j hj

theorem RowContracts.backward (h : RowContracts A dinv b s Q rho) (hI : DiagInv A dinv) (hE : 0 ≤ E) {x y : Nat → M} (h0 : ∀ i < A.nbrows, Q E i (x i - s i))
    (hf : BackwardGS A b x y) : ∀ i < A.nbrows, Q (rho * E) i (y i - s i) := by
  rw [backwardGS_iff hI] at hf
  suffices key : ∀ t i, i < A.nbrows → A.nbrows - i = t → Q (rho * E) i (y i - s i) from fun i hi => key _ i hi rfl
  intro t
  induction t using Nat.strong_induction_on with
  | _ t ih =>
    intro i hi ht
    rw [hf i hi]
    refine h.row E hE i hi _ fun j hj => ?_
    by_cases hji : i < j
    · rw [if_pos hji]; exact h.mono _ _ (mul_le_of_le_one_left hE h.le_one) j hj _ (ih _ (by omega) j hj rfl)
    · rw [if_neg hji]; exact h0 j hj

omit [IsStrictOrderedRing K] in
/-- `D z = b` -/
theorem RowContracts.jacobi (h : RowContracts A dinv b s Q rho) (hI : DiagInv A dinv) (hE : 0 ≤ E) (h0 : ∀ i < A.nbrows, Q E i (0 - s i)) {z : Nat → M}
    (hz : ∀ i < A.nbrows, A.entry i i • z i = b⟦i⟧) : ∀ i < A.nbrows, Q (rho * E) i (z i - s i) := by
  intro i hi
  have := h.row E hE i hi (fun _ => 0) h0
  have e : relaxVal A dinv b (fun _ => 0) i = z i := by
    unfold relaxVal
    rw [Finset.sum_eq_zero fun j _ => smul_zero _, sub_zero, ← hz i hi, smul_smul, hI.left i hi, one_smul]
  rwa [e] at this

/-- `(D+U) z = b` -/
theorem RowContracts.upper (h : RowContracts A dinv b s Q rho) (hI : DiagInv A dinv) (hE : 0 ≤ E) (h0 : ∀ i < A.nbrows, Q E i (0 - s i)) {z : Nat → M}
    (hz : ∀ i < A.nbrows, ∑ j ∈ range A.nbrows, (if i ≤ j then A.entry i j else 0) • z j = b⟦i⟧) : ∀ i < A.nbrows, Q (rho * E) i (z i - s i) := by
  refine h.backward hI hE (x := fun _ => 0) h0 fun i hi => ?_
  rw [← hz i hi]
  refine Finset.sum_congr rfl fun j _ => ?_
  split
  · rfl
  · rw [smul_zero, zero_smul]

/-- `(D+L) D⁻¹ (D+U) z = b` -/
theorem RowContracts.sgs (h : RowContracts A dinv b s Q rho) (hA : A.Full) (hS : A.Sorted) (hD : A.HasDiag) (hI : DiagInv A dinv) (hb : b.length = A.nbrows) (hE : 0 ≤ E)
    (h0 : ∀ i < A.nbrows, Q E i (0 - s i)) {z : Nat → M} (hz : ∀ i < A.nbrows, ∑ j ∈ range A.nbrows, sgsMat A dinv i j • z j = b⟦i⟧) :
    ∀ i < A.nbrows, Q (rho * E) i (z i - s i) := by
  obtain ⟨x', _, _, h1⟩ := sgs_relax_correct hA hS hD hI hb 1 (x := List.replicate A.nbrows 0) List.length_replicate
  cases h1 with
  | @succ _ _ v w _ h2 hf hb' =>
    cases h2
    have hx0 : ∀ j, (List.replicate A.nbrows (0 : M))⟦j⟧ = 0 := fun j => get0_replicate _ _
    have h3 := symmetric_sweep hA hS hD hI hf hb'
    have h4 := h.backward hI (mul_nonneg h.nonneg hE) (h.forward hI hE (fun i hi => by rw [hx0]; exact h0 i hi) hf) hb'
    have h5 := sgs_unique hA hS hD hI hz (z' := get0 x') fun i hi => by
      have := h3 i hi
      simp only [hx0, sub_zero, smul_zero, Finset.sum_const_zero] at this
      exact this
    intro i hi
    rw [h5 i hi]
    exact h.mono _ _ (mul_le_of_le_one_left (mul_nonneg h.nonneg hE) h.le_one) i hi _ (h4 i hi)

end sweep

/-! ### Dominant matrices -/

section dom
variable {K : Type} [Field K] [LinearOrder K] [IsStrictOrderedRing K]

theorem WDominant.rowContracts {A : SR K} {dinv b : List K} {d s : Nat → K} {rho : K} (hI : DiagInv A dinv) (hdom : WDominant A.nbrows A.entry d rho) (h0 : 0 ≤ rho) (h1 : rho ≤ 1)
    (hs : Solves A b s) : RowContracts A dinv b s (fun E i v => |v| ≤ E * d i) rho where
  row _ hE _ hi _ hx := relaxVal_wcontract hI hdom hs hE hi hx
  mono _ _ h i hi _ hv := hv.trans (mul_le_mul_of_nonneg_right h (hdom.pos i hi).le)
  nonneg := h0
  le_one := h1

open scoped Matrix.Module in
theorem WBlockDominant.rowContracts {bs : Nat} {A : SR (Matrix (Fin bs) (Fin bs) K)} {dinv : List (Matrix (Fin bs) (Fin bs) K)} {b : List (Fin bs → K)} {d s : Nat → Fin bs → K} {rho : K}
    (hI : DiagInv A dinv) (hdom : WBlockDominant A.nbrows A.entry d rho) (h0 : 0 ≤ rho) (h1 : rho ≤ 1)
    (hs : Solves A b s) : RowContracts A dinv b s (fun E i v => ∀ a, |v a| ≤ E * d i a) rho where
  row E hE i hi x hx a := by
    have h := congrFun (relaxVal_error hI hs hi x) a
    rw [h, Pi.neg_apply, abs_neg, Finset.sum_apply]
    calc |∑ j ∈ (range A.nbrows).erase i, ((dinv⟦i⟧ * A.entry i j) • (x j - s j)) a|
        ≤ ∑ j ∈ (range A.nbrows).erase i, |((dinv⟦i⟧ * A.entry i j) • (x j - s j)) a| := abs_sum_le_sum_abs _ _
      _ ≤ ∑ j ∈ (range A.nbrows).erase i, E * ∑ c, |(dinv⟦i⟧ * A.entry i j) a c| * d j c := by
          refine sum_le_sum fun j hj => ?_
          have e : ((dinv⟦i⟧ * A.entry i j) • (x j - s j)) a = ∑ c, (dinv⟦i⟧ * A.entry i j) a c * (x j - s j) c := rfl
          rw [e, mul_sum]
          refine (abs_sum_le_sum_abs _ _).trans (sum_le_sum fun c _ => ?_)
          rw [abs_mul, mul_left_comm]
          exact mul_le_mul_of_nonneg_left (hx j (mem_range.mp (mem_of_mem_erase hj)) c) (abs_nonneg _)
      _ = E * ∑ j ∈ (range A.nbrows).erase i, ∑ c, |(dinv⟦i⟧ * A.entry i j) a c| * d j c := by rw [mul_sum]
      _ ≤ E * (rho * d i a) := mul_le_mul_of_nonneg_left (hdom.dom i hi _ (hI.left i hi) a) hE
      _ = rho * E * d i a := by ring
  mono E E' h i hi v hv a := (hv a).trans (mul_le_mul_of_nonneg_right h (hdom.pos i hi a).le)
  nonneg := h0
  le_one := h1

/-! ### The objects -/

omit [LinearOrder K] [IsStrictOrderedRing K] in
theorem DiagArray.inv {R : Type} [Ring R] [PInv R] {A : SR R} {dinv : List R} (hA : A.Full) (hS : A.Sorted) (hD : A.HasDiag) (hu : ∀ i < A.nbrows, IsUnit (A.entry i i))
    (h : DiagArray A dinv) : DiagInv A dinv := by
  obtain ⟨ord, g, ho, hg, e⟩ := h
  obtain ⟨d, e', hI⟩ := jacobi_setup_correct hA hS hD ho hu hg (d := none) (by simp)
  rw [e] at e'
  cases e'
  exact hI

theorem JacobiApplies.solved {R M : Type} [Ring R] [AddCommGroup M] [Module R M] {A : SR R} {dinv : List R} (hI : DiagInv A dinv) {r z : List M} (hr : r.length = A.nbrows)
    (h : JacobiApplies A dinv r z) : z.length = A.nbrows ∧ ∀ i < A.nbrows, A.entry i i • z⟦i⟧ = r⟦i⟧ := by
  obtain ⟨ord, z₀, ho, hz, e⟩ := h
  obtain ⟨z', e', h⟩ := jacobi_apply_correct hI ho hr hz
  rw [e] at e'
  cases e'
  exact h

theorem SgsApplies.solved {R M : Type} [Ring R] [AddCommGroup M] [Module R M] {A : SR R} {dinv : List R} (hA : A.Full) (hS : A.Sorted) (hD : A.HasDiag) (hI : DiagInv A dinv) {threads : Bool}
    {k : Nat} {init : ApplyInit} (hk : 1 ≤ k) (hk' : threads = true → A.nbrows ≤ k) {r z : List M} (hr : r.length = A.nbrows) (h : SgsApplies threads k init A dinv r z) :
    z.length = A.nbrows ∧ ∀ i < A.nbrows, ∑ j ∈ range A.nbrows, sgsMat A dinv i j • z⟦j⟧ = r⟦i⟧ := by
  obtain ⟨ord, z₀, y, y', ho, hz, hy, h⟩ := h
  refine SgsOutcome.solved hA hS hD hI hr ?_
  split at h
  · rename_i ht
    obtain ⟨mix, hm, h⟩ := h
    exact .async k hk (hk' ht) init mix hm ord ho z₀ y y' hz hy h
  · exact .sequential k hk init ord ho z₀ y y' hz hy h

/-- The numbers of sweeps suffice: at least one where there are sweeps, and for SGS with several threads as many as (block) rows. -/
def RelaxSweeps (threads : Bool) (n : Nat) : Prec → Prop
  | .asyncSgs s _ _ | .asyncBlockSgs _ _ s _ _ => 1 ≤ s ∧ (threads = true → (n : Int) ≤ s)
  | .cscBgs s _ => 1 ≤ s
  | _ => True

/-- **C90**, **C76** For a matrix that is strictly diagonally dominant with some weights, every application of a Jacobi, SGS or column-oriented Gauss-Seidel object with enough sweeps contracts the error. -/
theorem relax_object_contracts {threads : Bool} {q : Prec} {A : SR K} {f : PrecFun K} (hA : A.Full) (hS : A.Sorted) (hD : A.HasDiag) {d : Nat → K} {rho : K}
    (hdom : WDominant A.nbrows A.entry d rho) (h0 : 0 ≤ rho) (h1 : rho ≤ 1) (hq : RelaxSweeps threads A.nbrows q) (h : RelaxRuns threads q A f) (k : Nat) (r z : List K)
    (hr : r.length = A.nbrows) (hz : z.length = A.nbrows) : ∃ z', f k r z = .ok z' ∧ z'.length = A.nbrows ∧ Contracting A.nbrows A.entry d rho r z' := by
  have hu : ∀ i < A.nbrows, IsUnit (A.entry i i) := fun i hi => (hdom.diag i hi).isUnit
  unfold RelaxRuns at h
  split at h
  · obtain ⟨dinv, hd, h⟩ := h
    have hI := hd.inv hA hS hD hu
    obtain ⟨z', e, hz'⟩ := h k r z hr hz
    obtain ⟨hl, hz'⟩ := hz'.solved hI hr
    refine ⟨z', e, hl, fun er he c hc hb i hi => ?_⟩
    have := (hdom.rowContracts hI h0 h1 (b := r) (s := er) he).jacobi hI hc (fun i hi => by rw [zero_sub, abs_neg]; exact hb i hi) hz' i hi
    rw [abs_sub_comm, mul_comm c]
    exact this
  · obtain ⟨dinv, hd, h⟩ := h
    have hI := hd.inv hA hS hD hu
    obtain ⟨z', e, hz'⟩ := h k r z hr hz
    obtain ⟨hl, hz'⟩ := hz'.solved hA hS hD hI (by have := hq.1; omega) (fun ht => by have := hq.2 ht; omega) hr
    refine ⟨z', e, hl, fun er he c hc hb i hi => ?_⟩
    have := (hdom.rowContracts hI h0 h1 (b := r) (s := er) he).sgs hA hS hD hI hr hc (fun i hi => by rw [zero_sub, abs_neg]; exact hb i hi) hz' i hi
    rw [abs_sub_comm, mul_comm c]
    exact this
  · rename_i sw _
    obtain ⟨dinv, c, ⟨ord, g, srt, gptr, gind, gvals, gdiag, o1, o2, o3, o4, o5, o6, o7, e1⟩, h⟩ := h
    obtain ⟨dinv', c', e2, hI, hC⟩ := csc_bgs_compute_correct hA hS hD hdom.diag o1 o2 (d := none) (by simp) o3 o4 o5 o6 o7
    rw [e1] at e2
    cases e2
    obtain ⟨z', e, ord0, ord', g', z₀, p1, p2, p3, p4, p5⟩ := h k r z hr hz
    obtain ⟨z'', e3, hl, hz'⟩ := csc_bgs_apply_correct hC hI (k := sw.toNat) (by have : 1 ≤ sw := hq; omega) p1 p2 p3 hr p4
    rw [p5] at e3
    cases e3
    refine ⟨z', e, hl, fun er he c hc hb i hi => ?_⟩
    have := (hdom.rowContracts hI h0 h1 (b := r) (s := er) he).upper hI hc (fun i hi => by rw [zero_sub, abs_neg]; exact hb i hi) hz' i hi
    rw [abs_sub_comm, mul_comm c]
    exact this
  · exact h.elim

omit [IsStrictOrderedRing K] in
open scoped Matrix.Module in
/-- Numbers and blocks: a bound for the segments is one for the array. -/
theorem contracting_of_segs {bs : Nat} (hbs : 0 < bs) {stor : Stor} {A : SR K} (hA : A.Full (bs * bs)) {d : Nat → K} {rho : K} {r : List K} (hr : r.length = A.nbrows * bs)
    {z : List (Fin bs → K)} (hz : z.length = A.nbrows)
    (h : ∀ s : Nat → Fin bs → K, Solves (A.blocks stor bs) (segs bs r) s → ∀ c, 0 ≤ c → (∀ i < A.nbrows, ∀ a, |(0 - s i) a| ≤ c * d (i * bs + a)) →
      ∀ i < A.nbrows, ∀ a, |(z⟦i⟧ - s i) a| ≤ rho * c * d (i * bs + a)) :
    Contracting (A.nbrows * bs) (A.bentry stor bs) d rho r (unsegs z) := by
  intro e he c hc hb I hI
  have hlt : ∀ i < A.nbrows, ∀ a : Fin bs, i * bs + a < A.nbrows * bs := fun i hi a => by
    have := Nat.mul_le_mul_right bs (show i + 1 ≤ A.nbrows from hi)
    rw [Nat.succ_mul] at this
    have := a.2
    omega
  have hres : Solves (A.blocks stor bs) (segs bs r) fun i a => e (i * bs + a) := by
    intro i hi
    funext a
    rw [get0_segs hbs hr hi, ← he _ (hlt i hi a), sum_range_mul_blocks, Finset.sum_apply]
    refine Finset.sum_congr rfl fun j _ => ?_
    rw [← Fin.sum_univ_eq_sum_range (fun b => A.bentry stor bs (i * bs + a) (j * bs + b) * e (j * bs + b))]
    show ∑ b, (A.blocks stor bs).entry i j a b * e (j * bs + b) = _
    exact Finset.sum_congr rfl fun b _ => by rw [SR.blocks_entry hA hi]
  have hq : I = I / bs * bs + I % bs := by rw [Nat.mul_comm]; exact (Nat.div_add_mod I bs).symm
  have hI' : I / bs < A.nbrows := Nat.div_lt_of_lt_mul (by rwa [Nat.mul_comm])
  have := h _ hres c hc (fun i hi a => by
    show |0 - e (i * bs + a)| ≤ _
    rw [zero_sub, abs_neg]
    exact hb _ (hlt i hi a)) (I / bs) hI' ⟨I % bs, Nat.mod_lt _ hbs⟩
  rw [Pi.sub_apply, ← get0_unsegs z (by omega) ⟨I % bs, Nat.mod_lt _ hbs⟩] at this
  dsimp only at this
  rw [← hq] at this
  rw [abs_sub_comm, mul_comm c]
  exact this

/-- The block size and storage order of a block object. -/
def Prec.blockShape : Prec → Option (Nat × Stor)
  | .bjacobi bs stor | .asyncBlockSgs bs stor _ _ _ => some (bs, stor)
  | _ => none

/-- **C90** The same for block Jacobi and block SGS objects. -/
theorem block_relax_object_contracts {threads : Bool} {q : Prec} {bs : Nat} {stor : Stor} (hbs : 0 < bs) (hq : q.blockShape = some (bs, stor)) {A : SR K} {f : PrecFun K}
    (hA : A.Full (bs * bs)) (hS : A.Sorted) (hD : A.HasDiag) {d : Nat → K} {rho : K}
    (hdom : WDominant (A.nbrows * bs) (A.bentry stor bs) d rho) (h0 : 0 ≤ rho) (h1 : rho < 1) (hsw : RelaxSweeps threads A.nbrows q) (h : BlockRelaxRuns threads q A f) (k : Nat) (r z : List K)
    (hr : r.length = A.nbrows * bs) (hz : z.length = A.nbrows * bs) :
    ∃ z', f k r z = .ok z' ∧ z'.length = A.nbrows * bs ∧ Contracting (A.nbrows * bs) (A.bentry stor bs) d rho r z' := by
  have hF := hA.blocks (stor := stor) hbs
  have hS' : (A.blocks stor bs).Sorted := hS
  have hD' := hD.blocks (stor := stor) (bs := bs)
  have hdom' := hdom.blocks hA h1
  have hr' : (segs bs r).length = (A.blocks stor bs).nbrows := length_segs hbs hr
  unfold BlockRelaxRuns at h
  split at h
  · cases hq
    obtain ⟨dinv, hd, h⟩ := h
    have hI := hd.inv hF hS' hD' hdom'.diag
    obtain ⟨z', e, hz'⟩ := h k r z hr hz
    obtain ⟨hl, hz'⟩ := hz'.solved hI hr'
    refine ⟨_, e, by rw [length_unsegs, hl]; rfl, contracting_of_segs hbs hA hr hl fun s hs c hc hb => ?_⟩
    exact (WBlockDominant.rowContracts hI hdom' h0 h1.le hs).jacobi hI hc hb hz'
  · cases hq
    obtain ⟨dinv, hd, h⟩ := h
    have hI := hd.inv hF hS' hD' hdom'.diag
    obtain ⟨z', e, hz'⟩ := h k r z hr hz
    obtain ⟨hl, hz'⟩ := hz'.solved hF hS' hD' hI (by have := hsw.1; omega) (fun ht => by have := hsw.2 ht; show A.nbrows ≤ _; omega) hr'
    refine ⟨_, e, by rw [length_unsegs, hl]; rfl, contracting_of_segs hbs hA hr hl fun s hs c hc hb => ?_⟩
    exact (WBlockDominant.rowContracts hI hdom' h0 h1.le hs).sgs hF hS' hD' hI hr' hc hb hz'
  · exact h.elim

end dom

/-! ### The program -/

section prog
variable {K : Type} [Field K] [LinearOrder K] [IsStrictOrderedRing K]

/-- The initialisations for applications that have a name on the command line. -/
def applyWords3 : List (String × ApplyInit) := [("init_zero", .zero), ("init_jacobi", .jacobi), ("init_none", .none)]

/-- What the words on the command line mean for a Jacobi or Gauss-Seidel preconditioner with block size 1. -/
def relaxMeaning (p : ProgParams K) (a : ApplyInit) : Prec :=
  if p.precontype = "jacobi" then .jacobi
  else if p.precontype = "sgs" then .asyncSgs p.napplysweeps a p.threadchunksize
  else .cscBgs p.napplysweeps p.threadchunksize

/-- What they mean with blocks. -/
def blockRelaxMeaning (p : ProgParams K) (bs : Nat) (a : ApplyInit) : Prec :=
  if p.precontype = "jacobi" then .bjacobi bs (orderOf p.storageorder)
  else .asyncBlockSgs bs (orderOf p.storageorder) p.napplysweeps a p.threadchunksize

omit [Field K] [LinearOrder K] [IsStrictOrderedRing K] in
theorem prog_relax_object (p : ProgParams K) (info : Bool) (hp : p.precontype ∈ ["jacobi", "sgs", "cscbgs"]) (hf : p.factinittype ∈ factInitWords) {a : ApplyInit}
    (ha : (p.applyinittype, a) ∈ applyWords3) :
    ∃ o, progSettings 1 info p = .ok o ∧ createPreconditioner (.async o) = .ok (relaxMeaning p a) := by
  obtain ⟨f, h2⟩ := factInit_good hf
  have h3 : getApplyInitFromString p.applyinittype = .ok a := by
    simp only [applyWords3, List.mem_cons, Prod.mk.injEq, List.not_mem_nil, or_false] at ha
    rcases ha with ⟨e, rfl⟩ | ⟨e, rfl⟩ | ⟨e, rfl⟩ <;> rw [e] <;> rfl
  simp only [List.mem_cons, List.not_mem_nil, or_false] at hp
  unfold progSettings relaxMeaning
  rcases hp with e | e | e <;> rw [e] <;> exact ⟨_, by rw [show solverTypeFromString _ = .ok _ from rfl, ok_bind, h2, ok_bind, h3, ok_bind], rfl⟩

omit [Field K] [LinearOrder K] [IsStrictOrderedRing K] in
theorem prog_block_relax_object (p : ProgParams K) (info : Bool) (hp : p.precontype ∈ ["jacobi", "sgs"]) (hf : p.factinittype ∈ factInitWords) {a : ApplyInit}
    (ha : (p.applyinittype, a) ∈ applyWords3) :
    ∃ o, progSettings 4 info p = .ok o ∧ createPreconditioner (.async o) = .ok (blockRelaxMeaning p 4 a) := by
  obtain ⟨f, h2⟩ := factInit_good hf
  have h3 : getApplyInitFromString p.applyinittype = .ok a := by
    simp only [applyWords3, List.mem_cons, Prod.mk.injEq, List.not_mem_nil, or_false] at ha
    rcases ha with ⟨e, rfl⟩ | ⟨e, rfl⟩ | ⟨e, rfl⟩ <;> rw [e] <;> rfl
  simp only [List.mem_cons, List.not_mem_nil, or_false] at hp
  unfold progSettings blockRelaxMeaning orderOf
  rcases hp with e | e <;> rw [e] <;> by_cases ho : p.storageorder = "rowmajor" <;> simp only [ho, if_true, if_false] <;>
    exact ⟨_, by rw [show solverTypeFromString _ = .ok _ from rfl, ok_bind, h2, ok_bind, h3, ok_bind], rfl⟩

/-- The surroundings provide Jacobi and Gauss-Seidel objects: for the matrix of the file, in sorted CSR format with a full diagonal, an object of class `q` can be computed, and it behaves as described. -/
def ProvidesRelax (E : SolveProgEnv K) (threads : Bool) (q : Prec) (n : Nat) (es : List (Nat × Nat × K)) : Prop :=
  ∀ A : SR K, A.Full → A.Sorted → A.HasDiag → A.nbrows = n → (∀ i < n, ∀ j, A.entry i j = fileEntry es i j) → ∃ f, E.object q A = .ok f ∧ RelaxRuns threads q A f

/-- The same in sorted BSR format with all diagonal blocks. -/
def ProvidesBlockRelax (E : SolveProgEnv K) (threads : Bool) (q : Prec) (stor : Stor) (bs n : Nat) (es : List (Nat × Nat × K)) : Prop :=
  ∀ A : SR K, A.Full (bs * bs) → A.Sorted → A.HasDiag → A.nbrows * bs = n → (∀ i < n, ∀ j, A.bentry stor bs i j = fileEntry es i j) →
    ∃ f, E.object q A = .ok f ∧ BlockRelaxRuns threads q A f

omit [IsStrictOrderedRing K] in
theorem WDominant.same {n : Nat} {S T : Nat → Nat → K} {d : Nat → K} {rho : K} (h : WDominant n S d rho) (e : ∀ i < n, ∀ j, T i j = S i j) : WDominant n T d rho :=
  ⟨h.pos, fun i hi => by rw [e i hi]; exact h.diag i hi, fun i hi => by
    rw [e i hi, Finset.sum_congr rfl fun j _ => by rw [e i hi j]]
    exact h.dom i hi⟩

theorem ProvidesRelax.contraction {E : SolveProgEnv K} {threads : Bool} {p : ProgParams K} {n : Nat} {es : List (Nat × Nat × K)} (hp : p.precontype ∈ ["jacobi", "sgs", "cscbgs"])
    (hf : p.factinittype ∈ factInitWords) {a : ApplyInit} (ha : (p.applyinittype, a) ∈ applyWords3) (hsw : RelaxSweeps threads n (relaxMeaning p a))
    (hobj : ProvidesRelax E threads (relaxMeaning p a) n es) {d : Nat → K} {rho : K} (hdom : WDominant n (fileEntry es) d rho) (h0 : 0 ≤ rho) (h1 : rho < 1) :
    ProvidesContraction E 1 p n es d rho := by
  obtain ⟨o, e1, e2⟩ := prog_relax_object p E.info hp hf ha
  refine ⟨o, _, e1, e2, fun A hA => ?_⟩
  obtain ⟨hF, hS, hD⟩ := hA.sorted (.one es) hdom.diag
  have hn : A.nbrows = n := by have := hA.rows; omega
  have hent : ∀ i < n, ∀ j, A.entry i j = fileEntry es i j := hA.view.entry
  subst hn
  obtain ⟨F, g1, g2⟩ := hobj A hF hS hD rfl hent
  refine ⟨F, g1, fun k r z hr hz => ?_⟩
  obtain ⟨z', k1, k2, k3⟩ := relax_object_contracts hF hS hD (hdom.same hent) h0 h1.le hsw g2 k r z hr hz
  refine ⟨z', k1, k2, fun e he => k3 e fun i hi => ?_⟩
  rw [← he i hi]
  exact Finset.sum_congr rfl fun j _ => by rw [hent i hi]

theorem ProvidesBlockRelax.contraction {E : SolveProgEnv K} {threads : Bool} {p : ProgParams K} {n : Nat} {es : List (Nat × Nat × K)} (htouch : BlocksTouched 4 es)
    (hp : p.precontype ∈ ["jacobi", "sgs"]) (hf : p.factinittype ∈ factInitWords) {a : ApplyInit} (ha : (p.applyinittype, a) ∈ applyWords3)
    (hsw : RelaxSweeps threads (n / 4) (blockRelaxMeaning p 4 a)) (hobj : ProvidesBlockRelax E threads (blockRelaxMeaning p 4 a) (orderOf p.storageorder) 4 n es) {d : Nat → K} {rho : K}
    (hdom : WDominant n (fileEntry es) d rho) (h0 : 0 ≤ rho) (h1 : rho < 1) : ProvidesContraction E 4 p n es d rho := by
  obtain ⟨o, e1, e2⟩ := prog_block_relax_object p E.info hp hf ha
  refine ⟨o, _, e1, e2, fun A hA => ?_⟩
  obtain ⟨hF, hS, hD⟩ := hA.sorted htouch hdom.diag
  have hent : ∀ i < n, ∀ j, A.bentry (orderOf p.storageorder) 4 i j = fileEntry es i j := fun i hi j => hA.bentry hi j
  have hn := hA.rows
  obtain ⟨F, g1, g2⟩ := hobj A hF hS hD hn hent
  have hnb : A.nbrows = n / 4 := by omega
  subst hn
  rw [← hnb] at hsw
  refine ⟨F, g1, fun k r z hr hz => ?_⟩
  obtain ⟨z', k1, k2, k3⟩ := block_relax_object_contracts (bs := 4) (stor := orderOf p.storageorder) (by decide) (by unfold blockRelaxMeaning; split <;> rfl) hF hS hD (hdom.same hent) h0 h1
    hsw g2 k r z hr hz
  refine ⟨z', k1, k2, fun e he => k3 e fun i hi => ?_⟩
  rw [← he i hi]
  exact Finset.sum_congr rfl fun j _ => by rw [hent i hi]

/-- **C90** With Jacobi, symmetric Gauss-Seidel and column-oriented Gauss-Seidel preconditioners, in CSR format, the program solves every (weighted) strictly diagonally dominant system in the files. -/
theorem solve_program_relax_converges [Archimedean K] {E : SolveProgEnv K} {p : ProgParams K} {n : Nat} {es : List (Nat × Nat × K)} {vs : List K} (h : SolveFiles E p n es vs)
    (hvs : vs.length = n) (hs : SqrtOk E.sqrt) (hsched : ProgSched E 1 n) (hmat : p.mattype ≠ "bsr") (hsolver : p.solvertype = "richardson")
    (hp : p.precontype ∈ ["jacobi", "sgs", "cscbgs"]) (hf : p.factinittype ∈ factInitWords) {a : ApplyInit} (ha : (p.applyinittype, a) ∈ applyWords3)
    {threads : Bool} (hsw : RelaxSweeps threads n (relaxMeaning p a)) (hobj : ProvidesRelax E threads (relaxMeaning p a) n es) {d : Nat → K} {rho : K}
    (hdom : WDominant n (fileEntry es) d rho) (h0 : 0 ≤ rho) (h1 : rho < 1) (hb : ∃ i < n, vs⟦i⟧ ≠ 0) (ht : 0 < p.tol) (hx : p.x_file = "NONE") :
    ∃ m0 : Nat, ∀ maxiter : Int, m0 < maxiter → ∃ info x, solveMain E { p with maxiter := maxiter } = .ok (some (info, x, none)) ∧ info.iters ≤ m0 ∧
      x.length = n ∧ fileResid2 n es vs x < p.tol ^ 2 * norm2 n vs :=
  solve_program_contracting_converges h (.inl ⟨hmat, rfl⟩) (.inl rfl) hvs hs hsched hsolver (hobj.contraction hp hf ha hsw hdom h0 h1) hdom h0 h1 hb ht hx

/-- **C90** The same in BSR format with block size 4, for block Jacobi and block SGS, if every block has an entry in its first row. -/
theorem solve_program_block_relax_converges [Archimedean K] {E : SolveProgEnv K} {p : ProgParams K} {n : Nat} {es : List (Nat × Nat × K)} {vs : List K} (h : SolveFiles E p n es vs)
    (hvs : vs.length = n) (hs : SqrtOk E.sqrt) (hsched : ProgSched E 4 n) (hmat : p.mattype = "bsr") (hbs : p.blocksize = 4) (hn : n % 4 = 0)
    (hord : p.storageorder = "rowmajor" ∨ p.storageorder = "colmajor") (htouch : BlocksTouched 4 es) (hsolver : p.solvertype = "richardson")
    (hp : p.precontype ∈ ["jacobi", "sgs"]) (hf : p.factinittype ∈ factInitWords) {a : ApplyInit} (ha : (p.applyinittype, a) ∈ applyWords3)
    {threads : Bool} (hsw : RelaxSweeps threads (n / 4) (blockRelaxMeaning p 4 a)) (hobj : ProvidesBlockRelax E threads (blockRelaxMeaning p 4 a) (orderOf p.storageorder) 4 n es)
    {d : Nat → K} {rho : K} (hdom : WDominant n (fileEntry es) d rho) (h0 : 0 ≤ rho) (h1 : rho < 1) (hb : ∃ i < n, vs⟦i⟧ ≠ 0) (ht : 0 < p.tol) (hx : p.x_file = "NONE") :
    ∃ m0 : Nat, ∀ maxiter : Int, m0 < maxiter → ∃ info x, solveMain E { p with maxiter := maxiter } = .ok (some (info, x, none)) ∧ info.iters ≤ m0 ∧
      x.length = n ∧ fileResid2 n es vs x < p.tol ^ 2 * norm2 n vs :=
  solve_program_contracting_converges h (.inr ⟨hmat, hbs, rfl⟩) (.inr ⟨by decide, hn, hord⟩) hvs hs hsched hsolver (hobj.contraction htouch hp hf ha hsw hdom h0 h1) hdom h0 h1 hb ht hx

/-- **C90** With these preconditioners the program passes its own test against a file with the exact solution, if its tolerance is small enough. -/
theorem solve_program_relax_passes [Archimedean K] {E : SolveProgEnv K} {p : ProgParams K} {n : Nat} {es : List (Nat × Nat × K)} {vs : List K} (h : SolveFiles E p n es vs)
    (hvs : vs.length = n) (hs : SqrtOk E.sqrt) (hsched : ProgSched E 1 n) (hmat : p.mattype ≠ "bsr") (hsolver : p.solvertype = "richardson")
    (hp : p.precontype ∈ ["jacobi", "sgs", "cscbgs"]) (hf : p.factinittype ∈ factInitWords) {a : ApplyInit} (ha : (p.applyinittype, a) ∈ applyWords3)
    {threads : Bool} (hsw : RelaxSweeps threads n (relaxMeaning p a)) (hobj : ProvidesRelax E threads (relaxMeaning p a) n es) {d : Nat → K} {rho : K}
    (hdom : WDominant n (fileEntry es) d rho) (h0 : 0 ≤ rho) (h1 : rho < 1) (hb : ∃ i < n, vs⟦i⟧ ≠ 0) (hx : p.x_file ≠ "NONE") {ans : List K}
    (hans : HoldsArray E p.x_file ans) (hal : n ≤ ans.length) (hsol : ∀ i < n, ∑ j ∈ range n, fileEntry es i j * ans⟦j⟧ = vs⟦i⟧) (htt : 0 < p.testtol) :
    ∃ tol0 > 0, ∀ tol, 0 < tol → tol ≤ tol0 → ∃ m0 : Nat, ∀ maxiter : Int, m0 < maxiter →
      ∃ info x v, solveMain E { p with tol := tol, maxiter := maxiter } = .ok (some (info, x, some v)) ∧ info.iters ≤ m0 ∧ x.length = n ∧
        fileResid2 n es vs x < tol ^ 2 * norm2 n vs ∧ v ^ 2 = ∑ i ∈ range n, (x⟦i⟧ - ans⟦i⟧) ^ 2 ∧ v < p.testtol :=
  solve_program_contracting_passes h (.inl ⟨hmat, rfl⟩) (.inl rfl) hvs hs hsched hsolver (hobj.contraction hp hf ha hsw hdom h0 h1) hdom h0 h1 hb hx hans hal hsol htt

/-- **C90** The same with blocks. -/
theorem solve_program_block_relax_passes [Archimedean K] {E : SolveProgEnv K} {p : ProgParams K} {n : Nat} {es : List (Nat × Nat × K)} {vs : List K} (h : SolveFiles E p n es vs)
    (hvs : vs.length = n) (hs : SqrtOk E.sqrt) (hsched : ProgSched E 4 n) (hmat : p.mattype = "bsr") (hbs : p.blocksize = 4) (hn : n % 4 = 0)
    (hord : p.storageorder = "rowmajor" ∨ p.storageorder = "colmajor") (htouch : BlocksTouched 4 es) (hsolver : p.solvertype = "richardson")
    (hp : p.precontype ∈ ["jacobi", "sgs"]) (hf : p.factinittype ∈ factInitWords) {a : ApplyInit} (ha : (p.applyinittype, a) ∈ applyWords3)
    {threads : Bool} (hsw : RelaxSweeps threads (n / 4) (blockRelaxMeaning p 4 a)) (hobj : ProvidesBlockRelax E threads (blockRelaxMeaning p 4 a) (orderOf p.storageorder) 4 n es)
    {d : Nat → K} {rho : K} (hdom : WDominant n (fileEntry es) d rho) (h0 : 0 ≤ rho) (h1 : rho < 1) (hb : ∃ i < n, vs⟦i⟧ ≠ 0) (hx : p.x_file ≠ "NONE") {ans : List K}
    (hans : HoldsArray E p.x_file ans) (hal : n ≤ ans.length) (hsol : ∀ i < n, ∑ j ∈ range n, fileEntry es i j * ans⟦j⟧ = vs⟦i⟧) (htt : 0 < p.testtol) :
    ∃ tol0 > 0, ∀ tol, 0 < tol → tol ≤ tol0 → ∃ m0 : Nat, ∀ maxiter : Int, m0 < maxiter →
      ∃ info x v, solveMain E { p with tol := tol, maxiter := maxiter } = .ok (some (info, x, some v)) ∧ info.iters ≤ m0 ∧ x.length = n ∧
        fileResid2 n es vs x < tol ^ 2 * norm2 n vs ∧ v ^ 2 = ∑ i ∈ range n, (x⟦i⟧ - ans⟦i⟧) ^ 2 ∧ v < p.testtol :=
  solve_program_contracting_passes h (.inr ⟨hmat, hbs, rfl⟩) (.inr ⟨by decide, hn, hord⟩) hvs hs hsched hsolver (hobj.contraction htouch hp hf ha hsw hdom h0 h1) hdom h0 h1 hb hx
    hans hal hsol htt

omit [IsStrictOrderedRing K] in
/-- The objects run by one thread exist for dominant matrices, and behave as described. -/
theorem seqRelaxObject_provides {E : SolveProgEnv K} {g : Nat → K} {gi : Nat → Nat} {srt : List (CSEntry K) → List (CSEntry K)} (hE : E.object = seqRelaxObject g gi srt) {q : Prec} {n : Nat} (hsrt : SortsByRow srt)
    (hq : q = .jacobi ∨ (∃ s i c, q = .asyncSgs s i c ∧ 1 ≤ s) ∨ ∃ s c, q = .cscBgs s c ∧ 1 ≤ s)
    {es : List (Nat × Nat × K)} (hdiag : ∀ i < n, fileEntry es i i ≠ 0) : ProvidesRelax E false q n es := by
  intro A hA hS hD hrows hent
  subst hrows
  have hu : ∀ i < A.nbrows, IsUnit (A.entry i i) := fun i hi => by rw [hent i hi]; exact (hdiag i hi).isUnit
  have hl : ((List.range A.nbrows).map g).length = A.nbrows := by rw [List.length_map, List.length_range]
  obtain ⟨dinv, e, hI⟩ := jacobi_setup_correct hA hS hD (.refl _) hu hl (d := none) (by simp)
  have hda : DiagArray A dinv := ⟨_, _, .refl _, hl, e⟩
  rw [hE]
  rcases hq with rfl | ⟨s, i, c, rfl, hs⟩ | ⟨s, c, rfl, hs⟩
  · refine ⟨fun _ b z => jacobiApply A.nbrows dinv (List.range A.nbrows) b z, ?_, dinv, hda, fun k r z hr hz => ?_⟩
    · unfold seqRelaxObject
      dsimp only
      rw [e]
      rfl
    · obtain ⟨z', e', -⟩ := jacobi_apply_correct hI (.refl _) hr hz
      exact ⟨z', e', _, z, .refl _, hz, e'⟩
  · refine ⟨fun _ b z => (sgsApply A dinv s.toNat i (fun _ => List.range A.nbrows) b z ((List.range A.nbrows).map g)).bind fun zy => .ok zy.1, ?_, dinv, hda, fun k r z hr hz => ?_⟩
    · unfold seqRelaxObject
      dsimp only
      rw [e]
      rfl
    · obtain ⟨z', y', e', -⟩ := sgs_apply_correct hA hS hD hI (k := s.toNat) (by omega) (init := i) (ord := fun _ => List.range A.nbrows) (fun _ => .refl _) hr hz hl
      exact ⟨z', by dsimp only; rw [e']; rfl, _, z, _, y', fun _ => .refl _, hz, hl, by rw [if_neg (by decide)]; exact e'⟩
  · have hlen : A.nbrows < A.browptr.length := by have := hA.ptr_len; omega
    obtain ⟨dv, cc, e2, hI2, hC⟩ := csc_bgs_compute_correct hA hS hD (fun i hi => (hu i hi).ne_zero) (.refl _) hl (d := none) (by simp) hsrt
      (gptr := (List.range (A.nbrows + 1)).map gi) (gind := (List.range A.browptr⟦A.nbrows⟧).map gi) (gvals := (List.range A.browptr⟦A.nbrows⟧).map g)
      (gdiag := (List.range A.nbrows).map fun i => (gi i : Int)) (by simp) (by simp) (by simp) (by simp)
    refine ⟨fun _ b z => cscBgsApply cc dv s.toNat (List.range A.nbrows) (fun _ => List.range A.nbrows) ((List.range A.nbrows).map g) b z, ?_, dv, cc,
      ⟨_, _, srt, _, _, _, _, .refl _, hl, hsrt, by simp, by simp, by simp, by simp, e2⟩, fun k r z hr hz => ?_⟩
    · unfold seqRelaxObject
      dsimp only
      rw [rd_eq hlen, ok_bind, e2]
      rfl
    · obtain ⟨z', e', -⟩ := csc_bgs_apply_correct hC hI2 (k := s.toNat) (by omega) (.refl _) (ord := fun _ => List.range A.nbrows) (fun _ => .refl _) hl hr hz
      exact ⟨z', e', _, _, _, z, .refl _, fun _ => .refl _, hl, hz, e'⟩

open scoped Matrix.Module in
/-- The same for block objects. -/
theorem seqBlockRelaxObject_provides {E : SolveProgEnv K} {g : Nat → K} {gi : Nat → Nat} {srt : List (CSEntry K) → List (CSEntry K)} (hE : E.object = seqRelaxObject g gi srt) {stor : Stor} {bs : Nat} (hbs : 0 < bs) {q : Prec} {n : Nat}
    (hq : q = .bjacobi bs stor ∨ ∃ s i c, q = .asyncBlockSgs bs stor s i c ∧ 1 ≤ s) {es : List (Nat × Nat × K)} {d : Nat → K} {rho : K}
    (hdom : WDominant n (fileEntry es) d rho) (h1 : rho < 1) : ProvidesBlockRelax E false q stor bs n es := by
  intro A hA hS hD hrows hent
  subst hrows
  have hF := hA.blocks (stor := stor) hbs
  have hS' : (A.blocks stor bs).Sorted := hS
  have hD' := hD.blocks (stor := stor) (bs := bs)
  have hu := ((hdom.same hent).blocks hA h1).diag
  have hl : ((List.range A.nbrows).map fun k => (Matrix.of fun a c => g (k * (bs * bs) + stor.off bs a c) : Matrix (Fin bs) (Fin bs) K)).length = (A.blocks stor bs).nbrows := by
    rw [List.length_map, List.length_range]; rfl
  have hl2 : ((List.range A.nbrows).map fun i (a : Fin bs) => g (i * bs + a)).length = (A.blocks stor bs).nbrows := by rw [List.length_map, List.length_range]; rfl
  obtain ⟨dinv, e, hI⟩ := jacobi_setup_correct hF hS' hD' (.refl _) hu hl (d := none) (by simp)
  have hda : DiagArray (A.blocks stor bs) dinv := ⟨_, _, .refl _, hl, e⟩
  change jacobiCompute (A.blocks stor bs) (List.range A.nbrows) _ _ = _ at e
  rw [hE]
  rcases hq with rfl | ⟨s, i, c, rfl, hs⟩
  · refine ⟨fun _ b z => (jacobiApply A.nbrows dinv (List.range A.nbrows) (segs bs b) (segs bs z)).bind fun z' => .ok (unsegs z'), ?_, dinv, hda, fun k r z hr hz => ?_⟩
    · unfold seqRelaxObject
      dsimp only
      rw [e]
      rfl
    · obtain ⟨z', e', -⟩ := jacobi_apply_correct hI (.refl _) (length_segs hbs hr) (length_segs hbs hz)
      exact ⟨z', by change jacobiApply A.nbrows dinv (List.range A.nbrows) _ _ = _ at e'; dsimp only; rw [e']; rfl, _, _, .refl _, length_segs hbs hz, e'⟩
  · refine ⟨fun _ b z => (sgsApply (A.blocks stor bs) dinv s.toNat i (fun _ => List.range A.nbrows) (segs bs b) (segs bs z) ((List.range A.nbrows).map fun i (a : Fin bs) => g (i * bs + a))).bind
      fun zy => .ok (unsegs zy.1), ?_, dinv, hda, fun k r z hr hz => ?_⟩
    · unfold seqRelaxObject
      dsimp only
      rw [e]
      rfl
    · obtain ⟨z', y', e', -⟩ := sgs_apply_correct hF hS' hD' hI (k := s.toNat) (by omega) (init := i) (ord := fun _ => List.range A.nbrows) (fun _ => .refl _) (length_segs hbs hr) (length_segs hbs hz) hl2
      exact ⟨z', by dsimp only; rw [e']; rfl, _, _, _, y', fun _ => .refl _, length_segs hbs hz, hl2, by rw [if_neg (by decide)]; exact e'⟩

/-- **C90** With one thread nothing is assumed about the preconditioner: with `jacobi`, `sgs` and `cscbgs` the program, with the code of the library, solves every (weighted) strictly diagonally dominant system in the files, in CSR format. -/
theorem solve_program_one_thread_relax_converges [Archimedean K] {E : SolveProgEnv K} {g : Nat → K} {gi : Nat → Nat} {srt : List (CSEntry K) → List (CSEntry K)} (hE : E.object = seqRelaxObject g gi srt) {p : ProgParams K} {n : Nat} {es : List (Nat × Nat × K)}
    {vs : List K} (h : SolveFiles E p n es vs) (hvs : vs.length = n) (hs : SqrtOk E.sqrt) (hsched : ProgSched E 1 n) (hmat : p.mattype ≠ "bsr") (hsolver : p.solvertype = "richardson")
    (hsrt : SortsByRow srt)
    (hp : p.precontype ∈ ["jacobi", "sgs", "cscbgs"]) (hn : 1 ≤ p.napplysweeps) (hf : p.factinittype ∈ factInitWords) (ha : p.applyinittype ∈ applyInitWords) {d : Nat → K} {rho : K}
    (hdom : WDominant n (fileEntry es) d rho) (h0 : 0 ≤ rho) (h1 : rho < 1) (hb : ∃ i < n, vs⟦i⟧ ≠ 0) (ht : 0 < p.tol) (hx : p.x_file = "NONE") :
    ∃ m0 : Nat, ∀ maxiter : Int, m0 < maxiter → ∃ info x, solveMain E { p with maxiter := maxiter } = .ok (some (info, x, none)) ∧ info.iters ≤ m0 ∧
      x.length = n ∧ fileResid2 n es vs x < p.tol ^ 2 * norm2 n vs := by
  obtain ⟨a, ha⟩ : ∃ a, (p.applyinittype, a) ∈ applyWords3 := by
    simp only [applyInitWords, List.mem_cons, List.not_mem_nil, or_false] at ha
    rcases ha with e | e | e <;> rw [e]
    · exact ⟨.zero, by decide⟩
    · exact ⟨.jacobi, by decide⟩
    · exact ⟨.none, by decide⟩
  have hm : relaxMeaning p a = .jacobi ∨ relaxMeaning p a = .asyncSgs p.napplysweeps a p.threadchunksize ∨ relaxMeaning p a = .cscBgs p.napplysweeps p.threadchunksize := by
    unfold relaxMeaning
    split
    · exact .inl rfl
    · split
      · exact .inr (.inl rfl)
      · exact .inr (.inr rfl)
  refine solve_program_relax_converges h hvs hs hsched hmat hsolver hp hf ha (threads := false) ?_ ?_ hdom h0 h1 hb ht hx
  · rcases hm with e | e | e <;> rw [e]
    · trivial
    · exact ⟨hn, by simp⟩
    · exact hn
  · refine seqRelaxObject_provides hE hsrt ?_ hdom.diag
    rcases hm with e | e | e
    · exact .inl e
    · exact .inr (.inl ⟨_, _, _, e, hn⟩)
    · exact .inr (.inr ⟨_, _, e, hn⟩)

/-- **C90** The same in BSR format with block size 4. -/
theorem solve_program_one_thread_block_relax_converges [Archimedean K] {E : SolveProgEnv K} {g : Nat → K} {gi : Nat → Nat} {srt : List (CSEntry K) → List (CSEntry K)} (hE : E.object = seqRelaxObject g gi srt) {p : ProgParams K} {n : Nat}
    {es : List (Nat × Nat × K)} {vs : List K} (h : SolveFiles E p n es vs) (hvs : vs.length = n) (hs : SqrtOk E.sqrt) (hsched : ProgSched E 4 n)
    (hmat : p.mattype = "bsr") (hbs : p.blocksize = 4) (hn4 : n % 4 = 0) (hord : p.storageorder = "rowmajor" ∨ p.storageorder = "colmajor") (htouch : BlocksTouched 4 es)
    (hsolver : p.solvertype = "richardson") (hp : p.precontype ∈ ["jacobi", "sgs"]) (hn : 1 ≤ p.napplysweeps) (hf : p.factinittype ∈ factInitWords) (ha : p.applyinittype ∈ applyInitWords)
    {d : Nat → K} {rho : K} (hdom : WDominant n (fileEntry es) d rho) (h0 : 0 ≤ rho) (h1 : rho < 1) (hb : ∃ i < n, vs⟦i⟧ ≠ 0) (ht : 0 < p.tol) (hx : p.x_file = "NONE") :
    ∃ m0 : Nat, ∀ maxiter : Int, m0 < maxiter → ∃ info x, solveMain E { p with maxiter := maxiter } = .ok (some (info, x, none)) ∧ info.iters ≤ m0 ∧
      x.length = n ∧ fileResid2 n es vs x < p.tol ^ 2 * norm2 n vs := by
  obtain ⟨a, ha⟩ : ∃ a, (p.applyinittype, a) ∈ applyWords3 := by
    simp only [applyInitWords, List.mem_cons, List.not_mem_nil, or_false] at ha
    rcases ha with e | e | e <;> rw [e]
    · exact ⟨.zero, by decide⟩
    · exact ⟨.jacobi, by decide⟩
    · exact ⟨.none, by decide⟩
  have hm : blockRelaxMeaning p 4 a = .bjacobi 4 (orderOf p.storageorder) ∨ blockRelaxMeaning p 4 a = .asyncBlockSgs 4 (orderOf p.storageorder) p.napplysweeps a p.threadchunksize := by
    unfold blockRelaxMeaning
    split
    · exact .inl rfl
    · exact .inr rfl
  refine solve_program_block_relax_converges h hvs hs hsched hmat hbs hn4 hord htouch hsolver hp hf ha (threads := false) ?_ ?_ hdom h0 h1 hb ht hx
  · rcases hm with e | e <;> rw [e]
    · trivial
    · exact ⟨hn, by simp⟩
  · refine seqBlockRelaxObject_provides hE (by decide) ?_ hdom h1
    rcases hm with e | e
    · exact .inl e
    · exact .inr ⟨_, _, _, e, hn⟩

end prog

/-! ### Examples -/

/-- The hypotheses of `solve_program_one_thread_relax_converges` (and with them those of `solve_program_relax_converges`) can be met, with each of the words. -/
example (w : String) (hw : w ∈ ["jacobi", "sgs", "cscbgs"]) : ∃ m0 : Nat, ∀ maxiter : Int, m0 < maxiter → ∃ info x,
    solveMain (exProgEnv (seqRelaxObject (fun _ => 5) (fun _ => 6) isortRow)) { exProgParams "A" "b" "NONE" with precontype := w, maxiter := maxiter } = .ok (some (info, x, none)) ∧
      info.iters ≤ m0 ∧ x.length = 2 ∧ fileResid2 2 [((1 : Nat), (1 : Nat), (2 : ℝ)), (1, 2, 1), (2, 1, 1), (2, 2, 2)] [3, 3] x < (1 / 100) ^ 2 * norm2 2 [(3 : ℝ), 3] :=
  solve_program_one_thread_relax_converges (p := { exProgParams "A" "b" "NONE" with precontype := w }) (E := exProgEnv (seqRelaxObject (fun _ => 5) (fun _ => 6) isortRow)) (g := fun _ => 5)
    (gi := fun _ => 6) (srt := isortRow) rfl (exProgFiles _ _ rfl rfl (exProg_vec _).1) rfl real_sqrt_ok (exProg_sched _) (by show "csr" ≠ "bsr"; decide) rfl isortRow_sorts hw le_rfl
    (by simp [factInitWords, exProgParams]) (by simp [applyInitWords, exProgParams]) exProg_dom (by norm_num) (by norm_num) ⟨0, by decide, by simp [get0]⟩ (by norm_num [exProgParams]) rfl

/-- The hypotheses of `solve_program_one_thread_block_relax_converges` (and with them those of `solve_program_block_relax_converges`) can be met. -/
example (w order : String) (hw : w ∈ ["jacobi", "sgs"]) (ho : order = "rowmajor" ∨ order = "colmajor") : ∃ m0 : Nat, ∀ maxiter : Int, m0 < maxiter → ∃ info x,
    solveMain (exBlkEnv (seqRelaxObject (fun _ => 5) (fun _ => 6) isortRow)) { exBlkParams order "NONE" with precontype := w, maxiter := maxiter } = .ok (some (info, x, none)) ∧ info.iters ≤ m0 ∧
      x.length = 8 ∧ fileResid2 8 exBlkEntries [4, 4, 4, 4, 5, 4, 4, 4] x < (1 / 100) ^ 2 * norm2 8 [(4 : ℝ), 4, 4, 4, 5, 4, 4, 4] :=
  have h := exBlkFiles (seqRelaxObject (fun _ => 5) (fun _ => 6) isortRow) order "NONE"
  solve_program_one_thread_block_relax_converges (p := { exBlkParams order "NONE" with precontype := w }) (E := exBlkEnv (seqRelaxObject (fun _ => 5) (fun _ => 6) isortRow)) (g := fun _ => 5)
    (gi := fun _ => 6) (srt := isortRow) rfl ⟨h.size, h.sort, h.mat, h.rhs, h.rows, h.distinct⟩ rfl real_sqrt_ok (exBlk_sched _) rfl rfl rfl ho exBlk_touched rfl hw le_rfl
    (by simp [factInitWords, exProgParams, exBlkParams]) (by simp [applyInitWords, exProgParams, exBlkParams]) exBlk_dom (by norm_num) (by norm_num)
    ⟨0, by decide, by simp [get0]⟩ (by norm_num [exProgParams, exBlkParams]) rfl

/-- The hypotheses of `solve_program_relax_passes` can be met. -/
example : ∃ tol0 > 0, ∀ tol, 0 < tol → tol ≤ tol0 → ∃ m0 : Nat, ∀ maxiter : Int, m0 < maxiter → ∃ info x v,
    solveMain (exProgEnv (seqRelaxObject (fun _ => 5) (fun _ => 6) isortRow)) { exProgParams "A" "b" "x" with precontype := "jacobi", tol := tol, maxiter := maxiter } =
      .ok (some (info, x, some v)) ∧ info.iters ≤ m0 ∧ x.length = 2 ∧ fileResid2 2 [((1 : Nat), (1 : Nat), (2 : ℝ)), (1, 2, 1), (2, 1, 1), (2, 2, 2)] [3, 3] x < tol ^ 2 * norm2 2 [(3 : ℝ), 3] ∧
      v ^ 2 = ∑ i ∈ range 2, (x⟦i⟧ - [(1 : ℝ), 1]⟦i⟧) ^ 2 ∧ v < 1 / 10 :=
  solve_program_relax_passes (p := { exProgParams "A" "b" "x" with precontype := "jacobi" }) (E := exProgEnv (seqRelaxObject (fun _ => 5) (fun _ => 6) isortRow))
    (exProgFiles _ _ rfl rfl (exProg_vec _).1) rfl real_sqrt_ok (exProg_sched _) (by show "csr" ≠ "bsr"; decide) rfl (by show "jacobi" ∈ ["jacobi", "sgs", "cscbgs"]; decide)
    (by simp [factInitWords, exProgParams]) (a := .zero) (by simp [applyWords3, exProgParams]) (threads := false) trivial
    (seqRelaxObject_provides rfl isortRow_sorts (.inl rfl) exProg_dom.diag) exProg_dom
    (by norm_num) (by norm_num) ⟨0, by decide, by simp [get0]⟩ (by show "x" ≠ "NONE"; decide) (exProg_vec _).2.1 (by decide)
    (by intro i hi; interval_cases i <;> simp [fileEntry, Finset.sum_range_succ, get0] <;> norm_num) (by norm_num [exProgParams])

/-- The hypotheses of `solve_program_block_relax_passes` can be met. -/
example (order : String) (ho : order = "rowmajor" ∨ order = "colmajor") : ∃ tol0 > 0, ∀ tol, 0 < tol → tol ≤ tol0 → ∃ m0 : Nat, ∀ maxiter : Int, m0 < maxiter → ∃ info x v,
    solveMain (exBlkEnv (seqRelaxObject (fun _ => 5) (fun _ => 6) isortRow)) { exBlkParams order "x" with precontype := "jacobi", tol := tol, maxiter := maxiter } =
      .ok (some (info, x, some v)) ∧ info.iters ≤ m0 ∧ x.length = 8 ∧ fileResid2 8 exBlkEntries [4, 4, 4, 4, 5, 4, 4, 4] x < tol ^ 2 * norm2 8 [(4 : ℝ), 4, 4, 4, 5, 4, 4, 4] ∧
      v ^ 2 = ∑ i ∈ range 8, (x⟦i⟧ - [(1 : ℝ), 1, 1, 1, 1, 1, 1, 1]⟦i⟧) ^ 2 ∧ v < 1 / 10 :=
  have h := exBlkFiles (seqRelaxObject (fun _ => 5) (fun _ => 6) isortRow) order "x"
  solve_program_block_relax_passes (p := { exBlkParams order "x" with precontype := "jacobi" }) (E := exBlkEnv (seqRelaxObject (fun _ => 5) (fun _ => 6) isortRow))
    ⟨h.size, h.sort, h.mat, h.rhs, h.rows, h.distinct⟩ rfl real_sqrt_ok (exBlk_sched _) rfl rfl rfl ho exBlk_touched rfl (by show "jacobi" ∈ ["jacobi", "sgs"]; decide)
    (by simp [factInitWords, exProgParams, exBlkParams]) (a := .zero) (by simp [applyWords3, exProgParams, exBlkParams]) (threads := false) trivial
    (seqBlockRelaxObject_provides rfl (by decide) (.inl rfl) exBlk_dom (by norm_num)) exBlk_dom
    (by norm_num) (by norm_num) ⟨0, by decide, by simp [get0]⟩ (by show "x" ≠ "NONE"; decide) (exBlk_vec _).2 (by decide)
    (by intro i hi; interval_cases i <;> simp [fileEntry, exBlkEntries, Finset.sum_range_succ, get0]; norm_num) (by norm_num [exProgParams, exBlkParams])

end Blasted
