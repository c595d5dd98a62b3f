import Verif.Relax.PetscModel
import Verif.Relax.Props
import Verif.Factory.StackProps

/-!
# The Richardson callback for PETSc (C70)
-/

namespace Blasted

open Finset

variable {R M K : Type}

section
variable [Ring R] [AddCommGroup M] [Module R M] [Field K] [LinearOrder K]

/-- Specification: `x'` is what `k` steps of the relaxation of this class make of `x`. For the asynchronous classes the outcome is one of those of
`k` (Gauss-Seidel) or `2 k` (symmetric Gauss-Seidel) asynchronous sweeps. -/
def IsRelaxed (o : RelaxObj R M K) (b x x' : List M) (k : Nat) : Prec → Prop
  | .jacobi | .bjacobi .. => ∀ i < o.A.nbrows, x'⟦i⟧ = jacobiIter o.A o.dinv b (get0 x) k i
  | .chaotic .. | .blockChaotic .. => AsyncChaoticRelax o.A o.dinv o.mix k b x x'
  | .asyncSgs .. | .asyncBlockSgs .. => AsyncSgsRelax o.A o.dinv o.mix k b x x'
  | .levelSgs | .levelBsgs .. => SymmetricGSs o.A b k (get0 x) (get0 x')
  | _ => False

/-- The object is set up: a matrix with sorted rows and diagonal entries, their inverses and correct levels. -/
structure RelaxObj.Ready (o : RelaxObj R M K) : Prop where
  full : o.A.Full
  sorted : o.A.Sorted
  diag : o.A.HasDiag
  inv : DiagInv o.A o.dinv
  levels : LevelsOk o.A o.levels
  mix : MixOk o.mix

omit [Ring R] [Module R M] [Field K] [LinearOrder K] in
theorem petscGuess_length (g : Bool) (x : List M) : (petscGuess g x).length = x.length := by
  unfold petscGuess; split <;> simp

/-- `k` asynchronous sweeps keep the length. -/
theorem AsyncChaoticRelax.length {A : SR R} {dinv : List R} {mix : Set M → Set M} {k : Nat} {b x x' : List M}
    (h : AsyncChaoticRelax A dinv mix k b x x') : x'.length = x.length := by
  rcases h with ⟨_, rfl⟩ | ⟨log, last, _, rfl⟩
  · rfl
  · simp

theorem AsyncSgsRelax.length {A : SR R} {dinv : List R} {mix : Set M → Set M} {k : Nat} {b x x' : List M}
    (h : AsyncSgsRelax A dinv mix k b x x') : x'.length = x.length := by
  rcases h with ⟨_, rfl⟩ | ⟨log, last, _, rfl⟩
  · rfl
  · simp

/-- **C70** For every class that offers a relaxation, every execution of the Richardson callback returns normally, makes exactly the `it` steps of
the relaxation it was asked for, starting from zero if PETSc says so and from the given vector otherwise, whatever the tolerances, and reports `it` iterations. -/
theorem petsc_richardson_correct (o : RelaxObj R M K) (ho : o.Ready) {prec : Prec} (hp : prec.relaxationAvailable = true)
    (rtol abstol dtol : K) (it : Int) (guesszero : Bool) {b x : List M} (hb : b.length = o.A.nbrows)
    (hx : x.length = o.A.nbrows) {res : C (RichardsonOut M)}
    (h : PetscRichardson o prec rtol abstol dtol it guesszero b x res) :
    ∃ x', res = .ok ⟨x', it, true⟩ ∧ x'.length = o.A.nbrows ∧
      IsRelaxed o b (if guesszero then List.replicate o.A.nbrows 0 else x) x' it.toNat prec := by
  obtain ⟨r, hr, rfl⟩ := h
  have hg : petscGuess guesszero x = if guesszero then List.replicate o.A.nbrows 0 else x := by
    unfold petscGuess; rw [hx]
  have hgl : (petscGuess guesszero x).length = o.A.nbrows := by rw [petscGuess_length, hx]
  rw [← hg]
  have jac : ∀ (ord : Nat → List Nat) (g : List M), (∀ t, (ord t).Perm (List.range o.A.nbrows)) →
      g.length = o.A.nbrows → ∃ x', jacobiRelax o.sqrt o.sq (petscRelaxParams rtol abstol dtol it) o.A o.dinv b ord g
        (petscGuess guesszero x) = .ok x' ∧ x'.length = o.A.nbrows ∧
        ∀ i < o.A.nbrows, x'⟦i⟧ = jacobiIter o.A o.dinv b (get0 (petscGuess guesszero x)) it.toNat i := by
    intro ord g hord hgg
    obtain ⟨x', T, e, hl, _, hi, hT, _⟩ := jacobi_relax_correct (sqrt := o.sqrt) (sq := o.sq)
      (p := petscRelaxParams rtol abstol dtol it) ho.full ho.sorted ho.diag ho.inv hb hord hgg hgl
    have hT' : T = it.toNat := hT rfl
    exact ⟨x', e, hl, hT' ▸ hi⟩
  cases hr with
  | jacobi ord g hord hgg =>
    obtain ⟨x', e, hl, hi⟩ := jac ord g hord hgg
    exact ⟨x', by rw [e, ok_bind], hl, hi⟩
  | bjacobi bs stor ord g hord hgg =>
    obtain ⟨x', e, hl, hi⟩ := jac ord g hord hgg
    exact ⟨x', by rw [e, ok_bind], hl, hi⟩
  | chaotic k c x' h => exact ⟨x', rfl, h.length.trans hgl, h⟩
  | blockChaotic bs stor k c x' h => exact ⟨x', rfl, h.length.trans hgl, h⟩
  | sgs k i c x' h => exact ⟨x', rfl, h.length.trans hgl, h⟩
  | blockSgs bs stor k i c x' h => exact ⟨x', rfl, h.length.trans hgl, h⟩
  | levelSgs x' h =>
    have := level_sgs_relax_async ho.full ho.sorted ho.diag ho.inv hb ho.levels ho.mix hgl h
    exact ⟨x', rfl, this.1, this.2⟩
  | levelBsgs bs stor x' h =>
    have := level_sgs_relax_async ho.full ho.sorted ho.diag ho.inv hb ho.levels ho.mix hgl h
    exact ⟨x', rfl, this.1, this.2⟩
  | cscBgs | ilu | levelIlu | blockIlu | levelBlockIlu | noPrec => simp [Prec.relaxationAvailable] at hp

theorem jacobiIter_fixed {A : SR R} {dinv : List R} {b : List M} (hI : DiagInv A dinv) {x : Nat → M} (hs : Solves A b x) (t : Nat) :
    ∀ i < A.nbrows, jacobiIter A dinv b x t i = x i := by
  induction t with
  | zero => exact fun _ _ => rfl
  | succ t ih =>
    intro i hi
    rw [jacobiIter, relaxVal_congr ih, ← (solves_iff hI).mp hs i hi]

/-- **C70** A solution handed to the callback as initial guess comes back unchanged, from every execution. -/
theorem petsc_richardson_fixed (o : RelaxObj R M K) (ho : o.Ready) {prec : Prec} (hp : prec.relaxationAvailable = true)
    (rtol abstol dtol : K) (it : Int) {b x : List M} (hb : b.length = o.A.nbrows)
    (hx : x.length = o.A.nbrows) (hs : Solves o.A b (get0 x)) {res : C (RichardsonOut M)}
    (h : PetscRichardson o prec rtol abstol dtol it false b x res) : res = .ok ⟨x, it, true⟩ := by
  obtain ⟨x', rfl, hl, hr⟩ := petsc_richardson_correct o ho hp rtol abstol dtol it false hb hx h
  suffices x' = x by rw [this]
  rw [if_neg (by simp)] at hr
  cases prec <;> first | simp [Prec.relaxationAvailable] at hp; done | skip
  case jacobi | bjacobi =>
    exact ext_get0 (by omega) fun i hi => (hr i (by omega)).trans (jacobiIter_fixed ho.inv hs _ i (by omega))
  case chaotic | blockChaotic => exact chaotic_relax_fixed_async ho.full ho.sorted ho.diag ho.inv hb ho.mix hx hs hr
  case asyncSgs | asyncBlockSgs => exact sgs_relax_fixed_async ho.full ho.sorted ho.diag ho.inv hb ho.mix hx hs hr
  case levelSgs | levelBsgs =>
    exact ext_get0 (by omega) fun i hi => SymmetricGSs.fixed ho.inv hr hs i (by omega)

/-- **C70** The other classes: all throw, except the identity preconditioner. -/
theorem petsc_richardson_unavailable (o : RelaxObj R M K) {prec : Prec} (hp : prec.relaxationAvailable = false)
    (rtol abstol dtol : K) (it : Int) (guesszero : Bool) (b x : List M) {res : C (RichardsonOut M)} :
    PetscRichardson o prec rtol abstol dtol it guesszero b x res ↔
      (prec.method = .identity ∧ res = .ok ⟨if guesszero then List.replicate x.length 0 else x, it, true⟩) ∨
      (prec.method ≠ .identity ∧ res = .error (.throw "std::runtime_error"
        (if prec.method = .columnGS then "CSC_BGS relaxation not implemented!" else "ILU relaxation not implemented!"))) := by
  unfold PetscRichardson
  constructor
  · rintro ⟨r, hr, rfl⟩
    cases hr <;> first | simp [Prec.relaxationAvailable] at hp; done | skip
    case noPrec => exact .inl ⟨rfl, rfl⟩
    all_goals exact .inr ⟨by simp [Prec.method], rfl⟩
  · intro h
    cases prec <;> first | simp [Prec.relaxationAvailable] at hp; done | skip
    all_goals simp [Prec.method] at h
    all_goals subst h
    · exact ⟨_, .cscBgs _ _, rfl⟩
    · exact ⟨_, .ilu _, rfl⟩
    · exact ⟨_, .levelIlu _, rfl⟩
    · exact ⟨_, .blockIlu _ _ _, rfl⟩
    · exact ⟨_, .levelBlockIlu _ _ _, rfl⟩
    · exact ⟨_, .noPrec _, rfl⟩

/-- Finding: the callback is kept away only from the types `ilu0`, `cscbgs` and `none`. Even if the type were known when the callback is registered, the other incomplete
factorizations (`seqilu0`, `sfilu0`, `sapilu0`, `async_level_ilu0`) would get it, and every call of it throws into PETSc. -/
theorem petsc_richardson_ilu_throws (ctx0 : PetscCtx) (pc : Nat) (matbs : Int) (st : Settings) (p : Prec)
    (ht : st.prectype ∈ [.seqilu0, .sfilu0, .sapilu0, .asyncLevelIlu0]) (hc : ctx0.prectype = st.prectype)
    (h : createPreconditioner (.async st) = .ok p) (o : RelaxObj R M K) (rtol abstol dtol : K) (it : Int)
    (guesszero : Bool) (b x : List M) (res : C (RichardsonOut M)) :
    pc ∈ (setupStack ctx0 (.shell pc "seqaij" matbs) newBlastedDataList).1.richardson ∧
    (PetscRichardson o p rtol abstol dtol it guesszero b x res ↔
      res = .error (.throw "std::runtime_error" "ILU relaxation not implemented!")) := by
  constructor
  · rw [setup_relaxation_from_garbage, hc]
    revert ht
    cases st.prectype <;> decide
  · have hm := (create_preconditioner_correct st p h).1
    have hr : p.relaxationAvailable = false := by
      by_contra hr
      have := (create_relaxation_available st p h).mp (by simpa using hr)
      revert ht this
      cases st.prectype <;> simp
    rw [petsc_richardson_unavailable o hr]
    have : p.method = .ilu ∨ p.method = .levelIlu := by
      revert ht hm
      cases st.prectype <;> simp [SolverType.method] <;> intro h <;> simp [← h]
    rcases this with e | e <;> simp [e]

/-- Finding: the identity preconditioner accepts the call, changes nothing, and reports that the iterations asked for have been made. -/
theorem petsc_richardson_noprec (o : RelaxObj R M K) (bs : Nat) (rtol abstol dtol : K) (it : Int) (b x : List M) :
    PetscRichardson o (.noPrec bs) rtol abstol dtol it false b x (.ok ⟨x, it, true⟩) :=
  ⟨.ok x, .noPrec bs, rfl⟩

end

section scalar
variable [Field K] [LinearOrder K] [IsStrictOrderedRing K]

theorem forwardGS_contract {A : SR K} {dinv b : List K} {rho E : K} {s x y : Nat → K} (hI : DiagInv A dinv) (hdom : Dominant A rho)
    (h1 : rho ≤ 1) (hs : Solves A b s) (hE : 0 ≤ E) (h0 : ∀ i < A.nbrows, |x i - s i| ≤ E)
    (h : ForwardGS A b x y) : ∀ i < A.nbrows, |y i - s i| ≤ rho * E := by
  rw [forwardGS_iff hI] at h
  intro i
  induction i using Nat.strong_induction_on with
  | _ i ih =>
    intro hi
    rw [h i hi]
    refine relaxVal_contract hI hdom hs hE hi fun j hj => ?_
    by_cases hji : j < i
    · rw [if_pos hji]; exact (ih j hji hj).trans (mul_le_of_le_one_left hE h1)
    · rw [if_neg hji]; exact h0 j hj

theorem backwardGS_contract {A : SR K} {dinv b : List K} {rho E : K} {s x y : Nat → K} (hI : DiagInv A dinv) (hdom : Dominant A rho)
    (h1 : rho ≤ 1) (hs : Solves A b s) (hE : 0 ≤ E) (h0 : ∀ i < A.nbrows, |x i - s i| ≤ E)
    (h : BackwardGS A b x y) : ∀ i < A.nbrows, |y i - s i| ≤ rho * E := by
  rw [backwardGS_iff hI] at h
  have key : ∀ d i, i < A.nbrows → A.nbrows - i = d → |y i - s i| ≤ rho * E := by
    intro d
    induction d using Nat.strong_induction_on with
    | _ d ih =>
      intro i hi hd
      rw [h i hi]
      refine relaxVal_contract hI hdom hs hE hi fun j hj => ?_
      by_cases hji : i < j
      · rw [if_pos hji]; exact (ih _ (by omega) j hj rfl).trans (mul_le_of_le_one_left hE h1)
      · rw [if_neg hji]; exact h0 j hj
  exact fun i hi => key _ i hi rfl

theorem symmetricGSs_contract {A : SR K} {dinv b : List K} {rho E : K} {s x x' : Nat → K} (hI : DiagInv A dinv) (hdom : Dominant A rho)
    (hr : 0 ≤ rho) (h1 : rho ≤ 1) (hs : Solves A b s) (hE : 0 ≤ E) (h0 : ∀ i < A.nbrows, |x i - s i| ≤ E) {k : Nat}
    (h : SymmetricGSs A b k x x') : ∀ i < A.nbrows, |x' i - s i| ≤ rho ^ (2 * k) * E := by
  induction h with
  | zero => simpa using h0
  | @succ k x y z w _ h2 h3 ih =>
    have hy := ih h0
    have hz := forwardGS_contract hI hdom h1 hs (mul_nonneg (pow_nonneg hr _) hE) hy h2
    have hw := backwardGS_contract hI hdom h1 hs (mul_nonneg hr (mul_nonneg (pow_nonneg hr _) hE)) hz h3
    intro i hi
    refine (hw i hi).trans_eq ?_
    rw [show 2 * (k + 1) = 2 * k + 1 + 1 from by omega, pow_succ', pow_succ']
    ring

/-- **C70** For a strictly diagonally dominant matrix the callback reduces the largest error by the dominance ratio to the power of the number of
iterations it reports, for every class that offers a relaxation and every execution. -/
theorem petsc_richardson_converges (o : RelaxObj K K K) (ho : o.Ready) (hmix : o.mix = mixWhole) {prec : Prec}
    (hp : prec.relaxationAvailable = true) (rtol abstol dtol : K) (it : Int) {b x : List K} (hb : b.length = o.A.nbrows)
    (hx : x.length = o.A.nbrows) {rho E : K} {s : Nat → K} (hdom : Dominant o.A rho) (hr : 0 ≤ rho) (h1 : rho ≤ 1)
    (hs : Solves o.A b s) (hE : 0 ≤ E) (h0 : ∀ i < o.A.nbrows, |x⟦i⟧ - s i| ≤ E) {res : C (RichardsonOut K)}
    (h : PetscRichardson o prec rtol abstol dtol it false b x res) :
    ∃ out, res = .ok out ∧ ∀ i < o.A.nbrows, |out.x⟦i⟧ - s i| ≤ rho ^ out.outits.toNat * E := by
  obtain ⟨x', rfl, hl, hrel⟩ := petsc_richardson_correct o ho hp rtol abstol dtol it false hb hx h
  refine ⟨_, rfl, fun i hi => ?_⟩
  rw [if_neg (by simp)] at hrel
  have hle : rho ^ (2 * it.toNat) * E ≤ rho ^ it.toNat * E :=
    mul_le_mul_of_nonneg_right (pow_le_pow_of_le_one hr h1 (by omega)) hE
  dsimp only
  cases prec <;> first | simp [Prec.relaxationAvailable] at hp; done | skip
  case jacobi | bjacobi =>
    rw [hrel i hi]
    exact jacobi_converges ho.inv hdom hr hs hE h0 _ i hi
  case chaotic | blockChaotic =>
    have hrel : AsyncChaoticRelax o.A o.dinv o.mix it.toNat b x x' := hrel
    rw [hmix] at hrel
    exact chaotic_converges ho.full ho.sorted ho.diag ho.inv hb hdom hr h1 hs hx hE h0 hrel i hi
  case asyncSgs | asyncBlockSgs =>
    have hrel : AsyncSgsRelax o.A o.dinv o.mix it.toNat b x x' := hrel
    rw [hmix] at hrel
    exact (sgs_relax_converges ho.full ho.sorted ho.diag ho.inv hb hdom hr h1 hs hx hE h0 hrel i hi).trans hle
  case levelSgs | levelBsgs =>
    exact (symmetricGSs_contract ho.inv hdom hr h1 hs hE h0 hrel i hi).trans hle

end scalar

/-- **C70** `computeTotalTimes`: each total is the sum over the contexts of the list, whatever the members of the list were before; in
particular calling it again changes nothing. -/
theorem compute_total_times_correct [AddCommMonoid K] (nodes : List (Times K)) (old : Times K) :
    computeTotalTimes nodes old = ⟨(nodes.map Times.factorwall).sum, (nodes.map Times.applywall).sum,
      (nodes.map Times.factorcpu).sum, (nodes.map Times.applycpu).sum⟩ := by
  have key : ∀ s : Times K, nodes.foldl (fun s nd => (⟨s.factorwall + nd.factorwall, s.applywall + nd.applywall,
      s.factorcpu + nd.factorcpu, s.applycpu + nd.applycpu⟩ : Times K)) s =
      ⟨s.factorwall + (nodes.map Times.factorwall).sum, s.applywall + (nodes.map Times.applywall).sum,
        s.factorcpu + (nodes.map Times.factorcpu).sum, s.applycpu + (nodes.map Times.applycpu).sum⟩ := by
    induction nodes with
    | nil => intro s; simp
    | cons a l ih => intro s; rw [List.foldl_cons, ih]; simp [add_assoc]
  unfold computeTotalTimes
  rw [key]
  simp

/-! ### Concrete cases -/

/-- `exStar` set up for relaxation. -/
def exRelaxObj : RelaxObj ℚ ℚ ℚ := ⟨exStar, [1/2, 1/3, 1/4, 1/9], [0, 3, 4], id, fun v => v * v, mixWhole⟩

theorem exRelaxObj_ready : exRelaxObj.Ready :=
  ⟨exStar_full, exStar_sorted, exStar_diag, exStar_diagInv, exStar_levels, mixOk_whole⟩

/-- Non-vacuity of C70: a call asking for two Jacobi iterations with a tolerance that the first step would meet. -/
example : ∃ res, PetscRichardson exRelaxObj .jacobi 1000 1000 (1/1000) 2 true [3, 4, 5, 12] [7, 7, 7, 7] res ∧
    res.map (fun o => (o.x, o.outits)) = .ok ([5/6, 8/9, 11/12, 95/108], 2) := by
  refine ⟨_, ⟨_, .jacobi (fun _ => [2, 0, 3, 1]) [9, 9, 9, 9] (fun _ => by decide) rfl, rfl⟩, ?_⟩
  decide +kernel

example : PetscRichardson exRelaxObj .jacobi 0 0 0 3 false [3, 4, 5, 12] [1, 1, 1, 1] (.ok ⟨[1, 1, 1, 1], 3, true⟩) := by
  have h : PetscRichardson exRelaxObj .jacobi 0 0 0 3 false [3, 4, 5, 12] [1, 1, 1, 1] _ :=
    ⟨_, .jacobi (fun _ => [2, 0, 3, 1]) [9, 9, 9, 9] (fun _ => by decide) rfl, rfl⟩
  have := petsc_richardson_fixed exRelaxObj exRelaxObj_ready rfl 0 0 0 3 rfl rfl exStar_solves h
  rw [this] at h
  exact h

/-- Ten iterations of any execution of the asynchronous symmetric Gauss-Seidel class on this system, from errors of at most 1, end within `2 ^ -10`
of the solution. -/
example {res : C (RichardsonOut ℚ)} (h : PetscRichardson exRelaxObj (.asyncSgs 1 .zero 1) 0 0 0 10 false [3, 4, 5, 12] [0, 2, 0, 2] res) :
    ∃ out, res = .ok out ∧ ∀ i < 4, |out.x⟦i⟧ - 1| ≤ (1/2) ^ 10 := by
  obtain ⟨out, rfl, ho⟩ := petsc_richardson_converges exRelaxObj exRelaxObj_ready rfl rfl 0 0 0 10 rfl rfl exStar_dominant
    (by norm_num) (by norm_num) exStar_solves (E := 1) (by norm_num)
    (by intro i hi; have : i < 4 := hi; interval_cases i <;> decide +kernel) h
  refine ⟨out, rfl, fun i hi => ?_⟩
  have hout : out.outits = 10 := by
    obtain ⟨x', e, _⟩ := petsc_richardson_correct exRelaxObj exRelaxObj_ready rfl 0 0 0 10 false rfl rfl h
    injection e with e; rw [e]
  have h1 : get0 [1, 1, 1, (1 : ℚ)] i = 1 := by interval_cases i <;> rfl
  have := ho i hi
  rw [hout, h1, mul_one] at this
  exact this

/-- Non-vacuity of `petsc_richardson_ilu_throws`. -/
example : ∃ p, createPreconditioner (.async (sampleSettings .sapilu0 4)) = .ok p ∧
    (sampleSettings .sapilu0 4).prectype ∈ [.seqilu0, .sfilu0, .sapilu0, .asyncLevelIlu0] := ⟨_, rfl, by decide⟩

example : computeTotalTimes [⟨1, 2, 3, 4⟩, (⟨10, 20, 30, 40⟩ : Times ℚ)] ⟨9, 9, 9, 9⟩ = ⟨11, 22, 33, 44⟩ := by decide +kernel

end Blasted
