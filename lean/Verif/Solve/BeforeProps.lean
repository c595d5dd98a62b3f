import Verif.Relax.Model
import Verif.Reorder.IluModel
import Verif.Reorder.Props
import Verif.Solve.Phases

/-!
# Preconditioners that are used before their first `compute` (C84)

A new preconditioner object has null pointers for everything that `compute` allocates; a null pointer is an array without elements.
-/

namespace Blasted

variable {V R M K : Type}

/-- If the computation fails then by undefined behaviour. -/
def OnlyUb {α : Type _} (m : C α) : Prop := ∀ e, m = .error e → e = .ub

theorem OnlyUb.ok {α : Type _} (a : α) : OnlyUb (.ok a) := fun _ h => by cases h

theorem OnlyUb.rd {α : Type _} (a : List α) (i : Nat) : OnlyUb (rd a i) := by
  intro e h
  unfold Blasted.rd at h
  split at h <;> cases h
  rfl

theorem OnlyUb.wr {α : Type _} (a : List α) (i : Nat) (v : α) : OnlyUb (wr a i v) := by
  intro e h
  unfold Blasted.wr at h
  split at h <;> cases h
  rfl

theorem OnlyUb.bind {α β : Type _} {m : C α} {f : α → C β} (h1 : OnlyUb m) (h2 : ∀ a, OnlyUb (f a)) : OnlyUb (m >>= f) := by
  intro e h
  cases hm : m with
  | ok a => rw [hm, ok_bind] at h; exact h2 a e h
  | error x => rw [hm, error_bind] at h; cases h; exact h1 _ hm

theorem OnlyUb.forList {ι σ : Type _} (l : List ι) {body : ι → σ → C σ} (h : ∀ i s, OnlyUb (body i s)) (s : σ) : OnlyUb (forList l body s) := by
  induction l generalizing s with
  | nil => rw [forList_nil]; exact .ok s
  | cons i l ih => rw [forList_cons]; exact (h i s).bind ih

theorem OnlyUb.rowSum [Add M] [SMul R M] (colind : List Nat) (vals : List R) (lo hi : Nat) (x : List M) (s : M) :
    OnlyUb (rowSum colind vals lo hi (Blasted.rd x) s) := by
  refine OnlyUb.forList _ (fun jj s => ?_) s
  exact OnlyUb.bind ((OnlyUb.rd _ _).bind fun v => (OnlyUb.rd _ _).bind fun c => (OnlyUb.rd _ _).bind fun xj => .ok _) fun t => .ok _

/-- A row update that fails by undefined behaviour for every row and every vector. -/
def AlwaysUb (upd : Nat → (Nat → C M) → C M) (x : List M) : Prop := ∀ i, updRow upd i x = .error .ub

theorem forList_ub {ι σ : Type _} {l : List ι} (hl : l ≠ []) {body : ι → σ → C σ} {s : σ} (h : ∀ i ∈ l, body i s = .error .ub) :
    forList l body s = .error .ub := by
  cases l with
  | nil => exact absurd rfl hl
  | cons i l => rw [forList_cons, h i (List.mem_cons_self ..), error_bind]

theorem forRange_ub {σ : Type _} {n : Nat} (hn : 0 < n) {body : Nat → σ → C σ} {s : σ} (h : ∀ i, body i s = .error .ub) :
    forRange 0 n body s = .error .ub := by
  refine forList_ub ?_ fun i _ => h i
  intro e
  have := congrArg List.length e
  simp at this
  omega

theorem forDown_ub {σ : Type _} {n : Nat} (hn : 0 < n) {body : Nat → σ → C σ} {s : σ} (h : ∀ i, body i s = .error .ub) :
    forDown 0 n body s = .error .ub := by
  refine forList_ub ?_ fun i _ => h i
  intro e
  have := congrArg List.length e
  simp at this
  omega

theorem parFor_ub {σ : Type _} {n : Nat} (hn : 0 < n) {ord : List Nat} (ho : ord.Perm (List.range n)) {body : Nat → σ → C σ} {s : σ}
    (h : ∀ i, body i s = .error .ub) : parFor n ord body s = .error .ub := by
  rw [parFor_eq ho]
  refine forList_ub ?_ fun i _ => h i
  rintro rfl
  have := ho.length_eq
  simp at this
  omega

/-- Level 0 of a level schedule has rows, and its loop comes first. -/
theorem levelUp_ub {upd : Nat → (Nat → C M) → C M} {x : List M} (h : AlwaysUb upd x) {levels : List Nat} (hl : 2 ≤ levels.length)
    (h0 : levels⟦0⟧ < levels⟦1⟧) {sched : Nat → List Nat → List Nat} (hs : ∀ t rows, (sched t rows).Perm rows) :
    levelUp upd levels sched x = .error .ub := by
  unfold levelUp
  obtain ⟨m, hm⟩ : ∃ m, levels.length - 1 = m + 1 := ⟨levels.length - 2, by omega⟩
  rw [hm]
  unfold forRange
  rw [Nat.sub_zero, List.range'_succ, forList_cons, rd_eq (by omega), ok_bind, rd_eq (by omega), ok_bind, forList_ub, error_bind]
  · intro e
    have := (hs 0 (List.range' levels⟦0⟧ (levels⟦0 + 1⟧ - levels⟦0⟧))).length_eq
    rw [e] at this
    simp at this
    omega
  · intro i _
    exact h i

section kernels
variable [Zero M] [Add M] [Sub M] [SMul R M]

theorem fgsRow_before (A : SR R) (rhs : List M) (x : List M) : AlwaysUb (fgsRow A ([] : List R) rhs) x := by
  intro i
  unfold updRow fgsRow
  cases h1 : rd A.browptr i with
  | error e => rw [OnlyUb.rd _ _ _ h1]; rfl
  | ok lo =>
    cases h2 : rd A.diagind i with
    | error e => rw [OnlyUb.rd _ _ _ h2]; rfl
    | ok d => rfl

theorem relaxRow_before (A : SR R) (rhs : List M) (x : List M) : AlwaysUb (relaxRow A ([] : List R) rhs) x := by
  intro i
  unfold updRow relaxRow
  cases h1 : rd A.browptr i with
  | error e => rw [OnlyUb.rd _ _ _ h1]; rfl
  | ok lo =>
    cases h2 : rd A.diagind i with
    | error e => rw [OnlyUb.rd _ _ _ h2]; rfl
    | ok d =>
      cases h3 : rd A.browptr (i + 1) with
      | error e => rw [OnlyUb.rd _ _ _ h3]; rfl
      | ok hi => rfl

theorem unitLowerRow_before (A : SR V) (ilu : List R) (rhs : List M) : AlwaysUb (unitLowerRow A ilu rhs) [] := by
  intro i
  have h : OnlyUb (updRow (unitLowerRow A ilu rhs) i []) := by
    unfold updRow unitLowerRow
    exact OnlyUb.bind ((OnlyUb.rd _ _).bind fun lo => (OnlyUb.rd _ _).bind fun d => (OnlyUb.rd _ _).bind fun b =>
      (OnlyUb.rowSum _ _ _ _ _ _).bind fun s => .ok _) fun v => .wr _ _ _
  cases hm : updRow (unitLowerRow A ilu rhs) i [] with
  | error e => rw [h e hm]
  | ok a =>
    exfalso
    unfold updRow at hm
    cases hv : unitLowerRow A ilu rhs i (rd []) with
    | error e => rw [hv, error_bind] at hm; cases hm
    | ok v => rw [hv, ok_bind, wr_ub (by simp)] at hm; cases hm

end kernels

section
variable [Zero M] [Add M] [Sub M] [SMul R M]

omit [Zero M] [Add M] [Sub M] in
/-- **C84** Applying a (block) Jacobi preconditioner before its first `compute` reads through a null pointer, for every matrix that is not empty. -/
theorem jacobi_apply_before_compute {n : Nat} (hn : 0 < n) {ord : List Nat} (ho : ord.Perm (List.range n)) (r z : List M) :
    jacobiApply n ([] : List R) ord r z = .error .ub :=
  parFor_ub hn ho fun i => by rw [rd_ub (by simp), error_bind]

/-- **C84** Applying a (block) SGS preconditioner before its first `compute`, with an initialization of the vectors or at least one sweep. -/
theorem sgs_apply_before_compute {A : SR R} (hn : 0 < A.nbrows) {k : Nat} {init : ApplyInit} (hk : init ≠ .none ∨ 0 < k) {ord : Nat → List Nat}
    (ho : ∀ t, (ord t).Perm (List.range A.nbrows)) (r z : List M) : sgsApply A ([] : List R) k init ord r z [] = .error .ub := by
  unfold sgsApply
  have hy : init ≠ .none → sgsInitY A.nbrows init (ord 0) ([] : List M) = .error .ub := by
    intro h
    unfold sgsInitY applyInitY
    cases init with
    | none => exact absurd rfl h
    | zero => exact parFor_ub hn (ho 0) fun i => wr_ub (by simp)
    | jacobi => exact parFor_ub hn (ho 0) fun i => wr_ub (by simp)
  by_cases h : init = .none
  · subst h
    have e : sgsInitY A.nbrows .none (ord 0) ([] : List M) = .ok [] := rfl
    rw [e, ok_bind]
    have hk' : 0 < k := by rcases hk with h | h; exacts [absurd rfl h, h]
    unfold fwdSweeps
    rw [forRange_ub hk' fun t => forRange_ub hn (fgsRow_before A r []), error_bind]
  · rw [hy h, error_bind]

/-- **C84** Applying a level-scheduled SGS preconditioner before its first `compute`. -/
theorem level_sgs_apply_before_compute {A : SR R} {levels : List Nat} (hl : 2 ≤ levels.length) (h0 : levels⟦0⟧ < levels⟦1⟧)
    {sched sched' : Nat → List Nat → List Nat} (hs : ∀ t rows, (sched t rows).Perm rows) (r z : List M) :
    levelSgsApply A ([] : List R) levels sched sched' r z [] = .error .ub := by
  unfold levelSgsApply
  rw [levelUp_ub (fgsRow_before A r []) hl h0 hs, error_bind]

/-- **C84** The relaxations before the first `compute`, with at least one step: Jacobi, chaotic, SGS and level-scheduled SGS, for every contents of the vector. -/
theorem relaxations_before_compute [Field K] [LinearOrder K] {A : SR R} (hn : 0 < A.nbrows) {k : Nat} (hk : 0 < k) (b x : List M) :
    (∀ (sqrt : K → K) (sq : M → K) (p : SolveParams K) (ord : Nat → List Nat) (g : List M), p.maxits = k → (ord 0).Perm (List.range A.nbrows) →
      jacobiRelax sqrt sq p A ([] : List R) b ord g x = .error .ub) ∧
    chaoticRelax A ([] : List R) k b x = .error .ub ∧ sgsRelax A ([] : List R) k b x = .error .ub ∧
    (∀ (levels : List Nat) (sched sched' : Nat → Nat → List Nat → List Nat), 2 ≤ levels.length → levels⟦0⟧ < levels⟦1⟧ →
      (∀ s t rows, (sched s t rows).Perm rows) → levelSgsRelax A ([] : List R) levels sched sched' k b x = .error .ub) := by
  have hrow := relaxRow_before A b x
  refine ⟨?_, ?_, ?_, ?_⟩
  · rintro sqrt sq p ord g rfl ho
    unfold jacobiRelax
    obtain ⟨m, hm⟩ : ∃ m, p.maxits = m + 1 := ⟨p.maxits - 1, by omega⟩
    rw [hm]
    unfold jacobiRelaxLoop
    have : relaxInto A ([] : List R) b x (ord (2 * 0)) g = .error .ub := by
      unfold relaxInto
      refine parFor_ub hn ho fun i => ?_
      have h := hrow i
      unfold updRow at h
      cases hv : relaxRow A ([] : List R) b i (rd x) with
      | error e => rw [hv, error_bind] at h; cases h; rw [error_bind]
      | ok v =>
        exfalso
        unfold relaxRow at hv
        cases h1 : rd A.browptr i with
        | error e => rw [h1] at hv; cases hv
        | ok lo =>
          cases h2 : rd A.diagind i with
          | error e => rw [h1, h2] at hv; cases hv
          | ok d =>
            cases h3 : rd A.browptr (i + 1) with
            | error e => rw [h1, h2, h3] at hv; cases hv
            | ok hi => rw [h1, h2, h3] at hv; cases hv
    rw [this, error_bind]
  · unfold chaoticRelax fwdSweeps
    exact forRange_ub hk fun t => forRange_ub hn hrow
  · unfold sgsRelax
    exact forRange_ub hk fun t => by rw [forRange_ub hn hrow, error_bind]
  · intro levels sched sched' hl h0 hs
    unfold levelSgsRelax
    exact forRange_ub hk fun t => by rw [levelUp_ub hrow hl h0 (hs t), error_bind]

end

theorem applyScaleIn_len {n : Nat} {ord : List Nat} (ho : ord.Perm (List.range n)) {r z : List M} (hr : r.length = n) (hz : z.length = n) :
    Ok (applyScaleIn n none ord r z) fun z' => z'.length = n := by
  unfold applyScaleIn
  rw [parFor_eq ho]
  have : ∀ (l : List Nat) (z : List M), (∀ i ∈ l, i < n) → z.length = n →
      Ok (forList l (fun i z => do let ri ← rd r i; wr z i ri) z) fun z' => z'.length = n := by
    intro l
    induction l with
    | nil => intro z _ hz; rw [forList_nil]; exact Ok.pure hz
    | cons i l ih =>
      intro z hl hz
      have hi := hl i (List.mem_cons_self ..)
      have e : rd r i = .ok r[i] := by unfold rd; rw [List.getElem?_eq_getElem (by omega)]
      rw [forList_cons, e, ok_bind, wr_eq (by omega), ok_bind]
      exact ih _ (fun j hj => hl j (List.mem_cons_of_mem _ hj)) (by simpa using hz)
  exact this ord z (fun i hi => List.mem_range.mp (ho.mem_iff.mp hi)) hz

theorem iluApplyWith_before [Zero M] {lower upper : List M → Nat → (Nat → C M) → C M} (hlow : ∀ z, AlwaysUb (lower z) []) {n : Nat} (hn : 0 < n)
    {k : Nat} {init : ApplyInit} (hk : init ≠ .none ∨ 0 < k) {ord : Nat → List Nat}
    (ho : ∀ t, (ord t).Perm (List.range n)) {r z : List M} (hr : r.length = n) (hz : z.length = n) :
    iluApplyWith lower upper n none k init ord r z [] = .error .ub := by
  unfold iluApplyWith
  obtain ⟨z', e, -⟩ := applyScaleIn_len (ho 0) hr hz
  rw [e, ok_bind]
  by_cases h : init = .none
  · subst h
    have e : applyInitY n .none (ord 1) ([] : List M) = .ok [] := rfl
    rw [e, ok_bind]
    have hk' : 0 < k := by rcases hk with h | h; exacts [absurd rfl h, h]
    unfold fwdSweeps
    rw [forRange_ub hk' fun t => forRange_ub hn (hlow z'), error_bind]
  · have : applyInitY n init (ord 1) ([] : List M) = .error .ub := by
      unfold applyInitY
      cases init with
      | none => exact absurd rfl h
      | zero => exact parFor_ub hn (ho 1) fun i => wr_ub (by simp)
      | jacobi => exact parFor_ub hn (ho 1) fun i => wr_ub (by simp)
    rw [this, error_bind]

open scoped Matrix.Module in
/-- **C84** Applying a scalar or block ILU preconditioner before its first `compute`. -/
theorem ilu_apply_before_compute {bs : Nat} [Field K] [DecidableEq K] {A : SR K} {B : SR (Matrix (Fin bs) (Fin bs) K)} (hn : 0 < A.nbrows)
    (hm : 0 < B.nbrows) {k : Nat} {init : ApplyInit} (hk : init ≠ .none ∨ 0 < k) {ord ord' : Nat → List Nat}
    (ho : ∀ t, (ord t).Perm (List.range A.nbrows)) (ho' : ∀ t, (ord' t).Perm (List.range B.nbrows)) {r z : List K} (hr : r.length = A.nbrows)
    (hz : z.length = A.nbrows) {r' z' : List (Fin bs → K)} (hr' : r'.length = B.nbrows) (hz' : z'.length = B.nbrows) :
    scalarIluApply A [] none k init ord r z [] = .error .ub ∧ blockIluApply B [] none k init ord' r' z' [] = .error .ub :=
  ⟨iluApplyWith_before (fun z => unitLowerRow_before A [] z) hn hk ho hr hz,
   iluApplyWith_before (fun z => unitLowerRow_before B [] z) hm hk ho' hr' hz'⟩

theorem levelIluApplyWith_before [Zero M] {lower upper : List M → Nat → (Nat → C M) → C M} (hlow : ∀ z, AlwaysUb (lower z) []) {n : Nat}
    {levels : List Nat} (hl : 2 ≤ levels.length) (h0 : levels⟦0⟧ < levels⟦1⟧) {sched sched' : Nat → List Nat → List Nat}
    (hs : ∀ t rows, (sched t rows).Perm rows) {ord : Nat → List Nat}
    (ho : ∀ t, (ord t).Perm (List.range n)) {r z : List M} (hr : r.length = n) (hz : z.length = n) :
    levelIluApplyWith lower upper n levels sched sched' none ord r z [] = .error .ub := by
  unfold levelIluApplyWith
  obtain ⟨z', e, -⟩ := applyScaleIn_len (ho 0) hr hz
  rw [e, ok_bind, levelUp_ub (hlow z') hl h0 hs, error_bind]

open scoped Matrix.Module in
/-- **C84** Applying a level-scheduled scalar or block ILU preconditioner before its first `compute`. -/
theorem level_ilu_apply_before_compute {bs : Nat} [Field K] [DecidableEq K] {A : SR K} {B : SR (Matrix (Fin bs) (Fin bs) K)}
    {levels : List Nat} (hl : 2 ≤ levels.length) (h0 : levels⟦0⟧ < levels⟦1⟧) {sched sched' : Nat → List Nat → List Nat}
    (hs : ∀ t rows, (sched t rows).Perm rows) {ord ord' : Nat → List Nat}
    (ho : ∀ t, (ord t).Perm (List.range A.nbrows)) (ho' : ∀ t, (ord' t).Perm (List.range B.nbrows)) {r z : List K} (hr : r.length = A.nbrows)
    (hz : z.length = A.nbrows) {r' z' : List (Fin bs → K)} (hr' : r'.length = B.nbrows) (hz' : z'.length = B.nbrows) :
    levelScalarIluApply A [] none levels sched sched' ord r z [] = .error .ub ∧
    levelBlockIluApply B [] none levels sched sched' ord' r' z' [] = .error .ub :=
  ⟨levelIluApplyWith_before (fun z => unitLowerRow_before A [] z) hl h0 hs ho hr hz,
   levelIluApplyWith_before (fun z => unitLowerRow_before B [] z) hl h0 hs ho' hr' hz'⟩

/-- **C84** The ILU preconditioner on a reordered matrix is different: before its first `compute`, its copy of the matrix is empty and no error is noticed. If
the reordering object has a column ordering, the old contents of the result vector are reordered by it; otherwise they are left as they are. The right-hand
side is not used. Only a row ordering makes the call access memory it does not have. -/
theorem reord_apply_before_compute [Field K] [DecidableEq K] [LinearOrder K] {k : Nat} {init : ApplyInit} (hi : init ≠ .none) {n : Nat} {r : RS K}
    (hcp : r.cp = [] ∨ IsPerm r.cp n) {ords orda : Nat → List Nat} (h0 : ords 0 = []) (h1 : (ords 1).Perm (List.range r.rp.length))
    (h3 : ∀ t, 3 ≤ t → (ords t).Perm (List.range n)) (ha : ∀ t, orda t = []) (ra : List K) {za : List K} (hz : za.length = n) :
    (r.isRowReordering = false → ∃ z st, reordApply k init r {} ords orda ra za [] = .ok (z, st) ∧ z.length = n ∧
      ∀ i < n, z⟦i⟧ = if r.cp = [] then za⟦i⟧ else za⟦r.cp⟦i⟧⟧) ∧
    (r.isRowReordering = true → reordApply k init r {} ords orda ra za [] = .error .ub) := by
  have hap : scalarIluApply (emptyRaw K) [] none k init orda ra za ([] : List K) = .ok (za, []) := by
    unfold scalarIluApply iluApplyWith
    have hp : ∀ t, (orda t).Perm (List.range (emptyRaw K).nbrows) := fun t => by rw [ha]; exact List.Perm.refl _
    have hp0 : ∀ (body : Nat → List K → C (List K)) (t : Nat) (s : List K), parFor (emptyRaw K).nbrows (orda t) body s = .ok s := by
      intro body t s
      rw [parFor_eq (hp t), ha, forList_nil]
    have hf : ∀ upd : Nat → (Nat → C K) → C K, ∀ x, fwdSweeps upd (emptyRaw K).nbrows k x = .ok x := by
      intro upd x
      unfold fwdSweeps
      have : ∀ l : List Nat, forList l (fun _ x => forRange 0 (emptyRaw K).nbrows (updRow upd) x) x = .ok x := by
        intro l
        induction l with
        | nil => rfl
        | cons a l ih => rw [forList_cons]; exact ih
      exact this _
    have hb : ∀ upd : Nat → (Nat → C K) → C K, ∀ x, bwdSweeps upd (emptyRaw K).nbrows k x = .ok x := by
      intro upd x
      unfold bwdSweeps
      have : ∀ l : List Nat, forList l (fun _ x => forDown 0 (emptyRaw K).nbrows (updRow upd) x) x = .ok x := by
        intro l
        induction l with
        | nil => rfl
        | cons a l ih => rw [forList_cons]; exact ih
      exact this _
    have e1 : applyScaleIn (emptyRaw K).nbrows (Option.map scalarSeg (none : Option (List K))) (orda 0) ra za = .ok za := hp0 _ 0 za
    have e2 : applyInitY (emptyRaw K).nbrows init (orda 1) ([] : List K) = .ok [] := by
      unfold applyInitY
      cases init with
      | none => rfl
      | zero => exact hp0 _ 1 []
      | jacobi => exact hp0 _ 1 []
    have e3 : ∀ y, applyInitZ (emptyRaw K).nbrows init (orda 2) y za = .ok za := by
      intro y
      unfold applyInitZ
      cases init with
      | none => exact absurd rfl hi
      | zero => exact hp0 _ 2 za
      | jacobi => exact hp0 _ 2 za
    have e4 : applyScaleOut (emptyRaw K).nbrows (Option.map scalarSeg (none : Option (List K))) (orda 3) za = .ok za := rfl
    rw [e1, ok_bind, e2, ok_bind, hf, ok_bind, e3, ok_bind, hb, ok_bind, e4, ok_bind]
  constructor
  · intro hr
    obtain ⟨v, e, h4, h5⟩ := apply_ordering_vec_correct 1 n r .forward .column hcp (ords 3) (ords 4) (by simpa using h3 3 (by omega)) (h3 4 (by omega)) za
      (by omega)
    refine ⟨v, {}, ?_, by simpa using h4, fun i hi => ?_⟩
    · unfold reordApply reordRhs
      rw [hr]
      simp only [Bool.false_eq_true, if_false, ok_bind]
      show (scalarIluApply (emptyRaw K) [] none k init orda ra za [] >>= _) = _
      rw [hap, ok_bind]
      dsimp only
      rw [e, ok_bind]
      rfl
    · have := h5 i hi 0 (by omega)
      simp only [Nat.mul_one, Nat.add_zero] at this
      rw [this]
      show za⟦at' r.cp i⟧ = _
      unfold at'
      by_cases hc : r.cp = []
      · simp [hc]
      · rw [if_pos (by exact List.length_pos_iff.mpr hc), if_neg hc]
  · intro hr
    unfold reordApply reordRhs
    rw [hr]
    simp only [if_true]
    have hlen : 0 < r.rp.length := by
      unfold RS.isRowReordering at hr
      simp at hr
      omega
    have e1 : parFor (emptyRaw K).nbrows (ords 0) (fun i rb => do let v ← rd ra i; wr rb i v) ([] : List K) = .ok [] := by
      rw [h0]; rfl
    show ((parFor (emptyRaw K).nbrows (ords 0) (fun i rb => do let v ← rd ra i; wr rb i v) ([] : List K) >>= _) >>= _) = _
    rw [e1, ok_bind]
    have e2 : applyOrderingVec 1 r .forward .row (ords 1) (ords 2) ([] : List K) = .error .ub := by
      unfold applyOrderingVec
      simp only [RS.perm]
      simp only [show ¬ r.rp.length ≤ 0 by omega, if_false]
      rw [parFor_ub (by omega) (by simpa using h1) (fun i => by rw [rd_ub (by simp), error_bind]), error_bind]
    rw [e2, error_bind]

/-! ### Concrete cases -/

/-- Two rows, in one level. -/
example : jacobiApply 2 ([] : List ℚ) [1, 0] [(1 : ℚ), 2] [3, 4] = .error .ub := jacobi_apply_before_compute (by decide) (by decide) _ _

/-- A diagonal matrix with two rows. -/
def exDiag2 : SR ℚ := { browptr := [0, 1, 2], bcolind := [0, 1], vals := [2, 4], diagind := [0, 1], browendptr := [1, 2], nbrows := 2, nnzb := 2, nbstored := 2 }

example : sgsApply exDiag2 ([] : List ℚ) 1 .zero (fun _ => [1, 0]) [(1 : ℚ), 2] [3, 4] [] = .error .ub :=
  sgs_apply_before_compute (by decide) (.inl (by decide)) (fun _ => by decide) _ _

example : levelSgsApply exDiag2 ([] : List ℚ) [0, 2] (fun _ l => l.reverse) (fun _ l => l) [(1 : ℚ), 2] [3, 4] [] = .error .ub :=
  level_sgs_apply_before_compute (by decide) (by decide) (fun _ _ => List.reverse_perm _) _ _

example : chaoticRelax exDiag2 ([] : List ℚ) 3 [(1 : ℚ), 2] [3, 4] = .error .ub := (relaxations_before_compute (K := ℚ) (by decide) (by decide) _ _).2.1

example : scalarIluApply exDiag2 ([] : List ℚ) none 1 .zero (fun _ => [1, 0]) [(1 : ℚ), 2] [3, 4] [] = .error .ub :=
  (ilu_apply_before_compute (bs := 1) (B := { exDiag2 with vals := [] }) (r' := [0, 0]) (z' := [0, 0]) (ord' := fun _ => [0, 1]) (by decide) (by decide)
    (.inl (by decide)) (fun _ => by decide) (fun _ => by decide) rfl rfl rfl rfl).1

/-- The vector `[5, 6]` comes back reordered, whatever the right-hand side is. -/
example (ra : List ℚ) : ∃ z st, reordApply 1 .zero { cp := [1, 0], icp := [1, 0] } {} (fun t => if t = 0 then [] else if t = 1 then [] else [0, 1]) (fun _ => [])
    ra [5, 6] [] = .ok (z, st) ∧ z = [6, 5] := by
  obtain ⟨z, st, h1, h2, h3⟩ := (reord_apply_before_compute (K := ℚ) (k := 1) (init := .zero) (by decide) (n := 2) (r := { cp := [1, 0], icp := [1, 0] })
    (.inr (by decide)) (ords := fun t => if t = 0 then [] else if t = 1 then [] else [0, 1]) (orda := fun _ => []) rfl (by decide)
    (fun t ht => by simp only [show t ≠ 0 by omega, show t ≠ 1 by omega, if_false]; decide) (fun _ => rfl) ra (za := [5, 6]) rfl).1 (by decide)
  refine ⟨z, st, h1, ext_get0 (by simpa using h2) fun i hi => ?_⟩
  have hi' : i < 2 := by omega
  have := h3 i hi'
  simp only [List.cons_ne_nil, if_false] at this
  rw [this]
  interval_cases i <;> rfl

end Blasted
