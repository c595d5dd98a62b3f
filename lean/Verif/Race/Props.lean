import Verif.Race.Model
import Verif.Arith.MatVecProps
import Verif.Arith.SolveProps

/-!
# The parallel loops are free of data races, and deterministic (C61)
-/

namespace Blasted

open Prog Finset

section generic
variable {V : Type}

theorem startLoop_perm {l l' : List Nat} (h : l'.Perm l) (body : Nat → Prog V Unit) (m : List V) : startLoop l' body m = startLoop l body m := by
  unfold startLoop
  congr 1
  funext i
  simp only [h.mem_iff]

/-- The result of a deterministic loop is unique. -/
theorem Deterministic.unique {l l' : List Nat} (hp : l'.Perm l) {body : Nat → Prog V Unit} {m mf mf' : List V} (h : Deterministic l body m mf)
    (h' : Deterministic l' body m mf') : mf' = mf := by
  obtain ⟨k, ps, hs, hf⟩ := h'.finishes
  rw [startLoop_perm hp] at hs
  exact h.result _ _ hs hf

/-- Parallel loops one after the other, each beginning when the one before has ended. -/
def Phases (body : Nat → Prog V Unit) : List (List Nat) → List V → List V → Prop
  | [], m, mf => m = mf
  | l :: ls, m, mf => ∃ m', Deterministic l body m m' ∧ Phases body ls m' mf

theorem phases_of_steps {body : Nat → Prog V Unit} {rows : Nat → List Nat} {step : Nat → List V → C (List V)} {N : Nat} {ts : List Nat}
    (h : ∀ t ∈ ts, ∀ x : List V, x.length = N → ∃ x', x'.length = N ∧ Deterministic (rows t) body x x' ∧ step t x = .ok x') {x : List V} (hx : x.length = N) :
    ∃ x', x'.length = N ∧ Phases body (ts.map rows) x x' ∧ forList ts step x = .ok x' := by
  induction ts generalizing x with
  | nil => exact ⟨x, hx, rfl, rfl⟩
  | cons t ts ih =>
    obtain ⟨x1, h1, h2, h3⟩ := h t (by simp) x hx
    obtain ⟨x2, g1, g2, g3⟩ := ih (fun s hs => h s (by simp [hs])) h1
    exact ⟨x2, g1, ⟨x1, h2, g2⟩, by rw [forList_cons, h3, ok_bind, g3]⟩

end generic

/-! ### Products of a matrix and a vector -/

section matvec
variable {K : Type} [Zero K] [Add K] [Mul K]

theorem touches_csrApplyRowP (A : SR K) (x : List K) (i : Nat) : (csrApplyRowP A x i).Touches (· = i) (· = i) := by
  unfold csrApplyRowP
  exact Touches.do_ (touches_wr rfl rfl) fun _ => Touches.do_ (touches_lift _) fun _ => Touches.do_ (touches_lift _) fun _ => touches_loop fun _ _ _ =>
    Touches.do_ (touches_lift _) fun _ => Touches.do_ (touches_lift _) fun _ => Touches.do_ (touches_lift _) fun _ => Touches.do_ (touches_rd rfl) fun _ => touches_wr rfl rfl

omit [Zero K] in
theorem touches_csrGemv3RowP (A : SR K) (a : K) (x : List K) (b : K) (yy : Option (List K)) (i : Nat) :
    (csrGemv3RowP A a x b yy i).Touches (· = i) (· = i) := by
  unfold csrGemv3RowP
  refine Touches.do_ (by cases yy <;> [exact touches_rd rfl; exact touches_lift _]) fun _ => ?_
  exact Touches.do_ (touches_wr rfl rfl) fun _ => Touches.do_ (touches_lift _) fun _ => Touches.do_ (touches_lift _) fun _ => touches_loop fun _ _ _ =>
    Touches.do_ (touches_lift _) fun _ => Touches.do_ (touches_lift _) fun _ => Touches.do_ (touches_lift _) fun _ => Touches.do_ (touches_rd rfl) fun _ => touches_wr rfl rfl

theorem own_div {bs i a : Nat} (ha : a < bs) : (i * bs + a) / bs = i := by
  rw [Nat.mul_comm, Nat.mul_add_div (by omega), Nat.div_eq_of_lt ha, Nat.add_zero]

theorem touches_bsrApplyRowP (stor : Stor) (bs : Nat) (A : SR K) (x : List K) (i : Nat) :
    (bsrApplyRowP stor bs A x i).Touches (· / bs = i) (· / bs = i) := by
  unfold bsrApplyRowP
  exact Touches.do_ (touches_loop fun _ _ h => touches_wr (own_div h) (own_div h)) fun _ => Touches.do_ (touches_lift _) fun _ => Touches.do_ (touches_lift _) fun _ => touches_loop fun _ _ _ =>
    Touches.do_ (touches_lift _) fun _ => touches_loop fun _ _ h => Touches.do_ (touches_lift _) fun _ => Touches.do_ (touches_rd (own_div h)) fun _ => touches_wr (own_div h) (own_div h)

theorem touches_bsrGemv3RowP (stor : Stor) (bs : Nat) (A : SR K) (a : K) (x : List K) (b : K) (yy : Option (List K)) (i : Nat) :
    (bsrGemv3RowP stor bs A a x b yy i).Touches (· / bs = i) (· / bs = i) := by
  unfold bsrGemv3RowP
  refine Touches.do_ (touches_loop fun _ _ h => Touches.do_ (by cases yy <;> [exact touches_rd (own_div h); exact touches_lift _]) fun _ =>
    touches_wr (own_div h) (own_div h)) fun _ => ?_
  exact Touches.do_ (touches_lift _) fun _ => Touches.do_ (touches_lift _) fun _ => touches_loop fun _ _ _ =>
    Touches.do_ (touches_lift _) fun _ => touches_loop fun _ _ h => Touches.do_ (touches_lift _) fun _ => Touches.do_ (touches_rd (own_div h)) fun _ => touches_wr (own_div h) (own_div h)

/-- Iterations that touch only cells that belong to them. -/
theorem deterministic_own {V : Type} (own : Nat → Nat) {n : Nat} {body : Nat → Prog V Unit} (ht : ∀ i, (body i).Touches (own · = i) (own · = i))
    {m mf : List V} (h : forList (List.range n) (fun i m => exec (body i) m) m = .ok mf) : Deterministic (List.range n) body m mf :=
  deterministic_of_disjoint (R := fun i c => own c = i) (W := fun i c => own c = i) List.nodup_range (fun i _ => ht i)
    (fun _ _ _ _ hne _ h1 h2 => hne (h2.symm.trans h1)) (fun _ _ _ h => h) h

/-- **C61** `matrix_apply` of a scalar matrix: no interleaving of the accesses of its rows has a data race, and all give what the rows one after the other give, in any order. -/
theorem csr_apply_race_free (A : SR K) (hA : A.Full) (x y : List K) (hx : x.length = A.nbrows) (hy : y.length = A.nbrows) :
    ∃ y', Deterministic (List.range A.nbrows) (csrApplyRowP A x) y y' ∧ ∀ order, order.Perm (List.range A.nbrows) → csrApply order A x y = .ok y' := by
  obtain ⟨y', h, -, -⟩ := csr_apply_any A hA x y hx hy
  refine ⟨y', deterministic_own id (touches_csrApplyRowP A x) ?_, h⟩
  have h1 := h _ (List.Perm.refl _)
  simp only [exec_csrApplyRowP]
  rwa [csrApply, parFor_eq (List.Perm.refl _)] at h1

/-- **C61** `gemv3` of a scalar matrix, also when the result overwrites an argument. -/
theorem csr_gemv3_race_free (A : SR K) (hA : A.Full) (a b : K) (x : List K) (yy : Option (List K)) (zz : List K) (hx : x.length = A.nbrows)
    (hyy : ∀ y ∈ yy, y.length = A.nbrows) (hz : zz.length = A.nbrows) :
    ∃ z', Deterministic (List.range A.nbrows) (csrGemv3RowP A a x b yy) zz z' ∧ ∀ order, order.Perm (List.range A.nbrows) → csrGemv3 order A a x b yy zz = .ok z' := by
  obtain ⟨y', h, -, -⟩ := csr_gemv3_any A hA a b x yy zz hx hyy hz
  refine ⟨y', deterministic_own id (touches_csrGemv3RowP A a x b yy) ?_, h⟩
  have h1 := h _ (List.Perm.refl _)
  simp only [exec_csrGemv3RowP]
  rwa [csrGemv3, parFor_eq (List.Perm.refl _)] at h1

/-- **C61** `matrix_apply` of a block matrix. -/
theorem bsr_apply_race_free (stor : Stor) (bs : Nat) (hbs : 0 < bs) (A : SR K) (hA : A.Full (bs * bs)) (x y : List K) (hx : x.length = A.nbrows * bs)
    (hy : y.length = A.nbrows * bs) :
    ∃ y', Deterministic (List.range A.nbrows) (bsrApplyRowP stor bs A x) y y' ∧ ∀ order, order.Perm (List.range A.nbrows) → bsrApply stor bs order A x y = .ok y' := by
  obtain ⟨y', h, -, -⟩ := bsr_apply_any stor bs hbs A hA x y hx hy
  refine ⟨y', deterministic_own (· / bs) (touches_bsrApplyRowP stor bs A x) ?_, h⟩
  have h1 := h _ (List.Perm.refl _)
  simp only [exec_bsrApplyRowP]
  rwa [bsrApply, parFor_eq (List.Perm.refl _)] at h1

/-- **C61** `gemv3` of a block matrix, also when the result overwrites an argument. -/
theorem bsr_gemv3_race_free (stor : Stor) (bs : Nat) (hbs : 0 < bs) (A : SR K) (hA : A.Full (bs * bs)) (a b : K) (x : List K) (yy : Option (List K))
    (zz : List K) (hx : x.length = A.nbrows * bs) (hyy : ∀ y ∈ yy, y.length = A.nbrows * bs) (hz : zz.length = A.nbrows * bs) :
    ∃ z', Deterministic (List.range A.nbrows) (bsrGemv3RowP stor bs A a x b yy) zz z' ∧
      ∀ order, order.Perm (List.range A.nbrows) → bsrGemv3 stor bs order A a x b yy zz = .ok z' := by
  obtain ⟨y', h, -, -⟩ := bsr_gemv3_any stor bs hbs A hA a b x yy zz hx hyy hz
  refine ⟨y', deterministic_own (· / bs) (touches_bsrGemv3RowP stor bs A a x b yy) ?_, h⟩
  have h1 := h _ (List.Perm.refl _)
  simp only [exec_bsrGemv3RowP]
  rwa [bsrGemv3, parFor_eq (List.Perm.refl _)] at h1

end matvec

/-! ### Triangular solves by levels -/

section levels
variable {V R M : Type} [Zero R] [Zero M] [Add M] [Sub M] [SMul R M]

theorem rd_val {α : Type} [Zero α] {a : List α} {i : Nat} {v : α} (h : rd a i = .ok v) : v = a⟦i⟧ := by
  by_cases hi : i < a.length
  · rw [rd_eq hi] at h; cases h; rfl
  · rw [rd_ub (by omega)] at h; cases h

omit [Zero R] [Zero M] [Sub M] in
/-- What the sum over a part of a row reads. -/
theorem touches_rowSumP {Rd W : Nat → Prop} (colind : List Nat) (vals : List R) (lo hi : Nat) (s : M) (h : ∀ p, lo ≤ p → p < hi → Rd colind⟦p⟧) :
    (rowSumP colind vals lo hi s).Touches Rd W :=
  touches_forRange fun p h1 h2 _ => Touches.do_ (touches_lift _) fun _ => touches_lift_bind fun c hc => by
    rw [rd_val hc]
    exact (touches_rd (h p h1 h2)).do_ fun _ => trivial

variable {A : SR V} {m : Nat}

omit [Zero R] in
theorem touches_unitLowerP (hS : A.Sorted) (hD : A.HasDiag) (ilu : List R) (rhs : List M) {i : Nat} (hi : i < A.nbrows) (W : Nat → Prop) :
    (unitLowerP A ilu rhs i).Touches (LowDep A i) W :=
  touches_lift_bind fun lo h1 => touches_lift_bind fun d h2 => Touches.do_ (touches_lift _) fun _ => by
    rw [rd_val h1, rd_val h2]
    exact (touches_rowSumP _ _ _ _ _ fun p g1 g2 => low_dep hS hD hi g1 g2).do_ fun _ => trivial

omit [Zero R] in
theorem touches_upperP [PInvOp R] (hS : A.Sorted) (hD : A.HasDiag) (ilu : List R) (rhs : List M) {i : Nat} (hi : i < A.nbrows) (W : Nat → Prop) :
    (upperP A ilu rhs i).Touches (UpDep A i) W :=
  touches_lift_bind fun d h1 => touches_lift_bind fun hi' h2 => Touches.do_ (touches_lift _) fun _ => Touches.do_ (touches_lift _) fun _ => Touches.do_ (touches_lift _) fun _ => by
    rw [rd_val h1, rd_val h2]
    exact (touches_rowSumP _ _ _ _ _ fun p g1 g2 => up_dep hS hD hi g1 g2).do_ fun _ => trivial

omit [Zero R] in
theorem touches_blockUpperP (hS : A.Sorted) (hD : A.HasDiag) (ilu : List R) (rhs : List M) {i : Nat} (hi : i < A.nbrows) (W : Nat → Prop) :
    (blockUpperP A ilu rhs i).Touches (UpDep A i) W :=
  touches_lift_bind fun d h1 => touches_lift_bind fun hi' h2 => Touches.do_ (touches_lift _) fun _ => by
    refine Touches.do_ (touches_rowSumP _ _ _ _ _ fun p g1 g2 => ?_) fun _ => Touches.do_ (touches_lift _) fun _ => trivial
    rw [rd_val h1] at g1
    rw [rd_val h2] at g2
    exact up_dep hS hD hi g1 g2

omit [Zero R] in
theorem touches_fgsP {A : SR R} (hS : A.Sorted) (hD : A.HasDiag) (dinv : List R) (rhs : List M) {i : Nat} (hi : i < A.nbrows) (W : Nat → Prop) :
    (fgsP A dinv rhs i).Touches (LowDep A i) W :=
  touches_lift_bind fun lo h1 => touches_lift_bind fun d h2 => Touches.do_ (touches_lift _) fun _ => Touches.do_ (touches_lift _) fun _ => by
    rw [rd_val h1, rd_val h2]
    exact (touches_rowSumP _ _ _ _ _ fun p g1 g2 => low_dep hS hD hi g1 g2).do_ fun _ => trivial

omit [Zero R] in
theorem touches_bgsP {A : SR R} (hS : A.Sorted) (hD : A.HasDiag) (dinv : List R) (rhs : List M) {i : Nat} (hi : i < A.nbrows) (W : Nat → Prop) :
    (bgsP A dinv rhs i).Touches (UpDep A i) W :=
  touches_lift_bind fun d h1 => touches_lift_bind fun hi' h2 => Touches.do_ (touches_lift _) fun _ => Touches.do_ (touches_lift _) fun _ => by
    rw [rd_val h1, rd_val h2]
    exact (touches_rowSumP _ _ _ _ _ fun p g1 g2 => up_dep hS hD hi g1 g2).do_ fun _ => trivial

omit [Add M] [Sub M] in
/-- The iterations of a loop over rows that do not depend on each other. -/
theorem rows_deterministic {p : Nat → Prog M M} {upd : Nat → (Nat → C M) → C M} {N : Nat} {D : Nat → Nat → Prop} {f : Nat → (Nat → M) → M}
    (hU : RowUpd upd N D f) (hr : ∀ i, Reads (p i) (upd i)) (hT : ∀ i < N, ∀ W, (p i).Touches (D i) W) {l : List Nat} (hnd : l.Nodup) (hl : ∀ i ∈ l, i < N)
    (hI : ∀ i ∈ l, ∀ j ∈ l, ¬ D i j) {x : List M} (hx : x.length = N) :
    ∃ x', x'.length = N ∧ Deterministic l (rowP p) x x' ∧ ∀ l', l'.Perm l → forList l' (updRow upd) x = .ok x' := by
  have key : ∀ l', l'.Perm l → ∃ x', x'.length = N ∧ Deterministic l' (rowP p) x x' ∧ forList l' (updRow upd) x = .ok x' := by
    intro l' hp
    obtain ⟨x', h1, h2⟩ := forList_ok (l := l') (body := updRow upd) (s := x) (fun _ y => y.length = N) hx (fun done i rest y he hy => by
      rw [hU.evalList (hl i (hp.mem_iff.mp (by rw [he]; simp))) hy]
      exact Ok.pure (by simpa using hy))
    refine ⟨x', h2, ?_, h1⟩
    refine deterministic_of_disjoint (R := fun i c => D i c ∨ c = i) (W := fun i c => c = i) (hp.nodup_iff.mpr hnd) (fun i hi => ?_) ?_ (fun _ _ _ h => .inr h) ?_
    · exact ((hT i (hl i (hp.mem_iff.mp hi)) _).mono (fun _ h => .inl h) (fun _ h => h)).do_ fun v => touches_wr (.inr rfl) rfl
    · rintro i hi j hj hne c rfl (h | h)
      · exact hI i (hp.mem_iff.mp hi) c (hp.mem_iff.mp hj) h
      · exact hne h.symm
    · rw [← h1]
      exact forList_congr fun i _ y => exec_rowP (hr i) y
  obtain ⟨x', h1, h2, -⟩ := key l (List.Perm.refl _)
  refine ⟨x', h1, h2, fun l' hp => ?_⟩
  obtain ⟨x'', -, g2, g3⟩ := key l' hp
  rw [g3, h2.unique hp g2]

omit [Add M] [Sub M] in
theorem levelUp_phases {p : Nat → Prog M M} {upd : Nat → (Nat → C M) → C M} {f : Nat → (Nat → M) → M} {levels : List Nat}
    (hU : RowUpd upd A.nbrows (LowDep A) f) (hr : ∀ i, Reads (p i) (upd i)) (hT : ∀ i < A.nbrows, ∀ W, (p i).Touches (LowDep A i) W) (hL : LevelsOk A levels)
    {sched : Nat → List Nat → List Nat} (hsch : ∀ t l, (sched t l).Perm l) {x : List M} (hx : x.length = A.nbrows) :
    ∃ x', x'.length = A.nbrows ∧ Phases (rowP p) (levelRows levels) x x' ∧ levelUp upd levels sched x = .ok x' := by
  unfold levelUp levelRows forRange
  rw [Nat.sub_zero, ← List.range_eq_range']
  refine phases_of_steps (fun t ht y hy => ?_) hx
  rw [List.mem_range] at ht
  have ht' : t + 1 < levels.length := by omega
  have hm : ∀ i, i ∈ List.range' levels⟦t⟧ (levels⟦t + 1⟧ - levels⟦t⟧) → levels⟦t⟧ ≤ i ∧ i < levels⟦t + 1⟧ := fun i hi => by
    rw [List.mem_range'_1] at hi; omega
  obtain ⟨y', g1, g2, g3⟩ := rows_deterministic hU hr hT (List.nodup_range' (step := 1)) (fun i hi => by
    have := (hm i hi).2; have := hL.le_n ht'; omega) (fun i hi j hj hd => by
    have := hL.low ht' (hm i hi).1 (hm i hi).2 hd; have := (hm j hj).1; omega) hy
  refine ⟨y', g1, g2, ?_⟩
  rw [rd_eq (by omega), ok_bind, rd_eq (by omega), ok_bind]
  exact g3 _ (hsch _ _)

omit [Add M] [Sub M] in
theorem levelDown_phases {p : Nat → Prog M M} {upd : Nat → (Nat → C M) → C M} {f : Nat → (Nat → M) → M} {levels : List Nat}
    (hU : RowUpd upd A.nbrows (UpDep A) f) (hr : ∀ i, Reads (p i) (upd i)) (hT : ∀ i < A.nbrows, ∀ W, (p i).Touches (UpDep A i) W) (hL : LevelsOk A levels)
    {sched : Nat → List Nat → List Nat} (hsch : ∀ t l, (sched t l).Perm l) {x : List M} (hx : x.length = A.nbrows) :
    ∃ x', x'.length = A.nbrows ∧ Phases (rowP p) (levelRows levels).reverse x x' ∧ levelDown upd levels sched x = .ok x' := by
  have hrows : (levelRows levels).reverse = ((List.range' 1 (levels.length - 1)).reverse).map fun t => List.range' levels⟦t - 1⟧ (levels⟦t⟧ - levels⟦t - 1⟧) := by
    rw [List.map_reverse, List.range'_eq_map_range, List.map_map]
    congr 1
    refine List.map_congr_left fun t _ => ?_
    simp only [Function.comp_apply]
    rw [Nat.add_comm 1 t, Nat.add_sub_cancel]
  unfold levelDown forDown
  rw [hrows, Nat.add_sub_cancel]
  refine phases_of_steps (fun t ht y hy => ?_) hx
  rw [List.mem_reverse, List.mem_range'_1] at ht
  obtain ⟨s, rfl⟩ : ∃ s, t = s + 1 := ⟨t - 1, by omega⟩
  simp only [Nat.add_sub_cancel]
  have ht' : s + 1 < levels.length := by omega
  have hm : ∀ i, i ∈ List.range' levels⟦s⟧ (levels⟦s + 1⟧ - levels⟦s⟧) → levels⟦s⟧ ≤ i ∧ i < levels⟦s + 1⟧ := fun i hi => by
    rw [List.mem_range'_1] at hi; omega
  obtain ⟨y', g1, g2, g3⟩ := rows_deterministic hU hr hT (List.nodup_range' (step := 1)) (fun i hi => by
    have := (hm i hi).2; have := hL.le_n ht'; omega) (fun i hi j hj hd => by
    have := hL.up ht' (hm i hi).1 (hm i hi).2 hd; have := (hm j hj).2; omega) hy
  refine ⟨y', g1, g2, ?_⟩
  rw [rd_eq (by omega), ok_bind, rd_eq (by omega), ok_bind]
  exact g3 _ (hsch _ _)

/-- **C61** The level-scheduled application of an ILU factorization (scalar: the diagonal of `U` is inverted on the fly): with barriers between the levels, no interleaving of the
accesses of the rows of a level has a data race, and all give what `levelUp` and `levelDown` give. -/
theorem scalar_level_ilu_race_free [PInvOp R] (hA : A.Full m) (hS : A.Sorted) (hD : A.HasDiag) {ilu dinv : List R}
    (hl : ilu.length = A.browptr⟦A.nbrows⟧) (hd : ∀ i < A.nbrows, pinv ilu⟦A.diagind⟦i⟧⟧ = .ok dinv⟦i⟧) {levels : List Nat} (hL : LevelsOk A levels)
    {sched sched' : Nat → List Nat → List Nat} (hsch : ∀ t l, (sched t l).Perm l) (hsch' : ∀ t l, (sched' t l).Perm l) {r y z : List M}
    (hr : r.length = A.nbrows) (hy : y.length = A.nbrows) (hz : z.length = A.nbrows) :
    ∃ y' z', Phases (rowP (unitLowerP A ilu r)) (levelRows levels) y y' ∧ levelUp (unitLowerRow A ilu r) levels sched y = .ok y' ∧
      Phases (rowP (upperP A ilu y')) (levelRows levels).reverse z z' ∧ levelDown (upperRow A ilu y') levels sched' z = .ok z' := by
  obtain ⟨y', h1, h2, h3⟩ := levelUp_phases ((triAny_unitLower hA hS hD hl).upd _ hr) (reads_unitLowerP A ilu r) (fun i hi W => touches_unitLowerP hS hD ilu r hi W) hL hsch hy
  obtain ⟨z', -, g2, g3⟩ := levelDown_phases ((triAny_upper hA hS hD hl hd).upd _ h1) (reads_upperP A ilu y') (fun i hi W => touches_upperP hS hD ilu y' hi W) hL hsch' hz
  exact ⟨y', z', h2, h3, g2, g3⟩

/-- **C61** The same for the block version, which stores the diagonal blocks inverted. -/
theorem block_level_ilu_race_free (hA : A.Full m) (hS : A.Sorted) (hD : A.HasDiag) {ilu : List R}
    (hl : ilu.length = A.browptr⟦A.nbrows⟧) {levels : List Nat} (hL : LevelsOk A levels)
    {sched sched' : Nat → List Nat → List Nat} (hsch : ∀ t l, (sched t l).Perm l) (hsch' : ∀ t l, (sched' t l).Perm l) {r y z : List M}
    (hr : r.length = A.nbrows) (hy : y.length = A.nbrows) (hz : z.length = A.nbrows) :
    ∃ y' z', Phases (rowP (unitLowerP A ilu r)) (levelRows levels) y y' ∧ levelUp (unitLowerRow A ilu r) levels sched y = .ok y' ∧
      Phases (rowP (blockUpperP A ilu y')) (levelRows levels).reverse z z' ∧ levelDown (blockUpperRow A ilu y') levels sched' z = .ok z' := by
  obtain ⟨y', h1, h2, h3⟩ := levelUp_phases ((triAny_unitLower hA hS hD hl).upd _ hr) (reads_unitLowerP A ilu r) (fun i hi W => touches_unitLowerP hS hD ilu r hi W) hL hsch hy
  obtain ⟨z', -, g2, g3⟩ := levelDown_phases ((triAny_blockUpper hA hS hD hl).upd _ h1) (reads_blockUpperP A ilu y') (fun i hi W => touches_blockUpperP hS hD ilu y' hi W) hL hsch' hz
  exact ⟨y', z', h2, h3, g2, g3⟩

/-- **C61** The level-scheduled symmetric Gauss-Seidel application, scalar and block. -/
theorem level_sgs_race_free {A : SR R} (hA : A.Full) (hS : A.Sorted) (hD : A.HasDiag) {dinv : List R} (hd : dinv.length = A.nbrows) {levels : List Nat}
    (hL : LevelsOk A levels) {sched sched' : Nat → List Nat → List Nat} (hsch : ∀ t l, (sched t l).Perm l) (hsch' : ∀ t l, (sched' t l).Perm l) {r y z : List M}
    (hr : r.length = A.nbrows) (hy : y.length = A.nbrows) (hz : z.length = A.nbrows) :
    ∃ y' z', Phases (rowP (fgsP A dinv r)) (levelRows levels) y y' ∧ Phases (rowP (bgsP A dinv y')) (levelRows levels).reverse z z' ∧
      levelSgsApply A dinv levels sched sched' r z y = .ok (z', y') := by
  obtain ⟨y', h1, h2, h3⟩ := levelUp_phases ((triAny_fgs hA hS hD hd).upd _ hr) (reads_fgsP A dinv r) (fun i hi W => touches_fgsP hS hD dinv r hi W) hL hsch hy
  obtain ⟨z', -, g2, g3⟩ := levelDown_phases ((triAny_bgs hA hS hD hd).upd _ h1) (reads_bgsP A dinv y') (fun i hi W => touches_bgsP hS hD dinv y' hi W) hL hsch' hz
  exact ⟨y', z', h2, g2, by unfold levelSgsApply; rw [h3, ok_bind, g3, ok_bind]⟩

omit [Add M] [Sub M] in
/-- **C61** The Jacobi application. -/
theorem jacobi_apply_race_free {A : SR R} {dinv : List R} (hd : dinv.length = A.nbrows) {r z : List M} (hr : r.length = A.nbrows) (hz : z.length = A.nbrows) :
    ∃ z', Deterministic (List.range A.nbrows) (jacobiApplyRowP dinv r) z z' ∧
      (∀ order, order.Perm (List.range A.nbrows) → jacobiApply A.nbrows dinv order r z = .ok z') ∧ ∀ i < A.nbrows, z'⟦i⟧ = dinv⟦i⟧ • r⟦i⟧ := by
  obtain ⟨z', h, h2, h3⟩ := jacobi_apply_any hd hr hz
  refine ⟨z', deterministic_own id (body := jacobiApplyRowP dinv r) (fun i => Touches.do_ (touches_lift _) fun _ => Touches.do_ (touches_lift _) fun _ => touches_wr rfl rfl) ?_, h, h3⟩
  have h1 := h _ (List.Perm.refl _)
  unfold jacobiApplyRowP
  simp only [exec_lift_bind, exec_wr]
  rwa [jacobiApply, parFor_eq (List.Perm.refl _)] at h1

/-! ### The asynchronous loops have data races -/

omit [Zero M] [Add M] [Sub M] in
/-- A thread that is alone for a while, and only reads, comes to the end of its reads. -/
theorem steps_reads {W : Nat → Prop} {j : Nat} {f : M → Prog M Unit} (q : Prog M M) (hT : q.Touches W (fun _ => False)) {x n : List M} {v : M}
    (hr : run q x = .ok (v, n)) {k₀ : Nat} {c₀ : Conf M} {ps : Nat → Prog M Unit} (hps : ps j = q.bind f) (hs : Steps k₀ c₀ (x, ps)) :
    ∃ k ps', Steps k c₀ (x, ps') ∧ ps' j = f v ∧ ∀ i, i ≠ j → ps' i = ps i := by
  induction q generalizing k₀ ps with
  | ret a =>
    rw [run_ret] at hr
    cases hr
    exact ⟨k₀, ps, hs, hps, fun _ _ => rfl⟩
  | fail e => cases hr
  | load l kk ih =>
    simp only [run, Blasted.rd] at hr
    cases hm : x[l]? with
    | none => rw [hm] at hr; cases hr
    | some w =>
      rw [hm] at hr
      have step := Step.load (m := x) (ps := ps) j hps hm
      obtain ⟨k, ps', h1, h2, h3⟩ := ih w (hT.2 w) hr (ps := Function.update ps j ((kk w).bind f)) (Function.update_self _ _ _) (hs.tail step)
      exact ⟨k, ps', h1, h2, fun i hi => by rw [h3 i hi, Function.update_of_ne hi]⟩
  | store l w kk ih => exact hT.2.1.elim

/-- **C61**, the other side: when the rows of a triangular solve run in one parallel loop, as in the asynchronous variants, and some row has an entry left of the diagonal, then a data race is
reached. The asynchronous variants are thus outside of what the C++ standard defines, and rely on what processors do. -/
theorem async_lower_solve_races (hA : A.Full m) (hS : A.Sorted) (hD : A.HasDiag) {ilu : List R} (hl : ilu.length = A.browptr⟦A.nbrows⟧) {r y : List M}
    (hr : r.length = A.nbrows) (hy : y.length = A.nbrows) {i : Nat} (hi : i < A.nbrows) (hlow : A.browptr⟦i⟧ < A.diagind⟦i⟧) :
    ∃ k c, Steps k (startLoop (List.range A.nbrows) (rowP (unitLowerP A ilu r)) y) c ∧ Race c := by
  have h1 := hA.ptr_len
  have h2 := hD.diag_len
  have h3 := hA.ind_len
  have h4 := hA.lt_nnz hi (hD.diag_lt i hi)
  have hdep := low_dep hS hD hi (Nat.le_refl _) hlow
  have hj : A.bcolind⟦A.browptr⟦i⟧⟧ < A.nbrows := by have := hdep.2; omega
  have hrow : ∀ t < A.nbrows, (startLoop (List.range A.nbrows) (rowP (unitLowerP A ilu r)) y).2 t = rowP (unitLowerP A ilu r) t := fun t ht => by
    simp [startLoop, ht]
  have hrun : ∃ v, run (unitLowerP A ilu r A.bcolind⟦A.browptr⟦i⟧⟧) y = .ok (v, y) := by
    refine ⟨r⟦A.bcolind⟦A.browptr⟦i⟧⟧⟧ - lowAdd A ilu A.bcolind⟦A.browptr⟦i⟧⟧ (get0 y), ?_⟩
    rw [reads_unitLowerP A ilu r _ y, ((triAny_unitLower hA hS hD hl).upd _ hr).eval _ hj (rd y) (get0 y) (fun t ht => rd_eq (by omega)), ok_bind]
  obtain ⟨v, hrun⟩ := hrun
  obtain ⟨k, ps, s1, s2, s3⟩ := steps_reads _ (touches_unitLowerP hS hD ilu r hj _) hrun (hrow _ hj) (.refl _)
  refine ⟨k, _, s1, i, A.bcolind⟦A.browptr⟦i⟧⟧, A.bcolind⟦A.browptr⟦i⟧⟧, ?_, ?_, ?_⟩
  · have := hdep.2; omega
  · dsimp only
    rw [s3 i (by have := hdep.2; omega), hrow i hi]
    unfold rowP unitLowerP
    rw [rd_eq (by omega), rd_eq (by omega), rd_eq (by omega)]
    unfold rowSumP Prog.forRange
    obtain ⟨t, ht⟩ : ∃ t, A.diagind⟦i⟧ - A.browptr⟦i⟧ = t + 1 := ⟨A.diagind⟦i⟧ - A.browptr⟦i⟧ - 1, by omega⟩
    show NextAccess _ ((Prog.forList (List.range' A.browptr⟦i⟧ (A.diagind⟦i⟧ - A.browptr⟦i⟧)) _ _).bind _ |>.bind _)
    rw [ht, List.range'_succ]
    simp only [Prog.forList]
    rw [rd_eq (by omega), rd_eq (by omega)]
    exact rfl
  · dsimp only
    rw [s2]
    exact rfl

end levels

/-! ### Instances -/

/-- The product with a 3 × 3 matrix. -/
example : ∃ y', Deterministic (List.range 3) (csrApplyRowP exCsr ([1, 10, 100] : List ℚ)) [9, 9, 9] y' ∧
    ∀ order, order.Perm (List.range 3) → csrApply order exCsr [1, 10, 100] [9, 9, 9] = .ok y' :=
  csr_apply_race_free exCsr (by constructor <;> decide) _ _ rfl rfl

/-- Two threads, and an execution in which their accesses alternate. -/
example : ∃ c, Steps 2 (startLoop [0, 1] (fun i => Prog.wr i (i + 7)) [0, 0]) c ∧ Finished c ∧ c.1 = [7, 8] :=
  ⟨_, ((Steps.refl _).tail (.store (l := 1) (v := 8) (k := .ret ()) 1 (by simp [Prog.wr]) (by decide))).tail
    (.store (l := 0) (v := 7) (k := .ret ()) 0 (by simp [Function.update, Prog.wr]) (by decide)),
    fun i => by
      by_cases h0 : i = 0
      · subst h0; rfl
      · by_cases h1 : i = 1
        · subst h1; rfl
        · simp [Function.update, h0, h1], rfl⟩

/-- Symmetric Gauss-Seidel by levels on the star with four nodes. -/
example : ∃ y' z' : List ℚ, Phases (rowP (fgsP exStar [1, 1, 1, 1] [3, 4, 5, 12])) [[0, 1, 2], [3]] [9, 9, 9, 9] y' ∧
    Phases (rowP (bgsP exStar [1, 1, 1, 1] y')) [[3], [0, 1, 2]] [8, 8, 8, 8] z' ∧
    levelSgsApply exStar [1, 1, 1, 1] [0, 3, 4] (fun _ l => l.reverse) (fun _ l => l) [3, 4, 5, 12] [8, 8, 8, 8] [9, 9, 9, 9] = .ok (z', y') :=
  level_sgs_race_free exStar_full exStar_sorted exStar_diag rfl exStar_levels (fun _ l => l.reverse_perm) (fun _ l => List.Perm.refl l) rfl rfl rfl

/-- The same rows in one loop have a race: the centre depends on the leaves. -/
example : ∃ k c, Steps k (startLoop (List.range 4) (rowP (unitLowerP exStar exStar.vals ([3, 4, 5, 12] : List ℚ))) [9, 9, 9, 9]) c ∧ Race c :=
  async_lower_solve_races exStar_full exStar_sorted exStar_diag rfl rfl rfl (i := 3) (by decide) (by decide)

end Blasted
