import Verif.Krylov.Spec
import Verif.MatVec.Props
import Verif.Base.Sweep
import Mathlib.Algebra.Order.Field.Basic
import Mathlib.Tactic.Linarith
import Mathlib.Tactic.Ring
import Mathlib.Tactic.FieldSimp
import Mathlib.Tactic.LinearCombination

/-!
# The vector operations of the solvers
-/

namespace Blasted

open Matrix Finset

/-! ### Success or division by zero -/

section okdz
variable {α β : Type}

/-- `m` returns normally with a value satisfying `P`, or it divides by zero and `D` holds. -/
def OkDz (D : Prop) (m : C α) (P : α → Prop) : Prop := (m = .error .divzero ∧ D) ∨ Ok m P

theorem Ok.dz {m : C α} {P : α → Prop} (D : Prop) (h : Ok m P) : OkDz D m P := .inr h

theorem OkDz.ok {D : Prop} {m : C α} {P : α → Prop} (h : OkDz D m P) (hD : ¬ D) : Ok m P :=
  h.resolve_left fun h => hD h.2

theorem OkDz.bind {D : Prop} {m : C α} {f : α → C β} {P : α → Prop} {Q : β → Prop} (hm : OkDz D m P)
    (hf : ∀ a, P a → OkDz D (f a) Q) : OkDz D (m >>= f) Q := by
  rcases hm with ⟨rfl, hD⟩ | ⟨a, rfl, ha⟩
  · exact .inl ⟨rfl, hD⟩
  · exact hf a ha

theorem Ok.bindDz {D : Prop} {m : C α} {f : α → C β} {P : α → Prop} {Q : β → Prop} (hm : Ok m P)
    (hf : ∀ a, P a → OkDz D (f a) Q) : OkDz D (m >>= f) Q := (hm.dz D).bind hf

theorem OkDz.mono {D D' : Prop} {m : C α} {P Q : α → Prop} (hm : OkDz D m P) (hD : D → D') (h : ∀ a, P a → Q a) :
    OkDz D' m Q := by
  rcases hm with ⟨e, d⟩ | hm
  · exact .inl ⟨e, hD d⟩
  · exact .inr (hm.mono h)

end okdz

variable {K : Type} [Field K] [LinearOrder K] {n : Nat}

theorem fdiv_okDz (a b : K) : OkDz (b = 0) (fdiv a b) (fun c => b ≠ 0 ∧ c * b = a) := by
  unfold fdiv
  by_cases h : b = 0
  · rw [if_pos h]; exact .inl ⟨rfl, h⟩
  · rw [if_neg h]; exact .inr (Ok.pure ⟨h, div_mul_cancel₀ a h⟩)

/-! ### Vectors -/

omit [LinearOrder K] in
theorem vecN_ext {a b : List K} (ha : a.length = n) (hb : b.length = n) (h : vecN n a = vecN n b) : a = b :=
  ext_get0 (ha.trans hb.symm) fun i hi => congrFun h ⟨i, by omega⟩

omit [LinearOrder K] in
theorem vecN_zero : vecN n (List.replicate n (0 : K)) = 0 := by
  funext i; exact get0_replicate _ _

omit [LinearOrder K] in
theorem axpby_ok {ord : List Nat} (ho : ord.Perm (List.range n)) (p q : K) {z x : List K} (hz : z.length = n)
    (hx : x.length = n) :
    Ok (axpby n ord p z q x) (fun z' => z'.length = n ∧ vecN n z' = p • vecN n z + q • vecN n x) := by
  unfold axpby
  rw [parFor_eq ho]
  have hmem : ∀ i, i ∈ ord ↔ i < n := fun i => by rw [ho.mem_iff, List.mem_range]
  refine (forList_par (fun i => p * z⟦i⟧ + q * x⟦i⟧) (ho.nodup_iff.mpr List.nodup_range)
    (fun i hi => by rw [hz]; exact (hmem i).mp hi) (fun i hi y' hl hy => by
      have := (hmem i).mp hi
      rw [rd_eq (by omega), ok_bind, rd_eq (by omega), ok_bind, hy, wr_eq (by omega)])).mono ?_
  rintro z' ⟨h1, h2⟩
  refine ⟨h1.trans hz, funext fun i => ?_⟩
  show z'⟦i⟧ = _
  rw [h2 i (by rw [hz]; exact i.2), if_pos ((hmem i).mpr i.2)]
  rfl

omit [LinearOrder K] in
theorem axpbypcz_ok {ord : List Nat} (ho : ord.Perm (List.range n)) (p q r : K) {z x y : List K} (hz : z.length = n)
    (hx : x.length = n) (hy : y.length = n) :
    Ok (axpbypcz n ord p z q x r y)
      (fun z' => z'.length = n ∧ vecN n z' = p • vecN n z + q • vecN n x + r • vecN n y) := by
  unfold axpbypcz
  rw [parFor_eq ho]
  have hmem : ∀ i, i ∈ ord ↔ i < n := fun i => by rw [ho.mem_iff, List.mem_range]
  refine (forList_par (fun i => p * z⟦i⟧ + q * x⟦i⟧ + r * y⟦i⟧) (ho.nodup_iff.mpr List.nodup_range)
    (fun i hi => by rw [hz]; exact (hmem i).mp hi) (fun i hi y' hl hy => by
      have := (hmem i).mp hi
      rw [rd_eq (by omega), ok_bind, rd_eq (by omega), ok_bind, rd_eq (by omega), ok_bind, hy, wr_eq (by omega)])).mono ?_
  rintro z' ⟨h1, h2⟩
  refine ⟨h1.trans hz, funext fun i => ?_⟩
  show z'⟦i⟧ = _
  rw [h2 i (by rw [hz]; exact i.2), if_pos ((hmem i).mpr i.2)]
  rfl

omit [LinearOrder K] in
theorem vecassign_ok {ord : List Nat} (ho : ord.Perm (List.range n)) {a b : List K} (ha : a.length = n)
    (hb : b.length = n) : vecassign n ord a b = .ok a := by
  unfold vecassign
  rw [parFor_eq ho]
  have hmem : ∀ i, i ∈ ord ↔ i < n := fun i => by rw [ho.mem_iff, List.mem_range]
  obtain ⟨z, e, h1, h2⟩ := forList_par (y := b) (body := fun i b => do let v ← rd a i; wr b i v) (fun i => a⟦i⟧)
    (ho.nodup_iff.mpr List.nodup_range)
    (fun i hi => by rw [hb]; exact (hmem i).mp hi) (fun i hi y' hl hy => by
      have := (hmem i).mp hi
      rw [rd_eq (by omega), ok_bind, wr_eq (by omega)])
  rw [e]
  refine congrArg _ (ext_get0 (by omega) fun i hi => ?_)
  rw [h2 i (by omega), if_pos ((hmem i).mpr (by omega))]

omit [LinearOrder K] in
theorem dotp_eq {a b : List K} (ha : a.length = n) (hb : b.length = n) :
    dotp n a b = .ok (vecN n a ⬝ᵥ vecN n b) := by
  unfold dotp
  rw [forRange_sum (g := fun i => a⟦i⟧ * b⟦i⟧) (Nat.zero_le n) (fun i _ hi => by
    rw [rd_eq (by omega), ok_bind, rd_eq (by omega), ok_bind])]
  rw [zero_add, ← Finset.range_eq_Ico, ← Fin.sum_univ_eq_sum_range (fun i => a⟦i⟧ * b⟦i⟧)]
  rfl

omit [LinearOrder K] in
theorem MatView.apply_ok {A : MatView K} (hA : A.Ready) {ord : List Nat} (ho : ord.Perm (List.range A.rows))
    {x y : List K} (hx : x.length = A.dim) (hy : y.length = A.dim) :
    Ok (A.apply ord x y) (fun y' => y'.length = A.dim ∧ vecN A.dim y' = A.mat *ᵥ vecN A.dim x) := by
  have key : Ok (A.apply ord x y) (fun y' => y'.length = A.dim ∧
      ∀ i < A.dim, y'⟦i⟧ = ∑ j ∈ range A.dim, A.entry i j * x⟦j⟧) := by
    cases A with
    | csr A => exact csr_apply_correct A hA x y hx hy ord ho
    | bsr stor bs A => exact bsr_apply_correct stor bs hA.1 A hA.2 x y hx hy ord ho
  refine key.mono fun y' h => ⟨h.1, funext fun i => ?_⟩
  show y'⟦i⟧ = ∑ j : Fin A.dim, A.entry i j * x⟦j⟧
  rw [h.2 i i.2, Fin.sum_univ_eq_sum_range (fun j => A.entry i j * x⟦j⟧)]

omit [LinearOrder K] in
theorem MatView.gemv3_ok {A : MatView K} (hA : A.Ready) {ord : List Nat} (ho : ord.Perm (List.range A.rows))
    {x b z : List K} (hx : x.length = A.dim) (hb : b.length = A.dim) (hz : z.length = A.dim) :
    Ok (A.gemv3 ord (-1) x 1 b z) (fun r => r.length = A.dim ∧ vecN A.dim r = A.resid b (vecN A.dim x)) := by
  have key : Ok (A.gemv3 ord (-1) x 1 b z) (fun y' => y'.length = A.dim ∧
      ∀ i < A.dim, y'⟦i⟧ = (-1) * ∑ j ∈ range A.dim, A.entry i j * x⟦j⟧ + 1 * b⟦i⟧) := by
    cases A with
    | csr A => exact csr_gemv3_correct A hA (-1) 1 x (some b) z hx (fun y hy => by
        rw [Option.mem_some_iff] at hy; rwa [← hy]) hz ord ho
    | bsr stor bs A => exact bsr_gemv3_correct stor bs hA.1 A hA.2 (-1) 1 x (some b) z hx (fun y hy => by
        rw [Option.mem_some_iff] at hy; rwa [← hy]) hz ord ho
  refine key.mono fun y' h => ⟨h.1, funext fun i => ?_⟩
  show y'⟦i⟧ = b⟦i⟧ - ∑ j : Fin A.dim, A.entry i j * x⟦j⟧
  rw [h.2 i i.2, Fin.sum_univ_eq_sum_range (fun j => A.entry i j * x⟦j⟧)]
  ring

omit [LinearOrder K] in
theorem resid_add (A : MatView K) (b : List K) (x z : Fin A.dim → K) :
    A.resid b (x + z) = A.resid b x - A.mat *ᵥ z := by
  unfold MatView.resid
  rw [mulVec_add, sub_sub]

/-! ### Norms -/

section ordered
variable [IsStrictOrderedRing K]

theorem nrm2_nonneg (v : Fin n → K) : 0 ≤ nrm2 v :=
  show 0 ≤ ∑ i, v i * v i from sum_nonneg fun _ _ => mul_self_nonneg _

theorem nrm2_eq_zero {v : Fin n → K} : nrm2 v = 0 ↔ v = 0 := dotProduct_self_eq_zero

theorem nrm2_pos {v : Fin n → K} (h : v ≠ 0) : 0 < nrm2 v :=
  lt_of_le_of_ne (nrm2_nonneg v) fun e => h (nrm2_eq_zero.mp e.symm)

omit [LinearOrder K] [IsStrictOrderedRing K] in
theorem nrm2_sub_smul (r w : Fin n → K) (a : K) :
    nrm2 (r - a • w) = nrm2 r - 2 * a * (r ⬝ᵥ w) + a * a * nrm2 w := by
  unfold nrm2
  rw [sub_dotProduct, dotProduct_sub, dotProduct_sub, smul_dotProduct, dotProduct_smul, dotProduct_smul,
    smul_dotProduct, dotProduct_comm w r]
  simp only [smul_eq_mul]; ring

/-- What the test `resnorm/bnorm < tol` says about the residual. -/
theorem relLt_iff {sqrt : K → K} (hs : SqrtOk sqrt) {r b : Fin n → K} {tol : K} :
    relLt (sqrt (nrm2 r)) (sqrt (nrm2 b)) tol = true ↔ b ≠ 0 ∧ 0 < tol ∧ nrm2 r < tol * tol * nrm2 b := by
  have h1 := hs _ (nrm2_nonneg r)
  have h2 := hs _ (nrm2_nonneg b)
  have hb : sqrt (nrm2 b) ≠ 0 ↔ b ≠ 0 := by
    rw [not_iff_not, ← nrm2_eq_zero (v := b)]
    constructor
    · intro h; rw [h] at h2; simpa using h2.2.symm
    · intro h; rw [h] at h2 ⊢; simpa using h2.2
  unfold relLt
  rw [decide_eq_true_iff, hb]
  refine and_congr_right fun hb0 => ?_
  have hp : 0 < sqrt (nrm2 b) := lt_of_le_of_ne h2.1 (Ne.symm (hb.mpr hb0))
  rw [div_lt_iff₀ hp]
  constructor
  · intro h
    have ht : 0 < tol := by
      by_contra hn
      have : tol * sqrt (nrm2 b) ≤ 0 := mul_nonpos_of_nonpos_of_nonneg (not_lt.mp hn) hp.le
      linarith [h1.1]
    refine ⟨ht, ?_⟩
    have := mul_self_lt_mul_self h1.1 h
    rw [h1.2] at this
    calc nrm2 r < tol * sqrt (nrm2 b) * (tol * sqrt (nrm2 b)) := this
      _ = tol * tol * (sqrt (nrm2 b) * sqrt (nrm2 b)) := by ring
      _ = _ := by rw [h2.2]
  · rintro ⟨ht, h⟩
    refine lt_of_mul_self_lt_mul_self₀ (mul_nonneg ht.le hp.le) ?_
    rw [h1.2]
    calc nrm2 r < tol * tol * nrm2 b := h
      _ = tol * tol * (sqrt (nrm2 b) * sqrt (nrm2 b)) := by rw [h2.2]
      _ = _ := by ring

theorem small_iff {E : SolverEnv K} (hs : SqrtOk E.sqrt) {b : List K} {x : Fin E.A.dim → K} :
    relLt (E.sqrt (nrm2 (E.A.resid b x))) (E.sqrt (nrm2 (vecN E.A.dim b))) E.tol = true ↔ E.Small b x := relLt_iff hs

theorem normOf {E : SolverEnv K} (hs : SqrtOk E.sqrt) (b : List K) (x : Fin E.A.dim → K) :
    E.NormOf b x (E.sqrt (nrm2 (E.A.resid b x))) := hs _ (nrm2_nonneg _)

end ordered

/-! ### Loops -/

theorem loopBreak_ok {σ : Type} {D : Prop} {body : Nat → σ → C (σ × Bool)} (I B : Nat → σ → Prop) :
    ∀ (f step : Nat) (s : σ), I step s →
    (∀ k s, step ≤ k → k < step + f → I k s →
      OkDz D (body k s) (fun r => if r.2 = true then B k r.1 else I (k + 1) r.1)) →
    OkDz D (loopBreak f step body s) (fun r => (r.2 = step + f ∧ I r.2 r.1) ∨ (r.2 < step + f ∧ step ≤ r.2 ∧ B r.2 r.1)) := by
  intro f
  induction f with
  | zero => exact fun step s h _ => .inr (Ok.pure (.inl ⟨rfl, h⟩))
  | succ f ih =>
    intro step s h hb
    unfold loopBreak
    refine (hb step s le_rfl (by omega) h).bind fun r hr => ?_
    by_cases e : r.2 = true
    · rw [if_pos e] at hr ⊢
      exact .inr (Ok.pure (.inr ⟨by show step < _; omega, le_rfl, hr⟩))
    · rw [if_neg e] at hr ⊢
      refine (ih (step + 1) r.1 hr fun k s h1 h2 => hb k s (by omega) (by omega)).mono id fun r h => ?_
      rcases h with ⟨h1, h2⟩ | ⟨h1, h2, h3⟩
      · exact .inl ⟨by omega, h2⟩
      · exact .inr ⟨by omega, by omega, h3⟩

end Blasted
