import Verif.Race.AsyncLemmas
import Verif.Race.Props
import Verif.ILU.FacLemmas

/-!
# The kernels of the asynchronous loops load every component at most once

and have the values that the rest of the model gives them.
-/

namespace Blasted

open Prog

variable {V α β σ ι : Type}

/-! ### Values -/

theorem eval_bind (r : Nat → C V) (m : Prog V α) (f : α → Prog V β) : (m.bind f).eval r = (do let a ← m.eval r; (f a).eval r) := by
  induction m with
  | ret a => rfl
  | fail e => rfl
  | load l k ih =>
    simp only [Prog.bind, Prog.eval]
    cases r l with
    | error e => rfl
    | ok v => exact ih v
  | store l v k ih => rfl

theorem eval_do (r : Nat → C V) (m : Prog V α) (f : α → Prog V β) : (m >>= f).eval r = (do let a ← m.eval r; (f a).eval r) := eval_bind r m f

theorem eval_lift (r : Nat → C V) (c : C α) : (lift c : Prog V α).eval r = c := by cases c <;> rfl

theorem eval_pure (r : Nat → C V) (a : α) : (pure a : Prog V α).eval r = .ok a := rfl

theorem eval_rd (r : Nat → C V) (l : Nat) : (Prog.rd l : Prog V V).eval r = r l := by
  simp only [Prog.rd, Prog.eval]
  cases r l <;> rfl

theorem eval_forList (r : Nat → C V) (l : List ι) (body : ι → σ → Prog V σ) (s : σ) :
    (Prog.forList l body s).eval r = Blasted.forList l (fun i s => (body i s).eval r) s := by
  induction l generalizing s with
  | nil => rfl
  | cons i l ih =>
    simp only [Prog.forList]
    rw [eval_bind, forList_cons]
    simp only [ih]

theorem eval_forRange (r : Nat → C V) (lo hi : Nat) (body : Nat → σ → Prog V σ) (s : σ) :
    (Prog.forRange lo hi body s).eval r = Blasted.forRange lo hi (fun i s => (body i s).eval r) s := eval_forList r _ body s

/-! ### Every component once -/

theorem once_ret (a : α) (R : Nat → Prop) : (pure a : Prog V α).Once R := trivial

theorem once_lift (c : C α) (R : Nat → Prop) : (lift c : Prog V α).Once R := by cases c <;> trivial

theorem once_rd {l : Nat} {R : Nat → Prop} (h : R l) : (Prog.rd l : Prog V V).Once R := ⟨h, fun _ => trivial⟩

theorem Prog.Once.bind {R₁ R₂ R : Nat → Prop} {m : Prog V α} {f : α → Prog V β} (h : m.Once R₁) (hf : ∀ a, (f a).Once R₂)
    (hd : ∀ c, R₁ c → ¬ R₂ c) (h1 : ∀ c, R₁ c → R c) (h2 : ∀ c, R₂ c → R c) : (m.bind f).Once R := by
  induction m generalizing R₁ R with
  | ret a => exact (hf a).mono h2
  | fail e => trivial
  | store l v k ih => exact h
  | load l k ih =>
    refine ⟨h1 _ h.1, fun v => ih v (h.2 v) (fun c hc => hd c hc.1) (fun c hc => ⟨h1 c hc.1, hc.2⟩) fun c hc => ⟨h2 c hc, ?_⟩⟩
    rintro rfl
    exact hd _ h.1 hc

/-- The last part loads nothing. -/
theorem Prog.Once.bind_pure {R : Nat → Prop} {m : Prog V α} {f : α → Prog V β} (h : m.Once R) (hf : ∀ a R', (f a).Once R') : (m >>= f).Once R :=
  h.bind (R₂ := fun _ => False) (fun a => hf a _) (fun _ _ h => h) (fun _ h => h) (fun _ h => h.elim)

/-- The first part loads nothing. -/
theorem once_lift_bind {R : Nat → Prop} {c : C α} {f : α → Prog V β} (h : ∀ a, c = .ok a → (f a).Once R) : (lift c >>= f).Once R := by
  cases c with
  | error e => trivial
  | ok a => exact h a rfl

theorem once_forList {l : List ι} {body : ι → σ → Prog V σ} {Rb : ι → Nat → Prop} (hp : l.Pairwise fun i j => ∀ c, Rb i c → ¬ Rb j c)
    (hb : ∀ i ∈ l, ∀ s, (body i s).Once (Rb i)) (s : σ) : (Prog.forList l body s).Once fun c => ∃ i ∈ l, Rb i c := by
  induction l generalizing s with
  | nil => trivial
  | cons i l ih =>
    rw [List.pairwise_cons] at hp
    refine (hb i (by simp) s).bind (fun s' => ih hp.2 (fun j hj => hb j (by simp [hj])) s') ?_ (fun c hc => ⟨i, by simp, hc⟩) ?_
    · rintro c hc ⟨j, hj, hc'⟩
      exact hp.1 j hj c hc hc'
    · rintro c ⟨j, hj, hc⟩
      exact ⟨j, by simp [hj], hc⟩

theorem once_forRange {lo hi : Nat} {body : Nat → σ → Prog V σ} {Rb : Nat → Nat → Prop} {R : Nat → Prop}
    (hp : ∀ i j, lo ≤ i → i < j → j < hi → ∀ c, Rb i c → ¬ Rb j c)
    (hb : ∀ i, lo ≤ i → i < hi → ∀ s, (body i s).Once (Rb i)) (hR : ∀ i, lo ≤ i → i < hi → ∀ c, Rb i c → R c) (s : σ) : (Prog.forRange lo hi body s).Once R := by
  have hmem : ∀ {i}, i ∈ List.range' lo (hi - lo) → lo ≤ i ∧ i < hi := fun hi' => by
    rw [List.mem_range'_1] at hi'; omega
  refine (once_forList (l := List.range' lo (hi - lo)) (Rb := Rb) ?_ (fun i hi' => hb i (hmem hi').1 (hmem hi').2) s).mono ?_
  · refine (List.pairwise_lt_range' (s := lo) (n := hi - lo) (step := 1) (by omega)).imp_of_mem fun {i j} h1 h2 hlt => ?_
    exact hp i j (hmem h1).1 hlt (hmem h2).2
  · rintro c ⟨i, hi', hc⟩
    exact hR i (hmem hi').1 (hmem hi').2 c hc

/-! ### Kernels on rows -/

section rows
variable {R M : Type} [Zero M] [Add M] [Sub M] [SMul R M]

omit [Zero M] [Sub M] in
theorem eval_rowSumP (r : Nat → C M) (colind : List Nat) (vals : List R) (lo hi : Nat) (s : M) :
    (rowSumP colind vals lo hi s).eval r = rowSum colind vals lo hi r s := by
  unfold rowSumP rowSum
  rw [eval_forRange]
  simp only [eval_do, eval_lift, eval_rd, eval_pure, bind_assoc_C, ok_bind]

omit [Zero M] [Sub M] in
theorem once_rowSumP {colind : List Nat} (vals : List R) {lo hi : Nat} (s : M) (h : ∀ i j, lo ≤ i → i < j → j < hi → colind⟦i⟧ < colind⟦j⟧) :
    (rowSumP colind vals lo hi s).Once fun c => ∃ i, lo ≤ i ∧ i < hi ∧ colind⟦i⟧ = c := by
  refine once_forRange (Rb := fun i c => colind⟦i⟧ = c) (fun i j h1 h2 h3 c hi hj => ?_) (fun i h1 h2 s => ?_) (fun i h1 h2 c hc => ⟨i, h1, h2, hc⟩) s
  · have := h i j h1 h2 h3; omega
  · refine once_lift_bind fun v _ => once_lift_bind fun c hc => ?_
    rw [rd_val hc]
    exact (once_rd rfl).bind_pure fun _ _ => trivial

theorem evals_unitLowerP (A : SR V) (ilu : List R) (rhs : List M) : Evals (unitLowerP A ilu rhs) (unitLowerRow A ilu rhs) := by
  intro i r
  unfold unitLowerP unitLowerRow
  simp only [eval_do, eval_lift, eval_rowSumP, eval_pure]

theorem evals_upperP [PInvOp R] (A : SR V) (ilu : List R) (rhs : List M) : Evals (upperP A ilu rhs) (upperRow A ilu rhs) := by
  intro i r
  unfold upperP upperRow
  simp only [eval_do, eval_lift, eval_rowSumP, eval_pure]

theorem evals_blockUpperP (A : SR V) (ilu : List R) (rhs : List M) : Evals (blockUpperP A ilu rhs) (blockUpperRow A ilu rhs) := by
  intro i r
  unfold blockUpperP blockUpperRow
  simp only [eval_do, eval_lift, eval_rowSumP, eval_pure]

theorem evals_bgsP (A : SR R) (dinv : List R) (rhs : List M) : Evals (bgsP A dinv rhs) (bgsRow A dinv rhs) := by
  intro i r
  unfold bgsP bgsRow
  simp only [eval_do, eval_lift, eval_rowSumP, eval_pure]

theorem evals_relaxP (A : SR R) (dinv : List R) (rhs : List M) : Evals (relaxP A dinv rhs) (relaxRow A dinv rhs) := by
  intro i r
  unfold relaxP relaxRow
  simp only [eval_do, eval_lift, eval_rowSumP, eval_pure]

variable {A : SR V}

theorem once_unitLowerP (hS : A.Sorted) (hD : A.HasDiag) (ilu : List R) (rhs : List M) {i : Nat} (hi : i < A.nbrows) :
    (unitLowerP A ilu rhs i).Once fun _ => True := by
  refine once_lift_bind fun lo h1 => once_lift_bind fun d h2 => once_lift_bind fun b h3 => Once.bind_pure (.mono (once_rowSumP _ _ ?_) fun _ _ => trivial) fun _ _ => trivial
  rw [rd_val h1, rd_val h2]
  have := hD.diag_lt i hi
  exact fun a b g1 g2 g3 => hS i hi a b g1 g2 (by omega)

theorem once_upperP [PInvOp R] (hS : A.Sorted) (hD : A.HasDiag) (ilu : List R) (rhs : List M) {i : Nat} (hi : i < A.nbrows) :
    (upperP A ilu rhs i).Once fun _ => True := by
  refine once_lift_bind fun d h1 => once_lift_bind fun hi' h2 => once_lift_bind fun _ _ => once_lift_bind fun _ _ => once_lift_bind fun _ _ =>
    Once.bind_pure (.mono (once_rowSumP _ _ ?_) fun _ _ => trivial) fun _ _ => trivial
  rw [rd_val h1, rd_val h2]
  have := hD.diag_ge i hi
  exact fun a b g1 g2 g3 => hS i hi a b (by omega) g2 g3

theorem once_blockUpperP (hS : A.Sorted) (hD : A.HasDiag) (ilu : List R) (rhs : List M) {i : Nat} (hi : i < A.nbrows) :
    (blockUpperP A ilu rhs i).Once fun _ => True := by
  refine once_lift_bind fun d h1 => once_lift_bind fun hi' h2 => once_lift_bind fun _ _ =>
    Once.bind_pure (.mono (once_rowSumP _ _ ?_) fun _ _ => trivial) fun _ _ => once_lift_bind fun _ _ => trivial
  rw [rd_val h1, rd_val h2]
  have := hD.diag_ge i hi
  exact fun a b g1 g2 g3 => hS i hi a b (by omega) g2 g3

theorem once_bgsP {A : SR R} (hS : A.Sorted) (hD : A.HasDiag) (dinv : List R) (rhs : List M) {i : Nat} (hi : i < A.nbrows) :
    (bgsP A dinv rhs i).Once fun _ => True := by
  refine once_lift_bind fun d h1 => once_lift_bind fun hi' h2 => once_lift_bind fun _ _ => once_lift_bind fun _ _ =>
    Once.bind_pure (.mono (once_rowSumP _ _ ?_) fun _ _ => trivial) fun _ _ => trivial
  rw [rd_val h1, rd_val h2]
  have := hD.diag_ge i hi
  exact fun a b g1 g2 g3 => hS i hi a b (by omega) g2 g3

theorem once_relaxP {A : SR R} (hS : A.Sorted) (hD : A.HasDiag) (dinv : List R) (rhs : List M) {i : Nat} (hi : i < A.nbrows) :
    (relaxP A dinv rhs i).Once fun _ => True := by
  refine once_lift_bind fun lo h1 => once_lift_bind fun d h2 => once_lift_bind fun hi' h3 => once_lift_bind fun _ _ => once_lift_bind fun _ _ => ?_
  rw [rd_val h1, rd_val h2, rd_val h3]
  have g1 := hD.diag_ge i hi
  have g2 := hD.diag_lt i hi
  refine Once.bind (once_rowSumP _ _ fun a b k1 k2 k3 => hS i hi a b k1 k2 (by omega))
    (fun s => (once_rowSumP _ _ fun a b k1 k2 k3 => hS i hi a b (by omega) k2 k3).bind_pure fun _ _ => trivial) ?_ (fun _ _ => trivial) (fun _ _ => trivial)
  rintro c ⟨a, k1, k2, k3⟩ ⟨b, k4, k5, k6⟩
  have := hS i hi a b k1 (by omega) k5
  omega

end rows

/-! ### The ILU kernel -/

section ilu
variable {R : Type} [Zero R] [Sub R] [Mul R] [PInvOp R]

theorem evals_iluCompP (A : SR R) (scal : Nat → Nat → R → C R) (pos : ILUPos) : Evals (iluCompP A scal pos) (iluComp A scal pos) := by
  intro j r
  unfold iluCompP iluComp iluUpd iluSumP
  simp only [eval_do, eval_lift, eval_forRange, eval_rd, eval_pure]
  have hlast : ∀ (column : Nat) (sum : R), (iluLastP A (A.rowOf j) column sum).eval r =
      (if A.rowOf j > column then (do let d ← rd A.diagind column; let u ← r d; pdiv sum u) else .ok sum) := fun column sum => by
    unfold iluLastP
    split
    · simp only [eval_do, eval_lift, eval_rd]
    · rfl
  simp only [hlast]

omit [Zero R] [Sub R] [Mul R] [PInvOp R] in
theorem row_ne {A : SR R} (hA : A.Full) {i k a b : Nat} (hi : i < A.nbrows) (hk : k < A.nbrows) (ha : A.InRow i a) (hb : A.InRow k b) (h : k ≠ i) : a ≠ b := by
  rintro rfl
  exact h ((hA.rowOf_eq hk hb).symm.trans (hA.rowOf_eq hi ha))

theorem once_iluCompP {A : SR R} (hA : A.Full) (hD : A.HasDiag) {pos : ILUPos} (hpos : ILUPosOk A pos) (scal : Nat → Nat → R → C R) {j : Nat}
    (hj : j < A.browptr⟦A.nbrows⟧) : (iluCompP A scal pos j).Once fun _ => True := by
  obtain ⟨hi, hrow⟩ := hA.rowOf_spec hj
  have hcol := hA.col_lt j hj
  generalize hir : A.rowOf j = i at hi hrow
  refine once_lift_bind fun column h1 => once_lift_bind fun v h2 => once_lift_bind fun sum h3 => once_lift_bind fun lo h4 => once_lift_bind fun hi' h5 => ?_
  rw [rd_val h1, rd_val h4, rd_val h5, hir]
  have hs := hpos.sound i hi j hrow
  have hinc := hpos.incr i hi j hrow
  have hkn : ∀ k, k < min i A.bcolind⟦j⟧ → k < A.nbrows ∧ k < i ∧ k < A.bcolind⟦j⟧ := fun k hk => by omega
  refine Once.bind (R₁ := fun c => ∃ t, pos.posptr⟦j⟧ ≤ t ∧ t < pos.posptr⟦j + 1⟧ ∧ (c = pos.lowerp⟦t⟧ ∨ c = pos.upperp⟦t⟧))
    (R₂ := fun c => A.bcolind⟦j⟧ < i ∧ c = A.diagind⟦A.bcolind⟦j⟧⟧) ?_ (fun sum => ?_) ?_ (fun _ _ => trivial) (fun _ _ => trivial)
  · refine once_forRange (Rb := fun t c => c = pos.lowerp⟦t⟧ ∨ c = pos.upperp⟦t⟧) (fun t t' g1 g2 g3 c hc hc' => ?_) (fun t g1 g2 s => ?_)
      (fun t g1 g2 c hc => ⟨t, g1, g2, hc⟩) _
    · obtain ⟨k, a1, a2, a3, a4, a5⟩ := hs t g1 (by omega)
      obtain ⟨k', b1, b2, b3, b4, b5⟩ := hs t' (by omega) g3
      have hlt := hinc t t' g1 g2 g3
      rw [a3, b3] at hlt
      obtain ⟨c1, c2, -⟩ := hkn k a1
      obtain ⟨d1, d2, -⟩ := hkn k' b1
      rcases hc with rfl | rfl <;> rcases hc' with e | e
      · rw [e, b3] at a3; omega
      · exact row_ne hA hi d1 a2 b4 (by omega) e
      · exact row_ne hA hi c1 b2 a4 (by omega) e.symm
      · exact row_ne hA c1 d1 a4 b4 (by omega) e
    · refine once_lift_bind fun l hl => once_lift_bind fun u hu => ?_
      rw [rd_val hl, rd_val hu]
      obtain ⟨k, a1, a2, a3, a4, a5⟩ := hs t g1 g2
      obtain ⟨c1, c2, -⟩ := hkn k a1
      refine ⟨Or.inl rfl, fun a => ⟨⟨Or.inr rfl, ?_⟩, fun b => trivial⟩⟩
      exact (row_ne hA hi c1 a2 a4 (by omega)).symm
  · unfold iluLastP
    split
    · refine once_lift_bind fun d hd => ?_
      rw [rd_val hd]
      exact (once_rd (by constructor <;> [assumption; rfl])).bind_pure fun _ _ => once_lift _ _
    · trivial
  · rintro c ⟨t, g1, g2, g3⟩ ⟨g4, rfl⟩
    obtain ⟨k, a1, a2, a3, a4, a5⟩ := hs t g1 g2
    obtain ⟨c1, c2, c3⟩ := hkn k a1
    have hdr := hD.inRow hcol
    rcases g3 with e | e
    · exact row_ne hA hi hcol a2 hdr (by omega) e.symm
    · exact row_ne hA c1 hcol a4 hdr (by omega) e.symm

end ilu

end Blasted
