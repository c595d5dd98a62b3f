import Verif.ILU.AsyncProps

/-!
# Block ILU(0): helper lemmas
-/

namespace Blasted

open Finset

variable {V R K : Type}

/-- The computation ends normally with a result in `P`, or divides by zero; it has no other failure. -/
def Safe {α : Type} (m : C α) (P : α → Prop) : Prop := (∃ a, m = .ok a ∧ P a) ∨ m = .error .divzero

theorem Ok.safe {α : Type} {m : C α} {P : α → Prop} (h : Ok m P) : Safe m P := Or.inl h

theorem Safe.bind {α β : Type} {m : C α} {f : α → C β} {P : α → Prop} {Q : β → Prop} (h : Safe m P)
    (hf : ∀ a, P a → Safe (f a) Q) : Safe (m >>= f) Q := by
  rcases h with ⟨a, h, hp⟩ | h
  · rw [h, ok_bind]; exact hf a hp
  · rw [h]; exact Or.inr rfl

theorem Safe.mono {α : Type} {m : C α} {P Q : α → Prop} (h : Safe m P) (hq : ∀ a, P a → Q a) :
    Safe m Q := by
  rcases h with ⟨a, h, hp⟩ | h
  · exact Or.inl ⟨a, h, hq a hp⟩
  · exact Or.inr h

theorem Safe.forList {ι σ : Type} {l : List ι} {body : ι → σ → C σ} {s : σ} {P : σ → Prop} (h0 : P s)
    (hb : ∀ i ∈ l, ∀ s, P s → Safe (body i s) P) : Safe (forList l body s) P := by
  induction l generalizing s with
  | nil => exact Or.inl ⟨s, rfl, h0⟩
  | cons i l ih =>
    rw [forList_cons]
    exact Safe.bind (hb i (by simp) s h0) fun s' hs' => ih hs' fun j hj => hb j (by simp [hj])

theorem safe_pinv [Ring R] [PInv R] (a : R) : Safe (pinv a) (fun _ => True) := by
  rcases pinv_cases a with ⟨b, h, _⟩ | ⟨h, _⟩
  · exact Or.inl ⟨b, h, trivial⟩
  · exact Or.inr h

section ring
variable [Ring R] [PInv R] {A : SR R} {scal : Nat → Nat → R → C R} {T : Nat → R}

omit [PInv R] in
/-- Filling a row with the scaled matrix. -/
theorem fillRow_ok (hA : A.Full) (hT : ScalOk A scal T) {i : Nat} (hi : i < A.nbrows) {y : List R}
    (hl : y.length = A.browptr⟦A.nbrows⟧) :
    Ok (forRange A.browptr⟦i⟧ A.browptr⟦i + 1⟧ (fun j ilu => do
      let v ← rd A.vals j
      let c ← rd A.bcolind j
      let v ← scal i c v
      wr ilu j v) y) (fun y' => y'.length = A.browptr⟦A.nbrows⟧ ∧ ∀ c < A.browptr⟦A.nbrows⟧,
        (A.InRow i c → y'⟦c⟧ = T c) ∧ (¬ A.InRow i c → y'⟦c⟧ = y⟦c⟧)) := by
  have h1 := hA.ind_len
  have h2 := hA.val_len
  have h4 := hA.ptr_mono i hi
  have h5 := hA.ptr_le (i := i + 1) (j := A.nbrows) hi (Nat.le_refl _)
  refine (forRange_cells h4 (by omega) (fun p _ => T p) ?_).mono ?_
  · intro j hj1 hj2 a' ha'
    have hin : A.InRow i j := ⟨hj1, hj2⟩
    have := hT j (by omega)
    rw [hA.rowOf_eq hi hin] at this
    rw [rd_eq (by omega), ok_bind, rd_eq (by omega), ok_bind, this, ok_bind, wr_eq (by omega)]
  · rintro y' ⟨h6, h7⟩
    refine ⟨by omega, fun c hc => ⟨fun hr => ?_, fun hr => ?_⟩⟩
    · rw [h7 c (by omega), if_pos (show _ ∧ _ from hr)]
    · have hr' : ¬ (A.browptr⟦i⟧ ≤ c ∧ c < A.browptr⟦i + 1⟧) := hr
      rw [h7 c (by omega), if_neg hr']

omit [PInv R] in
theorem blockInitOriginal_ok [PInv R] (hA : A.Full) (hT : ScalOk A scal T) {scaled : Bool}
    (hs : scaled = false → ∀ p < A.browptr⟦A.nbrows⟧, T p = A.vals⟦p⟧) {gd : List R}
    {ord ord2 ordc : List Nat} (hord : ord.Perm (List.range A.nbrows))
    (hordc : ordc.Perm (List.range A.browptr⟦A.nbrows⟧)) {ilu : List R}
    (hl : ilu.length = A.browptr⟦A.nbrows⟧) :
    Ok (blockFactInit A .original scaled scal gd ord ord2 ordc ilu) (fun ilu' =>
      ilu'.length = A.browptr⟦A.nbrows⟧ ∧ ∀ p < A.browptr⟦A.nbrows⟧, ilu'⟦p⟧ = T p) := by
  have h1 := hA.ptr_len
  have h2 := hA.val_len
  have h3 := hA.end_len
  unfold blockFactInit
  cases scaled with
  | false =>
    simp only [Bool.false_eq_true, if_false]
    refine (par_stored hA hordc hl (fun p => A.vals⟦p⟧) fun i hi y' hl' => ?_).mono ?_
    · rw [rd_eq (by omega), ok_bind, wr_eq (by omega)]
    · rintro y ⟨h4, h5⟩
      exact ⟨h4, fun p hp => by rw [h5 p hp, hs rfl p hp]⟩
  | true =>
    simp only [if_true]
    refine par_rows hA hord hl _ fun i hi y' hl' _ => ?_
    rw [rd_eq (by omega), ok_bind, rd_eq (by omega), ok_bind, hA.end_eq i hi]
    exact fillRow_ok hA hT hi hl'

/-- First loop of the SGS initialisation. -/
theorem blockSgs_loop1 (hA : A.Full) (hD : A.HasDiag) (hT : ScalOk A scal T)
    {gd : List R} (hgd : gd.length = A.nbrows) {ord : List Nat}
    (hord : ord.Perm (List.range A.nbrows)) {ilu : List R} (hl : ilu.length = A.browptr⟦A.nbrows⟧) :
    Safe (parFor A.nbrows ord (fun i (s : List R × List R) => do
      let d ← rd A.diagind i
      let v ← rd A.vals d
      let tempblk ← scal i i v
      let w ← pinv tempblk
      let dblks ← wr s.1 i w
      let lo ← rd A.browptr i
      let hi ← rd A.browptr (i + 1)
      let ilu ← forRange lo hi (fun j ilu => do
        let v ← rd A.vals j
        let c ← rd A.bcolind j
        let v ← scal i c v
        wr ilu j v) s.2
      .ok (dblks, ilu)) (gd, ilu)) (fun s => s.1.length = A.nbrows ∧
        s.2.length = A.browptr⟦A.nbrows⟧ ∧
        (∀ i < A.nbrows, pinv (T A.diagind⟦i⟧) = .ok s.1⟦i⟧) ∧
        (∀ p < A.browptr⟦A.nbrows⟧, s.2⟦p⟧ = T p)) ∧
    ((∀ i < A.nbrows, IsUnit (T A.diagind⟦i⟧)) → ∃ s, parFor A.nbrows ord (fun i (s : List R × List R) => do
      let d ← rd A.diagind i
      let v ← rd A.vals d
      let tempblk ← scal i i v
      let w ← pinv tempblk
      let dblks ← wr s.1 i w
      let lo ← rd A.browptr i
      let hi ← rd A.browptr (i + 1)
      let ilu ← forRange lo hi (fun j ilu => do
        let v ← rd A.vals j
        let c ← rd A.bcolind j
        let v ← scal i c v
        wr ilu j v) s.2
      .ok (dblks, ilu)) (gd, ilu) = .ok s) := by
  rw [parFor_eq hord]
  have h1 := hA.ptr_len
  have h2 := hA.val_len
  have h3 := hD.diag_len
  have hmem : ∀ i, i ∈ ord ↔ i < A.nbrows := fun i => by rw [hord.mem_iff, List.mem_range]
  -- one iteration
  have hstep : ∀ i < A.nbrows, ∀ s : List R × List R, s.1.length = A.nbrows →
      s.2.length = A.browptr⟦A.nbrows⟧ → ∃ y, y.length = A.browptr⟦A.nbrows⟧ ∧
        (∀ c < A.browptr⟦A.nbrows⟧, (A.InRow i c → y⟦c⟧ = T c) ∧ (¬ A.InRow i c → y⟦c⟧ = s.2⟦c⟧)) ∧
      (do
      let d ← rd A.diagind i
      let v ← rd A.vals d
      let tempblk ← scal i i v
      let w ← pinv tempblk
      let dblks ← wr s.1 i w
      let lo ← rd A.browptr i
      let hi ← rd A.browptr (i + 1)
      let ilu ← forRange lo hi (fun j ilu => do
        let v ← rd A.vals j
        let c ← rd A.bcolind j
        let v ← scal i c v
        wr ilu j v) s.2
      .ok (dblks, ilu)) = (do
        let w ← pinv (T A.diagind⟦i⟧)
        .ok (s.1.set i w, y)) := by
    intro i hi s hs1 hs2
    obtain ⟨y, hy, h4, h5⟩ := fillRow_ok hA hT hi hs2
    refine ⟨y, h4, h5, ?_⟩
    have hdr := hD.inRow hi
    have hdn := hA.lt_nnz hi hdr.2
    have := hT _ hdn
    rw [hA.rowOf_eq hi hdr, hD.diag_col i hi] at this
    rw [rd_eq (by omega), ok_bind, rd_eq (by omega), ok_bind, this, ok_bind]
    rcases pinv_cases (T A.diagind⟦i⟧) with ⟨b, hb, _⟩ | ⟨hb, _⟩
    · rw [hb, ok_bind, ok_bind, wr_eq (by omega), ok_bind, rd_eq (by omega), ok_bind, rd_eq (by omega), ok_bind,
        hy, ok_bind]
    · rw [hb]; rfl
  have hgen : ∀ l : List Nat, l.Nodup → (∀ i ∈ l, i < A.nbrows) → ∀ done : List Nat, (∀ i ∈ l, i ∉ done) →
      ∀ s : List R × List R, s.1.length = A.nbrows → s.2.length = A.browptr⟦A.nbrows⟧ →
      (∀ i ∈ done, i < A.nbrows ∧ pinv (T A.diagind⟦i⟧) = .ok s.1⟦i⟧) →
      (∀ p < A.browptr⟦A.nbrows⟧, A.rowOf p ∈ done → s.2⟦p⟧ = T p) →
      Safe (forList l (fun i (s : List R × List R) => do
      let d ← rd A.diagind i
      let v ← rd A.vals d
      let tempblk ← scal i i v
      let w ← pinv tempblk
      let dblks ← wr s.1 i w
      let lo ← rd A.browptr i
      let hi ← rd A.browptr (i + 1)
      let ilu ← forRange lo hi (fun j ilu => do
        let v ← rd A.vals j
        let c ← rd A.bcolind j
        let v ← scal i c v
        wr ilu j v) s.2
      .ok (dblks, ilu)) s) (fun s => s.1.length = A.nbrows ∧
        s.2.length = A.browptr⟦A.nbrows⟧ ∧
        (∀ i, i ∈ done ∨ i ∈ l → pinv (T A.diagind⟦i⟧) = .ok s.1⟦i⟧) ∧
        (∀ p < A.browptr⟦A.nbrows⟧, A.rowOf p ∈ done ∨ A.rowOf p ∈ l → s.2⟦p⟧ = T p)) ∧
      ((∀ i < A.nbrows, IsUnit (T A.diagind⟦i⟧)) → ∃ s', forList l (fun i (s : List R × List R) => do
      let d ← rd A.diagind i
      let v ← rd A.vals d
      let tempblk ← scal i i v
      let w ← pinv tempblk
      let dblks ← wr s.1 i w
      let lo ← rd A.browptr i
      let hi ← rd A.browptr (i + 1)
      let ilu ← forRange lo hi (fun j ilu => do
        let v ← rd A.vals j
        let c ← rd A.bcolind j
        let v ← scal i c v
        wr ilu j v) s.2
      .ok (dblks, ilu)) s = .ok s') := by
    intro l
    induction l with
    | nil =>
      intro _ _ done _ s h4 h5 h6 h7
      exact ⟨Or.inl ⟨s, rfl, h4, h5, fun i hi => (h6 i (by simpa using hi)).2,
        fun p hp hr => h7 p hp (by simpa using hr)⟩, fun _ => ⟨s, rfl⟩⟩
    | cons i l ih =>
      intro hnd hlt done hdisj s h4 h5 h6 h7
      have hi := hlt i (by simp)
      obtain ⟨y, hyl, hy, he⟩ := hstep i hi s h4 h5
      simp only [forList_cons]
      rw [he]
      rw [List.nodup_cons] at hnd
      rcases pinv_cases (T A.diagind⟦i⟧) with ⟨b, hb, _⟩ | ⟨hb, hnu⟩
      · rw [hb, ok_bind, ok_bind]
        have := ih hnd.2 (fun j hj => hlt j (by simp [hj])) (i :: done) (by
          intro j hj hjd
          rcases List.mem_cons.mp hjd with rfl | hjd
          · exact hnd.1 hj
          · exact hdisj j (by simp [hj]) hjd) (s.1.set i b, y) (by simpa using h4) hyl (by
          intro j hj
          rcases List.mem_cons.mp hj with rfl | hj
          · refine ⟨hi, ?_⟩
            dsimp only
            rw [get0_set_self (by omega), hb]
          · refine ⟨(h6 j hj).1, ?_⟩
            dsimp only
            rw [get0_set_ne (by rintro rfl; exact hdisj i (by simp) hj), (h6 j hj).2]) (by
          intro p hp hr
          dsimp only
          by_cases hri : A.InRow i p
          · exact (hy p hp).1 hri
          · rw [(hy p hp).2 hri]
            refine h7 p hp ?_
            rcases List.mem_cons.mp hr with hr | hr
            · have := (hA.rowOf_spec hp).2
              rw [hr] at this
              exact absurd this hri
            · exact hr)
        refine ⟨this.1.mono ?_, this.2⟩
        rintro s' ⟨a1, a2, a3, a4⟩
        refine ⟨a1, a2, fun j hj => a3 j ?_, fun p hp hr => a4 p hp ?_⟩
        · simp only [List.mem_cons] at hj ⊢; tauto
        · simp only [List.mem_cons] at hr ⊢; tauto
      · rw [hb]
        exact ⟨Or.inr rfl, fun hu => absurd (hu i hi) hnu⟩
  obtain ⟨g1, g2⟩ := hgen ord (hord.nodup_iff.mpr List.nodup_range) (fun i hi => (hmem i).mp hi) []
    (by simp) (gd, ilu) hgd hl (by simp) (by simp)
  refine ⟨g1.mono ?_, g2⟩
  rintro s ⟨a1, a2, a3, a4⟩
  exact ⟨a1, a2, fun i hi => a3 i (Or.inr ((hmem i).mpr hi)), fun p hp =>
    a4 p hp (Or.inr ((hmem _).mpr (hA.rowOf_spec hp).1))⟩

/-- The SGS initialisation of the block factors. -/
theorem blockInitSgs_safe (hA : A.Full) (hS : A.Sorted) (hD : A.HasDiag) (hT : ScalOk A scal T)
    {gd : List R} (hgd : gd.length = A.nbrows) {ord ord2 : List Nat}
    (hord : ord.Perm (List.range A.nbrows)) (hord2 : ord2.Perm (List.range A.nbrows)) {ilu : List R}
    (hl : ilu.length = A.browptr⟦A.nbrows⟧) :
    Safe (blockFactInitSgs A scal gd ord ord2 ilu) (fun ilu' => ilu'.length = A.browptr⟦A.nbrows⟧ ∧
      ∃ dinv : Nat → R, (∀ i < A.nbrows, pinv (T A.diagind⟦i⟧) = .ok (dinv i)) ∧
        ∀ p < A.browptr⟦A.nbrows⟧, ilu'⟦p⟧ =
          if A.bcolind⟦p⟧ < A.rowOf p then T p * dinv A.bcolind⟦p⟧ else T p) ∧
    ((∀ i < A.nbrows, IsUnit (T A.diagind⟦i⟧)) →
      ∃ ilu', blockFactInitSgs A scal gd ord ord2 ilu = .ok ilu') := by
  have h1 := hA.ptr_len
  have h2 := hA.ind_len
  have h3 := hD.diag_len
  obtain ⟨g1, g2⟩ := blockSgs_loop1 hA hD hT hgd hord hl
  unfold blockFactInitSgs
  rcases g1 with ⟨⟨db, il⟩, he, a1, a2, a3, a4⟩ | he
  · rw [he, ok_bind]
    dsimp only at a1 a2 a3 a4 ⊢
    have : Ok (parFor A.nbrows ord2 (fun i ilu => do
      let lo ← rd A.browptr i
      let d ← rd A.diagind i
      forRange lo d (fun j ilu => do
        let a ← rd ilu j
        let c ← rd A.bcolind j
        let w ← rd db c
        wr ilu j (a * w)) ilu) il) (fun ilu' => ilu'.length = A.browptr⟦A.nbrows⟧ ∧
          ∀ p < A.browptr⟦A.nbrows⟧, ilu'⟦p⟧ =
          if A.bcolind⟦p⟧ < A.rowOf p then T p * db⟦A.bcolind⟦p⟧⟧ else T p) := by
      refine par_rows hA hord2 a2 _ fun i hi y' hl' hold => ?_
      have hdr := hD.inRow hi
      have hd1 := hdr.1
      have hd2 := hdr.2
      have h5 := hA.ptr_le (i := i + 1) (j := A.nbrows) hi (Nat.le_refl _)
      rw [rd_eq (by omega), ok_bind, rd_eq (by omega), ok_bind]
      refine (forRange_cells hd1 (by omega) (fun p a => a * db⟦A.bcolind⟦p⟧⟧) ?_).mono ?_
      · intro j hj1 hj2 a' ha'
        have h8 := hA.col_lt j (by omega)
        rw [rd_eq (by omega), ok_bind, rd_eq (by omega), ok_bind, rd_eq (by omega), ok_bind,
          wr_eq (by omega)]
      · rintro y2 ⟨h8, h9⟩
        refine ⟨by omega, fun c hc => ⟨fun hr => ?_, fun hr => ?_⟩⟩
        · rw [h9 c (by omega), hA.rowOf_eq hi hr, hold c hr, a4 c hc]
          have hiff := hS.lt_iff hi hr hdr
          rw [hD.diag_col i hi] at hiff
          by_cases hc' : c < A.diagind⟦i⟧
          · rw [if_pos ⟨hr.1, hc'⟩, if_pos (hiff.mpr hc')]
          · rw [if_neg (by tauto), if_neg (by tauto)]
        · have hr' : ¬ (A.browptr⟦i⟧ ≤ c ∧ c < A.browptr⟦i + 1⟧) := hr
          rw [h9 c (by omega), if_neg (by omega)]
    exact ⟨(this.mono fun y hy => ⟨hy.1, fun i => db⟦i⟧, a3, hy.2⟩).safe, fun _ => by
      obtain ⟨y, hy, _⟩ := this
      exact ⟨y, hy⟩⟩
  · rw [he]
    refine ⟨Or.inr rfl, fun hu => ?_⟩
    obtain ⟨s, hs⟩ := g2 hu
    rw [he] at hs
    cases hs

/-- No initialisation fails except by inverting a singular block. -/
theorem blockFactInit_safe (hA : A.Full) (hS : A.Sorted) (hD : A.HasDiag) (hT : ScalOk A scal T)
    {ft : FactInit} {scaled : Bool}
    (hs : scaled = false → ∀ p < A.browptr⟦A.nbrows⟧, T p = A.vals⟦p⟧)
    {gd : List R} (hgd : gd.length = A.nbrows) {ord ord2 ordc : List Nat}
    (hord : ord.Perm (List.range A.nbrows)) (hord2 : ord2.Perm (List.range A.nbrows))
    (hordc : ordc.Perm (List.range A.browptr⟦A.nbrows⟧)) {ilu : List R}
    (hl : ilu.length = A.browptr⟦A.nbrows⟧) :
    Safe (blockFactInit A ft scaled scal gd ord ord2 ordc ilu)
      (fun l => l.length = A.browptr⟦A.nbrows⟧) ∧
    ((ft = .sgs → ∀ i < A.nbrows, IsUnit (T A.diagind⟦i⟧)) →
      ∃ l, blockFactInit A ft scaled scal gd ord ord2 ordc ilu = .ok l) := by
  cases ft with
  | none => exact ⟨Or.inl ⟨ilu, rfl, hl⟩, fun _ => ⟨ilu, rfl⟩⟩
  | zero =>
    have : Ok (blockFactInit A .zero scaled scal gd ord ord2 ordc ilu) (fun y =>
        y.length = A.browptr⟦A.nbrows⟧ ∧ ∀ c < A.browptr⟦A.nbrows⟧, y⟦c⟧ = (0 : R)) :=
      par_stored hA hordc hl (fun _ => 0) fun i hi y' hl => wr_eq (by omega)
    exact ⟨(this.mono fun y hy => hy.1).safe, fun _ => by obtain ⟨y, hy, _⟩ := this; exact ⟨y, hy⟩⟩
  | original =>
    have := blockInitOriginal_ok (gd := gd) (ord2 := ord2) hA hT hs hord hordc hl
    exact ⟨(this.mono fun y hy => hy.1).safe, fun _ => by obtain ⟨y, hy, _⟩ := this; exact ⟨y, hy⟩⟩
  | sgs =>
    have := blockInitSgs_safe hA hS hD hT hgd hord hord2 hl
    exact ⟨this.1.mono fun y hy => hy.1, fun hu => this.2 (hu rfl)⟩

omit [Ring R] [PInv R] in
theorem diagind_ne (hA : A.Full) (hD : A.HasDiag) {i j : Nat} (hi : i < A.nbrows) (hj : j < A.nbrows)
    (h : i ≠ j) : A.diagind⟦i⟧ ≠ A.diagind⟦j⟧ := by
  intro e
  apply h
  have h1 := hA.rowOf_eq hi (hD.inRow hi)
  have h2 := hA.rowOf_eq hj (hD.inRow hj)
  rw [← h1, ← h2, e]

/-- The final inversion of the diagonal blocks. -/
theorem blockInvertDiag_cases (hA : A.Full) (hD : A.HasDiag) {ord : List Nat}
    (hord : ord.Perm (List.range A.nbrows)) {ilu : List R} (hl : ilu.length = A.browptr⟦A.nbrows⟧) :
    (∃ y, blockInvertDiag A ord ilu = .ok y ∧ y.length = A.browptr⟦A.nbrows⟧ ∧
      (∀ i < A.nbrows, ilu⟦A.diagind⟦i⟧⟧ * y⟦A.diagind⟦i⟧⟧ = 1 ∧ y⟦A.diagind⟦i⟧⟧ * ilu⟦A.diagind⟦i⟧⟧ = 1) ∧
      (∀ p, (∀ i < A.nbrows, p ≠ A.diagind⟦i⟧) → y⟦p⟧ = ilu⟦p⟧)) ∨
    (blockInvertDiag A ord ilu = .error .divzero ∧ ∃ i < A.nbrows, ¬ IsUnit ilu⟦A.diagind⟦i⟧⟧) := by
  rw [show blockInvertDiag A ord ilu = forList ord (blockInvertDiagRow A) ilu from parFor_eq hord _ _]
  have h3 := hD.diag_len
  have hmem : ∀ i, i ∈ ord ↔ i < A.nbrows := fun i => by rw [hord.mem_iff, List.mem_range]
  have hgen : ∀ l : List Nat, l.Nodup → (∀ i ∈ l, i < A.nbrows) → ∀ x : List R,
      x.length = A.browptr⟦A.nbrows⟧ →
      (∃ y, forList l (blockInvertDiagRow A) x = .ok y ∧ y.length = A.browptr⟦A.nbrows⟧ ∧
      (∀ i ∈ l, x⟦A.diagind⟦i⟧⟧ * y⟦A.diagind⟦i⟧⟧ = 1 ∧ y⟦A.diagind⟦i⟧⟧ * x⟦A.diagind⟦i⟧⟧ = 1) ∧
      (∀ p, (∀ i ∈ l, p ≠ A.diagind⟦i⟧) → y⟦p⟧ = x⟦p⟧)) ∨
      (forList l (blockInvertDiagRow A) x = .error .divzero ∧ ∃ i < A.nbrows, ¬ IsUnit x⟦A.diagind⟦i⟧⟧) := by
    intro l
    induction l with
    | nil => intro _ _ x hx; exact Or.inl ⟨x, rfl, hx, by simp, by simp⟩
    | cons i l ih =>
      intro hnd hlt x hx
      rw [List.nodup_cons] at hnd
      have hi := hlt i (by simp)
      have hdn := hA.lt_nnz hi (hD.inRow hi).2
      have e : forList (i :: l) (blockInvertDiagRow A) x = (do
          let w ← pinv x⟦A.diagind⟦i⟧⟧
          forList l (blockInvertDiagRow A) (x.set A.diagind⟦i⟧ w)) := by
        rw [forList_cons, blockInvertDiagRow, rd_eq (by omega), ok_bind, rd_eq (by omega), ok_bind]
        cases pinv x⟦A.diagind⟦i⟧⟧ with
        | error e => rfl
        | ok w => rw [ok_bind, ok_bind, wr_eq (by omega), ok_bind]
      rw [e]
      rcases pinv_cases x⟦A.diagind⟦i⟧⟧ with ⟨b, hb, hb1, hb2⟩ | ⟨hb, hnu⟩
      · rw [hb, ok_bind]
        have hne : ∀ j ∈ l, A.diagind⟦i⟧ ≠ A.diagind⟦j⟧ := fun j hj =>
          diagind_ne hA hD hi (hlt j (by simp [hj])) (by rintro rfl; exact hnd.1 hj)
        rcases ih hnd.2 (fun j hj => hlt j (by simp [hj])) (x.set A.diagind⟦i⟧ b) (by simpa using hx) with
          ⟨y, h4, h5, h6, h7⟩ | ⟨h4, j, hj, hnu⟩
        · refine Or.inl ⟨y, h4, h5, ?_, ?_⟩
          · intro j hj
            rcases List.mem_cons.mp hj with rfl | hj
            · rw [h7 _ hne, get0_set_self (by omega)]
              exact ⟨hb1, hb2⟩
            · have := h6 j hj
              rwa [get0_set_ne (hne j hj)] at this
          · intro p hp
            rw [h7 p fun j hj => hp j (by simp [hj]), get0_set_ne (fun e => hp i (by simp) e.symm)]
        · refine Or.inr ⟨h4, j, hj, ?_⟩
          by_cases hij : i = j
          · subst hij
            rw [get0_set_self (by omega)] at hnu
            exact absurd (pinv_isUnit hb) hnu
          · rwa [get0_set_ne (diagind_ne hA hD hi hj hij)] at hnu
      · rw [hb]
        exact Or.inr ⟨rfl, i, hi, hnu⟩
  rcases hgen ord (hord.nodup_iff.mpr List.nodup_range) (fun i hi => (hmem i).mp hi) ilu hl with
    ⟨y, h4, h5, h6, h7⟩ | h4
  · refine Or.inl ⟨y, h4, h5, fun i hi => h6 i ((hmem i).mpr hi), fun p hp => h7 p fun i hi =>
      hp i ((hmem i).mp hi)⟩
  · exact Or.inr h4

/-- The residual of the factors `ilu` relative to the target values `T`. -/
def resSum [AddCommMonoid K] (norm : R → K) (A : SR R) (T : Nat → R) (ilu : List R) : K :=
  ∑ i ∈ range A.nbrows, ∑ p ∈ Ico A.browptr⟦i⟧ A.browptr⟦i + 1⟧, norm (T p - luProd A ilu i A.bcolind⟦p⟧)

/-- The factorization is: initialise, sweep, invert the diagonal; the information are two residuals. -/
theorem blockFactorize_eq [AddCommMonoid K] (norm : R → K) (hA : A.Full) (hS : A.Sorted) (hD : A.HasDiag)
    {pos : ILUPos} (hpos : ILUPosOk A pos) (hT : ScalOk A scal T)
    {ft : FactInit} {scaled : Bool}
    (hs : scaled = false → ∀ p < A.browptr⟦A.nbrows⟧, T p = A.vals⟦p⟧)
    {gd : List R} (hgd : gd.length = A.nbrows) {ord ord2 ordc : List Nat}
    (hord : ord.Perm (List.range A.nbrows)) (hord2 : ord2.Perm (List.range A.nbrows))
    (hordc : ordc.Perm (List.range A.browptr⟦A.nbrows⟧)) {ilu : List R}
    (hl : ilu.length = A.browptr⟦A.nbrows⟧) (k : Nat) (info : Bool) :
    blockIlu0Factorize norm A pos k ft scaled scal info gd ord ord2 ordc ilu = (do
      let ilu1 ← blockFactInit A ft scaled scal gd ord ord2 ordc ilu
      let u ← iluSweeps A scal pos k ilu1
      let y ← blockInvertDiag A ord u
      .ok (if info then some ⟨resSum norm A T ilu1, resSum norm A T u⟩ else none, y)) := by
  have hres : ∀ ilu : List R, ilu.length = A.browptr⟦A.nbrows⟧ →
      iluRes norm A scal pos ord ilu = .ok (resSum norm A T ilu) := fun ilu hl =>
    iluRes_eq norm hA hS hD hpos hT hord hl
  have hres' : ∀ ilu : List R, ilu.length = A.browptr⟦A.nbrows⟧ →
      resIf info (iluRes norm A scal pos ord ilu) =
        .ok (if info then some (resSum norm A T ilu) else none) := fun ilu hl => by
    rw [hres ilu hl]; cases info <;> rfl
  unfold blockIlu0Factorize
  rcases (blockFactInit_safe (ft := ft) hA hS hD hT hs hgd hord hord2 hordc hl).1 with ⟨ilu1, h1, hl1⟩ | h1
  · rw [h1, ok_bind, ok_bind, hres' ilu1 hl1, ok_bind]
    rcases iluSweeps_fail hA hS hD hpos hT k hl1 with ⟨u, h2, hl2⟩ | h2
    · rw [h2, ok_bind, ok_bind, hres' u hl2, ok_bind]
      cases blockInvertDiag A ord u with
      | error e => rfl
      | ok y => cases info <;> rfl
    · rw [h2]; rfl
  · rw [h1]; rfl

end ring

/-! ### Scaling of blocks -/

section scale
variable [Field K] {bs : Nat}

/-- Scaling factors of the rows of block row `i`: `isq` of the diagonal of the matrix if scaling is on,
1 otherwise. -/
def blockScaleFac (isq : K → K) (us : Bool) (A : SR (Matrix (Fin bs) (Fin bs) K)) (i : Nat) (a : Fin bs) : K :=
  if us then isq (A.entry i i a a) else 1

/-- Block `(i,j)` of the symmetrically scaled matrix. -/
def blockScaledEntry (isq : K → K) (us : Bool) (A : SR (Matrix (Fin bs) (Fin bs) K)) (i j : Nat) :
    Matrix (Fin bs) (Fin bs) K :=
  Matrix.of fun a b => blockScaleFac isq us A i a * A.entry i j a b * blockScaleFac isq us A j b

/-- The scaling vector is the one of the current matrix. -/
def BlockScaleIs (isq : K → K) (us : Bool) (A : SR (Matrix (Fin bs) (Fin bs) K)) (o : Option (List K)) : Prop :=
  if us then ∃ s, o = some s ∧ s.length = A.nbrows * bs ∧
    ∀ i < A.nbrows, ∀ a : Fin bs, s⟦i * bs + a.val⟧ = isq (A.entry i i a a)
  else o = none

variable {isq : K → K} {us : Bool} {A : SR (Matrix (Fin bs) (Fin bs) K)} {o : Option (List K)}

theorem blk_idx_lt {n i : Nat} (hi : i < n) (a : Fin bs) : i * bs + a.val < n * bs := by
  have : (i + 1) * bs ≤ n * bs := Nat.mul_le_mul_right _ hi
  rw [Nat.add_mul] at this
  have := a.isLt
  omega

theorem blk_idx_inj {i i' : Nat} {a a' : Fin bs} (h : i * bs + a.val = i' * bs + a'.val) :
    i = i' ∧ a = a' := by
  have hb : 0 < bs := by have := a.isLt; omega
  have h1 : (i * bs + a.val) / bs = i := by
    rw [Nat.mul_comm, Nat.mul_add_div hb, Nat.div_eq_of_lt a.isLt, Nat.add_zero]
  have h2 : (i' * bs + a'.val) / bs = i' := by
    rw [Nat.mul_comm, Nat.mul_add_div hb, Nat.div_eq_of_lt a'.isLt, Nat.add_zero]
  have h3 : i = i' := by rw [← h1, ← h2, h]
  subst h3
  exact ⟨rfl, Fin.ext (by omega)⟩

/-- Every index of an array of `n` segments of length `bs` is in one of them. -/
theorem blk_idx_cases {n c : Nat} (h : c < n * bs) : ∃ i < n, ∃ a : Fin bs, c = i * bs + a.val := by
  have hb : 0 < bs := by
    rcases Nat.eq_zero_or_pos bs with rfl | h'
    · omega
    · exact h'
  refine ⟨c / bs, (Nat.div_lt_iff_lt_mul hb).mpr h, ⟨c % bs, Nat.mod_lt _ hb⟩, ?_⟩
  rw [Nat.mul_comm]; exact (Nat.div_add_mod c bs).symm

theorem getBlockScalingVector_ok (hA : A.Full) (hS : A.Sorted) (hD : A.HasDiag) {ord : List Nat}
    (hord : ord.Perm (List.range A.nbrows)) {s : List K} (hs : s.length = A.nbrows * bs) :
    Ok (getBlockScalingVector isq A ord s) (fun s' => s'.length = A.nbrows * bs ∧
      ∀ i < A.nbrows, ∀ a : Fin bs, s'⟦i * bs + a.val⟧ = isq (A.entry i i a a)) := by
  have h1 := hD.diag_len
  have h3 := hA.val_len
  have hmem : ∀ i, i ∈ ord ↔ i < A.nbrows := fun i => by rw [hord.mem_iff, List.mem_range]
  have hde : ∀ i < A.nbrows, A.entry i i = A.vals⟦A.diagind⟦i⟧⟧ := by
    intro i hi
    have h3 := hA.entry_stored hS hi (hD.inRow hi)
    rwa [hD.diag_col i hi] at h3
  unfold getBlockScalingVector
  rw [parFor_eq hord]
  refine (forList_ok (I := fun (done : List Nat) (s' : List K) => s'.length = A.nbrows * bs ∧
    ∀ i ∈ done, ∀ a : Fin bs, s'⟦i * bs + a.val⟧ = isq (A.entry i i a a)) ⟨hs, by simp⟩ ?_).mono ?_
  · rintro done i rest s' hl ⟨h4, h5⟩
    have hi : i < A.nbrows := (hmem i).mp (by rw [hl]; simp)
    refine (forList_ok (I := fun (dn : List (Fin bs)) (s'' : List K) => s''.length = A.nbrows * bs ∧
      (∀ a ∈ dn, s''⟦i * bs + a.val⟧ = isq (A.entry i i a a)) ∧
      ∀ j ∈ done, ∀ a : Fin bs, s''⟦j * bs + a.val⟧ = isq (A.entry j j a a)) ⟨h4, by simp, h5⟩ ?_).mono ?_
    · rintro dn a rest' s'' _ ⟨h6, h7, h8⟩
      have h9 := hA.lt_nnz hi (hD.diag_lt i hi)
      have h10 := blk_idx_lt hi a
      rw [rd_eq (by omega), ok_bind, rd_eq (by omega), ok_bind, wr_eq (by omega)]
      refine Ok.pure ⟨by simpa using h6, fun b hb => ?_, fun j hj b => ?_⟩
      · by_cases hab : a = b
        · subst hab
          rw [get0_set_self (by omega), hde i hi]
        · rw [get0_set_ne fun e => hab (blk_idx_inj e).2]
          refine h7 b ?_
          rcases List.mem_append.mp hb with hb | hb
          · exact hb
          · exact absurd (List.mem_singleton.mp hb).symm hab
      · by_cases hij : i * bs + a.val = j * bs + b.val
        · obtain ⟨rfl, rfl⟩ := blk_idx_inj hij
          rw [get0_set_self (by omega), hde i hi]
        · rw [get0_set_ne hij]
          exact h8 j hj b
    · rintro s'' ⟨h6, h7, h8⟩
      refine ⟨h6, fun j hj a => ?_⟩
      rcases List.mem_append.mp hj with hj | hj
      · exact h8 j hj a
      · rw [List.mem_singleton.mp hj]
        exact h7 a (List.mem_finRange a)
  · rintro s' ⟨h4, h5⟩
    exact ⟨h4, fun i hi => h5 i ((hmem i).mpr hi)⟩

theorem blockScaleIs_step (hA : A.Full) (hS : A.Sorted) (hD : A.HasDiag) {ord : List Nat}
    (hord : ord.Perm (List.range A.nbrows))
    (ho : if us then ∃ s, o = some s ∧ s.length = A.nbrows * bs else o = none) :
    Ok (updBlockScale isq A ord o) (BlockScaleIs isq us A) := by
  cases us with
  | false =>
    simp only [Bool.false_eq_true, if_false] at ho
    subst ho
    exact Ok.pure (by simp [BlockScaleIs])
  | true =>
    simp only [if_true] at ho
    obtain ⟨s, rfl, hl⟩ := ho
    refine (getBlockScalingVector_ok hA hS hD hord hl).bind ?_
    rintro s' ⟨h1, h2⟩
    refine Ok.pure ?_
    simp only [BlockScaleIs, if_true]
    exact ⟨s', rfl, h1, h2⟩

theorem BlockScaleIs.isSome (h : BlockScaleIs isq us A o) : o.isSome = us := by
  unfold BlockScaleIs at h
  cases us with
  | false => simp only [Bool.false_eq_true, if_false] at h; rw [h]; rfl
  | true => simp only [if_true] at h; obtain ⟨s, rfl, _⟩ := h; rfl

theorem BlockScaleIs.unique {o' : Option (List K)} (hs : BlockScaleIs isq us A o)
    (hs' : BlockScaleIs isq us A o') : o = o' := by
  unfold BlockScaleIs at hs hs'
  split at hs
  · rename_i hu
    simp only [hu, if_true] at hs'
    obtain ⟨s, e1, l1, v1⟩ := hs
    obtain ⟨s', e2, l2, v2⟩ := hs'
    rw [e1, e2]
    congr 1
    refine ext_get0 (by omega) fun c hc => ?_
    obtain ⟨i, hi, a, rfl⟩ := blk_idx_cases (bs := bs) (n := A.nbrows) (c := c) (by omega)
    rw [v1 i hi, v2 i hi]
  · rename_i hu
    simp only [hu] at hs'
    rw [hs]; exact hs'.symm

theorem BlockScaleIs.scales (hA : A.Full) (hS : A.Sorted) (h : BlockScaleIs isq us A o) :
    Scales A (blockScale? bs o) (blockScaledEntry isq us A) := by
  intro i hi p hp
  have h2 := hA.col_lt p (hA.lt_nnz hi hp.2)
  have h3 := hA.entry_stored hS hi hp
  unfold BlockScaleIs at h
  cases us with
  | false =>
    simp only [Bool.false_eq_true, if_false] at h
    subst h
    simp only [blockScale?, noScale]
    congr 1
    ext a b
    simp [blockScaledEntry, blockScaleFac, h3]
  | true =>
    simp only [if_true] at h
    obtain ⟨s, rfl, hl, hs⟩ := h
    simp only [blockScale?, blockScale]
    have e : ∀ j < A.nbrows, j * bs + bs ≤ s.length := by
      intro j hj
      have : (j + 1) * bs ≤ A.nbrows * bs := Nat.mul_le_mul_right _ hj
      rw [Nat.add_mul] at this
      omega
    rw [readBlock_eq (e i hi), ok_bind, readBlock_eq (e _ h2), ok_bind]
    congr 1
    ext a b
    have hb : ∀ (j : Nat) (c : Fin bs), (blockAt bs s j)⟦c.val⟧ = s⟦j * bs + c.val⟧ := by
      intro j c
      unfold blockAt
      rw [get0_map_range]
      simp
    simp only [Matrix.of_apply, blockScaledEntry, blockScaleFac, if_true, hb, hs i hi, hs _ h2, h3]
    rw [mul_comm (A.vals⟦p⟧ a b), mul_right_comm]

theorem blockScaledEntry_false (i j : Nat) : blockScaledEntry isq false A i j = A.entry i j := by
  ext a b
  simp [blockScaledEntry, blockScaleFac]

end scale

end Blasted
