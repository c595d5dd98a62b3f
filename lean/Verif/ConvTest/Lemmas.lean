import Verif.ConvTest.Model
import Verif.ConvTest.Spec
import Verif.ILU.ScalarProps
import Verif.Race.AsyncProps

/-!
# Lemmas for the convergence test
-/

namespace Blasted

open Finset

section norms
variable {K : Type} [Field K] [LinearOrder K] [IsStrictOrderedRing K]

omit [IsStrictOrderedRing K] in
theorem maxDiff_le {P : Finset Nat} {x y : List K} {c : K} : maxDiff P x y ≤ c ↔ 0 ≤ c ∧ ∀ p ∈ P, |x⟦p⟧ - y⟦p⟧| ≤ c := fold_max_le c

omit [IsStrictOrderedRing K] in
theorem maxDiff_nonneg (P : Finset Nat) (x y : List K) : 0 ≤ maxDiff P x y := (maxDiff_le.mp le_rfl).1

theorem maxDiff_self (P : Finset Nat) (x : List K) : maxDiff P x x = 0 :=
  le_antisymm (maxDiff_le.mpr ⟨le_rfl, fun p _ => by simp⟩) (maxDiff_nonneg ..)

theorem entryGap_eq (a b : K) : entryGap a b = |a - b| := by
  unfold entryGap
  split
  · rfl
  · rename_i h; exact (le_antisymm (not_lt.mp h) (abs_nonneg _)).symm

/-- A running maximum. -/
def MaxOver (P : Nat → Prop) (f : Nat → K) (m : K) : Prop := ∀ c, m ≤ c ↔ 0 ≤ c ∧ ∀ p, P p → f p ≤ c

omit [IsStrictOrderedRing K] in
theorem MaxOver.congr {P Q : Nat → Prop} {f : Nat → K} {m : K} (h : MaxOver P f m) (hPQ : ∀ p, P p ↔ Q p) : MaxOver Q f m := by
  intro c
  rw [h c]
  simp only [hPQ]

omit [IsStrictOrderedRing K] in
theorem MaxOver.step {P : Nat → Prop} {f : Nat → K} {m : K} (h : MaxOver P f m) (j : Nat) :
    MaxOver (fun p => P p ∨ p = j) f (if m < f j then f j else m) := by
  intro c
  have : (if m < f j then f j else m) = max m (f j) := by
    split
    · rename_i h; exact (max_eq_right h.le).symm
    · rename_i h; exact (max_eq_left (not_lt.mp h)).symm
  rw [this, max_le_iff, h c]
  constructor
  · rintro ⟨⟨h0, h1⟩, h2⟩
    refine ⟨h0, ?_⟩
    rintro p (hp | rfl)
    · exact h1 p hp
    · exact h2
  · rintro ⟨h0, h1⟩
    exact ⟨⟨h0, fun p hp => h1 p (Or.inl hp)⟩, h1 j (Or.inr rfl)⟩

theorem maxRow {lo hi : Nat} (hle : lo ≤ hi) {x y : List K} (hx : hi ≤ x.length) (hy : hi ≤ y.length) {P : Nat → Prop} {m : K}
    (h : MaxOver P (fun p => |x⟦p⟧ - y⟦p⟧|) m) :
    Ok (forRange lo hi (fun jj maxnorm => do
      let a ← rd x jj
      let b ← rd y jj
      .ok (if maxnorm < entryGap a b then entryGap a b else maxnorm)) m) (MaxOver (fun p => P p ∨ lo ≤ p ∧ p < hi) fun p => |x⟦p⟧ - y⟦p⟧|) := by
  refine forRange_ok (fun j => MaxOver (fun p => P p ∨ lo ≤ p ∧ p < j) fun p => |x⟦p⟧ - y⟦p⟧|) hle (h.congr fun p => ?_) ?_
  · constructor
    · exact Or.inl
    · rintro (h | h)
      · exact h
      · omega
  · intro j s h1 h2 hs
    rw [rd_eq (by omega), ok_bind, rd_eq (by omega), ok_bind, entryGap_eq]
    refine Ok.pure ((hs.step j).congr fun p => ?_)
    constructor
    · rintro ((h | h) | h)
      · exact Or.inl h
      · exact Or.inr (by omega)
      · exact Or.inr (by omega)
    · rintro (h | h)
      · exact Or.inl (Or.inl h)
      · by_cases hp : p = j
        · exact Or.inr hp
        · exact Or.inl (Or.inr (by omega))

/-- The loop of both norms. -/
theorem maxRows {n : Nat} {ord : List Nat} (hord : ord.Perm (List.range n)) {a b : List Nat} (ha : n ≤ a.length) (hb : n ≤ b.length)
    {x y : List K} (hle : ∀ i < n, a⟦i⟧ ≤ b⟦i⟧) (hx : ∀ i < n, b⟦i⟧ ≤ x.length) (hy : ∀ i < n, b⟦i⟧ ≤ y.length) {P : Finset Nat}
    (hP : ∀ p, p ∈ P ↔ ∃ i < n, a⟦i⟧ ≤ p ∧ p < b⟦i⟧) :
    parFor n ord (fun irow maxnorm => do
      let lo ← rd a irow
      let hi ← rd b irow
      forRange lo hi (fun jj maxnorm => do
        let a ← rd x jj
        let b ← rd y jj
        .ok (if maxnorm < entryGap a b then entryGap a b else maxnorm)) maxnorm) 0 = .ok (maxDiff P x y) := by
  rw [parFor_eq hord]
  have : Ok (forList ord (fun irow maxnorm => do
      let lo ← rd a irow
      let hi ← rd b irow
      forRange lo hi (fun jj maxnorm => do
        let a ← rd x jj
        let b ← rd y jj
        .ok (if maxnorm < entryGap a b then entryGap a b else maxnorm)) maxnorm) 0)
      (MaxOver (fun p => ∃ i ∈ ord, a⟦i⟧ ≤ p ∧ p < b⟦i⟧) fun p => |x⟦p⟧ - y⟦p⟧|) := by
    refine forList_ok (fun done => MaxOver (fun p => ∃ i ∈ done, a⟦i⟧ ≤ p ∧ p < b⟦i⟧) fun p => |x⟦p⟧ - y⟦p⟧|) ?_ ?_
    · intro c; simp
    · intro done i rest s hl hs
      have hi : i < n := List.mem_range.mp (hord.mem_iff.mp (by rw [hl]; simp))
      rw [rd_eq (by omega), ok_bind, rd_eq (by omega), ok_bind]
      refine (maxRow (hle i hi) (hx i hi) (hy i hi) hs).mono fun m hm => hm.congr fun p => ?_
      constructor
      · rintro (⟨k, h1, h2⟩ | h)
        · exact ⟨k, by simp [h1], h2⟩
        · exact ⟨i, by simp, h⟩
      · rintro ⟨k, h1, h2⟩
        rcases List.mem_append.mp h1 with h | h
        · exact Or.inl ⟨k, h, h2⟩
        · rw [List.mem_singleton] at h
          subst h
          exact Or.inr h2
  obtain ⟨m, h1, h2⟩ := this
  rw [h1]
  refine congrArg Except.ok (eq_of_forall_ge_iff fun c => ?_)
  rw [h2 c, maxDiff_le]
  refine and_congr_right fun _ => forall_congr' fun p => ?_
  rw [hP]
  refine imp_congr_left ⟨?_, ?_⟩
  · rintro ⟨i, hi, h⟩
    exact ⟨i, List.mem_range.mp (hord.mem_iff.mp hi), h⟩
  · rintro ⟨i, hi, h⟩
    exact ⟨i, hord.mem_iff.mpr (List.mem_range.mpr hi), h⟩

variable {A : SR K} (hA : A.Full) (hS : A.Sorted) (hD : A.HasDiag)
include hA hS hD

omit hA in
omit [Field K] [LinearOrder K] [IsStrictOrderedRing K] in
theorem below_iff {i p : Nat} (hi : i < A.nbrows) (hp : A.InRow i p) : A.bcolind⟦p⟧ < i ↔ p < A.diagind⟦i⟧ := by
  have h1 := hD.diag_col i hi
  have h2 := hD.diag_ge i hi
  have h3 := hD.diag_lt i hi
  constructor
  · intro h
    by_contra hc
    rcases Nat.lt_or_eq_of_le (Nat.le_of_not_lt hc) with h4 | h4
    · have := hS i hi _ _ h2 h4 hp.2
      omega
    · rw [← h4] at h; omega
  · intro h
    have := hS i hi _ _ hp.1 h h3
    omega

theorem maxnormLower_eq {ord : List Nat} (hord : ord.Perm (List.range A.nbrows)) {x y : List K} (hx : x.length = A.browptr⟦A.nbrows⟧) (hy : y.length = A.browptr⟦A.nbrows⟧) :
    maxnormLower A ord x y = .ok (maxDiff (lowerPos A) x y) := by
  have hlt : ∀ i < A.nbrows, A.diagind⟦i⟧ ≤ A.browptr⟦A.nbrows⟧ := fun i hi => (hA.lt_nnz hi (hD.diag_lt i hi)).le
  refine maxRows hord (by rw [hA.ptr_len]; omega) (by rw [hD.diag_len]) hD.diag_ge (by rw [hx]; exact hlt) (by rw [hy]; exact hlt) fun p => ?_
  unfold lowerPos
  rw [mem_filter, mem_range]
  constructor
  · rintro ⟨hp, hc⟩
    obtain ⟨hi, hr⟩ := hA.rowOf_spec hp
    exact ⟨_, hi, hr.1, (below_iff hS hD hi hr).mp hc⟩
  · rintro ⟨i, hi, h1, h2⟩
    have hr : A.InRow i p := ⟨h1, h2.trans (hD.diag_lt i hi)⟩
    refine ⟨hA.lt_nnz hi hr.2, ?_⟩
    rw [hA.rowOf_eq hi hr]
    exact (below_iff hS hD hi hr).mpr h2

theorem maxnormUpper_eq {ord : List Nat} (hord : ord.Perm (List.range A.nbrows)) {x y : List K} (hx : x.length = A.browptr⟦A.nbrows⟧) (hy : y.length = A.browptr⟦A.nbrows⟧) :
    maxnormUpper A ord x y = .ok (maxDiff (upperPos A) x y) := by
  have hlt : ∀ i < A.nbrows, A.browendptr⟦i⟧ ≤ A.browptr⟦A.nbrows⟧ := fun i hi => by rw [hA.end_eq i hi]; exact hA.ptr_le hi (Nat.le_refl _)
  refine maxRows hord (by rw [hD.diag_len]) (by rw [hA.end_len]) (fun i hi => by rw [hA.end_eq i hi]; exact (hD.diag_lt i hi).le) (by rw [hx]; exact hlt) (by rw [hy]; exact hlt) fun p => ?_
  unfold upperPos
  rw [mem_filter, mem_range]
  constructor
  · rintro ⟨hp, hc⟩
    obtain ⟨hi, hr⟩ := hA.rowOf_spec hp
    have := (below_iff hS hD hi hr).not.mp (by omega)
    exact ⟨_, hi, by omega, by rw [hA.end_eq _ hi]; exact hr.2⟩
  · rintro ⟨i, hi, h1, h2⟩
    have hr : A.InRow i p := ⟨(hD.diag_ge i hi).trans h1, by rw [← hA.end_eq i hi]; exact h2⟩
    refine ⟨hA.lt_nnz hi hr.2, ?_⟩
    rw [hA.rowOf_eq hi hr]
    have := (below_iff hS hD hi hr).not.mpr (by omega)
    omega

end norms

/-! ### Copies and averages -/

section copies
variable {K : Type} [Field K] [LinearOrder K]

omit [Field K] [LinearOrder K] in
theorem list_ext0 [Zero K] {a b : List K} (hl : a.length = b.length) (h : ∀ i < a.length, a⟦i⟧ = b⟦i⟧) : a = b := by
  refine List.ext_getElem hl fun i h1 h2 => ?_
  have := h i h1
  simpa [get0, h1, h2] using this

omit [LinearOrder K] in
/-- A loop that gives every component a new value. -/
theorem mapLoop {n : Nat} {body : Nat → List K → C (List K)} {f : Nat → K → K} {dst : List K} (hn : n = dst.length)
    (hb : ∀ i < n, ∀ d : List K, d.length = n → body i d = .ok (d.set i (f i d⟦i⟧))) :
    Ok (forRange 0 n body dst) fun d => d.length = n ∧ ∀ i < n, d⟦i⟧ = f i dst⟦i⟧ := by
  refine (forRange_ok (fun j d => d.length = n ∧ ∀ i < n, d⟦i⟧ = if i < j then f i dst⟦i⟧ else dst⟦i⟧) (Nat.zero_le _) ⟨hn.symm, fun i _ => by simp⟩ ?_).mono ?_
  · rintro j d - hj ⟨h1, h2⟩
    rw [hb j hj d h1]
    refine Ok.pure ⟨by simp [h1], fun i hi => ?_⟩
    by_cases hij : i = j
    · subst hij
      rw [get0_set_self (by omega), h2 i hi, if_neg (by omega), if_pos (by omega)]
    · rw [get0_set_ne (by omega), h2 i hi]
      by_cases h3 : i < j
      · rw [if_pos h3, if_pos (by omega)]
      · rw [if_neg h3, if_neg (by omega)]
  · rintro d ⟨h1, h2⟩
    exact ⟨h1, fun i hi => by rw [h2 i hi, if_pos hi]⟩

omit [LinearOrder K] in
theorem copyVals_eq {n : Nat} {src dst : List K} (hs : src.length = n) (hd : dst.length = n) : copyVals n src dst = .ok src := by
  obtain ⟨d, h1, h2, h3⟩ := mapLoop (f := fun i _ => src⟦i⟧) (dst := dst) hd.symm (body := fun i dst => do
    let v ← rd src i
    wr dst i v) fun i hi d hd => by rw [rd_eq (by omega), ok_bind, wr_eq (by omega)]
  unfold copyVals
  rw [h1]
  exact congrArg Except.ok (list_ext0 (by omega) fun i hi => h3 i (by omega))

omit [LinearOrder K] in
theorem addVals_eq {n : Nat} {src dst : List K} (hs : src.length = n) (hd : dst.length = n) :
    Ok (addVals n src dst) fun d => d.length = n ∧ ∀ i < n, d⟦i⟧ = dst⟦i⟧ + src⟦i⟧ :=
  mapLoop (f := fun i a => a + src⟦i⟧) hd.symm fun i hi d hd => by rw [rd_eq (by omega), ok_bind, rd_eq (by omega), ok_bind, wr_eq (by omega)]

omit [LinearOrder K] in
theorem divVals_eq {n r : Nat} (hr : r ≠ 0) {dst : List K} (hd : dst.length = n) :
    Ok (divVals n r dst) fun d => d.length = n ∧ ∀ i < n, d⟦i⟧ = dst⟦i⟧ / r := by
  unfold divVals
  rw [if_neg hr]
  exact mapLoop (f := fun _ a => a / (r : K)) hd.symm fun i hi d hd => by rw [rd_eq (by omega), ok_bind, wr_eq (by omega)]

end copies

/-! ### The loop -/

section loop
variable {K : Type} [Field K] [LinearOrder K]

omit [Field K] in
theorem convUpdate_isweep (tol : K) (M : Int) (e : K × K) (st : ConvState) : (convUpdate tol M e st).isweep = st.isweep + 1 := by
  unfold convUpdate; split <;> split <;> rfl

omit [Field K] in
/-- If a check ends with convergence, the errors are small. -/
theorem convUpdate_sound {tol : K} {M : Int} {e : K × K} {st : ConvState} (h : (convUpdate tol M e st).converged = true) : e.1 ≤ tol ∧ e.2 ≤ tol := by
  unfold convUpdate at h
  split at h
  · split at h
    · cases h
    · rename_i h1 h2
      push Not at h2
      exact h2
  · split at h
    · rename_i h1 h2
      exact ⟨h2.1.le, h2.2.le⟩
    · rename_i h1 h2
      exact absurd h h1

omit [Field K] in
theorem convUpdate_small {tol : K} {M : Int} {e : K × K} {st : ConvState} (h1 : e.1 < tol) (h2 : e.2 < tol) : (convUpdate tol M e st).converged = true := by
  unfold convUpdate
  split
  · rename_i h
    rw [if_neg (by push Not; exact ⟨h1.le, h2.le⟩)]
    exact h
  · rw [if_pos ⟨h1, h2⟩]

/-- What holds of the variables of the loop. -/
structure LoopInv (M : Int) (st : ConvState) : Prop where
  open_max : st.converged = false → st.curmaxsweeps = M
  bound : st.curmaxsweeps ≤ M + 2

omit [Field K] in
theorem convUpdate_inv {tol : K} {M : Int} {e : K × K} {st : ConvState} (h : LoopInv M st) (hlt : (st.isweep : Int) < st.curmaxsweeps) : LoopInv M (convUpdate tol M e st) := by
  unfold convUpdate
  split
  · split
    · exact ⟨fun _ => rfl, by dsimp only; omega⟩
    · rename_i hc _
      exact ⟨fun h' => absurd hc (by rw [show st.converged = false from h']; decide), h.bound⟩
  · rename_i hc
    have hc' : st.converged = false := by simpa using hc
    have := h.open_max hc'
    split
    · refine ⟨fun h' => absurd h' (by simp), ?_⟩
      dsimp only
      push_cast
      omega
    · exact ⟨fun _ => this, h.bound⟩

omit [Field K] in
/-- The loop: `P s x` holds of the factors `x` compared after `s` passes; `e` gives their errors. -/
theorem convLoop_ok {next : Nat → List K → C (List K)} {check : List K → ConvState → C ConvState} {tol : K} {M : Int} {e : List K → K × K} {P : Nat → List K → Prop}
    (hn : ∀ s x, P s x → Ok (next s x) (P (s + 1))) (hc : ∀ s x st, P (s + 1) x → check x st = .ok (convUpdate tol M (e x) st)) :
    ∀ (fuel : Nat) st x, LoopInv M st → P st.isweep x →
      (((st.isweep + fuel : Nat) : Int) < M + 2 ∧ convLoop next check fuel st x = .error .fuel) ∨
      ∃ st' x', convLoop next check fuel st x = .ok (st', x') ∧ LoopInv M st' ∧ P st'.isweep x' ∧ st'.curmaxsweeps ≤ st'.isweep ∧
        ((st.curmaxsweeps ≤ st.isweep ∧ st' = st ∧ x' = x) ∨ (st.isweep < st'.isweep ∧ ∃ st'', st' = convUpdate tol M (e x') st'')) := by
  intro fuel
  induction fuel with
  | zero =>
    intro st x hi hx
    have := hi.bound
    unfold convLoop
    by_cases hlt : (st.isweep : Int) < st.curmaxsweeps
    · rw [if_pos hlt]
      exact Or.inl ⟨by push_cast; omega, rfl⟩
    · rw [if_neg hlt]
      exact Or.inr ⟨st, x, rfl, hi, hx, by omega, Or.inl ⟨by omega, rfl, rfl⟩⟩
  | succ fuel ih =>
    intro st x hi hx
    unfold convLoop
    by_cases hlt : (st.isweep : Int) < st.curmaxsweeps
    · rw [if_pos hlt]
      obtain ⟨y, hy, hPy⟩ := hn _ _ hx
      rw [hy]
      dsimp only
      rw [ok_bind, hc _ _ st hPy, ok_bind]
      have hs := convUpdate_isweep tol M (e y) st
      rcases ih (convUpdate tol M (e y) st) y (convUpdate_inv hi hlt) (by rw [hs]; exact hPy) with ⟨h1, h2⟩ | ⟨st', x', h1, h2, h3, h4, h5⟩
      · exact Or.inl ⟨by rw [hs] at h1; push_cast at h1 ⊢; omega, h2⟩
      · refine Or.inr ⟨st', x', h1, h2, h3, h4, Or.inr ?_⟩
        rcases h5 with ⟨-, rfl, rfl⟩ | ⟨h5, h6⟩
        · exact ⟨by omega, st, rfl⟩
        · exact ⟨by omega, h6⟩
    · rw [if_neg hlt]
      exact Or.inr ⟨st, x, rfl, hi, hx, by omega, Or.inl ⟨by omega, rfl, rfl⟩⟩

omit [Field K] [LinearOrder K] in
/-- If a pass of the loop ends with an error whatever the variables, so does the loop. -/
theorem convLoop_err {next : Nat → List K → C (List K)} {check : List K → ConvState → C ConvState} {f : Fail} {fuel : Nat} {st : ConvState} {x y : List K}
    (hlt : (st.isweep : Int) < st.curmaxsweeps) (hn : next st.isweep x = .ok y) (hc : ∀ st, check y st = .error f) : convLoop next check (fuel + 1) st x = .error f := by
  unfold convLoop
  rw [if_pos hlt, hn]
  dsimp only
  rw [ok_bind, hc]
  rfl

end loop

end Blasted
