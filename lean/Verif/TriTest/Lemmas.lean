import Verif.TriTest.Model
import Verif.TriTest.Spec
import Verif.ConvTest.CoreLemmas
import Verif.Info.Props
import Verif.Solve.IluProps

/-!
# Lemmas for the convergence test of the triangular solves
-/

namespace Blasted

open Finset

section norms
variable {K : Type} [Field K] [LinearOrder K] [IsStrictOrderedRing K]

omit [IsStrictOrderedRing K] in
theorem maxnormDiff_eq {ord : List Nat} {x y : List K} (hord : ord.Perm (List.range x.length)) (hl : x.length = y.length) :
    maxnormDiff ord x y = .ok (maxDiff (range x.length) x y) := by
  unfold maxnormDiff
  rw [cassert_true (decide_eq_true hl), ok_bind, parFor_eq hord]
  have : Ok (forList ord (fun i mn => do
      let a ← rd x i
      let b ← rd y i
      .ok (if mn < |a - b| then |a - b| else mn)) 0) (MaxOver (fun p => p ∈ ord) fun p => |x⟦p⟧ - y⟦p⟧|) := by
    refine forList_ok (fun done => MaxOver (fun p => p ∈ done) fun p => |x⟦p⟧ - y⟦p⟧|) ?_ ?_
    · intro c; simp
    · intro done i rest s hl' hs
      have hi : i < x.length := List.mem_range.mp (hord.mem_iff.mp (by rw [hl']; simp))
      rw [rd_eq hi, ok_bind, rd_eq (by omega), ok_bind]
      exact Ok.pure ((hs.step i).congr fun p => by simp)
  obtain ⟨m, h1, h2⟩ := this
  rw [h1]
  refine congrArg Except.ok (eq_of_forall_ge_iff fun c => ?_)
  rw [h2 c, maxDiff_le]
  refine and_congr_right fun _ => forall_congr' fun p => imp_congr_left ?_
  dsimp only
  rw [hord.mem_iff, List.mem_range, mem_range]

omit [IsStrictOrderedRing K] in
theorem normAbove_le {tiny c : K} {y : List K} : normAbove tiny y ≤ c ↔ tiny ≤ c ∧ ∀ i < y.length, |y⟦i⟧| ≤ c := by
  unfold normAbove
  rw [fold_max_le]
  simp only [mem_range]

omit [IsStrictOrderedRing K] in
theorem maxnorm_eq {tiny lowest : K} (ht : 0 < tiny) (hl : lowest ≤ 0) {parts : List Nat → List (List Nat)} (hp : IsParts parts) (y : List K) :
    maxnorm tiny lowest parts y = .ok (normAbove tiny y) := by
  obtain ⟨r, h1, h2, h3, h4⟩ := maxnorm_ok ht hl hp y
  rw [h1]
  refine congrArg Except.ok (le_antisymm ?_ (normAbove_le.mpr ⟨h2, h3⟩))
  have h5 := normAbove_le.mp (le_refl (normAbove tiny y))
  rcases h4 with h4 | ⟨i, hi, h4⟩
  · rw [h4]; exact h5.1
  · rw [h4]; exact h5.2 i hi

omit [IsStrictOrderedRing K] in
theorem normAbove_pos {tiny : K} (ht : 0 < tiny) (y : List K) : 0 < normAbove tiny y := lt_of_lt_of_le ht (normAbove_le.mp le_rfl).1

omit [IsStrictOrderedRing K] in
theorem triError_eq {tiny : K} (ht : 0 < tiny) {ord : List Nat} {initialization : String} {x y : List K} (hord : ord.Perm (List.range y.length)) (hl : x.length = y.length) :
    triError ord initialization (normAbove tiny y) y x = .ok (solveError tiny initialization y x) := by
  unfold triError solveError finiteQuot
  rw [maxnormDiff_eq (by rw [hl]; exact hord) hl, ok_bind, hl]
  split
  · rfl
  · rw [if_neg (normAbove_pos ht y).ne']

end norms

/-! ### The loop -/

section loop
variable {K : Type} [Field K] [LinearOrder K]
variable {next : Nat → List K → C (List K)} {check : List K → ConvState → C ConvState} {tol : K} {e : Nat → K} {P : List K → Prop} {r : Nat → List K}

omit [Field K] in
/-- Once the loop has seen convergence: it goes on to its end if all errors to come are small, otherwise it aborts. -/
theorem triLoop_converged (hn : ∀ s x, P x → next s x = .ok (r s)) (hP : ∀ s, P (r s)) (hc : ∀ s st, check (r s) st = triUpdate tol (e s) st) :
    ∀ (fuel : Nat) (s : Nat) (m : Int) (x : List K), P x → m - s ≤ fuel →
      ((∀ t : Nat, s ≤ t → (t : Int) < m → e t < tol) → ∃ st x', convLoop next check fuel ⟨s, m, true⟩ x = .ok (st, x') ∧ st.converged = true ∧ st.isweep = (s + (m - s).toNat) ∧
        ((m ≤ s ∧ x' = x) ∨ (1 ≤ st.isweep ∧ (s : Int) < m ∧ x' = r (st.isweep - 1)))) ∧
      ((∃ t : Nat, s ≤ t ∧ (t : Int) < m ∧ tol ≤ e t) → convLoop next check fuel ⟨s, m, true⟩ x = .error .abort) := by
  intro fuel
  induction fuel with
  | zero =>
    intro s m x hx hf
    have hge : ¬ ((s : Int) < m) := by push_cast at hf; omega
    unfold convLoop
    rw [if_neg hge]
    refine ⟨fun _ => ⟨_, _, rfl, rfl, ?_, Or.inl ⟨by omega, rfl⟩⟩, ?_⟩
    · dsimp only; omega
    · rintro ⟨t, h1, h2, -⟩; omega
  | succ fuel ih =>
    intro s m x hx hf
    unfold convLoop
    by_cases hlt : (s : Int) < m
    · rw [if_pos hlt]
      dsimp only
      rw [hn s x hx, ok_bind, hc]
      unfold triUpdate
      rw [if_pos rfl]
      by_cases he : e s < tol
      · rw [cassert_true (decide_eq_true he), ok_bind, ok_bind]
        dsimp only
        obtain ⟨h1, h2⟩ := ih (s + 1) m (r s) (hP s) (by push_cast at hf ⊢; omega)
        constructor
        · intro hall
          obtain ⟨st, x', g1, g2, g3, g4⟩ := h1 fun t ht => hall t (by omega)
          refine ⟨st, x', g1, g2, by rw [g3]; push_cast; omega, Or.inr ⟨by omega, hlt, ?_⟩⟩
          rcases g4 with ⟨g5, g6⟩ | ⟨-, -, g6⟩
          · rw [g6, show st.isweep - 1 = s by rw [g3]; push_cast at g5 ⊢; omega]
          · exact g6
        · rintro ⟨t, ht1, ht2, ht3⟩
          refine h2 ⟨t, ?_, ht2, ht3⟩
          rcases Nat.lt_or_eq_of_le ht1 with h | h
          · exact h
          · subst h; exact absurd he (not_lt.mpr ht3)
      · have : cassert (decide (e s < tol)) = .error .abort := by rw [decide_eq_false he]; rfl
        rw [this, error_bind, error_bind]
        exact ⟨fun hall => absurd (hall s le_rfl hlt) he, fun _ => rfl⟩
    · rw [if_neg hlt]
      refine ⟨fun _ => ⟨_, _, rfl, rfl, ?_, Or.inl ⟨by omega, rfl⟩⟩, ?_⟩
      · dsimp only; omega
      · rintro ⟨t, h1, h2, -⟩; omega

omit [Field K] in
/-- Before: the loop and the assertion behind it. -/
theorem triLoop_open (hn : ∀ s x, P x → next s x = .ok (r s)) (hP : ∀ s, P (r s)) (hc : ∀ s st, check (r s) st = triUpdate tol (e s) st) (M : Int) :
    ∀ (fuel : Nat) (s : Nat) (x : List K), P x → M + 2 - s ≤ fuel → (∀ t < s, tol ≤ e t) →
      (Settles tol M e → ∃ st, convLoop next check fuel ⟨s, M, false⟩ x = .ok (st, r (st.isweep - 1)) ∧ st.converged = true ∧ 3 ≤ st.isweep) ∧
      (¬ Settles tol M e → convLoop next check fuel ⟨s, M, false⟩ x = .error .abort ∨
        ∃ st x', convLoop next check fuel ⟨s, M, false⟩ x = .ok (st, x') ∧ st.converged = false) := by
  intro fuel
  induction fuel with
  | zero =>
    intro s x hx hf ho
    have hge : ¬ ((s : Int) < M) := by push_cast at hf; omega
    unfold convLoop
    rw [if_neg hge]
    refine ⟨?_, fun _ => Or.inr ⟨_, _, rfl, rfl⟩⟩
    rintro ⟨t, h1, -, h3, -⟩
    exact absurd h3 (not_lt.mpr (ho t (by omega)))
  | succ fuel ih =>
    intro s x hx hf ho
    unfold convLoop
    by_cases hlt : (s : Int) < M
    · rw [if_pos hlt]
      dsimp only
      rw [hn s x hx, ok_bind, hc]
      unfold triUpdate
      rw [if_neg (by simp)]
      by_cases he : e s < tol
      · rw [if_pos he, ok_bind]
        obtain ⟨h1, h2⟩ := triLoop_converged (m := ((s + 1 : Nat) : Int) + 2) hn hP hc fuel (s + 1) (r s) (hP s) (by push_cast at hf ⊢; omega)
        have hfirst : ∀ t : Nat, (∀ t' < t, tol ≤ e t') → e t < tol → t = s := by
          intro t h3 h4
          rcases Nat.lt_trichotomy t s with h | h | h
          · exact absurd h4 (not_lt.mpr (ho t h))
          · exact h
          · exact absurd he (not_lt.mpr (h3 s h))
        constructor
        · rintro ⟨t, -, h3, h4, h5, h6⟩
          obtain rfl := hfirst t h3 h4
          obtain ⟨st, x', g1, g2, g3, g4⟩ := h1 (fun t' h7 h8 => by
            have : t' = t + 1 ∨ t' = t + 2 := by push_cast at h8; omega
            rcases this with rfl | rfl
            · exact h5
            · exact h6)
          refine ⟨st, ?_, g2, by omega⟩
          rcases g4 with ⟨g5, -⟩ | ⟨-, -, g5⟩
          · omega
          · rw [g1, g5]
        · intro hno
          refine Or.inl (h2 ?_)
          by_contra hall
          push Not at hall
          exact hno ⟨s, hlt, ho, he, hall (s + 1) le_rfl (by push_cast; omega), hall (s + 2) (by omega) (by push_cast; omega)⟩
      · rw [if_neg he, ok_bind]
        dsimp only
        refine ih (s + 1) (r s) (hP s) (by push_cast at hf ⊢; omega) fun t ht => ?_
        rcases Nat.lt_or_eq_of_le (Nat.le_of_lt_succ ht) with h | h
        · exact ho t h
        · subst h; exact not_lt.mp he
    · rw [if_neg hlt]
      refine ⟨?_, fun _ => Or.inr ⟨_, _, rfl, rfl⟩⟩
      rintro ⟨t, h1, -, h3, -⟩
      exact absurd h3 (not_lt.mpr (ho t (by omega)))

end loop

/-! ### One test -/

section test
variable {K : Type} [Field K] [LinearOrder K] [IsStrictOrderedRing K]
variable {tiny lowest tol : K} {parts : List Nat → List (List Nat)} {A : SR K} {ord : List Nat} {y : List K} {M : Int} {run : Nat → List K → List K} {fuel : Nat}

/-- The parameters of `maxnorm` and of the loops. -/
structure NormSetting (tiny lowest : K) (parts : List Nat → List (List Nat)) : Prop where
  tiny_pos : 0 < tiny
  lowest_le : lowest ≤ 0
  parts_ok : IsParts parts

variable (hN : NormSetting tiny lowest parts) (hord : ord.Perm (List.range A.nbrows)) (hy : y.length = A.nbrows)
include hN hord hy

omit [IsStrictOrderedRing K] in
theorem runFullyAsyncTest_zero (hrun : ∀ s, (run s (List.replicate A.nbrows 0)).length = A.nbrows) (hf : M + 2 ≤ fuel) :
    (Settles tol M (fun s => solveError tiny "zero" y (run s (List.replicate A.nbrows 0))) → ∃ st, runFullyAsyncTest tiny lowest parts A ord y "zero" tol M run fuel =
        .ok (st, run (st.isweep - 1) (List.replicate A.nbrows 0)) ∧ st.converged = true ∧ 3 ≤ st.isweep) ∧
    (¬ Settles tol M (fun s => solveError tiny "zero" y (run s (List.replicate A.nbrows 0))) → runFullyAsyncTest tiny lowest parts A ord y "zero" tol M run fuel = .error .abort) := by
  have hinit : ∀ x : List K, x.length = A.nbrows → triInitial "zero" y x = .ok (List.replicate A.nbrows 0) := by
    intro x hx
    unfold triInitial
    rw [if_neg (by decide), if_pos rfl, List.map_const', hx]
  obtain ⟨h1, h2⟩ := triLoop_open (next := fun s x => do
      let x ← triInitial "zero" y x
      .ok (run s x)) (check := checkTriConvergence ord "zero" tol (normAbove tiny y) y) (tol := tol)
    (e := fun s => solveError tiny "zero" y (run s (List.replicate A.nbrows 0))) (P := fun x => x.length = A.nbrows) (r := fun s => run s (List.replicate A.nbrows 0))
    (fun s x hx => by rw [hinit x hx, ok_bind]) hrun
    (fun s st => by unfold checkTriConvergence; rw [triError_eq hN.tiny_pos (by rw [hy]; exact hord) (by rw [hy]; exact hrun s), ok_bind]) M fuel 0 (List.replicate A.nbrows 0) (by simp)
    (by push_cast; omega) (by simp)
  unfold runFullyAsyncTest
  rw [hinit _ (by simp), ok_bind, maxnormDiff_eq (by rw [hy]; exact hord) (by simp [hy]), ok_bind, maxnorm_eq hN.tiny_pos hN.lowest_le hN.parts_ok, ok_bind,
    show decide ("zero" = "exact") = false by decide]
  constructor
  · intro h
    obtain ⟨st, g1, g2, g3⟩ := h1 h
    refine ⟨st, ?_, g2, g3⟩
    rw [g1, ok_bind, cassert_true g2, ok_bind]
  · intro h
    rcases h2 h with g | ⟨st, x', g, g'⟩
    · rw [g, error_bind]
    · rw [g, ok_bind]
      dsimp only
      rw [g']
      rfl

omit [IsStrictOrderedRing K] in
theorem runFullyAsyncTest_exact (hrun : ∀ s, (run s y).length = A.nbrows) (hf : M ≤ fuel) :
    ((∀ s : Nat, (s : Int) < M → solveError tiny "exact" y (run s y) < tol) → ∃ r, runFullyAsyncTest tiny lowest parts A ord y "exact" tol M run fuel = .ok r) ∧
    ((∃ s : Nat, (s : Int) < M ∧ tol ≤ solveError tiny "exact" y (run s y)) → runFullyAsyncTest tiny lowest parts A ord y "exact" tol M run fuel = .error .abort) := by
  have hinit : ∀ x : List K, triInitial "exact" y x = .ok y := fun x => if_pos rfl
  obtain ⟨h1, h2⟩ := triLoop_converged (next := fun s x => do
      let x ← triInitial "exact" y x
      .ok (run s x)) (check := checkTriConvergence ord "exact" tol (normAbove tiny y) y) (tol := tol)
    (e := fun s => solveError tiny "exact" y (run s y)) (P := fun _ => True) (r := fun s => run s y)
    (fun s x hx => by rw [hinit x, ok_bind]) (fun _ => trivial)
    (fun s st => by unfold checkTriConvergence; rw [triError_eq hN.tiny_pos (by rw [hy]; exact hord) (by rw [hy]; exact hrun s), ok_bind]) fuel 0 M y trivial
    (by push_cast; omega)
  unfold runFullyAsyncTest
  rw [hinit _, ok_bind, maxnormDiff_eq (by rw [hy]; exact hord) rfl, ok_bind, maxnorm_eq hN.tiny_pos hN.lowest_le hN.parts_ok, ok_bind,
    show decide ("exact" = "exact") = true by decide]
  constructor
  · intro h
    obtain ⟨st, x', g1, g2, -⟩ := h1 fun t _ ht => h t ht
    refine ⟨(st, x'), ?_⟩
    rw [g1, ok_bind, cassert_true g2, ok_bind]
  · rintro ⟨s, g1, g2⟩
    rw [h2 ⟨s, Nat.zero_le _, g1, g2⟩, error_bind]

omit [IsStrictOrderedRing K] hN hord hy in
theorem runFullyAsyncTest_other {initialization : String} (h1 : initialization ≠ "exact") (h2 : initialization ≠ "zero") :
    runFullyAsyncTest tiny lowest parts A ord y initialization tol M run fuel = .error (.throw "std::runtime_error" "Invalid initialization!") := by
  unfold runFullyAsyncTest triInitial
  rw [if_neg h1, if_neg h2, error_bind]

end test

/-! ### The exact solves -/

section solves
variable {K : Type} [Field K] [LinearOrder K] {A : SR K} {pos : ILUPos} {ord : List Nat} {u : List K}
variable (hA : A.Full) (hS : A.Sorted) (hD : A.HasDiag) (hu : u.length = A.browptr⟦A.nbrows⟧)
include hA hS hD hu

omit [LinearOrder K] in
theorem lowerSolved_iff {y : List K} : LowerSolved A u y ↔ y.length = A.nbrows ∧ ∀ i < A.nbrows, y⟦i⟧ = (List.replicate A.nbrows (11 / 10 : K))⟦i⟧ - lowSum A u i (get0 y) := by
  unfold LowerSolved
  refine and_congr_right fun _ => forall₂_congr fun i hi => ?_
  have := lowerFactor_mul (M := K) hA hS hD hu hi (get0 y)
  simp only [smul_eq_mul] at this
  rw [this, get0_replicate_of_lt hi]
  constructor <;> intro h
  · rw [← h]; ring
  · rw [h]; ring

theorem upperSolved_iff {dinv : List K} (hd : ∀ i < A.nbrows, pinv u⟦A.diagind⟦i⟧⟧ = .ok dinv⟦i⟧) {y : List K} :
    UpperSolved A u y ↔ y.length = A.nbrows ∧ ∀ i < A.nbrows, y⟦i⟧ = dinv⟦i⟧ • ((List.replicate A.nbrows (11 / 10 : K))⟦i⟧ - upSum A u i (get0 y)) := by
  unfold UpperSolved
  refine and_congr_right fun _ => forall₂_congr fun i hi => ?_
  have := upperFactor_mul (M := K) hA hS hD hu hi (get0 y)
  simp only [smul_eq_mul] at this
  rw [this, get0_replicate_of_lt hi, smul_eq_mul]
  obtain ⟨h1, h2⟩ := PInv.pinv_ok (hd i hi)
  constructor <;> intro h
  · rw [← h, add_sub_cancel_right, ← mul_assoc, h2, one_mul]
  · rw [h, ← mul_assoc, h1, one_mul, sub_add_cancel]

end solves

end Blasted
