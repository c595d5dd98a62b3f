import Verif.PetscTest.SingleModel
import Verif.PetscTest.SweepProps
import Mathlib.Algebra.Order.BigOperators.Group.Finset

/-!
# C108: what the program with repeated runs reports, and which linear problem the programs set up
-/

namespace Blasted

open Finset

section
variable {K : Type} [Field K] [LinearOrder K]

omit [LinearOrder K] in
theorem singleRuns_prefix (s : Nat → PerfSolve K) {n : Nat} (k : Nat) (hk : k ≤ n) (h : ∀ i < k, 0 < (s i).reason) :
    singleRuns s n 0 0 [] = singleRuns s (n - k) k (∑ i ∈ range k, ((s i).iters : K)) ((List.range k).map fun i => (s i).iters) := by
  induction k with
  | zero => rw [sum_range_zero, List.range_zero, List.map_nil, Nat.sub_zero]
  | succ k ih =>
    rw [ih (by omega) fun i hi => h i (by omega)]
    obtain ⟨m, hm⟩ : ∃ m, n - k = m + 1 := ⟨n - k - 1, by omega⟩
    have hm' : n - (k + 1) = m := by omega
    have h1 := h k (by omega)
    rw [hm, hm', singleRuns]
    rw [if_neg (by omega), sum_range_succ, List.range_succ, List.map_append]
    rfl

theorem runSingle_general {sqrt : K → K} {P : PetscSys K} {solve : Nat → PerfSolve K} {N m : Nat} (hN : IntOption P "-num_runs" 1 N) (hN1 : 1 ≤ N) {S : K}
    (hr : singleRuns solve N 0 0 [] = (m, S, (List.range m).map fun i => (solve i).iters)) (hm : ¬ S / N < 0 → m = N) :
    ∃ dev, runSingle sqrt P solve = .ok (.ok ⟨some (S / N), decide (S / (N : K) < 0), dev⟩) ∧ IsDeviation sqrt solve m (S / N) dev := by
  obtain ⟨o1, o2⟩ := intOption_eq hN
  refine ⟨perfQuot (sqrt ((∑ i ∈ range m, (((solve i).iters : K) - S / N) ^ 2) / m)) (S / N), ?_, ?_⟩
  · unfold runSingle
    dsimp only
    rw [if_neg (by rw [o1]; decide), o2, Int.toNat_natCast, hr, if_neg (by omega)]
    dsimp only
    rw [Int.cast_natCast]
    have hc : (if S / (N : K) < 0 then .ok () else cassert (decide ((m : Int) = (N : Int)))) = .ok () := by
      by_cases h : S / (N : K) < 0
      · rw [if_pos h]
      · rw [if_neg h, hm h]; exact cassert_ok_iff.mpr (decide_eq_true rfl)
    rw [hc, ok_bind, iters_deviation, ok_bind]
  · unfold IsDeviation perfQuot
    exact ⟨fun h => if_neg h, fun h => if_pos h⟩

/-- **C108** Without runs the average is not a number, there is no message. -/
theorem single_without_runs {sqrt : K → K} {P : PetscSys K} {solve : Nat → PerfSolve K} (hN : IntOption P "-num_runs" 1 0) : runSingle sqrt P solve = .ok (.ok ⟨none, false, none⟩) := by
  obtain ⟨o1, o2⟩ := intOption_eq hN
  unfold runSingle
  dsimp only
  rw [if_neg (by rw [o1]; decide), o2, if_pos rfl]

/-- **C108** If the number of runs cannot be read, the program ends with the error code. -/
theorem single_unreadable {sqrt : K → K} {P : PetscSys K} {solve : Nat → PerfSolve K} {s : List Char} {e : Int} (hs : P.db "-num_runs" = some (some s)) (hi : P.toInt s = .error e) (he : e ≠ 0) :
    runSingle sqrt P solve = .ok (.error e) := by
  have ho : optGetInt P "-num_runs" 0 = (e, 0, true) := by unfold optGetInt; simp [hs, hi, outOf]
  unfold runSingle
  simp only [ho]
  rw [if_pos he]

end

section
variable {K : Type} [Field K] [LinearOrder K] [IsStrictOrderedRing K]

/-- **C108** If all runs converge, the mean number of iterations and the relative deviation from it are reported, without a message. -/
theorem single_correct {sqrt : K → K} {P : PetscSys K} {solve : Nat → PerfSolve K} {N : Nat} (hN : IntOption P "-num_runs" 1 N) (hN1 : 1 ≤ N) (hok : ∀ i < N, 0 < (solve i).reason)
    (hit : ∀ i < N, 0 ≤ (solve i).iters) :
    ∃ dev, runSingle sqrt P solve = .ok (.ok ⟨some ((∑ i ∈ range N, ((solve i).iters : K)) / N), false, dev⟩) ∧
      IsDeviation sqrt solve N ((∑ i ∈ range N, ((solve i).iters : K)) / N) dev := by
  obtain ⟨dev, h1, h2⟩ := runSingle_general (sqrt := sqrt) hN hN1 (solve := solve) (by rw [singleRuns_prefix _ N (le_refl _) hok, Nat.sub_self, singleRuns]) fun _ => rfl
  refine ⟨dev, ?_, h2⟩
  have h0 : ¬ (∑ i ∈ range N, ((solve i).iters : K)) / N < 0 :=
    not_lt.mpr (div_nonneg (sum_nonneg fun i hi => by exact_mod_cast hit i (mem_range.mp hi)) (Nat.cast_nonneg _))
  rw [h1, decide_eq_false h0]

/-- **C108** If a run fails, there is a message; the average that is printed before it is then -100 divided by the number of runs that were asked for, and the deviation is that of the runs so far from
this number. -/
theorem single_failed {sqrt : K → K} {P : PetscSys K} {solve : Nat → PerfSolve K} {N k : Nat} (hN : IntOption P "-num_runs" 1 N) (hkN : k < N) (hok : ∀ i < k, 0 < (solve i).reason)
    (hfail : (solve k).reason ≤ 0) :
    ∃ dev, runSingle sqrt P solve = .ok (.ok ⟨some (-100 / N), true, dev⟩) ∧ IsDeviation sqrt solve (k + 1) (-100 / N) dev := by
  have hneg : (-100 / (N : K)) < 0 := div_neg_of_neg_of_pos (by norm_num) (by exact_mod_cast (by omega : 0 < N))
  obtain ⟨dev, h1, h2⟩ := runSingle_general (sqrt := sqrt) hN (by omega) (solve := solve) (m := k + 1) (S := -100) (by
    obtain ⟨m, hm⟩ : ∃ m, N - k = m + 1 := ⟨N - k - 1, by omega⟩
    rw [singleRuns_prefix _ k (by omega) hok, hm, singleRuns]
    rw [if_pos hfail, List.range_succ, List.map_append]
    rfl) fun h => absurd hneg h
  refine ⟨dev, ?_, h2⟩
  rw [h1, decide_eq_true hneg]

/-- **C108** The message appears exactly if some run fails. -/
theorem single_message_iff {sqrt : K → K} {P : PetscSys K} {solve : Nat → PerfSolve K} {N : Nat} (hN : IntOption P "-num_runs" 1 N) (hN1 : 1 ≤ N) (hit : ∀ i < N, 0 ≤ (solve i).iters) :
    ∃ r, runSingle sqrt P solve = .ok (.ok r) ∧ (r.diverged = true ↔ ∃ i < N, (solve i).reason ≤ 0) := by
  by_cases h : ∃ i < N, (solve i).reason ≤ 0
  · have hf := Nat.find_spec h
    obtain ⟨dev, h1, -⟩ := single_failed (sqrt := sqrt) hN hf.1 (fun i hi => by
      have := Nat.find_min h hi
      by_contra hcon
      exact this ⟨by omega, by omega⟩) hf.2
    exact ⟨_, h1, by simp [h]⟩
  · obtain ⟨dev, h1, -⟩ := single_correct (sqrt := sqrt) hN hN1 (fun i hi => by
      by_contra hcon
      exact h ⟨i, hi, by omega⟩) hit
    exact ⟨_, h1, by simpa using h⟩

omit [IsStrictOrderedRing K] in
/-- **C108** A negative number of runs ends in a failing assertion. -/
theorem single_negative_runs {sqrt : K → K} {P : PetscSys K} {solve : Nat → PerfSolve K} {n : Int} (hN : IntOption P "-num_runs" 1 n) (hn : n < 0) : runSingle sqrt P solve = .error .abort := by
  obtain ⟨o1, o2⟩ := intOption_eq hN
  unfold runSingle
  dsimp only
  rw [if_neg (by rw [o1]; decide), o2, Int.toNat_of_nonpos (by omega), singleRuns, if_neg (by omega)]
  dsimp only
  rw [zero_div, if_neg (lt_irrefl _)]
  have : cassert (decide (((0 : Nat) : Int) = n)) = .error .abort := by
    rw [decide_eq_false (by omega)]; rfl
  rw [this]
  rfl

end

/-! ### The choice of the problem -/

/-- **C108** With all file names after the kind of problem, these are used. -/
theorem problem_choice_correct {argv : List (List Char)} {s : Nat} {w : List Char} (hw : argv[s]? = some w) (hs : 1 ≤ s) :
    (w = "poisson".toList → ∀ f, argv[s + 1]? = some f → generateDiscreteProblem argv s = .ok (.poisson (some f))) ∧
      (w ≠ "poisson".toList → ∀ a b x, argv[s + 1]? = some a → argv[s + 2]? = some b → argv[s + 3]? = some x → generateDiscreteProblem argv s = .ok (.files (some a) (some b) (some x))) := by
  have hlt : ∀ {i : Nat} {v : List Char}, argv[i]? = some v → i < argv.length ∧ argAt argv i = .ok (some v) := by
    intro i v h
    have hi : i < argv.length := by
      by_contra hcon
      rw [List.getElem?_eq_none (by omega)] at h
      cases h
    exact ⟨hi, by unfold argAt; rw [if_pos hi, h]⟩
  unfold generateDiscreteProblem
  rw [(hlt hw).2, ok_bind]
  dsimp only
  constructor
  · intro h f hf
    have := (hlt hf).1
    rw [if_pos h, if_neg (by omega), (hlt hf).2, ok_bind]
  · intro h a b x ha hb hx
    have := (hlt hx).1
    rw [if_neg h, if_neg (by omega), (hlt ha).2, ok_bind, (hlt hb).2, ok_bind, (hlt hx).2, ok_bind]

/-- **C108** If the kind of problem is the first argument, the program ends with a message exactly if file names are missing. -/
theorem problem_choice_first {argv : List (List Char)} {w : List Char} (hw : argv[1]? = some w) :
    generateDiscreteProblem argv 1 = .ok .exit ↔ argv.length < if w = "poisson".toList then 3 else 5 := by
  have hi : 1 < argv.length := by
    by_contra hcon
    rw [List.getElem?_eq_none (by omega)] at hw
    cases hw
  have harg : argAt argv 1 = .ok (some w) := by unfold argAt; rw [if_pos hi, hw]
  have hok : ∀ i, i < argv.length → argAt argv i = .ok argv[i]? := fun i h => by unfold argAt; rw [if_pos h]
  unfold generateDiscreteProblem
  rw [harg, ok_bind]
  dsimp only
  by_cases hp : w = "poisson".toList
  · rw [if_pos hp, if_pos hp]
    by_cases hl : argv.length < 3
    · rw [if_pos hl]; exact ⟨fun _ => hl, fun _ => rfl⟩
    · rw [if_neg hl, hok 2 (by omega), ok_bind]
      exact ⟨fun h => by simp at h, fun h => absurd h hl⟩
  · rw [if_neg hp, if_neg hp]
    by_cases hl : argv.length < 5
    · rw [if_pos hl]; exact ⟨fun _ => hl, fun _ => rfl⟩
    · rw [if_neg hl, hok 2 (by omega), ok_bind, hok 3 (by omega), ok_bind, hok 4 (by omega), ok_bind]
      exact ⟨fun h => by simp at h, fun h => absurd h hl⟩

/-- **C108**, negative: in its only use the kind of problem is the second argument, and the checks do not allow for it: without a control file or a file with the solution the call gets a null pointer
in its place. -/
theorem problem_choice_second (p t w a b : List Char) :
    generateDiscreteProblem [p, t, "poisson".toList] 2 = .ok (.poisson none) ∧
      (w ≠ "poisson".toList → generateDiscreteProblem [p, t, w, a, b] 2 = .ok (.files (some a) (some b) none)) := by
  constructor
  · rfl
  · intro h
    unfold generateDiscreteProblem
    rw [show argAt [p, t, w, a, b] 2 = .ok (some w) from rfl, ok_bind]
    dsimp only
    rw [if_neg h]
    rfl

/-- **C108**, negative: without the kind of problem the behaviour is undefined. -/
theorem problem_choice_missing {argv : List (List Char)} {s : Nat} (h : argv.length ≤ s) : generateDiscreteProblem argv s = .error .ub := by
  unfold generateDiscreteProblem argAt
  rw [if_neg (by omega)]
  by_cases he : s = argv.length
  · rw [if_pos he]
    rfl
  · rw [if_neg he]
    rfl

/-- **C108**, negative: if five arguments are there but more than one file name is missing, the access is beyond the arguments. -/
theorem problem_choice_beyond {argv : List (List Char)} {s : Nat} {w : List Char} (hw : argv[s]? = some w) (hp : w ≠ "poisson".toList) (h5 : 5 ≤ argv.length) (hs : argv.length < s + 3) :
    generateDiscreteProblem argv s = .error .ub := by
  have hi : s < argv.length := by
    by_contra hcon
    rw [List.getElem?_eq_none (by omega)] at hw
    cases hw
  have harg : argAt argv s = .ok (some w) := by unfold argAt; rw [if_pos hi, hw]
  have hok : ∀ i, i ≤ argv.length → ∃ v, argAt argv i = .ok v := fun i h => by
    unfold argAt
    by_cases h' : i < argv.length
    · exact ⟨_, if_pos h'⟩
    · exact ⟨none, by rw [if_neg h', if_pos (by omega)]⟩
  have hbad : ∀ i, argv.length < i → argAt argv i = .error .ub := fun i h => by
    unfold argAt
    rw [if_neg (by omega), if_neg (by omega)]
  unfold generateDiscreteProblem
  rw [harg, ok_bind]
  dsimp only
  rw [if_neg hp, if_neg (by omega)]
  obtain ⟨v, hv⟩ := hok (s + 1) (by omega)
  rw [hv, ok_bind]
  by_cases h2 : argv.length < s + 2
  · rw [hbad _ h2]
    rfl
  · obtain ⟨u, hu⟩ := hok (s + 2) (by omega)
    rw [hu, ok_bind, hbad _ hs]
    rfl

example : generateDiscreteProblem ["p".toList, "a".toList, "b".toList, "file".toList, "A".toList] 3 = .error .ub :=
  problem_choice_beyond (w := "file".toList) rfl (by decide) (by decide) (by decide)

/-! ### Examples -/

/-- Two runs. -/
def exSingleSys : PetscSys ℚ := { exSweepSys with db := fun o => if o = "-num_runs" then some (some "2".toList) else none }

-- all runs converge; the second run fails
example : runSingle id exSingleSys (fun i => ⟨if i = 0 then 10 else 30, 2, ⟨1, 1, 0, 0⟩⟩) = .ok (.ok ⟨some 20, false, some 5⟩) := by decide +kernel

example : runSingle id exSingleSys (fun i => ⟨if i = 0 then 10 else 30, if i = 0 then 2 else -3, ⟨1, 1, 0, 0⟩⟩) = .ok (.ok ⟨some (-50), true, some (-100)⟩) := by decide +kernel

example : IntOption exSingleSys "-num_runs" 1 2 := .inr ⟨"2".toList, by decide +kernel, by decide +kernel⟩

example : generateDiscreteProblem ["prog".toList, "x".toList, "file".toList, "A".toList, "b".toList, "u".toList] 2 = .ok (.files (some "A".toList) (some "b".toList) (some "u".toList)) := by decide +kernel

end Blasted
