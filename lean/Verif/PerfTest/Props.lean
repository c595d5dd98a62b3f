import Verif.PerfTest.Model
import Verif.PetscIO.OptProps
import Verif.PetscTest.Props
import Mathlib.Algebra.BigOperators.Ring.Finset
import Mathlib.Tactic.Linarith
import Mathlib.Tactic.FieldSimp
import Mathlib.Tactic.Ring
import Mathlib.Tactic.NormNum

/-!
# C105: what the report of the thread-scaling test says
-/

namespace Blasted

open Finset

section
variable {K : Type} [Field K]

/-! ### Specification -/

/-- The environment of the solves: the option for the sweeps is set, the number of threads is what it was before. -/
def perfEnvOf (env : PerfEnv K) (rp : PerfParams) : PerfEnv K := { env with sys := setOption env.sys "-blasted_async_sweeps" (sweepsText rp.nbswps rp.naswps) }

/-- The wall time of a solve that is spent in the preconditioner. -/
def precTime (s : PerfSolve K) : K := s.times.factorwall + s.times.applywall

/-- `m` is the largest number of iterations of the first `k` solves, or zero. -/
def IsMaxIters (s : Nat → PerfSolve K) (k : Nat) (m : Int) : Prop := 0 ≤ m ∧ (∀ i < k, (s i).iters ≤ m) ∧ (m = 0 ∨ ∃ i < k, (s i).iters = m)

/-- The times in a line are means over the first `k` solves: `d` are the data and `l` is the line of the report. -/
structure LineMeans (sqrt : K → K) (s : Nat → PerfSolve K) (k : Nat) (d : PerfData K) (l : PerfLine K) : Prop where
  setup : d.setupWall = (∑ i ∈ range k, (s i).times.factorwall) / k
  apply : d.applyWall = (∑ i ∈ range k, (s i).times.applywall) / k
  cpu : l.cpu = (∑ i ∈ range k, ((s i).times.factorcpu + (s i).times.applycpu)) / k
  deviation : l.deviation = sqrt ((∑ i ∈ range k, (precTime (s i) - (∑ j ∈ range k, precTime (s j)) / k) ^ 2) / k)

/-- The columns with times: the times themselves for the reference, otherwise the quotients of those of the reference by those of the test. -/
def LineTimes [DecidableEq K] (rp : PerfParams) (refdata d : PerfData K) (l : PerfLine K) : Prop :=
  (rp.ref = true → l.factor = some d.setupWall ∧ l.apply = some d.applyWall ∧ l.total = some (d.setupWall + d.applyWall)) ∧
  (rp.ref = false → (d.setupWall ≠ 0 → l.factor = some (refdata.setupWall / d.setupWall)) ∧ (d.applyWall ≠ 0 → l.apply = some (refdata.applyWall / d.applyWall)) ∧
    (d.setupWall + d.applyWall ≠ 0 → l.total = some ((refdata.setupWall + refdata.applyWall) / (d.setupWall + d.applyWall))) ∧
    (d.setupWall = 0 → l.factor = none) ∧ (d.applyWall = 0 → l.apply = none) ∧ (d.setupWall + d.applyWall = 0 → l.total = none))

/-! ### Lemmas -/

/-- The running maximum. -/
def runMax (s : Nat → PerfSolve K) : Nat → Int
  | 0 => 0
  | k + 1 => if runMax s k < (s k).iters then (s k).iters else runMax s k

omit [Field K] in
theorem runMax_spec (s : Nat → PerfSolve K) (k : Nat) : IsMaxIters s k (runMax s k) := by
  induction k with
  | zero => exact ⟨le_refl _, fun i hi => absurd hi (Nat.not_lt_zero i), Or.inl rfl⟩
  | succ k ih =>
    obtain ⟨h0, h1, h2⟩ := ih
    unfold runMax
    by_cases h : runMax s k < (s k).iters
    · rw [if_pos h]
      refine ⟨by omega, fun i hi => ?_, Or.inr ⟨k, by omega, rfl⟩⟩
      rcases Nat.lt_succ_iff_lt_or_eq.mp hi with g | rfl
      · have := h1 i g
        omega
      · exact le_refl _
    · rw [if_neg h]
      refine ⟨h0, fun i hi => ?_, h2.imp id fun ⟨i, a, b⟩ => ⟨i, by omega, b⟩⟩
      rcases Nat.lt_succ_iff_lt_or_eq.mp hi with g | rfl
      · exact h1 i g
      · omega

/-- The data after `k` successful repetitions. -/
def perfAcc (s : Nat → PerfSolve K) (k : Nat) : PerfData K :=
  ⟨∑ i ∈ range k, (s i).iters, runMax s k, decide (0 < k), ∑ i ∈ range k, (s i).times.factorwall, ∑ i ∈ range k, (s i).times.applywall,
    ∑ i ∈ range k, ((s i).times.factorcpu + (s i).times.applycpu)⟩

/-- The times after `k` successful repetitions of `n`. -/
def perfTimes (s : Nat → PerfSolve K) (n k : Nat) : List K := (List.range n).map fun i => if i < k then precTime (s i) else 0

theorem perfRuns_prefix (s : Nat → PerfSolve K) {n : Nat} (k : Nat) (hk : k ≤ n) (h : ∀ i < k, 0 < (s i).reason) :
    perfRuns s n 0 perfData0 (List.replicate n 0) = perfRuns s (n - k) k (perfAcc s k) (perfTimes s n k) := by
  induction k with
  | zero =>
    have h1 : (perfAcc s 0 : PerfData K) = perfData0 := by simp [perfAcc, perfData0, runMax]
    have h2 : perfTimes s n 0 = List.replicate n 0 := by simp [perfTimes, List.map_const']
    rw [h1, h2, Nat.sub_zero]
  | succ k ih =>
    rw [ih (by omega) fun i hi => h i (by omega)]
    obtain ⟨m, hm⟩ : ∃ m, n - k = m + 1 := ⟨n - k - 1, by omega⟩
    have hm' : n - (k + 1) = m := by omega
    rw [hm, hm', perfRuns]
    have hr := h k (by omega)
    have ht : (perfTimes s n k).set k ((s k).times.factorwall + (s k).times.applywall) = perfTimes s n (k + 1) := by
      unfold perfTimes
      refine List.ext_getElem (by simp) fun i h1 h2 => ?_
      rw [List.getElem_set]
      simp only [List.getElem_map, List.getElem_range]
      by_cases g : k = i
      · subst g
        simp [precTime]
      · rw [if_neg g]
        by_cases g2 : i < k
        · rw [if_pos g2, if_pos (by omega)]
        · rw [if_neg g2, if_neg (by omega)]
    dsimp only
    rw [if_neg (by omega), ht]
    congr 1
    simp only [perfAcc, runMax, sum_range_succ, Nat.zero_lt_succ, decide_true]
    rfl

theorem stdDeviation_eq (sqrt : K → K) {vals : List K} (avg : K) {k : Nat} (hk : k ≤ vals.length) :
    stdDeviation sqrt vals avg k = .ok (sqrt ((∑ j ∈ range k, (vals⟦j⟧ - avg) ^ 2) / k)) := by
  have key : ∀ m ≤ k, forRange 0 m (fun j s => do
      let v ← rd vals j
      (.ok (s + (v - avg) * (v - avg)) : C K)) 0 = .ok (∑ j ∈ range m, (vals⟦j⟧ - avg) ^ 2) := by
    intro m hm
    induction m with
    | zero => rw [forRange_self, sum_range_zero]
    | succ m ih =>
      rw [forRange_succ_right (Nat.zero_le _), ih (by omega), ok_bind, rd_eq (by omega), ok_bind, sum_range_succ, pow_two]
  unfold stdDeviation
  rw [key k (le_refl _), ok_bind]

variable [DecidableEq K]

omit [Field K] [DecidableEq K] in
theorem perfSetSweeps_ok {P : PetscSys K} {g : List Int} {nb na : Int} (h : P.toInts (sweepsText nb na) 2 = .ok [nb, na]) :
    perfSetSweeps P g nb na = .ok (setOption P "-blasted_async_sweeps" (sweepsText nb na)) := by
  unfold perfSetSweeps
  simp [optGetIntArray, setOption, h]

omit [Field K] [DecidableEq K] in
theorem perfSetSweeps_eq {P P' : PetscSys K} {g : List Int} {nb na : Int} (h : perfSetSweeps P g nb na = .ok P') :
    P' = setOption P "-blasted_async_sweeps" (sweepsText nb na) ∧ perfSetSweeps P' g nb na = .ok P' := by
  have h1 : P' = setOption P "-blasted_async_sweeps" (sweepsText nb na) := by
    unfold perfSetSweeps at h
    dsimp only at h
    split_ifs at h <;> exact (Except.ok.inj h).symm
  refine ⟨h1, ?_⟩
  have h2 : setOption P' "-blasted_async_sweeps" (sweepsText nb na) = P' := by
    rw [h1]
    unfold setOption
    congr 1
    funext s
    by_cases hs : s = "-blasted_async_sweeps" <;> simp [hs]
  unfold perfSetSweeps at h ⊢
  rw [h2]
  rw [← h1] at h
  exact h

/-- The result after `k` successful repetitions, the last one or followed by one that failed. -/
theorem runOneTest_general {sqrt : K → K} {solve : PerfEnv K → Bool → Nat → PerfSolve K} {g : List Int} {rp : PerfParams} {refdata : PerfData K} {env : PerfEnv K} {N k : Nat}
    (hN : rp.nrepeats = N) (hset : env.sys.toInts (sweepsText rp.nbswps rp.naswps) 2 = .ok [rp.nbswps, rp.naswps]) (hk1 : 1 ≤ k) {S M : Int} {c : Bool}
    (hr : perfRuns (solve (perfEnvOf env rp) rp.ref) N 0 perfData0 (List.replicate N 0) =
      (k, { perfAcc (solve (perfEnvOf env rp) rp.ref) k with avgIters := S, maxIters := M, converged := c }, perfTimes (solve (perfEnvOf env rp) rp.ref) N k)) (hkN : k ≤ N) :
    ∃ d l, runOneTest sqrt solve g rp refdata perfData0 env = .ok (perfEnvOf env rp, d, l) ∧ l.threads = rp.numthreads ∧ l.nbswps = rp.nbswps ∧ l.naswps = rp.naswps ∧ l.comment = rp.ref ∧
      l.converged = c ∧ l.avgIters = S.tdiv k ∧ l.maxIters = M ∧ LineMeans sqrt (solve (perfEnvOf env rp) rp.ref) k d l ∧ LineTimes rp refdata d l := by
  have hmean : (∑ i ∈ range k, (solve (perfEnvOf env rp) rp.ref i).times.factorwall) / (k : K) + (∑ i ∈ range k, (solve (perfEnvOf env rp) rp.ref i).times.applywall) / (k : K) =
      (∑ j ∈ range k, precTime (solve (perfEnvOf env rp) rp.ref j)) / k := by
    unfold precTime
    rw [sum_add_distrib, add_div]
  have hdev : ∀ avg : K, ∑ j ∈ range k, ((perfTimes (solve (perfEnvOf env rp) rp.ref) N k)⟦j⟧ - avg) ^ 2 = ∑ j ∈ range k, (precTime (solve (perfEnvOf env rp) rp.ref j) - avg) ^ 2 := by
    intro avg
    refine sum_congr rfl fun j hj => ?_
    have hj' := mem_range.mp hj
    rw [get0_eq_getElem (by unfold perfTimes; rw [List.length_map, List.length_range]; omega)]
    unfold perfTimes
    rw [List.getElem_map, List.getElem_range, if_pos hj']
  unfold runOneTest
  rw [if_neg (by omega), perfSetSweeps_ok hset, ok_bind, hN, Int.toNat_natCast]
  dsimp only
  rw [show ({ env with sys := setOption env.sys "-blasted_async_sweeps" (sweepsText rp.nbswps rp.naswps) } : PerfEnv K) = perfEnvOf env rp from rfl, hr]
  dsimp only
  rw [if_neg (by omega), stdDeviation_eq sqrt _ (by unfold perfTimes; rw [List.length_map, List.length_range]; exact hkN), ok_bind]
  refine ⟨_, _, rfl, ?_⟩
  by_cases href : rp.ref = true
  · simp only [if_pos href]
    refine ⟨trivial, trivial, trivial, trivial, trivial, trivial, trivial, ⟨rfl, rfl, rfl, ?_⟩, fun _ => ⟨rfl, rfl, rfl⟩, fun h => absurd (href.symm.trans h) (by decide)⟩
    dsimp only [perfAcc]
    rw [hmean, hdev]
  · simp only [if_neg href]
    refine ⟨trivial, trivial, trivial, trivial, trivial, trivial, trivial, ⟨rfl, rfl, rfl, ?_⟩, fun h => absurd h href, fun _ => ⟨fun h => if_neg h, fun h => if_neg h, fun h => if_neg h, fun h => if_pos h, fun h => if_pos h, fun h => if_pos h⟩⟩
    dsimp only [perfAcc]
    rw [hmean, hdev]

/-! ### Theorems -/

/-- **C105** If all repetitions converge, a line of the report has the means of the times (for a test divided into those of the reference), their deviation, the mean number of iterations rounded
towards zero and the largest number. -/
theorem perf_line_correct {sqrt : K → K} {solve : PerfEnv K → Bool → Nat → PerfSolve K} {g : List Int} {rp : PerfParams} {refdata : PerfData K} {env : PerfEnv K} {N : Nat}
    (hN : rp.nrepeats = N) (hN1 : 1 ≤ N) (hset : env.sys.toInts (sweepsText rp.nbswps rp.naswps) 2 = .ok [rp.nbswps, rp.naswps])
    (hconv : ∀ i < N, 0 < (solve (perfEnvOf env rp) rp.ref i).reason) :
    ∃ d l, runOneTest sqrt solve g rp refdata perfData0 env = .ok (perfEnvOf env rp, d, l) ∧ l.threads = rp.numthreads ∧ l.nbswps = rp.nbswps ∧ l.naswps = rp.naswps ∧ l.comment = rp.ref ∧
      l.converged = true ∧ l.avgIters = (∑ i ∈ range N, (solve (perfEnvOf env rp) rp.ref i).iters).tdiv N ∧ IsMaxIters (solve (perfEnvOf env rp) rp.ref) N l.maxIters ∧
      LineMeans sqrt (solve (perfEnvOf env rp) rp.ref) N d l ∧ LineTimes rp refdata d l := by
  obtain ⟨d, l, h1, h2, h3, h4, h5, h6, h7, h8, h9, h10⟩ := runOneTest_general (sqrt := sqrt) (g := g) (refdata := refdata) hN hset hN1
    (S := ∑ i ∈ range N, (solve (perfEnvOf env rp) rp.ref i).iters) (M := runMax (solve (perfEnvOf env rp) rp.ref) N) (c := true) (by
      rw [perfRuns_prefix _ N (le_refl _) hconv, Nat.sub_self, perfRuns]
      simp only [perfAcc, decide_eq_true (show 0 < N from hN1)]) (le_refl _)
  exact ⟨d, l, h1, h2, h3, h4, h5, h6, h7, h8 ▸ runMax_spec _ _, h9, h10⟩

/-- **C105**, negative: if the repetitions before number `k` converge and this one fails, the times are means over those before, and no further repetition is run. But the number of iterations
divides the sum with that of the failed repetition by the number without it. -/
theorem perf_line_failed {sqrt : K → K} {solve : PerfEnv K → Bool → Nat → PerfSolve K} {g : List Int} {rp : PerfParams} {refdata : PerfData K} {env : PerfEnv K} {N k : Nat}
    (hN : rp.nrepeats = N) (hk1 : 1 ≤ k) (hkN : k < N) (hset : env.sys.toInts (sweepsText rp.nbswps rp.naswps) 2 = .ok [rp.nbswps, rp.naswps])
    (hconv : ∀ i < k, 0 < (solve (perfEnvOf env rp) rp.ref i).reason) (hfail : (solve (perfEnvOf env rp) rp.ref k).reason ≤ 0) :
    ∃ d l, runOneTest sqrt solve g rp refdata perfData0 env = .ok (perfEnvOf env rp, d, l) ∧ l.threads = rp.numthreads ∧ l.nbswps = rp.nbswps ∧ l.naswps = rp.naswps ∧ l.comment = rp.ref ∧
      l.converged = false ∧ l.avgIters = (∑ i ∈ range (k + 1), (solve (perfEnvOf env rp) rp.ref i).iters).tdiv k ∧ IsMaxIters (solve (perfEnvOf env rp) rp.ref) (k + 1) l.maxIters ∧
      LineMeans sqrt (solve (perfEnvOf env rp) rp.ref) k d l ∧ LineTimes rp refdata d l := by
  obtain ⟨d, l, h1, h2, h3, h4, h5, h6, h7, h8, h9, h10⟩ := runOneTest_general (sqrt := sqrt) (g := g) (refdata := refdata) hN hset hk1
    (S := ∑ i ∈ range (k + 1), (solve (perfEnvOf env rp) rp.ref i).iters) (M := runMax (solve (perfEnvOf env rp) rp.ref) (k + 1)) (c := false) (by
      obtain ⟨m, hm⟩ : ∃ m, N - k = m + 1 := ⟨N - k - 1, by omega⟩
      rw [perfRuns_prefix _ k (by omega) hconv, hm, perfRuns]
      dsimp only
      rw [if_pos hfail]
      simp only [perfAcc, sum_range_succ, runMax]
      rfl) (by omega)
  exact ⟨d, l, h1, h2, h3, h4, h5, h6, h7, h8 ▸ runMax_spec _ _, h9, h10⟩

/-- **C105**, negative: without repetitions, and if the first one fails, the behaviour is undefined: a quotient with divisor zero is converted to an integer. -/
theorem perf_first_fails {sqrt : K → K} {solve : PerfEnv K → Bool → Nat → PerfSolve K} {g : List Int} {rp : PerfParams} {refdata tdata : PerfData K} {env : PerfEnv K} {N : Nat}
    (hN : rp.nrepeats = N) (hset : env.sys.toInts (sweepsText rp.nbswps rp.naswps) 2 = .ok [rp.nbswps, rp.naswps])
    (hfail : N = 0 ∨ (solve (perfEnvOf env rp) rp.ref 0).reason ≤ 0) : runOneTest sqrt solve g rp refdata tdata env = .error .ub := by
  unfold runOneTest
  rw [if_neg (by omega), perfSetSweeps_ok hset, ok_bind, hN, Int.toNat_natCast]
  dsimp only
  rw [show ({ env with sys := setOption env.sys "-blasted_async_sweeps" (sweepsText rp.nbswps rp.naswps) } : PerfEnv K) = perfEnvOf env rp from rfl, if_pos]
  cases N with
  | zero => rw [perfRuns]
  | succ n =>
    rw [perfRuns]
    dsimp only
    rw [if_pos (by omega)]

/-- **C105**, negative: the number of threads of a setting only goes into the report. Whatever it is, the solves are the same, and so are the data, the rest of the line and the environment. -/
theorem perf_threads_ignored (sqrt : K → K) (solve : PerfEnv K → Bool → Nat → PerfSolve K) (g : List Int) (rp : PerfParams) (t : Int) (refdata tdata : PerfData K) (env : PerfEnv K) :
    runOneTest sqrt solve g { rp with numthreads := t } refdata tdata env =
      (runOneTest sqrt solve g rp refdata tdata env).map fun r => (r.1, r.2.1, { r.2.2 with threads := t }) := by
  unfold runOneTest
  dsimp only
  by_cases h1 : rp.nrepeats < 0
  · rw [if_pos h1, if_pos h1]
    rfl
  · rw [if_neg h1, if_neg h1]
    cases perfSetSweeps env.sys g rp.nbswps rp.naswps with
    | error e => rfl
    | ok P' =>
      rw [ok_bind, ok_bind]
      split_ifs with h2 h3
      · rfl
      · cases stdDeviation sqrt (perfRuns (solve { env with sys := P' } rp.ref) rp.nrepeats.toNat 0 tdata (List.replicate rp.nrepeats.toNat 0)).2.2 _ _ <;> rfl
      · cases stdDeviation sqrt (perfRuns (solve { env with sys := P' } rp.ref) rp.nrepeats.toNat 0 tdata (List.replicate rp.nrepeats.toNat 0)).2.2 _ _ <;> rfl

/-- The lines of a list of settings: the column of threads is the list, and otherwise all lines are the same. -/
theorem perfSettings_lines {sqrt : K → K} {solve : PerfEnv K → Bool → Nat → PerfSolve K} {g : List Int} {tp : PerfTestParams} {refdata : PerfData K} (ts : List Int) {env : PerfEnv K}
    {ls : List (PerfLine K)} (h : perfSettings sqrt solve g tp refdata ts env = .ok ls) :
    ls.map PerfLine.threads = ts ∧
    ∀ l ∈ ls, ∃ e d l', runOneTest sqrt solve g ⟨false, tp.nbswps, tp.naswps, tp.nruns, 0⟩ refdata perfData0 env = .ok (e, d, l') ∧ { l with threads := 0 } = { l' with threads := 0 } := by
  induction ts generalizing env ls with
  | nil =>
    rw [perfSettings, Except.ok.injEq] at h
    subst h
    exact ⟨rfl, fun l hl => absurd hl (List.not_mem_nil)⟩
  | cons t ts ih =>
    rw [perfSettings, bind_ok_iff] at h
    obtain ⟨r, h1, h⟩ := h
    rw [bind_ok_iff] at h
    obtain ⟨ls', h2, h3⟩ := h
    rw [Except.ok.injEq] at h3
    subst h3
    obtain ⟨i1, i2⟩ := ih h2
    have h0 := perf_threads_ignored sqrt solve g ⟨false, tp.nbswps, tp.naswps, tp.nruns, 0⟩ t refdata perfData0 env
    dsimp only at h0
    rw [h1] at h0
    cases hr : runOneTest sqrt solve g ⟨false, tp.nbswps, tp.naswps, tp.nruns, 0⟩ refdata perfData0 env with
    | error e =>
      rw [hr] at h0
      exact absurd h0 (by simp [Except.map])
    | ok r0 =>
      rw [hr] at h0
      simp only [Except.map, Except.ok.injEq] at h0
      have he : runOneTest sqrt solve g ⟨false, tp.nbswps, tp.naswps, tp.nruns, 0⟩ refdata perfData0 r.1 = .ok r0 := by
        have e1 : r.1 = r0.1 := by rw [h0]
        rw [e1]
        have hr' := hr
        unfold runOneTest at hr ⊢
        dsimp only at hr ⊢
        by_cases g1 : tp.nruns < 0
        · rw [if_pos g1] at hr
          exact absurd hr (by simp)
        · rw [if_neg g1] at hr ⊢
          rw [bind_ok_iff] at hr
          obtain ⟨P', p1, p2⟩ := hr
          have p3 : r0.1 = { env with sys := P' } := by
            simp only [Bool.false_eq_true, if_false] at p2
            split_ifs at p2 with q1
            rw [bind_ok_iff] at p2
            obtain ⟨dv, -, p4⟩ := p2
            rw [Except.ok.injEq] at p4
            rw [← p4]
          rw [p3]
          dsimp only
          rw [(perfSetSweeps_eq p1).2, ok_bind]
          exact p2
      refine ⟨?_, fun l hl => ?_⟩
      · rw [List.map_cons, i1, h0]
      · rcases List.mem_cons.mp hl with rfl | hl
        · exact ⟨r0.1, r0.2.1, r0.2.2, rfl, by rw [h0]⟩
        · obtain ⟨e, d, l', q1, q2⟩ := i2 l hl
          rw [he, Except.ok.injEq] at q1
          exact ⟨e, d, l', by rw [q1], q2⟩

/-- **C105**, negative: the report has a line for the reference and one for each number of threads, in this order and with these numbers in the first column. But for any solver, however its times depend
on the number of threads that are really used, all lines but the first are the same apart from this column. -/
theorem perf_program_same_lines {sqrt : K → K} {solve : PerfEnv K → Bool → Nat → PerfSolve K} {g : List Int} {env : PerfEnv K} {tp : PerfTestParams} {ls : List (PerfLine K)}
    (htp : getTestParams env.sys g = .ok tp) (h : perfProgram sqrt solve g env = .ok ls) :
    ls.map PerfLine.threads = tp.refthreads :: tp.threadslist ∧ ∀ l ∈ ls.tail, ∀ l' ∈ ls.tail, { l with threads := l'.threads } = l' := by
  unfold perfProgram at h
  rw [htp, ok_bind, bind_ok_iff] at h
  obtain ⟨r, h1, h⟩ := h
  rw [bind_ok_iff] at h
  obtain ⟨ls', h2, h3⟩ := h
  rw [Except.ok.injEq] at h3
  subst h3
  obtain ⟨i1, i2⟩ := perfSettings_lines _ h2
  refine ⟨?_, fun l hl l' hl' => ?_⟩
  · rw [List.map_cons, i1]
    congr 1
    unfold runOneTest at h1
    simp only [if_true] at h1
    split_ifs at h1 with g1
    rw [bind_ok_iff] at h1
    obtain ⟨P', -, h1⟩ := h1
    split_ifs at h1 with g2
    rw [bind_ok_iff] at h1
    obtain ⟨dv, -, h1⟩ := h1
    rw [Except.ok.injEq] at h1
    rw [← h1]
  · obtain ⟨e, d, m, a1, a2⟩ := i2 l hl
    obtain ⟨e', d', m', b1, b2⟩ := i2 l' hl'
    rw [a1] at b1
    simp only [Except.ok.injEq, Prod.mk.injEq] at b1
    obtain ⟨-, -, rfl⟩ := b1
    have := a2.trans b2.symm
    cases l
    cases l'
    simp only [PerfLine.mk.injEq, true_and] at this ⊢
    exact this

end

/-- Reading a path with `PetscOptionsGetString`. -/
theorem optGetString_path {Real : Type} {P : PetscSys Real} {name : String} (k : Nat) (buf : List (Option Char)) (hfile : ∀ s, P.db name = some (some s) → '\x00' ∉ s) :
    (¬ ((optGetString P name buf (k + 1)).1 ≠ 0 ∨ (optGetString P name buf (k + 1)).2.2 = false) → ∃ f, cString (optGetString P name buf (k + 1)).2.1 = .ok f) ∧
    ∀ f, ((¬ ((optGetString P name buf (k + 1)).1 ≠ 0 ∨ (optGetString P name buf (k + 1)).2.2 = false)) ∧ cString (optGetString P name buf (k + 1)).2.1 = .ok f) ↔
      ((∃ s, P.db name = some (some s) ∧ f = s.take k) ∨ (P.db name = some none ∧ f = [])) := by
  unfold optGetString
  cases h : P.db name with
  | none => simp
  | some o =>
    cases o with
    | none => simp [cString, List.replicate_succ, eq_comm]
    | some s =>
      have h3 : '\x00' ∉ s.take k := fun h' => hfile s h (List.mem_of_mem_take h')
      have hc : cString (((s.take k).map some ++ [some '\x00']) ++ buf.drop (min s.length k + 1)) = .ok (s.take k) := by
        rw [List.append_assoc, List.singleton_append, cString_term h3]
      simp only [if_neg (Nat.succ_ne_zero k), Nat.add_sub_cancel, hc]
      simp [eq_comm]

/-- **C105** The parameters of the test are read exactly if all options are there and PETSc can read the numbers; at most twenty numbers of threads and 499 characters of the name of the report are
read. In all other cases there is an exception. -/
theorem perf_params_iff {Real : Type} {P : PetscSys Real} (hP : P.Sound) {g : List Int} (hfile : ∀ s, P.db "-perftest_report_file" = some (some s) → '\x00' ∉ s) :
    (∀ tp, getTestParams P g = .ok tp ↔
      (∀ o ∈ [("-perftest_ref_threads", tp.refthreads), ("-perftest_ref_runs", tp.refnruns), ("-perftest_test_runs", tp.nruns), ("-perftest_ref_build_sweeps", tp.nrefbswps),
        ("-perftest_ref_apply_sweeps", tp.nrefaswps), ("-perftest_test_build_sweeps", tp.nbswps), ("-perftest_test_apply_sweeps", tp.naswps)],
          ∃ s, P.db o.1 = some (some s) ∧ P.toInt s = .ok o.2) ∧
      ((∃ s, P.db "-perftest_test_threadslist" = some (some s) ∧ P.toInts s 20 = .ok tp.threadslist) ∨ (P.db "-perftest_test_threadslist" = some none ∧ tp.threadslist = [])) ∧
      ((∃ s, P.db "-perftest_report_file" = some (some s) ∧ tp.reportfile = s.take 499) ∨ (P.db "-perftest_report_file" = some none ∧ tp.reportfile = []))) ∧
    ((∃ tp, getTestParams P g = .ok tp) ∨ ∃ msg, getTestParams P g = .error (.throw "std::runtime_error" msg)) := by
  have hint : ∀ name msg v, perfInt P name msg = .ok v ↔ ∃ s, P.db name = some (some s) ∧ P.toInt s = .ok v := by
    intro name msg v
    unfold perfInt optGetInt
    cases h : P.db name with
    | none => simp
    | some o =>
      cases o with
      | none => simp
      | some s =>
        cases h2 : P.toInt s with
        | ok w => simp [outOf, h2]
        | error c =>
          have hc : c ≠ 0 := by
            have := hP.int_code s c h2
            have := hP.min_nonneg
            omega
          simp [outOf, h2, hc]
  have hthrow : ∀ name msg, (∃ v, perfInt P name msg = .ok v) ∨ perfInt P name msg = .error (.throw "std::runtime_error" msg) := by
    intro name msg
    unfold perfInt
    dsimp only
    split_ifs
    · exact Or.inr rfl
    · exact Or.inl ⟨_, rfl⟩
  have hlist : ∀ l, ((¬ ((optGetIntArray P "-perftest_test_threadslist" g 20).1 ≠ 0 ∨ (optGetIntArray P "-perftest_test_threadslist" g 20).2.2.2 = false)) ∧
      (optGetIntArray P "-perftest_test_threadslist" g 20).2.1.take (optGetIntArray P "-perftest_test_threadslist" g 20).2.2.1 = l) ↔
      ((∃ s, P.db "-perftest_test_threadslist" = some (some s) ∧ P.toInts s 20 = .ok l) ∨ (P.db "-perftest_test_threadslist" = some none ∧ l = [])) := by
    intro l
    unfold optGetIntArray
    cases h : P.db "-perftest_test_threadslist" with
    | none => simp
    | some o =>
      cases o with
      | none => simp [eq_comm]
      | some s =>
        cases h2 : P.toInts s 20 with
        | ok w => simp [h2]
        | error c =>
          have hc : c ≠ 0 := by
            have := hP.ints_code s 20 c h2
            have := hP.min_nonneg
            omega
          simp [h2, hc]
  have hstr := optGetString_path (P := P) (name := "-perftest_report_file") 499 (List.replicate 500 none) hfile
  unfold getTestParams
  generalize List.replicate 500 (none : Option Char) = buf at hstr ⊢
  norm_num only at hstr
  refine ⟨fun tp => ?_, ?_⟩
  · rw [bind_ok_iff]
    constructor
    · rintro ⟨a1, h1, h⟩
      dsimp only at h
      by_cases c1 : (optGetIntArray P "-perftest_test_threadslist" g 20).1 ≠ 0 ∨ (optGetIntArray P "-perftest_test_threadslist" g 20).2.2.2 = false
      · rw [if_pos c1] at h
        exact absurd h (by simp)
      · rw [if_neg c1] at h
        simp only [bind_ok_iff] at h
        obtain ⟨a2, h2, a3, h3, a4, h4, a5, h5, a6, h6, a7, h7, h⟩ := h
        by_cases c2 : (optGetString P "-perftest_report_file" buf 500).1 ≠ 0 ∨ (optGetString P "-perftest_report_file" buf 500).2.2 = false
        · rw [if_pos c2] at h
          exact absurd h (by simp)
        · rw [if_neg c2, bind_ok_iff] at h
          obtain ⟨f, hf, h⟩ := h
          rw [Except.ok.injEq] at h
          subst h
          refine ⟨?_, (hlist _).mp ⟨c1, rfl⟩, (hstr.2 _).mp ⟨c2, hf⟩⟩
          simp only [List.forall_mem_cons]
          exact ⟨(hint _ _ _).mp h1, (hint _ _ _).mp h2, (hint _ _ _).mp h3, (hint _ _ _).mp h4, (hint _ _ _).mp h5, (hint _ _ _).mp h6, (hint _ _ _).mp h7, fun x hx => absurd hx List.not_mem_nil⟩
    · rintro ⟨ho, hl, hf⟩
      simp only [List.forall_mem_cons] at ho
      obtain ⟨o1, o2, o3, o4, o5, o6, o7, -⟩ := ho
      obtain ⟨c1, e1⟩ := (hlist _).mpr hl
      obtain ⟨c2, e2⟩ := (hstr.2 _).mpr hf
      refine ⟨tp.refthreads, (hint _ _ _).mpr o1, ?_⟩
      dsimp only
      rw [if_neg c1, (hint _ _ _).mpr o2, ok_bind, (hint _ _ _).mpr o3, ok_bind, (hint _ _ _).mpr o4, ok_bind, (hint _ _ _).mpr o5, ok_bind, (hint _ _ _).mpr o6, ok_bind,
        (hint _ _ _).mpr o7, ok_bind, if_neg c2, e2, ok_bind, e1]
  · have step : ∀ {α : Type} {m : C Int} {f : Int → C α} {msg : String}, ((∃ v, m = .ok v) ∨ m = .error (.throw "std::runtime_error" msg)) →
        (∀ v, (∃ a, f v = .ok a) ∨ ∃ msg, f v = .error (.throw "std::runtime_error" msg)) → (∃ a, (m >>= f) = .ok a) ∨ ∃ msg, (m >>= f) = .error (.throw "std::runtime_error" msg) := by
      intro α m f msg hm hf
      rcases hm with ⟨v, rfl⟩ | rfl
      · rw [ok_bind]
        exact hf v
      · exact Or.inr ⟨msg, by rw [error_bind]⟩
    refine step (hthrow _ _) fun a1 => ?_
    dsimp only
    by_cases c1 : (optGetIntArray P "-perftest_test_threadslist" g 20).1 ≠ 0 ∨ (optGetIntArray P "-perftest_test_threadslist" g 20).2.2.2 = false
    · rw [if_pos c1]
      exact Or.inr ⟨_, rfl⟩
    rw [if_neg c1]
    refine step (hthrow _ _) fun a2 => step (hthrow _ _) fun a3 => step (hthrow _ _) fun a4 => step (hthrow _ _) fun a5 => step (hthrow _ _) fun a6 => step (hthrow _ _) fun a7 => ?_
    by_cases c2 : (optGetString P "-perftest_report_file" buf 500).1 ≠ 0 ∨ (optGetString P "-perftest_report_file" buf 500).2.2 = false
    · rw [if_pos c2]
      exact Or.inr ⟨_, rfl⟩
    rw [if_neg c2]
    obtain ⟨f, hf⟩ := hstr.1 c2
    exact Or.inl ⟨_, by rw [hf, ok_bind]⟩

/-! ### Examples -/

/-- Options for one and for four threads, two repetitions each, one sweep for the reference and two for the tests. -/
def exPerfSys : PetscSys ℚ where
  db name := if name = "-perftest_report_file" then some (some "report".toList) else if name = "-perftest_test_threadslist" then some (some "1,4".toList)
    else if name = "-perftest_ref_threads" ∨ name = "-perftest_ref_build_sweeps" ∨ name = "-perftest_ref_apply_sweeps" then some (some ['1'])
    else if name = "-perftest_ref_runs" ∨ name = "-perftest_test_runs" ∨ name = "-perftest_test_build_sweeps" ∨ name = "-perftest_test_apply_sweeps" then some (some ['2']) else none
  toInt s := if s = ['1'] then .ok 1 else if s = ['2'] then .ok 2 else .error 83
  toReal _ := .error 83
  toBool _ := .error 83
  toInts s k := if s = "1,4".toList then .ok (([1, 4] : List Int).take k) else if s = "1,1".toList then .ok (([1, 1] : List Int).take k)
    else if s = "2,2".toList then .ok (([2, 2] : List Int).take k) else .error 83
  errMin := 54
  errMax := 99
  message _ := (0, some "Invalid argument", none)

/-- A solver whose times are inversely proportional to the number of threads. -/
def exPerfSolve (env : PerfEnv ℚ) (_ : Bool) (i : Nat) : PerfSolve ℚ := ⟨10 + i, 2, ⟨6 / env.threads, 2 / env.threads, 1, 1⟩⟩

-- a solver that scales perfectly: in the report the speedup with four threads is one, whatever the number of threads that are really used
example : perfProgram id exPerfSolve (List.replicate 20 0) ⟨exPerfSys, 3⟩ = .ok
    [⟨true, 1, 1, 1, some 2, some (2 / 3), some (8 / 3), 0, 2, 11, 10, true⟩, ⟨false, 1, 2, 2, some 1, some 1, some 1, 0, 2, 11, 10, true⟩,
      ⟨false, 4, 2, 2, some 1, some 1, some 1, 0, 2, 11, 10, true⟩] := by
  decide +kernel

example : getTestParams exPerfSys (List.replicate 20 0) = .ok ⟨1, [1, 4], 2, 2, 1, 1, 2, 2, "report".toList⟩ ∧
    getTestParams { exPerfSys with db := fun _ => none } (List.replicate 20 0) = .error (.throw "std::runtime_error" "Number of ref threads not set!") := by
  decide +kernel

-- the hypotheses of `perf_line_correct` hold here
example : exPerfSys.toInts (sweepsText 2 2) 2 = .ok [2, 2] ∧ ∀ i < 2, 0 < (exPerfSolve (perfEnvOf ⟨exPerfSys, 3⟩ ⟨false, 2, 2, 2, 4⟩) false i).reason := by
  decide +kernel

/-- **C105**, negative: a repetition with 10 iterations and one that fails after 100: the report says 110 iterations on average, at most 100. -/
theorem perf_average_above_maximum :
    (runOneTest id (fun _ _ i => (⟨if i = 0 then 10 else 100, if i = 0 then 2 else -3, ⟨6, 2, 1, 1⟩⟩ : PerfSolve ℚ)) [] ⟨true, 2, 2, 2, 1⟩ perfData0 perfData0 ⟨exPerfSys, 3⟩).map
      (fun r => (r.2.2.avgIters, r.2.2.maxIters, r.2.2.converged)) = .ok (110, 100, false) := by
  decide +kernel

-- the first repetition fails
example : runOneTest id (fun _ _ _ => (⟨100, -3, ⟨6, 2, 1, 1⟩⟩ : PerfSolve ℚ)) [] ⟨true, 2, 2, 2, 1⟩ perfData0 perfData0 ⟨exPerfSys, 3⟩ = .error .ub :=
  perf_first_fails (N := 2) rfl (by decide +kernel) (Or.inr (by decide))

-- the hypotheses of `perf_params_iff` can be met
theorem exPerfSys_sound : exPerfSys.Sound where
  min_nonneg := by decide
  int_code s c h := by
    simp only [exPerfSys] at h ⊢
    split_ifs at h
    simp only [Except.error.injEq] at h
    omega
  real_code s c h := by
    simp only [exPerfSys, Except.error.injEq] at h ⊢
    omega
  bool_code s c h := by
    simp only [exPerfSys, Except.error.injEq] at h ⊢
    omega
  ints_code s k c h := by
    simp only [exPerfSys] at h ⊢
    split_ifs at h
    simp only [Except.error.injEq] at h
    omega
  null_code := by decide
  has_text c _ _ := ⟨rfl, _, rfl⟩
  ints_room s k vs h := by
    simp only [exPerfSys] at h
    split_ifs at h <;> (simp only [Except.ok.injEq] at h; rw [← h]; simp)

end Blasted
