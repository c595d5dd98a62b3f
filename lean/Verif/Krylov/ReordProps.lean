import Verif.Krylov.ReordSpec
import Verif.Krylov.ProgProps
import Verif.Krylov.BicgProps
import Verif.Reorder.IluProps
import Verif.Solve.SharpProps

/-!
# The reordered preconditioner: its options (C96), and the program that compares it (C97)
-/

namespace Blasted

open Finset Matrix

/-! ### C96: the options -/

/-- **C96**, as far as it is true: the numbers of sweeps, the chunk size and the two initialisations are those asked for, and the matrix is scaled. Missing: the use of threads
(`reordered_ilu_threads_wrong`). -/
theorem reordered_ilu_options_partial (nb na tcs : Int) (f : FactInit) (a : ApplyInit) (tf ta : Bool) :
    (newReorderedAsyncILU0 nb na tcs f a tf ta).nbuildsweeps = nb ∧ (newReorderedAsyncILU0 nb na tcs f a tf ta).napplysweeps = na ∧
    (newReorderedAsyncILU0 nb na tcs f a tf ta).thread_chunk_size = tcs ∧ (newReorderedAsyncILU0 nb na tcs f a tf ta).factinittype = f ∧
    (newReorderedAsyncILU0 nb na tcs f a tf ta).applyinittype = a ∧ (newReorderedAsyncILU0 nb na tcs f a tf ta).usescaling = true :=
  ⟨rfl, rfl, rfl, rfl, rfl, rfl⟩

/-- **C96** is false for the threads: the application uses them whatever is asked for, the factorization uses them if they are asked for in the application, and the request for the factorization
switches on the information about the factorization (which `compute` of this class does not use). What is asked for is what one gets only if threads are asked for in both. -/
theorem reordered_ilu_threads_wrong (nb na tcs : Int) (f : FactInit) (a : ApplyInit) (tf ta : Bool) :
    (newReorderedAsyncILU0 nb na tcs f a tf ta).threadedapply = true ∧ (newReorderedAsyncILU0 nb na tcs f a tf ta).threadedfactor = ta ∧
    (newReorderedAsyncILU0 nb na tcs f a tf ta).compute_precinfo = tf ∧
    ((newReorderedAsyncILU0 nb na tcs f a tf ta).threadedfactor = tf ∧ (newReorderedAsyncILU0 nb na tcs f a tf ta).threadedapply = ta ↔ tf = true ∧ ta = true) := by
  refine ⟨rfl, rfl, rfl, ?_⟩
  show ta = tf ∧ true = ta ↔ _
  cases tf <;> cases ta <;> decide

/-- The default arguments ask for threads in both. -/
example : (newReorderedAsyncILU0 1 1 400 .original .zero).threadedfactor = true ∧ (newReorderedAsyncILU0 1 1 400 .original .zero).threadedapply = true ∧
    (newReorderedAsyncILU0 1 1 400 .original .zero false false).threadedapply = true := ⟨rfl, rfl, rfl⟩

/-- A tridiagonal matrix: 4 on the diagonal, 1 beside it. -/
def exTh : SR ℚ :=
  { browptr := [0, 2, 5, 7], bcolind := [0, 1, 0, 1, 2, 1, 2], vals := [4, 1, 1, 4, 1, 1, 4],
    diagind := [0, 3, 6], browendptr := [2, 5, 7], nbrows := 3, nnzb := 7, nbstored := 7 }

/-- An inverse square root, correct for the diagonal entries of this matrix. -/
def isqTh (x : ℚ) : ℚ := if x = 4 then 1 / 2 else 1

theorem exTh_full : exTh.Full := by constructor <;> decide
theorem exTh_sorted : exTh.Sorted := SR.sorted_of_check (by decide)
theorem exTh_diag : exTh.HasDiag := by constructor <;> decide

/-- The factors of the scaled matrix. -/
def exThFac : List ℚ := [1, 1/4, 1/4, 15/16, 1/4, 4/15, 14/15]

theorem exTh_compute : (reordCompute isqTh ⟨true, 1, .original, false⟩ exTh {} [0, 1, 2] [2, 0, 1] (List.range 7) (List.replicate 7 7) [7, 7, 7] [7, 7, 7] {}).map
    (fun st => (st.base.iluvals, st.base.scale, st.base.ytemp, st.rsmat)) = .ok (some exThFac, some [1/2, 1/2, 1/2], some [0, 0, 0], exTh) := by decide +kernel

theorem exTh_setting : ReordSetting true exTh {} exTh [0, 1, 2] [2, 0, 1] (List.range 7) (List.replicate 7 7) [7, 7, 7] [7, 7, 7] {} where
  full := exTh_full
  sorted := exTh_sorted
  valid := ⟨.inl rfl, .inl rfl⟩
  irp := rfl
  ordp_perm := by decide
  copy := by decide +kernel
  diag := exTh_diag
  ord_perm := by decide
  ordc_perm := by decide
  gilu_len := rfl
  gy_len := rfl
  gscale_len := rfl
  state := Or.inl rfl

theorem exTh_pivots : PivotsOk exTh exThFac := by
  intro i hi
  have : i < 3 := hi
  rw [isUnit_iff_ne_zero]
  interval_cases i <;> decide +kernel

theorem exTh_noFill : NoFill exTh := by
  intro i hi k hk j hj h1 h2
  have hi' : i < 3 := hi
  have hk3 : k < 3 := by omega
  have hj3 : j < 3 := by
    obtain ⟨p, hp, rfl⟩ := h2
    exact exTh_full.col_lt p (exTh_full.lt_nnz (show k < exTh.nbrows from hk3) hp.2)
  revert hk hj h1 h2
  interval_cases i <;> interval_cases k <;> interval_cases j <;> decide

/-- **C96**, what this leads to: the object is asked to work without threads, with one sweep for the factorization and one for the application, on a tridiagonal matrix. Without threads every
application would solve the system. With the threads that it uses there are executions whose result does not. -/
theorem reordered_ilu_threads_wrong_result :
    ∃ st ra, reordCompute isqTh ⟨true, 1, .original, false⟩ exTh {} [0, 1, 2] [2, 0, 1] (List.range 7) (List.replicate 7 7) [7, 7, 7] [7, 7, 7] {} = .ok st ∧ ra.length = 3 ∧
      (∀ z, ReordApplies { newReorderedAsyncILU0 1 1 400 .original .zero false false with threadedapply := false } {} 3 st ra z →
        ∀ i < 3, ∑ j ∈ range 3, exTh.entry i j * z⟦j⟧ = ra⟦i⟧) ∧
      ∃ z, ReordApplies (newReorderedAsyncILU0 1 1 400 .original .zero false false) {} 3 st ra z ∧ ¬ ∀ i < 3, ∑ j ∈ range 3, exTh.entry i j * z⟦j⟧ = ra⟦i⟧ := by
  have hc := exTh_compute
  cases h : reordCompute isqTh ⟨true, 1, .original, false⟩ exTh {} [0, 1, 2] [2, 0, 1] (List.range 7) (List.replicate 7 7) [7, 7, 7] [7, 7, 7] {} with
  | error e => rw [h] at hc; cases hc
  | ok st =>
  rw [h] at hc
  have hc' := Except.ok.inj hc
  simp only [Prod.mk.injEq] at hc'
  obtain ⟨c1, c2, c3, c4⟩ := hc'
  refine ⟨st, [2, 5/2, 38/15], rfl, rfl, ?_, ?_⟩
  · rintro z ⟨ords, orda, za, g, ho, hoa, hza, hg, hz⟩
    rw [if_neg (by decide)] at hz
    obtain ⟨st', hz⟩ := hz
    exact reord_ilu_solves_partial (conf := ⟨true, 1, .original, false⟩) exTh_setting le_rfl h exTh_noFill
      (fun _ i hi => by have : i < 3 := hi; interval_cases i <;> decide +kernel) (fun i _ => rfl) (k := 1) le_rfl (init := .zero) (by decide) ho hoa rfl hza hg hz
  · obtain ⟨z, y', hz, hw⟩ := scalar_ilu_apply_lower_sharp (A := exTh) (u := exThFac) (scale := some [1/2, 1/2, 1/2]) exTh_full exTh_sorted exTh_diag (by decide) exTh_pivots
      (by intro s h; cases h; rfl) (fun i hi => by have : i < 3 := hi; interval_cases i <;> decide +kernel) (mix := mixWhole) (fun _ _ h => h) (k := 1) le_rfl
      (c := id) (fun t ht => by show t < 3; omega) (fun t _ => by show t < t + 1; omega) (fun t ht => by interval_cases t; decide +kernel) (init := .zero) (by decide)
      (ord := fun _ => [2, 0, 1]) (fun _ => by decide) (r := [2, 5/2, 38/15]) (z := [7, 7, 7]) (y := [0, 0, 0]) rfl rfl rfl (e := fun _ => 1)
      (fun i hi => by have : i < 3 := hi; interval_cases i <;> decide +kernel) one_ne_zero
    refine ⟨z, ⟨fun _ => [2, 0, 1], fun _ => [2, 0, 1], [7, 7, 7], [9, 9, 9], fun _ => (by decide : [2, 0, 1].Perm (List.range 3)), fun _ => (by decide : [2, 0, 1].Perm (List.range 3)), rfl, rfl, ?_⟩, fun hs => hw ?_⟩
    · rw [if_pos (by decide)]
      refine ⟨mixWhole, ?_, exTh, exThFac, [0, 0, 0], [2, 5/2, 38/15], z, y', c4, c1, c3, rfl, ?_, rfl⟩
      · exact mixOk_whole
      · rw [c2]
        exact hz
    · refine ⟨fun i => 2 * z⟦i⟧, fun i hi => ?_, fun i hi => ?_⟩
      · have : scaleAt (some ([1/2, 1/2, 1/2] : List ℚ)) i = 1 / 2 := by
          have : i < 3 := hi
          interval_cases i <;> decide +kernel
        rw [this]; ring
      · have e : scaleAt (some ([1/2, 1/2, 1/2] : List ℚ)) i = 1 / 2 := by
          have : i < 3 := hi
          interval_cases i <;> decide +kernel
        rw [e, ← hs i hi, Finset.mul_sum]
        refine Finset.sum_congr rfl fun j hj => ?_
        have e2 : luProd exTh exThFac i j = exTh.entry i j / 4 := by
          have h1 : i < 3 := hi
          have h2 : j < 3 := Finset.mem_range.mp hj
          interval_cases i <;> interval_cases j <;> decide +kernel
        rw [e2]; ring

/-! ### C97: the program -/

section
variable {K : Type} [Field K] [LinearOrder K]

theorem swap13_invol (i : Nat) : swap13 (swap13 i) = i := by
  unfold swap13
  split_ifs <;> omega

theorem swap13_lt {n i : Nat} (hn : 4 ≤ n) (hi : i < n) : swap13 i < n := by
  unfold swap13
  split_ifs <;> omega

theorem swap13_perm {n : Nat} (hn : 4 ≤ n) : IsPerm ((List.range n).map swap13) n := by
  refine (List.perm_ext_iff_of_nodup ?_ List.nodup_range).mpr fun i => ?_
  · refine (List.nodup_map_iff_inj_on List.nodup_range).mpr fun a _ b _ h => ?_
    rw [← swap13_invol a, h, swap13_invol]
  · rw [List.mem_map, List.mem_range]
    constructor
    · rintro ⟨a, ha, rfl⟩
      exact swap13_lt hn (List.mem_range.mp ha)
    · intro hi
      exact ⟨swap13 i, List.mem_range.mpr (swap13_lt hn hi), swap13_invol i⟩

theorem trivialOrdering_eq {n : Nat} (hn : 4 ≤ n) : trivialOrdering n = .ok ((List.range n).map swap13) := by
  unfold trivialOrdering
  obtain ⟨v, e, h1, h2⟩ := forRange_map (a := List.replicate n 0) (n := n) (fun i _ => i) (body := fun i v => wr v i i) (fun i hi a' ha' => by
    rw [List.length_replicate] at ha'
    rw [wr_eq (by omega)])
  rw [e, ok_bind]
  rw [List.length_replicate] at h1 h2
  rw [rd_eq (by omega), ok_bind, rd_eq (by omega), ok_bind, wr_eq (by omega), ok_bind, wr_eq (by simp; omega)]
  refine congrArg Except.ok (ext_get0 (by simp [h1]) fun i hi => ?_)
  have hi' : i < n := by simpa [h1] using hi
  rw [get0_map_range _ hi', h2 1 (by omega), h2 3 (by omega), if_pos (by omega), if_pos (by omega)]
  unfold swap13
  rcases Nat.decEq i 3 with h3 | rfl
  · rw [get0_set_ne (Ne.symm h3)]
    rcases Nat.decEq i 1 with h1' | rfl
    · rw [get0_set_ne (Ne.symm h1'), h2 i hi', if_pos (by omega), if_neg h1', if_neg h3]
    · rw [get0_set_self (by omega)]
      rfl
  · rw [get0_set_self (by simp; omega)]
    rfl

theorem trivialOrdering_ub {n : Nat} (hn : n < 4) : trivialOrdering n = .error .ub := by
  interval_cases n <;> decide

omit [Field K] [LinearOrder K] in
/-- **C97** The ordering of the program: for four and more rows rows 1 and 3 and columns 1 and 3 are exchanged; for fewer the program accesses an element that is not there. -/
theorem trivial_reordering (n : Nat) :
    (4 ≤ n → ∃ r : RS K, createTrivialColReordering n = .ok r ∧ SwapsTwo r n) ∧ (n < 4 → (createTrivialColReordering n : C (RS K)) = .error .ub) := by
  unfold createTrivialColReordering
  refine ⟨fun hn => ?_, fun hn => by rw [trivialOrdering_ub hn]; rfl⟩
  rw [trivialOrdering_eq hn, ok_bind]
  have hp := swap13_perm hn
  obtain ⟨r, e, h1, h2, -, -, h3, h4⟩ := set_ordering_correct ({} : RS K) n (some ((List.range n).map swap13)) (some ((List.range n).map swap13))
    (by rintro o ⟨⟩; exact hp) (by rintro o ⟨⟩; exact hp)
  have key : ∀ q, InverseOf ((List.range n).map swap13) q n → q = (List.range n).map swap13 := by
    intro q hq
    refine ext_get0 (by rw [hq.1]; simp) fun i hi => ?_
    rw [hq.1] at hi
    have := hq.2.1 (swap13 i) (swap13_lt hn hi)
    rw [get0_map_range _ (swap13_lt hn hi), swap13_invol] at this
    rw [this, get0_map_range _ hi]
  exact ⟨r, e, (h1 _ rfl).1, key _ (h1 _ rfl).2, (h2 _ rfl).1, key _ (h2 _ rfl).2, h3, h4⟩

example : (createTrivialColReordering 5 : C (RS ℚ)) = .ok { rp := [0, 3, 2, 1, 4], irp := [0, 3, 2, 1, 4], cp := [0, 3, 2, 1, 4], icp := [0, 3, 2, 1, 4] } ∧
    (createTrivialColReordering 3 : C (RS ℚ)) = .error .ub := by decide +kernel

omit [LinearOrder K] in
omit [Field K] in
/-- The ordering is one of those for which the reordered preconditioner solves in the ordering of the caller (`reord_ilu_solves_partial`). -/
theorem SwapsTwo.valid {r : RS K} {n : Nat} (hn : 4 ≤ n) (h : SwapsTwo r n) :
    r.Valid n ∧ r.irp.length = r.rp.length ∧ ∀ i < n, at' r.cp (at' r.cp i) = i := by
  have hinv : InverseOf ((List.range n).map swap13) ((List.range n).map swap13) n := by
    refine ⟨by simp, fun i hi => ?_, fun i hi => ?_⟩ <;> simp [get0_map_range _ hi, get0_map_range _ (swap13_lt hn hi), swap13_invol, swap13_lt hn hi]
  refine ⟨⟨.inr (by rw [h.rows]; exact swap13_perm hn), .inr (by rw [h.cols, h.cols_inv]; exact ⟨swap13_perm hn, hinv⟩)⟩, by rw [h.rows, h.rows_inv], fun i hi => ?_⟩
  unfold at'
  rw [h.cols, if_pos (by simp; omega), if_pos (by simp; omega), get0_map_range _ hi, get0_map_range _ (swap13_lt hn hi), swap13_invol]

/-- Reading and converting. -/
theorem ReordFiles.read {E : ReordProgEnv K} {p : ProgParams K} {n : Nat} {es : List (Nat × Nat × K)} {vs ans : List K} (h : ReordFiles E p n es vs ans) :
    ∃ (M : COO K) (A : SR K), reordTestSolve E p = (do
        let ref ← reordReference E p M (.csr A) vs ans
        let reo ← reordReordered E p M (.csr A) vs ans
        .ok (ref, reo)) ∧ ViewOf es n (.csr A) ∧ A.nbrows = n ∧
      ∀ gi gd gv, ∃ B d, getSRMatrixFromCOO 1 p.storageorder gi gd gv M = .ok (B, d) ∧ HoldsFile 1 p.storageorder n es B := by
  obtain ⟨text, e1, hfile, hf⟩ := h.system.mat
  obtain ⟨M, a1, a2, a3, a4, a5, a6, a7, a8⟩ := read_matrix_market_correct_partial h.system.sort E.gi hfile h.system.size h.system.rows hf
  have hnd : NoDup M.entries := h.system.distinct.noDup a5
  have hsize := h.system.size
  have conv : ∀ gi gd gv, ∃ B d, getSRMatrixFromCOO 1 p.storageorder gi gd gv M = .ok (B, d) ∧ HoldsFile 1 p.storageorder n es B := by
    intro gi gd gv
    obtain ⟨B, d, b1, b2, b3, -, -, -, -, b4, -⟩ := coo_to_csr_correct M a7 (by omega) p.storageorder gi gd gv
    refine ⟨B, d, b1, ⟨b2, ?_, ?_⟩, by omega, ?_⟩
    · show B.nbrows = n; omega
    · intro i hi j
      show B.entry i j = _
      rw [b4 i (by omega) j, cooEntry_file a5]
    · intro _ hdg
      have hlex : M.entries.Pairwise lexLt := (a6.and hnd).imp fun {a b} h => by
        unfold lexLe at h; unfold lexLt; omega
      have hd : ∀ i < M.nrows, ∃ e ∈ M.entries, e.rowind = i ∧ e.colind = i := by
        intro i hi
        obtain ⟨e, he, h1, h2⟩ := fileEntry_pos (hdg i (by omega))
        exact ⟨zeroBased e, a5.mem_iff.mpr (List.mem_map.mpr ⟨e, he, rfl⟩), by simp [zeroBased, h1], by simp [zeroBased, h2]⟩
      obtain ⟨A', d', f1, f2, f3⟩ := coo_to_csr_sorted M a7 (by omega) hlex p.storageorder gi gd gv
      rw [b1] at f1
      cases f1
      exact ⟨b2, f2, f3 hd⟩
  obtain ⟨A, d, c1, c2⟩ := conv E.gi E.gd E.gv
  refine ⟨M, A, ?_, c2.view, by have := c2.rows; omega, conv⟩
  unfold reordTestSolve
  rw [e1, a1, ok_bind, h.answer.read, ok_bind, h.system.rhs.read, ok_bind, c1, ok_bind]

theorem reordSolve_ok {p : ProgParams K} {S : SolverEnv K} {b x : List K} {r : SolveInfo K × List K} (h : reordSolve p S b x = .ok r) :
    progSolve p S b x = .ok r ∧ p.solvertype ≠ "gcr" := by
  unfold reordSolve at h
  unfold progSolve
  split at h
  · rename_i hs
    exact ⟨by rw [if_pos hs]; exact h, by rw [hs]; decide⟩
  · rename_i hs
    split at h
    · rename_i hs2
      exact ⟨by rw [if_neg hs, if_pos hs2]; exact h, by rw [hs2]; decide⟩
    · cases h

end

section sound
variable {K : Type} [Field K] [LinearOrder K] [IsStrictOrderedRing K]

theorem reordRunOne_good {E : ReordProgEnv K} {p : ProgParams K} {n : Nat} {es : List (Nat × Nat × K)} {vs ans : List K} {A : SR K} (hA : ViewOf es n (.csr A))
    (hvs : vs.length = n) (hs : SqrtOk E.sqrt) (hsched : ProgSched E.toSolveProgEnv 1 n) {F : PrecFun K} (hF : Applies n (fun _ _ => True) F) {r : SolveInfo K × List K × K}
    (h : reordRunOne E p (.csr A) F vs ans = .ok r) : RunGood p n es vs ans r := by
  have hd : A.nbrows = n := hA.dim
  unfold reordRunOne at h
  cases h1 : reordSolve p ⟨.csr A, F, E.sqrt, p.maxiter, p.tol, E.sched⟩ vs (List.replicate (MatView.csr A).dim 0) with
  | error e => rw [h1] at h; cases h
  | ok q =>
  rw [h1, ok_bind] at h
  obtain ⟨info, x⟩ := q
  dsimp only at h
  obtain ⟨hrun, hg⟩ := reordSolve_ok h1
  have hready : SolverEnv.Ready (⟨.csr A, F, E.sqrt, p.maxiter, p.tol, E.sched⟩ : SolverEnv K) (fun _ _ => True) vs (List.replicate (MatView.csr A).dim 0) := by
    refine ⟨hA.ready, ⟨fun k m => ?_, fun k m => ?_⟩, fun k r z hr hz => ?_, by rw [hvs]; exact hd.symm, List.length_replicate⟩
    · have := hsched.1 k m
      rw [Nat.div_one] at this
      show (E.sched.rows k m).Perm (List.range A.nbrows)
      rw [hd]; exact this
    · show (E.sched.cells k m).Perm (List.range A.nbrows)
      rw [hd]; exact hsched.2 k m
    · change r.length = A.nbrows at hr
      change z.length = A.nbrows at hz
      obtain ⟨z', g1, g2, -⟩ := hF k r z (by omega) (by omega)
      exact ⟨z', g1, by show z'.length = A.nbrows; omega, trivial⟩
  obtain ⟨g1, g2, g3, g4⟩ := progSolve_sound hready hs rfl (fun h => absurd h hg) hrun
  change x.length = A.nbrows at g1
  rw [nrm2_vecN] at g3
  change _ = norm2 A.nbrows vs at g3
  have hdim : (MatView.csr A).dim = n := hd
  rw [hd] at g1 g3
  have hsm : info.iters < p.maxiter → fileResid2 n es vs x < p.tol ^ 2 * norm2 n vs ∧ 0 ≤ info.resnorm ∧ info.resnorm ^ 2 = fileResid2 n es vs x := by
    intro hlt
    obtain ⟨⟨-, -, k1⟩, k2, k3⟩ := g4 hlt
    change nrm2 ((MatView.csr A).resid vs (vecN (MatView.csr A).dim x)) < _ at k1
    change _ = nrm2 ((MatView.csr A).resid vs (vecN (MatView.csr A).dim x)) at k3
    rw [hA.resid] at k1 k3
    rw [nrm2_vecN] at k1
    change _ < p.tol * p.tol * norm2 (MatView.csr A).dim vs at k1
    rw [hdim] at k1
    exact ⟨by rw [sq]; exact k1, k2, by rw [sq]; exact k3⟩
  rw [hdim] at h
  rcases Nat.lt_or_ge ans.length n with hlt | hge
  · rw [progError_ub E.sqrt g1 hlt] at h
    cases h
  · rw [progError_eq E.sqrt g1 hge, ok_bind] at h
    have hnn : 0 ≤ ∑ i ∈ range n, (x⟦i⟧ - ans⟦i⟧) ^ 2 := Finset.sum_nonneg fun i _ => sq_nonneg _
    obtain ⟨s1, s2⟩ := hs _ hnn
    by_cases hc : E.sqrt (∑ i ∈ range n, (x⟦i⟧ - ans⟦i⟧) ^ 2) < p.testtol
    · rw [cassert, if_pos (by simpa using hc), ok_bind] at h
      cases h
      exact ⟨g1, ⟨g2, by rw [sq]; exact g3⟩, fun hl => (hsm hl).1, fun hl => (hsm hl).2, hge, ⟨s1, by rw [sq]; exact s2⟩, hc⟩
    · rw [cassert, if_neg (by simpa using hc)] at h
      cases h

theorem factWords_ok {s : String} {f : FactInit} (h : (s, f) ∈ factWords) : getFactInitFromString s = .ok f := by
  simp [factWords] at h
  rcases h with ⟨rfl, rfl⟩ | ⟨rfl, rfl⟩ | ⟨rfl, rfl⟩ | ⟨rfl, rfl⟩ <;> rfl

theorem applyWords_ok {s : String} {a : ApplyInit} (h : (s, a) ∈ applyWords) : getApplyInitFromString s = .ok a := by
  simp [applyWords] at h
  rcases h with ⟨rfl, rfl⟩ | ⟨rfl, rfl⟩ <;> rfl

omit [Field K] [LinearOrder K] [IsStrictOrderedRing K] in
/-- The objects of the program have the members listed in `reordConf` and `plainConf`. -/
theorem newReordered_conf (p : ProgParams K) (f : FactInit) (a : ApplyInit) :
    newReorderedAsyncILU0 p.nbuildsweeps p.napplysweeps p.threadchunksize f a false false = reordConf p f a ∧
    newAsyncILU0 p.nbuildsweeps p.napplysweeps false p.threadchunksize f a false false = plainConf p f a := ⟨rfl, rfl⟩

/-- **C97** If the program ends normally, the matrix has at least four rows, and both results, with the plain and with the reordered preconditioner, are vectors within the tolerance of the test of the
reference solution; whenever the solver ended before `maxiter` its residual is below the tolerance of the solver. The preconditioner objects are arbitrary objects that return vectors of the right length. -/
theorem reord_program_sound {E : ReordProgEnv K} {p : ProgParams K} {n : Nat} {es : List (Nat × Nat × K)} {vs ans : List K} (h : ReordFiles E p n es vs ans) (hvs : vs.length = n)
    (hs : SqrtOk E.sqrt) (hsched : ProgSched E.toSolveProgEnv 1 n)
    (hobj : ∀ f a B F, HoldsFile 1 p.storageorder n es B → E.object (.asyncIlu0 (plainConf p f a)) B = .ok F → Applies n (fun _ _ => True) F)
    (hreo : ∀ f a r B F, SwapsTwo r n → HoldsFile 1 p.storageorder n es B → E.reordObject (reordConf p f a) r B = .ok F → Applies n (fun _ _ => True) F)
    {ref reo : SolveInfo K × List K × K} (hrun : reordTestSolve E p = .ok (ref, reo)) :
    4 ≤ n ∧ RunGood p n es vs ans ref ∧ RunGood p n es vs ans reo := by
  obtain ⟨M, A, e, hA, hd, hconv⟩ := h.read
  rw [e] at hrun
  cases h1 : reordReference E p M (.csr A) vs ans with
  | error e => rw [h1] at hrun; cases hrun
  | ok q1 =>
  rw [h1, ok_bind] at hrun
  cases h2 : reordReordered E p M (.csr A) vs ans with
  | error e => rw [h2] at hrun; cases hrun
  | ok q2 =>
  rw [h2, ok_bind] at hrun
  cases hrun
  unfold reordReference at h1
  unfold reordReordered at h2
  obtain ⟨B1, d1, c1, hB1⟩ := hconv E.gi2 E.gd2 E.gv2
  obtain ⟨B2, d2, c2, hB2⟩ := hconv E.gi3 E.gd3 E.gv3
  rw [c1, ok_bind] at h1
  rw [show (MatView.csr A).dim = n from hA.dim] at h2
  have hn : 4 ≤ n := by
    by_contra hlt
    rw [(trivial_reordering (K := K) n).2 (by omega)] at h2
    cases h2
  obtain ⟨r, er, hr⟩ := (trivial_reordering (K := K) n).1 hn
  rw [er, ok_bind, c2, ok_bind] at h2
  cases hf : getFactInitFromString p.factinittype with
  | error e => rw [hf] at h1; cases h1
  | ok f =>
  rw [hf, ok_bind] at h1 h2
  cases ha : getApplyInitFromString p.applyinittype with
  | error e => rw [ha] at h1; cases h1
  | ok a =>
  rw [ha, ok_bind] at h1 h2
  rw [(newReordered_conf p f a).2] at h1
  rw [(newReordered_conf p f a).1] at h2
  dsimp only at h1 h2
  cases ho : E.object (.asyncIlu0 (plainConf p f a)) B1 with
  | error e => rw [ho] at h1; cases h1
  | ok F1 =>
  cases ho2 : E.reordObject (reordConf p f a) r B2 with
  | error e => rw [ho2] at h2; cases h2
  | ok F2 =>
  rw [ho, ok_bind] at h1
  rw [ho2, ok_bind] at h2
  exact ⟨hn, reordRunOne_good hA hvs hs hsched (hobj f a B1 F1 hB1 ho) h1, reordRunOne_good hA hvs hs hsched (hreo f a r B2 F2 hr hB2 ho2) h2⟩

omit [IsStrictOrderedRing K] in
/-- The program up to its two solves, when all words are known. -/
theorem ReordFiles.run {E : ReordProgEnv K} {p : ProgParams K} {n : Nat} {es : List (Nat × Nat × K)} {vs ans : List K} (h : ReordFiles E p n es vs ans)
    {f : FactInit} (hf : getFactInitFromString p.factinittype = .ok f) {a : ApplyInit} (ha : getApplyInitFromString p.applyinittype = .ok a) {P : List K → List K → Prop}
    (hobj : ∀ B, HoldsFile 1 p.storageorder n es B → ∃ F, E.object (.asyncIlu0 (plainConf p f a)) B = .ok F ∧ Applies n P F)
    (hreo : ∀ r B, SwapsTwo r n → HoldsFile 1 p.storageorder n es B → ∃ F, E.reordObject (reordConf p f a) r B = .ok F ∧ Applies n P F) :
    ∃ A F1, ViewOf es n (.csr A) ∧ Applies n P F1 ∧
      (n < 4 → reordTestSolve E p = (do let _ ← reordRunOne E p (.csr A) F1 vs ans; .error .ub)) ∧
      (4 ≤ n → ∃ F2, Applies n P F2 ∧ reordTestSolve E p = (do
        let ref ← reordRunOne E p (.csr A) F1 vs ans
        let reo ← reordRunOne E p (.csr A) F2 vs ans
        .ok (ref, reo))) := by
  obtain ⟨M, A, e, hA, hd, hconv⟩ := h.read
  obtain ⟨B1, d1, c1, hB1⟩ := hconv E.gi2 E.gd2 E.gv2
  obtain ⟨B2, d2, c2, hB2⟩ := hconv E.gi3 E.gd3 E.gv3
  obtain ⟨F1, o1, hF1⟩ := hobj B1 hB1
  have e1 : reordReference E p M (.csr A) vs ans = reordRunOne E p (.csr A) F1 vs ans := by
    unfold reordReference
    rw [c1, ok_bind, hf, ok_bind, ha, ok_bind, (newReordered_conf p f a).2, o1, ok_bind]
  refine ⟨A, F1, hA, hF1, fun hlt => ?_, fun hge => ?_⟩
  · rw [e, e1]
    have e2 : reordReordered E p M (.csr A) vs ans = .error .ub := by
      unfold reordReordered
      rw [show (MatView.csr A).dim = n from hA.dim, (trivial_reordering (K := K) n).2 hlt]
      rfl
    rw [e2]
    rfl
  · obtain ⟨r, er, hr⟩ := (trivial_reordering (K := K) n).1 hge
    obtain ⟨F2, o2, hF2⟩ := hreo r B2 hr hB2
    refine ⟨F2, hF2, ?_⟩
    rw [e, e1]
    have e2 : reordReordered E p M (.csr A) vs ans = reordRunOne E p (.csr A) F2 vs ans := by
      unfold reordReordered
      rw [show (MatView.csr A).dim = n from hA.dim, er, ok_bind, c2, ok_bind, hf, ok_bind, ha, ok_bind, (newReordered_conf p f a).1, o2, ok_bind]
    rw [e2]

omit [LinearOrder K] [IsStrictOrderedRing K] in
/-- The system of the file in terms of the view of the matrix. -/
theorem ViewOf.solves {es : List (Nat × Nat × K)} {n : Nat} {v : MatView K} (h : ViewOf es n v) {r z : List K} (hz : SolvesFile n es r z) :
    v.mat *ᵥ vecN v.dim z = vecN v.dim r := by
  have hd := h.dim
  funext i
  have := hz i.1 (by omega)
  show ∑ j : Fin v.dim, v.entry i.1 j.1 * z⟦j.1⟧ = r⟦i.1⟧
  rw [← this, Fin.sum_univ_eq_sum_range (fun j => v.entry i.1 j * z⟦j⟧)]
  exact Finset.sum_congr (by rw [hd]) fun j _ => by rw [h.entry i.1 (by omega)]

omit [LinearOrder K] [IsStrictOrderedRing K] in
theorem reordRunOne_ready {E : ReordProgEnv K} {p : ProgParams K} {n : Nat} {es : List (Nat × Nat × K)} {vs : List K} {A : SR K} (hA : ViewOf es n (.csr A))
    (hvs : vs.length = n) (hsched : ProgSched E.toSolveProgEnv 1 n) {F : PrecFun K} (hF : Applies n (SolvesFile n es) F) :
    SolverEnv.Ready (⟨.csr A, F, E.sqrt, p.maxiter, p.tol, E.sched⟩ : SolverEnv K) (fun r z => (MatView.csr A).mat *ᵥ z = r) vs (List.replicate (MatView.csr A).dim 0) := by
  have hd : A.nbrows = n := hA.dim
  refine ⟨hA.ready, ⟨fun k m => ?_, fun k m => ?_⟩, fun k r z hr hz => ?_, by rw [hvs]; exact hd.symm, List.length_replicate⟩
  · have := hsched.1 k m
    rw [Nat.div_one] at this
    show (E.sched.rows k m).Perm (List.range A.nbrows)
    rw [hd]; exact this
  · show (E.sched.cells k m).Perm (List.range A.nbrows)
    rw [hd]; exact hsched.2 k m
  · change r.length = A.nbrows at hr
    change z.length = A.nbrows at hz
    obtain ⟨z', g1, g2, g3⟩ := hF k r z (by omega) (by omega)
    exact ⟨z', g1, by show z'.length = A.nbrows; omega, hA.solves g3⟩

/-- One solve with an exact preconditioner. -/
theorem reordRunOne_exact {E : ReordProgEnv K} {p : ProgParams K} {n : Nat} {es : List (Nat × Nat × K)} {vs ans : List K} {A : SR K} (hA : ViewOf es n (.csr A))
    (hvs : vs.length = n) (hs : SqrtOk E.sqrt) (hsched : ProgSched E.toSolveProgEnv 1 n) {F : PrecFun K} (hF : Applies n (SolvesFile n es) F)
    (hsol : p.solvertype = "richardson") (ht : 0 < p.tol) (ht1 : p.tol ≤ 1) (hmax : 1 < p.maxiter) (hb : ∃ i < n, vs⟦i⟧ ≠ 0)
    (hans : ans.length = n) (hx : SolvesFile n es vs ans) (htt : 0 < p.testtol) :
    ∃ info, reordRunOne E p (.csr A) F vs ans = .ok (info, ans, 0) ∧ info.iters = 1 ∧ info.resnorm = 0 := by
  have hd : A.nbrows = n := hA.dim
  have hready := reordRunOne_ready (p := p) hA hvs hsched hF
  have hb0 : vecN (MatView.csr A).dim vs ≠ 0 := by
    obtain ⟨i, hi, hne⟩ := hb
    intro h0
    exact hne (congrFun h0 ⟨i, by show i < A.nbrows; omega⟩)
  have hpos := nrm2_pos hb0
  have hx0 : vecN (MatView.csr A).dim (List.replicate (MatView.csr A).dim (0 : K)) = 0 := by
    funext i
    exact get0_replicate _ _
  obtain ⟨info, x', m, e1, e2, e3, e4, e5, e6⟩ := richardson_reaches _ _ vs _ hready hs
    (fun k y => (k = 0 → y = 0) ∧ (k = 1 → (MatView.csr A).resid vs y = 0)) 1 ⟨fun _ => hx0, fun h => absurd h (by decide)⟩
    (fun k hk y z hy hz => ⟨fun h => absurd h (by omega), fun _ => by
      rw [resid_add, hz, sub_self]⟩)
    (fun y hy => ⟨hb0, ht, by
      show nrm2 ((MatView.csr A).resid vs y) < _
      rw [hy.2 rfl, nrm2_eq_zero.mpr rfl]
      exact mul_pos (mul_pos ht ht) hpos⟩) hmax
  have hm : m = 1 := by
    by_contra hm
    have hm0 : m = 0 := by omega
    obtain ⟨-, -, k1⟩ := e5
    change nrm2 ((MatView.csr A).resid vs (vecN (MatView.csr A).dim x')) < p.tol * p.tol * nrm2 (vecN (MatView.csr A).dim vs) at k1
    rw [e4.1 hm0] at k1
    have : (MatView.csr A).resid vs 0 = vecN (MatView.csr A).dim vs := by
      unfold MatView.resid
      rw [Matrix.mulVec_zero, sub_zero]
    rw [this] at k1
    have : p.tol * p.tol ≤ 1 := by nlinarith
    nlinarith
  subst hm
  have hr0 := e4.2 rfl
  have hrun : progSolve p ⟨.csr A, F, E.sqrt, p.maxiter, p.tol, E.sched⟩ vs (List.replicate (MatView.csr A).dim 0) = .ok (info, x') := by
    unfold progSolve
    rw [if_pos hsol]
    exact e1
  obtain ⟨g1, -⟩ := progSolve_sound (⟨hready.mat, hready.sched, fun k r z hr hz => (hready.prec k r z hr hz).imp fun z' h => ⟨h.1, h.2.1, trivial⟩, hready.b_len, hready.x_len⟩ :
    SolverEnv.Ready _ (fun _ _ => True) vs _) hs rfl (fun h => absurd h (by rw [hsol]; decide)) hrun
  change x'.length = A.nbrows at g1
  have hinj : Function.Injective (MatView.csr A).mat.mulVec := by
    rw [Matrix.mulVec_injective_iff_isUnit, ← Matrix.mulVec_surjective_iff_isUnit]
    intro r
    obtain ⟨z, -, -, hz⟩ := hready.prec 0 (List.ofFn r) (List.replicate (MatView.csr A).dim 0) (by simp) (by simp)
    exact ⟨_, hz.trans (by funext i; simp [vecN, get0])⟩
  have hxa : x' = ans := by
    have : vecN (MatView.csr A).dim x' = vecN (MatView.csr A).dim ans := by
      refine hinj ?_
      show (MatView.csr A).mat *ᵥ _ = (MatView.csr A).mat *ᵥ _
      rw [hA.solves hx]
      exact (sub_eq_zero.mp hr0).symm
    refine ext_get0 (by omega) fun i hi => ?_
    exact congrFun this ⟨i, by show i < A.nbrows; omega⟩
  subst hxa
  refine ⟨info, ?_, by rw [e2]; rfl, ?_⟩
  · unfold reordRunOne reordSolve
    rw [if_pos hsol, e1, ok_bind]
    dsimp only
    rw [progError_eq E.sqrt (show x'.length = (MatView.csr A).dim from g1) (show (MatView.csr A).dim ≤ x'.length from g1.ge), ok_bind]
    have h0 : E.sqrt (∑ i ∈ range (MatView.csr A).dim, (x'⟦i⟧ - x'⟦i⟧) ^ 2) = 0 := by
      have : ∑ i ∈ range (MatView.csr A).dim, (x'⟦i⟧ - x'⟦i⟧) ^ 2 = 0 := Finset.sum_eq_zero fun i _ => by ring
      rw [this]
      have := (hs 0 le_rfl).2
      exact mul_self_eq_zero.mp this
    rw [h0, cassert, if_pos (by simpa using htt), ok_bind]
  · obtain ⟨-, k⟩ := e6
    change _ = nrm2 ((MatView.csr A).resid vs (vecN (MatView.csr A).dim x')) at k
    rw [hr0, nrm2_eq_zero.mpr rfl] at k
    exact mul_self_eq_zero.mp k

/-- **C97** With exact preconditioners the program accepts: the solver needs one iteration for each of the two solves and both results are the reference solution. For fewer than four rows the
first solve succeeds and the program then accesses an element of the ordering that does not exist. -/
theorem reord_program_exact {E : ReordProgEnv K} {p : ProgParams K} {n : Nat} {es : List (Nat × Nat × K)} {vs ans : List K} (h : ReordFiles E p n es vs ans) (hvs : vs.length = n)
    (hs : SqrtOk E.sqrt) (hsched : ProgSched E.toSolveProgEnv 1 n) {f : FactInit} (hf : (p.factinittype, f) ∈ factWords) {a : ApplyInit} (ha : (p.applyinittype, a) ∈ applyWords)
    (hobj : ∀ B, HoldsFile 1 p.storageorder n es B → ∃ F, E.object (.asyncIlu0 (plainConf p f a)) B = .ok F ∧ Applies n (SolvesFile n es) F)
    (hreo : ∀ r B, SwapsTwo r n → HoldsFile 1 p.storageorder n es B → ∃ F, E.reordObject (reordConf p f a) r B = .ok F ∧ Applies n (SolvesFile n es) F)
    (hsol : p.solvertype = "richardson") (ht : 0 < p.tol) (ht1 : p.tol ≤ 1) (hmax : 1 < p.maxiter) (hb : ∃ i < n, vs⟦i⟧ ≠ 0)
    (hans : ans.length = n) (hx : SolvesFile n es vs ans) (htt : 0 < p.testtol) :
    (4 ≤ n → ∃ i1 i2, reordTestSolve E p = .ok ((i1, ans, 0), (i2, ans, 0)) ∧ i1.iters = 1 ∧ i1.resnorm = 0 ∧ i2.iters = 1 ∧ i2.resnorm = 0) ∧
    (n < 4 → reordTestSolve E p = .error .ub) := by
  obtain ⟨A, F1, hA, hF1, c1, c2⟩ := h.run (factWords_ok hf) (applyWords_ok ha) hobj hreo
  obtain ⟨i1, e1, e2, e3⟩ := reordRunOne_exact hA hvs hs hsched hF1 hsol ht ht1 hmax hb hans hx htt
  refine ⟨fun hge => ?_, fun hlt => ?_⟩
  · obtain ⟨F2, hF2, c3⟩ := c2 hge
    obtain ⟨i2, e4, e5, e6⟩ := reordRunOne_exact hA hvs hs hsched hF2 hsol ht ht1 hmax hb hans hx htt
    exact ⟨i1, i2, by rw [c3, e1, ok_bind, e4, ok_bind], e2, e3, e5, e6⟩
  · rw [c1 hlt, e1, ok_bind]

omit [IsStrictOrderedRing K] in
/-- **C97**, a consequence of the defect of C79: with the other solver and an exact preconditioner the program divides zero by zero. -/
theorem reord_program_bcgs_exact {E : ReordProgEnv K} {p : ProgParams K} {n : Nat} {es : List (Nat × Nat × K)} {vs ans : List K} (h : ReordFiles E p n es vs ans) (hvs : vs.length = n)
    (hsched : ProgSched E.toSolveProgEnv 1 n) {f : FactInit} (hf : (p.factinittype, f) ∈ factWords) {a : ApplyInit} (ha : (p.applyinittype, a) ∈ applyWords)
    (hobj : ∀ B, HoldsFile 1 p.storageorder n es B → ∃ F, E.object (.asyncIlu0 (plainConf p f a)) B = .ok F ∧ Applies n (SolvesFile n es) F)
    (hreo : ∀ r B, SwapsTwo r n → HoldsFile 1 p.storageorder n es B → ∃ F, E.reordObject (reordConf p f a) r B = .ok F ∧ Applies n (SolvesFile n es) F)
    (hsol : p.solvertype = "bcgs") (hmax : 0 < p.maxiter) : reordTestSolve E p = .error .divzero := by
  obtain ⟨A, F1, hA, hF1, c1, c2⟩ := h.run (factWords_ok hf) (applyWords_ok ha) hobj hreo
  have e1 : reordRunOne E p (.csr A) F1 vs ans = .error .divzero := by
    unfold reordRunOne reordSolve
    rw [if_neg (by rw [hsol]; decide), if_pos hsol, bicgstab_exact_prec _ _ vs _ (reordRunOne_ready (p := p) hA hvs hsched hF1) hmax fun _ _ h => h]
    rfl
  rcases Nat.lt_or_ge n 4 with hlt | hge
  · rw [c1 hlt, e1]; rfl
  · obtain ⟨F2, -, c3⟩ := c2 hge
    rw [c3, e1]; rfl

omit [IsStrictOrderedRing K] in
/-- **C97** The words: a solver other than `richardson` and `bcgs` aborts the program, an unknown initialization is reported. -/
theorem reord_program_words {E : ReordProgEnv K} {p : ProgParams K} {n : Nat} {es : List (Nat × Nat × K)} {vs ans : List K} (h : ReordFiles E p n es vs ans) :
    (p.factinittype ∉ factInitWords → reordTestSolve E p = invalidArg "Factor initialization not recongnized!") ∧
    (p.factinittype ∈ factInitWords → p.applyinittype ∉ applyInitWords → reordTestSolve E p = invalidArg "Apply initialization not recongnized!") ∧
    (p.factinittype ∈ factInitWords → p.applyinittype ∈ applyInitWords → p.solvertype ≠ "richardson" → p.solvertype ≠ "bcgs" →
      (∀ f a B, HoldsFile 1 p.storageorder n es B → ∃ F, E.object (.asyncIlu0 (plainConf p f a)) B = .ok F) → reordTestSolve E p = .error .abort) := by
  obtain ⟨M, A, e, hA, hd, hconv⟩ := h.read
  obtain ⟨B1, d1, c1, hB1⟩ := hconv E.gi2 E.gd2 E.gv2
  refine ⟨fun hf => ?_, fun hf ha => ?_, fun hf ha h1 h2 ho => ?_⟩
  · rw [e]
    unfold reordReference
    rw [c1, ok_bind, factInit_bad hf]
    rfl
  · obtain ⟨f, hf⟩ := factInit_good hf
    rw [e]
    unfold reordReference
    rw [c1, ok_bind, hf, ok_bind, applyInit_bad ha]
    rfl
  · obtain ⟨f, hf⟩ := factInit_good hf
    obtain ⟨a, ha⟩ := applyInit_good ha
    obtain ⟨F, hF⟩ := ho f a B1 hB1
    rw [e]
    unfold reordReference reordRunOne reordSolve
    rw [c1, ok_bind, hf, ok_bind, ha, ok_bind, (newReordered_conf p f a).2, hF, ok_bind, if_neg h1, if_neg h2]
    rfl

omit [IsStrictOrderedRing K] in
/-- **C97** The arguments: fewer than thirteen abort the program; otherwise they are the solver, a word without meaning, the two initializations, the type of the matrix, the storage order, the three files, the two tolerances, the
number of iterations and the chunk size, in this order, and the preconditioners use one sweep. A number that cannot be read is reported. -/
theorem reord_main (E : ReordProgEnv K) (stoi : String → C Int) (stod : String → C K) :
    (∀ argv : List String, argv.length < 14 → reordMain E stoi stod argv = .error .abort) ∧
    (∀ prog solver word fact app mattype order A x b tol testtol maxit chunk (rest : List String) (m c : Int) (t tt : K),
      stoi maxit = .ok m → stoi chunk = .ok c → stod tol = .ok t → stod testtol = .ok tt →
      ∃ p : ProgParams K, reordMain E stoi stod ([prog, solver, word, fact, app, mattype, order, A, x, b, tol, testtol, maxit, chunk] ++ rest) = reordTestSolve E p ∧
        p.solvertype = solver ∧ p.factinittype = fact ∧ p.applyinittype = app ∧ p.storageorder = order ∧ p.mat_file = A ∧ p.x_file = x ∧ p.b_file = b ∧ p.tol = t ∧ p.testtol = tt ∧
        p.maxiter = m ∧ p.threadchunksize = c ∧ p.nbuildsweeps = 1 ∧ p.napplysweeps = 1) ∧
    (∀ prog solver word fact app mattype order A x b tol testtol maxit chunk (rest : List String) (e : Fail),
      stoi maxit = .error e → reordMain E stoi stod ([prog, solver, word, fact, app, mattype, order, A, x, b, tol, testtol, maxit, chunk] ++ rest) = .error e) := by
  refine ⟨fun argv h => ?_, fun prog solver word fact app mattype order A x b tol testtol maxit chunk rest m c t tt h1 h2 h3 h4 => ?_,
    fun prog solver word fact app mattype order A x b tol testtol maxit chunk rest e h => ?_⟩
  · unfold reordMain; rw [if_pos h]
  · refine ⟨{ solvertype := solver, precontype := word, factinittype := fact, applyinittype := app, mattype := mattype, blocksize := 0, storageorder := order, testtol := tt, tol := t, maxiter := m,
              solver_restart := 0, threadchunksize := c, nbuildsweeps := 1, napplysweeps := 1, mat_file := A, x_file := x, b_file := b },
      ?_, rfl, rfl, rfl, rfl, rfl, rfl, rfl, rfl, rfl, rfl, rfl, rfl, rfl⟩
    unfold reordMain
    rw [if_neg (by simp)]
    simp only [List.cons_append, List.getD_cons_succ, List.getD_cons_zero]
    rw [h1, ok_bind, h3, ok_bind, h4, ok_bind, h2, ok_bind]
  · unfold reordMain
    rw [if_neg (by simp)]
    simp only [List.cons_append, List.getD_cons_succ, List.getD_cons_zero]
    rw [h]
    rfl

end sound

/-! ### Examples -/

/-- Vectors with four numbers. -/
def exReordVec : List Char := "%%MatrixMarket matrix array real general\n4 1\n6\n2\n2\n2\n".toList
@[inherit_doc exReordVec] def exReordSol : List Char := "%%MatrixMarket matrix array real general\n4 1\n3\n1\n1\n1\n".toList

theorem exReordVec_ok : ArrayFile exNum exReordVec 4 1 [6, 2, 2, 2] where
  parts := ⟨"real", "6\n2\n2\n2\n".toList, .inl rfl,
    ⟨"%%MatrixMarket matrix array real general".toList, [], "4 1".toList, [['4'], ['1']], by decide +kernel,
      by decide, .of_tokens (by decide +kernel), by decide, by decide, by decide, .of_tokens (by decide +kernel),
      .cons (.one 4) (.cons (.one 1) .nil)⟩,
    [['6'], ['2'], ['2'], ['2']], .of_tokens (by decide +kernel),
      .cons (by decide +kernel) (.cons (by decide +kernel) (.cons (by decide +kernel) (.cons (by decide +kernel) .nil)))⟩
  length := rfl
  nrows_le := by decide
  ncols_le := by decide
  size_le := by decide

theorem exReordSol_ok : ArrayFile exNum exReordSol 4 1 [3, 1, 1, 1] where
  parts := ⟨"real", "3\n1\n1\n1\n".toList, .inl rfl,
    ⟨"%%MatrixMarket matrix array real general".toList, [], "4 1".toList, [['4'], ['1']], by decide +kernel,
      by decide, .of_tokens (by decide +kernel), by decide, by decide, by decide, .of_tokens (by decide +kernel),
      .cons (.one 4) (.cons (.one 1) .nil)⟩,
    [['3'], ['1'], ['1'], ['1']], .of_tokens (by decide +kernel),
      .cons (by decide +kernel) (.cons (by decide +kernel) (.cons (by decide +kernel) (.cons (by decide +kernel) .nil)))⟩
  length := rfl
  nrows_le := by decide
  ncols_le := by decide
  size_le := by decide

/-- Division by 2. -/
noncomputable def exHalf : PrecFun ℝ := fun _ r _ => .ok (r.map (· / 2))

/-- Surroundings with these files, and one behaviour of all objects. -/
noncomputable def exReordEnv (m : Nat) (F : PrecFun ℝ) : ReordProgEnv ℝ :=
  { exProgEnv (fun _ _ => .ok F) with
    files := fun f => if f = "A" then some exProgMat else if f = "D" then some exProgMat4 else if f = "b" then some exReordVec else if f = "x" then some exReordSol
      else if f = "b2" then some exProgVec else if f = "x2" then some exProgSol else none
    sched := ⟨fun _ _ => List.range m, fun _ _ => List.range m⟩
    gi3 := fun _ => 7, gd3 := fun _ => 7, gv3 := fun _ => 7, reordObject := fun _ _ _ => .ok F }

theorem exReordFiles (p : ProgParams ℝ) (hA : p.mat_file = "D") (hb : p.b_file = "b") (hx : p.x_file = "x") :
    ReordFiles (exReordEnv 4 exHalf) p 4 [(1, 1, 2), (2, 2, 2), (3, 3, 2), (4, 4, 2)] [6, 2, 2, 2] [3, 1, 1, 1] where
  system :=
    { size := by decide
      sort := exProgEnv_sort fun _ _ => .error .abort
      mat := ⟨exProgMat4, by rw [hA]; rfl, by have h := exProgMat4_ok.mapNum (fun q : ℚ => (q : ℝ)); simp at h; exact h, by show exProgMat4.length ≤ 200; decide⟩
      rhs := ⟨exReordVec, 4, 1, by rw [hb]; rfl, by have h := exReordVec_ok.mapNum (fun q : ℚ => (q : ℝ)); simp at h; exact h, by show exReordVec.length ≤ 200; decide⟩
      rows := by intro r h1 h2; interval_cases r <;> simp
      distinct := by simp [DistinctPositions] }
  answer := ⟨exReordSol, 4, 1, by rw [hx]; rfl, by have h := exReordSol_ok.mapNum (fun q : ℚ => (q : ℝ)); simp at h; exact h, by show exReordSol.length ≤ 200; decide⟩

theorem exReord_applies : Applies 4 (SolvesFile 4 [((1 : Nat), (1 : Nat), (2 : ℝ)), (2, 2, 2), (3, 3, 2), (4, 4, 2)]) exHalf := by
  intro k r z hr hz
  refine ⟨_, rfl, by simp [hr], fun i hi => ?_⟩
  match r, hr with
  | [a, b, c, d], _ =>
    interval_cases i <;> simp [fileEntry, get0] <;> ring

/-- The hypotheses of `reord_program_exact` can be met. -/
theorem exReord_run : ∃ i1 i2, reordTestSolve (exReordEnv 4 exHalf) (exProgParams "D" "b" "x") = .ok ((i1, [3, 1, 1, 1], 0), (i2, [3, 1, 1, 1], 0)) ∧
    i1.iters = 1 ∧ i1.resnorm = 0 ∧ i2.iters = 1 ∧ i2.resnorm = 0 :=
  (reord_program_exact (exReordFiles _ rfl rfl rfl) rfl real_sqrt_ok ⟨fun _ _ => .refl _, fun _ _ => .refl _⟩ (f := .original) (by simp [factWords, exProgParams]) (a := .zero)
    (by simp [applyWords, exProgParams]) (fun _ _ => ⟨_, rfl, exReord_applies⟩) (fun _ _ _ _ => ⟨_, rfl, exReord_applies⟩) rfl (by norm_num [exProgParams]) (by norm_num [exProgParams])
    (by decide) ⟨0, by decide, by simp [get0]⟩ rfl (by intro i hi; interval_cases i <;> simp [fileEntry, get0]; norm_num)
    (by norm_num [exProgParams])).1 (by decide)

/-- The hypotheses of `reord_program_sound` can be met. -/
example : ∃ ref reo, reordTestSolve (exReordEnv 4 exHalf) (exProgParams "D" "b" "x") = .ok (ref, reo) ∧
    RunGood (exProgParams "D" "b" "x") 4 [(1, 1, 2), (2, 2, 2), (3, 3, 2), (4, 4, 2)] [6, 2, 2, 2] [3, 1, 1, 1] reo := by
  obtain ⟨i1, i2, h, -⟩ := exReord_run
  have key : ∀ F : PrecFun ℝ, Except.ok (ε := Fail) exHalf = .ok F → Applies 4 (fun _ _ => True) F := by
    rintro F ⟨⟩ k r z hr hz
    obtain ⟨z', h1, h2, -⟩ := exReord_applies k r z hr hz
    exact ⟨z', h1, h2, trivial⟩
  exact ⟨_, _, h, (reord_program_sound (exReordFiles _ rfl rfl rfl) rfl real_sqrt_ok ⟨fun _ _ => .refl _, fun _ _ => .refl _⟩ (fun _ _ _ F _ h => key F h)
    (fun _ _ _ _ F _ _ h => key F h) h).2.2⟩

/-- The inverse of the other matrix. -/
noncomputable def exInv2 : PrecFun ℝ := fun _ r _ => .ok [(2 * r⟦0⟧ - r⟦1⟧) / 3, (2 * r⟦1⟧ - r⟦0⟧) / 3]

/-- Two rows are not enough. -/
example : reordTestSolve (exReordEnv 2 exInv2) (exProgParams "A" "b2" "x2") = .error .ub := by
  have hF : Applies 2 (SolvesFile 2 [((1 : Nat), (1 : Nat), (2 : ℝ)), (1, 2, 1), (2, 1, 1), (2, 2, 2)]) exInv2 := by
    intro k r z hr hz
    refine ⟨_, rfl, rfl, fun i hi => ?_⟩
    interval_cases i <;> simp [fileEntry, Finset.sum_range_succ] <;> simp [get0] <;> ring
  have hfiles : ReordFiles (exReordEnv 2 exInv2) (exProgParams "A" "b2" "x2") 2 [(1, 1, 2), (1, 2, 1), (2, 1, 1), (2, 2, 2)] [3, 3] [1, 1] :=
    { system :=
        { size := by decide
          sort := exProgEnv_sort fun _ _ => .error .abort
          mat := ⟨exProgMat, rfl, by have h := exProgMat_ok.mapNum (fun q : ℚ => (q : ℝ)); simp at h; exact h, by show exProgMat.length ≤ 200; decide⟩
          rhs := ⟨exProgVec, 2, 1, rfl, by have h := exProgVec_ok.mapNum (fun q : ℚ => (q : ℝ)); simp at h; exact h, by show exProgVec.length ≤ 200; decide⟩
          rows := by intro r h1 h2; interval_cases r <;> simp
          distinct := by simp [DistinctPositions] }
      answer := ⟨exProgSol, 2, 1, rfl, by have h := exProgSol_ok.mapNum (fun q : ℚ => (q : ℝ)); simp at h; exact h, by show exProgSol.length ≤ 200; decide⟩ }
  exact (reord_program_exact hfiles rfl real_sqrt_ok ⟨fun _ _ => .refl _, fun _ _ => .refl _⟩ (f := .original) (by simp [factWords, exProgParams]) (a := .zero)
    (by simp [applyWords, exProgParams]) (fun _ _ => ⟨_, rfl, hF⟩) (fun _ _ _ _ => ⟨_, rfl, hF⟩) rfl (by norm_num [exProgParams]) (by norm_num [exProgParams])
    (by decide) ⟨0, by decide, by simp [get0]⟩ rfl (by intro i hi; interval_cases i <;> simp [fileEntry, Finset.sum_range_succ] <;> simp [get0] <;> norm_num)
    (by norm_num [exProgParams])).2 (by decide)

/-- The other solver, unknown words. -/
example : reordTestSolve (exReordEnv 4 exHalf) { exProgParams "D" "b" "x" with solvertype := "bcgs" } = .error .divzero ∧
    reordTestSolve (exReordEnv 4 exHalf) { exProgParams "D" "b" "x" with solvertype := "gcr" } = .error .abort ∧
    reordTestSolve (exReordEnv 4 exHalf) { exProgParams "D" "b" "x" with factinittype := "zero" } = invalidArg "Factor initialization not recongnized!" :=
  ⟨reord_program_bcgs_exact (exReordFiles _ rfl rfl rfl) rfl ⟨fun _ _ => .refl _, fun _ _ => .refl _⟩ (f := .original) (by simp [factWords, exProgParams]) (a := .zero)
    (by simp [applyWords, exProgParams]) (fun _ _ => ⟨_, rfl, exReord_applies⟩) (fun _ _ _ _ => ⟨_, rfl, exReord_applies⟩) rfl (by decide),
   (reord_program_words (exReordFiles _ rfl rfl rfl)).2.2 (by simp [factInitWords, exProgParams]) (by simp [applyInitWords, exProgParams]) (by show "gcr" ≠ "richardson"; decide)
    (by show "gcr" ≠ "bcgs"; decide) (fun _ _ _ _ => ⟨_, rfl⟩),
   (reord_program_words (exReordFiles _ rfl rfl rfl)).1 (by simp [factInitWords])⟩

end Blasted
