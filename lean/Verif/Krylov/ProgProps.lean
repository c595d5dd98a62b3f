import Verif.Krylov.ProgSpec
import Verif.Krylov.Props

/-!
# The solve program, from the files to the result (C90)
-/

namespace Blasted

open Finset

section read
variable {K : Type} [Field K] [LinearOrder K]

/-- The program after reading and converting. -/
def progTail (E : SolveProgEnv K) (bs : Nat) (p : ProgParams K) (b : List K) (A B : SR K) : C (SolveInfo K × List K × Option K) := do
  let o ← progSettings bs E.info p
  let q ← createPreconditioner (.async o)
  let prec ← E.object q B
  let view := progView bs p.storageorder A
  let r ← progSolve p ⟨view, prec, E.sqrt, p.maxiter, p.tol, E.sched⟩ b (List.replicate view.dim 0)
  let e ← progCheck E p view.dim r.2
  .ok (r.1, r.2, e)

omit [LinearOrder K] in
theorem HoldsArray.read {E : SolveProgEnv K} {f : String} {vs : List K} (h : HoldsArray E f vs) :
    readDenseMatrixMarket E.num E.fuel (E.files f) = .ok vs := by
  obtain ⟨text, r, c, e, hf, hl⟩ := h
  rw [e]
  exact read_dense_correct hf hl

omit [LinearOrder K] in
theorem fileEntry_pos {es : List (Nat × Nat × K)} {i j : Nat} (h : fileEntry es i j ≠ 0) : ∃ e ∈ es, e.1 = i + 1 ∧ e.2.1 = j + 1 := by
  by_contra hc
  push Not at hc
  refine h ?_
  unfold fileEntry
  refine List.sum_eq_zero fun x hx => ?_
  obtain ⟨e, he, rfl⟩ := List.mem_map.mp hx
  exact if_neg fun h => hc e he h.1 h.2

omit [LinearOrder K] [Field K] in
theorem BlocksTouched.one (es : List (Nat × Nat × K)) : BlocksTouched 1 es :=
  fun e he => ⟨e, he, by rw [Nat.div_one, Nat.one_mul], rfl⟩

omit [LinearOrder K] [Field K] in
theorem BlocksTouched.entries {num : List Char → Option K} {text : List Char} {n m bs : Nat} {es : List (Nat × Nat × K)} (h : BlocksTouched bs es) (hf : CoordinateFile num text n m es)
    {M : List (Entry K)} (hM : M.Perm (es.map zeroBased)) : FirstRowTouches bs M := by
  intro e he
  obtain ⟨x, hx, rfl⟩ := List.mem_map.mp (hM.mem_iff.mp he)
  obtain ⟨y, hy, h1, h2⟩ := h x hx
  refine ⟨zeroBased y, hM.mem_iff.mpr (List.mem_map.mpr ⟨y, hy, rfl⟩), ?_, ?_⟩
  · have a := (hf.row x hx).1
    have b := (hf.row y hy).1
    show (y.1 : Int) - 1 = bs * (((x.1 : Int) - 1) / bs)
    rw [show (y.1 : Int) - 1 = ((y.1 - 1 : Nat) : Int) by omega, show (x.1 : Int) - 1 = ((x.1 - 1 : Nat) : Int) by omega, h1]
    push_cast; rfl
  · have a := (hf.col x hx).1
    have b := (hf.col y hy).1
    show ((y.2.1 : Int) - 1) / bs = ((x.2.1 : Int) - 1) / bs
    rw [show (y.2.1 : Int) - 1 = ((y.2.1 - 1 : Nat) : Int) by omega, show (x.2.1 : Int) - 1 = ((x.2.1 - 1 : Nat) : Int) by omega]
    exact_mod_cast h2

/-- Reading and converting: both conversions give the matrix of the file; for a file with all diagonal entries in which every block has an entry in its first row they give the same arrays, with sorted
rows. -/
theorem SolveFiles.read {E : SolveProgEnv K} {p : ProgParams K} {n : Nat} {es : List (Nat × Nat × K)} {vs : List K} (h : SolveFiles E p n es vs)
    {bs : Nat} (hbs : BlocksOk bs n p.storageorder) :
    ∃ A B : SR K, (∀ p' : ProgParams K, p'.mat_file = p.mat_file → p'.b_file = p.b_file → p'.storageorder = p.storageorder →
        testSolve E bs p' = progTail E bs p' vs A B) ∧ ViewOf es n (progView bs p.storageorder A) ∧ ViewOf es n (progView bs p.storageorder B) ∧
      (progView bs p.storageorder A).rows = n / bs ∧ B.nbrows * bs = n ∧
      (BlocksTouched bs es → (∀ i < n, fileEntry es i i ≠ 0) → A = B ∧ A.Full (bs * bs) ∧ A.Sorted ∧ A.HasDiag) := by
  obtain ⟨text, e1, hfile, hf⟩ := h.mat
  obtain ⟨M, a1, a2, a3, a4, a5, a6, a7, a8⟩ := read_matrix_market_correct_partial h.sort E.gi hfile h.size h.rows hf
  have hnd : NoDup M.entries := h.distinct.noDup a5
  have hread : ∀ p' : ProgParams K, p'.mat_file = p.mat_file → p'.b_file = p.b_file → p'.storageorder = p.storageorder → testSolve E bs p' = (do
      let mat ← getSRMatrixFromCOO bs p.storageorder E.gi E.gd E.gv M
      let cmat ← getSRMatrixFromCOO bs p.storageorder E.gi2 E.gd2 E.gv2 M
      progTail E bs p' vs mat.1 cmat.1) := by
    intro p' q1 q2 q3
    unfold testSolve progTail
    rw [q1, q2, q3, e1, a1, ok_bind, h.rhs.read, ok_bind]
  rcases hbs with rfl | ⟨hb1, hdiv, hord⟩
  · obtain ⟨A, d, b1, b2, b3, -, -, -, -, b4, -⟩ := coo_to_csr_correct M a7 (by omega) p.storageorder E.gi E.gd E.gv
    obtain ⟨B, d', c1, c2, c3, -, -, -, -, c4, -⟩ := coo_to_csr_correct M a7 (by omega) p.storageorder E.gi2 E.gd2 E.gv2
    refine ⟨A, B, fun p' q1 q2 q3 => by rw [hread p' q1 q2 q3, b1, ok_bind, c1, ok_bind], ⟨b2, ?_, ?_⟩, ⟨c2, ?_, ?_⟩, ?_, by omega, ?_⟩
    · show A.nbrows = n; omega
    · intro i hi j
      show A.entry i j = _
      rw [b4 i (by omega) j, cooEntry_file a5]
    · show B.nbrows = n; omega
    · intro i hi j
      show B.entry i j = _
      rw [c4 i (by omega) j, cooEntry_file a5]
    · show A.nbrows = n / 1; rw [Nat.div_one]; omega
    · intro _ hdg
      have hlex : M.entries.Pairwise lexLt := (a6.and hnd).imp fun {a b} h => by
        unfold lexLe at h; unfold lexLt; omega
      have hd : ∀ i < M.nrows, ∃ e ∈ M.entries, e.rowind = i ∧ e.colind = i := by
        intro i hi
        obtain ⟨e, he, h1, h2⟩ := fileEntry_pos (hdg i (by omega))
        exact ⟨zeroBased e, a5.mem_iff.mpr (List.mem_map.mpr ⟨e, he, rfl⟩), by simp [zeroBased, h1], by simp [zeroBased, h2]⟩
      have hu := coo_to_csr_unique M a7 (by omega) hlex hd p.storageorder p.storageorder E.gi E.gi2 E.gd E.gd2 E.gv E.gv2
      rw [b1, c1] at hu
      obtain ⟨A', d', f1, f2, f3⟩ := coo_to_csr_sorted M a7 (by omega) hlex p.storageorder E.gi E.gd E.gv
      rw [b1] at f1
      cases hu
      cases f1
      exact ⟨rfl, b2, f2, f3 hd⟩
  · have hfirst : ∃ e ∈ M.entries, e.rowind < (bs : Int) := by
      obtain ⟨e, he, h1⟩ := h.rows 1 (Nat.le_refl _) h.size
      refine ⟨zeroBased e, a5.mem_iff.mpr (List.mem_map.mpr ⟨e, he, rfl⟩), ?_⟩
      simp only [zeroBased, h1]; omega
    obtain ⟨stor, hst, hview⟩ : ∃ stor, ((p.storageorder = "rowmajor" ∧ stor = .rowMajor) ∨ (p.storageorder = "colmajor" ∧ stor = .colMajor)) ∧
        ∀ A : SR K, progView bs p.storageorder A = .bsr stor bs A := by
      rcases hord with e | e
      · exact ⟨.rowMajor, .inl ⟨e, rfl⟩, fun A => by unfold progView; rw [if_neg (by omega), if_pos e]⟩
      · exact ⟨.colMajor, .inr ⟨e, rfl⟩, fun A => by unfold progView; rw [if_neg (by omega), e]; exact if_neg (by decide)⟩
    obtain ⟨A, d, b1, b2, b3, -, -, b4, -⟩ := coo_to_bsr_correct_partial M a7 (by omega) hnd bs (by omega) (by omega) (by rw [a2]; exact hdiv)
      (.inr hfirst) p.storageorder stor hst E.gi E.gd E.gv
    obtain ⟨B, d', c1, c2, c3, -, -, c4, -⟩ := coo_to_bsr_correct_partial M a7 (by omega) hnd bs (by omega) (by omega) (by rw [a2]; exact hdiv)
      (.inr hfirst) p.storageorder stor hst E.gi2 E.gd2 E.gv2
    refine ⟨A, B, fun p' q1 q2 q3 => by rw [hread p' q1 q2 q3, b1, ok_bind, c1, ok_bind], ?_, ?_, ?_, by omega, ?_⟩
    · rw [hview]
      refine ⟨⟨by omega, b2⟩, ?_, ?_⟩
      · show A.nbrows * bs = n; omega
      · intro i hi j
        show A.bentry stor bs i j = _
        rw [b4 i (by omega) j, cooEntry_file a5]
    · rw [hview]
      refine ⟨⟨by omega, c2⟩, ?_, ?_⟩
      · show B.nbrows * bs = n; omega
      · intro i hi j
        show B.bentry stor bs i j = _
        rw [c4 i (by omega) j, cooEntry_file a5]
    · rw [hview]
      show A.nbrows = n / bs
      rw [← a2, ← b3, Nat.mul_div_cancel _ (by omega)]
    · intro htouch hdg
      have hlex : M.entries.Pairwise lexLt := (a6.and hnd).imp fun {a b} h => by
        unfold lexLe at h; unfold lexLt; omega
      have hd : ∀ i < M.nrows / bs, ∃ e ∈ M.entries, InBlock bs i i e := by
        intro i hi
        have hin : i * bs < n := by
          have := (Nat.lt_div_iff_mul_lt (by omega)).mp hi
          rw [a2, Nat.mul_comm] at this
          have := Nat.mul_comm i bs
          omega
        obtain ⟨e, he, h1, h2⟩ := fileEntry_pos (hdg (i * bs) hin)
        exact ⟨zeroBased e, a5.mem_iff.mpr (List.mem_map.mpr ⟨e, he, rfl⟩), i * bs, i * bs, by simp [zeroBased, h1], by simp [zeroBased, h2],
          Nat.mul_div_cancel _ (by omega), Nat.mul_div_cancel _ (by omega)⟩
      have hu := coo_to_bsr_unique M a7 (by omega) hnd bs (by omega) (by omega) (by rw [a2]; exact hdiv) (.inr hfirst) p.storageorder hord E.gi E.gi2 E.gd E.gd2 E.gv E.gv2
      rw [b1, c1] at hu
      obtain ⟨A', d', f1, f2, f3⟩ := coo_to_bsr_sorted M a7 (by omega) hlex bs (by omega) (by omega) (by rw [a2]; exact hdiv) (htouch.entries hfile a5) hd p.storageorder hord
        E.gi E.gd E.gv
      rw [b1] at f1
      cases hu
      cases f1
      exact ⟨rfl, b2, f2, f3⟩

omit [LinearOrder K] in
theorem ViewOf.resid {es : List (Nat × Nat × K)} {n : Nat} {v : MatView K} (h : ViewOf es n v) (b x : List K) :
    nrm2 (v.resid b (vecN v.dim x)) = fileResid2 n es b x := by
  have hd := h.dim
  have he := h.entry
  subst hd
  unfold fileResid2
  rw [← Fin.sum_univ_eq_sum_range (fun i => (b⟦i⟧ - ∑ j ∈ range v.dim, fileEntry es i j * x⟦j⟧) ^ 2)]
  show ∑ i, v.resid b (vecN v.dim x) i * v.resid b (vecN v.dim x) i = _
  refine Finset.sum_congr rfl fun i _ => ?_
  rw [sq]
  have e : v.resid b (vecN v.dim x) i = b⟦i⟧ - ∑ j ∈ range v.dim, fileEntry es i j * x⟦j⟧ := by
    show b⟦i⟧ - ∑ j, v.mat i j * vecN v.dim x j = _
    rw [← Fin.sum_univ_eq_sum_range (fun j => fileEntry es i j * x⟦j⟧)]
    congr 1
    exact Finset.sum_congr rfl fun j _ => by rw [← he i i.2 j]; rfl
  rw [e]

omit [LinearOrder K] in
theorem nrm2_vecN (n : Nat) (b : List K) : nrm2 (vecN n b) = norm2 n b := by
  unfold norm2
  rw [← Fin.sum_univ_eq_sum_range (fun i => (b⟦i⟧ ^ 2 : K))]
  show ∑ i, vecN n b i * vecN n b i = _
  refine Finset.sum_congr rfl fun i _ => ?_
  rw [sq]
  rfl

omit [LinearOrder K] [Field K] in
/-- A loop ends with undefined behaviour if one of its iterations has it whatever the earlier ones did, and these return. -/
theorem forRange_ub_at {σ : Type} {n k : Nat} (hk : k < n) {body : Nat → σ → C σ} (h1 : ∀ i < k, ∀ s, ∃ s', body i s = .ok s')
    (h2 : ∀ s, body k s = .error .ub) (s : σ) : forRange 0 n body s = .error .ub := by
  rw [forRange_split (Nat.zero_le (k + 1)) hk, forRange_succ_right (Nat.zero_le k)]
  obtain ⟨s', e, -⟩ := forRange_ok (body := body) (s := s) (fun _ _ => True) (Nat.zero_le k) trivial
    (fun t s _ ht _ => by obtain ⟨s', e⟩ := h1 t ht s; exact ⟨s', e, trivial⟩)
  rw [e, ok_bind, h2]
  rfl

omit [LinearOrder K] in
theorem progError_eq (sqrt : K → K) {dim : Nat} {x ans : List K} (hx : x.length = dim) (ha : dim ≤ ans.length) :
    progError sqrt dim x ans = .ok (sqrt (∑ i ∈ range dim, (x⟦i⟧ - ans⟦i⟧) ^ 2)) := by
  unfold progError
  rw [forRange_congr (body' := fun i s => do
    let v ← (.ok ((x⟦i⟧ - ans⟦i⟧) ^ 2) : C K)
    .ok (s + v)) (fun i _ hi s => by
      rw [rd_eq (by omega), ok_bind, rd_eq (by omega), ok_bind, ok_bind, sq]),
    forRange_sum (g := fun i => (x⟦i⟧ - ans⟦i⟧) ^ 2) (Nat.zero_le dim) (fun i _ hi => rfl), ok_bind, zero_add, Finset.range_eq_Ico]

omit [LinearOrder K] in
theorem progError_ub (sqrt : K → K) {dim : Nat} {x ans : List K} (hx : x.length = dim) (ha : ans.length < dim) :
    progError sqrt dim x ans = .error .ub := by
  unfold progError
  rw [forRange_ub_at ha, error_bind]
  · intro i hi s
    exact ⟨_, by rw [rd_eq (by omega), ok_bind, rd_eq hi, ok_bind]⟩
  · intro s
    rw [rd_eq (by omega), ok_bind, rd_ub (Nat.le_refl _), error_bind]

omit [LinearOrder K] in
theorem dotp_ub {n : Nat} {a : List K} (h : a.length < n) : dotp n a a = .error .ub := by
  unfold dotp
  rw [forRange_ub_at h]
  · intro i hi s
    exact ⟨s + a⟦i⟧ * a⟦i⟧, by simp only [rd_eq hi, ok_bind]⟩
  · intro s
    rw [rd_ub (Nat.le_refl _)]
    rfl

end read

section sound
variable {K : Type} [Field K] [LinearOrder K] [IsStrictOrderedRing K]

omit [IsStrictOrderedRing K] in
/-- The part of the program before the solver cannot return anything but a preconditioner object, and afterwards come the solver and the comparison. -/
theorem progTail_ok {E : SolveProgEnv K} {bs : Nat} {p : ProgParams K} {b : List K} {A B : SR K} {info : SolveInfo K} {x : List K} {err : Option K}
    (h : progTail E bs p b A B = .ok (info, x, err)) :
    ∃ o q prec, progSettings bs E.info p = .ok o ∧ createPreconditioner (.async o) = .ok q ∧ E.object q B = .ok prec ∧
      progSolve p ⟨progView bs p.storageorder A, prec, E.sqrt, p.maxiter, p.tol, E.sched⟩ b
        (List.replicate (progView bs p.storageorder A).dim 0) = .ok (info, x) ∧
      progCheck E p (progView bs p.storageorder A).dim x = .ok err := by
  unfold progTail at h
  cases h1 : progSettings bs E.info p with
  | error e => rw [h1] at h; cases h
  | ok o =>
    rw [h1, ok_bind] at h
    cases h2 : createPreconditioner (.async o) with
    | error e => rw [h2] at h; cases h
    | ok q =>
      rw [h2, ok_bind] at h
      cases h3 : E.object q B with
      | error e => rw [h3] at h; cases h
      | ok prec =>
        rw [h3, ok_bind] at h
        dsimp only at h
        cases h4 : progSolve p ⟨progView bs p.storageorder A, prec, E.sqrt, p.maxiter, p.tol, E.sched⟩ b
            (List.replicate (progView bs p.storageorder A).dim 0) with
        | error e => rw [h4] at h; cases h
        | ok r =>
          rw [h4, ok_bind] at h
          cases h5 : progCheck E p (progView bs p.storageorder A).dim r.2 with
          | error e => rw [h5] at h; cases h
          | ok e =>
            rw [h5, ok_bind] at h
            cases h
            exact ⟨o, q, prec, rfl, h2, h3, h4, h5⟩

/-- All three solvers, for a preconditioner of which only the length of the result is known. -/
theorem progSolve_sound {p : ProgParams K} {S : SolverEnv K} {b x : List K} (h : S.Ready (fun _ _ => True) b x) (hs : SqrtOk S.sqrt)
    (hm : S.maxiter = p.maxiter) (hnr : p.solvertype = "gcr" → 0 < p.solver_restart) {info : SolveInfo K} {x' : List K} (hrun : progSolve p S b x = .ok (info, x')) :
    x'.length = S.A.dim ∧ 0 ≤ info.bnorm ∧ info.bnorm * info.bnorm = nrm2 (vecN S.A.dim b) ∧
      (info.iters < p.maxiter → S.Small b (vecN S.A.dim x') ∧ S.NormOf b (vecN S.A.dim x') info.resnorm) := by
  unfold progSolve at hrun
  split at hrun
  · obtain ⟨i2, x2, X, m, e, h1, h2, h3, h4, h5, h6, h7, -, -, h8, h9, -⟩ := richardson_correct S _ b x h hs
    rw [hrun] at e
    cases e
    refine ⟨h1, h8, h9, fun hlt => ?_⟩
    rw [h4]
    exact h7 (by omega)
  · split at hrun
    · rcases bicgstab_correct S _ b x h hs with e | ⟨i2, x2, m, e, h1, h2, h3, h4, -, -, h5, h6, -⟩
      · rw [hrun] at e; cases e
      · rw [hrun] at e
        cases e
        exact ⟨h1, h5, h6, fun hlt => h4 (by omega)⟩
    · split at hrun
      · rename_i hg
        rcases gcr_correct S _ b x h hs p.solver_restart (hnr hg) with ⟨e, -⟩ | ⟨i2, x2, X, Z, m, e, h1, h2, -, h3, -, h4, h5, -, h6, h7, -, -, h8, h9⟩
        · rw [hrun] at e; cases e
        · rw [hrun] at e
          cases e
          refine ⟨h1, h8, h9, fun hlt => ?_⟩
          rw [h3]
          exact ⟨h6 (by omega), h7 (h5 (by omega))⟩
      · cases hrun

/-- **C90** What the program reports is true of the numbers in the files. For every matrix and right-hand side file, every solver, block size and storage order, every
preconditioner whose applications to the matrix of the file return vectors of the right length, and every order of the loops: if the program returns, its result has as many numbers as the matrix has rows;
`bnorm` is the norm of the right-hand side; if the reported number of iterations is less than `maxiter` then the residual of the result is below the tolerance and `resnorm` is its norm; and
if a reference solution is given then the result was compared with all of it, the value reported is the distance and it is below `testtol`. -/
theorem solve_program_sound {E : SolveProgEnv K} {p : ProgParams K} {n : Nat} {es : List (Nat × Nat × K)} {vs : List K} (h : SolveFiles E p n es vs)
    {bs : Nat} (hbs : BlocksOk bs n p.storageorder) (hvs : vs.length = n) (hs : SqrtOk E.sqrt) (hsched : ProgSched E bs n)
    (hobj : ∀ o q B f, progSettings bs E.info p = .ok o → createPreconditioner (.async o) = .ok q → HoldsFile bs p.storageorder n es B → E.object q B = .ok f →
      ∀ k r z, r.length = n → z.length = n → ∃ z', f k r z = .ok z' ∧ z'.length = n)
    (hnr : p.solvertype = "gcr" → 0 < p.solver_restart) {info : SolveInfo K} {x : List K} {err : Option K} (hrun : testSolve E bs p = .ok (info, x, err)) :
    x.length = n ∧ 0 ≤ info.bnorm ∧ info.bnorm ^ 2 = norm2 n vs ∧
      (info.iters < p.maxiter → fileResid2 n es vs x < p.tol ^ 2 * norm2 n vs ∧ 0 ≤ info.resnorm ∧ info.resnorm ^ 2 = fileResid2 n es vs x) ∧
      (p.x_file = "NONE" → err = none) ∧
      (p.x_file ≠ "NONE" → ∀ ans, HoldsArray E p.x_file ans →
        n ≤ ans.length ∧ ∃ v, err = some v ∧ 0 ≤ v ∧ v ^ 2 = ∑ i ∈ range n, (x⟦i⟧ - ans⟦i⟧) ^ 2 ∧ v < p.testtol) := by
  obtain ⟨A, B, e, hA, hB, hrows, hBn, hsd⟩ := h.read hbs
  rw [e p rfl rfl rfl] at hrun
  obtain ⟨o, q, prec, h1, h2, h3, h4, h5⟩ := progTail_ok hrun
  have hd := hA.dim
  have hready : SolverEnv.Ready (⟨progView bs p.storageorder A, prec, E.sqrt, p.maxiter, p.tol, E.sched⟩ : SolverEnv K) (fun _ _ => True) vs
      (List.replicate (progView bs p.storageorder A).dim 0) := by
    refine ⟨hA.ready, ⟨fun k m => ?_, fun k m => ?_⟩, fun k r z hr hz => ?_, by rw [hvs]; exact hd.symm, List.length_replicate⟩
    · rw [hrows]; exact hsched.1 k m
    · show (E.sched.cells k m).Perm (List.range (progView bs p.storageorder A).dim)
      rw [hd]; exact hsched.2 k m
    · change r.length = (progView bs p.storageorder A).dim at hr
      change z.length = (progView bs p.storageorder A).dim at hz
      obtain ⟨z', g1, g2⟩ := hobj o q B prec h1 h2 ⟨hB, hBn, fun e1 e2 => by obtain ⟨rfl, r⟩ := hsd e1 e2; exact r⟩ h3 k r z (by omega) (by omega)
      exact ⟨z', g1, g2.trans hd.symm, trivial⟩
  obtain ⟨g1, g2, g3, g4⟩ := progSolve_sound hready hs rfl hnr h4
  change x.length = (progView bs p.storageorder A).dim at g1
  rw [nrm2_vecN] at g3
  change _ = norm2 (progView bs p.storageorder A).dim vs at g3
  rw [hd] at g1 g3
  refine ⟨g1, g2, by rw [sq]; exact g3, fun hlt => ?_, fun hx => ?_, fun hx ans hans => ?_⟩
  · obtain ⟨⟨-, -, k1⟩, k2, k3⟩ := g4 hlt
    change nrm2 ((progView bs p.storageorder A).resid vs (vecN (progView bs p.storageorder A).dim x)) < _ at k1
    change _ = nrm2 ((progView bs p.storageorder A).resid vs (vecN (progView bs p.storageorder A).dim x)) at k3
    rw [hA.resid] at k1 k3
    rw [nrm2_vecN] at k1
    change _ < p.tol * p.tol * norm2 (progView bs p.storageorder A).dim vs at k1
    rw [hd] at k1
    exact ⟨by rw [sq]; exact k1, k2, by rw [sq]; exact k3⟩
  · unfold progCheck at h5
    rw [if_neg (by simpa using hx)] at h5
    cases h5
    rfl
  · unfold progCheck at h5
    rw [if_pos hx, hans.read, ok_bind, hd] at h5
    rcases Nat.lt_or_ge ans.length n with hlt | hge
    · rw [progError_ub E.sqrt g1 hlt] at h5
      cases h5
    · rw [progError_eq E.sqrt g1 hge, ok_bind] at h5
      have hnn : 0 ≤ ∑ i ∈ range n, (x⟦i⟧ - ans⟦i⟧) ^ 2 := Finset.sum_nonneg fun i _ => sq_nonneg _
      obtain ⟨s1, s2⟩ := hs _ hnn
      by_cases hc : E.sqrt (∑ i ∈ range n, (x⟦i⟧ - ans⟦i⟧) ^ 2) < p.testtol
      · rw [cassert, if_pos (by simpa using hc), ok_bind] at h5
        cases h5
        exact ⟨hge, _, rfl, s1, by rw [sq]; exact s2, hc⟩
      · rw [cassert, if_neg (by simpa using hc)] at h5
        cases h5

end sound

section ilu
variable {K : Type} [Field K] [LinearOrder K] [IsStrictOrderedRing K]

/-- The words for the initial factors. -/
def factWords : List (String × FactInit) := [("init_zero", .zero), ("init_original", .original), ("init_sgs", .sgs), ("init_none", .none)]

/-- The words for the initial vectors of an application, except the one for no initialisation. -/
def applyWords : List (String × ApplyInit) := [("init_zero", .zero), ("init_jacobi", .jacobi)]

/-- The words that name an ILU(0) preconditioner with asynchronous or sequential loops. -/
def iluWords : List String := ["ilu0", "seqilu0", "sfilu0", "sapilu0"]

omit [Field K] [LinearOrder K] [IsStrictOrderedRing K] in
theorem prog_ilu_object (p : ProgParams K) (info : Bool) (hp : p.precontype ∈ iluWords) {f : FactInit} (hf : (p.factinittype, f) ∈ factWords) {a : ApplyInit}
    (ha : (p.applyinittype, a) ∈ applyWords) :
    ∃ o, progSettings 1 info p = .ok o ∧ createPreconditioner (.async o) = .ok (.asyncIlu0 (iluMeaning p info f a)) := by
  have h2 : getFactInitFromString p.factinittype = .ok f := by
    simp only [factWords, List.mem_cons, Prod.mk.injEq, List.not_mem_nil, or_false] at hf
    rcases hf with ⟨e, rfl⟩ | ⟨e, rfl⟩ | ⟨e, rfl⟩ | ⟨e, rfl⟩ <;> rw [e] <;> rfl
  have h3 : getApplyInitFromString p.applyinittype = .ok a := by
    simp only [applyWords, List.mem_cons, Prod.mk.injEq, List.not_mem_nil, or_false] at ha
    rcases ha with ⟨e, rfl⟩ | ⟨e, rfl⟩ <;> rw [e] <;> rfl
  simp only [iluWords, List.mem_cons, List.not_mem_nil, or_false] at hp
  unfold progSettings iluMeaning
  rcases hp with e | e | e | e <;> rw [e] <;>
    exact ⟨_, by rw [show solverTypeFromString _ = .ok _ from rfl, ok_bind, h2, ok_bind, h3, ok_bind], rfl⟩

omit [LinearOrder K] [IsStrictOrderedRing K] in
theorem noScale_scales {A : SR K} (hA : A.Full) (hS : A.Sorted) (isq : K → K) : Scales A (scalarScale? none) (scaledEntry isq false A) := by
  intro i hi p hp
  have : scaledEntry isq false A i A.bcolind⟦p⟧ = A.vals⟦p⟧ := by
    rw [← hA.entry_stored hS hi hp]
    simp [scaledEntry, scaleFac]
  rw [this]
  rfl

/-- The factors of an ILU(0) object with enough sweeps are exact. -/
theorem IluFactors.exact {conf : IluConf} {A : SR K} {u : List K} (hA : A.Full) (hS : A.Sorted) (hD : A.HasDiag) (hu : conf.usescaling = false)
    (hk : if conf.threadedfactor then 2 * (A.nbrows : Int) - 1 ≤ conf.nbuildsweeps else 1 ≤ conf.nbuildsweeps)
    {d : Nat → K} {rho : K} (hdom : WDominant A.nbrows A.entry d rho) (h1 : rho < 1) (h : IluFactors conf A u) :
    ∃ isq : K → K, u.length = A.browptr⟦A.nbrows⟧ ∧ ExactILU A (scaledEntry isq false A) u := by
  unfold IluFactors at h
  split at h
  · rename_i ht
    rw [if_pos ht] at hk
    obtain ⟨pos, mix, x, log, last, hpos, hm, hx, hr, rfl⟩ := h
    have hdom' := hdom.scaled (isq := fun _ => 1) (us := false) (by simp)
    obtain ⟨u, h2, h3, -, h4, -⟩ := scalar_ilu_dominant_async hA hS hD hpos (noScale_scales hA hS fun _ => 1) hdom' h1
    have := h4 mix hm x hx conf.nbuildsweeps.toNat (by omega) log last hr
    subst this
    exact ⟨_, h2, h3⟩
  · rename_i ht
    rw [if_neg ht] at hk
    obtain ⟨isq, ord, ordc, gilu, gy, gscale, inf, st', o1, o2, l1, l2, l3, e, e2⟩ := h
    obtain ⟨-, -, u', hu', hl, hex, -⟩ := scalar_ilu_compute_exact ⟨hA, hS, hD, o1, o2, l1, l2, l3, .inl rfl⟩ (by show 1 ≤ conf.nbuildsweeps.toNat; omega) e
    rw [e2] at hu'
    cases hu'
    change ExactILU A (scaledEntry isq conf.usescaling A) u at hex
    rw [hu] at hex
    exact ⟨isq, hl, hex⟩

omit [IsStrictOrderedRing K] in
/-- The applications of an ILU(0) object with enough sweeps are among those of C72. -/
theorem IluApplies.outcome {conf : IluConf} {A : SR K} {u r z : List K} (hk : if conf.threadedapply then (A.nbrows : Int) ≤ conf.napplysweeps else 1 ≤ conf.napplysweeps)
    (hi : conf.applyinittype ≠ .none) (h : IluApplies conf A u r z) : ScalarIluOutcome A u none r z := by
  obtain ⟨ord, z₀, y, y', ho, hz, hy, h⟩ := h
  split at h
  · rename_i ht
    rw [if_pos ht] at hk
    obtain ⟨mix, hm, h⟩ := h
    exact .async _ (by omega) _ hi mix hm ord ho z₀ y y' hz hy h
  · rename_i ht
    rw [if_neg ht] at hk
    exact .sequential _ (by omega) _ hi ord ho z₀ y y' hz hy h

/-- The numbers of sweeps asked for suffice for exact factors and exact applications: with threads `2 n - 1` and `n`, without threads one. -/
def EnoughSweeps (p : ProgParams K) (n : Nat) : Prop :=
  (if p.precontype = "ilu0" ∨ p.precontype = "sapilu0" then 2 * (n : Int) - 1 ≤ p.nbuildsweeps else 1 ≤ p.nbuildsweeps) ∧
  (if p.precontype = "ilu0" ∨ p.precontype = "sfilu0" then (n : Int) ≤ p.napplysweeps else 1 ≤ p.napplysweeps)

/-- The surroundings provide ILU(0) objects: for the matrix of the file, in sorted CSR format with all diagonal entries, an object of the configuration `conf` can be computed, and it
behaves as ILU(0) objects do. -/
def ProvidesIlu (E : SolveProgEnv K) (conf : IluConf) (n : Nat) (es : List (Nat × Nat × K)) : Prop :=
  ∀ A : SR K, A.Full → A.Sorted → A.HasDiag → A.nbrows = n → (∀ i < n, ∀ j, A.entry i j = fileEntry es i j) →
    ∃ f, E.object (.asyncIlu0 conf) A = .ok f ∧ IluRuns conf A f

theorem ilu_program_aux [Archimedean K] {E : SolveProgEnv K} {p : ProgParams K} {n : Nat} {es : List (Nat × Nat × K)} {vs : List K} (h : SolveFiles E p n es vs)
    (hvs : vs.length = n) (hs : SqrtOk E.sqrt) (hsched : ProgSched E 1 n) (hsolver : p.solvertype = "richardson")
    (hp : p.precontype ∈ iluWords) {f : FactInit} (hf : (p.factinittype, f) ∈ factWords) {a : ApplyInit} (ha : (p.applyinittype, a) ∈ applyWords)
    (hsw : EnoughSweeps p n) (hobj : ProvidesIlu E (iluMeaning p E.info f a) n es) {d : Nat → K} {rho : K} (hdom : WDominant n (fileEntry es) d rho)
    (h0 : 0 ≤ rho) (h1 : rho < 1) (hb : ∃ i < n, vs⟦i⟧ ≠ 0) (ht : 0 < p.tol) :
    ∃ m0 : Nat, ∀ maxiter : Int, m0 < maxiter → ∃ info x, testSolve E 1 { p with maxiter := maxiter } = (do
        let e ← progCheck E p n x
        .ok (info, x, e)) ∧ info.iters ≤ m0 ∧ x.length = n ∧ fileResid2 n es vs x < p.tol ^ 2 * norm2 n vs := by
  obtain ⟨A, B, e, hA, -, -, -, hex⟩ := h.read (bs := 1) (.inl rfl)
  obtain ⟨rfl, hF, hS, hD⟩ := hex (.one es) hdom.diag
  have hn : A.nbrows = n := hA.dim
  subst hn
  have hent : ∀ i < A.nbrows, ∀ j, A.entry i j = fileEntry es i j := hA.entry
  have hdom' : WDominant A.nbrows A.entry d rho :=
    ⟨hdom.pos, fun i hi => by rw [hent i hi]; exact hdom.diag i hi, fun i hi => by
      rw [hent i hi, Finset.sum_congr rfl fun j _ => by rw [hent i hi j]]
      exact hdom.dom i hi⟩
  obtain ⟨prec, g1, u, hu, hprec⟩ := hobj A hF hS hD rfl hent
  obtain ⟨isq, hl, hexact⟩ := hu.exact hF hS hD rfl (by simpa [iluMeaning] using hsw.1) hdom' h1
  have hai : a ≠ .none := by
    rintro rfl
    simp [applyWords] at ha
  obtain ⟨m0, hm0⟩ := richardson_exact_ilu_converges (isq := isq) (us := false) (scale := none) hF hS hD hl rfl hexact (by simp) hdom' h0 h1 prec
    (fun k r z hr hz => by
      obtain ⟨z', k1, k2⟩ := hprec k r z hr hz
      exact ⟨z', k1, k2.outcome (by simpa [iluMeaning] using hsw.2) hai⟩)
    E.sqrt hs p.tol ht E.sched ⟨fun k m => by have := hsched.1 k m; rw [Nat.div_one] at this; exact this, hsched.2⟩ vs (List.replicate A.nbrows 0) hvs List.length_replicate hb
  refine ⟨m0, fun maxiter hmax => ?_⟩
  obtain ⟨info, x, k1, k2, k3, k4⟩ := hm0 maxiter hmax
  refine ⟨info, x, ?_, k2, k3, ?_⟩
  · obtain ⟨o, e1, e2⟩ := prog_ilu_object { p with maxiter := maxiter } E.info hp hf ha
    rw [e { p with maxiter := maxiter } rfl rfl rfl]
    unfold progTail
    rw [e1, ok_bind, show createPreconditioner (.async o) = .ok (.asyncIlu0 (iluMeaning p E.info f a)) from e2, ok_bind, g1, ok_bind]
    have e3 : progSolve { p with maxiter := maxiter } ⟨progView 1 p.storageorder A, prec, E.sqrt, maxiter, p.tol, E.sched⟩ vs
        (List.replicate (progView 1 p.storageorder A).dim 0) = .ok (info, x) := by
      unfold progSolve
      rw [if_pos hsolver]
      exact k1
    dsimp only
    rw [e3, ok_bind]
    rfl
  · refine lt_of_le_of_lt (le_of_eq ?_) k4
    unfold fileResid2
    refine Finset.sum_congr rfl fun i hi => ?_
    rw [Finset.sum_congr rfl fun j _ => by rw [← hent i (mem_range.mp hi) j]]

/-- **C90** The program solves the system. For every matrix file with a (weighted) strictly diagonally dominant matrix and every right-hand side that is not zero, the program called with
`richardson`, one of the ILU(0) preconditioners, numbers of sweeps large enough for exact factors, a positive tolerance and no reference solution returns, for all large enough `maxiter`, a vector
whose residual with the numbers in the files is below the tolerance; for every schedule of the threads. -/
theorem solve_program_ilu_converges [Archimedean K] {E : SolveProgEnv K} {p : ProgParams K} {n : Nat} {es : List (Nat × Nat × K)} {vs : List K}
    (h : SolveFiles E p n es vs) (hvs : vs.length = n) (hs : SqrtOk E.sqrt) (hsched : ProgSched E 1 n) (hmat : p.mattype ≠ "bsr")
    (hsolver : p.solvertype = "richardson") (hp : p.precontype ∈ iluWords) {f : FactInit} (hf : (p.factinittype, f) ∈ factWords) {a : ApplyInit}
    (ha : (p.applyinittype, a) ∈ applyWords) (hsw : EnoughSweeps p n) (hobj : ProvidesIlu E (iluMeaning p E.info f a) n es) {d : Nat → K} {rho : K}
    (hdom : WDominant n (fileEntry es) d rho) (h0 : 0 ≤ rho) (h1 : rho < 1) (hb : ∃ i < n, vs⟦i⟧ ≠ 0) (ht : 0 < p.tol) (hx : p.x_file = "NONE") :
    ∃ m0 : Nat, ∀ maxiter : Int, m0 < maxiter → ∃ info x, solveMain E { p with maxiter := maxiter } = .ok (some (info, x, none)) ∧ info.iters ≤ m0 ∧
      x.length = n ∧ fileResid2 n es vs x < p.tol ^ 2 * norm2 n vs := by
  obtain ⟨m0, hm0⟩ := ilu_program_aux h hvs hs hsched hsolver hp hf ha hsw hobj hdom h0 h1 hb ht
  refine ⟨m0, fun maxiter hmax => ?_⟩
  obtain ⟨info, x, e, k1, k2, k3⟩ := hm0 maxiter hmax
  refine ⟨info, x, ?_, k1, k2, k3⟩
  unfold solveMain
  rw [if_neg (by show maxiter ≠ -1; omega), if_neg (by exact hmat), e]
  unfold progCheck
  rw [if_neg (by simpa using hx)]
  rfl

omit [Field K] [LinearOrder K] [IsStrictOrderedRing K] in
theorem dominant_bound [Field K] [LinearOrder K] [IsStrictOrderedRing K] {n : Nat} {S : Nat → Nat → K} {d : Nat → K} {rho : K} (hdom : WDominant n S d rho) (h1 : rho < 1) :
    ∃ c : K, 0 ≤ c ∧ ∀ v : Nat → K, ∑ i ∈ range n, v i ^ 2 ≤ c * ∑ i ∈ range n, (∑ j ∈ range n, S i j * v j) ^ 2 := by
  let w : Nat → K := fun m => ((1 - rho) * (|S m m| * d m))⁻¹ ^ 2
  have hw : ∀ m, 0 ≤ w m := fun m => sq_nonneg _
  have hD : 0 ≤ ∑ i ∈ range n, d i ^ 2 := Finset.sum_nonneg fun i _ => sq_nonneg _
  have hW : 0 ≤ ∑ m ∈ range n, w m := Finset.sum_nonneg fun i _ => hw i
  refine ⟨(∑ i ∈ range n, d i ^ 2) * ∑ m ∈ range n, w m, mul_nonneg hD hW, fun v => ?_⟩
  rcases Nat.eq_zero_or_pos n with rfl | hn
  · simp
  obtain ⟨m, hm, hmax⟩ := Finset.exists_max_image (range n) (fun j => |v j| / d j) ⟨0, mem_range.mpr hn⟩
  have hm' := mem_range.mp hm
  have hdm := hdom.pos m hm'
  set c := |v m| / d m with hc
  have hcm : |v m| = c * d m := by rw [hc, div_mul_cancel₀ _ hdm.ne']
  have hv : ∀ j ∈ range n, |v j| ≤ c * d j := fun j hj => by
    rw [← div_le_iff₀ (hdom.pos j (mem_range.mp hj))]
    exact hmax j hj
  have hc0 : 0 ≤ c := div_nonneg (abs_nonneg _) hdm.le
  set r := ∑ j ∈ range n, S m j * v j with hr
  have h2 : |S m m| * |v m| ≤ |r| + ∑ j ∈ (range n).erase m, |S m j| * |v j| := by
    have e : S m m * v m = r - ∑ j ∈ (range n).erase m, S m j * v j := by
      rw [hr, ← Finset.add_sum_erase _ _ hm]; ring
    rw [← abs_mul, e]
    refine (abs_sub _ _).trans (add_le_add_right ?_ _)
    refine (Finset.abs_sum_le_sum_abs _ _).trans (le_of_eq ?_)
    exact Finset.sum_congr rfl fun j _ => abs_mul _ _
  have h3 : ∑ j ∈ (range n).erase m, |S m j| * |v j| ≤ c * (rho * (|S m m| * d m)) := by
    refine le_trans ?_ (mul_le_mul_of_nonneg_left (hdom.dom m hm') hc0)
    rw [Finset.mul_sum]
    refine Finset.sum_le_sum fun j hj => ?_
    have := mul_le_mul_of_nonneg_left (hv j (mem_of_mem_erase hj)) (abs_nonneg (S m j))
    linarith
  have hq : 0 < (1 - rho) * (|S m m| * d m) :=
    mul_pos (sub_pos.mpr h1) (mul_pos (abs_pos.mpr (hdom.diag m hm')) hdm)
  have h4 : c * ((1 - rho) * (|S m m| * d m)) ≤ |r| := by
    rw [hcm] at h2
    linarith
  have h5 : c ^ 2 ≤ w m * r ^ 2 := by
    have : c ≤ |r| * ((1 - rho) * (|S m m| * d m))⁻¹ := by
      rw [← div_eq_mul_inv, le_div_iff₀ hq]; exact h4
    calc c ^ 2 ≤ (|r| * ((1 - rho) * (|S m m| * d m))⁻¹) ^ 2 := pow_le_pow_left₀ hc0 this 2
      _ = w m * r ^ 2 := by rw [mul_pow, sq_abs, mul_comm]
  have h6 : w m ≤ ∑ m ∈ range n, w m := Finset.single_le_sum (fun i _ => hw i) hm
  have h7 : r ^ 2 ≤ ∑ i ∈ range n, (∑ j ∈ range n, S i j * v j) ^ 2 :=
    Finset.single_le_sum (f := fun i => (∑ j ∈ range n, S i j * v j) ^ 2) (fun i _ => sq_nonneg _) hm
  have h8 : c ^ 2 ≤ (∑ m ∈ range n, w m) * ∑ i ∈ range n, (∑ j ∈ range n, S i j * v j) ^ 2 :=
    h5.trans (mul_le_mul h6 h7 (sq_nonneg _) hW)
  calc ∑ i ∈ range n, v i ^ 2 ≤ ∑ i ∈ range n, c ^ 2 * d i ^ 2 := Finset.sum_le_sum fun i hi => by
        rw [← sq_abs, ← mul_pow]
        exact pow_le_pow_left₀ (abs_nonneg _) (hv i hi) 2
    _ = (∑ i ∈ range n, d i ^ 2) * c ^ 2 := by rw [← Finset.mul_sum, mul_comm]
    _ ≤ _ := by
        rw [mul_assoc]
        exact mul_le_mul_of_nonneg_left h8 hD

/-- **C90** The program passes its own test. If moreover the reference file holds the exact solution of the system in the files, then for every `testtol` the program passes the comparison, and
returns, for all small enough tolerances and all large enough `maxiter`. -/
theorem solve_program_ilu_passes [Archimedean K] {E : SolveProgEnv K} {p : ProgParams K} {n : Nat} {es : List (Nat × Nat × K)} {vs : List K}
    (h : SolveFiles E p n es vs) (hvs : vs.length = n) (hs : SqrtOk E.sqrt) (hsched : ProgSched E 1 n) (hmat : p.mattype ≠ "bsr")
    (hsolver : p.solvertype = "richardson") (hp : p.precontype ∈ iluWords) {f : FactInit} (hf : (p.factinittype, f) ∈ factWords) {a : ApplyInit}
    (ha : (p.applyinittype, a) ∈ applyWords) (hsw : EnoughSweeps p n) (hobj : ProvidesIlu E (iluMeaning p E.info f a) n es) {d : Nat → K} {rho : K}
    (hdom : WDominant n (fileEntry es) d rho) (h0 : 0 ≤ rho) (h1 : rho < 1) (hb : ∃ i < n, vs⟦i⟧ ≠ 0) (hx : p.x_file ≠ "NONE") {ans : List K}
    (hans : HoldsArray E p.x_file ans) (hal : n ≤ ans.length) (hsol : ∀ i < n, ∑ j ∈ range n, fileEntry es i j * ans⟦j⟧ = vs⟦i⟧) (htt : 0 < p.testtol) :
    ∃ tol0 > 0, ∀ tol, 0 < tol → tol ≤ tol0 → ∃ m0 : Nat, ∀ maxiter : Int, m0 < maxiter →
      ∃ info x v, solveMain E { p with tol := tol, maxiter := maxiter } = .ok (some (info, x, some v)) ∧ info.iters ≤ m0 ∧ x.length = n ∧
        fileResid2 n es vs x < tol ^ 2 * norm2 n vs ∧ v ^ 2 = ∑ i ∈ range n, (x⟦i⟧ - ans⟦i⟧) ^ 2 ∧ v < p.testtol := by
  obtain ⟨c, hc0, hc⟩ := dominant_bound hdom h1
  have hN : 0 ≤ norm2 n vs := Finset.sum_nonneg fun i _ => sq_nonneg _
  have hQ : 0 ≤ c * norm2 n vs := mul_nonneg hc0 hN
  have hQ1 : 0 < c * norm2 n vs + 1 := by linarith
  have htt2 : 0 < p.testtol ^ 2 := pow_pos htt 2
  refine ⟨min 1 (p.testtol ^ 2 / (c * norm2 n vs + 1)), lt_min one_pos (div_pos htt2 hQ1), fun tol ht htl => ?_⟩
  obtain ⟨m0, hm0⟩ := ilu_program_aux (p := { p with tol := tol }) ⟨h.size, h.sort, h.mat, h.rhs, h.rows, h.distinct⟩ hvs hs hsched hsolver hp hf ha hsw hobj hdom h0 h1 hb ht
  refine ⟨m0, fun maxiter hmax => ?_⟩
  obtain ⟨info, x, e, k1, k2, k3⟩ := hm0 maxiter hmax
  change fileResid2 n es vs x < tol ^ 2 * norm2 n vs at k3
  have hS : ∑ i ∈ range n, (x⟦i⟧ - ans⟦i⟧) ^ 2 < p.testtol ^ 2 := by
    have e1 : ∑ i ∈ range n, (∑ j ∈ range n, fileEntry es i j * (x⟦j⟧ - ans⟦j⟧)) ^ 2 = fileResid2 n es vs x := by
      unfold fileResid2
      refine Finset.sum_congr rfl fun i hi => ?_
      rw [Finset.sum_congr rfl fun j _ => mul_sub _ _ _, Finset.sum_sub_distrib, hsol i (mem_range.mp hi)]
      ring
    have e2 := hc fun i => x⟦i⟧ - ans⟦i⟧
    rw [e1] at e2
    have t1 : tol ≤ 1 := htl.trans (min_le_left _ _)
    have t2 : tol * (c * norm2 n vs + 1) ≤ p.testtol ^ 2 := by
      rw [← le_div_iff₀ hQ1]; exact htl.trans (min_le_right _ _)
    have t3 : tol ^ 2 ≤ tol := by rw [sq]; exact mul_le_of_le_one_left ht.le t1
    have t4 : c * fileResid2 n es vs x ≤ c * (tol ^ 2 * norm2 n vs) := mul_le_mul_of_nonneg_left k3.le hc0
    have t5 : tol ^ 2 * (c * norm2 n vs) ≤ tol * (c * norm2 n vs) := mul_le_mul_of_nonneg_right t3 hQ
    nlinarith
  have hnn : 0 ≤ ∑ i ∈ range n, (x⟦i⟧ - ans⟦i⟧) ^ 2 := Finset.sum_nonneg fun i _ => sq_nonneg _
  obtain ⟨s1, s2⟩ := hs _ hnn
  have hlt : E.sqrt (∑ i ∈ range n, (x⟦i⟧ - ans⟦i⟧) ^ 2) < p.testtol := lt_of_pow_lt_pow_left₀ 2 htt.le (by rw [sq, s2]; exact hS)
  refine ⟨info, x, _, ?_, k1, k2, k3, by rw [sq]; exact s2, hlt⟩
  unfold solveMain
  rw [if_neg (by show maxiter ≠ -1; omega), if_neg (by exact hmat)]
  rw [show testSolve E 1 { p with tol := tol, maxiter := maxiter } = _ from e]
  unfold progCheck
  rw [if_pos hx, show readDenseMatrixMarket E.num E.fuel _ = .ok ans from hans.read, ok_bind, progError_eq E.sqrt k2 hal, ok_bind,
    cassert, if_pos (by simpa using hlt)]
  rfl

/-- **C90 finding.** The program does not compare the number of values in the reference file with the number of rows: with a shorter reference file it reads past the end of the array, after having
solved the system. -/
theorem solve_program_short_reference_ub [Archimedean K] {E : SolveProgEnv K} {p : ProgParams K} {n : Nat} {es : List (Nat × Nat × K)} {vs : List K}
    (h : SolveFiles E p n es vs) (hvs : vs.length = n) (hs : SqrtOk E.sqrt) (hsched : ProgSched E 1 n) (hmat : p.mattype ≠ "bsr")
    (hsolver : p.solvertype = "richardson") (hp : p.precontype ∈ iluWords) {f : FactInit} (hf : (p.factinittype, f) ∈ factWords) {a : ApplyInit}
    (ha : (p.applyinittype, a) ∈ applyWords) (hsw : EnoughSweeps p n) (hobj : ProvidesIlu E (iluMeaning p E.info f a) n es) {d : Nat → K} {rho : K}
    (hdom : WDominant n (fileEntry es) d rho) (h0 : 0 ≤ rho) (h1 : rho < 1) (hb : ∃ i < n, vs⟦i⟧ ≠ 0) (ht : 0 < p.tol) (hx : p.x_file ≠ "NONE") {ans : List K}
    (hans : HoldsArray E p.x_file ans) (hal : ans.length < n) :
    ∃ m0 : Nat, ∀ maxiter : Int, m0 < maxiter → solveMain E { p with maxiter := maxiter } = .error .ub := by
  obtain ⟨m0, hm0⟩ := ilu_program_aux h hvs hs hsched hsolver hp hf ha hsw hobj hdom h0 h1 hb ht
  refine ⟨m0, fun maxiter hmax => ?_⟩
  obtain ⟨info, x, e, -, k2, -⟩ := hm0 maxiter hmax
  unfold solveMain
  rw [if_neg (by show maxiter ≠ -1; omega), if_neg (by exact hmat), e]
  unfold progCheck
  rw [if_pos hx, hans.read, ok_bind, progError_ub E.sqrt k2 hal]
  rfl

end ilu

section reject
variable {K : Type} [Field K] [LinearOrder K]

/-- The words that name a preconditioner. -/
def precWords : List String :=
  ["jacobi", "gs", "sgs", "ilu0", "seqilu0", "sfilu0", "sapilu0", "cscbgs", "level_sgs", "async_level_ilu0", "none"]

/-- The words for the initial factors and for the initial vectors. -/
def factInitWords : List String := ["init_zero", "init_original", "init_sgs", "init_none"]
@[inherit_doc factInitWords] def applyInitWords : List String := ["init_zero", "init_jacobi", "init_none"]

theorem solverType_bad {s : String} (h : s ∉ precWords) : solverTypeFromString s = invalidArg "BLASTed: Preconditioner type not available!" := by
  simp only [precWords, List.mem_cons, List.not_mem_nil, or_false, not_or] at h
  unfold solverTypeFromString
  simp only [h, if_false]

theorem solverType_good {s : String} (h : s ∈ precWords) : ∃ t, solverTypeFromString s = .ok t ∧ t ≠ .external ∧ (t = .cscBgs ↔ s = "cscbgs") := by
  simp only [precWords, List.mem_cons, List.not_mem_nil, or_false] at h
  rcases h with rfl | rfl | rfl | rfl | rfl | rfl | rfl | rfl | rfl | rfl | rfl <;> exact ⟨_, rfl, by decide, by decide⟩

theorem factInit_bad {s : String} (h : s ∉ factInitWords) : getFactInitFromString s = invalidArg "Factor initialization not recongnized!" := by
  simp only [factInitWords, List.mem_cons, List.not_mem_nil, or_false, not_or] at h
  unfold getFactInitFromString
  simp only [h, if_false]

theorem factInit_good {s : String} (h : s ∈ factInitWords) : ∃ t, getFactInitFromString s = .ok t := by
  simp only [factInitWords, List.mem_cons, List.not_mem_nil, or_false] at h
  rcases h with rfl | rfl | rfl | rfl <;> exact ⟨_, rfl⟩

theorem applyInit_bad {s : String} (h : s ∉ applyInitWords) : getApplyInitFromString s = invalidArg "Apply initialization not recongnized!" := by
  simp only [applyInitWords, List.mem_cons, List.not_mem_nil, or_false, not_or] at h
  unfold getApplyInitFromString
  simp only [h, if_false]

theorem applyInit_good {s : String} (h : s ∈ applyInitWords) : ∃ t, getApplyInitFromString s = .ok t := by
  simp only [applyInitWords, List.mem_cons, List.not_mem_nil, or_false] at h
  rcases h with rfl | rfl | rfl <;> exact ⟨_, rfl⟩

/-- **C90** Words the program does not know: with readable files, a preconditioner, initial factors or initial vectors that do not exist make it throw `std::invalid_argument`, for every block size; it
never goes on with something else. -/
theorem solve_program_unknown_word {E : SolveProgEnv K} {p : ProgParams K} {n : Nat} {es : List (Nat × Nat × K)} {vs : List K} (h : SolveFiles E p n es vs)
    {bs : Nat} (hbs : BlocksOk bs n p.storageorder) :
    (p.precontype ∉ precWords → testSolve E bs p = .error (.throw "std::invalid_argument" "BLASTed: Preconditioner type not available!")) ∧
    (p.precontype ∈ precWords → p.factinittype ∉ factInitWords →
      testSolve E bs p = .error (.throw "std::invalid_argument" "Factor initialization not recongnized!")) ∧
    (p.precontype ∈ precWords → p.factinittype ∈ factInitWords → p.applyinittype ∉ applyInitWords →
      testSolve E bs p = .error (.throw "std::invalid_argument" "Apply initialization not recongnized!")) := by
  obtain ⟨A, B, e, -⟩ := h.read hbs
  rw [e p rfl rfl rfl]
  unfold progTail progSettings
  refine ⟨fun h1 => ?_, fun h1 h2 => ?_, fun h1 h2 h3 => ?_⟩
  · rw [solverType_bad h1]; rfl
  · obtain ⟨t, e1, -⟩ := solverType_good h1
    rw [e1, ok_bind, factInit_bad h2]; rfl
  · obtain ⟨t, e1, -⟩ := solverType_good h1
    obtain ⟨f, e2⟩ := factInit_good h2
    rw [e1, ok_bind, e2, ok_bind, applyInit_bad h3]; rfl

omit [Field K] [LinearOrder K] in
/-- With known words the settings are those the words say. -/
theorem progSettings_good {p : ProgParams K} (bs : Nat) (info : Bool) (h1 : p.precontype ∈ precWords) (h2 : p.factinittype ∈ factInitWords)
    (h3 : p.applyinittype ∈ applyInitWords) :
    ∃ o, progSettings bs info p = .ok o ∧ o.bs = bs ∧ o.prectype ≠ .external ∧ (o.prectype = .cscBgs ↔ p.precontype = "cscbgs") ∧
      (o.blockstorage = .rowMajor ∨ o.blockstorage = .colMajor) := by
  obtain ⟨t, e1, ht, hc⟩ := solverType_good h1
  obtain ⟨f, e2⟩ := factInit_good h2
  obtain ⟨a, e3⟩ := applyInit_good h3
  unfold progSettings
  rw [e1, ok_bind, e2, ok_bind, e3, ok_bind]
  refine ⟨_, rfl, rfl, ht, hc, ?_⟩
  dsimp only
  split
  · exact .inl rfl
  · exact .inr rfl

omit [Field K] [LinearOrder K] in
/-- **C90** The numbers on the command line reach the factory unchanged; neither scaling nor relaxation mode is ever asked for. -/
theorem solve_program_settings {p : ProgParams K} {bs : Nat} {info : Bool} {o : Settings} (h : progSettings bs info p = .ok o) :
    o.bs = bs ∧ o.nbuildsweeps = p.nbuildsweeps ∧ o.napplysweeps = p.napplysweeps ∧ o.thread_chunk_size = p.threadchunksize ∧ o.scale = false ∧ o.relax = false ∧
      (o.blockstorage = .rowMajor ↔ p.storageorder = "rowmajor") ∧ (o.blockstorage = .colMajor ↔ p.storageorder ≠ "rowmajor") := by
  unfold progSettings at h
  cases e1 : solverTypeFromString p.precontype with
  | error e => rw [e1] at h; cases h
  | ok t =>
  rw [e1, ok_bind] at h
  cases e2 : getFactInitFromString p.factinittype with
  | error e => rw [e2] at h; cases h
  | ok f =>
  rw [e2, ok_bind] at h
  cases e3 : getApplyInitFromString p.applyinittype with
  | error e => rw [e3] at h; cases h
  | ok a =>
  rw [e3, ok_bind] at h
  injection h with h
  subst h
  refine ⟨rfl, rfl, rfl, rfl, rfl, rfl, ?_, ?_⟩ <;> dsimp only <;> split <;> simp_all

/-- The hypothesis of `solve_program_settings` can be met. -/
example : ∃ o, progSettings (K := ℚ) 4 false { precontype := "sgs", factinittype := "init_original", applyinittype := "init_zero", storageorder := "rowmajor", threadchunksize := 7, nbuildsweeps := 2, napplysweeps := 3, solvertype := "bcgs", mattype := "bsr", blocksize := 4, testtol := 1, tol := 1, maxiter := 1, solver_restart := 1, mat_file := "", b_file := "", x_file := "NONE" } = .ok o ∧
    o.bs = 4 ∧ o.napplysweeps = 3 := ⟨_, rfl, rfl, rfl⟩

/-- With known words the factory makes an object, except for `cscbgs` with blocks. -/
theorem progPrec_good {o : Settings} (h1 : o.prectype ≠ .external) (h2 : o.bs = 1 ∨ (o.bs = 4 ∧ o.prectype ≠ .cscBgs))
    (h3 : o.blockstorage = .rowMajor ∨ o.blockstorage = .colMajor) : ∃ q, createPreconditioner (.async o) = .ok q := by
  obtain ⟨t, bs, st, rx, tc, sc, nb, na, fi, ai, ci⟩ := o
  dsimp only at h1 h2 h3
  rcases h2 with rfl | ⟨rfl, h2⟩
  · cases t <;> first | exact ⟨_, rfl⟩ | exact absurd rfl h1
  · rcases h3 with rfl | rfl <;> cases t <;> first | exact ⟨_, rfl⟩ | exact absurd rfl h1 | exact absurd rfl h2

/-- **C90** `cscbgs` exists only for block size 1: with blocks the program throws. -/
theorem solve_program_cscbgs_blocks {E : SolveProgEnv K} {p : ProgParams K} {n : Nat} {es : List (Nat × Nat × K)} {vs : List K} (h : SolveFiles E p n es vs)
    (hbs : BlocksOk 4 n p.storageorder) (h1 : p.precontype = "cscbgs") (h2 : p.factinittype ∈ factInitWords) (h3 : p.applyinittype ∈ applyInitWords) :
    testSolve E 4 p = .error (.throw "std::invalid_argument" "Invalid preconditioner!") := by
  obtain ⟨A, B, e, -⟩ := h.read hbs
  rw [e p rfl rfl rfl]
  obtain ⟨o, e1, hb, -, hc, hst⟩ := progSettings_good 4 E.info (by rw [h1]; decide) h2 h3
  have ht := hc.mpr h1
  have : createPreconditioner (.async o) = .error (.throw "std::invalid_argument" "Invalid preconditioner!") := by
    obtain ⟨t, bs, st, rx, tc, sc, nb, na, fi, ai, ci⟩ := o
    dsimp only at hb ht hst
    subst hb ht
    rcases hst with rfl | rfl <;> rfl
  unfold progTail
  rw [e1, ok_bind, this]
  rfl

/-- **C90** A solver the program does not know makes it abort, after the preconditioner was computed. -/
theorem solve_program_unknown_solver {E : SolveProgEnv K} {p : ProgParams K} {n : Nat} {es : List (Nat × Nat × K)} {vs : List K} (h : SolveFiles E p n es vs)
    {bs : Nat} (hbs : BlocksOk bs n p.storageorder) (hb : bs = 1 ∨ (bs = 4 ∧ p.precontype ≠ "cscbgs")) (h1 : p.precontype ∈ precWords) (h2 : p.factinittype ∈ factInitWords)
    (h3 : p.applyinittype ∈ applyInitWords) (hobj : ∀ q B, ∃ f, E.object q B = .ok f) (hs : p.solvertype ∉ ["richardson", "bcgs", "gcr"]) :
    testSolve E bs p = .error .abort := by
  obtain ⟨A, B, e, -⟩ := h.read hbs
  rw [e p rfl rfl rfl]
  obtain ⟨o, e1, hob, hx, hc, hst⟩ := progSettings_good bs E.info h1 h2 h3
  obtain ⟨q, e2⟩ := progPrec_good hx (by
    rcases hb with rfl | ⟨rfl, hb⟩
    · exact .inl hob
    · exact .inr ⟨hob, fun hh => hb (hc.mp hh)⟩) hst
  obtain ⟨f, e3⟩ := hobj q B
  simp only [List.mem_cons, List.not_mem_nil, or_false, not_or] at hs
  unfold progTail
  rw [e1, ok_bind, e2, ok_bind, e3, ok_bind]
  unfold progSolve
  simp only [hs, if_false]
  rfl

/-- **C90** The program solves nothing if `maxiter` is -1, and without `BUILD_BLOCK_SIZE` it rejects all block sizes except 4. -/
theorem solve_program_choice (E : SolveProgEnv K) (p : ProgParams K) :
    (p.maxiter = -1 → solveMain E p = .ok none) ∧
    (p.maxiter ≠ -1 → p.mattype = "bsr" → p.blocksize ≠ 4 → solveMain E p = .error (.throw "std::runtime_error" "unsupported block size!")) ∧
    (p.maxiter ≠ -1 → p.mattype = "bsr" → p.blocksize = 4 → solveMain E p = (testSolve E 4 p).map some) ∧
    (p.maxiter ≠ -1 → p.mattype ≠ "bsr" → solveMain E p = (testSolve E 1 p).map some) := by
  refine ⟨fun h => ?_, fun h1 h2 h3 => ?_, fun h1 h2 h3 => ?_, fun h1 h2 => ?_⟩ <;> unfold solveMain
  · rw [if_pos h]
  · rw [if_neg h1, if_pos h2, if_neg h3]
  · rw [if_neg h1, if_pos h2, if_pos h3]
    cases testSolve E 4 p <;> rfl
  · rw [if_neg h1, if_neg h2]
    cases testSolve E 1 p <;> rfl

/-- **C90 finding.** The program does not compare the number of values of the right-hand side with the number of rows: with fewer values it reads past the end of the array. -/
theorem solve_program_short_rhs_ub {E : SolveProgEnv K} {p : ProgParams K} {n : Nat} {es : List (Nat × Nat × K)} {vs : List K} (h : SolveFiles E p n es vs)
    {bs : Nat} (hbs : BlocksOk bs n p.storageorder) (hb : bs = 1 ∨ (bs = 4 ∧ p.precontype ≠ "cscbgs")) (h1 : p.precontype ∈ precWords) (h2 : p.factinittype ∈ factInitWords)
    (h3 : p.applyinittype ∈ applyInitWords) (hobj : ∀ q B, ∃ f, E.object q B = .ok f) (hs : p.solvertype = "richardson" ∨ p.solvertype = "gcr") (hvs : vs.length < n) :
    testSolve E bs p = .error .ub := by
  obtain ⟨A, B, e, hA, -⟩ := h.read hbs
  rw [e p rfl rfl rfl]
  obtain ⟨o, e1, hob, hx, hc, hst⟩ := progSettings_good bs E.info h1 h2 h3
  obtain ⟨q, e2⟩ := progPrec_good hx (by
    rcases hb with rfl | ⟨rfl, hb⟩
    · exact .inl hob
    · exact .inr ⟨hob, fun hh => hb (hc.mp hh)⟩) hst
  obtain ⟨f, e3⟩ := hobj q B
  have hd : vs.length < (progView bs p.storageorder A).dim := by rw [hA.dim]; exact hvs
  unfold progTail
  rw [e1, ok_bind, e2, ok_bind, e3, ok_bind]
  dsimp only
  have : progSolve p ⟨progView bs p.storageorder A, f, E.sqrt, p.maxiter, p.tol, E.sched⟩ vs (List.replicate (progView bs p.storageorder A).dim 0) = .error .ub := by
    unfold progSolve
    rcases hs with hs | hs
    · rw [if_pos hs]
      unfold richardsonSolve
      rw [dotp_ub hd]
      rfl
    · rw [if_neg (by rw [hs]; decide), if_neg (by rw [hs]; decide), if_pos hs]
      unfold gcrSolve
      dsimp only
      rw [dotp_ub hd]
      rfl
  rw [this]
  rfl

end reject

section seq
variable {K : Type} [Field K] [LinearOrder K] [IsStrictOrderedRing K]

/-- The sequential objects exist for dominant matrices, and behave as described. -/
theorem seqIluObject_runs {E : SolveProgEnv K} {isq : K → K} {g : Nat → K} (hE : E.object = seqIluObject isq g) {p : ProgParams K} (hp : p.precontype = "seqilu0") (info : Bool)
    (f : FactInit) {a : ApplyInit} (ha : a ≠ .none) (hb : 1 ≤ p.nbuildsweeps) (hn : 1 ≤ p.napplysweeps) {n : Nat} {es : List (Nat × Nat × K)} {d : Nat → K} {rho : K}
    (hdom : WDominant n (fileEntry es) d rho) (h1 : rho < 1) {A : SR K} (hF : A.Full) (hS : A.Sorted) (hD : A.HasDiag)
    (hA : A.nbrows = n) (hent : ∀ i < n, ∀ j, A.entry i j = fileEntry es i j) :
    ∃ F, E.object (.asyncIlu0 (iluMeaning p info f a)) A = .ok F ∧ IluRuns (iluMeaning p info f a) A F ∧
      ∀ k r z, r.length = n → z.length = n → ∃ z', F k r z = .ok z' ∧ z'.length = n := by
  subst hA
  have hdom' : WDominant A.nbrows A.entry d rho :=
    ⟨hdom.pos, fun i hi => by rw [hent i hi]; exact hdom.diag i hi, fun i hi => by
      rw [hent i hi, Finset.sum_congr rfl fun j _ => by rw [hent i hi j]]
      exact hdom.dom i hi⟩
  have hlen : A.nbrows < A.browptr.length := by have := hF.ptr_len; omega
  have htf : (iluMeaning p info f a).threadedfactor = false := by simp [iluMeaning, hp]
  have hta : (iluMeaning p info f a).threadedapply = false := by simp [iluMeaning, hp]
  have hl : ∀ m, ((List.range m).map g).length = m := by simp
  obtain ⟨inf, st, u, e, hu, hul, hsc, -, hpiv, -⟩ := scalar_ilu_dominant_compute (isq := isq) (conf := ⟨false, p.nbuildsweeps.toNat, f, info⟩)
    (ord := List.range A.nbrows) (ordc := List.range A.browptr⟦A.nbrows⟧) (gilu := (List.range A.browptr⟦A.nbrows⟧).map g) (gy := (List.range A.nbrows).map g)
    (gscale := (List.range A.nbrows).map g) (st := {}) ⟨hF, hS, hD, .refl _, .refl _, hl _, hl _, hl _, .inl rfl⟩ (by show 1 ≤ p.nbuildsweeps.toNat; omega) (.inr rfl)
    (by simp) hdom' h1
  have hsn : st.scale = none := hsc
  have hobj : E.object (.asyncIlu0 (iluMeaning p info f a)) A = .ok fun _ b z =>
      (scalarIluApply A u st.scale p.napplysweeps.toNat a (fun _ => List.range A.nbrows) b z ((List.range A.nbrows).map g)).bind fun zy => .ok zy.1 := by
    rw [hE]
    unfold seqIluObject
    dsimp only
    rw [if_neg (by rw [htf, hta]; decide), rd_eq hlen, ok_bind]
    dsimp only [iluMeaning]
    rw [e, ok_bind, hu]
    rfl
  have happ : ∀ r z : List K, r.length = A.nbrows → z.length = A.nbrows → ∃ z' y',
      scalarIluApply A u st.scale p.napplysweeps.toNat a (fun _ => List.range A.nbrows) r z ((List.range A.nbrows).map g) = .ok (z', y') ∧ z'.length = A.nbrows := by
    intro r z hr hz
    obtain ⟨z', y', e2, -, hzl, -⟩ := scalar_ilu_apply_correct hF hS hD hul hpiv (scale := none) (by intro _ h; cases h) (k := p.napplysweeps.toNat) (by omega) ha
      (ord := fun _ => List.range A.nbrows) (fun _ => .refl _) hr hz (hl A.nbrows)
    exact ⟨z', y', by rw [hsn]; exact e2, hzl⟩
  refine ⟨_, hobj, ⟨u, ?_, ?_⟩, ?_⟩
  · unfold IluFactors
    rw [htf, if_neg (by decide)]
    exact ⟨isq, _, _, _, _, _, inf, st, .refl _, .refl _, hl _, hl _, hl _, e, hu⟩
  · intro k r z hr hz
    obtain ⟨z', y', e2, -⟩ := happ r z hr hz
    refine ⟨z', ?_, fun _ => List.range A.nbrows, z, (List.range A.nbrows).map g, y', fun _ => .refl _, hz, hl _, ?_⟩
    · dsimp only
      rw [e2]
      rfl
    · rw [hta, if_neg (by decide)]
      rw [hsn] at e2
      exact e2
  · intro k r z hr hz
    obtain ⟨z', y', e2, hzl⟩ := happ r z hr hz
    exact ⟨z', by rw [e2]; rfl, hzl⟩

theorem seqIluObject_provides {E : SolveProgEnv K} {isq : K → K} {g : Nat → K} (hE : E.object = seqIluObject isq g) {p : ProgParams K} (hp : p.precontype = "seqilu0") (info : Bool)
    (f : FactInit) {a : ApplyInit} (ha : a ≠ .none) (hb : 1 ≤ p.nbuildsweeps) (hn : 1 ≤ p.napplysweeps) {n : Nat} {es : List (Nat × Nat × K)} {d : Nat → K} {rho : K}
    (hdom : WDominant n (fileEntry es) d rho) (h1 : rho < 1) : ProvidesIlu E (iluMeaning p info f a) n es := by
  intro A hF hS hD hA hent
  obtain ⟨F, h, h', -⟩ := seqIluObject_runs hE hp info f ha hb hn hdom h1 hF hS hD hA hent
  exact ⟨F, h, h'⟩

/-- **C90** Without threads nothing is assumed about the preconditioner: with `seqilu0` the program, with the factorization and application of the library, solves every (weighted) strictly
diagonally dominant system in the files, with any positive numbers of sweeps, and any initialisation of the factors. -/
theorem solve_program_seqilu0_converges [Archimedean K] {E : SolveProgEnv K} {isq : K → K} {g : Nat → K} (hE : E.object = seqIluObject isq g) {p : ProgParams K} {n : Nat}
    {es : List (Nat × Nat × K)} {vs : List K} (h : SolveFiles E p n es vs) (hvs : vs.length = n) (hs : SqrtOk E.sqrt) (hsched : ProgSched E 1 n)
    (hmat : p.mattype ≠ "bsr") (hsolver : p.solvertype = "richardson") (hp : p.precontype = "seqilu0") {f : FactInit} (hf : (p.factinittype, f) ∈ factWords)
    {a : ApplyInit} (ha : (p.applyinittype, a) ∈ applyWords) (hb : 1 ≤ p.nbuildsweeps) (hn : 1 ≤ p.napplysweeps) {d : Nat → K} {rho : K}
    (hdom : WDominant n (fileEntry es) d rho) (h0 : 0 ≤ rho) (h1 : rho < 1) (hv : ∃ i < n, vs⟦i⟧ ≠ 0) (ht : 0 < p.tol) (hx : p.x_file = "NONE") :
    ∃ m0 : Nat, ∀ maxiter : Int, m0 < maxiter → ∃ info x, solveMain E { p with maxiter := maxiter } = .ok (some (info, x, none)) ∧ info.iters ≤ m0 ∧
      x.length = n ∧ fileResid2 n es vs x < p.tol ^ 2 * norm2 n vs := by
  have hai : a ≠ .none := by
    rintro rfl
    simp [applyWords] at ha
  exact solve_program_ilu_converges h hvs hs hsched hmat hsolver (by rw [hp]; decide) hf ha
    ⟨by rw [hp, if_neg (by decide)]; exact hb, by rw [hp, if_neg (by decide)]; exact hn⟩ (seqIluObject_provides hE hp E.info f hai hb hn hdom h1) hdom h0 h1 hv ht hx

end seq

/-! ### Examples -/

theorem CoordinateFile.mapNum {K L : Type} {num : List Char → Option K} {text : List Char} {n m : Nat} {es : List (Nat × Nat × K)} (h : CoordinateFile num text n m es)
    (g : K → L) : CoordinateFile (fun w => (num w).map g) text n m (es.map fun e => (e.1, e.2.1, g e.2.2)) where
  parts := by
    obtain ⟨field, body, hf, hp, toks, hw, h2⟩ := h.parts
    refine ⟨field, body, hf, by rw [List.length_map]; exact hp, toks, hw, ?_⟩
    rw [List.forall₂_map_right_iff]
    exact h2.imp fun t e ⟨a, b, c⟩ => ⟨a, b, by show (num t.2.2).map g = _; rw [c]; rfl⟩
  row := by
    intro e he
    obtain ⟨e', he', rfl⟩ := List.mem_map.mp he
    exact h.row e' he'
  col := by
    intro e he
    obtain ⟨e', he', rfl⟩ := List.mem_map.mp he
    exact h.col e' he'
  nrows_le := h.nrows_le
  ncols_le := h.ncols_le
  nnz_le := by rw [List.length_map]; exact h.nnz_le

theorem ArrayFile.mapNum {K L : Type} {num : List Char → Option K} {text : List Char} {n m : Nat} {vs : List K} (h : ArrayFile num text n m vs) (g : K → L) :
    ArrayFile (fun w => (num w).map g) text n m (vs.map g) where
  parts := by
    obtain ⟨field, body, hf, hp, toks, hw, h2⟩ := h.parts
    refine ⟨field, body, hf, hp, toks, hw, ?_⟩
    rw [List.forall₂_map_right_iff]
    exact h2.imp fun t e c => by show (num t).map g = _; rw [c]; rfl
  length := by rw [List.length_map]; exact h.length
  nrows_le := h.nrows_le
  ncols_le := h.ncols_le
  size_le := h.size_le

/-- The matrix `[2 1; 1 2]`. -/
def exProgMat : List Char := "%%MatrixMarket matrix coordinate real general\n2 2 4\n1 1 2\n1 2 1\n2 1 1\n2 2 2\n".toList

theorem exProgMat_ok : CoordinateFile exNum exProgMat 2 2 [(1, 1, 2), (1, 2, 1), (2, 1, 1), (2, 2, 2)] where
  parts := by
    refine ⟨"real", "1 1 2\n1 2 1\n2 1 1\n2 2 2\n".toList, .inl rfl, ?_, ?_⟩
    · refine ⟨"%%MatrixMarket matrix coordinate real general".toList, [], "2 2 4".toList,
        [['2'], ['2'], ['4']], by decide +kernel, by decide, .of_tokens (by decide +kernel), by decide, by decide, by decide,
        .of_tokens (by decide +kernel), .cons (.one 2) (.cons (.one 2) (.cons (.one 4) .nil))⟩
    · exact ⟨[(['1'], ['1'], ['2']), (['1'], ['2'], ['1']), (['2'], ['1'], ['1']), (['2'], ['2'], ['2'])], .of_tokens (by decide +kernel),
        .cons ⟨.one 1, .one 1, by decide +kernel⟩ (.cons ⟨.one 1, .one 2, by decide +kernel⟩ (.cons ⟨.one 2, .one 1, by decide +kernel⟩
          (.cons ⟨.one 2, .one 2, by decide +kernel⟩ .nil)))⟩
  row := by decide
  col := by decide
  nrows_le := by decide
  ncols_le := by decide
  nnz_le := by decide

/-- A diagonal matrix of order 4. -/
def exProgMat4 : List Char := "%%MatrixMarket matrix coordinate real general\n4 4 4\n1 1 2\n2 2 2\n3 3 2\n4 4 2\n".toList

theorem exProgMat4_ok : CoordinateFile exNum exProgMat4 4 4 [(1, 1, 2), (2, 2, 2), (3, 3, 2), (4, 4, 2)] where
  parts := by
    refine ⟨"real", "1 1 2\n2 2 2\n3 3 2\n4 4 2\n".toList, .inl rfl, ?_, ?_⟩
    · refine ⟨"%%MatrixMarket matrix coordinate real general".toList, [], "4 4 4".toList,
        [['4'], ['4'], ['4']], by decide +kernel, by decide, .of_tokens (by decide +kernel), by decide, by decide, by decide,
        .of_tokens (by decide +kernel), .cons (.one 4) (.cons (.one 4) (.cons (.one 4) .nil))⟩
    · exact ⟨[(['1'], ['1'], ['2']), (['2'], ['2'], ['2']), (['3'], ['3'], ['2']), (['4'], ['4'], ['2'])], .of_tokens (by decide +kernel),
        .cons ⟨.one 1, .one 1, by decide +kernel⟩ (.cons ⟨.one 2, .one 2, by decide +kernel⟩ (.cons ⟨.one 3, .one 3, by decide +kernel⟩
          (.cons ⟨.one 4, .one 4, by decide +kernel⟩ .nil)))⟩
  row := by decide
  col := by decide
  nrows_le := by decide
  ncols_le := by decide
  nnz_le := by decide

/-- Two numbers, and one. -/
def exProgVec : List Char := "%%MatrixMarket matrix array real general\n2 1\n3\n3\n".toList
@[inherit_doc exProgVec] def exProgSol : List Char := "%%MatrixMarket matrix array real general\n2 1\n1\n1\n".toList
@[inherit_doc exProgVec] def exProgOne : List Char := "%%MatrixMarket matrix array real general\n1 1\n3\n".toList

theorem exProgVec_ok : ArrayFile exNum exProgVec 2 1 [3, 3] where
  parts := ⟨"real", "3\n3\n".toList, .inl rfl,
    ⟨"%%MatrixMarket matrix array real general".toList, [], "2 1".toList, [['2'], ['1']], by decide +kernel,
      by decide, .of_tokens (by decide +kernel), by decide, by decide, by decide, .of_tokens (by decide +kernel),
      .cons (.one 2) (.cons (.one 1) .nil)⟩,
    [['3'], ['3']], .of_tokens (by decide +kernel), .cons (by decide +kernel) (.cons (by decide +kernel) .nil)⟩
  length := rfl
  nrows_le := by decide
  ncols_le := by decide
  size_le := by decide

theorem exProgSol_ok : ArrayFile exNum exProgSol 2 1 [1, 1] where
  parts := ⟨"real", "1\n1\n".toList, .inl rfl,
    ⟨"%%MatrixMarket matrix array real general".toList, [], "2 1".toList, [['2'], ['1']], by decide +kernel,
      by decide, .of_tokens (by decide +kernel), by decide, by decide, by decide, .of_tokens (by decide +kernel),
      .cons (.one 2) (.cons (.one 1) .nil)⟩,
    [['1'], ['1']], .of_tokens (by decide +kernel), .cons (by decide +kernel) (.cons (by decide +kernel) .nil)⟩
  length := rfl
  nrows_le := by decide
  ncols_le := by decide
  size_le := by decide

theorem exProgOne_ok : ArrayFile exNum exProgOne 1 1 [3] where
  parts := ⟨"real", "3\n".toList, .inl rfl,
    ⟨"%%MatrixMarket matrix array real general".toList, [], "1 1".toList, [['1'], ['1']], by decide +kernel,
      by decide, .of_tokens (by decide +kernel), by decide, by decide, by decide, .of_tokens (by decide +kernel),
      .cons (.one 1) (.cons (.one 1) .nil)⟩,
    [['3']], .of_tokens (by decide +kernel), .cons (by decide +kernel) .nil⟩
  length := rfl
  nrows_le := by decide
  ncols_le := by decide
  size_le := by decide

/-- Surroundings with these files. -/
noncomputable def exProgEnv (object : Prec → SR ℝ → C (PrecFun ℝ)) : SolveProgEnv ℝ where
  files f := if f = "A" then some exProgMat else if f = "D" then some exProgMat4 else if f = "b" then some exProgVec else if f = "x" then some exProgSol
    else if f = "s" then some exProgOne else none
  num := fun w => Option.map (fun q : ℚ => (q : ℝ)) (exNum w)
  srt key l := l.insertionSort fun a b => key a ≤ key b
  gi _ := 7
  gd _ := 7
  gv _ := 7
  gi2 _ := 7
  gd2 _ := 7
  gv2 _ := 7
  fuel := 200
  info := true
  sqrt := Real.sqrt
  sched := ⟨fun _ _ => List.range 2, fun _ _ => List.range 2⟩
  object := object

/-- Parameters with the sequential ILU(0) preconditioner. -/
noncomputable def exProgParams (mat b x : String) : ProgParams ℝ where
  solvertype := "richardson"
  precontype := "seqilu0"
  factinittype := "init_original"
  applyinittype := "init_zero"
  mattype := "csr"
  blocksize := 1
  storageorder := "rowmajor"
  testtol := 1 / 10
  tol := 1 / 100
  maxiter := 50
  solver_restart := 0
  threadchunksize := 400
  nbuildsweeps := 1
  napplysweeps := 1
  mat_file := mat
  x_file := x
  b_file := b

theorem exProgEnv_sort (object : Prec → SR ℝ → C (PrecFun ℝ)) : IsSort (exProgEnv object).srt := by
  intro key l
  refine ⟨List.perm_insertionSort _ l, ?_⟩
  have : Std.Total (fun a b : Entry ℝ => key a ≤ key b) := ⟨fun a b => Int.le_total ..⟩
  have : IsTrans (Entry ℝ) (fun a b : Entry ℝ => key a ≤ key b) := ⟨fun a b c => Int.le_trans⟩
  exact List.pairwise_insertionSort _ l

theorem exProg_vec (object : Prec → SR ℝ → C (PrecFun ℝ)) : HoldsArray (exProgEnv object) "b" [3, 3] ∧ HoldsArray (exProgEnv object) "x" [1, 1] ∧
    HoldsArray (exProgEnv object) "s" [3] := by
  refine ⟨⟨_, 2, 1, rfl, ?_, by show exProgVec.length ≤ 200; decide⟩, ⟨_, 2, 1, rfl, ?_, by show exProgSol.length ≤ 200; decide⟩,
    ⟨_, 1, 1, rfl, ?_, by show exProgOne.length ≤ 200; decide⟩⟩
  · have h := exProgVec_ok.mapNum (fun q : ℚ => (q : ℝ)); simp at h; exact h
  · have h := exProgSol_ok.mapNum (fun q : ℚ => (q : ℝ)); simp at h; exact h
  · have h := exProgOne_ok.mapNum (fun q : ℚ => (q : ℝ)); simp at h; exact h

theorem exProgFiles (object : Prec → SR ℝ → C (PrecFun ℝ)) (p : ProgParams ℝ) {b : String} {vs : List ℝ} (hA : p.mat_file = "A") (hb : p.b_file = b)
    (hh : HoldsArray (exProgEnv object) b vs) :
    SolveFiles (exProgEnv object) p 2 [(1, 1, 2), (1, 2, 1), (2, 1, 1), (2, 2, 2)] vs where
  size := by decide
  sort := exProgEnv_sort object
  mat := ⟨exProgMat, by rw [hA]; rfl, by have h := exProgMat_ok.mapNum (fun q : ℚ => (q : ℝ)); simp at h; exact h, by show exProgMat.length ≤ 200; decide⟩
  rhs := by rw [hb]; exact hh
  rows := by intro r h1 h2; interval_cases r <;> simp
  distinct := by simp [DistinctPositions]

theorem exProgFiles4 (object : Prec → SR ℝ → C (PrecFun ℝ)) (p : ProgParams ℝ) (hA : p.mat_file = "D") (hb : p.b_file = "b") :
    SolveFiles (exProgEnv object) p 4 [(1, 1, 2), (2, 2, 2), (3, 3, 2), (4, 4, 2)] [3, 3] where
  size := by decide
  sort := exProgEnv_sort object
  mat := ⟨exProgMat4, by rw [hA]; rfl, by have h := exProgMat4_ok.mapNum (fun q : ℚ => (q : ℝ)); simp at h; exact h, by show exProgMat4.length ≤ 200; decide⟩
  rhs := by rw [hb]; exact (exProg_vec object).1
  rows := by intro r h1 h2; interval_cases r <;> simp
  distinct := by simp [DistinctPositions]

theorem exProg_dom : WDominant 2 (fileEntry [((1 : Nat), (1 : Nat), (2 : ℝ)), (1, 2, 1), (2, 1, 1), (2, 2, 2)]) (fun _ => 1) (1 / 2) := by
  refine ⟨fun _ _ => one_pos, fun i hi => ?_, fun i hi => ?_⟩
  · interval_cases i <;> simp [fileEntry]
  · interval_cases i <;> simp [fileEntry, Finset.sum_range_succ]

theorem exProg_sched (object : Prec → SR ℝ → C (PrecFun ℝ)) : ProgSched (exProgEnv object) 1 2 := ⟨fun _ _ => .refl _, fun _ _ => .refl _⟩

/-- The hypotheses of `solve_program_seqilu0_converges` can be met. -/
example : ∃ m0 : Nat, ∀ maxiter : Int, m0 < maxiter → ∃ info x,
    solveMain (exProgEnv (seqIluObject id fun _ => 5)) { exProgParams "A" "b" "NONE" with maxiter := maxiter } = .ok (some (info, x, none)) ∧ info.iters ≤ m0 ∧
      x.length = 2 ∧ fileResid2 2 [(1, 1, 2), (1, 2, 1), (2, 1, 1), (2, 2, 2)] [3, 3] x < (1 / 100) ^ 2 * norm2 2 [(3 : ℝ), 3] :=
  solve_program_seqilu0_converges rfl (exProgFiles _ _ rfl rfl (exProg_vec _).1) rfl real_sqrt_ok (exProg_sched _) (by decide) rfl rfl (f := .original)
    (by simp [factWords, exProgParams]) (a := .zero) (by simp [applyWords, exProgParams]) (by decide) (by decide) exProg_dom (by norm_num) (by norm_num) ⟨0, by decide, by simp [get0]⟩
    (by norm_num [exProgParams]) rfl

theorem exProg_provides (p : ProgParams ℝ) (hp : p.precontype = "seqilu0") (hb : p.nbuildsweeps = 1) (hn : p.napplysweeps = 1) :
    ProvidesIlu (exProgEnv (seqIluObject id fun _ => 5)) (iluMeaning p true .original .zero) 2 [(1, 1, 2), (1, 2, 1), (2, 1, 1), (2, 2, 2)] :=
  seqIluObject_provides rfl hp true .original (by decide) (by omega) (by omega) exProg_dom (by norm_num)

/-- The hypotheses of `solve_program_ilu_converges` can be met. -/
example : ∃ m0 : Nat, ∀ maxiter : Int, m0 < maxiter → ∃ info x,
    solveMain (exProgEnv (seqIluObject id fun _ => 5)) { exProgParams "A" "b" "NONE" with maxiter := maxiter } = .ok (some (info, x, none)) ∧ info.iters ≤ m0 ∧
      x.length = 2 ∧ fileResid2 2 [(1, 1, 2), (1, 2, 1), (2, 1, 1), (2, 2, 2)] [3, 3] x < (1 / 100) ^ 2 * norm2 2 [(3 : ℝ), 3] :=
  solve_program_ilu_converges (exProgFiles _ _ rfl rfl (exProg_vec _).1) rfl real_sqrt_ok (exProg_sched _) (by decide) rfl (by simp [iluWords, exProgParams]) (f := .original)
    (by simp [factWords, exProgParams]) (a := .zero) (by simp [applyWords, exProgParams]) ⟨by simp [exProgParams], by simp [exProgParams]⟩ (exProg_provides _ rfl rfl rfl) exProg_dom
    (by norm_num) (by norm_num) ⟨0, by decide, by simp [get0]⟩ (by norm_num [exProgParams]) rfl

/-- The hypotheses of `solve_program_ilu_passes` can be met. -/
example : ∃ tol0 > 0, ∀ tol, 0 < tol → tol ≤ tol0 → ∃ m0 : Nat, ∀ maxiter : Int, m0 < maxiter → ∃ info x v,
    solveMain (exProgEnv (seqIluObject id fun _ => 5)) { exProgParams "A" "b" "x" with tol := tol, maxiter := maxiter } = .ok (some (info, x, some v)) ∧ info.iters ≤ m0 ∧
      x.length = 2 ∧ fileResid2 2 [(1, 1, 2), (1, 2, 1), (2, 1, 1), (2, 2, 2)] [3, 3] x < tol ^ 2 * norm2 2 [(3 : ℝ), 3] ∧
      v ^ 2 = ∑ i ∈ range 2, (x⟦i⟧ - [(1 : ℝ), 1]⟦i⟧) ^ 2 ∧ v < 1 / 10 :=
  solve_program_ilu_passes (exProgFiles _ _ rfl rfl (exProg_vec _).1) rfl real_sqrt_ok (exProg_sched _) (by decide) rfl (by simp [iluWords, exProgParams]) (f := .original)
    (by simp [factWords, exProgParams]) (a := .zero) (by simp [applyWords, exProgParams]) ⟨by simp [exProgParams], by simp [exProgParams]⟩ (exProg_provides _ rfl rfl rfl) exProg_dom
    (by norm_num) (by norm_num) ⟨0, by decide, by simp [get0]⟩ (by decide) (exProg_vec _).2.1 (by decide)
    (by intro i hi; interval_cases i <;> simp [fileEntry, Finset.sum_range_succ, get0] <;> norm_num) (by norm_num [exProgParams])

/-- The hypotheses of `solve_program_short_reference_ub` can be met. -/
example : ∃ m0 : Nat, ∀ maxiter : Int, m0 < maxiter →
    solveMain (exProgEnv (seqIluObject id fun _ => 5)) { exProgParams "A" "b" "s" with maxiter := maxiter } = .error .ub :=
  solve_program_short_reference_ub (exProgFiles _ _ rfl rfl (exProg_vec _).1) rfl real_sqrt_ok (exProg_sched _) (by decide) rfl (by simp [iluWords, exProgParams])
    (f := .original) (by simp [factWords, exProgParams]) (a := .zero) (by simp [applyWords, exProgParams]) ⟨by simp [exProgParams], by simp [exProgParams]⟩
    (exProg_provides _ rfl rfl rfl) exProg_dom (by norm_num) (by norm_num) ⟨0, by decide, by simp [get0]⟩ (by norm_num [exProgParams]) (by decide) (exProg_vec _).2.2 (by decide)

/-- The hypotheses of `solve_program_sound` can be met, by a run that ends before `maxiter`. -/
example : ∃ (p : ProgParams ℝ) (info : SolveInfo ℝ) (x : List ℝ) (v : ℝ), testSolve (exProgEnv (seqIluObject id fun _ => 5)) 1 p = .ok (info, x, some v) ∧ info.iters < p.maxiter ∧
    x.length = 2 ∧ info.bnorm ^ 2 = norm2 2 [3, 3] ∧ info.resnorm ^ 2 = fileResid2 2 [(1, 1, 2), (1, 2, 1), (2, 1, 1), (2, 2, 2)] [3, 3] x := by
  obtain ⟨tol0, ht0, h⟩ := solve_program_ilu_passes (p := exProgParams "A" "b" "x") (exProgFiles (seqIluObject id fun _ => 5) _ rfl rfl (exProg_vec _).1) rfl real_sqrt_ok (exProg_sched _)
    (by decide) rfl (by simp [iluWords, exProgParams]) (f := .original)
    (by simp [factWords, exProgParams]) (a := .zero) (by simp [applyWords, exProgParams]) ⟨by simp [exProgParams], by simp [exProgParams]⟩ (exProg_provides _ rfl rfl rfl) exProg_dom
    (by norm_num) (by norm_num) ⟨0, by decide, by simp [get0]⟩ (by decide) (exProg_vec _).2.1 (by decide)
    (by intro i hi; interval_cases i <;> simp [fileEntry, Finset.sum_range_succ, get0] <;> norm_num) (by norm_num [exProgParams])
  obtain ⟨m0, h⟩ := h tol0 ht0 le_rfl
  obtain ⟨info, x, v, e, hi, -⟩ := h (m0 + 1) (by omega)
  rw [(solve_program_choice _ _).2.2.2 (by show ((m0 : Int) + 1) ≠ -1; omega) (by show "csr" ≠ "bsr"; decide)] at e
  cases e1 : testSolve (exProgEnv (seqIluObject id fun _ => 5)) 1 { exProgParams "A" "b" "x" with tol := tol0, maxiter := (m0 : Int) + 1 } with
  | error er => rw [e1] at e; cases e
  | ok r =>
    rw [e1] at e
    cases e
    obtain ⟨g1, -, g3, g4, -⟩ := solve_program_sound (exProgFiles (seqIluObject id fun _ => 5) _ rfl rfl (exProg_vec _).1) (.inl rfl) rfl real_sqrt_ok (exProg_sched _) (by
      intro o q B f e1 e2 hB e3 k r z hr hz
      obtain ⟨o', k1, k2⟩ := prog_ilu_object { exProgParams "A" "b" "x" with tol := tol0, maxiter := (m0 : Int) + 1 } true (f := .original) (a := .zero)
        (by simp [iluWords, exProgParams]) (by simp [factWords, exProgParams]) (by simp [applyWords, exProgParams])
      have : progSettings 1 true { exProgParams "A" "b" "x" with tol := tol0, maxiter := (m0 : Int) + 1 } = .ok o := e1
      rw [k1] at this; cases this
      rw [k2] at e2; cases e2
      obtain ⟨hF, hS, hD⟩ := hB.sorted (.one _) exProg_dom.diag
      have hn : B.nbrows = 2 := by have := hB.rows; omega
      obtain ⟨F, j1, -, j2⟩ := seqIluObject_runs (E := exProgEnv (seqIluObject id fun _ => 5)) rfl
        (p := { exProgParams "A" "b" "x" with tol := tol0, maxiter := (m0 : Int) + 1 }) rfl true .original (a := .zero) (by decide) (by show (1 : Int) ≤ 1; decide)
        (by show (1 : Int) ≤ 1; decide) exProg_dom (by norm_num) hF hS hD hn hB.view.entry
      have : Except.ok F = (Except.ok f : C (PrecFun ℝ)) := j1.symm.trans e3
      cases this
      exact j2 k r z hr hz) (by intro h; exact absurd h (by show "richardson" ≠ "gcr"; decide)) e1
    have hi' : info.iters < (m0 : Int) + 1 := by omega
    exact ⟨_, _, _, _, e1, hi', g1, g3, (g4 hi').2.2⟩

/-- The other theorems. -/
example : testSolve (exProgEnv fun _ _ => .error .abort) 1 { exProgParams "A" "b" "x" with precontype := "ilu" } =
      .error (.throw "std::invalid_argument" "BLASTed: Preconditioner type not available!") ∧
    testSolve (exProgEnv fun _ _ => .error .abort) 1 { exProgParams "A" "b" "x" with factinittype := "zero" } =
      .error (.throw "std::invalid_argument" "Factor initialization not recongnized!") ∧
    testSolve (exProgEnv fun _ _ => .error .abort) 1 { exProgParams "A" "b" "x" with applyinittype := "init_sgs" } =
      .error (.throw "std::invalid_argument" "Apply initialization not recongnized!") ∧
    testSolve (exProgEnv fun _ _ => .error .abort) 4 { exProgParams "D" "b" "x" with precontype := "cscbgs" } =
      .error (.throw "std::invalid_argument" "Invalid preconditioner!") ∧
    testSolve (exProgEnv fun _ _ => .ok fun _ r _ => .ok r) 1 { exProgParams "A" "b" "x" with solvertype := "cg" } = .error .abort ∧
    testSolve (exProgEnv fun _ _ => .ok fun _ r _ => .ok r) 1 (exProgParams "A" "s" "x") = .error .ub ∧
    solveMain (exProgEnv fun _ _ => .error .abort) { exProgParams "A" "b" "x" with mattype := "bsr", blocksize := 5 } =
      .error (.throw "std::runtime_error" "unsupported block size!") :=
  ⟨(solve_program_unknown_word (exProgFiles _ _ rfl rfl (exProg_vec _).1) (.inl rfl)).1 (by show "ilu" ∉ precWords; decide),
   (solve_program_unknown_word (exProgFiles _ _ rfl rfl (exProg_vec _).1) (.inl rfl)).2.1 (by show "seqilu0" ∈ precWords; decide) (by show "zero" ∉ factInitWords; decide),
   (solve_program_unknown_word (exProgFiles _ _ rfl rfl (exProg_vec _).1) (.inl rfl)).2.2 (by show "seqilu0" ∈ precWords; decide)
     (by show "init_original" ∈ factInitWords; decide) (by show "init_sgs" ∉ applyInitWords; decide),
   solve_program_cscbgs_blocks (exProgFiles4 _ _ rfl rfl) (.inr ⟨by decide, by decide, .inl rfl⟩) rfl (by show "init_original" ∈ factInitWords; decide)
     (by show "init_zero" ∈ applyInitWords; decide),
   solve_program_unknown_solver (exProgFiles _ _ rfl rfl (exProg_vec _).1) (.inl rfl) (.inl rfl) (by show "seqilu0" ∈ precWords; decide)
     (by show "init_original" ∈ factInitWords; decide) (by show "init_zero" ∈ applyInitWords; decide) (fun _ _ => ⟨_, rfl⟩) (by show "cg" ∉ _; decide),
   solve_program_short_rhs_ub (exProgFiles _ _ rfl rfl (exProg_vec _).2.2) (.inl rfl) (.inl rfl) (by show "seqilu0" ∈ precWords; decide)
     (by show "init_original" ∈ factInitWords; decide) (by show "init_zero" ∈ applyInitWords; decide) (fun _ _ => ⟨_, rfl⟩) (.inl rfl) (by decide),
   (solve_program_choice _ _).2.1 (by show (50 : Int) ≠ -1; decide) rfl (by show (5 : Int) ≠ 4; decide)⟩

end Blasted
