import Verif.PetscIO.UtilModel
import Verif.PetscIO.Props
import Verif.PetscIO.OptProps

/-!
# What the conversion program writes
-/

namespace Blasted

variable {K Real : Type}

/-! ### Strings -/

theorem cString_no_nul {buf : List (Option Char)} {s : List Char} (h : cString buf = .ok s) : '\x00' ∉ s := by
  induction buf generalizing s with
  | nil => simp [cString] at h
  | cons a t ih =>
    cases a with
    | none => simp [cString] at h
    | some c =>
      unfold cString at h
      by_cases hc : c = '\x00'
      · rw [if_pos hc] at h
        injection h with h
        subst h
        simp
      · rw [if_neg hc] at h
        cases ht : cString t with
        | error e => rw [ht] at h; cases h
        | ok r =>
          rw [ht, ok_bind] at h
          injection h with h
          subst h
          have := ih ht
          simp only [List.mem_cons, not_or]
          exact ⟨fun e => hc e.symm, this⟩

theorem outName_ok {name : List Char} (h0 : '\x00' ∉ name) (h : name.length ≤ 494) : outName name = .ok (name ++ ".pmat".toList) := by
  have h1 : '\x00' ∉ ".pmat".toList := by decide
  have hl : ".pmat".toList.length = 5 := by decide
  have h2 : '\x00' ∉ name ++ ".pmat".toList := by simp only [List.mem_append, not_or]; exact ⟨h0, h1⟩
  unfold outName strcpyC
  rw [if_pos (by rw [List.length_replicate]; omega), ok_bind]
  unfold strcatC
  rw [cString_term h0, ok_bind, if_pos (by simp only [List.length_append, List.length_map, List.length_cons, List.length_drop, List.length_replicate, hl]; omega), ok_bind,
    cString_term h2]

theorem outName_ub {name : List Char} (h0 : '\x00' ∉ name) (h : 495 ≤ name.length) : outName name = .error .ub := by
  have hl : ".pmat".toList.length = 5 := by decide
  unfold outName strcpyC
  by_cases hc : name.length < 500
  · rw [if_pos (by rw [List.length_replicate]; exact hc), ok_bind]
    unfold strcatC
    rw [cString_term h0, ok_bind, if_neg (by simp only [List.length_append, List.length_map, List.length_cons, List.length_drop, List.length_replicate, hl]; omega), error_bind]
  · rw [if_neg (by rw [List.length_replicate]; exact hc), error_bind]

theorem outName_suffix {name o : List Char} (h : outName name = .ok o) : ∃ s, o = s ++ ".pmat".toList := by
  have h1 : '\x00' ∉ ".pmat".toList := by decide
  unfold outName at h
  cases hb : strcpyC (List.replicate 500 none) name with
  | error e => rw [hb] at h; cases h
  | ok buf =>
    rw [hb, ok_bind] at h
    unfold strcatC at h
    cases hs : cString buf with
    | error e => rw [hs] at h; cases h
    | ok s =>
      rw [hs, ok_bind] at h
      by_cases hc : s.length + ".pmat".toList.length < buf.length
      · have h2 : '\x00' ∉ s ++ ".pmat".toList := by simp only [List.mem_append, not_or]; exact ⟨cString_no_nul hs, h1⟩
        rw [if_pos hc, ok_bind, cString_term h2] at h
        injection h with h
        exact ⟨s, h.symm⟩
      · rw [if_neg hc, error_bind] at h
        cases h

/-! ### Writing -/

theorem viewerOpen_ok {E : UtilEnv K Real} {d : Disk K} {name : List Char} (h : E.writable name = true) :
    viewerOpen E d name = (Function.update d name (some (.objects [])), 0) := by
  unfold viewerOpen
  rw [if_pos h]

theorem viewerOpen_frame (E : UtilEnv K Real) (d : Disk K) {name f : List Char} (h : f ≠ name) : (viewerOpen E d name).1 f = d f := by
  unfold viewerOpen
  split
  · exact Function.update_of_ne h _ _
  · rfl

theorem viewerWrite_frame (d : Disk K) {name f : List Char} (o : PObj K) (h : f ≠ name) : viewerWrite d name o f = d f :=
  Function.update_of_ne h _ _

theorem utilWrite_frame (E : UtilEnv K Real) (d : Disk K) (m b : List Char) (A : PMat K) (v : List K) (x : Option (List Char × List K)) {f : List Char}
    (hm : f ≠ m) (hb : f ≠ b) (hx : ∀ p, x = some p → f ≠ p.1) : (utilWrite E d m b A v x).1 f = d f := by
  unfold utilWrite
  dsimp only
  split
  · exact viewerOpen_frame E d hm
  · split
    · rw [viewerOpen_frame E _ hb, viewerOpen_frame E d hm]
    · cases x with
      | none =>
        dsimp only
        rw [viewerWrite_frame _ _ hb, viewerWrite_frame _ _ hm, viewerOpen_frame E _ hb, viewerOpen_frame E d hm]
      | some p =>
        have hp := hx p rfl
        dsimp only
        split
        · rw [viewerOpen_frame E _ hp, viewerOpen_frame E _ hb, viewerOpen_frame E d hm]
        · dsimp only
          rw [viewerWrite_frame _ _ hp, viewerWrite_frame _ _ hb, viewerWrite_frame _ _ hm, viewerOpen_frame E _ hp, viewerOpen_frame E _ hb,
            viewerOpen_frame E d hm]

/-! ### The program -/

/-- The program is run by one process with the names of two files: the first holds a square matrix of dimension `n` with the entries `es`, at least one in each row and no two at the same position,
whose dimension is a multiple of the block size when that is one of those for which blocks are used; the second holds the numbers `vs`. -/
structure UtilInput [AddCommMonoid K] (E : UtilEnv K Real) (argv : List (List Char)) (d : Disk K) (mf bf : List Char) (n : Nat) (es : List (Nat × Nat × K)) (vs : List K) : Prop where
  args : ∃ prog rest, argv = prog :: mf :: bf :: rest
  names : '\x00' ∉ mf ∧ '\x00' ∉ bf
  one : E.mpisize ≤ 1
  sorts : IsSort E.srt
  matrix : ∃ text, d mf = some (.text text) ∧ CoordinateFile E.num text n n es ∧ text.length ≤ E.fuel
  pos : 0 < n
  rows : ∀ r, 1 ≤ r → r ≤ n → ∃ e ∈ es, e.1 = r
  distinct : DistinctPositions es
  block : E.optbs = 3 ∨ E.optbs = 4 ∨ E.optbs = 7 → E.optbs ∣ n
  rhs : ∃ text k l, d bf = some (.text text) ∧ ArrayFile E.num text k l vs ∧ text.length ≤ E.fuel

/-- The PETSc matrix `A` is the matrix of dimension `n` with the entries `es`. -/
def IsFileMatrix [AddCommMonoid K] (A : PMat K) (n : Nat) (es : List (Nat × Nat × K)) : Prop :=
  A.rows = n ∧ A.cols = n ∧ ∀ i < n, ∀ j, A.entry i j = fileEntry es i j

/-- The vector of dimension `n` with the numbers `vs` at its beginning and zeros after them. -/
def padded [Zero K] (n : Nat) (vs : List K) : List K := vs ++ List.replicate (n - vs.length) 0

theorem UtilInput.prefix [AddCommMonoid K] {E : UtilEnv K Real} {argv : List (List Char)} {d : Disk K} {mf bf : List Char} {n : Nat} {es : List (Nat × Nat × K)} {vs : List K}
    (h : UtilInput E argv d mf bf n es vs) :
    ¬ argv.length < 3 ∧ rd argv 1 = .ok mf ∧ rd argv 2 = .ok bf ∧ ∃ A, IsFileMatrix A n es ∧
      readMatFromCOOFileViaSR E.checks E.mpisize E.optbs E.num E.srt E.gi E.gd E.gv E.fuel (d.textOf mf) = .ok (A, 0) := by
  obtain ⟨prog, rest, rfl⟩ := h.args
  obtain ⟨text, h1, h2, h3⟩ := h.matrix
  obtain ⟨A, a1, a2, a3, -, a4⟩ := read_mat_via_sr_correct_partial E.checks h.one h.sorts E.gi E.gd E.gv h2 h.pos h.rows h.distinct h.block h3
  refine ⟨by simp only [List.length_cons]; omega, rfl, rfl, A, ⟨a2, a3, a4⟩, ?_⟩
  have : d.textOf mf = some text := by unfold Disk.textOf; rw [h1]
  rw [this, a1]

theorem UtilInput.readRhs [AddCommMonoid K] {E : UtilEnv K Real} {argv : List (List Char)} {d : Disk K} {mf bf : List Char} {n : Nat} {es : List (Nat × Nat × K)} {vs : List K}
    (h : UtilInput E argv d mf bf n es vs) {A : PMat K} (hA : A.rows = n) (hv : vs.length ≤ n) :
    readVecFromFile E.checks E.num E.fuel (d.textOf bf) (some A) = .ok (padded n vs, 0) := by
  obtain ⟨text, k, l, h1, h2, h3⟩ := h.rhs
  have : d.textOf bf = some text := by unfold Disk.textOf; rw [h1]
  rw [this, (read_vec_like_matrix E.checks h2 h3 A).1 (by omega), hA]
  rfl

theorem out_ne {a b : List Char} (h : a ≠ b) : a ++ ".pmat".toList ≠ b ++ ".pmat".toList := fun e => h (List.append_cancel_right e)

/-- **C89** (partial: missing are names of 495 and more characters, for which it is false, see `util_long_name_overflows`) Without `-exact_soln`: the program ends with exit code 0; the file `<matrix file>.pmat` holds the matrix of the first file, `<right-hand side file>.pmat` the numbers of the second, with
zeros after them up to the dimension of the matrix, and nothing else; all other files are as before. -/
theorem util_converts_partial [AddCommMonoid K] {E : UtilEnv K Real} {argv : List (List Char)} {d : Disk K} {mf bf : List Char} {n : Nat} {es : List (Nat × Nat × K)} {vs : List K}
    (h : UtilInput E argv d mf bf n es vs) (hv : vs.length ≤ n) (hopt : E.sys.db "-exact_soln" = none) (hne : mf ≠ bf) (hlm : mf.length ≤ 494) (hlb : bf.length ≤ 494)
    (hwm : E.writable (mf ++ ".pmat".toList) = true) (hwb : E.writable (bf ++ ".pmat".toList) = true) :
    ∃ d' A, utilMain E argv d = .ok (d', 0) ∧ IsFileMatrix A n es ∧ d' (mf ++ ".pmat".toList) = some (.objects [.mat A]) ∧
      d' (bf ++ ".pmat".toList) = some (.objects [.vec (padded n vs)]) ∧
      ∀ f, f ≠ mf ++ ".pmat".toList → f ≠ bf ++ ".pmat".toList → d' f = d f := by
  obtain ⟨p1, p2, p3, A, hA, p4⟩ := h.prefix
  refine ⟨(utilWrite E d (mf ++ ".pmat".toList) (bf ++ ".pmat".toList) A (padded n vs) none).1, A, ?_, hA, ?_, ?_, ?_⟩
  · unfold utilMain
    rw [if_neg p1, p2, ok_bind, p3, ok_bind]
    have ho : optGetString E.sys "-exact_soln" (List.replicate 500 none) 500 = (0, List.replicate 500 none, false) := by
      unfold optGetString; rw [hopt]
    simp only [ho, ne_eq, not_true_eq_false, if_false, p4, ok_bind, h.readRhs hA.1 hv, Bool.false_eq_true, outName_ok h.names.1 hlm, outName_ok h.names.2 hlb]
    unfold utilWrite
    simp only [viewerOpen_ok hwm, viewerOpen_ok hwb, ne_eq, not_true_eq_false, if_false]
  · unfold utilWrite
    simp only [viewerOpen_ok hwm, viewerOpen_ok hwb, ne_eq, not_true_eq_false, if_false]
    rw [viewerWrite_frame _ _ (out_ne hne)]
    exact Function.update_self ..
  · unfold utilWrite
    simp only [viewerOpen_ok hwm, viewerOpen_ok hwb, ne_eq, not_true_eq_false, if_false]
    exact Function.update_self ..
  · intro f f1 f2
    exact utilWrite_frame E d _ _ A _ none f1 f2 (by simp)

theorem optGetString_exact {sys : PetscSys Real} {xf : List Char} (hopt : sys.db "-exact_soln" = some (some xf)) :
    optGetString sys "-exact_soln" (List.replicate 500 none) 500 =
      (0, (xf.take 499).map some ++ some '\x00' :: (List.replicate 500 none).drop (min xf.length 499 + 1), true) := by
  unfold optGetString
  rw [hopt]
  dsimp only
  rw [if_neg (by decide), List.append_assoc]
  rfl

theorem utilReadExact_ok [AddCommMonoid K] {E : UtilEnv K Real} {d : Disk K} {xf : List Char} {A : PMat K} {n : Nat} (hA : A.rows = n) (hx0 : '\x00' ∉ xf)
    {text : List Char} {k l : Nat} {us : List K} (hd : d xf = some (.text text)) (hfile : ArrayFile E.num text k l us) (hfuel : text.length ≤ E.fuel) (hu : us.length ≤ n)
    (rest : List (Option Char)) : utilReadExact E d (xf.map some ++ some '\x00' :: rest) A = .ok (xf, padded n us, 0) := by
  unfold utilReadExact
  have : d.textOf xf = some text := by unfold Disk.textOf; rw [hd]
  rw [cString_term hx0, ok_bind, this, (read_vec_like_matrix E.checks hfile hfuel A).1 (by omega), ok_bind, hA]
  rfl

/-- **C89** (partial: missing are long names, for which it is false, see `util_long_name_overflows`, `util_long_exact_name_overflows`) With `-exact_soln <file>`: in addition `<file>.pmat` holds the numbers of that file, with zeros after them. -/
theorem util_converts_exact_partial [AddCommMonoid K] {E : UtilEnv K Real} {argv : List (List Char)} {d : Disk K} {mf bf xf : List Char} {n : Nat} {es : List (Nat × Nat × K)} {vs us : List K}
    (h : UtilInput E argv d mf bf n es vs) (hv : vs.length ≤ n) (hopt : E.sys.db "-exact_soln" = some (some xf)) (hx0 : '\x00' ∉ xf)
    (hx : ∃ text k l, d xf = some (.text text) ∧ ArrayFile E.num text k l us ∧ text.length ≤ E.fuel) (hu : us.length ≤ n)
    (hne : mf ≠ bf) (hnx : mf ≠ xf) (hbx : bf ≠ xf) (hlm : mf.length ≤ 494) (hlb : bf.length ≤ 494) (hlx : xf.length ≤ 494)
    (hwm : E.writable (mf ++ ".pmat".toList) = true) (hwb : E.writable (bf ++ ".pmat".toList) = true) (hwx : E.writable (xf ++ ".pmat".toList) = true) :
    ∃ d' A, utilMain E argv d = .ok (d', 0) ∧ IsFileMatrix A n es ∧ d' (mf ++ ".pmat".toList) = some (.objects [.mat A]) ∧
      d' (bf ++ ".pmat".toList) = some (.objects [.vec (padded n vs)]) ∧ d' (xf ++ ".pmat".toList) = some (.objects [.vec (padded n us)]) ∧
      ∀ f, f ≠ mf ++ ".pmat".toList → f ≠ bf ++ ".pmat".toList → f ≠ xf ++ ".pmat".toList → d' f = d f := by
  obtain ⟨p1, p2, p3, A, hA, p4⟩ := h.prefix
  obtain ⟨text, k, l, x1, x2, x3⟩ := hx
  have ho := optGetString_exact hopt
  rw [List.take_of_length_le (by omega)] at ho
  refine ⟨(utilWrite E d (mf ++ ".pmat".toList) (bf ++ ".pmat".toList) A (padded n vs) (some (xf ++ ".pmat".toList, padded n us))).1, A, ?_, hA, ?_, ?_, ?_, ?_⟩
  · unfold utilMain
    rw [if_neg p1, p2, ok_bind, p3, ok_bind]
    simp only [ho, ne_eq, not_true_eq_false, if_false, if_true, p4, ok_bind, h.readRhs hA.1 hv, utilReadExact_ok hA.1 hx0 x1 x2 x3 hu, outName_ok h.names.1 hlm,
      outName_ok h.names.2 hlb, outName_ok hx0 hlx]
    unfold utilWrite
    simp only [viewerOpen_ok hwm, viewerOpen_ok hwb, viewerOpen_ok hwx, ne_eq, not_true_eq_false, if_false]
  · unfold utilWrite
    simp only [viewerOpen_ok hwm, viewerOpen_ok hwb, viewerOpen_ok hwx, ne_eq, not_true_eq_false, if_false]
    rw [viewerWrite_frame _ _ (out_ne hnx), viewerWrite_frame _ _ (out_ne hne)]
    exact Function.update_self ..
  · unfold utilWrite
    simp only [viewerOpen_ok hwm, viewerOpen_ok hwb, viewerOpen_ok hwx, ne_eq, not_true_eq_false, if_false]
    rw [viewerWrite_frame _ _ (out_ne hbx)]
    exact Function.update_self ..
  · unfold utilWrite
    simp only [viewerOpen_ok hwm, viewerOpen_ok hwb, viewerOpen_ok hwx, ne_eq, not_true_eq_false, if_false]
    exact Function.update_self ..
  · intro f f1 f2 f3
    exact utilWrite_frame E d _ _ A _ _ f1 f2 (by rintro p rfl'; cases rfl'; exact f3)

/-- **C89** With fewer than two file names the program ends with exit code 0 and has written nothing. -/
theorem util_too_few_arguments [Zero K] (E : UtilEnv K Real) {argv : List (List Char)} (h : argv.length < 3) (d : Disk K) : utilMain E argv d = .ok (d, 0) := by
  unfold utilMain
  rw [if_pos h]

/-- **C89** With more than one process the program ends with an exception, whatever the files hold, before it has written anything. -/
theorem util_one_process [Zero K] {E : UtilEnv K Real} {argv : List (List Char)} (h : 3 ≤ argv.length) (hmpi : 1 < E.mpisize) (d : Disk K) :
    utilMain E argv d = .error (.throw "std::runtime_error" " Currently only 1 rank is supported") := by
  unfold utilMain
  rw [if_neg (by omega), rd_eq (by omega), ok_bind, rd_eq (by omega), ok_bind]
  have : (optGetString E.sys "-exact_soln" (List.replicate 500 none) 500).1 = 0 := by
    unfold optGetString
    cases E.sys.db "-exact_soln" with
    | none => rfl
    | some o => cases o <;> rfl
  rw [if_neg (by rw [this]; simp), read_mat_via_sr_one_process E.checks hmpi, error_bind]

/-- **C89** (the code does not bound the length of the names) When the name of the matrix file or of the right-hand side file, neither of which the program limits, has 495 or more characters, the program
writes past the end of an array on its stack, although all files are as they should be. -/
theorem util_long_name_overflows [AddCommMonoid K] {E : UtilEnv K Real} {argv : List (List Char)} {d : Disk K} {mf bf : List Char} {n : Nat} {es : List (Nat × Nat × K)} {vs : List K}
    (h : UtilInput E argv d mf bf n es vs) (hv : vs.length ≤ n) (hopt : E.sys.db "-exact_soln" = none) (hl : 495 ≤ mf.length ∨ 495 ≤ bf.length) :
    utilMain E argv d = .error .ub := by
  obtain ⟨p1, p2, p3, A, hA, p4⟩ := h.prefix
  unfold utilMain
  rw [if_neg p1, p2, ok_bind, p3, ok_bind]
  have ho : optGetString E.sys "-exact_soln" (List.replicate 500 none) 500 = (0, List.replicate 500 none, false) := by
    unfold optGetString; rw [hopt]
  simp only [ho, ne_eq, not_true_eq_false, if_false, p4, ok_bind, h.readRhs hA.1 hv, Bool.false_eq_true]
  by_cases hm : 495 ≤ mf.length
  · rw [outName_ub h.names.1 hm, error_bind]
  · rw [outName_ok h.names.1 (by omega), ok_bind, outName_ub h.names.2 (by omega), error_bind]

/-- **C89** (the same for the exact solution) A name of 495 to 499 characters passes the check on its length (500, with the terminator) and overflows when `.pmat` is appended. -/
theorem util_long_exact_name_overflows [AddCommMonoid K] {E : UtilEnv K Real} {argv : List (List Char)} {d : Disk K} {mf bf xf : List Char} {n : Nat} {es : List (Nat × Nat × K)}
    {vs us : List K} (h : UtilInput E argv d mf bf n es vs) (hv : vs.length ≤ n) (hopt : E.sys.db "-exact_soln" = some (some xf)) (hx0 : '\x00' ∉ xf)
    (hx : ∃ text k l, d xf = some (.text text) ∧ ArrayFile E.num text k l us ∧ text.length ≤ E.fuel) (hu : us.length ≤ n)
    (hl : 495 ≤ xf.length) (hl2 : xf.length ≤ 499) : utilMain E argv d = .error .ub := by
  obtain ⟨p1, p2, p3, A, hA, p4⟩ := h.prefix
  obtain ⟨text, k, l, x1, x2, x3⟩ := hx
  have ho := optGetString_exact hopt
  rw [List.take_of_length_le (by omega)] at ho
  unfold utilMain
  rw [if_neg p1, p2, ok_bind, p3, ok_bind]
  simp only [ho, ne_eq, not_true_eq_false, if_false, if_true, p4, ok_bind, h.readRhs hA.1 hv, utilReadExact_ok hA.1 hx0 x1 x2 x3 hu]
  by_cases hm : 495 ≤ mf.length
  · rw [outName_ub h.names.1 hm, error_bind]
  · rw [outName_ok h.names.1 (by omega), ok_bind]
    by_cases hb : 495 ≤ bf.length
    · rw [outName_ub h.names.2 hb, error_bind]
    · rw [outName_ok h.names.2 (by omega), ok_bind, outName_ub hx0 hl, error_bind]

/-- **C89** A longer name of the exact solution is cut off without a message: the program reads the file that has the first 499 characters as its name; when there is none, the program is aborted. -/
theorem util_exact_name_cut_off [AddCommMonoid K] {E : UtilEnv K Real} {argv : List (List Char)} {d : Disk K} {mf bf xf : List Char} {n : Nat} {es : List (Nat × Nat × K)} {vs : List K}
    (h : UtilInput E argv d mf bf n es vs) (hv : vs.length ≤ n) (hopt : E.sys.db "-exact_soln" = some (some xf)) (hx0 : '\x00' ∉ xf)
    (hd : d (xf.take 499) = none) : utilMain E argv d = .error .abort := by
  obtain ⟨p1, p2, p3, A, hA, p4⟩ := h.prefix
  have ho := optGetString_exact hopt
  have h0 : '\x00' ∉ xf.take 499 := fun h => hx0 (List.mem_of_mem_take h)
  unfold utilMain
  rw [if_neg p1, p2, ok_bind, p3, ok_bind]
  simp only [ho, ne_eq, not_true_eq_false, if_false, if_true, p4, ok_bind, h.readRhs hA.1 hv]
  unfold utilReadExact
  have : d.textOf (xf.take 499) = none := by unfold Disk.textOf; rw [hd]
  rw [cString_term h0, ok_bind, this]
  rfl

/-- **C89** When the right-hand side has more numbers than the matrix has rows, and PETSc checks indices, the program ends with PETSc's error code and has written nothing. -/
theorem util_rhs_too_long [AddCommMonoid K] {E : UtilEnv K Real} {argv : List (List Char)} {d : Disk K} {mf bf : List Char} {n : Nat} {es : List (Nat × Nat × K)} {vs : List K}
    (h : UtilInput E argv d mf bf n es vs) (hv : n < vs.length) (hc : E.checks = true) : utilMain E argv d = .ok (d, petscErrRange) := by
  obtain ⟨p1, p2, p3, A, hA, p4⟩ := h.prefix
  obtain ⟨text, k, l, h1, h2, h3⟩ := h.rhs
  have ht : d.textOf bf = some text := by unfold Disk.textOf; rw [h1]
  obtain ⟨w, hw⟩ := (read_vec_like_matrix E.checks h2 h3 A).2 (by rw [hA.1]; exact hv)
  unfold utilMain
  rw [if_neg p1, p2, ok_bind, p3, ok_bind]
  have : (optGetString E.sys "-exact_soln" (List.replicate 500 none) 500).1 = 0 := by
    unfold optGetString
    cases E.sys.db "-exact_soln" with
    | none => rfl
    | some o => cases o <;> rfl
  rw [if_neg (by rw [this]; simp), p4, ok_bind]
  dsimp only
  rw [if_neg (by simp), ht, hc, hw, ok_bind, if_pos (by show petscErrRange ≠ 0; decide)]

/-- **C89** When the output file of the right-hand side cannot be written, the program ends with PETSc's error code, and the output file of the matrix is then empty, whatever it held before. -/
theorem util_rhs_not_writable [AddCommMonoid K] {E : UtilEnv K Real} {argv : List (List Char)} {d : Disk K} {mf bf : List Char} {n : Nat} {es : List (Nat × Nat × K)} {vs : List K}
    (h : UtilInput E argv d mf bf n es vs) (hv : vs.length ≤ n) (hopt : E.sys.db "-exact_soln" = none) (hlm : mf.length ≤ 494) (hlb : bf.length ≤ 494)
    (hwm : E.writable (mf ++ ".pmat".toList) = true) (hwb : E.writable (bf ++ ".pmat".toList) = false) :
    ∃ d', utilMain E argv d = .ok (d', petscErrOpen) ∧ d' (mf ++ ".pmat".toList) = some (.objects []) ∧ ∀ f, f ≠ mf ++ ".pmat".toList → d' f = d f := by
  obtain ⟨p1, p2, p3, A, hA, p4⟩ := h.prefix
  refine ⟨Function.update d (mf ++ ".pmat".toList) (some (.objects [])), ?_, Function.update_self .., fun f hf => Function.update_of_ne hf _ _⟩
  unfold utilMain
  rw [if_neg p1, p2, ok_bind, p3, ok_bind]
  have ho : optGetString E.sys "-exact_soln" (List.replicate 500 none) 500 = (0, List.replicate 500 none, false) := by
    unfold optGetString; rw [hopt]
  simp only [ho, ne_eq, not_true_eq_false, if_false, p4, ok_bind, h.readRhs hA.1 hv, Bool.false_eq_true, outName_ok h.names.1 hlm, outName_ok h.names.2 hlb]
  unfold utilWrite
  have hb : ∀ d : Disk K, viewerOpen E d (bf ++ ".pmat".toList) = (d, petscErrOpen) := fun d => by unfold viewerOpen; rw [hwb]; rfl
  simp only [viewerOpen_ok hwm, hb, ne_eq, not_true_eq_false, if_false]
  rw [if_pos (by decide)]

/-- **C89** Whatever the arguments, the options and the files: a run that ends, with any exit code, has changed no file whose name does not end in `.pmat`. -/
theorem util_changes_only_pmat [Zero K] (E : UtilEnv K Real) (argv : List (List Char)) (d : Disk K) {d' : Disk K} {c : Int} (h : utilMain E argv d = .ok (d', c))
    {f : List Char} (hf : ¬ ∃ s, f = s ++ ".pmat".toList) : d' f = d f := by
  have key : ∀ {name o : List Char}, outName name = .ok o → f ≠ o := fun {_ o} h e => hf (by obtain ⟨s, hs⟩ := outName_suffix h; exact ⟨s, e.trans hs⟩)
  have fin : ∀ {r : Disk K × Int}, (Except.ok r : Except Fail (Disk K × Int)) = .ok (d', c) → r.1 f = d f → d' f = d f := fun e h => by
    injection e with e; rw [e] at h; exact h
  unfold utilMain at h
  split at h
  · exact fin h rfl
  · cases h1 : rd argv 1 with
    | error e => rw [h1] at h; cases h
    | ok mf =>
    rw [h1, ok_bind] at h
    cases h2 : rd argv 2 with
    | error e => rw [h2] at h; cases h
    | ok bf =>
    rw [h2, ok_bind] at h
    dsimp only at h
    split at h
    · exact fin h rfl
    · cases h3 : readMatFromCOOFileViaSR E.checks E.mpisize E.optbs E.num E.srt E.gi E.gd E.gv E.fuel (d.textOf mf) with
      | error e => rw [h3] at h; cases h
      | ok A =>
      rw [h3, ok_bind] at h
      split at h
      · exact fin h rfl
      · cases h4 : readVecFromFile E.checks E.num E.fuel (d.textOf bf) (some A.1) with
        | error e => rw [h4] at h; cases h
        | ok b =>
        rw [h4, ok_bind] at h
        split at h
        · exact fin h rfl
        · split at h
          · cases h5 : utilReadExact E d (optGetString E.sys "-exact_soln" (List.replicate 500 none) 500).2.1 A.1 with
            | error e => rw [h5] at h; cases h
            | ok x =>
            rw [h5, ok_bind] at h
            split at h
            · exact fin h rfl
            · cases h6 : outName mf with
              | error e => rw [h6] at h; cases h
              | ok om =>
              rw [h6, ok_bind] at h
              cases h7 : outName bf with
              | error e => rw [h7] at h; cases h
              | ok ob =>
              rw [h7, ok_bind] at h
              cases h8 : outName x.1 with
              | error e => rw [h8] at h; cases h
              | ok ox =>
              rw [h8, ok_bind] at h
              exact fin h (utilWrite_frame E d _ _ _ _ _ (key h6) (key h7) (by intro p hp; cases hp; exact key h8))
          · cases h6 : outName mf with
            | error e => rw [h6] at h; cases h
            | ok om =>
            rw [h6, ok_bind] at h
            cases h7 : outName bf with
            | error e => rw [h7] at h; cases h
            | ok ob =>
            rw [h7, ok_bind] at h
            exact fin h (utilWrite_frame E d _ _ _ _ _ (key h6) (key h7) (by simp))

/-! ### Examples -/

/-- Two numbers. -/
def exVec2 : List Char := "%%MatrixMarket matrix array real general\n2 1\n5\n7\n".toList

theorem exVec2_ok : ArrayFile exNum exVec2 2 1 [5, 7] where
  parts := ⟨"real", "5\n7\n".toList, .inl rfl,
    ⟨"%%MatrixMarket matrix array real general".toList, [], "2 1".toList, [['2'], ['1']], by decide +kernel,
      by decide, .of_tokens (by decide +kernel), by decide, by decide, by decide, .of_tokens (by decide +kernel),
      .cons (.one 2) (.cons (.one 1) .nil)⟩,
    [['5'], ['7']], .of_tokens (by decide +kernel), .cons (by decide +kernel) (.cons (by decide +kernel) .nil)⟩
  length := rfl
  nrows_le := by decide
  ncols_le := by decide
  size_le := by decide

/-- An options database that holds `-exact_soln` with the value `x`, if there is one. -/
def exUtilSys (x : Option (List Char)) : PetscSys Int := { exSys with db := fun name => if name = "-exact_soln" then x.map some else none }

/-- One process, PETSc with checks, and all files but `ro` can be written. -/
def exUtilEnv (x : Option (List Char)) (ro : List Char) : UtilEnv ℚ Int :=
  ⟨exUtilSys x, 1, 3, true, fun f => decide (f ≠ ro), exNum, exSort, fun _ => 9, fun _ => 9, fun _ => 9, 200⟩

/-- A disk with a matrix in the file `mf`, the vector `b` in the file `bf` and a vector in the file `xf`. -/
def exDisk (mf bf xf b : List Char) : Disk ℚ := fun f =>
  if f = mf then some (.text exFile) else if f = bf then some (.text b) else if f = xf then some (.text exVec2) else none

theorem exUtilInput (x : Option (List Char)) (ro mf bf xf : List Char) (hne : bf ≠ mf) (h0 : '\x00' ∉ mf) (h1 : '\x00' ∉ bf) {b : List Char} {k l : Nat} {vs : List ℚ}
    (hb : ArrayFile exNum b k l vs) (hl : b.length ≤ 200) :
    UtilInput (exUtilEnv x ro) [['p'], mf, bf] (exDisk mf bf xf b) mf bf 3 [(3, 3, 4), (1, 3, 1), (2, 1, 2), (1, 1, 5), (3, 2, 3)] vs where
  args := ⟨['p'], [], rfl⟩
  names := ⟨h0, h1⟩
  one := Nat.le_refl 1
  sorts := exSort_isSort
  matrix := ⟨exFile, if_pos rfl, exFile_ok, by show exFile.length ≤ 200; decide⟩
  pos := by decide
  rows := by
    intro r h1 h2
    have : r = 1 ∨ r = 2 ∨ r = 3 := by omega
    rcases this with rfl | rfl | rfl
    · exact ⟨(1, 3, 1), by simp, rfl⟩
    · exact ⟨(2, 1, 2), by simp, rfl⟩
    · exact ⟨(3, 3, 4), by simp, rfl⟩
  distinct := by unfold DistinctPositions; decide
  block := fun _ => by show 3 ∣ 3; decide
  rhs := ⟨b, k, l, by unfold exDisk; rw [if_neg hne, if_pos rfl], hb, hl⟩

/-- Non-vacuity of `util_converts_partial`: a matrix of dimension 3 in blocks of 3 and a right-hand side of which the file gives two numbers. -/
example : ∃ d' A, utilMain (exUtilEnv none []) [['p'], ['m'], ['b']] (exDisk ['m'] ['b'] ['x'] exVec2) = .ok (d', 0) ∧ A.entry 0 2 = (1 : ℚ) ∧
    d' "m.pmat".toList = some (.objects [.mat A]) ∧ d' "b.pmat".toList = some (.objects [.vec [5, 7, 0]]) ∧ d' "m".toList = some (.text exFile) := by
  obtain ⟨d', A, h1, h2, h3, h4, h5⟩ := util_converts_partial (exUtilInput none [] ['m'] ['b'] ['x'] (by decide) (by decide) (by decide) exVec2_ok (by decide)) (by decide) rfl (by decide)
    (by decide) (by decide) (by decide) (by decide)
  refine ⟨d', A, h1, ?_, h3, h4, (h5 _ (by decide) (by decide)).trans rfl⟩
  rw [h2.2.2 0 (by decide) 2]
  decide +kernel

/-- Non-vacuity of `util_converts_exact_partial`. -/
example : ∃ d', utilMain (exUtilEnv (some ['x']) []) [['p'], ['m'], ['b']] (exDisk ['m'] ['b'] ['x'] exVec2) = .ok (d', 0) ∧
    d' "x.pmat".toList = some (.objects [.vec [5, 7, 0]]) := by
  obtain ⟨d', A, h1, -, -, -, h3, -⟩ := util_converts_exact_partial (exUtilInput (some ['x']) [] ['m'] ['b'] ['x'] (by decide) (by decide) (by decide) exVec2_ok (by decide)) (by decide) rfl
    (by decide) ⟨exVec2, 2, 1, rfl, exVec2_ok, by decide⟩ (by decide) (by decide) (by decide) (by decide) (by decide) (by decide) (by decide) (by decide) (by decide) (by decide)
  exact ⟨d', h1, h3⟩

theorem no_nul_replicate (k : Nat) : '\x00' ∉ List.replicate k 'a' := fun h => absurd (List.eq_of_mem_replicate h) (by decide)

/-- Non-vacuity of `util_long_name_overflows`, `util_long_exact_name_overflows` and `util_exact_name_cut_off`: names of 495, 499 and 501 letters. -/
example : utilMain (exUtilEnv none []) [['p'], List.replicate 495 'a', ['b']] (exDisk (List.replicate 495 'a') ['b'] ['x'] exVec2) = .error .ub ∧
    utilMain (exUtilEnv (some (List.replicate 499 'a')) []) [['p'], ['m'], ['b']] (exDisk ['m'] ['b'] (List.replicate 499 'a') exVec2) = .error .ub ∧
    utilMain (exUtilEnv (some (List.replicate 501 'a')) []) [['p'], ['m'], ['b']] (exDisk ['m'] ['b'] (List.replicate 501 'a') exVec2) = .error .abort := by
  have ne : ∀ k l : Nat, k ≠ l → List.replicate k 'a' ≠ List.replicate l 'a' := fun k l h e => h (by have := congrArg List.length e; rwa [List.length_replicate, List.length_replicate] at this)
  have ne1 : ∀ (k : Nat) (c : Char), k ≠ 1 → List.replicate k 'a' ≠ [c] := fun k c h e => h (by have := congrArg List.length e; rwa [List.length_replicate] at this)
  refine ⟨?_, ?_, ?_⟩
  · exact util_long_name_overflows (exUtilInput none [] (List.replicate 495 'a') ['b'] ['x'] (ne1 _ _ (by decide)).symm (no_nul_replicate _) (by decide) exVec2_ok (by decide)) (by decide) rfl
      (.inl (by rw [List.length_replicate]))
  · refine util_long_exact_name_overflows (exUtilInput _ [] ['m'] ['b'] (List.replicate 499 'a') (by decide) (by decide) (by decide) exVec2_ok (by decide)) (by decide) rfl
      (no_nul_replicate _) ⟨exVec2, 2, 1, ?_, exVec2_ok, by decide⟩ (by decide) (by rw [List.length_replicate]; decide) (by rw [List.length_replicate])
    unfold exDisk
    rw [if_neg (ne1 _ _ (by decide)), if_neg (ne1 _ _ (by decide)), if_pos rfl]
  · refine util_exact_name_cut_off (exUtilInput _ [] ['m'] ['b'] (List.replicate 501 'a') (by decide) (by decide) (by decide) exVec2_ok (by decide)) (by decide) rfl
      (no_nul_replicate _) ?_
    rw [List.take_replicate]
    unfold exDisk
    rw [if_neg (ne1 _ _ (by decide)), if_neg (ne1 _ _ (by decide)), if_neg (ne _ _ (by decide))]

/-- Non-vacuity of `util_rhs_too_long` (four numbers for three rows), `util_rhs_not_writable` and `util_one_process`. -/
example : utilMain (exUtilEnv none []) [['p'], ['m'], ['b']] (exDisk ['m'] ['b'] ['x'] "%%MatrixMarket matrix array integer general\n%\n2 2\n1 2\n3\n4".toList) =
      .ok (exDisk ['m'] ['b'] ['x'] "%%MatrixMarket matrix array integer general\n%\n2 2\n1 2\n3\n4".toList, 63) ∧
    (∃ d', utilMain (exUtilEnv none "b.pmat".toList) [['p'], ['m'], ['b']] (exDisk ['m'] ['b'] ['x'] exVec2) = .ok (d', 65) ∧ d' "m.pmat".toList = some (.objects [])) ∧
    utilMain { exUtilEnv none [] with mpisize := 2 } [['p'], ['m'], ['b']] (exDisk ['m'] ['b'] ['x'] exVec2) =
      .error (.throw "std::runtime_error" " Currently only 1 rank is supported") := by
  refine ⟨?_, ?_, ?_⟩
  · exact util_rhs_too_long (exUtilInput none [] ['m'] ['b'] ['x'] (by decide) (by decide) (by decide) exDense_ok (by decide)) (by decide) rfl
  · obtain ⟨d', h1, h2, -⟩ := util_rhs_not_writable (exUtilInput none "b.pmat".toList ['m'] ['b'] ['x'] (by decide) (by decide) (by decide) exVec2_ok (by decide)) (by decide) rfl
      (by decide) (by decide) (by decide) (by decide)
    exact ⟨d', h1, h2⟩
  · exact util_one_process (by decide) (by decide) _

end Blasted
