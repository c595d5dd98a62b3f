import Verif.PetscTest.SystemModel
import Verif.PetscTest.SingleProps

/-!
# C110: which linear systems and runs the comparison program accepts
-/

namespace Blasted

section
variable {K : Type} [Field K] [LinearOrder K]

/-! ### Specification -/

/-- Each row has an entry on the diagonal. -/
def HasDiagonal (A : List (List (Nat × K))) : Prop := ∀ (i : Nat) row, A[i]? = some row → ∃ a, (i, a) ∈ row

/-- `r` is `A x - b`, for vectors of the right sizes. -/
def IsResidual (A : List (List (Nat × K))) (x b r : List K) : Prop :=
  x.length = A.length ∧ b.length = A.length ∧ r.length = A.length ∧ ∀ (i : Nat) row, A[i]? = some row → r⟦i⟧ = (row.map fun e => e.2 * x⟦e.1⟧).sum - b⟦i⟧

/-- The contents of the files are a system that passes the checks. -/
structure GoodSystem (eps : K) (nrm : List K → K) (loadMat : List Char → Except Int (List (List (Nat × K)))) (loadVec : List Char → Except Int (List K)) (m f : List Char) (g : Option (List Char))
    (test : Bool) (A : List (List (Nat × K))) (b : List K) (x : Option (List K)) : Prop where
  mat : loadMat m = .ok A
  rhs : loadVec f = .ok b
  nosol : g = none → x = none
  sol : ∀ h, g = some h → ∃ v, x = some v ∧ loadVec h = .ok v
  diag : HasDiagonal A
  mult : test = true → ∀ v, x = some v → ∃ r, IsResidual A v b r ∧ nrm r < 500 * eps

/-! ### Lemmas -/

omit [Field K] [LinearOrder K] in
theorem missingDiagonal_none {A : List (List (Nat × K))} : missingDiagonal A = none ↔ HasDiagonal A := by
  unfold missingDiagonal HasDiagonal
  rw [List.find?_eq_none]
  constructor
  · intro h i row hi
    have hlt : i < A.length := by
      by_contra hcon
      rw [List.getElem?_eq_none (by omega)] at hi
      cases hi
    have := h i (List.mem_range.mpr hlt)
    rw [List.getD_eq_getElem?_getD, hi] at this
    simp only [Option.getD_some, Bool.not_eq_true', Bool.not_eq_false, List.any_eq_true, decide_eq_true_eq] at this
    obtain ⟨e, he, rfl⟩ := this
    exact ⟨e.2, he⟩
  · intro h i hi
    have hlt := List.mem_range.mp hi
    obtain ⟨a, ha⟩ := h i A[i] (List.getElem?_eq_getElem hlt)
    rw [List.getD_eq_getElem?_getD, List.getElem?_eq_getElem hlt]
    simp only [Option.getD_some, Bool.not_eq_true', Bool.not_eq_false, List.any_eq_true, decide_eq_true_eq]
    exact ⟨(i, a), ha, rfl⟩

omit [LinearOrder K] in
theorem isResidual_iff {A : List (List (Nat × K))} {x b r : List K} :
    IsResidual A x b r ↔ x.length = A.length ∧ b.length = A.length ∧ r = (List.range A.length).map (residualEntry A x b) := by
  have hent : ∀ (i : Nat) row, A[i]? = some row → residualEntry A x b i = (row.map fun e => e.2 * x⟦e.1⟧).sum - b⟦i⟧ := by
    intro i row h
    unfold residualEntry
    rw [List.getD_eq_getElem?_getD, h, Option.getD_some]
    ring
  unfold IsResidual
  constructor
  · rintro ⟨h1, h2, h3, h4⟩
    refine ⟨h1, h2, List.ext_getElem (by simp [h3]) fun i g1 g2 => ?_⟩
    have hlt : i < A.length := by omega
    have := h4 i A[i] (List.getElem?_eq_getElem hlt)
    rw [get0_eq_getElem (a := r) g1] at this
    rw [this, List.getElem_map, List.getElem_range, hent i A[i] (List.getElem?_eq_getElem hlt)]
  · rintro ⟨h1, h2, rfl⟩
    refine ⟨h1, h2, by simp, fun i row h => ?_⟩
    have hlt : i < A.length := by
      by_contra hcon
      rw [List.getElem?_eq_none (by omega)] at h
      cases h
    rw [get0_eq_getElem (a := (List.range A.length).map (residualEntry A x b)) (by simpa using hlt), List.getElem_map, List.getElem_range, hent i row h]

theorem excBind_ok_iff {α β : Type} {m : Except Int α} {f : α → Except Int β} {b : β} : (m >>= f) = .ok b ↔ ∃ a, m = .ok a ∧ f a = .ok b := by
  cases m with
  | error e => exact ⟨fun h => (by cases h), fun ⟨a, h, _⟩ => (by cases h)⟩
  | ok a => exact ⟨fun h => ⟨a, rfl, h⟩, fun ⟨a', h, h'⟩ => by cases h; exact h'⟩

/-! ### Theorems -/

/-- **C110** A linear system is accepted exactly if its files can be loaded, each row has a diagonal entry, and, if the product is to be checked and a file with the solution is named, the sizes agree
and the norm of `A x - b` is less than 500 times the unit of rounding; what is returned are the contents of the files. -/
theorem read_system_iff {eps : K} {nrm : List K → K} {loadMat : List Char → Except Int (List (List (Nat × K)))} {loadVec : List Char → Except Int (List K)} {m f : List Char} {g : Option (List Char)}
    {test : Bool} {A : List (List (Nat × K))} {b : List K} {x : Option (List K)} :
    readLinearSystem eps nrm loadMat loadVec m f g test = .ok (A, b, x) ↔ GoodSystem eps nrm loadMat loadVec m f g test A b x := by
  have hload : ∀ x' : Option (List K), (match g with | none => (.ok none : Except Int (Option (List K))) | some h => (loadVec h).map some) = .ok x' ↔
      (g = none → x' = none) ∧ ∀ h, g = some h → ∃ v, x' = some v ∧ loadVec h = .ok v := by
    intro x'
    cases g with
    | none => simp [eq_comm]
    | some h =>
      cases hl : loadVec h with
      | error e => simp [Except.map, hl]
      | ok v => simp [Except.map, hl, eq_comm]
  have hcheck : ∀ A' b' x', (match missingDiagonal A' with
      | some _ => (.error loadErrLib : Except Int (List (List (Nat × K)) × List K × Option (List K)))
      | none => match test, x' with
        | true, some v =>
          if v.length ≠ A'.length ∨ b'.length ≠ A'.length then .error loadErrArgSiz
          else if nrm ((List.range A'.length).map (residualEntry A' v b')) < 500 * eps then .ok (A', b', x')
          else .error (-1)
        | _, _ => .ok (A', b', x')) = .ok (A, b, x) ↔
      (A' = A ∧ b' = b ∧ x' = x) ∧ HasDiagonal A' ∧ (test = true → ∀ v, x' = some v → ∃ r, IsResidual A' v b' r ∧ nrm r < 500 * eps) := by
    intro A' b' x'
    rw [← missingDiagonal_none]
    cases hm : missingDiagonal A' with
    | some k => simp
    | none =>
      cases test with
      | false => simp
      | true =>
        cases x' with
        | none => simp
        | some v =>
          dsimp only
          by_cases hs : v.length ≠ A'.length ∨ b'.length ≠ A'.length
          · rw [if_pos hs]
            refine ⟨fun h => (by cases h), fun ⟨_, _, h⟩ => ?_⟩
            obtain ⟨r, h1, _⟩ := h rfl v rfl
            rw [isResidual_iff] at h1
            exact absurd hs (by simp [h1.1, h1.2.1])
          · rw [if_neg hs]
            simp only [not_or, not_not] at hs
            by_cases hn : nrm ((List.range A'.length).map (residualEntry A' v b')) < 500 * eps
            · rw [if_pos hn]
              simp only [Except.ok.injEq, Prod.mk.injEq]
              exact ⟨fun h => ⟨h, trivial, fun _ w hw => ⟨_, isResidual_iff.mpr ⟨by cases hw; exact hs.1, hs.2, rfl⟩, by cases hw; exact hn⟩⟩, fun h => h.1⟩
            · rw [if_neg hn]
              refine ⟨fun h => (by cases h), fun ⟨_, _, h⟩ => ?_⟩
              obtain ⟨r, h1, h2⟩ := h rfl v rfl
              rw [isResidual_iff] at h1
              rw [h1.2.2] at h2
              exact absurd h2 hn
  unfold readLinearSystem
  rw [excBind_ok_iff]
  simp only [excBind_ok_iff]
  constructor
  · rintro ⟨A', h1, b', h2, x', h3, h4⟩
    obtain ⟨⟨rfl, rfl, rfl⟩, h5, h6⟩ := (hcheck _ _ _).mp h4
    obtain ⟨h7, h8⟩ := (hload _).mp h3
    exact ⟨h1, h2, h7, h8, h5, h6⟩
  · rintro ⟨h1, h2, h3, h4, h5, h6⟩
    exact ⟨A, h1, b, h2, x, (hload _).mpr ⟨h3, h4⟩, (hcheck _ _ _).mpr ⟨⟨rfl, rfl, rfl⟩, h5, h6⟩⟩

/-- **C110** With all three files the comparison program succeeds exactly if the system passes the checks and the comparison that is asked for, in C++ for a fourth argument `c++` and in C otherwise,
succeeds. -/
theorem petsc_test_iff {eps : K} {nrm : List K → K} {loadMat : List Char → Except Int (List (List (Nat × K)))} {loadVec : List Char → Except Int (List K)}
    {cmpC cmpCpp : List (List (Nat × K)) × List K × Option (List K) → C Int} {prog m f g : List Char} {rest : List (List Char)} (hmat : ∀ w, loadMat w ≠ .error 0) (hvec : ∀ w, loadVec w ≠ .error 0) :
    petscTestProgram eps nrm loadMat loadVec cmpC cmpCpp 0 0 (prog :: m :: f :: g :: rest) = .ok 0 ↔
      ∃ A b x, GoodSystem eps nrm loadMat loadVec m f (some g) true A b x ∧ (if rest[0]? = some "c++".toList then cmpCpp else cmpC) (A, b, x) = .ok 0 := by
  have hlang : (if 5 ≤ (prog :: m :: f :: g :: rest).length then rd (prog :: m :: f :: g :: rest) 4 else .ok "c".toList) = .ok (rest.getD 0 "c".toList) := by
    cases rest with
    | nil => rfl
    | cons w ws => rfl
  have hcpp : (rest.getD 0 "c".toList = "c++".toList) = (rest[0]? = some "c++".toList) := by
    cases rest with
    | nil => exact propext ⟨fun h => absurd h (by decide), fun h => by cases h⟩
    | cons w ws => simp only [List.getD_cons_zero, List.getElem?_cons_zero, Option.some.injEq]
  have herr : readLinearSystem eps nrm loadMat loadVec m f (some g) true ≠ .error 0 := by
    unfold readLinearSystem
    cases h1 : loadMat m with
    | error e => exact fun h => hmat m (by rw [h1]; exact congrArg _ (Except.error.inj h))
    | ok A =>
      cases h2 : loadVec f with
      | error e => exact fun h => hvec f (by rw [h2]; exact congrArg _ (Except.error.inj h))
      | ok b =>
        cases h3 : loadVec g with
        | error e =>
          intro h
          simp only [Except.map, h3, bind, Except.bind, Except.error.injEq] at h
          exact hvec g (by rw [h3, h])
        | ok v =>
          intro h
          simp only [Except.map, h3, bind, Except.bind] at h
          split at h
          · cases h
          · split_ifs at h <;> cases h
  unfold petscTestProgram
  rw [if_neg (by simp), show rd (prog :: m :: f :: g :: rest) 1 = .ok m from rfl, ok_bind, show rd (prog :: m :: f :: g :: rest) 2 = .ok f from rfl, ok_bind,
    show rd (prog :: m :: f :: g :: rest) 3 = .ok g from rfl, ok_bind, hlang, ok_bind]
  cases hr : readLinearSystem eps nrm loadMat loadVec m f (some g) true with
  | error e =>
    refine ⟨fun h => absurd (by rw [hr, Except.ok.inj h]) herr, fun ⟨A, b, x, h, _⟩ => ?_⟩
    rw [read_system_iff.mpr h] at hr
    cases hr
  | ok lp =>
    obtain ⟨A, b, x⟩ := lp
    dsimp only
    simp only [hcpp]
    have hone : (∃ A' b' x', GoodSystem eps nrm loadMat loadVec m f (some g) true A' b' x' ∧ (if rest[0]? = some "c++".toList then cmpCpp else cmpC) (A', b', x') = .ok 0) ↔
        (if rest[0]? = some "c++".toList then cmpCpp else cmpC) (A, b, x) = .ok 0 := by
      constructor
      · rintro ⟨A', b', x', h1, h2⟩
        rw [read_system_iff.mpr h1] at hr
        cases hr
        exact h2
      · exact fun h => ⟨A, b, x, read_system_iff.mp hr, h⟩
    rw [hone]
    have hsel : (if rest[0]? = some "c++".toList then cmpCpp (A, b, x) else cmpC (A, b, x)) = (if rest[0]? = some "c++".toList then cmpCpp else cmpC) (A, b, x) := by
      by_cases h : rest[0]? = some "c++".toList
      · rw [if_pos h, if_pos h]
      · rw [if_neg h, if_neg h]
    rw [hsel]
    cases (if rest[0]? = some "c++".toList then cmpCpp else cmpC) (A, b, x) with
    | error e => exact ⟨fun h => (by cases h), fun h => by cases h⟩
    | ok c =>
      rw [ok_bind]
      by_cases hc : c = 0
      · subst hc
        exact ⟨fun _ => rfl, fun _ => rfl⟩
      · rw [if_pos hc]

/-- **C110** An error code of the clean-up is the exit status after a successful comparison. -/
theorem petsc_test_cleanup {eps : K} {nrm : List K → K} {loadMat : List Char → Except Int (List (List (Nat × K)))} {loadVec : List Char → Except Int (List K)}
    {cmpC cmpCpp : List (List (Nat × K)) × List K × Option (List K) → C Int} {prog m f g : List Char} {A : List (List (Nat × K))} {b : List K} {x : Option (List K)} {d e : Int}
    (h : GoodSystem eps nrm loadMat loadVec m f (some g) true A b x) (hc : cmpC (A, b, x) = .ok 0) :
    petscTestProgram eps nrm loadMat loadVec cmpC cmpCpp d e [prog, m, f, g] = .ok (if d ≠ 0 then d else e) := by
  unfold petscTestProgram
  rw [if_neg (by simp), show rd [prog, m, f, g] 1 = .ok m from rfl, ok_bind, show rd [prog, m, f, g] 2 = .ok f from rfl, ok_bind,
    show rd [prog, m, f, g] 3 = .ok g from rfl, ok_bind, if_neg (by simp), ok_bind, read_system_iff.mpr h]
  dsimp only
  rw [if_neg (by decide), hc, ok_bind]
  by_cases hd : d ≠ 0
  · rw [if_neg (by simp), if_pos hd, if_pos hd]
  · rw [if_neg (by simp), if_neg hd, if_neg hd]

/-- **C110**, negative: if file names are missing, the program prints a message and its exit status is that of a success, whatever the comparison would say. -/
theorem petsc_test_missing_files {eps : K} {nrm : List K → K} {loadMat : List Char → Except Int (List (List (Nat × K)))} {loadVec : List Char → Except Int (List K)}
    {cmpC cmpCpp : List (List (Nat × K)) × List K × Option (List K) → C Int} {d e : Int} {argv : List (List Char)} (h : argv.length ≤ 3) :
    petscTestProgram eps nrm loadMat loadVec cmpC cmpCpp d e argv = .ok 0 := by
  unfold petscTestProgram
  rw [if_pos (by omega)]

end

/-! ### Examples -/

/-- The matrix with rows (2, 1) and (0, 3). -/
def exSystemMat : List (List (Nat × ℚ)) := [[(0, 2), (1, 1)], [(1, 3)]]

/-- Files: the matrix is in `A`, the right-hand side in `b`, the solution in `x`. -/
def exSystemVec (w : List Char) : Except Int (List ℚ) := if w = ['b'] then .ok [3, 3] else if w = ['x'] then .ok [1, 1] else .error 65

/-- The sum of the absolute values. -/
def exSystemNorm (l : List ℚ) : ℚ := (l.map fun v => |v|).sum

example : readLinearSystem 1 exSystemNorm (fun _ => .ok exSystemMat) exSystemVec ['A'] ['b'] (some ['x']) true = .ok (exSystemMat, [3, 3], some [1, 1]) := by decide +kernel

example : petscTestProgram 1 exSystemNorm (fun _ => .ok exSystemMat) exSystemVec (fun _ => .ok 0) (fun _ => .ok 5) 0 0 [['p'], ['A'], ['b'], ['x']] = .ok 0 ∧
    petscTestProgram 1 exSystemNorm (fun _ => .ok exSystemMat) exSystemVec (fun _ => .ok 0) (fun _ => .ok 5) 0 0 [['p'], ['A'], ['b'], ['x'], "c++".toList] = .ok 5 ∧
    petscTestProgram 1 exSystemNorm (fun _ => .ok exSystemMat) exSystemVec (fun _ => .ok 0) (fun _ => .ok 5) 0 0 [['p'], ['A'], ['b'], ['y']] = .ok 65 := by decide +kernel

end Blasted
