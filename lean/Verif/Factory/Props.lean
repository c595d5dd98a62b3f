import Verif.Factory.Model
import Mathlib.Tactic.Tauto

/-!
# C44, C58: selection of solvers by the factory
-/

namespace Blasted

/-! ## Specification -/

/-- The documented names (README, `include/solverfactory.hpp`) and the methods they stand for. -/
def documentedNames : List (String × SolverType) :=
  [("none", .noPrec), ("jacobi", .jacobi), ("gs", .gs), ("sgs", .sgs), ("ilu0", .ilu0), ("seqilu0", .seqilu0), ("sfilu0", .sfilu0),
   ("sapilu0", .sapilu0), ("cscbgs", .cscBgs), ("level_sgs", .levelSgs), ("async_level_ilu0", .asyncLevelIlu0)]

/-- The methods, whatever the block size and the threading. -/
inductive Method where
  | identity | jacobi | chaoticGS | columnGS | sgs | levelSgs | ilu | levelIlu
deriving Repr, DecidableEq

/-- The method a type stands for. -/
def SolverType.method : SolverType → Option Method
  | .noPrec => some .identity
  | .jacobi => some .jacobi
  | .gs => some .chaoticGS
  | .cscBgs => some .columnGS
  | .sgs => some .sgs
  | .levelSgs => some .levelSgs
  | .ilu0 | .seqilu0 | .sfilu0 | .sapilu0 => some .ilu
  | .asyncLevelIlu0 => some .levelIlu
  | .external => none

/-- The method implemented by an object's class. -/
def Prec.method : Prec → Method
  | .jacobi | .bjacobi .. => .jacobi
  | .chaotic .. | .blockChaotic .. => .chaoticGS
  | .cscBgs .. => .columnGS
  | .asyncSgs .. | .asyncBlockSgs .. => .sgs
  | .levelSgs | .levelBsgs .. => .levelSgs
  | .asyncIlu0 _ | .asyncBlockIlu0 .. => .ilu
  | .asyncLevelIlu0 _ | .asyncLevelBlockIlu0 .. => .levelIlu
  | .noPrec _ => .identity

/-- The size of the blocks an object works on. -/
def Prec.blockSize : Prec → Nat
  | .bjacobi b _ | .blockChaotic b .. | .asyncBlockSgs b .. | .levelBsgs b _ | .asyncBlockIlu0 b .. | .asyncLevelBlockIlu0 b .. | .noPrec b => b
  | _ => 1

/-- The layout of the blocks an object assumes; scalar classes and the identity assume none. -/
def Prec.layout : Prec → Option Stor
  | .bjacobi _ s | .blockChaotic _ s .. | .asyncBlockSgs _ s .. | .levelBsgs _ s | .asyncBlockIlu0 _ s _ | .asyncLevelBlockIlu0 _ s _ => some s
  | _ => none

/-- The configuration of an incomplete factorization object. -/
def Prec.ilu? : Prec → Option IluConf
  | .asyncIlu0 c | .asyncBlockIlu0 _ _ c | .asyncLevelIlu0 c | .asyncLevelBlockIlu0 _ _ c => some c
  | _ => none

/-- The number of sweeps of an application of an object, where its method has such a parameter. -/
def Prec.applySweeps? : Prec → Option Int
  | .chaotic n _ | .cscBgs n _ | .asyncSgs n _ _ | .blockChaotic _ _ n _ | .asyncBlockSgs _ _ n _ _ => some n
  | .asyncIlu0 c | .asyncBlockIlu0 _ _ c => some c.napplysweeps
  | _ => none

/-- The supported combinations: any named method for scalar matrices; for blocks of size 4 in either layout or 5 in column-major layout,
any named method but the column-oriented Gauss-Seidel. -/
def SupportedCombination (t : SolverType) (bs : Int) (stor : StorageOptions) : Prop :=
  t ≠ .external ∧
    (bs = 1 ∨ (t ≠ .cscBgs ∧ ((bs = 4 ∧ (stor = .rowMajor ∨ stor = .colMajor)) ∨ (bs = 5 ∧ stor = .colMajor))))

/-- The layout as a value of Eigen's enumeration. -/
def Stor.option : Stor → StorageOptions
  | .rowMajor => .rowMajor
  | .colMajor => .colMajor

/-! ## Names -/

/-- The names recognized are exactly the documented ones, with the documented meaning. -/
theorem solver_type_from_string_correct (s : String) (t : SolverType) :
    solverTypeFromString s = .ok t ↔ (s, t) ∈ documentedNames := by
  unfold solverTypeFromString documentedNames invalidArg
  constructor
  · intro h
    repeat' split at h
    all_goals first
      | (injection h with h; subst h; subst_vars; decide)
      | exact absurd h (by simp)
  · intro h
    simp only [List.mem_cons, Prod.mk.injEq, List.not_mem_nil, or_false] at h
    rcases h with ⟨rfl, rfl⟩ | ⟨rfl, rfl⟩ | ⟨rfl, rfl⟩ | ⟨rfl, rfl⟩ | ⟨rfl, rfl⟩ | ⟨rfl, rfl⟩ | ⟨rfl, rfl⟩ | ⟨rfl, rfl⟩ | ⟨rfl, rfl⟩ |
      ⟨rfl, rfl⟩ | ⟨rfl, rfl⟩ <;> rfl

example : solverTypeFromString "async_level_ilu0" = .ok .asyncLevelIlu0 := (solver_type_from_string_correct _ _).2 (by decide)

/-- Any other string, for instance a name in upper case, makes the function throw `std::invalid_argument`. -/
theorem solver_type_from_string_throws (s : String) (h : ∀ t, (s, t) ∉ documentedNames) :
    solverTypeFromString s = .error (.throw "std::invalid_argument" "BLASTed: Preconditioner type not available!") := by
  have hor : (∃ t, solverTypeFromString s = .ok t) ∨
      solverTypeFromString s = .error (.throw "std::invalid_argument" "BLASTed: Preconditioner type not available!") := by
    generalize hv : solverTypeFromString s = v
    unfold solverTypeFromString invalidArg at hv
    repeat' split at hv
    all_goals first
      | exact Or.inl ⟨_, hv.symm⟩
      | exact Or.inr hv.symm
  rcases hor with ⟨t, ht⟩ | he
  · exact absurd ((solver_type_from_string_correct s t).1 ht) (h t)
  · exact he

example : ∀ t, ("ILU0", t) ∉ documentedNames := by intro t; cases t <;> decide

/-- Different names stand for different types, and every type but the external one has a name. -/
theorem solver_type_from_string_injective :
    (∀ (s s' : String) (t : SolverType), solverTypeFromString s = .ok t → solverTypeFromString s' = .ok t → s = s') ∧
      (∀ t : SolverType, (∃ s, solverTypeFromString s = .ok t) ↔ t ≠ .external) := by
  constructor
  · intro s s' t h h'
    rw [solver_type_from_string_correct] at h h'
    simp only [documentedNames, List.mem_cons, Prod.mk.injEq, List.not_mem_nil, or_false] at h h'
    cases t <;> simp_all
  · intro t
    simp only [solver_type_from_string_correct]
    constructor
    · rintro ⟨s, h⟩ rfl
      simp [documentedNames] at h
    · intro h
      cases t
      · exact ⟨"jacobi", by decide⟩
      · exact ⟨"gs", by decide⟩
      · exact ⟨"sgs", by decide⟩
      · exact ⟨"ilu0", by decide⟩
      · exact ⟨"seqilu0", by decide⟩
      · exact ⟨"sfilu0", by decide⟩
      · exact ⟨"sapilu0", by decide⟩
      · exact ⟨"cscbgs", by decide⟩
      · exact ⟨"level_sgs", by decide⟩
      · exact ⟨"async_level_ilu0", by decide⟩
      · exact ⟨"none", by decide⟩
      · exact absurd rfl h

/-- The names of the initializations of the factors and of the triangular solves. -/
theorem init_from_string_correct (s : String) :
    (∀ i, getFactInitFromString s = .ok i ↔
      (s, i) ∈ [("init_zero", FactInit.zero), ("init_original", .original), ("init_sgs", .sgs), ("init_none", .none)]) ∧
    (∀ i, getApplyInitFromString s = .ok i ↔ (s, i) ∈ [("init_zero", ApplyInit.zero), ("init_jacobi", .jacobi), ("init_none", .none)]) ∧
    (s ∉ ["init_zero", "init_original", "init_sgs", "init_none"] →
      getFactInitFromString s = .error (.throw "std::invalid_argument" "Factor initialization not recongnized!")) ∧
    (s ∉ ["init_zero", "init_jacobi", "init_none"] →
      getApplyInitFromString s = .error (.throw "std::invalid_argument" "Apply initialization not recongnized!")) := by
  unfold getFactInitFromString getApplyInitFromString invalidArg
  refine ⟨fun i => ?_, fun i => ?_, fun h => ?_, fun h => ?_⟩
  · constructor
    · intro h
      repeat' split at h
      all_goals first
        | (injection h with h; subst h; subst_vars; simp)
        | exact absurd h (by simp)
    · intro h
      simp only [List.mem_cons, Prod.mk.injEq, List.not_mem_nil, or_false] at h
      rcases h with ⟨rfl, rfl⟩ | ⟨rfl, rfl⟩ | ⟨rfl, rfl⟩ | ⟨rfl, rfl⟩ <;> rfl
  · constructor
    · intro h
      repeat' split at h
      all_goals first
        | (injection h with h; subst h; subst_vars; simp)
        | exact absurd h (by simp)
    · intro h
      simp only [List.mem_cons, Prod.mk.injEq, List.not_mem_nil, or_false] at h
      rcases h with ⟨rfl, rfl⟩ | ⟨rfl, rfl⟩ | ⟨rfl, rfl⟩ <;> rfl
  · simp only [List.mem_cons, List.not_mem_nil, or_false, not_or] at h
    simp only [h, if_false]
  · simp only [List.mem_cons, List.not_mem_nil, or_false, not_or] at h
    simp only [h, if_false]

example : getFactInitFromString "init_sgs" = .ok .sgs := rfl
example : getApplyInitFromString "init_sgs" = .error (.throw "std::invalid_argument" "Apply initialization not recongnized!") :=
  (init_from_string_correct "init_sgs").2.2.2 (by decide)

/-! ## Creation -/

/-- `create_preconditioner` returns an object exactly for the supported combinations of type, block size and layout; in all other cases it throws
`std::invalid_argument`. -/
theorem create_preconditioner_iff (o : Settings) :
    ((∃ p, createPreconditioner (.async o) = .ok p) ↔ SupportedCombination o.prectype o.bs o.blockstorage) ∧
    (¬ SupportedCombination o.prectype o.bs o.blockstorage →
      ∃ msg, createPreconditioner (.async o) = .error (.throw "std::invalid_argument" msg)) := by
  obtain ⟨t, bs, stor, relax, tcs, scale, nb, na, fi, ai, info⟩ := o
  unfold SupportedCombination createPreconditioner createScalar createOfType invalidArg
  dsimp only
  by_cases h1 : bs = 1
  · subst h1
    cases t <;> simp
  · by_cases h4 : bs = 4
    · subst h4
      cases t <;> cases stor <;> simp
    · by_cases h5 : bs = 5
      · subst h5
        cases t <;> cases stor <;> simp
      · cases stor <;> simp [h1, h4, h5]

example : SupportedCombination .sapilu0 5 .colMajor := by unfold SupportedCombination; decide
example : ¬ SupportedCombination .ilu0 3 .colMajor := by unfold SupportedCombination; decide

/-- Settings that are not asynchronous solver settings are rejected by an exception. -/
theorem create_preconditioner_bad_cast : createPreconditioner .other = .error (.throw "std::bad_cast" "") := rfl

/-- The object returned implements the method of the requested type on blocks of the requested size and layout. If it is an incomplete
factorization, the factorization is threaded unless the name says sequential (`seqilu0`) or sequentially factored (`sfilu0`), the application is threaded
unless the name says sequential or sequentially applied (`sapilu0`), and the scaling, the numbers of sweeps, the chunk size and the initializations are the requested ones. -/
theorem create_preconditioner_correct (o : Settings) (p : Prec) (h : createPreconditioner (.async o) = .ok p) :
    o.prectype.method = some p.method ∧ (p.blockSize : Int) = o.bs ∧
    (∀ s, p.layout = some s → s.option = o.blockstorage) ∧
    (∀ n, p.applySweeps? = some n → n = o.napplysweeps) ∧
    (∀ c, p.ilu? = some c →
      (c.threadedfactor = true ↔ o.prectype ∉ [.seqilu0, .sfilu0]) ∧ (c.threadedapply = true ↔ o.prectype ∉ [.seqilu0, .sapilu0]) ∧
      c.usescaling = o.scale ∧ c.nbuildsweeps = o.nbuildsweeps ∧ c.thread_chunk_size = o.thread_chunk_size ∧
      c.factinittype = o.fact_inittype ∧
      (o.prectype ≠ .asyncLevelIlu0 → c.napplysweeps = o.napplysweeps ∧ c.applyinittype = o.apply_inittype)) := by
  obtain ⟨t, bs, stor, relax, tcs, scale, nb, na, fi, ai, info⟩ := o
  unfold createPreconditioner createScalar createOfType invalidArg at h
  dsimp only at h ⊢
  by_cases h1 : bs = 1
  · subst h1
    cases t <;> simp at h <;> subst h <;>
      simp [SolverType.method, Prec.method, Prec.blockSize, Prec.layout, Prec.applySweeps?, Prec.ilu?, newAsyncILU0, newAsyncLevelILU0]
  · by_cases h4 : bs = 4
    · subst h4
      cases stor <;> cases t <;> simp at h <;> subst h <;>
        simp [SolverType.method, Prec.method, Prec.blockSize, Prec.layout, Prec.applySweeps?, Prec.ilu?, newAsyncBlockILU0,
          newAsyncLevelBlockILU0, Stor.option]
    · by_cases h5 : bs = 5
      · subst h5
        cases stor <;> cases t <;> simp at h <;> subst h <;>
          simp [SolverType.method, Prec.method, Prec.blockSize, Prec.layout, Prec.applySweeps?, Prec.ilu?, newAsyncBlockILU0,
            newAsyncLevelBlockILU0, Stor.option]
      · cases stor <;> simp [h1, h4, h5] at h

/-- A full set of settings, for examples. -/
def sampleSettings (t : SolverType) (bs : Int) : Settings :=
  { prectype := t, bs := bs, blockstorage := .colMajor, relax := false, thread_chunk_size := 128, scale := true, nbuildsweeps := 3, napplysweeps := 2
    fact_inittype := .original, apply_inittype := .jacobi, compute_precinfo := false }

example : ∃ p, createPreconditioner (.async (sampleSettings .sfilu0 5)) = .ok p ∧ p.blockSize = 5 :=
  ⟨_, rfl, rfl⟩

/-- Relaxation is available from exactly the objects created for Jacobi, chaotic Gauss-Seidel, SGS and level-scheduled SGS. -/
theorem create_relaxation_available (o : Settings) (p : Prec) (h : createPreconditioner (.async o) = .ok p) :
    p.relaxationAvailable = true ↔ o.prectype ∈ [.jacobi, .gs, .sgs, .levelSgs] := by
  have hm := (create_preconditioner_correct o p h).1
  generalize o.prectype = t at hm ⊢
  cases t <;> cases p <;> simp_all [SolverType.method, Prec.method, Prec.relaxationAvailable]

/-- The flag asking for a relaxation has no influence on the result. -/
theorem create_preconditioner_ignores_relax (o : Settings) (r : Bool) :
    createPreconditioner (.async { o with relax := r }) = createPreconditioner (.async o) := rfl

/-! ## Diagnostic information -/

/-- The object computes diagnostic information exactly if requested, for all incomplete factorizations but one: the scalar asynchronous factorization with
level-scheduled application. -/
theorem create_precinfo_partial (o : Settings) (p : Prec) (c : IluConf) (h : createPreconditioner (.async o) = .ok p) (hc : p.ilu? = some c)
    (hx : o.prectype ≠ .asyncLevelIlu0 ∨ o.bs ≠ 1) : c.compute_precinfo = o.compute_precinfo := by
  obtain ⟨t, bs, stor, relax, tcs, scale, nb, na, fi, ai, info⟩ := o
  unfold createPreconditioner createScalar createOfType invalidArg at h
  dsimp only at h hx ⊢
  by_cases h1 : bs = 1
  · subst h1
    cases t <;> simp at h hx <;> subst h <;> simp [Prec.ilu?, newAsyncILU0] at hc <;> subst hc <;> rfl
  · by_cases h4 : bs = 4
    · subst h4
      cases stor <;> cases t <;> simp at h <;> subst h <;> simp [Prec.ilu?, newAsyncBlockILU0, newAsyncLevelBlockILU0] at hc <;> subst hc <;> rfl
    · by_cases h5 : bs = 5
      · subst h5
        cases stor <;> cases t <;> simp at h <;> subst h <;> simp [Prec.ilu?, newAsyncBlockILU0, newAsyncLevelBlockILU0] at hc <;> subst hc <;> rfl
      · cases stor <;> simp [h1, h4, h5] at h

example : createPreconditioner (.async (sampleSettings .asyncLevelIlu0 4)) =
    .ok (.asyncLevelBlockIlu0 4 .colMajor ⟨true, true, true, 3, 1, 128, .original, .none, false⟩) := rfl

/-- Finding: the scalar asynchronous factorization with level-scheduled application always computes the (expensive) diagnostic information, because its
constructor passes the threading flag in the place of the information flag. -/
theorem create_scalar_level_ilu_precinfo_wrong (o : Settings) (ht : o.prectype = .asyncLevelIlu0) (hb : o.bs = 1) :
    ∃ p c, createPreconditioner (.async o) = .ok p ∧ p.ilu? = some c ∧ c.compute_precinfo = true := by
  unfold createPreconditioner createScalar
  simp only [ht, hb, if_true]
  exact ⟨_, _, rfl, rfl, rfl⟩

example : (sampleSettings .asyncLevelIlu0 1).prectype = .asyncLevelIlu0 ∧ (sampleSettings .asyncLevelIlu0 1).compute_precinfo = false := ⟨rfl, rfl⟩

end Blasted
