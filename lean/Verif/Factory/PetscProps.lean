import Verif.Factory.PetscModel
import Verif.Factory.Props

/-!
# C45: the options of the PETSc interface
-/

namespace Blasted

/-! ## Specification -/

/-- The options of a complete command line: a documented name, two sweep counts, valid initializations, a chunk size. -/
structure OptionsAre (o : PetscOpts) (t : SolverType) (a b : Int) (sc : Bool) (fi : FactInit) (ai : ApplyInit) (tcs : Int) : Prop where
  pc : ∃ name, o.pc_type = some name ∧ (name, t) ∈ documentedNames
  sweeps : o.async_sweeps = some [a, b]
  scaling : o.use_symmetric_scaling = some sc
  factInit : ∃ s, o.async_fact_init_type = some s ∧
    (s, fi) ∈ [("init_zero", FactInit.zero), ("init_original", .original), ("init_sgs", .sgs), ("init_none", .none)]
  applyInit : ∃ s, o.async_apply_init_type = some s ∧ (s, ai) ∈ [("init_zero", ApplyInit.zero), ("init_jacobi", .jacobi), ("init_none", .none)]
  chunk : o.thread_chunk_size = some tcs

/-- The number of sweeps a loop `for(int isweep = 0; isweep < n; isweep++)` performs. -/
def sweepsPerformed (n : Int) : Nat := n.toNat

/-- The matrices the interface accepts for a type. -/
def PetscBlockSize (t : SolverType) (bs : Int) : Prop := bs = 1 ∨ ((bs = 4 ∨ bs = 5) ∧ t ≠ .cscBgs)

/-! ## Lemmas -/

theorem truncated_of_short (s : String) (h : s.toList.length ≤ 19) : truncated s = s := by
  unfold truncated
  rw [List.take_of_length_le h, String.ofList_toList]

/-- Truncation cannot turn another string into a short one. -/
theorem truncated_eq_short (s n : String) (hn : n.toList.length < 19) : truncated s = n ↔ s = n := by
  constructor
  · intro h
    have h2 : s.toList.take 19 = n.toList := by
      rw [← h, truncated, String.toList_ofList]
    have h3 : s.toList.length < 19 := by
      by_contra hc
      have := congrArg List.length h2
      rw [List.length_take] at this
      omega
    rw [List.take_of_length_le (by omega)] at h2
    rw [← String.ofList_toList (s := s), h2, String.ofList_toList]
  · rintro rfl
    exact truncated_of_short s (by omega)

/-- The context after the options have been read. -/
def readContext (o : PetscOpts) (ctx : PetscCtx) (name : String) (t : SolverType) (a b : Int) (sc : Bool) (fs as : String) (tcs : Int) :
    PetscCtx :=
  if t ≠ .jacobi ∧ t ≠ .levelSgs ∧ t ≠ .noPrec then
    { ctx with
      prectypestr := name, prectype := t, applyinittype := as, threadchunksize := tcs, nbuildsweeps := a, napplysweeps := b
      first_setup_done := true, compute_precinfo := o.compute_preconditioner_info.getD false
      scale := if t = .ilu0 ∨ t = .sapilu0 ∨ t = .asyncLevelIlu0 then sc else false
      factinittype := if t = .ilu0 ∨ t = .sapilu0 ∨ t = .asyncLevelIlu0 then fs else "NA" }
  else
    { ctx with prectypestr := name, prectype := t, nbuildsweeps := 1, napplysweeps := 1, first_setup_done := true
               compute_precinfo := o.compute_preconditioner_info.getD false }

theorem setupDataFromOptions_ok {o : PetscOpts} {ctx : PetscCtx} {name fs as : String} {t : SolverType} {a b : Int} {sc : Bool} {tcs : Int}
    (h1 : o.pc_type = some name) (h2 : (name, t) ∈ documentedNames) (h3 : o.async_sweeps = some [a, b])
    (h4 : o.use_symmetric_scaling = some sc) (h5 : o.async_fact_init_type = some fs) (h6 : truncated fs = fs)
    (h7 : o.async_apply_init_type = some as) (h8 : truncated as = as) (h9 : o.thread_chunk_size = some tcs) :
    setupDataFromOptions solverTypeFromString o ctx = .ok (readContext o ctx name t a b sc fs as tcs) := by
  have hn : truncated name = name := by
    apply truncated_of_short
    simp only [documentedNames, List.mem_cons, Prod.mk.injEq, List.not_mem_nil, or_false] at h2
    rcases h2 with ⟨rfl, rfl⟩ | ⟨rfl, rfl⟩ | ⟨rfl, rfl⟩ | ⟨rfl, rfl⟩ | ⟨rfl, rfl⟩ | ⟨rfl, rfl⟩ | ⟨rfl, rfl⟩ | ⟨rfl, rfl⟩ | ⟨rfl, rfl⟩ |
      ⟨rfl, rfl⟩ | ⟨rfl, rfl⟩ <;> decide
  have ht := (solver_type_from_string_correct name t).2 h2
  unfold setupDataFromOptions
  simp only [h1, stringOrAbort, hn, ok_bind, ht]
  unfold readAsyncOptions readFactOptions readContext
  simp only [h3, h4, h5, h6, h7, h8, h9, stringOrAbort, optOrAbort, optOrThrow, readSweeps, ok_bind]
  by_cases hc : t ≠ .jacobi ∧ t ≠ .levelSgs ∧ t ≠ .noPrec
  · rw [if_pos hc, if_pos hc]
    by_cases hf : t = .ilu0 ∨ t = .sapilu0 ∨ t = .asyncLevelIlu0
    · simp only [if_pos hf, ok_bind]
    · simp only [if_neg hf, ok_bind]
  · rw [if_neg hc, if_neg hc]
    simp only [ok_bind]

/-- The settings after sequential operations have been resolved. -/
theorem setSweepsCheckSeq_ok (ctx : PetscCtx) (s : Settings)
    (hx : s.prectype ∈ [.ilu0, .sfilu0, .sapilu0] ∨ (ctx.nbuildsweeps ≠ -1 ∧ ctx.napplysweeps ≠ -1)) :
    ∃ s', setSweepsCheckSeq ctx s = .ok s' ∧ s'.bs = s.bs ∧ s'.blockstorage = s.blockstorage ∧ s'.scale = s.scale ∧
      s'.nbuildsweeps = (if ctx.nbuildsweeps = -1 ∨ (s.prectype = .sfilu0 ∧ ctx.napplysweeps = -1) then 1 else ctx.nbuildsweeps) ∧
      s'.napplysweeps = (if ctx.napplysweeps = -1 ∨ (s.prectype = .sapilu0 ∧ ctx.nbuildsweeps = -1) then 1 else ctx.napplysweeps) ∧
      s'.prectype.method = s.prectype.method ∧ (s'.prectype = .cscBgs ↔ s.prectype = .cscBgs) ∧
      (s'.prectype = .asyncLevelIlu0 ↔ s.prectype = .asyncLevelIlu0) ∧
      (s'.prectype ∈ [.seqilu0, .sfilu0] ↔ ctx.nbuildsweeps = -1 ∨ s.prectype ∈ [.seqilu0, .sfilu0]) ∧
      (s'.prectype ∈ [.seqilu0, .sapilu0] ↔ ctx.napplysweeps = -1 ∨ s.prectype ∈ [.seqilu0, .sapilu0]) := by
  obtain ⟨t, bs, stor, relax, tcs, scale, nb, na, fi, ai, info⟩ := s
  unfold setSweepsCheckSeq checkSeqApply checkSeqBuild seqSymbol
  dsimp only at hx ⊢
  generalize ctx.nbuildsweeps = a at *
  generalize ctx.napplysweeps = b at *
  by_cases hA : a = -1 <;> by_cases hB : b = -1 <;> cases t <;> simp [hA, hB] at hx <;> simp [hA, hB, SolverType.method]

/-! ## The theorems -/

/-- With a complete command line, a type whose triangular solves or factorization can be made sequential or sweep counts that do not ask for that, and a
supported block size, the setup succeeds. The object implements the requested method on blocks of the matrix's size in PETSc's column-major layout. The
sweep counts are the requested ones, or one where a sequential operation is requested by the count -1 (also for an operation that is sequential by name, if
the other one is made sequential by its count). The factorization and the application are sequential
exactly where the type's name or a sweep count of -1 asks for it; the initializations, the scaling and the chunk size are the requested ones.
Missing for the full property: the types and counts of the three findings below. -/
theorem petsc_options_correct_partial (o : PetscOpts) (g : Settings) (ctx : PetscCtx) (t : SolverType) (a b : Int) (sc : Bool) (fi : FactInit)
    (ai : ApplyInit) (tcs : Int) (ho : OptionsAre o t a b sc fi ai tcs) (hbs : PetscBlockSize t ctx.bs)
    (hx : t ∈ [.ilu0, .sfilu0, .sapilu0] ∨ t ∈ [.jacobi, .levelSgs, .noPrec] ∨ (a ≠ -1 ∧ b ≠ -1)) :
    ∃ ctx' p, firstSetup o g ctx = .ok (ctx', p) ∧ t.method = some p.method ∧ (p.blockSize : Int) = ctx.bs ∧
      (∀ s, p.layout = some s → s = .colMajor) ∧
      (∀ n, p.applySweeps? = some n → n = if b = -1 ∨ (t = .sapilu0 ∧ a = -1) then 1 else b) ∧
      (∀ c, p.ilu? = some c →
        c.nbuildsweeps = (if a = -1 ∨ (t = .sfilu0 ∧ b = -1) then 1 else a) ∧ c.thread_chunk_size = tcs ∧
        (c.threadedfactor = false ↔ a = -1 ∨ t ∈ [.seqilu0, .sfilu0]) ∧ (c.threadedapply = false ↔ b = -1 ∨ t ∈ [.seqilu0, .sapilu0]) ∧
        (c.threadedfactor = true → c.factinittype = fi ∧ c.usescaling = sc) ∧
        (t ≠ .asyncLevelIlu0 → c.applyinittype = ai)) := by
  obtain ⟨⟨name, h1, h2⟩, h3, h4, ⟨fs, h5, h6⟩, ⟨as, h7, h8⟩, h9⟩ := ho
  have hfs : truncated fs = fs ∧ getFactInitFromString fs = .ok fi := by
    refine ⟨?_, (((init_from_string_correct fs).1 fi).2 h6)⟩
    apply truncated_of_short
    simp only [List.mem_cons, Prod.mk.injEq, List.not_mem_nil, or_false] at h6
    rcases h6 with ⟨rfl, rfl⟩ | ⟨rfl, rfl⟩ | ⟨rfl, rfl⟩ | ⟨rfl, rfl⟩ <;> decide
  have has : truncated as = as ∧ getApplyInitFromString as = .ok ai := by
    refine ⟨?_, (((init_from_string_correct as).2.1 ai).2 h8)⟩
    apply truncated_of_short
    simp only [List.mem_cons, Prod.mk.injEq, List.not_mem_nil, or_false] at h8
    rcases h8 with ⟨rfl, rfl⟩ | ⟨rfl, rfl⟩ | ⟨rfl, rfl⟩ <;> decide
  have ht := (solver_type_from_string_correct name t).2 h2
  obtain ⟨hf', hf⟩ := hfs
  obtain ⟨ha', ha⟩ := has
  unfold firstSetup
  rw [setupDataFromOptions_ok h1 h2 h3 h4 h5 hf' h7 ha' h9]
  simp only [ok_bind]
  unfold createNewPreconditioner petscSettings
  have hne : t ≠ .external := by
    rintro rfl
    simp [documentedNames] at h2
  have hstr : (readContext o ctx name t a b sc fs as tcs).prectypestr = name := by
    unfold readContext
    split <;> rfl
  have hcbs : (readContext o ctx name t a b sc fs as tcs).bs = ctx.bs := by
    unfold readContext
    split <;> rfl
  simp only [hstr, ht, ok_bind, hcbs]
  clear h1 h2 h3 h4 h5 h6 h7 h8 h9 hstr
  by_cases hJ : t ∈ [.jacobi, .levelSgs, .noPrec]
  · have hr : readContext o ctx name t a b sc fs as tcs =
        { ctx with prectypestr := name, prectype := t, nbuildsweeps := 1, napplysweeps := 1, first_setup_done := true
                   compute_precinfo := o.compute_preconditioner_info.getD false } := by
      unfold readContext
      rw [if_neg]
      simp only [List.mem_cons, List.not_mem_nil, or_false] at hJ
      rcases hJ with rfl | rfl | rfl <;> simp
    rw [hr]
    simp only [List.mem_cons, List.not_mem_nil, or_false] at hJ
    rcases hbs with hbs | ⟨hbs | hbs, -⟩ <;> rcases hJ with rfl | rfl | rfl <;>
      simp [setSweepsCheckSeq, checkSeqApply, checkSeqBuild, seqSymbol, setInits, ok_bind, hbs, createPreconditioner, createScalar,
        createOfType, SolverType.method, Prec.method, Prec.blockSize, Prec.layout, Prec.applySweeps?, Prec.ilu?]
  · have hJ' : t ≠ .jacobi ∧ t ≠ .levelSgs ∧ t ≠ .noPrec := by simpa using hJ
    have hx' : t ∈ [.ilu0, .sfilu0, .sapilu0] ∨ (a ≠ -1 ∧ b ≠ -1) := by
      rcases hx with hx | hx | hx
      · exact Or.inl hx
      · exact absurd hx hJ
      · exact Or.inr hx
    have hca : (readContext o ctx name t a b sc fs as tcs).nbuildsweeps = a := by simp [readContext, hJ']
    have hcb : (readContext o ctx name t a b sc fs as tcs).napplysweeps = b := by simp [readContext, hJ']
    have hct : (readContext o ctx name t a b sc fs as tcs).threadchunksize = tcs := by simp [readContext, hJ']
    have hcas : (readContext o ctx name t a b sc fs as tcs).applyinittype = as := by simp [readContext, hJ']
    have hcfs : t = .ilu0 ∨ t = .sapilu0 ∨ t = .asyncLevelIlu0 →
        (readContext o ctx name t a b sc fs as tcs).factinittype = fs ∧ (readContext o ctx name t a b sc fs as tcs).scale = sc := by
      intro h
      simp [readContext, hJ', h]
    generalize readContext o ctx name t a b sc fs as tcs = ctx' at *
    obtain ⟨s, hs, hs1, hs2, hs3, hs4, hs5, hs6, hs7, hs8, hs9, hs10⟩ := setSweepsCheckSeq_ok ctx'
      { g with prectype := t, bs := ctx.bs, blockstorage := .colMajor, scale := ctx'.scale } (by simpa [hca, hcb] using hx')
    rw [hca, hcb] at hs4 hs5
    rw [hca] at hs9
    rw [hcb] at hs10
    dsimp only at hs1 hs2 hs3 hs6 hs7 hs8 hs9 hs10
    have hsJ : s.prectype ≠ .jacobi ∧ s.prectype ≠ .levelSgs ∧ s.prectype ≠ .noPrec := by
      refine ⟨?_, ?_, ?_⟩ <;> intro h <;> rw [h] at hs6 <;> revert hs6 hJ' <;> cases t <;> simp [SolverType.method]
    have hsE : s.prectype ≠ .external := by
      intro h
      rw [h] at hs6
      revert hs6 hne
      cases t <;> simp [SolverType.method]
    have hfi : ∃ f, factInitFor ctx' s = .ok f ∧
        (s.prectype ∉ [.seqilu0, .sfilu0] → s.prectype.method ∈ [some Method.ilu, some .levelIlu] → f = fi ∧ ctx'.scale = sc) := by
      unfold factInitFor
      by_cases hF : s.prectype = .ilu0 ∨ s.prectype = .sapilu0 ∨ s.prectype = .asyncLevelIlu0
      · have hF' : t = .ilu0 ∨ t = .sapilu0 ∨ t = .asyncLevelIlu0 := by
          revert hs6 hs9
          rcases hF with hF | hF | hF <;> rw [hF] <;> cases t <;> simp [SolverType.method]
        rw [if_pos hF, (hcfs hF').1, hf]
        exact ⟨fi, rfl, fun _ _ => ⟨rfl, (hcfs hF').2⟩⟩
      · rw [if_neg hF]
        refine ⟨_, rfl, fun h1 h2 => absurd ?_ hF⟩
        revert h1 h2
        cases s.prectype <;> simp [SolverType.method]
    obtain ⟨f, hf1, hf2⟩ := hfi
    have hinit : setInits ctx' { s with thread_chunk_size := ctx'.threadchunksize, compute_precinfo := ctx'.compute_precinfo } =
        .ok { s with thread_chunk_size := ctx'.threadchunksize, compute_precinfo := ctx'.compute_precinfo
                     fact_inittype := f, apply_inittype := ai } := by
      unfold setInits
      dsimp only
      rw [if_pos hsJ]
      have : factInitFor ctx' { s with thread_chunk_size := ctx'.threadchunksize, compute_precinfo := ctx'.compute_precinfo } = .ok f := hf1
      rw [this, hcas, ha]
      rfl
    rw [hs]
    simp only [ok_bind, hinit]
    have hnot : ¬ (ctx.bs ≤ 0 ∨ ctx.bs > 5 ∨ ctx.bs = 2) := by
      rcases hbs with h | ⟨h | h, -⟩ <;> rw [h] <;> decide
    rw [if_neg hnot]
    generalize hS : ({ s with thread_chunk_size := ctx'.threadchunksize, compute_precinfo := ctx'.compute_precinfo, fact_inittype := f
                              apply_inittype := ai, relax := false } : Settings) = S
    have e1 : S.prectype = s.prectype := by rw [← hS]
    have e2 : S.bs = ctx.bs := by rw [← hS]; exact hs1
    have e3 : S.blockstorage = .colMajor := by rw [← hS]; exact hs2
    have e4 : S.nbuildsweeps = s.nbuildsweeps := by rw [← hS]
    have e5 : S.napplysweeps = s.napplysweeps := by rw [← hS]
    have e6 : S.thread_chunk_size = tcs := by rw [← hS]; exact hct
    have e7 : S.fact_inittype = f := by rw [← hS]
    have e8 : S.apply_inittype = ai := by rw [← hS]
    have e9 : S.scale = ctx'.scale := by rw [← hS]; exact hs3
    have hsup : SupportedCombination S.prectype S.bs S.blockstorage := by
      rw [e1, e2, e3]
      refine ⟨hsE, ?_⟩
      rcases hbs with h | ⟨h | h, h'⟩
      · exact Or.inl h
      · exact Or.inr ⟨fun h2 => h' (hs7.1 h2), Or.inl ⟨h, Or.inr rfl⟩⟩
      · exact Or.inr ⟨fun h2 => h' (hs7.1 h2), Or.inr ⟨h, rfl⟩⟩
    obtain ⟨p, hp⟩ := (create_preconditioner_iff S).1.2 hsup
    obtain ⟨c1, c2, c3, c4, c5⟩ := create_preconditioner_correct S p hp
    refine ⟨ctx', p, ?_, ?_, ?_, ?_, ?_, ?_⟩
    · rw [hp]
      rfl
    · rw [← hs6, ← e1]
      exact c1
    · rw [c2, e2]
    · intro st hst
      have := c3 st hst
      rw [e3] at this
      cases st
      · simp [Stor.option] at this
      · rfl
    · intro n hn
      rw [c4 n hn, e5, hs5]
    · intro c hc
      obtain ⟨d1, d2, d3, d4, d5, d6, d7⟩ := c5 c hc
      rw [e1] at d1 d2 d7
      have hm : s.prectype.method ∈ [some Method.ilu, some .levelIlu] := by
        rw [← e1, c1]
        revert hc
        cases p <;> simp [Prec.ilu?, Prec.method]
      refine ⟨by rw [d4, e4, hs4], by rw [d5, e6], ?_, ?_, ?_, ?_⟩
      · rw [← hs9, ← Bool.not_eq_true, d1, not_not]
      · rw [← hs10, ← Bool.not_eq_true, d2, not_not]
      · intro h
        obtain ⟨h1, h2⟩ := hf2 (d1.1 h) hm
        exact ⟨by rw [d6, e7, h1], by rw [d3, e9, h2]⟩
      · intro h
        rw [(d7 fun h' => h (hs8.1 h')).2, e8]

/-- A complete command line, for examples. -/
def sampleOptions (name : String) (a b : Int) : PetscOpts :=
  ⟨some name, some [a, b], some true, some "init_original", some "init_jacobi", some 256, none⟩

/-- A context with arbitrary contents and a block size. -/
def sampleContext (bs : Int) : PetscCtx := ⟨bs, "", .external, false, 77, 0, 0, "", "", false, false⟩

theorem sampleOptions_are (name : String) (t : SolverType) (h : (name, t) ∈ documentedNames) (a b : Int) :
    OptionsAre (sampleOptions name a b) t a b true .original .jacobi 256 :=
  ⟨⟨name, rfl, h⟩, rfl, rfl, ⟨_, rfl, by simp⟩, ⟨_, rfl, by simp⟩, rfl⟩

example : ∃ ctx' p, firstSetup (sampleOptions "ilu0" (-1) 4) (sampleSettings .external 0) (sampleContext 5) = .ok (ctx', p) ∧
    p.applySweeps? = some 4 ∧ p.ilu? = some ⟨true, false, true, 1, 4, 256, .none, .jacobi, false⟩ := ⟨_, _, rfl, rfl, rfl⟩

example : PetscBlockSize .ilu0 (sampleContext 5).bs := Or.inr ⟨Or.inr rfl, by decide⟩

/-- Finding: for the sequential type `seqilu0` the two counts are passed on as they are. With the count -1, which requests a sequential operation for the other types, no sweep is
performed at all. -/
theorem petsc_seqilu0_sweeps_wrong (o : PetscOpts) (g : Settings) (ctx : PetscCtx) (a b : Int) (sc : Bool) (fi : FactInit) (ai : ApplyInit)
    (tcs : Int) (ho : OptionsAre o .seqilu0 a b sc fi ai tcs) (hbs : PetscBlockSize .seqilu0 ctx.bs) :
    ∃ ctx' p c, firstSetup o g ctx = .ok (ctx', p) ∧ p.ilu? = some c ∧ c.nbuildsweeps = a ∧ c.napplysweeps = b ∧
      (a = -1 → sweepsPerformed c.nbuildsweeps = 0) ∧ (b = -1 → sweepsPerformed c.napplysweeps = 0) := by
  obtain ⟨⟨name, h1, h2⟩, h3, h4, ⟨fs, h5, h6⟩, ⟨as, h7, h8⟩, h9⟩ := ho
  have hf' : truncated fs = fs := by
    apply truncated_of_short
    simp only [List.mem_cons, Prod.mk.injEq, List.not_mem_nil, or_false] at h6
    rcases h6 with ⟨rfl, rfl⟩ | ⟨rfl, rfl⟩ | ⟨rfl, rfl⟩ | ⟨rfl, rfl⟩ <;> decide
  have ha : getApplyInitFromString as = .ok ai := (((init_from_string_correct as).2.1 ai).2 h8)
  have ha' : truncated as = as := by
    apply truncated_of_short
    simp only [List.mem_cons, Prod.mk.injEq, List.not_mem_nil, or_false] at h8
    rcases h8 with ⟨rfl, rfl⟩ | ⟨rfl, rfl⟩ | ⟨rfl, rfl⟩ <;> decide
  have ht := (solver_type_from_string_correct name .seqilu0).2 h2
  unfold firstSetup
  rw [setupDataFromOptions_ok h1 h2 h3 h4 h5 hf' h7 ha' h9]
  simp only [ok_bind]
  unfold createNewPreconditioner petscSettings
  rcases hbs with hbs | ⟨hbs | hbs, -⟩ <;>
    simp [readContext, ht, ok_bind, setSweepsCheckSeq, setInits, factInitFor, ha, hbs, createPreconditioner, createScalar, createOfType,
      Prec.ilu?, newAsyncILU0, newAsyncBlockILU0] <;>
    exact ⟨fun h => by rw [h]; rfl, fun h => by rw [h]; rfl⟩

example : ∃ ctx' p c, firstSetup (sampleOptions "seqilu0" (-1) (-1)) (sampleSettings .external 0) (sampleContext 1) = .ok (ctx', p) ∧
    p.ilu? = some c ∧ sweepsPerformed c.nbuildsweeps = 0 := ⟨_, _, _, rfl, rfl, rfl⟩

/-- Finding: asking for both operations to be sequential turns Gauss-Seidel, SGS and level-scheduled application silently into a
sequential incomplete factorization. -/
theorem petsc_both_sequential_becomes_ilu (o : PetscOpts) (g : Settings) (ctx : PetscCtx) (t : SolverType) (sc : Bool) (fi : FactInit)
    (ai : ApplyInit) (tcs : Int) (ho : OptionsAre o t (-1) (-1) sc fi ai tcs) (hbs : PetscBlockSize t ctx.bs)
    (ht : t ∈ [.gs, .sgs, .cscBgs, .asyncLevelIlu0]) :
    ∃ ctx' p c, firstSetup o g ctx = .ok (ctx', p) ∧ p.method = .ilu ∧ t.method ≠ some p.method ∧ p.ilu? = some c ∧
      c.threadedfactor = false ∧ c.threadedapply = false ∧ c.nbuildsweeps = 1 ∧ c.napplysweeps = 1 := by
  obtain ⟨⟨name, h1, h2⟩, h3, h4, ⟨fs, h5, h6⟩, ⟨as, h7, h8⟩, h9⟩ := ho
  have hf' : truncated fs = fs := by
    apply truncated_of_short
    simp only [List.mem_cons, Prod.mk.injEq, List.not_mem_nil, or_false] at h6
    rcases h6 with ⟨rfl, rfl⟩ | ⟨rfl, rfl⟩ | ⟨rfl, rfl⟩ | ⟨rfl, rfl⟩ <;> decide
  have ha : getApplyInitFromString as = .ok ai := (((init_from_string_correct as).2.1 ai).2 h8)
  have ha' : truncated as = as := by
    apply truncated_of_short
    simp only [List.mem_cons, Prod.mk.injEq, List.not_mem_nil, or_false] at h8
    rcases h8 with ⟨rfl, rfl⟩ | ⟨rfl, rfl⟩ | ⟨rfl, rfl⟩ <;> decide
  have hty := (solver_type_from_string_correct name t).2 h2
  unfold firstSetup
  rw [setupDataFromOptions_ok h1 h2 h3 h4 h5 hf' h7 ha' h9]
  simp only [ok_bind]
  unfold createNewPreconditioner petscSettings
  simp only [List.mem_cons, List.not_mem_nil, or_false] at ht
  rcases ht with rfl | rfl | rfl | rfl <;> rcases hbs with hbs | ⟨hbs | hbs, -⟩ <;>
    simp [readContext, hty, ok_bind, setSweepsCheckSeq, seqSymbol, setInits, factInitFor, ha, hbs, createPreconditioner, createScalar, createOfType,
      Prec.ilu?, newAsyncILU0, newAsyncBlockILU0, Prec.method, SolverType.method]

example : ∃ ctx' p, firstSetup (sampleOptions "sgs" (-1) (-1)) (sampleSettings .external 0) (sampleContext 4) = .ok (ctx', p) ∧
    p.method = .ilu := ⟨_, _, rfl, rfl⟩

/-- Asking for exactly one sequential operation where the method does not allow it is rejected by an exception. -/
theorem petsc_one_sequential_rejected (o : PetscOpts) (g : Settings) (ctx : PetscCtx) (t : SolverType) (a b : Int) (sc : Bool) (fi : FactInit)
    (ai : ApplyInit) (tcs : Int) (ho : OptionsAre o t a b sc fi ai tcs) (ht : t ∈ [.gs, .sgs, .cscBgs, .asyncLevelIlu0])
    (hab : (a = -1 ∧ b ≠ -1) ∨ (a ≠ -1 ∧ b = -1)) :
    ∃ msg, firstSetup o g ctx = .error (.throw "std::runtime_error" msg) := by
  obtain ⟨⟨name, h1, h2⟩, h3, h4, ⟨fs, h5, h6⟩, ⟨as, h7, h8⟩, h9⟩ := ho
  have hf' : truncated fs = fs := by
    apply truncated_of_short
    simp only [List.mem_cons, Prod.mk.injEq, List.not_mem_nil, or_false] at h6
    rcases h6 with ⟨rfl, rfl⟩ | ⟨rfl, rfl⟩ | ⟨rfl, rfl⟩ | ⟨rfl, rfl⟩ <;> decide
  have ha' : truncated as = as := by
    apply truncated_of_short
    simp only [List.mem_cons, Prod.mk.injEq, List.not_mem_nil, or_false] at h8
    rcases h8 with ⟨rfl, rfl⟩ | ⟨rfl, rfl⟩ | ⟨rfl, rfl⟩ <;> decide
  have hty := (solver_type_from_string_correct name t).2 h2
  unfold firstSetup
  rw [setupDataFromOptions_ok h1 h2 h3 h4 h5 hf' h7 ha' h9]
  simp only [ok_bind]
  unfold createNewPreconditioner petscSettings
  simp only [List.mem_cons, List.not_mem_nil, or_false] at ht
  rcases ht with rfl | rfl | rfl | rfl <;> rcases hab with ⟨hA, hB⟩ | ⟨hA, hB⟩ <;>
    simp [readContext, hty, ok_bind, setSweepsCheckSeq, checkSeqApply, checkSeqBuild, seqSymbol, hA, hB, error_bind]

example : ∃ msg, firstSetup (sampleOptions "gs" (-1) 3) (sampleSettings .external 0) (sampleContext 1) = .error (.throw "std::runtime_error" msg) :=
  ⟨_, rfl⟩

/-- A missing mandatory option is reported: without a type name the program aborts; with a name that is not documented, whatever its length, an exception is thrown. -/
theorem petsc_type_name_checked (o : PetscOpts) (g : Settings) (ctx : PetscCtx) :
    (o.pc_type = none → firstSetup o g ctx = .error .abort) ∧
    (∀ name, o.pc_type = some name → (∀ t, (name, t) ∉ documentedNames) →
      ∃ msg, firstSetup o g ctx = .error (.throw "std::invalid_argument" msg)) := by
  constructor
  · intro h
    simp [firstSetup, setupDataFromOptions, h, stringOrAbort, error_bind]
  · intro name h hn
    have : ∀ t, (truncated name, t) ∉ documentedNames := by
      intro t ht
      have hlen : (truncated name).toList.length < 19 := by
        simp only [documentedNames, List.mem_cons, Prod.mk.injEq, List.not_mem_nil, or_false] at ht
        rcases ht with ⟨h, -⟩ | ⟨h, -⟩ | ⟨h, -⟩ | ⟨h, -⟩ | ⟨h, -⟩ | ⟨h, -⟩ | ⟨h, -⟩ | ⟨h, -⟩ | ⟨h, -⟩ | ⟨h, -⟩ | ⟨h, -⟩ <;> rw [h] <;> decide
      have h2 := (truncated_eq_short name (truncated name) hlen).1 rfl
      rw [← h2] at ht
      exact hn t ht
    simp [firstSetup, setupDataFromOptions, h, stringOrAbort, ok_bind, solver_type_from_string_throws _ this, error_bind]

example : ∃ msg, firstSetup (sampleOptions "async_level_ilu0____" 1 1) (sampleSettings .external 0) (sampleContext 1) =
    .error (.throw "std::invalid_argument" msg) := ⟨_, rfl⟩

/-- The two sweep counts are mandatory for every type that performs asynchronous sweeps: if the option is missing or has fewer than two numbers, the program aborts. -/
theorem petsc_sweeps_required (o : PetscOpts) (g : Settings) (ctx : PetscCtx) (name : String) (t : SolverType) (hname : o.pc_type = some name)
    (hdoc : (name, t) ∈ documentedNames) (ht : t ∉ [.jacobi, .levelSgs, .noPrec]) (hs : ∀ l, o.async_sweeps = some l → l.length < 2) :
    firstSetup o g ctx = .error .abort := by
  have hn : truncated name = name := by
    apply truncated_of_short
    simp only [documentedNames, List.mem_cons, Prod.mk.injEq, List.not_mem_nil, or_false] at hdoc
    rcases hdoc with ⟨rfl, rfl⟩ | ⟨rfl, rfl⟩ | ⟨rfl, rfl⟩ | ⟨rfl, rfl⟩ | ⟨rfl, rfl⟩ | ⟨rfl, rfl⟩ | ⟨rfl, rfl⟩ | ⟨rfl, rfl⟩ | ⟨rfl, rfl⟩ |
      ⟨rfl, rfl⟩ | ⟨rfl, rfl⟩ <;> decide
  have hr : readSweeps o.async_sweeps = .error .abort := by
    cases h : o.async_sweeps with
    | none => rfl
    | some l =>
      have := hs l h
      match l with
      | [] => rfl
      | [_] => rfl
      | _ :: _ :: _ => simp at this
  simp only [List.mem_cons, List.not_mem_nil, or_false, not_or] at ht
  unfold firstSetup setupDataFromOptions readAsyncOptions
  simp only [hname, stringOrAbort, hn, ok_bind, (solver_type_from_string_correct name t).2 hdoc, hr, if_pos ht, error_bind]

example : firstSetup { sampleOptions "gs" 1 1 with async_sweeps := some [3] } (sampleSettings .external 0) (sampleContext 1) = .error .abort := rfl

/-- The other options are mandatory as well. They are read in the order: sweep counts, scaling and factor initialisation (only for the types that factorize with a choice of both),
initialisation of the application, chunk size. The first one that is missing ends the set-up: a missing flag by an exception, everything else by an abort. -/
theorem petsc_options_required (o : PetscOpts) (g : Settings) (ctx : PetscCtx) (name : String) (t : SolverType) (hname : o.pc_type = some name)
    (hdoc : (name, t) ∈ documentedNames) (ht : t ∉ [.jacobi, .levelSgs, .noPrec]) {a b : Int} {l : List Int} (hs : o.async_sweeps = some (a :: b :: l)) :
    (t ∈ [.ilu0, .sapilu0, .asyncLevelIlu0] → o.use_symmetric_scaling = none →
      firstSetup o g ctx = .error (.throw "std::runtime_error" "Bool option -blasted_use_symmetric_scaling not set!")) ∧
    (t ∈ [.ilu0, .sapilu0, .asyncLevelIlu0] → o.use_symmetric_scaling ≠ none → o.async_fact_init_type = none → firstSetup o g ctx = .error .abort) ∧
    ((t ∈ [.ilu0, .sapilu0, .asyncLevelIlu0] → o.use_symmetric_scaling ≠ none ∧ o.async_fact_init_type ≠ none) →
      o.async_apply_init_type = none ∨ o.thread_chunk_size = none → firstSetup o g ctx = .error .abort) := by
  have hn : truncated name = name := by
    apply truncated_of_short
    simp only [documentedNames, List.mem_cons, Prod.mk.injEq, List.not_mem_nil, or_false] at hdoc
    rcases hdoc with ⟨rfl, rfl⟩ | ⟨rfl, rfl⟩ | ⟨rfl, rfl⟩ | ⟨rfl, rfl⟩ | ⟨rfl, rfl⟩ | ⟨rfl, rfl⟩ | ⟨rfl, rfl⟩ | ⟨rfl, rfl⟩ | ⟨rfl, rfl⟩ |
      ⟨rfl, rfl⟩ | ⟨rfl, rfl⟩ <;> decide
  simp only [List.mem_cons, List.not_mem_nil, or_false, not_or] at ht
  have key : ∀ e, readAsyncOptions t o { ctx with prectypestr := name } = .error e → firstSetup o g ctx = .error e := by
    intro e he
    unfold firstSetup setupDataFromOptions
    rw [hname, show stringOrAbort (some name) = .ok (truncated name) from rfl, hn, ok_bind, (solver_type_from_string_correct name t).2 hdoc, ok_bind, he,
      error_bind, error_bind]
  have key2 : readAsyncOptions t o { ctx with prectypestr := name } = (do
      let c ← readFactOptions t o { ctx with prectypestr := name }
      let ai ← stringOrAbort o.async_apply_init_type
      let tcs ← optOrAbort o.thread_chunk_size
      .ok (({ c with applyinittype := ai, threadchunksize := tcs }, a, b) : PetscCtx × Int × Int)) := by
    unfold readAsyncOptions
    rw [if_pos ht, hs]
    rfl
  simp only [List.mem_cons, List.not_mem_nil, or_false]
  refine ⟨fun h1 h2 => key _ ?_, fun h1 h2 h3 => key _ ?_, fun h1 h2 => key _ ?_⟩ <;> rw [key2]
  · unfold readFactOptions
    rw [if_pos h1, h2]
    rfl
  · obtain ⟨sc, hsc⟩ := Option.ne_none_iff_exists'.1 h2
    unfold readFactOptions
    rw [if_pos h1, hsc, h3]
    rfl
  · have : ∃ c, readFactOptions t o { ctx with prectypestr := name } = .ok c := by
      unfold readFactOptions
      by_cases h : t = .ilu0 ∨ t = .sapilu0 ∨ t = .asyncLevelIlu0
      · obtain ⟨sc, hsc⟩ := Option.ne_none_iff_exists'.1 (h1 h).1
        obtain ⟨fi, hfi⟩ := Option.ne_none_iff_exists'.1 (h1 h).2
        rw [if_pos h, hsc, hfi]
        exact ⟨_, rfl⟩
      · rw [if_neg h]
        exact ⟨_, rfl⟩
    obtain ⟨c, hc⟩ := this
    rw [hc, ok_bind]
    cases ha : o.async_apply_init_type with
    | none => rfl
    | some s =>
      rcases h2 with h2 | h2
      · rw [ha] at h2; cases h2
      · rw [h2]; rfl

example : firstSetup { sampleOptions "gs" 1 1 with thread_chunk_size := none } (sampleSettings .external 0) (sampleContext 1) = .error .abort :=
  (petsc_options_required _ _ _ "gs" .gs rfl (by decide) (by decide) rfl).2.2 (by decide) (.inr rfl)

example : firstSetup { sampleOptions "ilu0" 1 1 with use_symmetric_scaling := none } (sampleSettings .external 0) (sampleContext 1) =
    .error (.throw "std::runtime_error" "Bool option -blasted_use_symmetric_scaling not set!") :=
  (petsc_options_required _ _ _ "ilu0" .ilu0 rfl (by decide) (by decide) rfl).1 (by decide) rfl

end Blasted
