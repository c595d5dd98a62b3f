import Verif.Factory.LifeLemmas
import Verif.Factory.PetscProps

/-!
# C53, C57: BLASTed in a tree of PETSc solvers
-/

namespace Blasted

/-! ## Setup -/

theorem zip_fst_snd (R : List (Nat × Nat)) : R = (R.map Prod.fst).zip (R.map Prod.snd) := by
  induction R with
  | nil => rfl
  | cons r R ih =>
    simp only [List.map_cons, List.zip_cons_cons]
    rw [← ih]

/-- `setup_blasted_stack` succeeds exactly for the supported solver trees. Then it adds exactly one new context for each shell preconditioner reachable in the
tree, with the block size of its matrix, registers it with that preconditioner and no other, and every new context uses a live factory object of the default class. -/
theorem setup_blasted_stack_correct (ctx0 : PetscCtx) (k : Ksp) (st : PState) (hb : ∀ x ∈ st.live, x < st.next) :
    ((setupStack ctx0 k st).2 = false ↔ k.Supported) ∧
    (k.Supported → ∃ N : List Node,
      (setupStack ctx0 k st).1.ctxlist = N ++ st.ctxlist ∧ N.length = k.shells.length ∧ (setupStack ctx0 k st).1.size = st.size + k.shells.length ∧
      (setupStack ctx0 k st).1.reg = ((k.shells.map Prod.fst).reverse.zip (N.map Node.obj)) ++ st.reg ∧
      N.map (fun nd => nd.ctx.bs) = (k.shells.map Prod.snd).reverse ∧ (N.map Node.obj).Nodup ∧
      (∀ nd ∈ N, nd.obj ∉ st.live ∧ nd.obj ∈ (setupStack ctx0 k st).1.live ∧ nd.ctx.first_setup_done = false ∧
        (∃ f ∈ (setupStack ctx0 k st).1.live, nd.bfactory = .heap f) ∧
        ∀ env, derefFactory env (setupStack ctx0 k st).1 nd.bfactory = .ok srFactory)) := by
  have hfirst := setupExt_post ctx0 k (allocFactory st)
  obtain ⟨N, F, R, g, he, -, hs⟩ := hfirst
  have g' := (Grows.alloc st).trans g
  refine ⟨he, fun hsup => ⟨N, ?_⟩⟩
  obtain ⟨s1, s2, s3, s4⟩ := hs hsup
  have hlen : N.length = k.shells.length := by
    have := congrArg List.length s4
    simpa using this
  refine ⟨g.ctx, hlen, ?_, ?_, s4, (List.nodup_append.1 g.nodup).1, ?_⟩
  · have := g.size
    rw [hlen] at this
    exact this
  · have : R = (k.shells.map Prod.fst).reverse.zip (N.map Node.obj) := by
      rw [← s2, ← s3]
      exact zip_fst_snd R
    rw [← this]
    exact g.reg
  · intro nd hnd
    have hf := g'.fresh nd.obj (by simp; exact Or.inl ⟨nd, hnd, rfl⟩)
    have hfac : ∃ f ∈ (setupStack ctx0 k st).1.live, nd.bfactory = .heap f := by
      rcases g.nodeFac nd hnd with h | ⟨f, hf, h⟩
      · exact ⟨st.next, g.live.mem_iff.2 (by simp [allocFactory]), h⟩
      · exact ⟨f, g.live.mem_iff.2 (by simp [hf]), h⟩
    refine ⟨fun h => ?_, ?_, (g.clean nd hnd).2.2, hfac, fun env => ?_⟩
    · have := hb _ h
      omega
    · exact g.live.mem_iff.2 (by simp; exact Or.inl ⟨nd, hnd, rfl⟩)
    · obtain ⟨f, hm, h⟩ := hfac
      rw [h]
      simp [derefFactory, hm]

/-- A multigrid solver with two smoothers, one behind additive Schwarz, and a coarse solver that is not BLASTed's. -/
def sampleTree : Ksp := .mg true .other [.shell 10 "seqbaij" 4, .blocks true [.shell 11 "seqaij" 3]]

example : sampleTree.Supported := by simp [sampleTree, Ksp.Supported, Ksp.SupportedL]
example : sampleTree.shells = [(10, 4), (11, 1)] := by
  simp [sampleTree, Ksp.shells, Ksp.shellsL, blockMatTypes]

/-- The state after setup satisfies the invariant. -/
theorem setupStack_inv (ctx0 : PetscCtx) (k : Ksp) (hn : (k.shells.map Prod.fst).Nodup) :
    ∃ F, Inv F (setupStack ctx0 k newBlastedDataList).1 ∧ F ≠ [] ∧ (k.Supported → F.length = k.visited) ∧
      (∀ x ∈ F, x ∈ (setupStack ctx0 k newBlastedDataList).1.live ∧ x ∉ (setupStack ctx0 k newBlastedDataList).1.ctxlist.map Node.obj) := by
  obtain ⟨N, F, R, g0, he, hsub, hs⟩ := setupExt_post ctx0 k (allocFactory newBlastedDataList)
  have g := (Grows.alloc newBlastedDataList).trans g0
  have e : setupStack ctx0 k newBlastedDataList = setupExt ctx0 k (allocFactory newBlastedDataList) := rfl
  rw [e]
  generalize setupExt ctx0 k (allocFactory newBlastedDataList) = r at *
  simp only [List.append_nil] at g
  have hctx : r.1.ctxlist = N := by simpa [newBlastedDataList] using g.ctx
  have hreg : r.1.reg = R := by simpa [newBlastedDataList] using g.reg
  have hlive : r.1.live.Perm (N.map Node.obj ++ (F ++ [newBlastedDataList.next])) := by simpa [newBlastedDataList] using g.live
  have hprec : N.filterMap Node.precObj = [] := by
    rw [List.filterMap_eq_nil_iff]
    intro nd hnd
    simp [Node.precObj, (g.clean nd hnd).1]
  have hinfo : N.filterMap Node.infoObj = [] := by
    rw [List.filterMap_eq_nil_iff]
    intro nd hnd
    simp [Node.infoObj, (g.clean nd hnd).2.1]
  refine ⟨F ++ [newBlastedDataList.next], ⟨?_, ?_, ?_, ?_, ?_, ?_, ?_, ?_, ?_, ?_, ?_⟩, by simp, ?_, ?_⟩
  · rw [hctx, hprec, hinfo]
    simp only [List.append_nil]
    exact hlive.trans List.perm_append_comm
  · exact hlive.nodup_iff.2 g.nodup
  · intro x hx
    exact (g.fresh x (hlive.mem_iff.1 hx)).2
  · rw [hctx]
    have := g.size
    simpa [newBlastedDataList] using this
  · rcases g.fac with ⟨h, -⟩ | ⟨f, hf, h1, h2⟩
    · simp at h
    · exact .inl ⟨h2, f, hf, h1⟩
  · rw [hctx]
    intro nd hnd
    rcases g0.nodeFac nd hnd with h | ⟨f, hf, h⟩
    · exact .inl ⟨newBlastedDataList.next, by simp, h⟩
    · exact .inl ⟨f, by simp [hf], h⟩
  · rw [hctx]
    intro nd hnd _
    exact ⟨(g.clean nd hnd).1, (g.clean nd hnd).2.1⟩
  · rw [hreg]
    exact hsub.nodup (List.nodup_reverse.2 hn)
  · rw [hreg]
    exact g.regsub.nodup (List.nodup_append.1 g.nodup).1
  · rw [hreg, hctx]
    intro o ho
    exact g.regsub.subset ho
  · rw [hctx]
    intro nd hnd h
    exact absurd (g.clean nd hnd).1 h
  · intro h
    obtain ⟨s1, -⟩ := hs h
    rw [List.length_append, s1, List.length_singleton]
    have := Ksp.visited_pos k
    omega
  · intro x hx
    refine ⟨hlive.mem_iff.2 (by rw [List.mem_append]; exact Or.inr hx), ?_⟩
    rw [hctx]
    intro hx2
    exact (List.nodup_append.1 g.nodup).2.2 x hx2 x hx rfl

/-- The state after a sequence of calls made by PETSc, each with the options database of its time, for any preconditioners in any order. -/
def runCalls (calls : List (PEnv × Nat)) (st : PState) : PState := calls.foldl (fun st c => (computePc c.1 c.2 st).1) st

theorem runCalls_inv {F : List Nat} {st : PState} (hI : Inv F st) (calls : List (PEnv × Nat)) : Inv F (runCalls calls st) := by
  induction calls generalizing st with
  | nil => exact hI
  | cons c calls ih => exact ih (computePc_inv hI c.1 c.2)

/-- Setup of any tree with distinct shell preconditioners (supported or not), any calls of PETSc (whether they fail or not), destruction of the solvers and then of the list: no
object is deleted twice or used after deletion, the list is empty, and all contexts, preconditioner objects and diagnostics are released. What is not
released are factories, one less than the number of solvers visited. Missing for the full property: the release of these factories. -/
theorem stack_life_cycle_releases_partial (ctx0 : PetscCtx) (k : Ksp) (hn : (k.shells.map Prod.fst).Nodup) (calls : List (PEnv × Nat)) :
    ∃ st3 st4, kspDestroy (runCalls calls (setupStack ctx0 k newBlastedDataList).1) = .ok st3 ∧ destroyList st3 = .ok st4 ∧
      st4.ctxlist = [] ∧ st4.size = 0 ∧
      (∀ x ∈ st4.live, x ∈ (setupStack ctx0 k newBlastedDataList).1.live ∧ x ∉ (setupStack ctx0 k newBlastedDataList).1.ctxlist.map Node.obj) ∧
      (k.Supported → st4.live.length + 1 = k.visited) := by
  obtain ⟨F, hI, hF0, hF, hx⟩ := setupStack_inv ctx0 k hn
  have hI2 := runCalls_inv hI calls
  obtain ⟨st3, h3, l, rfl, hl⟩ := kspDestroy_ok hI2
  obtain ⟨hd, f, hf, hb⟩ := hI2.dflt.resolve_right fun h => hF0 h.1
  obtain ⟨st4, h4, h5, h6, h7⟩ := destroyList_ok (F := F) (f := f)
    (st := { runCalls calls (setupStack ctx0 k newBlastedDataList).1 with live := l }) hd hf hb hI2.size hl
  refine ⟨_, st4, h3, h4, h5, h6, ?_, ?_⟩
  · intro x hx4
    exact hx x (List.mem_of_mem_erase (h7.mem_iff.1 hx4))
  · intro hsup
    rw [h7.length_eq, List.length_erase_of_mem hf, hF hsup]
    have := Ksp.visited_pos k
    omega

example : (sampleTree.shells.map Prod.fst).Nodup := by
  simp [sampleTree, Ksp.shells, Ksp.shellsL]

/-- If the outermost preconditioner is the shell itself, everything is released. -/
theorem shell_life_cycle_releases (ctx0 : PetscCtx) (pc : Nat) (mtype : String) (matbs : Int) (hm : mtype = "seqaij" ∨ mtype = "seqbaij")
    (calls : List (PEnv × Nat)) :
    ∃ st3 st4, kspDestroy (runCalls calls (setupStack ctx0 (.shell pc mtype matbs) newBlastedDataList).1) = .ok st3 ∧
      destroyList st3 = .ok st4 ∧ st4.ctxlist = [] ∧ st4.live = [] := by
  obtain ⟨st3, st4, h1, h2, h3, -, -, h4⟩ := stack_life_cycle_releases_partial ctx0 (.shell pc mtype matbs) (by simp [Ksp.shells]) calls
  refine ⟨st3, st4, h1, h2, h3, ?_⟩
  have hs : Ksp.Supported (.shell pc mtype matbs) := by
    rw [Ksp.Supported]
    rcases hm with h | h
    · exact Or.inl h
    · exact Or.inr (Or.inl h)
  have := h4 hs
  rw [Ksp.visited] at this
  exact List.eq_nil_of_length_eq_zero (by omega)

/-- Finding: with any wrapper around the shell preconditioner (any tree of more than one solver) a factory is never released. -/
theorem stack_life_cycle_leaks (ctx0 : PetscCtx) (k : Ksp) (hk : k.Supported) (hv : 2 ≤ k.visited) (hn : (k.shells.map Prod.fst).Nodup)
    (calls : List (PEnv × Nat)) :
    ∃ st3 st4, kspDestroy (runCalls calls (setupStack ctx0 k newBlastedDataList).1) = .ok st3 ∧ destroyList st3 = .ok st4 ∧ st4.live ≠ [] := by
  obtain ⟨st3, st4, h1, h2, -, -, -, h4⟩ := stack_life_cycle_releases_partial ctx0 k hn calls
  refine ⟨st3, st4, h1, h2, fun h => ?_⟩
  have := h4 hk
  rw [h] at this
  simp at this
  omega

example : 2 ≤ sampleTree.visited := by simp [sampleTree, Ksp.visited, Ksp.visitedL]

/-! ## The factory of the caller -/

/-- Finding: the factory passed to `setup_blasted_stack_ext` is ignored. With a new list, the set-up reports no error and the first use of the preconditioner calls through a null pointer. -/
theorem setup_ext_ignores_factory (ctx0 : PetscCtx) (k : Ksp) (f f' : FactPtr) (st : PState) (env : PEnv) (pc : Nat) (matbs : Int) :
    setupStackExt ctx0 k f st = setupStackExt ctx0 k f' st ∧
    (setupStackExt ctx0 (.shell pc "seqaij" matbs) f newBlastedDataList).2 = false ∧
    (computePc env pc (setupStackExt ctx0 (.shell pc "seqaij" matbs) f newBlastedDataList).1).2 = some .ub := by
  refine ⟨rfl, by simp [setupStackExt, setupExt, setupLocal, appendContext, isLocalMat], ?_⟩
  simp [setupStackExt, setupExt, setupLocal, appendContext, newBlastedDataList, isLocalMat, registerPc, computePc, PState.nodeOf,
    derefFactory]

/-- Finding: even a factory stored in the list by the caller is used only if the outermost preconditioner is the shell itself; behind a wrapper
the default factory replaces it. -/
theorem setup_ext_wrapper_replaces_factory (ctx0 : PetscCtx) (pc u : Nat) (matbs : Int) (st : PState) (hu : st.bfactory = .user u) :
    ((setupStackExt ctx0 (.shell pc "seqaij" matbs) (.user u) st).1.ctxlist.head?.map Node.bfactory = some (.user u)) ∧
    ((setupStackExt ctx0 (.inner (.shell pc "seqaij" matbs)) (.user u) st).1.ctxlist.head?.map Node.bfactory = some (.heap st.next)) ∧
    (setupStackExt ctx0 (.inner (.shell pc "seqaij" matbs)) (.user u) st).1.bfactory = .heap st.next := by
  simp [setupStackExt, setupExt, setupLocal, appendContext, isLocalMat, registerPc, allocFactory, hu]

example : ({ newBlastedDataList with bfactory := .user 3 } : PState).bfactory = .user 3 := rfl

/-- The life cycle with a factory of the caller: `setup_blasted_stack_ext` for a shell preconditioner and a new list in which the caller has stored the
factory `u`, any calls of PETSc, destruction of the solver and then of the list. The factory of the caller is used by the first set-up and is never
deleted, and everything that BLASTed has allocated is released. -/
theorem user_factory_life_cycle (ctx0 : PetscCtx) (pc u : Nat) (mtype : String) (matbs : Int) (hm : mtype = "seqaij" ∨ mtype = "seqbaij")
    (calls : List (PEnv × Nat)) (st : PState)
    (hst : st = (setupStackExt ctx0 (.shell pc mtype matbs) (.user u) { newBlastedDataList with bfactory := .user u }).1) :
    (∀ env, ∃ nd, st.nodeOf pc = some nd ∧ derefFactory env st nd.bfactory = .ok (env.user u)) ∧
    ∃ st3 st4, kspDestroy (runCalls calls st) = .ok st3 ∧ destroyList st3 = .ok st4 ∧ st4.ctxlist = [] ∧ st4.size = 0 ∧ st4.live = [] := by
  have hloc : isLocalMat mtype = true := by rcases hm with rfl | rfl <;> decide
  have e : st = { newBlastedDataList with
      bfactory := .user u, live := [0], next := 1, size := 1, reg := [(pc, 0)]
      ctxlist := [⟨0, { ctx0 with bs := if isBlockMat mtype then matbs else 1, first_setup_done := false }, none, none, .user u⟩]
      richardson := if ctx0.prectype ≠ .ilu0 ∧ ctx0.prectype ≠ .cscBgs ∧ ctx0.prectype ≠ .noPrec then [pc] else [] } := by
    rw [hst]
    simp only [setupStackExt, setupExt, setupLocal, appendContext, newBlastedDataList, hloc, registerPc]
    rfl
  refine ⟨fun env => ⟨⟨0, { ctx0 with bs := if isBlockMat mtype then matbs else 1, first_setup_done := false }, none, none, .user u⟩, ?_, rfl⟩, ?_⟩
  · rw [e]
    simp [PState.nodeOf, List.lookup]
  have hI : Inv [] st := by
    rw [e]
    exact ⟨by simp [Node.precObj, Node.infoObj], by simp, by simp, by simp, .inr ⟨rfl, rfl⟩, fun _ _ => .inr rfl, by simp, by simp, by simp, by simp, by simp⟩
  have hI2 := runCalls_inv hI calls
  obtain ⟨st3, h3, l, rfl, hl⟩ := kspDestroy_ok hI2
  have hd : (runCalls calls st).defaultfactory = false := by
    rcases hI2.dflt with ⟨-, f, hf, -⟩ | h
    · simp at hf
    · exact h.2
  obtain ⟨st4, h4, h5, h6, h7⟩ := destroyList_user (st := { runCalls calls st with live := l }) hd hI2.size (by simpa using hl)
  exact ⟨_, st4, h3, h4, h5, h6, h7⟩

example (ctx0 : PetscCtx) (calls : List (PEnv × Nat)) := user_factory_life_cycle ctx0 10 7 "seqbaij" 4 (.inr rfl) calls _ rfl

/-- Finding: whether a relaxation function is registered is decided by a member that has not been initialized yet. -/
theorem setup_relaxation_from_garbage (ctx0 : PetscCtx) (pc : Nat) (matbs : Int) :
    (pc ∈ (setupStack ctx0 (.shell pc "seqaij" matbs) newBlastedDataList).1.richardson) ↔ ctx0.prectype ∉ [.ilu0, .cscBgs, .noPrec] := by
  simp only [setupStack, setupExt, setupLocal, appendContext, newBlastedDataList, isLocalMat, registerPc, allocFactory]
  generalize ctx0.prectype = t
  cases t <;> simp

/-! ## Calls by PETSc -/

/-- The node of a PC holds an object created with these settings, and so many diagnostics. -/
def Kept (st : PState) (pc : Nat) (ctx : PetscCtx) (obj : Nat) (p : Prec) (info n : Nat) : Prop :=
  ctx.first_setup_done = true ∧ ∃ nd ∈ st.ctxlist, (pc, nd.obj) ∈ st.reg ∧ nd.ctx = ctx ∧ nd.bprec = some (obj, p) ∧
    nd.infolist = (if ctx.compute_precinfo then some (info, n) else none)

theorem mem_setNode_ne {st : PState} {nd : Node} {o : Nat} (hnd : nd ∈ st.ctxlist) (ho : nd.obj ≠ o) (f : Node → Node) :
    nd ∈ (st.setNode o f).ctxlist := by
  show nd ∈ st.ctxlist.map _
  refine List.mem_map.2 ⟨nd, hnd, ?_⟩
  rw [if_neg ho]

theorem reg_obj_inj {l : List (Nat × Nat)} (hn : (l.map Prod.snd).Nodup) {a b o : Nat} (h1 : (a, o) ∈ l) (h2 : (b, o) ∈ l) : a = b := by
  have := List.inj_on_of_nodup_map hn h1 h2 rfl
  exact congrArg Prod.fst this

theorem updatePreconditioner_other {st : PState} {nd nd2 : Node} (hnd : nd ∈ st.ctxlist) (ho : nd.obj ≠ nd2.obj) :
    nd ∈ (updatePreconditioner st nd2).1.ctxlist := by
  unfold updatePreconditioner
  split
  · exact hnd
  · split
    · exact hnd
    split
    · split
      · exact hnd
      · split
        · exact hnd
        · exact mem_setNode_ne hnd ho _
    · exact hnd

theorem updatePreconditioner_reg (st : PState) (nd2 : Node) : (updatePreconditioner st nd2).1.reg = st.reg := by
  unfold updatePreconditioner
  split
  · rfl
  · split
    · rfl
    split
    · split
      · rfl
      · split <;> rfl
    · rfl

theorem created_reg (st : PState) (nd : Node) (p : Prec) : (st.created nd p).reg = st.reg := by
  unfold PState.created
  split <;> rfl

theorem computePc_reg (env : PEnv) (pc : Nat) (st : PState) : (computePc env pc st).1.reg = st.reg := by
  unfold computePc
  split
  · rfl
  · split
    · exact updatePreconditioner_reg _ _
    · split
      · rfl
      · split
        · rfl
        · split
          · rfl
          · dsimp only
            rw [updatePreconditioner_reg, created_reg]
            rfl

/-- Calls for another PC leave the node of this one alone. -/
theorem computePc_other {F : List Nat} {st : PState} (hI : Inv F st) (env : PEnv) {pc pc2 : Nat} (hne : pc ≠ pc2) {nd : Node}
    (hnd : nd ∈ st.ctxlist) (hr : (pc, nd.obj) ∈ st.reg) : nd ∈ (computePc env pc2 st).1.ctxlist := by
  unfold computePc
  cases hn : st.nodeOf pc2 with
  | none => exact hnd
  | some nd2 =>
    obtain ⟨h1, h2⟩ := nodeOf_some hn
    have ho : nd.obj ≠ nd2.obj := by
      intro he
      rw [he] at hr
      exact hne (reg_obj_inj hI.regobj hr h2)
    dsimp only
    split
    · exact updatePreconditioner_other hnd ho
    · split
      · exact hnd
      · split
        · exact hnd
        · split
          · exact mem_setNode_ne hnd ho _
          · refine updatePreconditioner_other ?_ ho
            unfold PState.created
            split <;> exact mem_setNode_ne (mem_setNode_ne hnd ho _) ho _

theorem Kept.update {F : List Nat} {st : PState} (hI : Inv F st) {nd : Node} (hnd : nd ∈ st.ctxlist) {pc : Nat} (hr : (pc, nd.obj) ∈ st.reg)
    (hd : nd.ctx.first_setup_done = true) {obj : Nat} {p : Prec} (hb : nd.bprec = some (obj, p)) {info n : Nat}
    (hi : nd.infolist = (if nd.ctx.compute_precinfo then some (info, n) else none)) :
    (updatePreconditioner st nd).2 = none ∧ Kept (updatePreconditioner st nd).1 pc nd.ctx obj p info (n + 1) := by
  unfold updatePreconditioner
  rw [hb]
  dsimp only
  have hl : obj ∈ st.live := hI.live.mem_iff.2 (by
    have : obj ∈ st.ctxlist.filterMap Node.precObj := List.mem_filterMap.2 ⟨nd, hnd, by simp [Node.precObj, hb]⟩
    simp [this])
  rw [if_neg (not_not.2 hl)]
  by_cases hc : nd.ctx.compute_precinfo = true
  · rw [if_pos hc] at hi ⊢
    have hli : info ∈ st.live := hI.live.mem_iff.2 (by
      have : info ∈ st.ctxlist.filterMap Node.infoObj := List.mem_filterMap.2 ⟨nd, hnd, by simp [Node.infoObj, hi]⟩
      simp [this])
    rw [hi]
    dsimp only
    rw [if_neg (not_not.2 hli)]
    refine ⟨rfl, hd, { nd with infolist := some (info, n + 1) }, ?_, hr, rfl, hb, ?_⟩
    · exact mem_setNode hI hnd (fun nd => { nd with infolist := some (info, n + 1) })
    · rw [if_pos hc]
  · rw [if_neg hc] at hi ⊢
    exact ⟨rfl, hd, nd, hnd, hr, rfl, hb, by rw [hi, if_neg hc]⟩

theorem Kept.step {F : List Nat} {st : PState} (hI : Inv F st) {pc : Nat} {ctx : PetscCtx} {obj : Nat} {p : Prec} {info n : Nat}
    (h : Kept st pc ctx obj p info n) (env : PEnv) (pc2 : Nat) :
    Kept (computePc env pc2 st).1 pc ctx obj p info (n + if pc2 = pc then 1 else 0) ∧ (pc2 = pc → (computePc env pc2 st).2 = none) := by
  obtain ⟨hd, nd, hnd, hr, rfl, hb, hi⟩ := h
  by_cases he : pc2 = pc
  · subst he
    have hu := Kept.update hI hnd hr hd hb hi
    have : computePc env pc2 st = updatePreconditioner st nd := by
      unfold computePc
      rw [nodeOf_of_mem hI hnd hr]
      dsimp only
      rw [if_pos hd]
    rw [this, if_pos rfl]
    exact ⟨hu.2, fun _ => hu.1⟩
  · rw [if_neg he, Nat.add_zero]
    refine ⟨⟨hd, nd, computePc_other hI env (fun h => he h.symm) hnd hr, ?_, rfl, hb, hi⟩, fun h => absurd h he⟩
    rw [computePc_reg]
    exact hr

theorem Kept.run {F : List Nat} {st : PState} (hI : Inv F st) {pc : Nat} {ctx : PetscCtx} {obj : Nat} {p : Prec} {info n : Nat}
    (h : Kept st pc ctx obj p info n) (calls : List (PEnv × Nat)) :
    Kept (runCalls calls st) pc ctx obj p info (n + (calls.map Prod.snd).count pc) := by
  induction calls generalizing st n with
  | nil => exact h
  | cons c calls ih =>
    have h1 := (h.step hI c.1 c.2).1
    have h2 := ih (computePc_inv hI c.1 c.2) h1
    have hk : n + (if c.2 = pc then 1 else 0) + (calls.map Prod.snd).count pc = n + ((c :: calls).map Prod.snd).count pc := by
      rw [List.map_cons, List.count_cons]
      by_cases he : c.2 = pc
      · simp [he]; omega
      · simp [he]
    rw [hk] at h2
    exact h2

theorem Inv.deref {F : List Nat} {st : PState} (hI : Inv F st) (hF : F ≠ []) (env : PEnv) {nd : Node} (hnd : nd ∈ st.ctxlist) :
    derefFactory env st nd.bfactory = .ok srFactory := by
  obtain ⟨f, hf, h⟩ := (hI.nodeFac nd hnd).resolve_right hF
  have hm : f ∈ st.live := hI.live.mem_iff.2 (by simp [hf])
  rw [h]
  simp [derefFactory, hm]

/-- The first successful call creates one preconditioner object as the options of that time say (see `petsc_options_correct_partial`). After it, whatever calls are made
for this or other preconditioners, with whatever options, calls for this one return normally and work with the same object and settings. If
diagnostics were requested, one item is recorded per call. -/
theorem compute_preconditioner_reuses (ctx0 : PetscCtx) (k : Ksp) (hn : (k.shells.map Prod.fst).Nodup) (calls0 calls : List (PEnv × Nat))
    (env : PEnv) (pc : Nat) (nd : Node) (st st' : PState)
    (hst : st = runCalls calls0 (setupStack ctx0 k newBlastedDataList).1) (hnd : st.nodeOf pc = some nd)
    (hfirst : nd.ctx.first_setup_done = false) (hcall : computePc env pc st = (st', none)) :
    ∃ ctx p obj info, firstSetup env.opts env.g nd.ctx = .ok (ctx, p) ∧
      ∃ nd', (runCalls calls st').nodeOf pc = some nd' ∧ nd'.ctx = ctx ∧ nd'.bprec = some (obj, p) ∧
        nd'.infolist = (if ctx.compute_precinfo then some (info, 1 + (calls.map Prod.snd).count pc) else none) ∧
        ∀ env', (computePc env' pc (runCalls calls st')).2 = none := by
  obtain ⟨F, hI0, hF0, -, -⟩ := setupStack_inv ctx0 k hn
  have hI : Inv F st := hst ▸ runCalls_inv hI0 calls0
  obtain ⟨hmem, hr⟩ := nodeOf_some hnd
  have hI1 : Inv F st' := by
    have := computePc_inv hI env pc
    rw [hcall] at this
    exact this
  obtain ⟨hb, hil⟩ := hI.unset nd hmem hfirst
  unfold computePc at hcall
  rw [hnd] at hcall
  dsimp only at hcall
  rw [if_neg (by simp [hfirst]), hI.deref hF0 env hmem] at hcall
  dsimp only [srFactory] at hcall
  cases hs : setupDataFromOptions solverTypeFromString env.opts nd.ctx with
  | error e => rw [hs] at hcall; simp at hcall
  | ok ctx =>
    rw [hs] at hcall
    dsimp only at hcall
    cases hp : createNewPreconditioner solverTypeFromString createPreconditioner env.g ctx with
    | error e => rw [hp] at hcall; simp at hcall
    | ok p =>
      rw [hp] at hcall
      dsimp only at hcall
      have hd := setupDataFromOptions_done hs
      have hI2 : Inv F (st.setNode nd.obj (Node.afterOptions ctx)) :=
        hI.setNode hmem rfl (by simp [Node.afterOptions, Node.precObj, hb]) rfl rfl (by simp [Node.afterOptions, hd])
      have hm2 := mem_setNode hI hmem (Node.afterOptions ctx)
      have hro : (nd.afterOptions ctx).obj ∈ (st.setNode nd.obj (Node.afterOptions ctx)).reg.map Prod.snd :=
        List.mem_map.2 ⟨(pc, nd.obj), hr, rfl⟩
      have h3 := hI2.created hm2 hro rfl (by simpa [Node.afterOptions] using hil) (by simpa [Node.afterOptions] using hd) p
      have hu := Kept.update (n := 0) (info := st.next + 1) (obj := st.next) (p := p) (pc := pc) h3.1 h3.2 (by rw [created_reg]; exact hr)
        (by simpa [Node.created, Node.afterOptions] using hd) rfl rfl
      have e : (updatePreconditioner ((st.setNode nd.obj (Node.afterOptions ctx)).created (nd.afterOptions ctx) p)
          ((nd.afterOptions ctx).created (st.setNode nd.obj (Node.afterOptions ctx)).next p)).1 = st' := by
        have := congrArg Prod.fst hcall
        exact this
      rw [e] at hu
      obtain ⟨_, nd', m1, m2, m3, m4, m5⟩ := (hu.2.run hI1 calls)
      refine ⟨ctx, p, st.next, st.next + 1, ?_, nd', nodeOf_of_mem (runCalls_inv hI1 calls) m1 m2, m3, m4, ?_, ?_⟩
      · unfold firstSetup
        rw [hs, ok_bind, hp, ok_bind]
      · rw [m5]
        simp [Node.created, Node.afterOptions]
      · intro env'
        exact ((hu.2.run hI1 calls).step (runCalls_inv hI1 calls) env' pc).2 rfl

/-- A tree, options and a call as in the hypotheses. -/
example : ∃ nd st', (setupStack (sampleContext 0) (.shell 5 "seqbaij" 4) newBlastedDataList).1.nodeOf 5 = some nd ∧ nd.ctx.first_setup_done = false ∧
    computePc ⟨fun _ => srFactory, sampleOptions "sgs" 1 3, sampleSettings .external 0⟩ 5
      (setupStack (sampleContext 0) (.shell 5 "seqbaij" 4) newBlastedDataList).1 = (st', none) := by
  simp only [setupStack, setupExt]
  exact ⟨_, _, rfl, rfl, rfl⟩

/-- Finding: after a setup that fails when the preconditioner object is created (for instance because the block size is not supported), the next call
dereferences a null pointer. -/
theorem compute_after_failed_setup_ub (ctx0 : PetscCtx) (k : Ksp) (hn : (k.shells.map Prod.fst).Nodup) (env env' : PEnv) (pc : Nat) (nd : Node)
    (ctx : PetscCtx) (e : Fail) (hnd : (setupStack ctx0 k newBlastedDataList).1.nodeOf pc = some nd)
    (hs : setupDataFromOptions solverTypeFromString env.opts nd.ctx = .ok ctx)
    (hp : createNewPreconditioner solverTypeFromString createPreconditioner env.g ctx = .error e) :
    (computePc env pc (setupStack ctx0 k newBlastedDataList).1).2 = some e ∧
    (computePc env' pc (computePc env pc (setupStack ctx0 k newBlastedDataList).1).1).2 = some .ub := by
  obtain ⟨F, hI, hF0, -, -⟩ := setupStack_inv ctx0 k hn
  obtain ⟨N, F', R, g, -⟩ := setupExt_post ctx0 k (allocFactory newBlastedDataList)
  have hclean : ∀ nd ∈ (setupStack ctx0 k newBlastedDataList).1.ctxlist, nd.bprec = none ∧ nd.infolist = none ∧ nd.ctx.first_setup_done = false := by
    intro nd hnd
    have hc : (setupStack ctx0 k newBlastedDataList).1.ctxlist = N := g.ctx.trans (List.append_nil N)
    rw [hc] at hnd
    exact g.clean nd hnd
  generalize (setupStack ctx0 k newBlastedDataList).1 = st at *
  obtain ⟨hmem, hr⟩ := nodeOf_some hnd
  obtain ⟨hb, hil, hf⟩ := hclean nd hmem
  have hd := setupDataFromOptions_done hs
  have h1 : computePc env pc st = (st.setNode nd.obj (Node.afterOptions ctx), some e) := by
    unfold computePc
    rw [hnd]
    dsimp only
    rw [if_neg (by simp [hf]), hI.deref hF0 env hmem]
    dsimp only [srFactory]
    rw [hs]
    dsimp only
    rw [hp]
  have hI2 : Inv F (st.setNode nd.obj (Node.afterOptions ctx)) :=
    hI.setNode hmem rfl (by simp [Node.afterOptions, Node.precObj, hb]) rfl rfl (by simp [Node.afterOptions, hd])
  rw [h1]
  refine ⟨rfl, ?_⟩
  dsimp only
  unfold computePc
  rw [nodeOf_of_mem hI2 (mem_setNode hI hmem (Node.afterOptions ctx)) (pc := pc) hr]
  dsimp only
  rw [if_pos (by simpa [Node.afterOptions] using hd)]
  rfl

example : ∃ nd ctx e, (setupStack (sampleContext 0) (.shell 5 "seqbaij" 3) newBlastedDataList).1.nodeOf 5 = some nd ∧
    setupDataFromOptions solverTypeFromString (sampleOptions "ilu0" 1 3) nd.ctx = .ok ctx ∧
    createNewPreconditioner solverTypeFromString createPreconditioner (sampleSettings .external 0) ctx = .error e := by
  simp only [setupStack, setupExt]
  exact ⟨_, _, _, rfl, rfl, rfl⟩

end Blasted
