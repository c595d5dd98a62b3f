import Verif.Factory.StackProps

/-!
# The order in which the solver and the list of contexts are destroyed
-/

namespace Blasted

theorem del_reg {st st' : PState} {o : Option Nat} (h : st.del o = .ok st') :
    st'.reg = st.reg ∧ st'.ctxlist = st.ctxlist ∧ st'.defaultfactory = st.defaultfactory := by
  cases o with
  | none =>
    simp only [PState.del, Except.ok.injEq] at h
    subst h
    exact ⟨rfl, rfl, rfl⟩
  | some k =>
    unfold PState.del at h
    dsimp only at h
    split at h
    · simp only [Except.ok.injEq] at h
      subst h
      exact ⟨rfl, rfl, rfl⟩
    · simp at h

theorem destroyNode_reg {nd : Node} {st st' : PState} (h : destroyNode nd st = .ok st') :
    st'.reg = st.reg ∧ st'.defaultfactory = st.defaultfactory := by
  unfold destroyNode at h
  cases h1 : st.del (nd.infolist.map Prod.fst) with
  | error e => rw [h1] at h; simp [error_bind] at h
  | ok s1 =>
    rw [h1, ok_bind] at h
    cases h2 : s1.del (some nd.obj) with
    | error e => rw [h2] at h; simp [error_bind] at h
    | ok s2 =>
      rw [h2, ok_bind] at h
      simp only [Except.ok.injEq] at h
      subst h
      exact ⟨(del_reg h2).1.trans (del_reg h1).1, (del_reg h2).2.2.trans (del_reg h1).2.2⟩

theorem destroyNodes_reg (nodes : List Node) : ∀ {st st' : PState}, forList nodes destroyNode st = .ok st' →
    st'.reg = st.reg ∧ st'.defaultfactory = st.defaultfactory := by
  induction nodes with
  | nil =>
    intro st st' h
    simp only [forList_nil, Except.ok.injEq] at h
    subst h
    exact ⟨rfl, rfl⟩
  | cons nd nodes ih =>
    intro st st' h
    rw [forList_cons] at h
    cases h1 : destroyNode nd st with
    | error e => rw [h1] at h; simp [error_bind] at h
    | ok s1 =>
      rw [h1, ok_bind] at h
      exact ⟨(ih h).1.trans (destroyNode_reg h1).1, (ih h).2.trans (destroyNode_reg h1).2⟩

theorem destroyFactory_reg {st st' : PState} (h : destroyFactory st = .ok st') : st'.reg = st.reg ∧ st'.defaultfactory = false := by
  unfold destroyFactory at h
  split at h
  · split at h
    · simp only [Except.ok.injEq] at h
      subst h
      exact ⟨rfl, rfl⟩
    · simp at h
    · rename_i k _
      cases h1 : st.del (some k) with
      | error e => rw [h1] at h; simp [error_bind] at h
      | ok s1 =>
        rw [h1, ok_bind] at h
        simp only [Except.ok.injEq] at h
        subst h
        exact ⟨(del_reg h1).1, rfl⟩
  · rename_i hd
    simp only [Except.ok.injEq] at h
    subst h
    exact ⟨rfl, by simpa using hd⟩

theorem destroyList_reg {st st' : PState} (h : destroyList st = .ok st') : st'.reg = st.reg ∧ st'.defaultfactory = false := by
  unfold destroyList at h
  cases h1 : destroyFactory st with
  | error e => rw [h1] at h; simp [error_bind] at h
  | ok s1 =>
    rw [h1, ok_bind] at h
    cases h2 : forList s1.ctxlist destroyNode s1 with
    | error e => rw [h2] at h; simp [error_bind] at h
    | ok s2 =>
      rw [h2, ok_bind] at h
      split at h
      · simp at h
      · simp only [Except.ok.injEq] at h
        subst h
        exact ⟨(destroyNodes_reg _ h2).1.trans (destroyFactory_reg h1).1, (destroyNodes_reg _ h2).2.trans (destroyFactory_reg h1).2⟩

theorem runCalls_reg (calls : List (PEnv × Nat)) (st : PState) : (runCalls calls st).reg = st.reg := by
  induction calls generalizing st with
  | nil => rfl
  | cons c calls ih => exact (ih _).trans (computePc_reg _ _ _)

theorem lookup_isSome {l : List (Nat × Nat)} {a : Nat} (h : a ∈ l.map Prod.fst) : (l.lookup a).isSome = true := by
  induction l with
  | nil => simp at h
  | cons x l ih =>
    obtain ⟨b, c⟩ := x
    rw [List.lookup_cons]
    cases hb : a == b with
    | true => rfl
    | false =>
      simp only [List.map_cons, List.mem_cons] at h
      rcases h with h | h
      · simp [h] at hb
      · exact ih h

theorem setupStack_registered (ctx0 : PetscCtx) (k : Ksp) (hk : k.Supported) {pc : Nat} (hpc : pc ∈ k.shells.map Prod.fst) :
    pc ∈ (setupStack ctx0 k newBlastedDataList).1.reg.map Prod.fst := by
  obtain ⟨N, -, h2, -, h4, -⟩ := (setup_blasted_stack_correct ctx0 k newBlastedDataList (by simp [newBlastedDataList])).2 hk
  rw [h4, List.map_append, List.mem_append]
  left
  rw [List.map_fst_zip (by simp [h2])]
  simpa using hpc

/-- Finding: if the list of contexts is destroyed before the solver, then the destruction of the list succeeds, but no preconditioner object is released,
every further set-up call for any of the preconditioners uses a deleted context, and so does the destruction of the solver. -/
theorem list_destroyed_first_ub (ctx0 : PetscCtx) (k : Ksp) (hk : k.Supported) (hn : (k.shells.map Prod.fst).Nodup)
    (calls : List (PEnv × Nat)) (st : PState) (hst : st = runCalls calls (setupStack ctx0 k newBlastedDataList).1) :
    ∃ st1, destroyList st = .ok st1 ∧ st1.ctxlist = [] ∧
      (∀ nd ∈ st.ctxlist, ∀ o p, nd.bprec = some (o, p) → o ∈ st1.live) ∧
      (∀ pc ∈ k.shells.map Prod.fst, ∀ env, (computePc env pc st1).2 = some .ub) ∧
      (k.shells ≠ [] → kspDestroy st1 = .error .ub) := by
  obtain ⟨F, hI0, hF0, -, -⟩ := setupStack_inv ctx0 k hn
  have hI : Inv F st := hst ▸ runCalls_inv hI0 calls
  obtain ⟨hd, f, hf, hb⟩ := hI.dflt.resolve_right fun h => hF0 h.1
  have hl : st.live.Perm ((F ++ st.ctxlist.filterMap Node.precObj) ++ (st.ctxlist.map Node.obj ++ st.ctxlist.filterMap Node.infoObj)) := by
    refine hI.live.trans ?_
    rw [List.append_assoc]
    refine List.Perm.append_left F ?_
    rw [← List.append_assoc, ← List.append_assoc]
    exact List.Perm.append_right _ List.perm_append_comm
  obtain ⟨st1, h1, h2, h3, h4⟩ := destroyList_ok (f := f) hd (List.mem_append_left _ hf) hb hI.size hl
  have hreg : st1.reg = st.reg := (destroyList_reg h1).1
  have hreg0 : st.reg = (setupStack ctx0 k newBlastedDataList).1.reg := by rw [hst, runCalls_reg]
  have hnone : ∀ pc, st1.nodeOf pc = none := by
    intro pc
    unfold PState.nodeOf
    rw [h2]
    simp
  refine ⟨st1, h1, h2, ?_, ?_, ?_⟩
  · intro nd hnd o p ho
    refine h4.mem_iff.2 ?_
    rw [List.erase_append_left _ hf, List.mem_append]
    exact Or.inr (List.mem_filterMap.2 ⟨nd, hnd, by simp [Node.precObj, ho]⟩)
  · intro pc hpc env
    unfold computePc
    rw [hnone pc]
    dsimp only
    rw [if_pos (lookup_isSome (by rw [hreg, hreg0]; exact setupStack_registered ctx0 k hk hpc))]
  · intro hne
    obtain ⟨x, hx⟩ := List.exists_mem_of_ne_nil _ hne
    have hm := setupStack_registered ctx0 k hk (List.mem_map.2 ⟨x, hx, rfl⟩)
    rw [← hreg0, ← hreg] at hm
    unfold kspDestroy
    cases hr : st1.reg.map Prod.fst with
    | nil => rw [hr] at hm; simp at hm
    | cons a l =>
      rw [forList_cons]
      unfold cleanupPc
      rw [hnone a]
      rfl

example : sampleTree.Supported ∧ sampleTree.shells ≠ [] ∧ (sampleTree.shells.map Prod.fst).Nodup := by
  refine ⟨?_, ?_, ?_⟩ <;> simp [sampleTree, Ksp.Supported, Ksp.SupportedL, Ksp.shells, Ksp.shellsL]

theorem prec_deleted (ctx0 : PetscCtx) (k : Ksp) (hn : (k.shells.map Prod.fst).Nodup) (calls : List (PEnv × Nat))
    (st st3 : PState) (hst : st = runCalls calls (setupStack ctx0 k newBlastedDataList).1) (h3 : kspDestroy st = .ok st3)
    (pc : Nat) (nd : Node) (hnd : st.nodeOf pc = some nd) (o : Nat) (p : Prec) (hp : nd.bprec = some (o, p)) :
    st3.nodeOf pc = some nd ∧ o ∉ st3.live := by
  obtain ⟨F, hI0, -, -, -⟩ := setupStack_inv ctx0 k hn
  have hI : Inv F st := hst ▸ runCalls_inv hI0 calls
  obtain ⟨st3', h3', l, rfl, hl⟩ := kspDestroy_ok hI
  rw [h3] at h3'
  injection h3' with h3'
  subst h3'
  have hmem := (nodeOf_some hnd).1
  have hno : o ∉ l := by
    intro ho
    have ho2 := hl.mem_iff.1 ho
    have hnd2 := (hI.live.nodup_iff).1 hI.nodup
    have ho3 : o ∈ st.ctxlist.filterMap Node.precObj := List.mem_filterMap.2 ⟨nd, hmem, by simp [Node.precObj, hp]⟩
    rw [List.nodup_append] at hnd2
    obtain ⟨-, n2, n3⟩ := hnd2
    rw [List.nodup_append] at n2
    obtain ⟨-, n4, n5⟩ := n2
    rw [List.nodup_append] at n4
    simp only [List.mem_append] at ho2
    rcases ho2 with h | h | h
    · exact n3 o h o (by simp [ho3]) rfl
    · exact n5 o h o (by simp [ho3]) rfl
    · exact n4.2.2 o ho3 o h rfl
  exact ⟨hnd, hno⟩

/-- Finding: after the destruction of the solver the pointers to the deleted preconditioner objects remain in the contexts. A further set-up call for a
preconditioner that had been set up uses the deleted object. -/
theorem solver_destroyed_dangling (ctx0 : PetscCtx) (k : Ksp) (hn : (k.shells.map Prod.fst).Nodup) (calls : List (PEnv × Nat))
    (st st3 : PState) (hst : st = runCalls calls (setupStack ctx0 k newBlastedDataList).1) (h3 : kspDestroy st = .ok st3)
    (pc : Nat) (nd : Node) (hnd : st.nodeOf pc = some nd) (o : Nat) (p : Prec) (hp : nd.bprec = some (o, p)) (env : PEnv) :
    st3.nodeOf pc = some nd ∧ o ∉ st3.live ∧ (computePc env pc st3).2 = some .ub := by
  obtain ⟨F, hI0, -, -, -⟩ := setupStack_inv ctx0 k hn
  have hI : Inv F st := hst ▸ runCalls_inv hI0 calls
  have hmem := (nodeOf_some hnd).1
  obtain ⟨hnode, hno⟩ := prec_deleted ctx0 k hn calls st st3 hst h3 pc nd hnd o p hp
  refine ⟨hnode, hno, ?_⟩
  have hset : nd.ctx.first_setup_done = true := by
    cases h : nd.ctx.first_setup_done with
    | true => rfl
    | false =>
      have := (hI.unset nd hmem h).1
      rw [hp] at this
      simp at this
  unfold computePc
  rw [hnode]
  dsimp only
  rw [if_pos hset]
  unfold updatePreconditioner
  rw [hp]
  dsimp only
  rw [if_pos hno]

/-- Finding: the clean-up callback does not reset the pointer to the preconditioner object it deletes. A second clean-up of a preconditioner that had been set up deletes the object
again, which is undefined; one that had not been set up may be cleaned up any number of times. -/
theorem cleanup_twice_ub (ctx0 : PetscCtx) (k : Ksp) (hn : (k.shells.map Prod.fst).Nodup) (calls : List (PEnv × Nat))
    (st st3 : PState) (hst : st = runCalls calls (setupStack ctx0 k newBlastedDataList).1) (h3 : kspDestroy st = .ok st3)
    (pc : Nat) (nd : Node) (hnd : st.nodeOf pc = some nd) :
    (nd.bprec ≠ none → cleanupPc pc st3 = .error .ub) ∧ (nd.bprec = none → cleanupPc pc st3 = .ok st3) := by
  refine ⟨fun hp => ?_, fun hp => ?_⟩
  · cases e : nd.bprec with
    | none => exact absurd e hp
    | some op =>
      obtain ⟨h1, h2⟩ := prec_deleted ctx0 k hn calls st st3 hst h3 pc nd hnd op.1 op.2 e
      unfold cleanupPc
      rw [h1]
      dsimp only
      rw [e]
      simp [PState.del, h2]
  · obtain ⟨F, hI0, -, -, -⟩ := setupStack_inv ctx0 k hn
    have hI : Inv F st := hst ▸ runCalls_inv hI0 calls
    obtain ⟨st3', h3', l, rfl, hl⟩ := kspDestroy_ok hI
    rw [h3] at h3'
    injection h3' with h3'
    subst h3'
    unfold cleanupPc
    rw [show ({ st with live := l } : PState).nodeOf pc = some nd from hnd]
    dsimp only
    rw [hp]
    rfl

/-- A preconditioner that has been set up, before and after the destruction of the solver. -/
example : ∃ st nd st3, st = runCalls [(⟨fun _ => srFactory, sampleOptions "sgs" 1 3, sampleSettings .external 0⟩, 5)]
      (setupStack (sampleContext 0) (.shell 5 "seqbaij" 4) newBlastedDataList).1 ∧
    st.nodeOf 5 = some nd ∧ nd.bprec ≠ none ∧ kspDestroy st = .ok st3 := by
  simp only [setupStack, setupExt]
  exact ⟨_, _, _, rfl, rfl, Option.some_ne_none _, rfl⟩

/-- In the documented order (first the solver, then the list) the list may be destroyed again: nothing happens. -/
theorem list_destroyed_twice (ctx0 : PetscCtx) (k : Ksp) (hn : (k.shells.map Prod.fst).Nodup) (calls : List (PEnv × Nat)) :
    ∃ st3 st4, kspDestroy (runCalls calls (setupStack ctx0 k newBlastedDataList).1) = .ok st3 ∧ destroyList st3 = .ok st4 ∧
      destroyList st4 = .ok st4 := by
  obtain ⟨st3, st4, h3, h4, h5, h6, -⟩ := stack_life_cycle_releases_partial ctx0 k hn calls
  refine ⟨st3, st4, h3, h4, ?_⟩
  unfold destroyList destroyFactory
  rw [if_neg (by simp [(destroyList_reg h4).2]), ok_bind, h5, forList_nil, ok_bind, if_neg (by simp [h6])]

end Blasted
