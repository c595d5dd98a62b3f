import Verif.Factory.StackLemmas

/-!
# Lemmas about the life of the contexts
-/

namespace Blasted

/-- The heap object of the preconditioner of a node. -/
def Node.precObj (nd : Node) : Option Nat := nd.bprec.map Prod.fst

/-- The heap object of the diagnostics of a node. -/
def Node.infoObj (nd : Node) : Option Nat := nd.infolist.map Prod.fst

/-- The invariant of a list of contexts between its setup and its destruction; `F` are the factories allocated, none if the caller provides one. -/
structure Inv (F : List Nat) (st : PState) : Prop where
  live : st.live.Perm
    (F ++ (st.ctxlist.map Node.obj ++ (st.ctxlist.filterMap Node.precObj ++ st.ctxlist.filterMap Node.infoObj)))
  nodup : st.live.Nodup
  bound : ∀ x ∈ st.live, x < st.next
  size : st.size = st.ctxlist.length
  dflt : (st.defaultfactory = true ∧ ∃ f ∈ F, st.bfactory = .heap f) ∨ (F = [] ∧ st.defaultfactory = false)
  nodeFac : ∀ nd ∈ st.ctxlist, (∃ f ∈ F, nd.bfactory = .heap f) ∨ F = []
  unset : ∀ nd ∈ st.ctxlist, nd.ctx.first_setup_done = false → nd.bprec = none ∧ nd.infolist = none
  regpc : (st.reg.map Prod.fst).Nodup
  regobj : (st.reg.map Prod.snd).Nodup
  regsub : ∀ o ∈ st.reg.map Prod.snd, o ∈ st.ctxlist.map Node.obj
  precreg : ∀ nd ∈ st.ctxlist, nd.bprec ≠ none → nd.obj ∈ st.reg.map Prod.snd

theorem Inv.objs_nodup {F : List Nat} {st : PState} (h : Inv F st) : (st.ctxlist.map Node.obj).Nodup := by
  have h1 := (h.live.nodup_iff).1 h.nodup
  exact (List.nodup_append.1 (List.nodup_append.1 h1).2.1).1

/-! ## Finding and changing a node -/

theorem lookup_mem {l : List (Nat × Nat)} {a b : Nat} (h : l.lookup a = some b) : (a, b) ∈ l := by
  induction l with
  | nil => simp at h
  | cons x l ih =>
    obtain ⟨x1, x2⟩ := x
    rw [List.lookup_cons] at h
    by_cases hx : a = x1
    · subst hx
      simp at h
      simp [h]
    · rw [beq_false_of_ne hx] at h
      exact List.mem_cons_of_mem _ (ih h)

theorem lookup_of_mem {l : List (Nat × Nat)} {a b : Nat} (hn : (l.map Prod.fst).Nodup) (h : (a, b) ∈ l) : l.lookup a = some b := by
  induction l with
  | nil => simp at h
  | cons x l ih =>
    obtain ⟨x1, x2⟩ := x
    rw [List.map_cons, List.nodup_cons] at hn
    rw [List.lookup_cons]
    rcases List.mem_cons.1 h with h | h
    · injection h with h1 h2
      subst h1; subst h2
      simp
    · have hx : a ≠ x1 := by
        intro he
        exact hn.1 (List.mem_map.2 ⟨(a, b), h, he⟩)
      rw [beq_false_of_ne hx]
      exact ih hn.2 h

theorem find_obj {l : List Node} (hn : (l.map Node.obj).Nodup) {nd : Node} (h : nd ∈ l) : l.find? (fun x => x.obj = nd.obj) = some nd := by
  induction l with
  | nil => simp at h
  | cons x l ih =>
    rw [List.map_cons, List.nodup_cons] at hn
    rw [List.find?_cons]
    rcases List.mem_cons.1 h with h | h
    · subst h
      simp
    · have hx : x.obj ≠ nd.obj := by
        intro he
        exact hn.1 (he ▸ List.mem_map.2 ⟨_, h, rfl⟩)
      simp only [hx, decide_false]
      exact ih hn.2 h

theorem nodeOf_some {st : PState} {pc : Nat} {nd : Node} (h : st.nodeOf pc = some nd) : nd ∈ st.ctxlist ∧ (pc, nd.obj) ∈ st.reg := by
  unfold PState.nodeOf at h
  rw [Option.bind_eq_some_iff] at h
  obtain ⟨o, ho, hf⟩ := h
  have h1 := List.mem_of_find?_eq_some hf
  have h2 := List.find?_some hf
  simp only [decide_eq_true_eq] at h2
  exact ⟨h1, h2 ▸ lookup_mem ho⟩

theorem nodeOf_of_mem {F : List Nat} {st : PState} (hI : Inv F st) {pc : Nat} {nd : Node} (h1 : nd ∈ st.ctxlist) (h2 : (pc, nd.obj) ∈ st.reg) :
    st.nodeOf pc = some nd := by
  unfold PState.nodeOf
  rw [lookup_of_mem hI.regpc h2]
  exact find_obj hI.objs_nodup h1

theorem map_replace {l1 l2 : List Node} {nd : Node} (hn : ((l1 ++ nd :: l2).map Node.obj).Nodup) (f : Node → Node) :
    (l1 ++ nd :: l2).map (fun x => if x.obj = nd.obj then f x else x) = l1 ++ f nd :: l2 := by
  rw [List.map_append, List.map_cons, List.nodup_append, List.nodup_cons] at hn
  rw [List.map_append, List.map_cons, if_pos rfl]
  have e1 : l1.map (fun x => if x.obj = nd.obj then f x else x) = l1 := by
    refine (List.map_congr_left fun x hx => ?_).trans (List.map_id l1)
    rw [if_neg]
    · rfl
    · exact hn.2.2 x.obj (List.mem_map.2 ⟨x, hx, rfl⟩) nd.obj (by simp)
  have e2 : l2.map (fun x => if x.obj = nd.obj then f x else x) = l2 := by
    refine (List.map_congr_left fun x hx => ?_).trans (List.map_id l2)
    rw [if_neg]
    · rfl
    · intro he
      exact hn.2.1.1 (he ▸ List.mem_map.2 ⟨x, hx, rfl⟩)
  rw [e1, e2]

/-- Changing a node without changing which objects it holds. -/
theorem Inv.setNode {F : List Nat} {st : PState} (hI : Inv F st) {nd : Node} (hnd : nd ∈ st.ctxlist) {f : Node → Node}
    (ho : (f nd).obj = nd.obj) (hp : (f nd).precObj = nd.precObj) (hi : (f nd).infoObj = nd.infoObj) (hfac : (f nd).bfactory = nd.bfactory)
    (hu : (f nd).ctx.first_setup_done = false → nd.ctx.first_setup_done = false) : Inv F (st.setNode nd.obj f) := by
  obtain ⟨l1, l2, hl⟩ := List.append_of_mem hnd
  have hmap := map_replace (hl ▸ hI.objs_nodup) f
  have hc : (st.setNode nd.obj f).ctxlist = l1 ++ f nd :: l2 := by
    show st.ctxlist.map _ = _
    rw [hl, hmap]
  have hobj : (st.setNode nd.obj f).ctxlist.map Node.obj = st.ctxlist.map Node.obj := by
    rw [hc, hl]; simp [ho]
  have hprec : (st.setNode nd.obj f).ctxlist.filterMap Node.precObj = st.ctxlist.filterMap Node.precObj := by
    rw [hc, hl]; simp [List.filterMap_append, List.filterMap_cons, hp]
  have hinfo : (st.setNode nd.obj f).ctxlist.filterMap Node.infoObj = st.ctxlist.filterMap Node.infoObj := by
    rw [hc, hl]; simp [List.filterMap_append, List.filterMap_cons, hi]
  have hbp : (f nd).bprec = none ↔ nd.bprec = none := by
    unfold Node.precObj at hp
    rw [← Option.map_eq_none_iff (f := Prod.fst), hp, Option.map_eq_none_iff]
  have hil : (f nd).infolist = none ↔ nd.infolist = none := by
    unfold Node.infoObj at hi
    rw [← Option.map_eq_none_iff (f := Prod.fst), hi, Option.map_eq_none_iff]
  have hmem : ∀ x ∈ (st.setNode nd.obj f).ctxlist, x = f nd ∨ x ∈ st.ctxlist := by
    intro x hx
    rw [hc] at hx
    rw [hl]
    simp only [List.mem_append, List.mem_cons] at hx ⊢
    rcases hx with h | h | h
    · exact Or.inr (Or.inl h)
    · exact Or.inl h
    · exact Or.inr (Or.inr (Or.inr h))
  refine ⟨?_, hI.nodup, hI.bound, ?_, hI.dflt, ?_, ?_, hI.regpc, hI.regobj, ?_, ?_⟩
  · rw [hobj, hprec, hinfo]
    exact hI.live
  · show st.size = _
    rw [hI.size, hc, hl]
    simp
  · intro x hx
    rcases hmem x hx with rfl | hx
    · rw [hfac]; exact hI.nodeFac nd hnd
    · exact hI.nodeFac x hx
  · intro x hx h
    rcases hmem x hx with rfl | hx
    · have := hI.unset nd hnd (hu h)
      exact ⟨hbp.2 this.1, hil.2 this.2⟩
    · exact hI.unset x hx h
  · rw [hobj]
    exact hI.regsub
  · intro x hx h
    rcases hmem x hx with rfl | hx
    · rw [ho]
      exact hI.precreg nd hnd fun h2 => h (hbp.2 h2)
    · exact hI.precreg x hx h

/-- The node after a change. -/
theorem mem_setNode {F : List Nat} {st : PState} (hI : Inv F st) {nd : Node} (hnd : nd ∈ st.ctxlist) (f : Node → Node) :
    f nd ∈ (st.setNode nd.obj f).ctxlist := by
  obtain ⟨l1, l2, hl⟩ := List.append_of_mem hnd
  have hmap := map_replace (hl ▸ hI.objs_nodup) f
  show f nd ∈ st.ctxlist.map _
  rw [hl, hmap]
  simp

/-- The creation of a preconditioner object for a registered node that has none. -/
theorem Inv.created {F : List Nat} {st : PState} (hI : Inv F st) {nd : Node} (hnd : nd ∈ st.ctxlist) (hr : nd.obj ∈ st.reg.map Prod.snd)
    (hb : nd.bprec = none) (hil : nd.infolist = none) (hd : nd.ctx.first_setup_done = true) (p : Prec) :
    Inv F (st.created nd p) ∧ nd.created st.next p ∈ (st.created nd p).ctxlist := by
  obtain ⟨l1, l2, hl⟩ := List.append_of_mem hnd
  have hmap := map_replace (hl ▸ hI.objs_nodup) (Node.created st.next p)
  have hfresh : ∀ k, st.next ≤ k → k ∉ st.live := fun k hk hm => by
    have := hI.bound k hm
    omega
  have hmem : ∀ x ∈ l1 ++ nd.created st.next p :: l2, x = nd.created st.next p ∨ x ∈ st.ctxlist := by
    intro x hx
    rw [hl]
    simp only [List.mem_append, List.mem_cons] at hx ⊢
    rcases hx with h | h | h
    · exact Or.inr (Or.inl h)
    · exact Or.inl h
    · exact Or.inr (Or.inr (Or.inr h))
  have hcl : (st.created nd p).ctxlist = l1 ++ nd.created st.next p :: l2 := by
    unfold PState.created
    split <;> (show st.ctxlist.map _ = _; rw [hl, hmap])
  have hreg : (st.created nd p).reg = st.reg := by
    unfold PState.created
    split <;> rfl
  have hsz : (st.created nd p).size = st.size := by
    unfold PState.created
    split <;> rfl
  have hdf : (st.created nd p).defaultfactory = st.defaultfactory ∧ (st.created nd p).bfactory = st.bfactory := by
    unfold PState.created
    split <;> exact ⟨rfl, rfl⟩
  have hobj : (st.created nd p).ctxlist.map Node.obj = st.ctxlist.map Node.obj := by
    rw [hcl, hl]; simp [Node.created]
  have hlive : (st.created nd p).live = (if nd.ctx.compute_precinfo then [st.next, st.next + 1] else [st.next]) ++ st.live := by
    unfold PState.created
    split <;> rfl
  refine ⟨⟨?_, ?_, ?_, ?_, ?_, ?_, ?_, ?_, ?_, ?_, ?_⟩, ?_⟩
  · rw [hobj, hcl, hlive]
    have hbase := hI.live
    rw [hl] at hbase ⊢
    have hp0 : nd.precObj = none := by simp [Node.precObj, hb]
    have hi0 : nd.infoObj = none := by simp [Node.infoObj, hil]
    have hp1 : (nd.created st.next p).precObj = some st.next := rfl
    simp only [List.filterMap_append, List.filterMap_cons, hp0, hi0, hp1] at hbase ⊢
    generalize F = a1 at *
    generalize List.map Node.obj (l1 ++ nd :: l2) = a2 at *
    generalize List.filterMap Node.precObj l1 = a3 at *
    generalize List.filterMap Node.precObj l2 = a4 at *
    generalize List.filterMap Node.infoObj l1 = a5 at *
    generalize List.filterMap Node.infoObj l2 = a6 at *
    by_cases hc : nd.ctx.compute_precinfo = true
    · have hi1 : (nd.created st.next p).infoObj = some (st.next + 1) := by simp [Node.created, Node.infoObj, hc]
      simp only [hc, if_true, hi1]
      refine (List.Perm.append_left _ hbase).trans ?_
      rw [List.perm_iff_count]
      intro x
      simp only [List.count_append, List.count_cons, List.count_nil]
      omega
    · have hi1 : (nd.created st.next p).infoObj = none := by simp [Node.created, Node.infoObj, hc]
      simp only [hc, hi1]
      refine (List.Perm.append_left _ hbase).trans ?_
      rw [List.perm_iff_count]
      intro x
      simp only [List.count_append, List.count_cons, List.count_nil, if_false, Bool.false_eq_true]
      omega
  · rw [hlive]
    refine List.nodup_append.2 ⟨?_, hI.nodup, ?_⟩
    · split <;> simp
    · intro x hx y hy he
      subst he
      refine hfresh x ?_ hy
      split at hx <;> simp at hx <;> omega
  · intro x hx
    unfold PState.created at hx ⊢
    split at hx <;> rename_i hc
    · simp only [hc, if_true, List.mem_cons] at hx ⊢
      rcases hx with h | h | h
      · omega
      · omega
      · have := hI.bound x h; omega
    · simp only [hc, List.mem_cons] at hx ⊢
      rcases hx with h | h
      · simp; omega
      · have := hI.bound x h
        simp; omega
  · rw [hsz, hI.size, hcl, hl]
    simp
  · rw [hdf.1, hdf.2]
    exact hI.dflt
  · intro x hx
    rw [hcl] at hx
    rcases hmem x hx with rfl | hx
    · exact hI.nodeFac nd hnd
    · exact hI.nodeFac x hx
  · intro x hx h
    rw [hcl] at hx
    rcases hmem x hx with rfl | hx
    · exact absurd h (by simp [Node.created, hd])
    · exact hI.unset x hx h
  · rw [hreg]; exact hI.regpc
  · rw [hreg]; exact hI.regobj
  · rw [hreg, hobj]; exact hI.regsub
  · intro x hx h
    rw [hreg]
    rw [hcl] at hx
    rcases hmem x hx with rfl | hx
    · exact hr
    · exact hI.precreg x hx h
  · rw [hcl]
    simp

/-! ## Setting up the preconditioner -/

theorem setupDataFromOptions_done {fs : String → C SolverType} {o : PetscOpts} {ctx ctx' : PetscCtx}
    (h : setupDataFromOptions fs o ctx = .ok ctx') : ctx'.first_setup_done = true := by
  unfold setupDataFromOptions at h
  cases h1 : stringOrAbort o.pc_type with
  | error e => rw [h1] at h; simp [error_bind] at h
  | ok s =>
    rw [h1, ok_bind] at h
    cases h2 : fs s with
    | error e => rw [h2] at h; simp [error_bind] at h
    | ok t =>
      rw [h2, ok_bind] at h
      cases h3 : readAsyncOptions t o { ctx with prectypestr := s } with
      | error e => rw [h3] at h; simp [error_bind] at h
      | ok r =>
        rw [h3, ok_bind] at h
        injection h with h
        rw [← h]

/-- Recomputing keeps the invariant. -/
theorem updatePreconditioner_inv {F : List Nat} {st : PState} (hI : Inv F st) {nd : Node} (hnd : nd ∈ st.ctxlist) :
    Inv F (updatePreconditioner st nd).1 := by
  unfold updatePreconditioner
  cases hb : nd.bprec with
  | none => exact hI
  | some b =>
    dsimp only
    split
    · exact hI
    split
    · cases hi : nd.infolist with
      | none => exact hI
      | some i =>
        dsimp only
        split
        · exact hI
        · exact hI.setNode hnd rfl rfl (by simp [Node.infoObj, hi]) rfl id
    · exact hI

/-- A call by PETSc keeps the invariant, however it ends. -/
theorem computePc_inv {F : List Nat} {st : PState} (hI : Inv F st) (env : PEnv) (pc : Nat) : Inv F (computePc env pc st).1 := by
  unfold computePc
  cases hn : st.nodeOf pc with
  | none => exact hI
  | some nd =>
    obtain ⟨hnd, hreg⟩ := nodeOf_some hn
    dsimp only
    split
    · exact updatePreconditioner_inv hI hnd
    · rename_i hdone
      have hdone : nd.ctx.first_setup_done = false := by simpa using hdone
      obtain ⟨hb, hil⟩ := hI.unset nd hnd hdone
      cases derefFactory env st nd.bfactory with
      | error e => exact hI
      | ok f =>
        dsimp only
        cases hs : setupDataFromOptions f.fromString env.opts nd.ctx with
        | error e => exact hI
        | ok ctx =>
          dsimp only
          have hd := setupDataFromOptions_done hs
          have hI2 : Inv F (st.setNode nd.obj (Node.afterOptions ctx)) :=
            hI.setNode hnd rfl (by simp [Node.afterOptions, Node.precObj, hb]) rfl rfl (by simp [Node.afterOptions, hd])
          cases createNewPreconditioner f.fromString f.create env.g ctx with
          | error e => exact hI2
          | ok p =>
            dsimp only
            have hmem := mem_setNode hI hnd (Node.afterOptions ctx)
            have hro : (nd.afterOptions ctx).obj ∈ (st.setNode nd.obj (Node.afterOptions ctx)).reg.map Prod.snd :=
              List.mem_map.2 ⟨(pc, nd.obj), hreg, rfl⟩
            have h3 := hI2.created hmem hro rfl (by simpa [Node.afterOptions] using hil) (by simpa [Node.afterOptions] using hd) p
            exact updatePreconditioner_inv h3.1 h3.2

/-! ## Destruction -/

theorem del_ok {st : PState} {k : Nat} (h : k ∈ st.live) : st.del (some k) = .ok { st with live := st.live.erase k } := by
  unfold PState.del
  exact if_pos h

/-- Deleting what a list of optional objects names. -/
theorem kspDestroy_loop {st0 : PState} (regs : List (Nat × Nat)) (rest : List Nat) (hnode : ∀ r ∈ regs, ∃ nd, st0.nodeOf r.1 = some nd ∧ nd.obj = r.2)
    (q : Nat → Option Nat) (hq : ∀ nd ∈ st0.ctxlist, q nd.obj = nd.precObj)
    (live : List Nat) (hl : live.Perm (rest ++ (regs.map Prod.snd).filterMap q)) :
    Ok (forList (regs.map Prod.fst) cleanupPc { st0 with live := live }) (fun st => ∃ l, st = { st0 with live := l } ∧ l.Perm rest) := by
  induction regs generalizing live with
  | nil =>
    simp only [List.map_nil, forList_nil]
    exact Ok.pure ⟨live, rfl, by simpa using hl⟩
  | cons r regs ih =>
    obtain ⟨nd, h1, h2⟩ := hnode r (by simp)
    have hmem := (nodeOf_some h1).1
    have hq' : q r.2 = nd.precObj := by rw [← h2, hq nd hmem]
    rw [List.map_cons, forList_cons]
    have hn : ({ st0 with live := live } : PState).nodeOf r.1 = some nd := h1
    have hcl : cleanupPc r.1 { st0 with live := live } = ({ st0 with live := live } : PState).del nd.precObj := by
      unfold cleanupPc
      rw [hn]
      rfl
    rw [hcl]
    simp only [List.map_cons, List.filterMap_cons, hq'] at hl
    cases hp : nd.precObj with
    | none =>
      rw [hp] at hl
      simp only [PState.del, ok_bind]
      exact ih (fun r hr => hnode r (List.mem_cons_of_mem _ hr)) live hl
    | some k =>
      rw [hp] at hl
      simp only at hl
      have hk : k ∈ live := hl.mem_iff.2 (by simp)
      rw [del_ok (st := { st0 with live := live }) hk, ok_bind]
      refine ih (fun r hr => hnode r (List.mem_cons_of_mem _ hr)) _ ?_
      have : (live.erase k).Perm ((rest ++ k :: (regs.map Prod.snd).filterMap q).erase k) := hl.erase k
      refine this.trans ?_
      have h3 : (rest ++ k :: (regs.map Prod.snd).filterMap q).Perm (k :: (rest ++ (regs.map Prod.snd).filterMap q)) := List.perm_middle
      refine (h3.erase k).trans ?_
      rw [List.erase_cons_head]

/-- The destruction of the solvers deletes the preconditioner objects and nothing else. -/
theorem kspDestroy_ok {F : List Nat} {st : PState} (hI : Inv F st) :
    Ok (kspDestroy st) (fun st' => ∃ l, st' = { st with live := l } ∧
      l.Perm (F ++ (st.ctxlist.map Node.obj ++ st.ctxlist.filterMap Node.infoObj))) := by
  let q : Nat → Option Nat := fun o => (st.ctxlist.find? fun nd => nd.obj = o).bind Node.precObj
  have hq : ∀ nd ∈ st.ctxlist, q nd.obj = nd.precObj := by
    intro nd hnd
    show (st.ctxlist.find? fun x => x.obj = nd.obj).bind Node.precObj = _
    rw [find_obj hI.objs_nodup hnd]
    rfl
  have hprec : st.ctxlist.filterMap Node.precObj = (st.ctxlist.map Node.obj).filterMap q := by
    rw [List.filterMap_map]
    exact List.filterMap_congr fun nd hnd => (hq nd hnd).symm
  have hsp : (st.reg.map Prod.snd).Subperm (st.ctxlist.map Node.obj) := hI.regobj.subperm hI.regsub
  obtain ⟨l', hl1, hl2⟩ := hsp
  obtain ⟨rest, hrest0⟩ := hl2.exists_perm_append
  have hrest : (st.ctxlist.map Node.obj).Perm (st.reg.map Prod.snd ++ rest) := hrest0.trans (List.Perm.append_right _ hl1)
  have hnd2 : (st.reg.map Prod.snd ++ rest).Nodup := hrest.nodup_iff.1 hI.objs_nodup
  have hnone : rest.filterMap q = [] := by
    rw [List.filterMap_eq_nil_iff]
    intro o ho
    have ho2 : o ∈ st.ctxlist.map Node.obj := hrest.mem_iff.2 (by simp [ho])
    obtain ⟨nd, hnd, rfl⟩ := List.mem_map.1 ho2
    rw [hq nd hnd]
    by_contra hne
    have hb : nd.bprec ≠ none := by
      intro hb
      exact hne (by simp [Node.precObj, hb])
    have hr := hI.precreg nd hnd hb
    exact (List.nodup_append.1 hnd2).2.2 _ hr _ ho rfl
  have hperm : (st.ctxlist.filterMap Node.precObj).Perm ((st.reg.map Prod.snd).filterMap q) := by
    rw [hprec]
    refine (hrest.filterMap q).trans ?_
    rw [List.filterMap_append, hnone, List.append_nil]
  have hnode : ∀ r ∈ st.reg, ∃ nd, st.nodeOf r.1 = some nd ∧ nd.obj = r.2 := by
    intro r hr
    obtain ⟨nd, hnd, ho⟩ := List.mem_map.1 (hI.regsub r.2 (List.mem_map.2 ⟨r, hr, rfl⟩))
    exact ⟨nd, nodeOf_of_mem hI hnd (by rw [ho]; exact hr), ho⟩
  have hl : st.live.Perm ((F ++ (st.ctxlist.map Node.obj ++ st.ctxlist.filterMap Node.infoObj)) ++ (st.reg.map Prod.snd).filterMap q) := by
    refine hI.live.trans ?_
    rw [List.perm_iff_count]
    intro x
    have := (List.perm_iff_count.1 hperm) x
    simp only [List.count_append] at this ⊢
    omega
  exact kspDestroy_loop st.reg _ hnode q hq st.live hl

theorem destroyNodes_ok (nodes : List Node) (F : List Nat) (st : PState) (hc : st.ctxlist = nodes)
    (hl : st.live.Perm (F ++ (nodes.map Node.obj ++ nodes.filterMap Node.infoObj))) :
    Ok (forList nodes destroyNode st) (fun st' => st'.ctxlist = [] ∧ st'.size = st.size - nodes.length ∧ st'.live.Perm F) := by
  induction nodes generalizing st with
  | nil =>
    rw [forList_nil]
    exact Ok.pure ⟨hc, by simp, by simpa using hl⟩
  | cons nd nodes ih =>
    rw [forList_cons]
    have hstep : ∃ l, destroyNode nd st = .ok { st with live := l, ctxlist := nodes, size := st.size - 1 } ∧
        l.Perm (F ++ (nodes.map Node.obj ++ nodes.filterMap Node.infoObj)) := by
      unfold destroyNode
      have e : nd.infolist.map Prod.fst = nd.infoObj := rfl
      rw [e]
      simp only [List.map_cons, List.filterMap_cons] at hl
      cases hi : nd.infoObj with
      | none =>
        rw [hi] at hl
        simp only at hl
        have hk : nd.obj ∈ st.live := hl.mem_iff.2 (by simp)
        simp only [PState.del, ok_bind, if_pos hk, hc, List.tail_cons]
        refine ⟨_, rfl, ?_⟩
        refine (hl.erase nd.obj).trans ?_
        have h3 : (F ++ (nd.obj :: nodes.map Node.obj ++ nodes.filterMap Node.infoObj)).Perm
            (nd.obj :: (F ++ (nodes.map Node.obj ++ nodes.filterMap Node.infoObj))) := List.perm_middle
        refine (h3.erase nd.obj).trans ?_
        rw [List.erase_cons_head]
      | some k =>
        rw [hi] at hl
        simp only at hl
        have h3 : st.live.Perm (k :: nd.obj :: (F ++ (nodes.map Node.obj ++ nodes.filterMap Node.infoObj))) := by
          refine hl.trans ?_
          rw [List.perm_iff_count]
          intro x
          simp only [List.count_append, List.count_cons]
          omega
        have hk : k ∈ st.live := h3.mem_iff.2 (by simp)
        have h4 : (st.live.erase k).Perm (nd.obj :: (F ++ (nodes.map Node.obj ++ nodes.filterMap Node.infoObj))) := by
          have := h3.erase k
          rwa [List.erase_cons_head] at this
        have hk2 : nd.obj ∈ st.live.erase k := h4.mem_iff.2 (by simp)
        simp only [PState.del, ok_bind, if_pos hk, if_pos hk2, hc, List.tail_cons]
        refine ⟨_, rfl, ?_⟩
        have := h4.erase nd.obj
        rwa [List.erase_cons_head] at this
    obtain ⟨l, h1, h2⟩ := hstep
    rw [h1, ok_bind]
    refine (ih _ rfl h2).mono ?_
    rintro st' ⟨a, b, c⟩
    refine ⟨a, ?_, c⟩
    rw [b]
    simp only [List.length_cons]
    push_cast
    omega

/-- The destruction of the list after that of the solvers if the factory belongs to the caller. -/
theorem destroyList_user {st : PState} (hd : st.defaultfactory = false)
    (hs : st.size = st.ctxlist.length) (hl : st.live.Perm (st.ctxlist.map Node.obj ++ st.ctxlist.filterMap Node.infoObj)) :
    Ok (destroyList st) (fun st' => st'.ctxlist = [] ∧ st'.size = 0 ∧ st'.live = []) := by
  unfold destroyList destroyFactory
  rw [if_neg (by simp [hd]), ok_bind]
  refine (destroyNodes_ok st.ctxlist [] st rfl (by simpa using hl)).bind ?_
  rintro st' ⟨h1, h2, h3⟩
  have hz : st'.size = 0 := by rw [h2, hs]; omega
  rw [if_neg (by simpa using hz)]
  exact Ok.pure ⟨h1, hz, h3.eq_nil⟩

/-- The destruction of the list after that of the solvers: what is left are the factories but one. -/
theorem destroyList_ok {F : List Nat} {st : PState} (hd : st.defaultfactory = true) {f : Nat} (hf : f ∈ F) (hb : st.bfactory = .heap f)
    (hs : st.size = st.ctxlist.length) (hl : st.live.Perm (F ++ (st.ctxlist.map Node.obj ++ st.ctxlist.filterMap Node.infoObj))) :
    Ok (destroyList st) (fun st' => st'.ctxlist = [] ∧ st'.size = 0 ∧ st'.live.Perm (F.erase f)) := by
  unfold destroyList destroyFactory
  have hk : f ∈ st.live := hl.mem_iff.2 (by simp [hf])
  rw [if_pos hd, hb]
  simp only [PState.del, if_pos hk, ok_bind]
  have hl2 : (st.live.erase f).Perm (F.erase f ++ (st.ctxlist.map Node.obj ++ st.ctxlist.filterMap Node.infoObj)) := by
    refine (hl.erase f).trans ?_
    rw [List.erase_append_left _ hf]
  have h := destroyNodes_ok st.ctxlist (F.erase f) { st with live := st.live.erase f, defaultfactory := false } rfl hl2
  refine h.bind ?_
  rintro st' ⟨h1, h2, h3⟩
  have hz : st'.size = 0 := by
    rw [h2]
    show st.size - _ = 0
    rw [hs]
    omega
  rw [if_neg (by simpa using hz)]
  exact Ok.pure ⟨h1, hz, h3⟩

end Blasted
