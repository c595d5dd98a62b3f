import Verif.Factory.StackModel
import Mathlib.Data.List.Perm.Basic
import Mathlib.Data.List.Nodup
import Mathlib.Data.List.Perm.Subperm

/-!
# Lemmas about the PETSc stack setup
-/

namespace Blasted

/-! ## Specification -/

/-- The matrix types of PETSc that are stored in blocks. -/
def blockMatTypes : List String := ["baij", "seqbaij", "mpibaij", "baijmkl", "seqbaijmkl", "mpibaijmkl"]

mutual
/-- The shell preconditioners reachable from a solver through the supported wrappers, in the order of the visit, with the block size of their matrix. -/
def Ksp.shells : Ksp → List (Nat × Int)
  | .blocks _ subs => Ksp.shellsL subs
  | .mg _ coarse smoothers => Ksp.shellsL smoothers ++ coarse.shells
  | .inner sub => sub.shells
  | .shell pc mtype matbs => [(pc, if mtype ∈ blockMatTypes then matbs else 1)]
  | .other => []

/-- The same for a list of solvers. -/
def Ksp.shellsL : List Ksp → List (Nat × Int)
  | [] => []
  | k :: ks => k.shells ++ Ksp.shellsL ks
end

mutual
/-- The solver trees BLASTed supports: one subdomain per process, and shell preconditioners only for matrices that are local to the process. -/
def Ksp.Supported : Ksp → Prop
  | .blocks _ subs => subs.length = 1 ∧ Ksp.SupportedL subs
  | .mg _ coarse smoothers => Ksp.SupportedL smoothers ∧ coarse.Supported
  | .inner sub => sub.Supported
  | .shell _ mtype _ => mtype = "seqaij" ∨ mtype = "seqbaij" ∨ mtype = "seqaijmkl" ∨ mtype = "seqbaijmkl"
  | .other => True

/-- The same for a list of solvers. -/
def Ksp.SupportedL : List Ksp → Prop
  | [] => True
  | k :: ks => k.Supported ∧ Ksp.SupportedL ks
end

mutual
/-- The number of solvers visited. -/
def Ksp.visited : Ksp → Nat
  | .blocks _ subs => 1 + Ksp.visitedL subs
  | .mg _ coarse smoothers => 1 + Ksp.visitedL smoothers + coarse.visited
  | .inner sub => 1 + sub.visited
  | .shell _ _ _ => 1
  | .other => 1

/-- The same for a list of solvers. -/
def Ksp.visitedL : List Ksp → Nat
  | [] => 0
  | k :: ks => k.visited + Ksp.visitedL ks
end

theorem Ksp.visited_pos (k : Ksp) : 1 ≤ k.visited := by
  cases k <;> rw [Ksp.visited] <;> omega

/-! ## What the setup adds to the state -/

/-- From `st` to `st'` the nodes `N` (latest first), the factories `F` and the registrations `R` (latest first) are added, with new objects. -/
structure Grows (st st' : PState) (N : List Node) (F : List Nat) (R : List (Nat × Nat)) : Prop where
  ctx : st'.ctxlist = N ++ st.ctxlist
  size : st'.size = st.size + N.length
  live : st'.live.Perm (N.map Node.obj ++ F ++ st.live)
  next : st.next ≤ st'.next
  fresh : ∀ x ∈ N.map Node.obj ++ F, st.next ≤ x ∧ x < st'.next
  nodup : (N.map Node.obj ++ F).Nodup
  fac : (F = [] ∧ st'.bfactory = st.bfactory ∧ st'.defaultfactory = st.defaultfactory) ∨
    (∃ f ∈ F, st'.bfactory = .heap f ∧ st'.defaultfactory = true)
  nodeFac : ∀ nd ∈ N, nd.bfactory = st.bfactory ∨ ∃ f ∈ F, nd.bfactory = .heap f
  clean : ∀ nd ∈ N, nd.bprec = none ∧ nd.infolist = none ∧ nd.ctx.first_setup_done = false
  reg : st'.reg = R ++ st.reg
  regsub : (R.map Prod.snd).Sublist (N.map Node.obj)

theorem Grows.refl (st : PState) : Grows st st [] [] [] :=
  ⟨rfl, by simp, by simp, le_rfl, by simp, by simp, Or.inl ⟨rfl, rfl, rfl⟩, by simp, by simp, rfl, by simp⟩

theorem Grows.trans {a b c : PState} {N1 N2 : List Node} {F1 F2 : List Nat} {R1 R2 : List (Nat × Nat)}
    (h1 : Grows a b N1 F1 R1) (h2 : Grows b c N2 F2 R2) : Grows a c (N2 ++ N1) (F2 ++ F1) (R2 ++ R1) := by
  refine ⟨?_, ?_, ?_, h1.next.trans h2.next, ?_, ?_, ?_, ?_, ?_, ?_, ?_⟩
  · rw [h2.ctx, h1.ctx, List.append_assoc]
  · rw [h2.size, h1.size, List.length_append]
    push_cast
    omega
  · refine h2.live.trans ?_
    refine (List.Perm.append_left _ h1.live).trans ?_
    simp only [List.map_append, List.append_assoc]
    refine List.Perm.append_left _ ?_
    exact List.perm_append_comm_assoc _ _ _
  · intro x hx
    simp only [List.map_append, List.mem_append] at hx
    have g1 := h1.fresh x
    have g2 := h2.fresh x
    have n1 := h1.next
    have n2 := h2.next
    simp only [List.mem_append] at g1 g2
    rcases hx with (hx | hx) | (hx | hx)
    · have := g2 (Or.inl hx); omega
    · have := g1 (Or.inl hx); omega
    · have := g2 (Or.inr hx); omega
    · have := g1 (Or.inr hx); omega
  · have : (N2.map Node.obj ++ F2 ++ (N1.map Node.obj ++ F1)).Nodup := by
      refine List.nodup_append.2 ⟨h2.nodup, h1.nodup, fun x hx y hy => ?_⟩
      have := h2.fresh x hx
      have := h1.fresh y hy
      omega
    refine (List.Perm.nodup_iff ?_).1 this
    simp only [List.map_append, List.append_assoc]
    refine List.Perm.append_left _ ?_
    exact List.perm_append_comm_assoc _ _ _
  · rcases h2.fac with ⟨e1, e2, e3⟩ | ⟨f, hf, e⟩
    · rcases h1.fac with ⟨d1, d2, d3⟩ | ⟨f, hf, d⟩
      · left
        exact ⟨by rw [e1, d1]; rfl, by rw [e2, d2], by rw [e3, d3]⟩
      · right
        exact ⟨f, List.mem_append_right _ hf, by rw [e2, e3]; exact d⟩
    · right
      exact ⟨f, List.mem_append_left _ hf, e⟩
  · intro nd hnd
    rcases List.mem_append.1 hnd with hnd | hnd
    · rcases h2.nodeFac nd hnd with h | ⟨f, hf, h⟩
      · rcases h1.fac with ⟨d1, d2, d3⟩ | ⟨f, hf, d⟩
        · left; rw [h, d2]
        · right; exact ⟨f, List.mem_append_right _ hf, by rw [h, d.1]⟩
      · right; exact ⟨f, List.mem_append_left _ hf, h⟩
    · rcases h1.nodeFac nd hnd with h | ⟨f, hf, h⟩
      · exact Or.inl h
      · right; exact ⟨f, List.mem_append_right _ hf, h⟩
  · intro nd hnd
    rcases List.mem_append.1 hnd with hnd | hnd
    · exact h2.clean nd hnd
    · exact h1.clean nd hnd
  · rw [h2.reg, h1.reg, List.append_assoc]
  · simp only [List.map_append]
    exact h2.regsub.append h1.regsub

theorem Grows.alloc (st : PState) : Grows st (allocFactory st) [] [st.next] [] := by
  refine ⟨rfl, by simp [allocFactory], by simp [allocFactory], by simp [allocFactory], ?_, by simp, Or.inr ⟨st.next, by simp, rfl, rfl⟩, by simp, by simp,
    rfl, by simp⟩
  simp [allocFactory]

theorem isLocalMat_iff (mtype : String) :
    isLocalMat mtype = true ↔ mtype = "seqaij" ∨ mtype = "seqbaij" ∨ mtype = "seqaijmkl" ∨ mtype = "seqbaijmkl" := by
  simp [isLocalMat]

/-- What the main induction proves of a call. -/
def SetupPost (st : PState) (r : PState × Bool) (supp : Prop) (shells : List (Nat × Int)) (nfac : Nat) : Prop :=
  ∃ N F R, Grows st r.1 N F R ∧ (r.2 = false ↔ supp) ∧ (R.map Prod.fst).Sublist (shells.map Prod.fst).reverse ∧
    (supp → F.length = nfac ∧ R.map Prod.fst = (shells.map Prod.fst).reverse ∧ R.map Prod.snd = N.map Node.obj ∧
      N.map (fun nd => nd.ctx.bs) = (shells.map Prod.snd).reverse)

theorem SetupPost.after {a b : PState} {r : PState × Bool} {supp : Prop} {sh : List (Nat × Int)} {n m : Nat} {F : List Nat}
    (h1 : Grows a b [] F []) (hF : F.length = m) (h2 : SetupPost b r supp sh n) : SetupPost a r supp sh (n + m) := by
  obtain ⟨N, F2, R, g, he, hsub, hs⟩ := h2
  refine ⟨N, F2 ++ F, R, by simpa using h1.trans g, he, hsub, fun h => ?_⟩
  obtain ⟨s1, s2⟩ := hs h
  exact ⟨by rw [List.length_append, s1, hF], s2⟩

theorem SetupPost.seq {a b : PState} {r : PState × Bool} {supp1 supp2 : Prop} {sh1 sh2 : List (Nat × Int)} {n1 n2 : Nat}
    (h1 : SetupPost a (b, false) supp1 sh1 n1) (h2 : SetupPost b r supp2 sh2 n2) :
    SetupPost a r (supp1 ∧ supp2) (sh1 ++ sh2) (n1 + n2) := by
  obtain ⟨N1, F1, R1, g1, e1, u1, s1⟩ := h1
  obtain ⟨N2, F2, R2, g2, e2, u2, s2⟩ := h2
  have hs1 : supp1 := e1.1 rfl
  refine ⟨N2 ++ N1, F2 ++ F1, R2 ++ R1, g1.trans g2, ?_, by simpa using u2.append u1, ?_⟩
  · rw [e2]
    exact ⟨fun h => ⟨hs1, h⟩, fun h => h.2⟩
  · rintro ⟨_, h⟩
    obtain ⟨a1, a2, a3, a4⟩ := s1 hs1
    obtain ⟨b1, b2, b3, b4⟩ := s2 h
    simp [a1, a2, a3, a4, b1, b2, b3, b4, Nat.add_comm]

theorem SetupPost.stop {a b : PState} {supp1 supp2 : Prop} {sh1 sh2 : List (Nat × Int)} {n1 n2 : Nat}
    (h1 : SetupPost a (b, true) supp1 sh1 n1) : SetupPost a (b, true) (supp1 ∧ supp2) (sh1 ++ sh2) n2 := by
  obtain ⟨N1, F1, R1, g1, e1, u1, s1⟩ := h1
  have hs1 : ¬ supp1 := fun h => by simpa using e1.2 h
  refine ⟨N1, F1, R1, g1, ?_, ?_, fun h => absurd h.1 hs1⟩
  rotate_left
  · rw [List.map_append, List.reverse_append]
    exact u1.trans (List.sublist_append_right _ _)
  simp [hs1]

theorem isBlockMat_eq (mtype : String) (a b : Int) : (if isBlockMat mtype then a else b) = if mtype ∈ blockMatTypes then a else b := by
  have h : isBlockMat mtype = true ↔ mtype ∈ blockMatTypes := by
    simp only [isBlockMat, blockMatTypes, decide_eq_true_eq, List.mem_cons, List.not_mem_nil, or_false]
    tauto
  by_cases h' : mtype ∈ blockMatTypes
  · rw [if_pos h', if_pos (h.2 h')]
  · rw [if_neg h', if_neg fun h2 => h' (h.1 h2)]

theorem setupShell_post (ctx0 : PetscCtx) (pc : Nat) (mtype : String) (matbs : Int) (st : PState) :
    SetupPost st (setupLocal pc mtype matbs (appendContext ctx0 st))
      (mtype = "seqaij" ∨ mtype = "seqbaij" ∨ mtype = "seqaijmkl" ∨ mtype = "seqbaijmkl") [(pc, if mtype ∈ blockMatTypes then matbs else 1)] 0 := by
  rw [← isBlockMat_eq]
  unfold setupLocal appendContext
  dsimp only
  by_cases h : isLocalMat mtype = true
  · have h' := (isLocalMat_iff mtype).1 h
    rw [if_pos h]
    refine ⟨[⟨st.next, { ctx0 with bs := if isBlockMat mtype then matbs else 1, first_setup_done := false }, none, none, st.bfactory⟩], [],
      [(pc, st.next)], ?_, ?_, by simp, ?_⟩
    · refine ⟨rfl, by simp [registerPc], by simp [registerPc], by simp [registerPc], ?_, by simp, Or.inl ⟨rfl, rfl, rfl⟩, by simp, by simp,
        rfl, by simp⟩
      simp [registerPc]
    · simp [h']
    · intro _
      simp
  · have h' : ¬ _ := fun h2 => h ((isLocalMat_iff mtype).2 h2)
    rw [if_neg h]
    refine ⟨[⟨st.next, { ctx0 with first_setup_done := false }, none, none, st.bfactory⟩], [], [], ?_, ?_, by simp, fun h2 => absurd h2 h'⟩
    · refine ⟨rfl, by simp, by simp, by simp, ?_, by simp, Or.inl ⟨rfl, rfl, rfl⟩, by simp, by simp, rfl, by simp⟩
      simp
    · simp [h']

mutual
theorem setupExt_post (ctx0 : PetscCtx) : ∀ (k : Ksp) (st : PState),
    SetupPost st (setupExt ctx0 k st) k.Supported k.shells (k.visited - 1)
  | .blocks asm subs, st => by
    have h := setupOnly_post ctx0 subs st
    rw [setupExt, Ksp.Supported, Ksp.shells, Ksp.visited, Nat.add_sub_cancel_left]
    exact h
  | .mg gamg coarse smoothers, st => by
    have h := setupList_post ctx0 smoothers st
    rw [setupExt, Ksp.Supported, Ksp.shells, Ksp.visited]
    rcases hr : setupList ctx0 smoothers st with ⟨b, e⟩
    rw [hr] at h
    cases e
    · have h2 := setupExt_post ctx0 coarse (allocFactory b)
      have h3 := h2.after (Grows.alloc b) rfl
      have hv := Ksp.visited_pos coarse
      have h4 := h.seq h3
      have : Ksp.visitedL smoothers + (coarse.visited - 1 + [b.next].length) = 1 + Ksp.visitedL smoothers + coarse.visited - 1 := by
        simp only [List.length_cons, List.length_nil]
        omega
      rw [this] at h4
      exact h4
    · exact h.stop
  | .inner sub, st => by
    have h2 := (setupExt_post ctx0 sub (allocFactory st)).after (Grows.alloc st) rfl
    have hv := Ksp.visited_pos sub
    rw [setupExt, Ksp.Supported, Ksp.shells, Ksp.visited]
    have : sub.visited - 1 + [st.next].length = 1 + sub.visited - 1 := by
      simp only [List.length_cons, List.length_nil]
      omega
    rw [this] at h2
    exact h2
  | .shell pc mtype matbs, st => by
    rw [setupExt, Ksp.Supported, Ksp.shells, Ksp.visited]
    exact setupShell_post ctx0 pc mtype matbs st
  | .other, st => by
    rw [setupExt, Ksp.Supported, Ksp.shells, Ksp.visited]
    exact ⟨[], [], [], Grows.refl st, by simp, by simp, fun _ => by simp⟩

theorem setupOnly_post (ctx0 : PetscCtx) : ∀ (ks : List Ksp) (st : PState),
    SetupPost st (setupOnly ctx0 ks st) (ks.length = 1 ∧ Ksp.SupportedL ks) (Ksp.shellsL ks) (Ksp.visitedL ks)
  | [], st => by
    rw [setupOnly]
    exact ⟨[], [], [], Grows.refl st, by simp, by simp, fun h => by simp at h⟩
  | k :: ks, st => by
    rw [setupOnly]
    cases ks with
    | nil =>
      have h2 := (setupExt_post ctx0 k (allocFactory st)).after (Grows.alloc st) rfl
      have hv := Ksp.visited_pos k
      simp only [List.isEmpty_nil, if_true, List.length_cons, List.length_nil, Ksp.SupportedL, and_true, Nat.zero_add, true_and,
        Ksp.shellsL, List.append_nil, Ksp.visitedL, Nat.add_zero] at h2 ⊢
      rw [Nat.sub_add_cancel hv] at h2
      exact h2
    | cons k2 ks =>
      simp only [List.isEmpty_cons]
      exact ⟨[], [], [], Grows.refl st, by simp, by simp, fun h => by simp at h⟩

theorem setupList_post (ctx0 : PetscCtx) : ∀ (ks : List Ksp) (st : PState),
    SetupPost st (setupList ctx0 ks st) (Ksp.SupportedL ks) (Ksp.shellsL ks) (Ksp.visitedL ks)
  | [], st => by
    rw [setupList, Ksp.SupportedL, Ksp.shellsL, Ksp.visitedL]
    exact ⟨[], [], [], Grows.refl st, by simp, by simp, fun _ => by simp⟩
  | k :: ks, st => by
    have h := (setupExt_post ctx0 k (allocFactory st)).after (Grows.alloc st) rfl
    have hv := Ksp.visited_pos k
    rw [setupList, Ksp.SupportedL, Ksp.shellsL, Ksp.visitedL]
    rw [List.length_singleton, Nat.sub_add_cancel hv] at h
    rcases hr : setupExt ctx0 k (allocFactory st) with ⟨b, e⟩
    rw [hr] at h
    cases e
    · exact h.seq (setupList_post ctx0 ks b)
    · exact h.stop
end

end Blasted
