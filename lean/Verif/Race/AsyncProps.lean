import Verif.Race.KernelLemmas
import Verif.ILU.AsyncProps
import Verif.Arith.FacProps
import Verif.Arith.SolveProps
import Verif.Relax.Props

/-!
# C68: asynchronous sweeps access by access

Every execution of the asynchronous sweeps, with any interleaving of the single loads and stores and any delay of the visibility of stores, comes to its end, and
what it computes is what the theorems on asynchronous executions (C21, C22, C27, C31, C36, C37) say. The number of sweeps that they need depends on how many sweeps
ahead of another thread a thread can be.
-/

namespace Blasted

open Prog

/-! ### Any kernel -/

section generic
variable {V : Type} [Zero V] {G : Nat → Nat → Prop} {n s : Nat} {p : Nat → Prog V V} {upd : Nat → (Nat → C V) → C V} {m₀ m : List V}

/-- A kernel that loads every component at most once and has the value `upd`. -/
structure IsKernel (n : Nat) (p : Nat → Prog V V) (upd : Nat → (Nat → C V) → C V) : Prop where
  evals : Evals p upd
  once : ∀ i < n, (p i).Once fun _ => True

omit [Zero V] in
theorem IsKernel.jobs (hp : IsKernel n p upd) : ∀ q < s * n, (p (q % n)).Once fun _ => True := fun q hq =>
  hp.once _ (Nat.mod_lt _ (Nat.pos_of_ne_zero (by rintro rfl; simp at hq)))

omit [Zero V] in
theorem lag_lt {L : Nat} (hL : 0 < L) (q q' : Nat) (h : Lag n L q q') : q' < q := by
  unfold Lag at h
  by_contra hle
  have := Nat.div_le_div_right (c := n) (Nat.le_of_not_lt hle)
  generalize q / n = a at *
  generalize q' / n = b at *
  omega

/-- **C68** Whatever the order `G` that the run-time system imposes: an execution makes at most `n + 1` accesses for every component and sweep, and if the kernel
always has a value, or divides by zero, every execution that has begun can be completed. -/
theorem async_exec_terminates (hp : IsKernel n p upd) (hm : m₀.length = n) {k : Nat} {c : AConf V} (h : ASteps G n (s * n) m₀ k (startSweeps n (s * n) p) c) :
    k ≤ s * n * (n + 1) ∧
    ((∀ i < n, ∀ view, ∃ v, Yields (upd i (readView n view)) v) → (∀ q q', G q q' → q' < q) →
      ∃ k' d, k ≤ k' ∧ ASteps G n (s * n) m₀ k' (startSweeps n (s * n) p) d ∧ ∀ q, d.2 q = .ret ()) := by
  refine ⟨asteps_bounded hm hp.jobs h, fun hs hG => asteps_complete hm hp.jobs (fun q hq view => ?_) hG h⟩
  rw [hp.evals]
  exact hs _ (Nat.mod_lt _ (Nat.pos_of_ne_zero (by rintro rfl; simp at hq))) view

theorem AsyncExec.done (hp : IsKernel n p upd) (hm : m₀.length = n) (h : AsyncExec G n (s * n) p m₀ m) :
    ∃ log, ADone G n (s * n) m₀ upd log ∧ m = applyLog m₀ (comps n log) := by
  obtain ⟨k, log, ps, h1, h2, h3⟩ := h
  exact ⟨log, ((AInv.start hp.jobs).steps hm h1).done hp.evals h2, h3⟩

/-- **C68** Without any order between the sweeps: an execution of `s` sweeps updates every component `s` times, from values that the components have held. -/
theorem async_exec_nowait (hp : IsKernel n p upd) (hm : m₀.length = n) (h : AsyncExec G n (s * n) p m₀ m) : AFree upd mixWhole s m₀ m := by
  obtain ⟨log, h1, rfl⟩ := h.done hp hm
  exact h1.free hm

omit [Zero V] in
theorem arounds_nil {upd : Nat → (Nat → C V) → C V} {mix : Set V → Set V} (k : Nat) : ARounds upd mix [] (k + 1) [] [] := by
  induction k with
  | zero => exact .first .nil fun i hi => absurd hi (by simp)
  | succ k ih =>
    have := ARounds.next ih (.nil (B := {w | w ∈ ([] : List (Nat × V))})) fun i hi => absurd hi (by simp)
    exact this

theorem AsyncExec.rounds {L k : Nat} (hp : IsKernel n p upd) (hm : m₀.length = n) (hL : 1 ≤ L) (hk : 1 ≤ k) (hs : n ≠ 0 → k * (2 * L - 1) ≤ s)
    (h : AsyncExec (Lag n L) n (s * n) p m₀ m) : ARun upd mixWhole k m₀ m := by
  obtain ⟨log, h1, rfl⟩ := h.done hp hm
  rcases Nat.eq_zero_or_pos n with h0 | h0
  · have hlog : log = [] := List.length_eq_zero_iff.mp (by rw [h1.length, h0, Nat.mul_zero])
    have hm0 : m₀ = [] := List.length_eq_zero_iff.mp (by omega)
    subst hlog hm0
    obtain ⟨k, rfl⟩ : ∃ k', k = k' + 1 := ⟨k - 1, by omega⟩
    exact ⟨[], [], arounds_nil k, rfl⟩
  · obtain ⟨last, h2⟩ := h1.rounds (Nat.mul_le_mul_right n (hs (by omega))) h0 hL hk hm
    exact ⟨_, last, h2, rfl⟩

/-- **C68** If no job begins before all jobs of the sweep `L` before have ended, then `2 L - 1` sweeps are one round of C22, C27, C31 and C37. In particular a sweep is a round when there is a
barrier between the sweeps. -/
theorem async_exec_lag {L k : Nat} (hp : IsKernel n p upd) (hm : m₀.length = n) (hL : 1 ≤ L) (hk : 1 ≤ k) (hs : k * (2 * L - 1) ≤ s)
    (h : AsyncExec (Lag n L) n (s * n) p m₀ m) : ∃ log last, ARounds upd mixWhole m₀ k log last ∧ m = applyLog m₀ log :=
  h.rounds hp hm hL hk fun _ => hs

/-- **C68** Interleavings, in which every load returns the current contents, are among the executions. -/
theorem async_exec_interleaving (hp : IsKernel n p upd) (hm : m₀.length = n) {k : Nat} {ps : Nat → Prog V Unit}
    (h : GSteps G n k (startLoop (List.range (s * n)) (fun q => rowP p (q % n)) m₀) (m, ps)) (hf : ∀ q, ps q = .ret ()) : AsyncExec G n (s * n) p m₀ m := by
  obtain ⟨log, h1, h2⟩ := gsteps_asteps hm hp.jobs h
  exact ⟨k, log, ps, h1, hf, h2⟩

omit [Zero V] in
/-- Executions with more order are executions with less order. -/
theorem steps_gsteps {k : Nat} {c d : Conf V} (h : Steps k c d) : GSteps NoWait n k c d := by
  induction h with
  | refl => exact .refl _
  | tail _ s ih =>
    refine ih.tail ?_
    cases s with
    | load i h hv => exact .load i h hv fun _ h => h.elim
    | store i h hl => exact .store i h hl fun _ h => h.elim

/-- **C68** There are executions, for every order under which no job waits for a later one, if the kernel always has a value or divides by zero. -/
theorem async_exec_exists (hp : IsKernel n p upd) (hm : m₀.length = n) (hs : ∀ i < n, ∀ view, ∃ v, Yields (upd i (readView n view)) v) (hG : ∀ q q', G q q' → q' < q) (s : Nat) :
    ∃ m, AsyncExec G n (s * n) p m₀ m := by
  obtain ⟨k, ⟨log, ps⟩, -, h1, h2⟩ := (async_exec_terminates (G := G) (s := s) hp hm (.refl _)).2 hs hG
  exact ⟨_, k, log, ps, h1, h2, rfl⟩

/-! #### Too late -/

omit [Zero V] in
theorem ASteps.trans {G : Nat → Nat → Prop} {n N k k' : Nat} {m₀ : List V} {c d e : AConf V} (h : ASteps G n N m₀ k c d) (h' : ASteps G n N m₀ k' d e) :
    ASteps G n N m₀ (k + k') c e := by
  induction h' with
  | refl => exact h
  | tail _ s ih => exact (ih h).tail s

/-- If job `q` need not wait for any job, it can run from its beginning to its end and read nothing but initial values. -/
theorem job_initial {N q : Nat} (hm : m₀.length = n) (hg : ∀ q', ¬ G q q') {r : Prog V V} {v : V} (hr : r.eval (readView n (get0 m₀)) = .ok v)
    (log : List (Nat × V)) (ps : Nat → Prog V Unit) (h : ps q = r.bind (Prog.wr (q % n))) :
    ∃ k, ASteps G n N m₀ k (log, ps) (log ++ [(q, v)], Function.update ps q (.ret ())) := by
  induction r generalizing ps with
  | ret a =>
    simp only [Prog.eval] at hr
    injection hr with hr
    subst hr
    exact ⟨1, (ASteps.refl _).tail (.store q h rfl fun q' hq' => (hg q' hq').elim)⟩
  | fail e => simp [Prog.eval] at hr
  | store l v k => simp [Prog.eval] at hr
  | load l k ih =>
    by_cases hl : l < n
    · have e : readView n (get0 m₀) l = .ok m₀⟦l⟧ := if_pos hl
      simp only [Prog.eval, e, ok_bind] at hr
      obtain ⟨k', h'⟩ := ih _ hr (Function.update ps q ((k m₀⟦l⟧).bind (Prog.wr (q % n)))) (Function.update_self ..)
      rw [Function.update_idem] at h'
      refine ⟨_, ((ASteps.refl _).tail (.load (v := m₀⟦l⟧) q h hl (fun q' hq' => (hg q' hq').elim) (Or.inr ⟨?_, fun q' _ hq' => (hg q' hq').elim⟩))).trans h'⟩
      rw [get0_eq_getElem (by omega)]
      exact List.getElem?_eq_getElem _
    · have e : readView n (get0 m₀) l = .error .ub := if_neg hl
      simp only [Prog.eval, e, error_bind] at hr
      cases hr

/-- **C68** Without any order between the sweeps, `s` sweeps may come to no more than one Jacobi step: every update of every sweep may read the initial values. So may the first `L` sweeps if a job waits only
for the jobs of the sweep `L` before. -/
theorem async_exec_initial (hp : Evals p upd) (hm : m₀.length = n) {e : List V} (he : e.length = n) (hs : 1 ≤ s)
    (hv : ∀ i < n, upd i (readView n (get0 m₀)) = .ok e⟦i⟧) (hg : ∀ q < s * n, ∀ q', ¬ G q q') : AsyncExec G n (s * n) p m₀ e := by
  have key : ∀ N ≤ s * n, ∃ k, ASteps G n (s * n) m₀ k (startSweeps n (s * n) p)
      ((List.range N).map (fun q => (q, e⟦q % n⟧)), fun q => if q < N then .ret () else (startSweeps n (s * n) p).2 q) := by
    intro N
    induction N with
    | zero => exact fun _ => ⟨0, by simp only [Nat.not_lt_zero, if_false]; exact ASteps.refl _⟩
    | succ N ih =>
      intro hN
      obtain ⟨k, h1⟩ := ih (by omega)
      have hn : 0 < n := Nat.pos_of_ne_zero (by rintro rfl; simp at hN)
      obtain ⟨k', h2⟩ := job_initial (N := s * n) (G := G) (q := N) hm (hg N (by omega)) (r := p (N % n)) (v := e⟦N % n⟧)
        (by rw [hp]; exact hv _ (Nat.mod_lt _ hn)) ((List.range N).map (fun q => (q, e⟦q % n⟧))) (fun q => if q < N then .ret () else (startSweeps n (s * n) p).2 q)
        (by simp only [startSweeps]; rw [if_neg (Nat.lt_irrefl _), if_pos (by omega)])
      refine ⟨k + k', ?_⟩
      have e1 : (List.range (N + 1)).map (fun q => (q, e⟦q % n⟧)) = (List.range N).map (fun q => (q, e⟦q % n⟧)) ++ [(N, e⟦N % n⟧)] := by
        rw [List.range_succ, List.map_append]; rfl
      have e2 : (fun q => if q < N + 1 then Prog.ret () else (startSweeps n (s * n) p).2 q) =
          Function.update (fun q => if q < N then Prog.ret () else (startSweeps n (s * n) p).2 q) N (.ret ()) := by
        funext q
        rcases Nat.lt_trichotomy q N with h | h | h
        · rw [Function.update_of_ne (by omega), if_pos (by omega), if_pos h]
        · subst h; rw [Function.update_self, if_pos (by omega)]
        · rw [Function.update_of_ne (by omega), if_neg (by omega), if_neg (by omega)]
      rw [e1, e2]
      exact h1.trans h2
  obtain ⟨k, h⟩ := key (s * n) (Nat.le_refl _)
  refine ⟨k, _, _, h, fun q => ?_, ?_⟩
  · split
    · rfl
    · simp only [startSweeps]; rw [if_neg ‹_›]
  · have happ : ∀ (l : List (Nat × V)) (x : List V), x.length = n → (∀ w ∈ l, w.2 = e⟦w.1⟧) → (∀ i < n, x⟦i⟧ = e⟦i⟧ ∨ ∃ w ∈ l, w.1 = i) → e = applyLog x l := by
      intro l
      induction l with
      | nil =>
        intro x hx _ h
        exact ext_get0 (by rw [he]; exact hx.symm) fun i hi => by
          rcases h i (by omega) with h | ⟨w, hw, -⟩
          · exact h.symm
          · cases hw
      | cons w l ih =>
        intro x hx hl h
        refine ih (x.set w.1 w.2) (by simpa using hx) (fun w hw => hl w (List.mem_cons_of_mem _ hw)) fun i hi => ?_
        by_cases hwi : w.1 = i
        · left
          rw [hwi, get0_set_self (by omega), hl w List.mem_cons_self, hwi]
        · rw [get0_set_ne (by omega)]
          rcases h i hi with h' | ⟨w', hw', h'⟩
          · exact Or.inl h'
          · rcases List.mem_cons.mp hw' with rfl | hw'
            · exact (hwi h').elim
            · exact Or.inr ⟨w', hw', h'⟩
    refine happ _ m₀ hm (fun w hw => ?_) fun i hi => Or.inr ⟨(i, e⟦i⟧), ?_, rfl⟩
    · simp only [comps, List.map_map, List.mem_map] at hw
      obtain ⟨q, -, rfl⟩ := hw
      rfl
    · simp only [comps, List.map_map, List.mem_map, List.mem_range]
      exact ⟨i, Nat.lt_of_lt_of_le hi (Nat.le_mul_of_pos_left n hs), by simp [Nat.mod_eq_of_lt hi]⟩

end generic

/-! ### Factorization -/

section ilu
variable {R : Type} [Zero R] [Sub R] [Mul R] [PInvOp R] {A : SR R} {scal : Nat → Nat → R → C R} {pos : ILUPos}

theorem isKernel_ilu (hA : A.Full) (hS : A.Sorted) (hD : A.HasDiag) (hpos : computeILUPositions A = .ok pos) :
    IsKernel A.browptr⟦A.nbrows⟧ (iluCompP A scal pos) (iluComp A scal pos) := by
  obtain ⟨pos', h1, hposOk⟩ := compute_ILU_positions_correct A hA hS hD
  rw [hpos] at h1; cases h1
  exact ⟨evals_iluCompP A scal pos, fun j hj => once_iluCompP hA hD hposOk scal hj⟩

/-- **C68** for C22 and C62: `s` asynchronous sweeps of the factorization, in which no job begins before all jobs of the sweep `L` before have ended, give the factors of the sequential
sweeps, bit for bit, if `s` is at least `(2 n - 1) (2 L - 1)`: whatever the initial guess, the interleaving of the accesses and the delay of stores. -/
theorem async_ilu_exec_exact (hA : A.Full) (hS : A.Sorted) (hD : A.HasDiag) (hpos : computeILUPositions A = .ok pos)
    {ks : Nat} (hks : 1 ≤ ks) {x0 ex : List R} (hl0 : x0.length = A.browptr⟦A.nbrows⟧) (hseq : iluSweeps A scal pos ks x0 = .ok ex)
    {L s : Nat} (hL : 1 ≤ L) (hs : (2 * A.nbrows - 1) * (2 * L - 1) ≤ s) {x x' : List R} (hl : x.length = A.browptr⟦A.nbrows⟧)
    (h : AsyncExec (Lag A.browptr⟦A.nbrows⟧ L) A.browptr⟦A.nbrows⟧ (s * A.browptr⟦A.nbrows⟧) (iluCompP A scal pos) x x') : x' = ex := by
  obtain ⟨log, last, h1, rfl⟩ := h.rounds (k := 2 * A.nbrows - 1 + (1 - A.nbrows)) (isKernel_ilu hA hS hD hpos) hl hL (by omega) fun hne => by
    have : A.nbrows ≠ 0 := fun h0 => hne (by rw [h0]; exact hA.ptr_zero)
    rw [show 1 - A.nbrows = 0 by omega]
    exact hs
  exact async_ilu_same_bits mixOk_whole hA hS hD hpos hks hl0 hseq hl (by omega) h1

/-- **C68** for C21 and C62: the factors of the sequential sweeps are unchanged by any execution, however late any thread is. -/
theorem async_ilu_exec_fixed (hA : A.Full) (hS : A.Sorted) (hD : A.HasDiag) (hpos : computeILUPositions A = .ok pos)
    {ks : Nat} (hks : 1 ≤ ks) {x0 ex : List R} (hl0 : x0.length = A.browptr⟦A.nbrows⟧) (hseq : iluSweeps A scal pos ks x0 = .ok ex) {G : Nat → Nat → Prop} {s : Nat} {x' : List R}
    (h : AsyncExec G A.browptr⟦A.nbrows⟧ (s * A.browptr⟦A.nbrows⟧) (iluCompP A scal pos) ex x') : x' = ex := by
  obtain ⟨pos', h1, hposOk⟩ := compute_ILU_positions_correct A hA hS hD
  have hpos' := hpos
  rw [hpos] at h1; cases h1
  obtain ⟨hle, -⟩ := iluSweeps_fixed hA hS hD hposOk hks hl0 hseq
  obtain ⟨log, h1, -, rfl⟩ := async_exec_nowait (isKernel_ilu hA hS hD hpos') hle h
  exact async_ilu_stays_same_bits mixOk_whole hA hS hD hpos' hks hl0 hseq h1

end ilu

/-- **C68** Executions of the factorization come to their end, whatever they read. -/
theorem async_ilu_exec_terminates {R : Type} [Ring R] [PInv R] {A : SR R} {scal : Nat → Nat → R → C R} {pos : ILUPos} {S : Nat → Nat → R}
    (hA : A.Full) (hS : A.Sorted) (hD : A.HasDiag) (hpos : computeILUPositions A = .ok pos) (hscal : Scales A scal S)
    {G : Nat → Nat → Prop} (hG : ∀ q q', G q q' → q' < q) {s k : Nat} {x : List R} (hl : x.length = A.browptr⟦A.nbrows⟧) {c : AConf R}
    (h : ASteps G A.browptr⟦A.nbrows⟧ (s * A.browptr⟦A.nbrows⟧) x k (startSweeps A.browptr⟦A.nbrows⟧ (s * A.browptr⟦A.nbrows⟧) (iluCompP A scal pos)) c) :
    k ≤ s * A.browptr⟦A.nbrows⟧ * (A.browptr⟦A.nbrows⟧ + 1) ∧ ∃ k' d, k ≤ k' ∧
      ASteps G A.browptr⟦A.nbrows⟧ (s * A.browptr⟦A.nbrows⟧) x k' (startSweeps A.browptr⟦A.nbrows⟧ (s * A.browptr⟦A.nbrows⟧) (iluCompP A scal pos)) d ∧
      ∀ q, d.2 q = .ret () := by
  obtain ⟨pos', h1, hposOk⟩ := compute_ILU_positions_correct A hA hS hD
  have hpos' := hpos
  rw [hpos] at h1; cases h1
  obtain ⟨h1, h2⟩ := async_exec_terminates (isKernel_ilu hA hS hD hpos') hl h
  refine ⟨h1, h2 (fun j hj view => ?_) hG⟩
  rw [iluComp_view hA hS hD hposOk (hscal.scalOk hA) hj (g := view) fun q hq => by unfold readView; rw [if_pos (by omega)]]
  unfold facVal
  split
  · cases hpi : pinv (view A.diagind⟦A.bcolind⟦j⟧⟧) with
    | ok b => exact ⟨_, Or.inl rfl⟩
    | error e =>
      have := PInv.pinv_err hpi
      subst this
      exact ⟨0, Or.inr rfl⟩
  · exact ⟨_, Or.inl rfl⟩

/-! ### Triangular solves -/

/-- A row update whose value always exists has executions, each of which ends. -/
theorem RowUpd.exec_exists {M : Type} [Zero M] {upd : Nat → (Nat → C M) → C M} {n : Nat} {D : Nat → Nat → Prop} {f : Nat → (Nat → M) → M} (h : RowUpd upd n D f) {p : Nat → Prog M M}
    (hp : IsKernel n p upd) {m₀ : List M} (hm : m₀.length = n) {G : Nat → Nat → Prop} (hG : ∀ q q', G q q' → q' < q) (s : Nat) : ∃ m, AsyncExec G n (s * n) p m₀ m :=
  async_exec_exists hp hm (fun i hi view => ⟨_, Or.inl (h.eval i hi _ view fun _ hj => if_pos hj)⟩) hG s

section solves
variable {V R M K : Type}

/-- `scalar_ilu0_apply` and `block_ilu0_apply` with threads, `src/solverops_ilu0.cpp` lines 56-148 and 240-321, with both triangular solves access by access: as `AsyncIluApply`. `s` is the number of
sweeps. -/
def AsyncIluExec [Zero M] (lower upper : List M → Nat → Prog M M) (n : Nat) (G : Nat → Nat → Prop) (scale : Option (Nat → M → C M)) (s : Nat) (init : ApplyInit)
    (ord : Nat → List Nat) (r z y z' y' : List M) : Prop :=
  ∃ z₁ y₁ z₂ z₃, applyScaleIn n scale (ord 0) r z = .ok z₁ ∧ applyInitY n init (ord 1) y = .ok y₁ ∧
    AsyncExec G n (s * n) (lower z₁) y₁ y' ∧ applyInitZ n init (ord 2) y' z₁ = .ok z₂ ∧
    AsyncExec G n (s * n) (upper y') z₂ z₃ ∧ applyScaleOut n scale (ord 3) z₃ = .ok z'

theorem AsyncIluExec.apply [Zero M] {lower upper : List M → Nat → Prog M M} {lupd uupd : List M → Nat → (Nat → C M) → C M} {n : Nat}
    (hlo : ∀ b, IsKernel n (lower b) (lupd b)) (hup : ∀ b, IsKernel n (upper b) (uupd b))
    {scale : Option (Nat → M → C M)} {S : Nat → M → M} (hSeg : SegOk scale S n) {L k s : Nat} (hL : 1 ≤ L) (hk : 1 ≤ k) (hs : n ≠ 0 → k * (2 * L - 1) ≤ s)
    {init : ApplyInit} (hi : init ≠ .none) {ord : Nat → List Nat} (hord : ∀ t, (ord t).Perm (List.range n)) {r z y z' y' : List M} (hr : r.length = n)
    (hz : z.length = n) (hy : y.length = n) (h : AsyncIluExec lower upper n (Lag n L) scale s init ord r z y z' y') :
    AsyncIluApply lupd uupd n mixWhole scale k init ord r z y z' y' := by
  obtain ⟨z₁, y₁, z₂, z₃, e1, e2, h3, e4, h5, e6⟩ := h
  have h1 := (applyScaleIn_ok hSeg (hord 0) hr hz).post _ e1
  have hy1 := (applyInitY_ok init (hord 1) hy).post _ e2
  have hr1 := h3.rounds (hlo z₁) hy1 hL hk hs
  have hy2 : y'.length = n := by
    obtain ⟨log, last, -, rfl⟩ := hr1
    rw [applyLog_length, hy1]
  have hz2 := (applyInitZ_ok hi (hord 2) hy2 h1.1).post _ e4
  exact ⟨z₁, y₁, z₂, z₃, e1, e2, hr1, e4, h5.rounds (hup y') hz2 hL hk hs, e6⟩

/-- **C68** for C27 and C62, scalar: `s` asynchronous sweeps in each of the two triangular solves, in which no job begins before all jobs of the sweep `L` before have ended, give the result of
the sequential code, bit for bit, if `s` is at least `n (2 L - 1)`. -/
theorem async_scalar_ilu_apply_exec [Zero K] [Add K] [Sub K] [Mul K] [PInvOp K] {A : SR V} {m : Nat} (hA : A.Full m) (hS : A.Sorted) (hD : A.HasDiag) {ilu : List K}
    (hl : ilu.length = A.browptr⟦A.nbrows⟧) (hd : ∀ i < A.nbrows, ∃ w, pinv ilu⟦A.diagind⟦i⟧⟧ = .ok w) {scale : Option (List K)} (hsc : ScaleLen scale A.nbrows)
    {L s : Nat} (hL : 1 ≤ L) (hs : A.nbrows * (2 * L - 1) ≤ s) {init : ApplyInit} (hi : init ≠ .none) {ord : Nat → List Nat}
    (hord : ∀ t, (ord t).Perm (List.range A.nbrows)) {r z y z' y' : List K} (hr : r.length = A.nbrows) (hz : z.length = A.nbrows) (hy : y.length = A.nbrows)
    (h : AsyncIluExec (unitLowerP A ilu) (upperP A ilu) A.nbrows (Lag A.nbrows L) (scale.map scalarSeg) s init ord r z y z' y') :
    ∃ y'', scalarIluApply A ilu scale 1 init ord r z y = .ok (z', y'') := by
  obtain ⟨x, -, h1, -, -, h2⟩ := scalar_ilu_apply_same_bits hA hS hD hl hd hsc hr
  have ha := h.apply (fun b => ⟨evals_unitLowerP A ilu b, fun i hi => once_unitLowerP hS hD ilu b hi⟩)
    (fun b => ⟨evals_upperP A ilu b, fun i hi => once_upperP hS hD ilu b hi⟩) (segOk_any hsc) (k := A.nbrows + (1 - A.nbrows)) hL (by omega)
    (fun hne => by rw [show 1 - A.nbrows = 0 by omega]; exact hs) hi hord hr hz hy
  rw [h2 _ init mixWhole ord z y z' y' (by omega) hi mixOk_whole hord hz hy ha]
  exact h1 1 init ord z y (Nat.le_refl _) hi hord hz hy

/-- **C68** for C27 and C62, block. -/
theorem async_block_ilu_apply_exec [Zero R] [Zero M] [Add M] [Sub M] [SMul R M] {A : SR V} {m : Nat} (hA : A.Full m) (hS : A.Sorted) (hD : A.HasDiag) {ilu : List R}
    (hl : ilu.length = A.browptr⟦A.nbrows⟧) {scale : Option (Nat → M → C M)} {S : Nat → M → M} (hsc : SegOk scale S A.nbrows)
    {L s : Nat} (hL : 1 ≤ L) (hs : A.nbrows * (2 * L - 1) ≤ s) {init : ApplyInit} (hi : init ≠ .none) {ord : Nat → List Nat}
    (hord : ∀ t, (ord t).Perm (List.range A.nbrows)) {r z y z' y' : List M} (hr : r.length = A.nbrows) (hz : z.length = A.nbrows) (hy : y.length = A.nbrows)
    (h : AsyncIluExec (unitLowerP A ilu) (blockUpperP A ilu) A.nbrows (Lag A.nbrows L) scale s init ord r z y z' y') :
    ∃ y'', iluApplyWith (unitLowerRow A ilu) (blockUpperRow A ilu) A.nbrows scale 1 init ord r z y = .ok (z', y'') := by
  obtain ⟨x, -, h1, -, -, h2⟩ := block_ilu_apply_same_bits (M := M) hA hS hD hl hsc hr
  have ha := h.apply (fun b => ⟨evals_unitLowerP A ilu b, fun i hi => once_unitLowerP hS hD ilu b hi⟩)
    (fun b => ⟨evals_blockUpperP A ilu b, fun i hi => once_blockUpperP hS hD ilu b hi⟩) hsc (k := A.nbrows + (1 - A.nbrows)) hL (by omega)
    (fun hne => by rw [show 1 - A.nbrows = 0 by omega]; exact hs) hi hord hr hz hy
  rw [h2 _ init mixWhole ord z y z' y' (by omega) hi mixOk_whole hord hz hy ha]
  exact h1 1 init ord z y (Nat.le_refl _) hi hord hz hy

/-- `apply` of the SGS preconditioners with threads, `src/solverops_sgs.cpp` lines 48-83, 148-177, with the backward sweeps access by access: as `AsyncSgsApply`. -/
def AsyncSgsExec [Zero M] [Add M] [Sub M] [SMul R M] (A : SR R) (dinv : List R) (G : Nat → Nat → Prop) (s : Nat) (init : ApplyInit) (ord : Nat → List Nat)
    (r z y z' y' : List M) : Prop :=
  ∃ y₁ z₁, sgsInitY A.nbrows init (ord 0) y = .ok y₁ ∧ fwdSweeps (fgsRow A dinv r) A.nbrows s y₁ = .ok y' ∧
    sgsInitZ A.nbrows init (ord 1) y' z = .ok z₁ ∧ AsyncExec G A.nbrows (s * A.nbrows) (bgsP A dinv y') z₁ z'

/-- **C68** for C31 and C62: symmetric Gauss-Seidel, scalar and block. -/
theorem async_sgs_apply_exec [Zero R] [Zero M] [Add M] [Sub M] [SMul R M] {A : SR R} {dinv : List R} (hA : A.Full) (hS : A.Sorted) (hD : A.HasDiag) (hd : dinv.length = A.nbrows)
    {L s : Nat} (hL : 1 ≤ L) (hs1 : 1 ≤ s) (hs : A.nbrows * (2 * L - 1) ≤ s) {init : ApplyInit} {ord : Nat → List Nat} (hord : ∀ t, (ord t).Perm (List.range A.nbrows))
    {r z y z' y' : List M} (hr : r.length = A.nbrows) (hz : z.length = A.nbrows) (hy : y.length = A.nbrows)
    (h : AsyncSgsExec A dinv (Lag A.nbrows L) s init ord r z y z' y') : ∃ y'', sgsApply A dinv 1 init ord r z y = .ok (z', y'') := by
  obtain ⟨x, -, h1, -, -, h2⟩ := sgs_apply_same_bits (M := M) hA hS hD hd hr
  obtain ⟨y₁, z₁, e1, e2, e3, h4⟩ := h
  have hf := triAny_fgs (M := M) hA hS hD hd
  have hDL : ∀ i j, LowDep A i j → j < i := fun _ _ h => h.2
  have hy1 := (applyInitY_ok init (hord 0) hy).post _ e1
  have hy2 := ((hf.upd r hr).fwd hDL hs1 hy1).post _ e2
  have hz1 := (sgsInitZ_ok init (hord 1) hy2.1 hz).post _ e3
  have hk : 1 ≤ A.nbrows + (1 - A.nbrows) := by omega
  obtain ⟨y₂, e5, hy5⟩ := (hf.upd r hr).fwd hDL hk hy1
  have heq : y₂ = y' := ext_get0 (by omega) fun i hi => fwd_unique hDL (hf.upd r hr).dep hy5.2 hy2.2 i (by omega)
  subst heq
  have ha : AsyncSgsApply A dinv mixWhole (A.nbrows + (1 - A.nbrows)) init ord r z y z' y₂ :=
    ⟨y₁, z₁, e1, e5, e3, h4.rounds ⟨evals_bgsP A dinv y₂, fun i hi => once_bgsP hS hD dinv y₂ hi⟩ hz1 hL hk fun hne => by
      rw [show 1 - A.nbrows = 0 by omega]; exact hs⟩
  rw [h2 _ init mixWhole ord z y z' y₂ hk (by omega) mixOk_whole hord hz hy ha]
  exact h1 1 init ord z y (Nat.le_refl _) hord hz hy

end solves

/-! ### Relaxation -/

section relax
variable {R M K : Type}

theorem isKernel_relax [Zero M] [Add M] [Sub M] [SMul R M] {A : SR R} (hS : A.Sorted) (hD : A.HasDiag) (dinv : List R) (b : List M) :
    IsKernel A.nbrows (relaxP A dinv b) (relaxRow A dinv b) := ⟨evals_relaxP A dinv b, fun _ hi => once_relaxP hS hD dinv b hi⟩

/-- **C68** for C36: a solution of the linear system is unchanged by any execution of the chaotic relaxation, however late any thread is. -/
theorem async_relax_exec_fixed [Ring R] [AddCommGroup M] [Module R M] {A : SR R} {dinv : List R} {b : List M} (hA : A.Full) (hS : A.Sorted) (hD : A.HasDiag) (hI : DiagInv A dinv)
    (hb : b.length = A.nbrows) {x x' : List M} (hx : x.length = A.nbrows) (hsol : Solves A b (get0 x)) {G : Nat → Nat → Prop} {s : Nat}
    (h : AsyncExec G A.nbrows (s * A.nbrows) (relaxP A dinv b) x x') : x' = x := by
  obtain ⟨log, h1, -, rfl⟩ := async_exec_nowait (isKernel_relax hS hD dinv b) hx h
  exact relax_fixed_async hA hS hD hI hb mixOk_whole hsol (hx ▸ h1)

/-- **C68** for C36: conversely, what one sweep leaves unchanged is a solution. -/
theorem async_relax_exec_converse [Ring R] [AddCommGroup M] [Module R M] {A : SR R} {dinv : List R} {b : List M} (hA : A.Full) (hS : A.Sorted) (hD : A.HasDiag) (hI : DiagInv A dinv)
    (hb : b.length = A.nbrows) {x : List M} (hx : x.length = A.nbrows) {G : Nat → Nat → Prop}
    (h : AsyncExec G A.nbrows (1 * A.nbrows) (relaxP A dinv b) x x) : Solves A b (get0 x) :=
  relax_converse_async hA hS hD hI hb mixOk_whole hx (async_exec_nowait (isKernel_relax hS hD dinv b) hx h)

section order
variable [Field K] [LinearOrder K] [IsStrictOrderedRing K] {A : SR K} {dinv b : List K} {sol : Nat → K} {rho E : K}

/-- **C68** for C37: every `2 L - 1` sweeps of the chaotic relaxation multiply the largest error by at most `rho`. -/
theorem async_relax_exec_converges (hA : A.Full) (hS : A.Sorted) (hD : A.HasDiag) (hI : DiagInv A dinv) (hb : b.length = A.nbrows) (hdom : Dominant A rho) (hr : 0 ≤ rho) (h1 : rho ≤ 1)
    (hsol : Solves A b sol) {x x' : List K} (hx : x.length = A.nbrows) (hE : 0 ≤ E) (h0 : ∀ i < A.nbrows, |x⟦i⟧ - sol i| ≤ E) {L k s : Nat} (hL : 1 ≤ L) (hk : 1 ≤ k)
    (hs : k * (2 * L - 1) ≤ s) (h : AsyncExec (Lag A.nbrows L) A.nbrows (s * A.nbrows) (relaxP A dinv b) x x') : ∀ i < A.nbrows, |x'⟦i⟧ - sol i| ≤ rho ^ k * E :=
  chaotic_converges hA hS hD hI hb hdom hr h1 hsol hx hE h0 (Or.inr (h.rounds (isKernel_relax hS hD dinv b) hx hL hk fun _ => hs))

/-- **C68** for C37: in the limit. The number of sweeps after which the error is below `ε` does not depend on the execution. -/
theorem async_relax_exec_limit [Archimedean K] (hA : A.Full) (hS : A.Sorted) (hD : A.HasDiag) (hI : DiagInv A dinv) (hb : b.length = A.nbrows) (hdom : Dominant A rho) (hr : 0 ≤ rho)
    (h1 : rho < 1) (hsol : Solves A b sol) {x : List K} (hx : x.length = A.nbrows) {L : Nat} (hL : 1 ≤ L) {ε : K} (hε : 0 < ε) :
    ∃ s₀, ∀ s ≥ s₀, ∀ x', AsyncExec (Lag A.nbrows L) A.nbrows (s * A.nbrows) (relaxP A dinv b) x x' → ∀ i < A.nbrows, |x'⟦i⟧ - sol i| < ε := by
  obtain ⟨E, hE, h0⟩ : ∃ E : K, 0 ≤ E ∧ ∀ i < A.nbrows, |x⟦i⟧ - sol i| ≤ E :=
    ⟨∑ i ∈ Finset.range A.nbrows, |x⟦i⟧ - sol i|, Finset.sum_nonneg fun _ _ => abs_nonneg _, fun i hi =>
      Finset.single_le_sum (f := fun i => |x⟦i⟧ - sol i|) (fun _ _ => abs_nonneg _) (Finset.mem_range.mpr hi)⟩
  obtain ⟨k₀, hk⟩ := chaotic_limit hA hS hD hI hb hdom hr h1 hsol hx hE h0 hε
  exact ⟨(k₀ + 1) * (2 * L - 1), fun s hs x' h => hk (k₀ + 1) (by omega) x' (Or.inr (h.rounds (isKernel_relax hS hD dinv b) hx hL (by omega) fun _ => hs))⟩

end order

end relax

/-! ### Examples -/

/-- **C68** Without order between the sweeps no number of sweeps is enough for C22, and with `Lag n L` not the number `L`: after all of them the factors may be those of one Jacobi step. -/
theorem async_ilu_exec_late (s : Nat) (hs : 1 ≤ s) :
    ∃ pos x x' ex, computeILUPositions exA2 = .ok pos ∧ iluSweeps exA2 (scalarScale? none) pos 1 x = .ok ex ∧ x' ≠ ex ∧
      AsyncExec NoWait 4 (s * 4) (iluCompP exA2 (scalarScale? none) pos) x x' ∧ AsyncExec (Lag 4 s) 4 (s * 4) (iluCompP exA2 (scalarScale? none) pos) x x' := by
  have hv : ∀ i < 4, iluComp exA2 (scalarScale? none) ⟨[2], [1], [0, 0, 0, 0, 1]⟩ i (readView 4 (get0 [1, 1, 0, 0])) = .ok ([2, 1, 1, 1] : List ℚ)⟦i⟧ := by decide +kernel
  refine ⟨_, [1, 1, 0, 0], [2, 1, 1, 1], [2, 1, 1/2, 1/2], exA2_pos, by decide +kernel, by decide +kernel, ?_, ?_⟩
  · exact async_exec_initial (n := 4) (m₀ := [1, 1, 0, 0]) (e := [2, 1, 1, 1]) (evals_iluCompP exA2 (scalarScale? none) _) rfl rfl hs hv fun _ _ _ h => h
  · refine async_exec_initial (n := 4) (m₀ := [1, 1, 0, 0]) (e := [2, 1, 1, 1]) (evals_iluCompP exA2 (scalarScale? none) _) rfl rfl hs hv fun q hq q' h => ?_
    unfold Lag at h
    omega

/-- Non-vacuity of `async_ilu_exec_exact`, `async_ilu_exec_terminates`, `async_exec_lag`: there is an execution of nine sweeps on `exA2` in which threads may be one sweep apart (`L = 2`), from a guess with a zero
pivot, and it computes the factors. -/
example : ∃ x', AsyncExec (Lag 4 2) 4 (9 * 4) (iluCompP exA2 (scalarScale? none) ⟨[2], [1], [0, 0, 0, 0, 1]⟩) [0, 5, 7, -3] x' ∧ x' = [2, 1, 1/2, 1/2] := by
  obtain ⟨k, ⟨log, ps⟩, -, h1, h2⟩ := (async_ilu_exec_terminates (s := 9) (x := [0, 5, 7, -3]) exA2_full exA2_sorted exA2_diag exA2_pos exA2_scales
    (lag_lt (n := 4) (L := 2) (by decide)) rfl (.refl _)).2
  have h : AsyncExec (Lag 4 2) 4 (9 * 4) (iluCompP exA2 (scalarScale? none) ⟨[2], [1], [0, 0, 0, 0, 1]⟩) [0, 5, 7, -3] _ := ⟨k, log, ps, h1, h2, rfl⟩
  exact ⟨_, h, async_ilu_exec_exact exA2_full exA2_sorted exA2_diag exA2_pos (ks := 1) (by decide) (x0 := [1, 1, 0, 0]) rfl (by decide +kernel) (L := 2) (by decide) (by decide) rfl h⟩

/-- Non-vacuity of `async_relax_exec_converges`: there is an execution of six sweeps of the relaxation of the diagonally dominant `exStar` with `L = 2`. -/
example : ∃ x' : List ℚ, AsyncExec (Lag 4 2) 4 (6 * 4) (relaxP exStar [1/2, 1/3, 1/4, 1/9] [3, 4, 5, (12 : ℚ)]) [0, 0, 0, 0] x' ∧ ∀ i < 4, |x'⟦i⟧ - 1| ≤ (1/2 : ℚ) ^ 2 * 1 := by
  obtain ⟨x', h⟩ := (rowUpd_relaxVal exStar_full exStar_sorted exStar_diag exStar_diagInv (b := [3, 4, 5, (12 : ℚ)]) rfl).exec_exists
    (isKernel_relax exStar_sorted exStar_diag [1/2, 1/3, 1/4, 1/9] [3, 4, 5, (12 : ℚ)]) (m₀ := [0, 0, 0, 0]) rfl (lag_lt (n := 4) (L := 2) (by decide)) 6
  refine ⟨x', h, async_relax_exec_converges (x := [0, 0, 0, 0]) (s := 6) (sol := fun _ => 1) exStar_full exStar_sorted exStar_diag exStar_diagInv rfl ?_ (by norm_num) (by norm_num) ?_ rfl
    (by norm_num) ?_ (L := 2) (k := 2) (by decide) (by decide) (by decide) h⟩
  · unfold Dominant; decide +kernel
  · unfold Solves; decide +kernel
  · decide +kernel

/-- Non-vacuity of `async_scalar_ilu_apply_exec`: an execution with `L = 3` and its result. -/
example : ∃ z' y', AsyncIluExec (unitLowerP exStar exStar.vals) (upperP exStar exStar.vals) 4 (Lag 4 3) none 20 .zero (fun _ => [3, 1, 2, 0]) [1, 2, 3, (4 : ℚ)] [7, 7, 7, 7] [9, 9, 9, 9] z' y' ∧
    (scalarIluApply exStar exStar.vals none 1 .zero (fun _ => [3, 1, 2, 0]) [1, 2, 3, (4 : ℚ)] [7, 7, 7, 7] [9, 9, 9, 9]).map Prod.fst = .ok z' := by
  have hd : ∀ i < 4, pinv exStar.vals⟦exStar.diagind⟦i⟧⟧ = .ok [1/2, 1/3, 1/4, 1/9]⟦i⟧ := by decide +kernel
  have hL := lag_lt (n := 4) (L := 3) (by decide)
  have hlen : ∀ {p : Nat → Prog ℚ ℚ} {x x' : List ℚ}, AsyncExec (Lag 4 3) 4 (20 * 4) p x x' → x'.length = x.length := by
    rintro p x x' ⟨k, log, ps, -, -, rfl⟩
    exact applyLog_length ..
  obtain ⟨y', h1⟩ := (((triAny_unitLower (M := ℚ) exStar_full exStar_sorted exStar_diag (ilu := exStar.vals) rfl).upd [1, 2, 3, 4] rfl)).exec_exists
    ⟨evals_unitLowerP exStar exStar.vals _, fun i hi => once_unitLowerP exStar_sorted exStar_diag _ _ hi⟩ (m₀ := [0, 0, 0, 0]) rfl hL 20
  obtain ⟨z', h2⟩ := (((triAny_upper exStar_full exStar_sorted exStar_diag (ilu := exStar.vals) rfl hd).upd y' (hlen h1))).exec_exists
    ⟨evals_upperP exStar exStar.vals _, fun i hi => once_upperP exStar_sorted exStar_diag _ _ hi⟩ (m₀ := [0, 0, 0, 0]) rfl hL 20
  have h : AsyncIluExec (unitLowerP exStar exStar.vals) (upperP exStar exStar.vals) 4 (Lag 4 3) none 20 .zero (fun _ => [3, 1, 2, 0]) [1, 2, 3, (4 : ℚ)] [7, 7, 7, 7] [9, 9, 9, 9] z' y' :=
    ⟨[1, 2, 3, 4], [0, 0, 0, 0], [0, 0, 0, 0], z', by decide +kernel, by decide +kernel, h1, ?_, h2, rfl⟩
  · obtain ⟨y'', h3⟩ := async_scalar_ilu_apply_exec exStar_full exStar_sorted exStar_diag (ilu := exStar.vals) rfl (fun i hi => ⟨_, hd i hi⟩) (scale := none) scaleLen_none (L := 3) (by decide) (by decide) (by decide)
      (fun _ => by decide) rfl rfl rfl h
    exact ⟨z', y', h, by rw [h3]; rfl⟩
  · rfl

end Blasted
