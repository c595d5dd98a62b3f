import Verif.Race.AsyncProps

/-!
# The sequential sweeps are an execution

`Race/AsyncModel.lean` allows many executions of a number of sweeps; the run of a single thread is one of them, whatever order between the jobs is imposed.
-/

namespace Blasted

variable {V : Type} [Zero V] {n s : Nat} {p : Nat → Prog V V} {upd : Nat → (Nat → C V) → C V} {m₀ m : List V} {G : Nat → Nat → Prop}

omit [Zero V] in
/-- A job whose predecessors have ended can run from its beginning to its end and read the current contents. -/
theorem job_current {N q : Nat} {log : List (Nat × V)} (hm : (applyLog m₀ (comps n log)).length = n)
    (hlog : ∀ q' < N, G q q' → ∃ (t : Nat) (v : V), log[t]? = some (q', v)) {r : Prog V V} {v : V} (hr : r.eval (rd (applyLog m₀ (comps n log))) = .ok v)
    (ps : Nat → Prog V Unit) (hg : ∀ q', G q q' → q' ≠ q ∧ ps q' = .ret ()) (h : ps q = r.bind (Prog.wr (q % n))) :
    ∃ k, ASteps G n N m₀ k (log, ps) (log ++ [(q, v)], Function.update ps q (.ret ())) := by
  induction r generalizing ps with
  | ret a =>
    simp only [Prog.eval] at hr
    injection hr with hr
    subst hr
    exact ⟨1, (ASteps.refl _).tail (.store q h rfl fun q' hq' => (hg q' hq').2)⟩
  | fail e => simp [Prog.eval] at hr
  | store l v k => simp [Prog.eval] at hr
  | load l k ih =>
    cases hrd : rd (applyLog m₀ (comps n log)) l with
    | error e => simp only [Prog.eval, hrd, error_bind] at hr; cases hr
    | ok a =>
      simp only [Prog.eval, hrd, ok_bind] at hr
      have hs : (applyLog m₀ (comps n log))[l]? = some a := by
        unfold rd at hrd
        split at hrd
        · injection hrd with hrd; subst hrd; assumption
        · cases hrd
      have hl : l < n := by
        have := (List.getElem?_eq_some_iff.mp hs).1
        omega
      obtain ⟨k', h'⟩ := ih _ hr (Function.update ps q ((k a).bind (Prog.wr (q % n)))) (fun q' hq' => ⟨(hg q' hq').1, by
        rw [Function.update_of_ne (hg q' hq').1]; exact (hg q' hq').2⟩) (Function.update_self ..)
      rw [Function.update_idem] at h'
      exact ⟨_, ((ASteps.refl _).tail (.load (v := a) q h hl (fun q' hq' => (hg q' hq').2) (visible_current hs hlog))).trans h'⟩

/-- After the first `N` jobs of a sequential run. -/
def SeqRun (G : Nat → Nat → Prop) (n N : Nat) (p : Nat → Prog V V) (m₀ : List V) (q : Nat) (x : List V) : Prop :=
  ∃ k log, ASteps G n N m₀ k (startSweeps n N p) (log, fun q' => if q' < q then .ret () else (startSweeps n N p).2 q') ∧ log.map Prod.fst = List.range q ∧ x = applyLog m₀ (comps n log)

omit [Zero V] in
theorem SeqRun.step (hp : Evals p upd) (hm : m₀.length = n) (hG : ∀ q q', G q q' → q' < q) {N q : Nat} (hq : q < N) {x x' : List V} (h : SeqRun G n N p m₀ q x)
    (hx : updRow upd (q % n) x = .ok x') : SeqRun G n N p m₀ (q + 1) x' := by
  obtain ⟨k, log, h1, h2, rfl⟩ := h
  have hlen : (applyLog m₀ (comps n log)).length = n := by rw [applyLog_length, hm]
  unfold updRow at hx
  cases hv : upd (q % n) (rd (applyLog m₀ (comps n log))) with
  | error e => rw [hv, error_bind] at hx; cases hx
  | ok v =>
    rw [hv, ok_bind] at hx
    have hn : 0 < n := by
      rcases Nat.eq_zero_or_pos n with rfl | h
      · unfold wr at hx
        rw [if_neg (by omega)] at hx
        cases hx
      · exact h
    have hmod := Nat.mod_lt q hn
    rw [wr_eq (by omega)] at hx
    injection hx with hx
    subst hx
    obtain ⟨k', h3⟩ := job_current (G := G) (N := N) (q := q) (r := p (q % n)) (v := v) hlen
      (fun q' _ hgq => mem_fst_iff.mp (by rw [h2]; exact List.mem_range.mpr (hG _ _ hgq)))
      (by rw [hp]; exact hv) (fun q' => if q' < q then .ret () else (startSweeps n N p).2 q') (fun q' hq' => ⟨(hG _ _ hq').ne, if_pos (hG _ _ hq')⟩)
      (by simp only [startSweeps]; rw [if_neg (Nat.lt_irrefl _), if_pos hq])
    refine ⟨k + k', log ++ [(q, v)], ?_, ?_, ?_⟩
    · have e2 : (fun q' => if q' < q + 1 then Prog.ret () else (startSweeps n N p).2 q') =
          Function.update (fun q' => if q' < q then Prog.ret () else (startSweeps n N p).2 q') q (.ret ()) := by
        funext q'
        rcases Nat.lt_trichotomy q' q with h | h | h
        · rw [Function.update_of_ne (by omega), if_pos (by omega), if_pos h]
        · subst h; rw [Function.update_self, if_pos (by omega)]
        · rw [Function.update_of_ne (by omega), if_neg (by omega), if_neg (by omega)]
      rw [e2]
      exact h1.trans h3
    · rw [List.map_append, h2, List.range_succ]; rfl
    · unfold comps
      rw [List.map_append, applyLog_append]
      rfl

omit [Zero V] in
/-- **C68** The run of `s` sweeps by one thread is one of the executions, whatever order between the jobs the run-time system imposes. -/
theorem async_exec_sequential (hp : Evals p upd) (hm : m₀.length = n) (hG : ∀ q q', G q q' → q' < q) (hx : fwdSweeps upd n s m₀ = .ok m) : AsyncExec G n (s * n) p m₀ m := by
  have inner : ∀ t < s, ∀ (j : Nat), j ≤ n → ∀ x x', SeqRun G n (s * n) p m₀ (t * n) x → forRange 0 j (updRow upd) x = .ok x' → SeqRun G n (s * n) p m₀ (t * n + j) x' := by
    intro t ht j
    induction j with
    | zero => intro _ x x' h hx; cases hx; exact h
    | succ j ih =>
      intro hj x x' h hx
      rw [forRange_succ_right (Nat.zero_le _)] at hx
      cases hy : forRange 0 j (updRow upd) x with
      | error e => rw [hy] at hx; cases hx
      | ok y =>
        rw [hy, ok_bind] at hx
        have hmod : (t * n + j) % n = j := by rw [Nat.mul_comm, Nat.mul_add_mod, Nat.mod_eq_of_lt (by omega)]
        have hlt : t * n + j < s * n := by
          have := Nat.mul_le_mul_right n (Nat.succ_le_of_lt ht)
          rw [Nat.succ_mul] at this
          omega
        exact (ih (by omega) x y h hy).step hp hm hG hlt (by rw [hmod]; exact hx)
  have outer : ∀ t ≤ s, ∀ x', forRange 0 t (fun _ x => forRange 0 n (updRow upd) x) m₀ = .ok x' → SeqRun G n (s * n) p m₀ (t * n) x' := by
    intro t
    induction t with
    | zero =>
      intro _ x' hx
      cases hx
      exact ⟨0, [], by simp only [Nat.zero_mul, Nat.not_lt_zero, if_false]; exact ASteps.refl _, by simp, rfl⟩
    | succ t ih =>
      intro ht x' hx
      rw [forRange_succ_right (Nat.zero_le _)] at hx
      cases hy : forRange 0 t (fun _ x => forRange 0 n (updRow upd) x) m₀ with
      | error e => rw [hy] at hx; cases hx
      | ok y =>
        rw [hy, ok_bind] at hx
        rw [Nat.succ_mul]
        exact inner t (by omega) n le_rfl y x' (ih (by omega) y hy) hx
  obtain ⟨k, log, h1, -, h3⟩ := outer s le_rfl m hx
  refine ⟨k, log, _, h1, fun q => ?_, h3⟩
  split
  · rfl
  · simp only [startSweeps]; rw [if_neg ‹_›]

end Blasted
