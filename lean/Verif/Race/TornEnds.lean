import Verif.Race.TornProps
import Verif.Solve.BlockDomProps

/-!
# C88: executions coefficient by coefficient come to their end

Executions exist, none of them can get stuck or go on for ever, and interleavings of the accesses to one memory are among them.
-/

namespace Blasted

open Prog

variable {K V R M α β σ ι : Type} {w : Nat}

/-! ### Computations that end -/

/-- Whatever it loads, the computation ends after at most `b` loads, all of them from the first `N` cells, with a value or a division by zero, and stores nothing. -/
def Prog.Ends (N : Nat) : Prog K α → Nat → Prop
  | .ret _, _ => True
  | .fail e, _ => e = .divzero
  | .load c k, b => c < N ∧ 1 ≤ b ∧ ∀ v, (k v).Ends N (b - 1)
  | .store _ _ _, _ => False

section ends
variable {N b b' : Nat}

theorem Prog.Ends.mono {m : Prog K α} (h : m.Ends N b) (hle : b ≤ b') : m.Ends N b' := by
  induction m generalizing b b' with
  | ret a => trivial
  | fail e => exact h
  | load c k ih => exact ⟨h.1, by have := h.2.1; omega, fun v => ih v (h.2.2 v) (by omega)⟩
  | store _ _ _ => exact h

theorem Prog.Ends.do {m : Prog K α} {f : α → Prog K β} (h : m.Ends N b) (hf : ∀ a, (f a).Ends N b') : (m >>= f).Ends N (b + b') := by
  show (m.bind f).Ends N (b + b')
  induction m generalizing b with
  | ret a => exact (hf a).mono (by omega)
  | fail e => exact h
  | load c k ih =>
    obtain ⟨h1, h2, h3⟩ := h
    refine ⟨h1, by omega, fun v => ?_⟩
    rw [show b + b' - 1 = b - 1 + b' by omega]
    exact ih v (h3 v)
  | store _ _ _ => exact h

theorem ends_lift_bind {c : C α} {f : α → Prog K β} (h : ∃ a, c = .ok a ∧ (f a).Ends N b) : (lift c >>= f).Ends N b := by
  obtain ⟨a, rfl, h⟩ := h
  exact h

theorem ends_pure (a : α) : (pure a : Prog K α).Ends N b := trivial

theorem ends_tabP {f : Fin w → Prog K α} (h : ∀ a, (f a).Ends N b) : (tabP f).Ends N (w * b) := by
  induction w with
  | zero => trivial
  | succ w ih =>
    refine Prog.Ends.mono (b := b + (w * b + 0)) ?_ (by rw [Nat.succ_mul]; omega)
    exact (h 0).do fun a => (ih fun i => h i.succ).do fun v => ends_pure _

theorem ends_loadP (e : V ≃ (Fin w → K)) {n l : Nat} (hl : l < n) : (loadP e l).Ends (n * w) w :=
  ((ends_tabP (b := 1) fun a => ⟨tcell_lt hl a, Nat.le_refl _, fun _ => trivial⟩ : (tabP fun a : Fin w => Prog.rd (l * w + a)).Ends (n * w) (w * 1)).do
    fun v => ends_pure (b := 0) (e.symm v)).mono (by omega)

theorem ends_coefP (e : V ≃ (Fin w → K)) {f : Prog K V} (h : f.Ends N b) : (coefP e f).Ends N (w * b) :=
  ((ends_tabP fun a => (h.do fun x => ends_pure (b := 0) (e x a) : (f >>= fun x => (pure (e x a) : Prog K K)).Ends N (b + 0))).do fun v => ends_pure (b := 0) (e.symm v)).mono (by simp)

theorem ends_forRange {lo hi : Nat} {body : Nat → σ → Prog K σ} (h : ∀ i, lo ≤ i → i < hi → ∀ s, (body i s).Ends N b) (s : σ) : (Prog.forRange lo hi body s).Ends N ((hi - lo) * b) := by
  unfold Prog.forRange
  generalize hd : hi - lo = d
  induction d generalizing lo s with
  | zero => trivial
  | succ d ih =>
    rw [List.range'_succ, Nat.succ_mul, Nat.add_comm (d * b)]
    exact (h lo (Nat.le_refl _) (by omega) s).do fun s' => ih (lo := lo + 1) (fun i h1 h2 => h i (by omega) h2) s' (by omega)

end ends

/-! ### The machine -/

section machine
variable {G : Nat → Nat → Prop} {n N B : Nat} {m₀ : List K} {p : Nat → Prog K (Fin w → K)}

theorem advances_univ : Advances n (fun _ _ => (Set.univ : Set K)) p := fun _ _ _ => all_true _ (fun _ _ => Set.mem_univ _) (fun _ _ => Set.mem_univ _) _

theorem TSteps.inv {c : TConf K w} {k : Nat} (hn : 0 < n) (h : TSteps G n N w m₀ k (startTorn n N p) c) : TInv G n N (fun _ _ => (Set.univ : Set K)) (fun _ => 0) c :=
  (TInv.start advances_univ hn).steps (fun _ _ _ _ _ _ _ _ => Set.mem_univ _) h

/-- What is left to do for a job: at most `b` steps. -/
def TJob.Left (N : Nat) : TJob K w → Nat → Prop
  | .run r, b => ∃ b', r.Ends N b' ∧ b' + 1 + w ≤ b
  | .put _ left, b => left.length ≤ b
  | .over, _ => True

/-- A step uses up some of what is left. -/
theorem TStep.left {c d : TConf K w} (s : TStep G n N w m₀ c d) {rem : Nat → Nat} (h : ∀ q, (c.2 q).Left (n * w) (rem q)) (hid : ∀ q, N ≤ q → c.2 q = .over) :
    ∃ q < N, 1 ≤ rem q ∧ ∀ q', (d.2 q').Left (n * w) (Function.update rem q (rem q - 1) q') := by
  have hq : ∀ q, c.2 q ≠ .over → q < N := fun q hq => Nat.lt_of_not_le fun hle => hq (hid q hle)
  cases s with
  | @load log st cc k v q h1 =>
    have hl := h q
    simp only [h1] at hl
    obtain ⟨b', ⟨-, g1, g2⟩, g3⟩ := hl
    refine ⟨q, hq q (by simp [h1]), by omega, ?_⟩
    intro q'
    by_cases e : q' = q
    · subst e
      simp only [Function.update_self]
      exact ⟨b' - 1, g2 v, by omega⟩
    · simp only [Function.update_of_ne e]; exact h q'
  | @value log st v q h1 =>
    have hl := h q
    simp only [h1] at hl
    obtain ⟨b', -, g3⟩ := hl
    refine ⟨q, hq q (by simp [h1]), by omega, ?_⟩
    intro q'
    by_cases e : q' = q
    · subst e
      simp only [Function.update_self]
      show (List.finRange w).length ≤ _
      rw [List.length_finRange]
      omega
    · simp only [Function.update_of_ne e]; exact h q'
  | @junk log st v q h1 =>
    have hl := h q
    simp only [h1] at hl
    obtain ⟨b', -, g3⟩ := hl
    refine ⟨q, hq q (by simp [h1]), by omega, ?_⟩
    intro q'
    by_cases e : q' = q
    · subst e
      simp only [Function.update_self]
      show (List.finRange w).length ≤ _
      rw [List.length_finRange]
      omega
    · simp only [Function.update_of_ne e]; exact h q'
  | @store log st v left q a h1 ha =>
    have hl := h q
    simp only [h1] at hl
    replace hl : left.length ≤ rem q := hl
    have hpos := List.length_pos_of_mem ha
    refine ⟨q, hq q (by simp [h1]), by omega, ?_⟩
    intro q'
    by_cases e : q' = q
    · subst e
      simp only [Function.update_self]
      show (left.erase a).length ≤ _
      rw [List.length_erase_of_mem ha]
      omega
    · simp only [Function.update_of_ne e]; exact h q'

theorem torn_sum_update {N q : Nat} (hq : q < N) {rem : Nat → Nat} (h1 : 1 ≤ rem q) :
    ∑ i ∈ Finset.range N, Function.update rem q (rem q - 1) i + 1 = ∑ i ∈ Finset.range N, rem i := by
  have hm := Finset.mem_range.mpr hq
  rw [← Finset.add_sum_erase _ _ hm, ← Finset.add_sum_erase _ rem hm, Function.update_self,
    Finset.sum_congr rfl fun i hi => Function.update_of_ne (Finset.ne_of_mem_erase hi) _ _]
  omega

theorem TSteps.left {c : TConf K w} {k : Nat} (hn : 0 < n) (hp : ∀ i < n, (p i).Ends (n * w) B) (h : TSteps G n N w m₀ k (startTorn n N p) c) :
    ∃ rem : Nat → Nat, (∀ q, (c.2 q).Left (n * w) (rem q)) ∧ k + ∑ i ∈ Finset.range N, rem i = N * (B + 1 + w) := by
  generalize hs : startTorn n N p = c₀ at h
  induction h with
  | refl =>
    subst hs
    refine ⟨fun _ => B + 1 + w, fun q => ?_, by simp⟩
    simp only [startTorn]
    split
    · exact ⟨B, hp _ (Nat.mod_lt _ hn), Nat.le_refl _⟩
    · trivial
  | tail h s ih =>
    subst hs
    obtain ⟨rem, g1, g2⟩ := ih rfl
    obtain ⟨q, hq, g3, g4⟩ := s.left g1 (h.inv hn).idle
    exact ⟨_, g4, by have := torn_sum_update hq g3; omega⟩

/-- The current contents of the memory may be loaded. -/
theorem torn_visible_current {Q : Nat → Nat → Set K} {ρ : Nat → Nat} {c : TConf K w} (hI : TInv G n N Q ρ c) {q cell : Nat} (hcell : cell < n * w) (hg : ∀ q', G q q' → (c.2 q').Done)
    {v : K} (hv : (applyLog m₀ (cells c.1))[cell]? = some v) : TVisible G n N w m₀ c.1 q cell v := by
  obtain ⟨l, a, hl, rfl⟩ := tcell_split hcell
  have hput : ∀ q' < N, G q q' → q' % n = (l * w + a) / w → ∃ t' v', c.1[t']? = some (q', l * w + a, v') := fun q' hq' hG hq2 => by
    rw [tcell_div] at hq2
    have hd := hg q' hG
    have hj := hI.job q' hq'
    cases hst : c.2 q' with
    | run r => rw [hst] at hd; exact hd.elim
    | over => rw [hst] at hj; exact hj.elim
    | put u left =>
      rw [hst] at hd
      have := hI.put q' u left hst a
      rw [show left = [] from hd, hq2] at this
      obtain ⟨v', hv'⟩ := this.resolve_left (by simp)
      obtain ⟨t', ht'⟩ := List.getElem?_of_mem hv'
      exact ⟨t', v', ht'⟩
  rcases exists_last hv with ⟨t, q₁, ht, hlast⟩ | ⟨h0, hno⟩
  · exact Or.inl ⟨t, q₁, ht, fun q' hq' hG hq2 => by
      obtain ⟨t', v', ht'⟩ := hput q' hq' hG hq2
      exact ⟨t', hlast t' q' v' ht', v', ht'⟩⟩
  · refine Or.inr ⟨h0, fun q' hq' hG hq2 => ?_⟩
    obtain ⟨t', v', ht'⟩ := hput q' hq' hG hq2
    exact hno t' q' v' ht'

/-- As long as not all jobs are at their end there is a step. -/
theorem TSteps.progress [Inhabited K] {c : TConf K w} {k : Nat} (hn : 0 < n) (hm : m₀.length = n * w) (hp : ∀ i < n, (p i).Ends (n * w) B) (hG : ∀ q q', G q q' → q' < q)
    (h : TSteps G n N w m₀ k (startTorn n N p) c) (hnd : ¬ ∀ q, (c.2 q).Done) : ∃ d, TStep G n N w m₀ c d := by
  classical
  obtain ⟨rem, hl, -⟩ := h.left hn hp
  have hI := h.inv hn
  push Not at hnd
  have hex : ∃ q, ¬ (c.2 q).Done := hnd
  have hq := Nat.find_spec hex
  have hmin : ∀ q', G (Nat.find hex) q' → (c.2 q').Done := fun q' hg => by
    by_contra h'
    exact Nat.find_min hex (hG _ _ hg) h'
  generalize Nat.find hex = q at hq hmin
  obtain ⟨log, st⟩ := c
  have hlq := hl q
  simp only at hq hlq hmin
  cases hst : st q with
  | over => rw [hst] at hq; exact absurd trivial hq
  | put v left =>
    rw [hst] at hq
    cases left with
    | nil => exact absurd rfl hq
    | cons a l => exact ⟨_, .store q a hst (by simp) hmin⟩
  | run r =>
    rw [hst] at hlq
    obtain ⟨b', hb', -⟩ := hlq
    cases r with
    | ret v => exact ⟨_, .value q hst hmin⟩
    | fail e =>
      obtain rfl : e = .divzero := hb'
      exact ⟨_, .junk (fun _ => default) q hst hmin⟩
    | store _ _ _ => exact hb'.elim
    | load cc kk =>
      obtain ⟨v, hv⟩ : ∃ v, (applyLog m₀ (cells log))[cc]? = some v :=
        ⟨_, List.getElem?_eq_getElem (by rw [applyLog_cells_length, hm]; exact hb'.1)⟩
      exact ⟨_, .load q hst hb'.1 hmin (torn_visible_current hI hb'.1 hmin hv)⟩

theorem TSteps.complete [Inhabited K] (hn : 0 < n) (hm : m₀.length = n * w) (hp : ∀ i < n, (p i).Ends (n * w) B) (hG : ∀ q q', G q q' → q' < q) {c : TConf K w} {k : Nat}
    (h : TSteps G n N w m₀ k (startTorn n N p) c) : ∃ k' d, k ≤ k' ∧ TSteps G n N w m₀ k' (startTorn n N p) d ∧ ∀ q, (d.2 q).Done := by
  generalize hf : N * (B + 1 + w) - k = f
  induction f generalizing k c with
  | zero =>
    by_cases hd : ∀ q, (c.2 q).Done
    · exact ⟨k, c, Nat.le_refl _, h, hd⟩
    · obtain ⟨d, s⟩ := h.progress hn hm hp hG hd
      obtain ⟨rem, -, h2⟩ := (h.tail s).left hn hp
      omega
  | succ f ih =>
    by_cases hd : ∀ q, (c.2 q).Done
    · exact ⟨k, c, Nat.le_refl _, h, hd⟩
    · obtain ⟨d, s⟩ := h.progress hn hm hp hG hd
      obtain ⟨k', e, g1, g2, g3⟩ := ih (h.tail s) (by omega)
      exact ⟨k', e, by omega, g2, g3⟩

theorem startTorn_empty (n : Nat) (p : Nat → Prog K (Fin w → K)) : ∀ q, ((startTorn n 0 p).2 q).Done := fun q => by
  simp only [startTorn, Nat.not_lt_zero, if_false]
  trivial

theorem TSteps.empty {c : TConf K w} {k : Nat} (h : TSteps G n 0 w m₀ k (startTorn n 0 p) c) : k = 0 ∧ c = startTorn n 0 p := by
  generalize hs : startTorn n 0 p = c₀ at h
  induction h with
  | refl => exact ⟨rfl, rfl⟩
  | tail h s ih =>
    subst hs
    obtain ⟨-, rfl⟩ := ih rfl
    have hover : ∀ q, (startTorn n 0 p).2 q = .over := fun q => by simp [startTorn]
    cases s with
    | load q h1 => exact absurd (h1.symm.trans (hover q)) (by simp)
    | value q h1 => exact absurd (h1.symm.trans (hover q)) (by simp)
    | junk _ q h1 => exact absurd (h1.symm.trans (hover q)) (by simp)
    | store q a h1 => exact absurd (h1.symm.trans (hover q)) (by simp)

/-- **C88** Executions come to their end: none has more than `s n (B + 1 + w)` steps, where `B` is the largest number of loads of a job, and every one can be continued until all jobs have ended. -/
theorem torn_exec_terminates [Inhabited K] (hm : m₀.length = n * w) (hp : ∀ i < n, (p i).Ends (n * w) B) (hG : ∀ q q', G q q' → q' < q) {s k : Nat} {c : TConf K w}
    (h : TSteps G n (s * n) w m₀ k (startTorn n (s * n) p) c) :
    k ≤ s * n * (B + 1 + w) ∧ ∃ k' d, k ≤ k' ∧ TSteps G n (s * n) w m₀ k' (startTorn n (s * n) p) d ∧ ∀ q, (d.2 q).Done := by
  rcases Nat.eq_zero_or_pos n with rfl | hn
  · rw [Nat.mul_zero] at h ⊢
    obtain ⟨rfl, rfl⟩ := h.empty
    exact ⟨Nat.zero_le _, 0, _, Nat.le_refl _, .refl _, startTorn_empty _ _⟩
  · obtain ⟨rem, -, h2⟩ := h.left hn hp
    exact ⟨by omega, h.complete hn hm hp hG⟩

/-- **C88** There are executions. -/
theorem torn_exec_exists [Inhabited K] (hm : m₀.length = n * w) (hp : ∀ i < n, (p i).Ends (n * w) B) (hG : ∀ q q', G q q' → q' < q) (s : Nat) :
    ∃ m, TornExec G n (s * n) w p m₀ m := by
  obtain ⟨-, k, d, -, h, hd⟩ := torn_exec_terminates hm hp hG (s := s) (.refl _)
  exact ⟨_, k, d.1, d.2, h, hd, rfl⟩

/-- **C88** Interleavings of the jobs, in which every access is to the one memory, are among the executions. -/
theorem torn_exec_interleaving (hm : m₀.length = n * w) {s : Nat} {m : List K} {st : Nat → TJob K w} (h : TGSteps G n w (m₀, (startTorn n (s * n) p).2) (m, st)) (hd : ∀ q, (st q).Done) :
    TornExec G n (s * n) w p m₀ m := by
  suffices H : ∀ c : List K × (Nat → TJob K w), TGSteps G n w (m₀, (startTorn n (s * n) p).2) c →
      ∃ k log, TSteps G n (s * n) w m₀ k (startTorn n (s * n) p) (log, c.2) ∧ c.1 = applyLog m₀ (cells log) by
    obtain ⟨k, log, h1, h2⟩ := H _ h
    exact ⟨k, log, st, h1, hd, h2⟩
  clear h hd m st
  intro c h
  generalize hc₀ : (m₀, (startTorn n (s * n) p).2) = c₀ at h
  induction h with
  | refl => subst hc₀; exact ⟨0, [], .refl _, rfl⟩
  | tail h st ih =>
    subst hc₀
    obtain ⟨k, log, g1, g2⟩ := ih
    cases st with
    | @load m st cc kk v q h1 hv hg =>
      simp only at g1 g2
      have hcell : cc < n * w := by
        have := (List.getElem?_eq_some_iff.mp hv).1
        rwa [g2, applyLog_cells_length, hm] at this
      have hn : 0 < n := Nat.zero_lt_of_lt (div_cell_lt hcell)
      exact ⟨k + 1, log, g1.tail (.load q h1 hcell hg (torn_visible_current (g1.inv hn) hcell hg (by rw [← g2]; exact hv))), g2⟩
    | @value m st v q h1 hg => exact ⟨k + 1, log, g1.tail (.value q h1 hg), g2⟩
    | @junk m st v q h1 hg => exact ⟨k + 1, log, g1.tail (.junk v q h1 hg), g2⟩
    | @store m st v left q a h1 ha hg =>
      refine ⟨k + 1, _, g1.tail (.store q a h1 ha hg), ?_⟩
      rw [cells_append]
      simp only at g2
      simp only [g2]

end machine

/-! ### The kernels -/

section kernels
variable [Zero M] [Add M] [Sub M] [SMul R M]

omit [Zero M] [Sub M] in
theorem ends_rowSumT (e : M ≃ (Fin w → K)) {n : Nat} {colind : List Nat} {vals : List R} [Zero R] {lo hi : Nat} (h1 : hi ≤ colind.length) (h2 : hi ≤ vals.length)
    (hc : ∀ k, lo ≤ k → k < hi → colind⟦k⟧ < n) (s : M) : (rowSumT e colind vals lo hi s).Ends (n * w) ((hi - lo) * (w * w)) := by
  unfold rowSumT
  refine ends_forRange (lo := lo) (hi := hi) (fun k g1 g2 s => ends_lift_bind ⟨_, rd_eq (show k < vals.length by omega),
    ends_lift_bind ⟨_, rd_eq (show k < colind.length by omega), ?_⟩⟩) s
  exact ends_coefP e (((ends_loadP e (hc k g1 g2)).do fun x => ends_pure (b := 0) _).mono (by omega))

/-- **C88** A row of the block relaxation makes at most `w²` loads for every stored block. -/
theorem ends_relaxT (e : M ≃ (Fin w → K)) [AddCommMonoid R] {A : SR R} (hA : A.Full) (hD : A.HasDiag) {dinv : List R} (hd : dinv.length = A.nbrows) {b : List M} (hb : b.length = A.nbrows) :
    ∀ i < A.nbrows, (relaxT e A dinv b i).Ends (A.nbrows * w) (A.browptr⟦A.nbrows⟧ * (w * w)) := by
  intro i hi
  have h1 := hA.ptr_len
  have h2 := hD.diag_len
  have hlo := hD.diag_ge i hi
  have hhi := hD.diag_lt i hi
  have hnz := hA.ptr_le (show i + 1 ≤ A.nbrows by omega)
  have h4 := hA.ind_len
  have h5 := hA.val_len
  unfold relaxT
  refine ends_lift_bind ⟨_, rd_eq (by omega), ends_lift_bind ⟨_, rd_eq (by omega), ends_lift_bind ⟨_, rd_eq (by omega), ends_lift_bind ⟨_, rd_eq (by omega),
    ends_lift_bind ⟨_, rd_eq (by omega), ?_⟩⟩⟩⟩⟩
  refine ((ends_rowSumT e (n := A.nbrows) (by omega) (by omega) (fun k g1 g2 => hA.col_lt k (by omega)) _).do fun s =>
    ((ends_rowSumT e (n := A.nbrows) (by omega) (by omega) (fun k g1 g2 => hA.col_lt k (by omega)) s).do fun s => ends_pure (b := 0) _)).mono ?_
  rw [Nat.add_zero, ← Nat.add_mul]
  exact Nat.mul_le_mul_right _ (by omega)

/-- **C88** A row of the forward solve makes at most `w²` loads for every stored block. -/
theorem ends_unitLowerT (e : M ≃ (Fin w → K)) [Zero R] {A : SR V} {m : Nat} (hA : A.Full m) (hD : A.HasDiag) {ilu : List R} (hl : ilu.length = A.browptr⟦A.nbrows⟧) {b : List M} (hb : b.length = A.nbrows) :
    ∀ i < A.nbrows, (unitLowerT e A ilu b i).Ends (A.nbrows * w) (A.browptr⟦A.nbrows⟧ * (w * w)) := by
  intro i hi
  have h1 := hA.ptr_len
  have h2 := hD.diag_len
  have hlo := hD.diag_ge i hi
  have hhi := hD.diag_lt i hi
  have hnz := hA.ptr_le (show i + 1 ≤ A.nbrows by omega)
  have h4 := hA.ind_len
  unfold unitLowerT
  refine ends_lift_bind ⟨_, rd_eq (by omega), ends_lift_bind ⟨_, rd_eq (by omega), ends_lift_bind ⟨_, rd_eq (by omega), ?_⟩⟩⟩
  refine ((ends_rowSumT e (n := A.nbrows) (by omega) (by omega) (fun k g1 g2 => hA.col_lt k (by omega)) _).do fun s => ends_pure (b := 0) _).mono ?_
  exact Nat.mul_le_mul_right _ (by omega)

/-- **C88** The same for the backward solve. -/
theorem ends_blockUpperT (e : M ≃ (Fin w → K)) [Zero R] {A : SR V} {m : Nat} (hA : A.Full m) (hD : A.HasDiag) {ilu : List R} (hl : ilu.length = A.browptr⟦A.nbrows⟧)
    {b : List M} (hb : b.length = A.nbrows) : ∀ i < A.nbrows, (blockUpperT e A ilu b i).Ends (A.nbrows * w) (A.browptr⟦A.nbrows⟧ * (w * w)) := by
  intro i hi
  have h1 := hA.ptr_len
  have h2 := hD.diag_len
  have hlo := hD.diag_ge i hi
  have hhi := hD.diag_lt i hi
  have hnz := hA.ptr_le (show i + 1 ≤ A.nbrows by omega)
  have h4 := hA.ind_len
  unfold blockUpperT
  refine ends_lift_bind ⟨_, rd_eq (by omega), ends_lift_bind ⟨_, rd_eq (by omega), ends_lift_bind ⟨_, rd_eq (by omega), ?_⟩⟩⟩
  refine Prog.Ends.mono (b := (A.browptr⟦i + 1⟧ - (A.diagind⟦i⟧ + 1)) * (w * w) + 0) (Prog.Ends.do (ends_rowSumT e (n := A.nbrows) (by omega) (by omega)
    (fun k g1 g2 => hA.col_lt k (by omega)) _) fun s => ends_lift_bind ⟨_, rd_eq (show A.diagind⟦i⟧ < ilu.length by omega), ends_pure _⟩) ?_
  exact Nat.mul_le_mul_right _ (by omega)

/-- **C88** The same for the backward sweep of symmetric Gauss-Seidel. -/
theorem ends_bgsT (e : M ≃ (Fin w → K)) [Zero R] {A : SR R} (hA : A.Full) (hD : A.HasDiag) {dinv : List R} (hd : dinv.length = A.nbrows) {b : List M} (hb : b.length = A.nbrows) :
    ∀ i < A.nbrows, (bgsT e A dinv b i).Ends (A.nbrows * w) (A.browptr⟦A.nbrows⟧ * (w * w)) := by
  intro i hi
  have h1 := hA.ptr_len
  have h2 := hD.diag_len
  have hlo := hD.diag_ge i hi
  have hhi := hD.diag_lt i hi
  have hnz := hA.ptr_le (show i + 1 ≤ A.nbrows by omega)
  have h4 := hA.ind_len
  have h5 := hA.val_len
  unfold bgsT
  refine ends_lift_bind ⟨_, rd_eq (by omega), ends_lift_bind ⟨_, rd_eq (by omega), ends_lift_bind ⟨_, rd_eq (by omega), ends_lift_bind ⟨_, rd_eq (by omega), ?_⟩⟩⟩⟩
  refine ((ends_rowSumT e (n := A.nbrows) (by omega) (by omega) (fun k g1 g2 => hA.col_lt k (by omega)) _).do fun s => ends_pure (b := 0) _).mono ?_
  exact Nat.mul_le_mul_right _ (by omega)

end kernels

/-- **C88** An entry of the factorization makes at most `2 w²` loads for every pair of positions and `w²` for the division, if nothing but a division by zero can go wrong in a division. -/
theorem ends_iluCompT [Zero R] [Sub R] [Mul R] [PInvOp R] (e : R ≃ (Fin w → K)) {A : SR R} (hA : A.Full) (hS : A.Sorted) (hD : A.HasDiag) {pos : ILUPos}
    (hpos : computeILUPositions A = .ok pos) {scal : Nat → Nat → R → C R} (hscal : ∀ i < A.nbrows, ∀ p, A.InRow i p → ∃ v, scal i A.bcolind⟦p⟧ A.vals⟦p⟧ = .ok v)
    (hdiv : ∀ (a b : R) (err : Fail), pdiv a b = .error err → err = .divzero) :
    ∀ p < A.browptr⟦A.nbrows⟧, (iluCompT e A scal pos p).Ends (A.browptr⟦A.nbrows⟧ * w) (pos.lowerp.length * (w * (w + w)) + w * w) := by
  obtain ⟨pos', h1, hposOk⟩ := compute_ILU_positions_correct A hA hS hD
  rw [hpos] at h1; cases h1
  intro p hp
  obtain ⟨hi, hrow⟩ := hA.rowOf_spec hp
  obtain ⟨v, hv⟩ := hscal _ hi p hrow
  have h2 := hA.ind_len
  have h3 := hA.val_len
  have h4 := hposOk.ptr_len
  have h5 := hposOk.low_len
  have h6 := hposOk.up_len
  have h7 := hD.diag_len
  have hmono : ∀ q, q ≤ A.browptr⟦A.nbrows⟧ → pos.posptr⟦q⟧ ≤ pos.posptr⟦A.browptr⟦A.nbrows⟧⟧ := fun q hq => by
    obtain ⟨d, hd⟩ : ∃ d, A.browptr⟦A.nbrows⟧ = q + d := ⟨_, (Nat.add_sub_cancel' hq).symm⟩
    have : ∀ d, q + d ≤ A.browptr⟦A.nbrows⟧ → pos.posptr⟦q⟧ ≤ pos.posptr⟦q + d⟧ := fun d => by
      induction d with
      | zero => exact fun _ => Nat.le_refl _
      | succ d ih => exact fun hle => (ih (by omega)).trans (hposOk.ptr_mono (q + d) (by omega))
    rw [hd]
    exact this d (by omega)
  have h8 := hmono (p + 1) (by omega)
  unfold iluCompT iluSumT
  refine ends_lift_bind ⟨_, rd_eq (by omega), ends_lift_bind ⟨_, rd_eq (by omega), ends_lift_bind ⟨v, hv, ends_lift_bind ⟨_, rd_eq (by omega), ends_lift_bind ⟨_, rd_eq (by omega), ?_⟩⟩⟩⟩⟩
  refine Prog.Ends.mono (b := (pos.posptr⟦p + 1⟧ - pos.posptr⟦p⟧) * (w * (w + w)) + (w * w + 0)) (Prog.Ends.do ?_ fun sum => Prog.Ends.do ?_ fun x => ends_pure _)
    (by rw [Nat.add_zero]; exact Nat.add_le_add_right (Nat.mul_le_mul_right _ (by omega)) _)
  · refine ends_forRange (lo := pos.posptr⟦p⟧) (hi := pos.posptr⟦p + 1⟧) (fun t g1 g2 s => ?_) _
    obtain ⟨k, hk, c1, -, c2, -⟩ := hposOk.sound _ hi p hrow t g1 g2
    refine ends_lift_bind ⟨_, rd_eq (by omega), ends_lift_bind ⟨_, rd_eq (by omega), ends_coefP e (((ends_loadP e ?_).do fun a => ((ends_loadP e ?_).do fun b => ends_pure (b := 0) _)).mono (by omega))⟩⟩
    · exact hA.lt_nnz hi c1.2
    · exact hA.lt_nnz (by omega) c2.2
  · unfold iluLastT
    split
    · refine ends_lift_bind ⟨_, rd_eq (by have := hA.col_lt p hp; omega), ends_coefP e (((ends_loadP e ?_).do (b' := 0) fun u => ?_).mono (by omega))⟩
      · exact hA.lt_nnz (hA.col_lt p hp) (hD.inRow (hA.col_lt p hp)).2
      · cases hx : pdiv sum u with
        | ok y => trivial
        | error err => exact hdiv _ _ _ hx
    · trivial

/-! ### Examples -/

/-- The coefficients of a block by columns, as Eigen stores them. -/
def colMajor (bs : Nat) : Matrix (Fin bs) (Fin bs) K ≃ (Fin (bs * bs) → K) where
  toFun A a := A (finProdFinEquiv.symm a).2 (finProdFinEquiv.symm a).1
  invFun v := Matrix.of fun i j => v (finProdFinEquiv (j, i))
  left_inv A := by ext i j; simp
  right_inv v := by
    ext a
    exact congrArg v (finProdFinEquiv.apply_symm_apply a)

theorem exBD_full : exBD.Full := (exBD_setting true).full
theorem exBD_sorted : exBD.Sorted := (exBD_setting true).sorted
theorem exBD_diag : exBD.HasDiag := (exBD_setting true).diag

/-- Non-vacuity of `torn_ilu_exact`, `ends_iluCompT` and `torn_exec_exists`: there is an execution of fourteen sweeps on the blocks of `exBD` in which threads may be one sweep apart (`L = 2`), from
a guess with singular diagonal blocks, and every such execution computes the factors of the sequential code. -/
example : ∃ pos ex, computeILUPositions exBD = .ok pos ∧ iluSweeps exBD (blockScale? 2 none) pos 1 (List.replicate 7 0) = .ok ex ∧
    (∃ m, TornExec (Lag 7 2) 7 (14 * 7) 4 (iluCompT (colMajor 2) exBD (blockScale? 2 none) pos) (flat (colMajor 2) (List.replicate 7 (mk2 1 1 1 1))) m) ∧
    ∀ m, TornExec (Lag 7 2) 7 (14 * 7) 4 (iluCompT (colMajor 2) exBD (blockScale? 2 none) pos) (flat (colMajor 2) (List.replicate 7 (mk2 1 1 1 1))) m → m = flat (colMajor 2) ex := by
  obtain ⟨pos, hpos, -⟩ := compute_ILU_positions_correct exBD exBD_full exBD_sorted exBD_diag
  obtain ⟨ex, hex⟩ : ∃ ex, iluSweeps exBD (blockScale? 2 none) pos 1 (List.replicate 7 0) = .ok ex := by
    have : ∃ pos', computeILUPositions exBD = .ok pos' ∧ (iluSweeps exBD (blockScale? 2 none) pos' 1 (List.replicate 7 0)).isOk = true := ⟨_, rfl, by decide +kernel⟩
    obtain ⟨pos', h1, h2⟩ := this
    rw [hpos] at h1
    cases h1
    cases hx : iluSweeps exBD (blockScale? 2 none) pos 1 (List.replicate 7 0) with
    | ok ex => exact ⟨ex, rfl⟩
    | error err => rw [hx] at h2; cases h2
  refine ⟨pos, ex, hpos, hex, ?_, fun m hm => ?_⟩
  · refine torn_exec_exists (n := 7) (by decide +kernel) (ends_iluCompT (colMajor 2) exBD_full exBD_sorted exBD_diag hpos (fun _ _ _ _ => ⟨_, rfl⟩) fun a b err h => ?_)
      (lag_lt (n := 7) (L := 2) (by decide)) 14
    simp only [pdiv] at h
    split at h
    · injection h with h; exact h.symm
    · cases h
  · exact torn_ilu_exact exBD_full exBD_sorted exBD_diag hpos (Nat.le_refl 1) (x0 := List.replicate 7 0) rfl hex (L := 2) (by decide) (by decide) rfl hm

open scoped Matrix.Module in
/-- Non-vacuity of `torn_relax_converges`: `exBD` is dominant in the sense of `AbsBlockDominant` with the factor `3/4`, and there is an execution of eight sweeps with `L = 2`. -/
example : ∃ m, TornExec (Lag 3 2) 3 (8 * 3) 2 (relaxT (Equiv.refl (Fin 2 → ℚ)) exBD exBDinv exBDb) (flat (Equiv.refl _) [![0, 0], ![2, 0], ![0, 1]]) m ∧
    ∀ i < 3, ∀ a : Fin 2, |m⟦i * 2 + a⟧ - 1| ≤ (3/4 : ℚ) ^ 3 * 1 * 1 := by
  have hI : DiagInv exBD exBDinv := by constructor <;> decide +kernel
  obtain ⟨m, hm⟩ := torn_exec_exists (n := 3) (m₀ := flat (Equiv.refl (Fin 2 → ℚ)) [![0, 0], ![2, 0], ![0, 1]]) (by decide)
    (ends_relaxT (Equiv.refl (Fin 2 → ℚ)) exBD_full exBD_diag (dinv := exBDinv) (b := exBDb) rfl rfl) (lag_lt (n := 3) (L := 2) (by decide)) 8
  refine ⟨m, hm, fun i hi a => ?_⟩
  refine torn_relax_converges exBD_full exBD_sorted exBD_diag hI rfl (v := fun _ _ => 1) (rho := 3/4) (E := 1) ?_ (fun _ _ => zero_le_one) (by norm_num) (by norm_num) (sol := fun _ _ => 1) ?_
    (x := [![0, 0], ![2, 0], ![0, 1]]) rfl (by norm_num) ?_ (L := 2) (k := 3) (by decide) (by decide) (by decide) hm i hi a
  · unfold AbsBlockDominant; decide +kernel
  · unfold Solves; decide +kernel
  · decide +kernel

/-- Every array of cells is one of components. -/
theorem exists_flat [Zero K] [Zero V] (e : V ≃ (Fin w → K)) {n : Nat} {m : List K} (hm : m.length = n * w) : ∃ y : List V, y.length = n ∧ flat e y = m := by
  refine ⟨(List.range n).map fun l => e.symm fun a => m⟦l * w + a⟧, by simp, (flat_ext (by simpa using hm) fun l hl a => ?_).symm⟩
  rw [get0_map_range _ (by simpa using hl), Equiv.apply_symm_apply]

theorem TornExec.length {G : Nat → Nat → Prop} {n N : Nat} {p : Nat → Prog K (Fin w → K)} {m₀ m : List K} (h : TornExec G n N w p m₀ m) : m.length = m₀.length := by
  obtain ⟨k, log, st, -, -, rfl⟩ := h
  exact applyLog_cells_length log

open scoped Matrix.Module in
/-- Non-vacuity of `torn_block_ilu_apply`: with the blocks of `exBD` as factors there is an execution with `L = 3`, and its result is that of the sequential code. -/
example : ∃ z' y', TornIluExec (Equiv.refl (Fin 2 → ℚ)) (unitLowerT (Equiv.refl (Fin 2 → ℚ)) exBD exBD.vals) (blockUpperT (Equiv.refl (Fin 2 → ℚ)) exBD exBD.vals) 3 (Lag 3 3) none 13 .zero
      (fun _ => [1, 2, 0]) exBDb [![7, 7], ![7, 7], ![7, 7]] [![9, 9], ![9, 9], ![9, 9]] z' y' ∧
    ∃ y'', iluApplyWith (unitLowerRow exBD exBD.vals) (blockUpperRow exBD exBD.vals) 3 none 1 .zero (fun _ => [1, 2, 0]) exBDb [![7, 7], ![7, 7], ![7, 7]] [![9, 9], ![9, 9], ![9, 9]] =
      .ok (z', y'') := by
  have hL := lag_lt (n := 3) (L := 3) (by decide)
  obtain ⟨m1, h1⟩ := torn_exec_exists (n := 3) (m₀ := flat (Equiv.refl (Fin 2 → ℚ)) [0, 0, 0]) (by decide)
    (ends_unitLowerT (Equiv.refl (Fin 2 → ℚ)) exBD_full exBD_diag (ilu := exBD.vals) rfl (b := exBDb) rfl) hL 13
  obtain ⟨y', hy, rfl⟩ := exists_flat (Equiv.refl (Fin 2 → ℚ)) (n := 3) (m := m1) (by rw [h1.length]; rfl)
  obtain ⟨m2, h2⟩ := torn_exec_exists (n := 3) (m₀ := flat (Equiv.refl (Fin 2 → ℚ)) [0, 0, 0]) (by decide)
    (ends_blockUpperT (Equiv.refl (Fin 2 → ℚ)) exBD_full exBD_diag (ilu := exBD.vals) rfl (b := y') hy) hL 13
  obtain ⟨z', hz, rfl⟩ := exists_flat (Equiv.refl (Fin 2 → ℚ)) (n := 3) (m := m2) (by rw [h2.length]; rfl)
  have h : TornIluExec (Equiv.refl (Fin 2 → ℚ)) (unitLowerT (Equiv.refl (Fin 2 → ℚ)) exBD exBD.vals) (blockUpperT (Equiv.refl (Fin 2 → ℚ)) exBD exBD.vals) 3 (Lag 3 3) none 13 .zero
      (fun _ => [1, 2, 0]) exBDb [![7, 7], ![7, 7], ![7, 7]] [![9, 9], ![9, 9], ![9, 9]] z' y' :=
    ⟨exBDb, [0, 0, 0], [0, 0, 0], z', by decide +kernel, by decide +kernel, hy, h1, rfl, hz, h2, rfl⟩
  exact ⟨z', y', h, torn_block_ilu_apply exBD_full exBD_sorted exBD_diag (ilu := exBD.vals) rfl (scale := none) (S := fun _ x => x) (fun _ _ _ => rfl) (L := 3) (by decide) (by decide) (by decide)
    (fun _ => by decide) rfl rfl rfl h⟩

open scoped Matrix.Module in
/-- Non-vacuity of `torn_sgs_apply`. -/
example : ∃ z' y', TornSgsExec (Equiv.refl (Fin 2 → ℚ)) exBD exBDinv (Lag 3 2) 8 .zero (fun _ => [1, 2, 0]) exBDb [![7, 7], ![7, 7], ![7, 7]] [![9, 9], ![9, 9], ![9, 9]] z' y' ∧
    ∃ y'', sgsApply exBD exBDinv 1 .zero (fun _ => [1, 2, 0]) exBDb [![7, 7], ![7, 7], ![7, 7]] [![9, 9], ![9, 9], ![9, 9]] = .ok (z', y'') := by
  have hL := lag_lt (n := 3) (L := 2) (by decide)
  have hf := triAny_fgs (M := Fin 2 → ℚ) exBD_full exBD_sorted exBD_diag (dinv := exBDinv) rfl
  obtain ⟨y', hfw, hy, -⟩ := (hf.upd exBDb rfl).fwd (fun _ _ h => h.2) (k := 8) (by decide) (x := [0, 0, 0]) rfl
  obtain ⟨m2, h2⟩ := torn_exec_exists (n := 3) (m₀ := flat (Equiv.refl (Fin 2 → ℚ)) [0, 0, 0]) (by decide)
    (ends_bgsT (Equiv.refl (Fin 2 → ℚ)) exBD_full exBD_diag (dinv := exBDinv) rfl (b := y') hy) hL 8
  obtain ⟨z', hz, rfl⟩ := exists_flat (Equiv.refl (Fin 2 → ℚ)) (n := 3) (m := m2) (by rw [h2.length]; rfl)
  have h : TornSgsExec (Equiv.refl (Fin 2 → ℚ)) exBD exBDinv (Lag 3 2) 8 .zero (fun _ => [1, 2, 0]) exBDb [![7, 7], ![7, 7], ![7, 7]] [![9, 9], ![9, 9], ![9, 9]] z' y' :=
    ⟨[0, 0, 0], [0, 0, 0], by decide +kernel, hfw, rfl, hz, h2⟩
  exact ⟨z', y', h, torn_sgs_apply exBD_full exBD_sorted exBD_diag rfl (L := 2) (by decide) (by decide) (fun _ => by decide) rfl rfl rfl h⟩

/-- Two components of two coefficients; the first is set to ones, the second to a copy of the first. -/
def copyT (i : Nat) : Prog ℚ (Fin 2 → ℚ) := if i = 0 then .ret ![1, 1] else loadP (Equiv.refl (Fin 2 → ℚ)) 0

/-- **C88** The executions do contain loads of half-stored segments: from zeros, the copy may end up as one coefficient from before the store and one from after it, which no execution does that
stores segments as a whole. -/
theorem torn_reads_happen : TornExec NoWait 2 (1 * 2) 2 copyT [0, 0, 0, 0] [1, 1, 1, 0] := by
  have hg : ∀ (q : Nat) (st : Nat → TJob ℚ 2), ∀ q', NoWait q q' → (st q').Done := fun _ _ _ h => h.elim
  have h0 := TGSteps.refl (G := NoWait) (n := 2) (w := 2) (([0, 0, 0, 0] : List ℚ), (startTorn 2 (1 * 2) copyT).2)
  have h1 := h0.tail (.value 0 rfl (hg _ _))
  have h2 := h1.tail (.store 0 0 rfl (by decide) (hg _ _))
  have h3 := h2.tail (.load 1 rfl rfl (hg _ _))
  have h4 := h3.tail (.load 1 rfl rfl (hg _ _))
  have h5 := h4.tail (.value 1 rfl (hg _ _))
  have h6 := h5.tail (.store 1 0 rfl (by decide) (hg _ _))
  have h7 := h6.tail (.store 1 1 rfl (by decide) (hg _ _))
  have h8 := h7.tail (.store 0 1 rfl (by decide) (hg _ _))
  refine torn_exec_interleaving (n := 2) (w := 2) (s := 1) (p := copyT) rfl (st := _) (by exact h8) ?_
  intro q
  match q with
  | 0 => rfl
  | 1 => rfl
  | q + 2 =>
    have h0 : q + 2 ≠ 0 := by omega
    have h1 : q + 2 ≠ 1 := by omega
    simp only [Function.update_of_ne h0, Function.update_of_ne h1, startTorn, show ¬ q + 2 < 1 * 2 by omega, if_false]
    trivial

end Blasted
