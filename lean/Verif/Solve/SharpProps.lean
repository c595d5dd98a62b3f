import Verif.Async.Simultaneous
import Verif.Solve.DepthProps

/-!
# Fewer asynchronous sweeps do not suffice (C77)

For every chain of coupled rows there is an execution, in which every row but one reads only current values in every sweep, that is still wrong after as many
sweeps as the chain has links.
-/

namespace Blasted

open Finset

variable {V R M K : Type}

/-! ### Executions in which nearly all reads return current values -/

section rounds
variable {upd : Nat → (Nat → C V) → C V} {mix : Set V → Set V}

/-- A round that updates component `rho t` at time `t`. Reads return the current value, except that reads `stale i j` return the value `w j` from before the round. -/
theorem ALog.exists_serial (hsub : ∀ S, S ⊆ mix S) {n : Nat} {B : Set (Nat × V)} {w : Nat → V} (hB : ∀ j < n, (j, w j) ∈ B) {rho : Nat → Nat}
    (hrho : ∀ i < n, rho i < n ∧ rho (rho i) = i) (stale : Nat → Nat → Prop) (P : Nat → V → Prop)
    (hstep : ∀ i < n, ∀ view : Nat → V, (∀ j < n, rho j < rho i → ¬ stale i j → P j (view j)) → (∀ j < n, stale i j → view j = w j) →
      ∃ v, P i v ∧ Yields (upd i (readView n view)) v) :
    ∃ v : Nat → V, ALog upd mix n B ((List.range n).map fun t => (rho t, v (rho t))) ∧ ∀ i < n, P i (v i) := by
  classical
  have key : ∀ m ≤ n, ∃ v : Nat → V, ALog upd mix n B ((List.range m).map fun t => (rho t, v (rho t))) ∧ ∀ i < n, rho i < m → P i (v i) := by
    intro m
    induction m with
    | zero => exact fun _ => ⟨w, .nil, fun _ _ h => absurd h (by omega)⟩
    | succ m ih =>
      intro hm
      obtain ⟨v, h1, h2⟩ := ih (by omega)
      obtain ⟨hr1, hr2⟩ := hrho m (by omega)
      set view : Nat → V := fun j => if rho j < m ∧ ¬ stale (rho m) j then v j else w j with hview
      obtain ⟨u, hu1, hu2⟩ := hstep (rho m) hr1 view
        (fun j hj hlt hst => by
          rw [hr2] at hlt
          rw [hview]
          dsimp only
          rw [if_pos ⟨hlt, hst⟩]
          exact h2 j hj hlt)
        (fun j hj hst => by
          rw [hview]
          dsimp only
          rw [if_neg fun h => h.2 hst])
      refine ⟨Function.update v (rho m) u, ?_, fun i hi hlt => ?_⟩
      · have e : (List.range m).map (fun t => (rho t, Function.update v (rho m) u (rho t))) = (List.range m).map fun t => (rho t, v (rho t)) := by
          refine List.map_congr_left fun t ht => ?_
          rw [List.mem_range] at ht
          have hne : rho t ≠ rho m := fun h => by
            have := (hrho t (by omega)).2
            rw [h, hr2] at this
            omega
          rw [Function.update_of_ne hne]
        rw [List.range_succ, List.map_append, e, List.map_singleton, Function.update_self]
        refine .write view h1 (fun j hj => hsub _ ?_) hr1 hu2
        rw [hview]
        dsimp only
        split
        · rename_i h
          refine Or.inr (List.mem_map.mpr ⟨rho j, List.mem_range.mpr h.1, ?_⟩)
          rw [(hrho j hj).2]
        · exact Or.inl (hB j hj)
      · by_cases he : i = rho m
        · subst he
          rw [Function.update_self]
          exact hu1
        · rw [Function.update_of_ne he]
          refine h2 i hi (Nat.lt_of_le_of_ne (by omega) fun h => he ?_)
          rw [← h, (hrho i hi).2]
  obtain ⟨v, h1, h2⟩ := key n le_rfl
  exact ⟨v, h1, fun i hi => h2 i hi (hrho i hi).1⟩

/-- A sequence of such rounds. -/
theorem ARun.exists_serial (hsub : ∀ S, S ⊆ mix S) {x : List V} [Zero V] {rho : Nat → Nat}
    (hrho : ∀ i < x.length, rho i < x.length ∧ rho (rho i) = i) (stale : Nat → Nat → Nat → Prop) (P : Nat → Nat → V → Prop)
    (h0 : ∀ i < x.length, P 0 i x⟦i⟧)
    (hstep : ∀ t, ∀ w : Nat → V, (∀ i < x.length, P t i (w i)) → ∀ i < x.length, ∀ view : Nat → V,
      (∀ j < x.length, rho j < rho i → ¬ stale t i j → P (t + 1) j (view j)) → (∀ j < x.length, stale t i j → view j = w j) →
      ∃ v, P (t + 1) i v ∧ Yields (upd i (readView x.length view)) v) {k : Nat} (hk : 1 ≤ k) :
    ∃ x', ARun upd mix k x x' ∧ x'.length = x.length ∧ ∀ i < x.length, P k i x'⟦i⟧ := by
  have hcov : ∀ v : Nat → V, Covers x.length ((List.range x.length).map fun t => (rho t, v (rho t))) := fun v i hi =>
    ⟨v i, List.mem_map.mpr ⟨rho i, List.mem_range.mpr (hrho i hi).1, by rw [(hrho i hi).2]⟩⟩
  have key : ∀ k, ∃ (v : Nat → V) (log : List (Nat × V)),
      ARounds upd mix x (k + 1) log ((List.range x.length).map fun t => (rho t, v (rho t))) ∧ ∀ i < x.length, P (k + 1) i (v i) := by
    intro k
    induction k with
    | zero =>
      obtain ⟨v, h1, h2⟩ := ALog.exists_serial hsub (w := get0 x) (B := memOf x) (fun j hj => memOf_get0 hj) hrho (stale 0) (P 1)
        (hstep 0 (get0 x) h0)
      exact ⟨v, _, .first h1 (hcov v), h2⟩
    | succ k ih =>
      obtain ⟨w, log, h1, h2⟩ := ih
      obtain ⟨v, h3, h4⟩ := ALog.exists_serial (upd := upd) (mix := mix) hsub (w := w) (B := {p | p ∈ (List.range x.length).map fun t => (rho t, w (rho t))})
        (fun j hj => List.mem_map.mpr ⟨rho j, List.mem_range.mpr (hrho j hj).1, by rw [(hrho j hj).2]⟩) hrho (stale (k + 1)) (P (k + 2))
        (hstep (k + 1) w h2)
      exact ⟨v, _, .next h1 h3 (hcov v), h4⟩
  obtain ⟨k, rfl⟩ : ∃ j, k = j + 1 := ⟨k - 1, by omega⟩
  obtain ⟨v, log, h1, h2⟩ := key k
  refine ⟨_, ⟨log, _, h1, rfl⟩, by simp, fun i hi => ?_⟩
  have hmem := h1.mem_last (memOf_get0 (x := applyLog x log) (i := i) (by simpa using hi))
  obtain ⟨t, ht, e⟩ := List.mem_map.mp hmem
  have e1 : rho t = i := congrArg Prod.fst e
  have e2 : v (rho t) = (applyLog x log)⟦i⟧ := congrArg Prod.snd e
  rw [← e2, e1]
  exact h2 i hi

/-- If the updates are exact in the order `rho`, there is an execution of any number of rounds that gives the exact values. -/
theorem ARun.exists_exact [Zero V] (hsub : ∀ S, S ⊆ mix S) {x : List V} {rho : Nat → Nat} (hrho : ∀ i < x.length, rho i < x.length ∧ rho (rho i) = i)
    {e : Nat → V} (hex : ∀ i < x.length, ∀ view : Nat → V, (∀ j < x.length, rho j < rho i → view j = e j) → Yields (upd i (readView x.length view)) (e i))
    {k : Nat} (hk : 1 ≤ k) : ∃ x', ARun upd mix k x x' ∧ x'.length = x.length ∧ ∀ i < x.length, x'⟦i⟧ = e i := by
  obtain ⟨x', h1, h2, h3⟩ := ARun.exists_serial (upd := upd) (mix := mix) hsub hrho (fun _ _ _ => False) (fun t i v => 1 ≤ t → v = e i) (fun _ _ h => absurd h (by omega))
    (fun t w hw i hi view hv _ => ⟨e i, fun _ => rfl, hex i hi view fun j hj hlt => hv j hj hlt not_false (by omega)⟩) hk
  exact ⟨x', h1, h2, fun i hi => h3 i hi hk⟩

/-- If moreover component `c (t + 1)` notices when `c t` is wrong, for a chain `c` that starts at a component with wrong initial value, there is an execution of as
many rounds as the chain has links that leaves a wrong value in the last component. -/
theorem ARun.exists_wrong [Zero V] (hsub : ∀ S, S ⊆ mix S) {x : List V} {rho : Nat → Nat} (hrho : ∀ i < x.length, rho i < x.length ∧ rho (rho i) = i)
    {e : Nat → V} (hex : ∀ i < x.length, ∀ view : Nat → V, (∀ j < x.length, rho j < rho i → view j = e j) → Yields (upd i (readView x.length view)) (e i))
    (htot : ∀ i < x.length, ∀ view : Nat → V, ∃ v, Yields (upd i (readView x.length view)) v)
    {k : Nat} (hk : 1 ≤ k) {c : Nat → Nat} (hc : ∀ t ≤ k, c t < x.length)
    (hsens : ∀ t < k, ∀ view : Nat → V, (∀ j < x.length, rho j < rho (c (t + 1)) → j ≠ c t → view j = e j) → view (c t) ≠ e (c t) →
      ∃ v, v ≠ e (c (t + 1)) ∧ Yields (upd (c (t + 1)) (readView x.length view)) v)
    (h0 : x⟦c 0⟧ ≠ e (c 0)) : ∃ x', ARun upd mix k x x' ∧ x'.length = x.length ∧ x'⟦c k⟧ ≠ e (c k) := by
  refine Exists.elim (ARun.exists_serial (upd := upd) (mix := mix) hsub hrho (fun t i j => t < k ∧ i = c (t + 1) ∧ j = c t)
    (fun t i v => t ≤ k → (i = c t → v ≠ e i) ∧ (1 ≤ t → rho i < rho (c t) → v = e i))
    (fun i hi _ => ⟨fun h => by rw [h]; exact h0, fun h => absurd h (by omega)⟩) ?_ hk) fun x' h => ⟨x', h.1, h.2.1, (h.2.2 (c k) (hc k le_rfl) le_rfl).1 rfl⟩
  · intro t w hw i hi view hv hst
    by_cases htk : t < k
    · have hct := hc (t + 1) htk
      rcases Nat.lt_trichotomy (rho i) (rho (c (t + 1))) with h | h | h
      · have hne : i ≠ c (t + 1) := fun h' => by rw [h'] at h; omega
        exact ⟨e i, fun _ => ⟨fun h' => absurd h' hne, fun _ _ => rfl⟩, hex i hi view fun j hj hlt =>
          (hv j hj hlt (fun h' => hne h'.2.1) htk).2 (by omega) (by omega)⟩
      · have he : i = c (t + 1) := by
          rw [← (hrho i hi).2, h, (hrho _ hct).2]
        subst he
        obtain ⟨v, hv1, hv2⟩ := hsens t htk view
          (fun j hj hlt hjc => (hv j hj hlt (fun h' => hjc h'.2.2) htk).2 (by omega) hlt)
          (by
            rw [hst (c t) (hc t (by omega)) ⟨htk, rfl, rfl⟩]
            exact (hw (c t) (hc t (by omega)) (by omega)).1 rfl)
        exact ⟨v, fun _ => ⟨fun _ => hv1, fun _ h' => absurd h' (by omega)⟩, hv2⟩
      · obtain ⟨v, hv⟩ := htot i hi view
        exact ⟨v, fun _ => ⟨fun h' => by rw [h'] at h; omega, fun _ h' => absurd h' (by omega)⟩, hv⟩
    · obtain ⟨v, hv⟩ := htot i hi view
      exact ⟨v, fun h => absurd h (by omega), hv⟩

end rounds

/-! ### Triangular solves -/

section rowupd
variable [Zero M] {upd : Nat → (Nat → C M) → C M} {N : Nat} {D : Nat → Nat → Prop} {f : Nat → (Nat → M) → M}

omit [Zero M] in
theorem readView_ok {n : Nat} {view : Nat → M} {j : Nat} (hj : j < n) : readView n view j = .ok (view j) := by
  unfold readView
  rw [if_pos hj]

/-- The values of a triangular solve. -/
theorem RowUpd.exists_exact (h : RowUpd upd N D f) {mix : Set M → Set M} (hsub : ∀ S, S ⊆ mix S) {rho : Nat → Nat} (hrho : ∀ i < N, rho i < N ∧ rho (rho i) = i)
    (hD : ∀ i < N, ∀ j < N, D i j → rho j < rho i) {e : Nat → M} (he : ∀ i < N, e i = f i e) {x : List M} (hx : x.length = N) {k : Nat} (hk : 1 ≤ k) :
    ∃ x', ARun upd mix k x x' ∧ x'.length = N ∧ ∀ i < N, x'⟦i⟧ = e i := by
  subst hx
  refine ARun.exists_exact hsub hrho (fun i hi view hv => Or.inl ?_) hk
  rw [h.eval i hi _ view fun j hj => readView_ok hj, he i hi]
  exact congrArg _ (h.dep i hi _ _ fun j hj hd => hv j hj (hD i hi j hj hd))

/-- A chain of rows each of which depends on the one before it. -/
theorem RowUpd.exists_wrong (h : RowUpd upd N D f) {mix : Set M → Set M} (hsub : ∀ S, S ⊆ mix S) {rho : Nat → Nat} (hrho : ∀ i < N, rho i < N ∧ rho (rho i) = i)
    (hD : ∀ i < N, ∀ j < N, D i j → rho j < rho i) {e : Nat → M} (he : ∀ i < N, e i = f i e) {x : List M} (hx : x.length = N) {k : Nat} (hk : 1 ≤ k)
    {c : Nat → Nat} (hc : ∀ t ≤ k, c t < N) (hsens : ∀ t < k, ∀ v, v ≠ e (c t) → f (c (t + 1)) (Function.update e (c t) v) ≠ e (c (t + 1)))
    (h0 : x⟦c 0⟧ ≠ e (c 0)) : ∃ x', ARun upd mix k x x' ∧ x'.length = N ∧ x'⟦c k⟧ ≠ e (c k) := by
  subst hx
  refine ARun.exists_wrong hsub hrho (fun i hi view hv => Or.inl ?_)
    (fun i hi view => ⟨_, Or.inl (h.eval i hi _ view fun j hj => readView_ok hj)⟩) hk hc (fun t ht view hv hne => ?_) h0
  · rw [h.eval i hi _ view fun j hj => readView_ok hj, he i hi]
    exact congrArg _ (h.dep i hi _ _ fun j hj hd => hv j hj (hD i hi j hj hd))
  · refine ⟨_, ?_, Or.inl (h.eval _ (hc (t + 1) ht) _ view fun j hj => readView_ok hj)⟩
    rw [h.dep _ (hc (t + 1) ht) view (Function.update e (c t) (view (c t))) fun j hj hd => ?_]
    · exact hsens t ht _ hne
    · by_cases hj' : j = c t
      · rw [hj', Function.update_self]
      · rw [Function.update_of_ne hj']
        exact hv j hj (hD _ (hc (t + 1) ht) j hj hd) hj'

omit [Zero M] in
/-- The values are determined by the equations. -/
theorem RowUpd.fix_unique (h : RowUpd upd N D f) {rho : Nat → Nat} (hD : ∀ i < N, ∀ j < N, D i j → rho j < rho i) {e e' : Nat → M}
    (he : ∀ i < N, e i = f i e) (he' : ∀ i < N, e' i = f i e') : ∀ i < N, e i = e' i := by
  have key : ∀ m, ∀ i < N, rho i = m → e i = e' i := by
    intro m
    induction m using Nat.strong_induction_on with
    | _ m ih =>
      intro i hi hm
      rw [he i hi, he' i hi]
      exact h.dep i hi _ _ fun j hj hd => ih (rho j) (hm ▸ hD i hi j hj hd) j hj rfl
  exact fun i hi => key _ i hi rfl

end rowupd

/-- Numbering from the end. -/
theorem rev_involutive {n : Nat} : ∀ i < n, n - 1 - i < n ∧ n - 1 - (n - 1 - i) = i := fun i hi => ⟨by omega, by omega⟩

theorem id_involutive {n : Nat} : ∀ i < n, id i < n ∧ id (id i) = i := fun _ hi => ⟨hi, rfl⟩

section sums
variable [Ring R] [AddCommGroup M] [Module R M]

theorem sum_smul_update {n : Nat} (a : Nat → R) (e : Nat → M) {c : Nat} (hc : c < n) (v : M) :
    ∑ j ∈ range n, a j • Function.update e c v j = ∑ j ∈ range n, a j • e j + a c • (v - e c) := by
  rw [← sub_eq_iff_eq_add', ← sum_sub_distrib, sum_eq_single c]
  · rw [Function.update_self, smul_sub]
  · intro j _ hj
    rw [Function.update_of_ne hj, sub_self]
  · exact fun h => absurd (mem_range.mpr hc) h

variable {A : SR V} {m : Nat} {u : List R} (hA : A.Full m) (hS : A.Sorted) (hD : A.HasDiag) (hl : u.length = A.browptr⟦A.nbrows⟧)
include hA hS hD hl

theorem lowSum_update {i c : Nat} (hi : i < A.nbrows) (hc : c < i) (e : Nat → M) (v : M) :
    lowSum A u i (Function.update e c v) = lowSum A u i e + lowerFactor A u i c • (v - e c) := by
  have h1 := lowerFactor_mul hA hS hD hl hi (Function.update e c v)
  rw [sum_smul_update _ e (by omega) v, lowerFactor_mul hA hS hD hl hi e, Function.update_of_ne (by omega)] at h1
  rw [← add_right_cancel (b := e i) (h1.symm.trans (by abel : _ = lowSum A u i e + lowerFactor A u i c • (v - e c) + e i))]

theorem upSum_update {i c : Nat} (hi : i < A.nbrows) (hic : i < c) (hc : c < A.nbrows) (e : Nat → M) (v : M) :
    upSum A u i (Function.update e c v) = upSum A u i e + upperFactor A u i c • (v - e c) := by
  have h1 := upperFactor_mul hA hS hD hl hi (Function.update e c v)
  rw [sum_smul_update _ e hc v, upperFactor_mul hA hS hD hl hi e, Function.update_of_ne (by omega)] at h1
  rw [← add_left_cancel (a := u⟦A.diagind⟦i⟧⟧ • e i) (h1.symm.trans (by abel : _ = u⟦A.diagind⟦i⟧⟧ • e i + (upSum A u i e + upperFactor A u i c • (v - e c))))]

end sums

section apply
variable [AddCommGroup M] {lower upper : List M → Nat → (Nat → C M) → C M} {n : Nat} {DL DU : Nat → Nat → Prop} {f g : (Nat → M) → Nat → (Nat → M) → M}
  {scale : Option (Nat → M → C M)} {S : Nat → M → M} {mix : Set M → Set M} {k : Nat} {ord : Nat → List Nat} {r z y : List M}

theorem applyInitY_zero {init : ApplyInit} (hi : init ≠ .none) {ord : List Nat} (hord : ord.Perm (List.range n)) (hy : y.length = n) :
    Ok (applyInitY n init ord y) (fun y' => y'.length = n ∧ ∀ i < n, y'⟦i⟧ = 0) := by
  cases init with
  | none => exact absurd rfl hi
  | zero => exact par_cells hord hy (fun _ => (0 : M)) fun i hi y' hy' => wr_eq (by omega)
  | jacobi => exact par_cells hord hy (fun _ => (0 : M)) fun i hi y' hy' => wr_eq (by omega)

/-- The forward solve is wrong, the backward solve is exact for the vector that it left. -/
theorem asyncIluApply_wrong_lower (hl : TriUpd lower n DL f) (hu : TriUpd upper n DU g) (hDL : ∀ i j, DL i j → j < i)
    (hDU : ∀ i j, DU i j → i < j) (hS : SegOk scale S n) (hsub : ∀ S, S ⊆ mix S) (hk : 1 ≤ k) {init : ApplyInit} (hi : init ≠ .none)
    (hord : ∀ t, (ord t).Perm (List.range n)) (hr : r.length = n) (hz : z.length = n) (hy : y.length = n)
    {e : Nat → M} (he : ∀ i < n, e i = f (fun i => S i r⟦i⟧) i e) {c : Nat → Nat} (hc : ∀ t ≤ k, c t < n)
    (hsens : ∀ t < k, ∀ v, v ≠ e (c t) → f (fun i => S i r⟦i⟧) (c (t + 1)) (Function.update e (c t) v) ≠ e (c (t + 1))) (h0 : e (c 0) ≠ 0) :
    ∃ z' y', AsyncIluApply lower upper n mix scale k init ord r z y z' y' ∧ z'.length = n ∧ y'⟦c k⟧ ≠ e (c k) ∧
      ∃ w : Nat → M, (∀ i < n, w i = g (get0 y') i w) ∧ ∀ i < n, z'⟦i⟧ = S i (w i) := by
  obtain ⟨z₁, e1, hz1, hz1'⟩ := applyScaleIn_ok hS (hord 0) hr hz
  obtain ⟨y₁, e2, hy1, hy1'⟩ := applyInitY_zero hi (hord 1) hy
  obtain ⟨y', h3, hy', hne⟩ := (hl.upd z₁ hz1).exists_wrong hsub id_involutive (fun i _ j _ h => hDL i j h) (e := e)
    (fun i hi => (he i hi).trans (hl.local_ _ _ i _ (hz1' i hi).symm)) hy1 hk hc
    (fun t ht v hv => by rw [hl.local_ _ (fun i => S i r⟦i⟧) _ _ (hz1' _ (hc (t + 1) ht))]; exact hsens t ht v hv)
    (by rw [hy1' _ (hc 0 (by omega))]; exact h0.symm)
  obtain ⟨z₂, e4, hz2⟩ := applyInitZ_ok hi (hord 2) hy' hz1
  obtain ⟨w, -, hw, hw'⟩ := (hu.upd y' hy').bwd hDU le_rfl hz2
  obtain ⟨z₃, h5, hz3, hz3'⟩ := (hu.upd y' hy').exists_exact hsub rev_involutive
    (fun i hi j hj h => by have := hDU i j h; omega) (e := get0 w) hw' hz2 hk
  obtain ⟨z', e6, hz', hz4⟩ := applyScaleOut_ok hS (hord 3) hz3
  exact ⟨z', y', ⟨z₁, y₁, z₂, z₃, e1, e2, h3, e4, h5, e6⟩, hz', hne, get0 w, hw', fun i hi => by rw [hz4 i hi, hz3' i hi]⟩

/-- The forward solve is exact, the backward solve is wrong. -/
theorem asyncIluApply_wrong_upper (hl : TriUpd lower n DL f) (hu : TriUpd upper n DU g) (hDL : ∀ i j, DL i j → j < i)
    (hDU : ∀ i j, DU i j → i < j) (hS : SegOk scale S n) (hsub : ∀ S, S ⊆ mix S) (hk : 1 ≤ k)
    (hord : ∀ t, (ord t).Perm (List.range n)) (hr : r.length = n) (hz : z.length = n) (hy : y.length = n)
    {e w : Nat → M} (he : ∀ i < n, e i = f (fun i => S i r⟦i⟧) i e) (hw : ∀ i < n, w i = g e i w) {c : Nat → Nat} (hc : ∀ t ≤ k, c t < n)
    (hsens : ∀ t < k, ∀ v, v ≠ w (c t) → g e (c (t + 1)) (Function.update w (c t) v) ≠ w (c (t + 1))) (h0 : w (c 0) ≠ 0) :
    ∃ z' y', AsyncIluApply lower upper n mix scale k .zero ord r z y z' y' ∧ z'.length = n ∧ ∃ v, v ≠ w (c k) ∧ z'⟦c k⟧ = S (c k) v := by
  obtain ⟨z₁, e1, hz1, hz1'⟩ := applyScaleIn_ok hS (hord 0) hr hz
  obtain ⟨y₁, e2, hy1, hy1'⟩ := applyInitY_zero (init := .zero) (by decide) (hord 1) hy
  obtain ⟨y', h3, hy', hy2⟩ := (hl.upd z₁ hz1).exists_exact hsub id_involutive (fun i _ j _ h => hDL i j h) (e := e)
    (fun i hi => (he i hi).trans (hl.local_ _ _ i _ (hz1' i hi).symm)) hy1 hk
  obtain ⟨z₂, e4, hz2, hz2'⟩ := applyInitY_zero (init := .zero) (by decide) (hord 2) hz1
  obtain ⟨z₃, h5, hz3, hne⟩ := (hu.upd y' hy').exists_wrong hsub rev_involutive
    (fun i hi j hj h => by have := hDU i j h; omega) (e := w) (fun i hi => (hw i hi).trans (hu.local_ _ _ i _ (hy2 i hi).symm)) hz2 hk hc
    (fun t ht v hv => by rw [hu.local_ _ e _ _ (hy2 _ (hc (t + 1) ht))]; exact hsens t ht v hv)
    (by rw [hz2' _ (hc 0 (by omega))]; exact h0.symm)
  obtain ⟨z', e6, hz', hz4⟩ := applyScaleOut_ok hS (hord 3) hz3
  exact ⟨z', y', ⟨z₁, y₁, z₂, z₃, e1, e2, h3, e4, h5, e6⟩, hz', _, hne, hz4 _ (hc k le_rfl)⟩

end apply

section scalar
variable [Field K] [DecidableEq K] {A : SR V} {m : Nat} {u : List K} {scale : Option (List K)}

/-- **C77**, sharpness of the number of sweeps of the scalar ILU application: for every chain of `k + 1` rows coupled by nonzero entries of `L` there is an execution of
`k` sweeps that is wrong, for every right-hand side for which the forward substitution is not zero at the start of the chain. -/
theorem scalar_ilu_apply_lower_sharp (hA : A.Full m) (hS : A.Sorted) (hD : A.HasDiag) (hl : u.length = A.browptr⟦A.nbrows⟧) (hp : PivotsOk A u)
    (hs : ScaleLen scale A.nbrows) (hs0 : ∀ i < A.nbrows, scaleAt scale i ≠ 0) {mix : Set K → Set K} (hsub : ∀ S, S ⊆ mix S) {k : Nat} (hk : 1 ≤ k)
    {c : Nat → Nat} (hc : ∀ t ≤ k, c t < A.nbrows) (hlt : ∀ t < k, c t < c (t + 1)) (hne : ∀ t < k, lowerFactor A u (c (t + 1)) (c t) ≠ 0)
    {init : ApplyInit} (hi : init ≠ .none) {ord : Nat → List Nat} (hord : ∀ t, (ord t).Perm (List.range A.nbrows)) {r z y : List K}
    (hr : r.length = A.nbrows) (hz : z.length = A.nbrows) (hy : y.length = A.nbrows) {e : Nat → K}
    (he : ∀ i < A.nbrows, ∑ j ∈ range A.nbrows, lowerFactor A u i j * e j = scaleAt scale i * r⟦i⟧) (h0 : e (c 0) ≠ 0) :
    ∃ z' y', AsyncIluApply (unitLowerRow A u) (upperRow A u) A.nbrows mix (scale.map scalarSeg) k init ord r z y z' y' ∧
      ¬ ∃ w : Nat → K, (∀ i < A.nbrows, z'⟦i⟧ = scaleAt scale i * w i) ∧
        ∀ i < A.nbrows, ∑ j ∈ range A.nbrows, luProd A u i j * w j = scaleAt scale i * r⟦i⟧ := by
  obtain ⟨dinv, hd⟩ := exists_dinv hA hS hD hl hp
  have fix : ∀ {e : Nat → K}, (∀ i < A.nbrows, ∑ j ∈ range A.nbrows, lowerFactor A u i j * e j = scaleAt scale i * r⟦i⟧) →
      ∀ i < A.nbrows, e i = scaleAt scale i * r⟦i⟧ - lowSum A u i e := by
    intro e he i hi
    have h1 := lowerFactor_mul hA hS hD hl hi e
    simp only [smul_eq_mul] at h1
    rw [he i hi] at h1
    rw [h1]
    ring
  have hfix := fix he
  obtain ⟨z', y', h1, hz', hwr, w, hw, hzw⟩ := asyncIluApply_wrong_lower (triUpd_unitLower (M := K) hA hS hD hl) (triUpd_upper (M := K) hA hS hD hl hd)
    (fun _ _ h => h.2) (fun _ _ h => h.2) (segOk_scalar hs) hsub hk hi hord hr hz hy hfix hc
    (fun t ht v hv h => by
      have h2 := hlt t ht
      dsimp only at h
      rw [lowSum_update hA hS hD hl (hc (t + 1) ht) h2, hfix _ (hc (t + 1) ht), smul_eq_mul] at h
      have h3 : lowerFactor A u (c (t + 1)) (c t) * (v - e (c t)) = 0 := by linear_combination -h
      rcases mul_eq_zero.mp h3 with h4 | h4
      · exact hne t ht h4
      · exact hv (sub_eq_zero.mp h4)) h0
  refine ⟨z', y', h1, ?_⟩
  rintro ⟨w', hw1, hw2⟩
  have hww : ∀ i < A.nbrows, w' i = w i := fun i hi => mul_left_cancel₀ (hs0 i hi) ((hw1 i hi).symm.trans (hzw i hi))
  have hU : ∀ i < A.nbrows, ∑ j ∈ range A.nbrows, upperFactor A u i j • w j = y'⟦i⟧ := by
    intro i hi
    rw [upperFactor_mul hA hS hD hl hi]
    conv_lhs => rw [hw i hi]
    rw [smul_smul, (PInv.pinv_ok (hd i hi)).1, one_smul, sub_add_cancel]
  have hL : ∀ i < A.nbrows, ∑ j ∈ range A.nbrows, lowerFactor A u i j * y'⟦j⟧ = scaleAt scale i * r⟦i⟧ := by
    intro i hi
    rw [← hw2 i hi]
    have e1 : ∑ j ∈ range A.nbrows, luProd A u i j * w' j = ∑ j ∈ range A.nbrows, luProd A u i j • w j :=
      sum_congr rfl fun j hj => by rw [hww j (mem_range.mp hj), smul_eq_mul]
    rw [e1, luProd_mul]
    exact sum_congr rfl fun j hj => by rw [hU j (mem_range.mp hj), smul_eq_mul]
  have hsr : ((List.range A.nbrows).map fun i => scaleAt scale i * r⟦i⟧).length = A.nbrows := by simp
  refine hwr ((rowUpd_unitLower (M := K) hA hS hD hl hsr).fix_unique (rho := id) (fun i _ j _ h => h.2) (fun i hi => ?_) (fun i hi => ?_) _ (hc k le_rfl))
  · rw [get0_map_range _ hi]
    exact fix hL i hi
  · rw [get0_map_range _ hi]
    exact hfix i hi

/-- **C77**, sharpness, chains in `U`, for applications that begin with zeros. -/
theorem scalar_ilu_apply_upper_sharp (hA : A.Full m) (hS : A.Sorted) (hD : A.HasDiag) (hl : u.length = A.browptr⟦A.nbrows⟧) (hp : PivotsOk A u)
    (hs : ScaleLen scale A.nbrows) (hs0 : ∀ i < A.nbrows, scaleAt scale i ≠ 0) {mix : Set K → Set K} (hsub : ∀ S, S ⊆ mix S) {k : Nat} (hk : 1 ≤ k)
    {c : Nat → Nat} (hc : ∀ t ≤ k, c t < A.nbrows) (hlt : ∀ t < k, c (t + 1) < c t) (hne : ∀ t < k, upperFactor A u (c (t + 1)) (c t) ≠ 0)
    {ord : Nat → List Nat} (hord : ∀ t, (ord t).Perm (List.range A.nbrows)) {r z y : List K}
    (hr : r.length = A.nbrows) (hz : z.length = A.nbrows) (hy : y.length = A.nbrows) {w : Nat → K}
    (hw : ∀ i < A.nbrows, ∑ j ∈ range A.nbrows, luProd A u i j * w j = scaleAt scale i * r⟦i⟧) (h0 : w (c 0) ≠ 0) :
    ∃ z' y', AsyncIluApply (unitLowerRow A u) (upperRow A u) A.nbrows mix (scale.map scalarSeg) k .zero ord r z y z' y' ∧
      ¬ ∃ w : Nat → K, (∀ i < A.nbrows, z'⟦i⟧ = scaleAt scale i * w i) ∧
        ∀ i < A.nbrows, ∑ j ∈ range A.nbrows, luProd A u i j * w j = scaleAt scale i * r⟦i⟧ := by
  obtain ⟨dinv, hd⟩ := exists_dinv hA hS hD hl hp
  have hdi := fun i hi => PInv.pinv_ok (hd i hi)
  set e : Nat → K := fun i => ∑ j ∈ range A.nbrows, upperFactor A u i j • w j with hedef
  have he : ∀ i < A.nbrows, e i = scaleAt scale i * r⟦i⟧ - lowSum A u i e := by
    intro i hi
    have h1 := lowerFactor_mul hA hS hD hl hi e
    have h2 : ∑ j ∈ range A.nbrows, lowerFactor A u i j • e j = scaleAt scale i * r⟦i⟧ := by
      rw [← hw i hi]
      exact (luProd_mul (A := A) (ilu := u) (i := i) (x := w)).symm
    rw [h2] at h1
    rw [h1]
    ring
  have hwfix : ∀ i < A.nbrows, w i = dinv⟦i⟧ • (e i - upSum A u i w) := by
    intro i hi
    have h1 : e i = u⟦A.diagind⟦i⟧⟧ • w i + upSum A u i w := upperFactor_mul hA hS hD hl hi w
    rw [h1, add_sub_cancel_right, smul_smul, (hdi i hi).2, one_smul]
  obtain ⟨z', y', h1, hz', v, hv, hzv⟩ := asyncIluApply_wrong_upper (triUpd_unitLower (M := K) hA hS hD hl) (triUpd_upper (M := K) hA hS hD hl hd)
    (fun _ _ h => h.2) (fun _ _ h => h.2) (segOk_scalar hs) hsub hk hord hr hz hy he hwfix hc
    (fun t ht v hv h => by
      have h2 := hlt t ht
      rw [upSum_update hA hS hD hl (hc (t + 1) ht) h2 (hc t (by omega)), smul_eq_mul, smul_eq_mul] at h
      have h5 := hwfix _ (hc (t + 1) ht)
      rw [smul_eq_mul] at h5
      have h3 : dinv⟦c (t + 1)⟧ * (upperFactor A u (c (t + 1)) (c t) * (v - w (c t))) = 0 := by linear_combination -h5 - h
      rcases mul_eq_zero.mp h3 with h4 | h4
      · have := (hdi _ (hc (t + 1) ht)).1
        rw [h4, mul_zero] at this
        exact zero_ne_one this
      · rcases mul_eq_zero.mp h4 with h4 | h4
        · exact hne t ht h4
        · exact hv (sub_eq_zero.mp h4)) h0
  refine ⟨z', y', h1, ?_⟩
  rintro ⟨w', hw1, hw2⟩
  have hck := hc k le_rfl
  have h6 := lu_unique (M := K) hA hS hD hl hp (w := w') (w' := w) (b := fun i => scaleAt scale i * r⟦i⟧) hw2 hw _ hck
  have h7 := (hw1 _ hck).symm.trans hzv
  exact hv ((mul_left_cancel₀ (hs0 _ hck) h7).symm.trans h6)

end scalar

/-! ### Symmetric Gauss-Seidel -/

section sgs
variable [Ring R] [AddCommGroup M] [Module R M] {A : SR R} {dinv : List R}

/-- **C77**, sharpness for the SGS application, scalar and block: for every chain of `k + 1` rows coupled by invertible entries right of the diagonal there is an
execution of `k` sweeps that is wrong, if the initial value is wrong at the start of the chain. -/
theorem sgs_apply_sharp (hA : A.Full) (hS : A.Sorted) (hD : A.HasDiag) (hI : DiagInv A dinv) {mix : Set M → Set M} (hsub : ∀ S, S ⊆ mix S) {k : Nat} (hk : 1 ≤ k)
    {c : Nat → Nat} (hc : ∀ t ≤ k, c t < A.nbrows) (hlt : ∀ t < k, c (t + 1) < c t) (hne : ∀ t < k, IsUnit (A.entry (c (t + 1)) (c t)))
    {init : ApplyInit} {ord : Nat → List Nat} (hord : ∀ t, (ord t).Perm (List.range A.nbrows)) {r z y : List M}
    (hr : r.length = A.nbrows) (hz : z.length = A.nbrows) (hy : y.length = A.nbrows) {e : Nat → M}
    (he : ∀ i < A.nbrows, ∑ j ∈ range A.nbrows, sgsMat A dinv i j • e j = r⟦i⟧)
    (h0 : init = .zero ∧ e (c 0) ≠ 0 ∨ init = .none ∧ e (c 0) ≠ z⟦c 0⟧) :
    ∃ z' y', AsyncSgsApply A dinv mix k init ord r z y z' y' ∧
      ¬ ∀ i < A.nbrows, ∑ j ∈ range A.nbrows, sgsMat A dinv i j • z'⟦j⟧ = r⟦i⟧ := by
  obtain ⟨y₁, e1, hy1⟩ := applyInitY_ok (n := A.nbrows) init (hord 0) hy
  obtain ⟨y', e2, hy2, hy2'⟩ := (rowUpd_fgs hA hS hD hI.len hr).fwd (fun i j h => h.2) hk hy1
  obtain ⟨z₁, e3, hz1, hz1'⟩ : ∃ z₁, sgsInitZ A.nbrows init (ord 1) y' z = .ok z₁ ∧ z₁.length = A.nbrows ∧ z₁⟦c 0⟧ ≠ e (c 0) := by
    rcases h0 with ⟨rfl, h0⟩ | ⟨rfl, h0⟩
    · obtain ⟨z₁, e3, h1, h2⟩ := applyInitY_zero (init := .zero) (by decide) (hord 1) hz
      exact ⟨z₁, e3, h1, by rw [h2 _ (hc 0 (by omega))]; exact h0.symm⟩
    · exact ⟨z, rfl, hz, h0.symm⟩
  obtain ⟨v, hv1, hv2⟩ := (sgs_iff hA hS hD hI).mp he
  have hvy : ∀ i < A.nbrows, v i = y'⟦i⟧ := (rowUpd_fgs (M := M) hA hS hD hI.len hr).fix_unique (rho := id) (fun i _ j _ h => h.2) hv1 hy2'
  obtain ⟨z', h4, hz', hwr⟩ := (rowUpd_bgs (M := M) hA hS hD hI.len hy2).exists_wrong hsub rev_involutive
    (fun i hi j hj h => by have := h.2; omega) (e := e) (fun i hi => by rw [← hvy i hi]; exact hv2 i hi) hz1 hk hc
    (fun t ht w hw h => by
      have h2 := hlt t ht
      have hct := hc (t + 1) ht
      rw [upSum_update hA hS hD (by rw [hA.val_len, Nat.mul_one]) hct h2 (hc t (by omega)), ← hvy _ hct, smul_add, ← sub_sub, ← hv2 _ hct, sub_eq_self] at h
      have h3 : A.entry (c (t + 1)) (c (t + 1)) • dinv⟦c (t + 1)⟧ • upperFactor A A.vals (c (t + 1)) (c t) • (w - e (c t)) = 0 := by rw [h, smul_zero]
      rw [smul_smul, hI.right _ hct, one_smul] at h3
      obtain ⟨a, ha⟩ := hne t ht
      have h5 : upperFactor A A.vals (c (t + 1)) (c t) = a := by
        unfold upperFactor
        rw [if_pos h2.le, ha]
        rfl
      rw [h5] at h3
      have h6 : (↑a⁻¹ : R) • (↑a : R) • (w - e (c t)) = 0 := by rw [h3, smul_zero]
      rw [smul_smul, Units.inv_mul, one_smul] at h6
      exact hw (sub_eq_zero.mp h6)) hz1'
  refine ⟨z', y', ⟨y₁, z₁, e1, e2, e3, h4⟩, fun hc' => hwr ?_⟩
  exact sgs_unique hA hS hD hI hc' he _ (hc k le_rfl)

end sgs

/-! ### The factorization -/

section factorization
variable [Ring R] [PInv R] {A : SR R} {scal : Nat → Nat → R → C R} {pos : ILUPos} {S : Nat → Nat → R} {mix : Set R → Set R}

omit [PInv R] in
/-- One wrong entry left of the diagonal changes the sum of an entry that uses it. -/
theorem posSum_wrong (hA : A.Full) (hS : A.Sorted) (hpos : ILUPosOk A pos) {i p q : Nat} (hi : i < A.nbrows) (hp : A.InRow i p) (hq : A.InRow i q) {b : Nat}
    (hqi : A.bcolind⟦q⟧ < min i A.bcolind⟦p⟧) (hb : A.InRow A.bcolind⟦q⟧ b) (hbp : A.bcolind⟦b⟧ = A.bcolind⟦p⟧) {view ex : Nat → R}
    (hv : ∀ q' < p, q' ≠ q → view q' = ex q') : posSum pos view p = posSum pos ex p + (view q - ex q) * ex b := by
  obtain ⟨t, ht1, ht2, ht3, ht4⟩ := hpos.complete i hi p hp _ hqi q b hq rfl hb hbp
  have hcol : A.bcolind⟦p⟧ < A.nbrows := hA.col_lt p (hA.lt_nnz hi hp.2)
  -- the factors of a product precede the entry, and the second one is not `q`
  have hpos' : ∀ s, pos.posptr⟦p⟧ ≤ s → s < pos.posptr⟦p + 1⟧ → pos.lowerp⟦s⟧ < p ∧ pos.upperp⟦s⟧ < p ∧ pos.upperp⟦s⟧ ≠ q := by
    intro s hs1 hs2
    obtain ⟨k, hk, h1, h2, h3, h4⟩ := hpos.sound i hi p hp s hs1 hs2
    have hki : k < i := lt_of_lt_of_le hk (min_le_left _ _)
    have hkj : k < A.bcolind⟦p⟧ := lt_of_lt_of_le hk (min_le_right _ _)
    have hlp := (hS.lt_iff hi h1 hp).mp (by omega)
    have hle := hA.ptr_le (i := k + 1) (j := i) hki (by omega)
    refine ⟨hlp, by have := h3.2; have := hp.1; omega, fun h => ?_⟩
    have := h3.2
    have := hq.1
    omega
  unfold posSum
  rw [← sub_eq_iff_eq_add', ← sum_sub_distrib, sum_eq_single t]
  · have h1 := hpos' t ht1 ht2
    rw [ht4] at h1
    rw [ht3, ht4, hv b h1.2.1 h1.2.2, sub_mul]
  · intro s hs hne
    rw [mem_Ico] at hs
    obtain ⟨h1, h2, h3⟩ := hpos' s hs.1 hs.2
    have hlq : pos.lowerp⟦s⟧ ≠ q := by
      intro h
      rcases Nat.lt_or_gt_of_ne hne with h' | h'
      · have := hpos.incr i hi p hp s t hs.1 h' ht2
        rw [h, ht3] at this
        omega
      · have := hpos.incr i hi p hp t s ht1 h' hs.2
        rw [h, ht3] at this
        omega
    rw [hv _ h1 hlq, hv _ h2 h3, sub_self]
  · exact fun h => absurd (mem_Ico.mpr ⟨ht1, ht2⟩) h

/-- **C77**, sharpness of the number of build sweeps: for every chain of `L + 1` rows coupled in both triangles by invertible entries of the factors there is an
execution of `2 L` rounds that does not give the factors, if the initial guess of the first pivot of the chain is wrong. Scalars and blocks. -/
theorem async_ilu_sharp (hsub : ∀ S, S ⊆ mix S) (hA : A.Full) (hS : A.Sorted) (hD : A.HasDiag) (hpos : computeILUPositions A = .ok pos) (hscal : Scales A scal S)
    {ks : Nat} (hks : 1 ≤ ks) {x0 ex : List R} (hl0 : x0.length = A.browptr⟦A.nbrows⟧) (hseq : iluSweeps A scal pos ks x0 = .ok ex)
    {x : List R} (hl : x.length = A.browptr⟦A.nbrows⟧) {L : Nat} (hL : 1 ≤ L) {c : Nat → Nat} (hc : ∀ t ≤ L, c t < A.nbrows) (hlt : ∀ t < L, c t < c (t + 1))
    (hlow : ∀ t < L, IsUnit (lowerFactor A ex (c (t + 1)) (c t))) (hup : ∀ t < L, IsUnit (upperFactor A ex (c t) (c (t + 1))))
    (h0 : x⟦A.diagind⟦c 0⟧⟧ ≠ ex⟦A.diagind⟦c 0⟧⟧) :
    ∃ log last, ARounds (iluComp A scal pos) mix x (2 * L) log last ∧ applyLog x log ≠ ex := by
  obtain ⟨pos', h1, hposOk⟩ := compute_ILU_positions_correct A hA hS hD
  rw [hpos] at h1; cases h1
  obtain ⟨hle, hex⟩ := iluSweeps_sound hA hS hD hposOk (hscal.scalOk hA) hks hl0 hseq
  have hsc := hscal.scalOk hA
  have hne10 : Nontrivial R := ⟨⟨_, _, h0⟩⟩
  -- the entries of the chain
  have hstor : ∀ i < A.nbrows, ∀ j < A.nbrows, IsUnit (facEntry A ex i j) → ∃ p, A.InRow i p ∧ A.bcolind⟦p⟧ = j := by
    intro i hi j hj hu
    by_contra hcon
    push Not at hcon
    rw [facEntry_unstored hA hle hi hcon] at hu
    exact not_isUnit_zero hu
  have hlow' : ∀ t < L, ∃ p, A.InRow (c (t + 1)) p ∧ A.bcolind⟦p⟧ = c t := fun t ht =>
    hstor _ (hc (t + 1) ht) _ (hc t (by omega)) (by have := hlow t ht; unfold lowerFactor at this; rwa [if_pos (hlt t ht)] at this)
  have hup' : ∀ t < L, ∃ p, A.InRow (c t) p ∧ A.bcolind⟦p⟧ = c (t + 1) := fun t ht =>
    hstor _ (hc t (by omega)) _ (hc (t + 1) ht) (by have := hup t ht; unfold upperFactor at this; rwa [if_pos (hlt t ht).le] at this)
  have hq : ∀ t, ∃ p, t < L → A.InRow (c (t + 1)) p ∧ A.bcolind⟦p⟧ = c t := fun t => by
    by_cases ht : t < L
    · obtain ⟨p, hp⟩ := hlow' t ht
      exact ⟨p, fun _ => hp⟩
    · exact ⟨0, fun h => absurd h ht⟩
  choose q hq using hq
  set C' : Nat → Nat := fun s => if s % 2 = 0 then A.diagind⟦c (s / 2)⟧ else q (s / 2) with hC'
  have hev : ∀ t, C' (2 * t) = A.diagind⟦c t⟧ := fun t => by rw [hC']; dsimp only; rw [if_pos (by omega)]; congr 2; omega
  have hod : ∀ t, C' (2 * t + 1) = q t := fun t => by rw [hC']; dsimp only; rw [if_neg (by omega)]; congr 1; omega
  have hCn : ∀ s ≤ 2 * L, C' s < x.length := by
    intro s hs
    rw [hl]
    rcases Nat.even_or_odd' s with ⟨t, rfl | rfl⟩
    · rw [hev]
      exact hA.lt_nnz (hc t (by omega)) (hD.inRow (hc t (by omega))).2
    · rw [hod]
      exact hA.lt_nnz (hc (t + 1) (by omega)) (hq t (by omega)).1.2
  have hfix : ∀ p < A.browptr⟦A.nbrows⟧, facVal A pos (S (A.rowOf p) A.bcolind⟦p⟧) (get0 ex) (A.rowOf p) p = .ok ex⟦p⟧ := by
    intro p hp
    rw [← iluComp_view hA hS hD hposOk hsc hp (r := rd ex) (fun q hq => rd_eq (by omega))]
    exact (iluComp_fix_iff hA hS hD hposOk hsc hle hp).mpr (hex p hp)
  have hview : ∀ p < A.browptr⟦A.nbrows⟧, ∀ view : Nat → R, iluComp A scal pos p (readView x.length view) =
      facVal A pos (S (A.rowOf p) A.bcolind⟦p⟧) view (A.rowOf p) p := fun p hp view =>
    iluComp_view hA hS hD hposOk hsc hp (g := view) (fun q hq => readView_ok (by omega))
  refine Exists.elim (ARun.exists_wrong (mix := mix) (upd := iluComp A scal pos) (x := x) hsub id_involutive (e := get0 ex)
    (fun p hp view hv => Or.inl ?_) (fun p hp view => ?_) (k := 2 * L) (by omega) hCn (fun s hs view hv hne => ?_) (by rw [show C' 0 = _ from hev 0]; exact h0))
    fun x' ⟨⟨log, last, h1, h2⟩, _, h3⟩ => ⟨log, last, h1, fun h => h3 (by rw [h2, h])⟩
  · rw [hl] at hp
    rw [iluComp_view hA hS hD hposOk hsc hp (g := get0 ex) (fun q hq => by rw [readView_ok (by omega)]; exact congrArg _ (hv q (by omega) hq))]
    exact hfix p hp
  · rw [hl] at hp
    rw [hview p hp]
    rcases facVal_cases A pos (S (A.rowOf p) A.bcolind⟦p⟧) view (A.rowOf p) p with ⟨v, hv⟩ | h
    · exact ⟨v, Or.inl hv⟩
    · exact ⟨0, Or.inr h⟩
  · rcases Nat.even_or_odd' s with ⟨t, rfl | rfl⟩
    · -- from a pivot to the entry below it
      have ht : t < L := by omega
      rw [hev] at hv hne
      rw [hod] at hv ⊢
      obtain ⟨hq1, hq2⟩ := hq t ht
      have hqn : q t < A.browptr⟦A.nbrows⟧ := hA.lt_nnz (hc (t + 1) ht) hq1.2
      have hrow := hA.rowOf_eq (hc (t + 1) ht) hq1
      have hf := hfix _ hqn
      rw [hview _ hqn]
      have hdt := hD.inRow (hc t (by omega))
      have hsum : posSum pos view (q t) = posSum pos (get0 ex) (q t) := by
        unfold posSum
        refine sum_congr rfl fun s hs => ?_
        rw [mem_Ico] at hs
        obtain ⟨k, hk, g1, g2, g3, g4⟩ := hposOk.sound _ (hc (t + 1) ht) _ hq1 s hs.1 hs.2
        have hki : k < c (t + 1) := lt_of_lt_of_le hk (min_le_left _ _)
        have hkj : k < c t := hq2 ▸ lt_of_lt_of_le hk (min_le_right _ _)
        have b1 := (hS.lt_iff (hc (t + 1) ht) g1 hq1).mp (by omega)
        have b2 := hA.ptr_le (i := k + 1) (j := c (t + 1)) hki (hc (t + 1) ht).le
        have b3 := g3.2
        have b4 := hq1.1
        have hct := hc t (by omega)
        have hn1 : pos.lowerp⟦s⟧ ≠ A.diagind⟦c t⟧ := fun h => by
          rw [h] at g1
          have := hA.row_unique (hc (t + 1) ht) hct g1 hdt
          have := hlt t ht
          omega
        have hn2 : pos.upperp⟦s⟧ ≠ A.diagind⟦c t⟧ := fun h => by
          rw [h] at g3
          have := hA.row_unique (by omega) hct g3 hdt
          omega
        have hx1 : pos.lowerp⟦s⟧ < x.length := by omega
        have hx2 : pos.upperp⟦s⟧ < x.length := by omega
        rw [hv _ hx1 b1 hn1, hv _ hx2 (show pos.upperp⟦s⟧ < q t by omega) hn2]
      have hlt' : A.bcolind⟦q t⟧ < A.rowOf (q t) := by rw [hq2, hrow]; exact hlt t ht
      unfold facVal at hf ⊢
      rw [if_pos hlt'] at hf ⊢
      rw [hsum]
      rw [hq2] at hf ⊢
      set T := S (A.rowOf (q t)) (c t) - posSum pos (get0 ex) (q t) with hT
      rcases hpv : pinv (ex⟦A.diagind⟦c t⟧⟧) with er | w
      · rw [show pinv (get0 ex A.diagind⟦c t⟧) = _ from hpv, error_bind] at hf
        cases hf
      · rw [show pinv (get0 ex A.diagind⟦c t⟧) = _ from hpv, ok_bind] at hf
        injection hf with hf
        rcases hpv' : pinv (view A.diagind⟦c t⟧) with er | w'
        · refine ⟨ex⟦q t⟧ + 1, by simp, Or.inr ?_⟩
          rw [error_bind]
          have := PInv.pinv_err hpv'
          rw [this]
        · refine ⟨T * w', fun heq => hne ?_, Or.inl (by rw [ok_bind])⟩
          obtain ⟨a1, a2⟩ := PInv.pinv_ok hpv
          obtain ⟨b1, b2⟩ := PInv.pinv_ok hpv'
          -- `T = l u = l view`
          have e1 : T = ex⟦q t⟧ * ex⟦A.diagind⟦c t⟧⟧ := by rw [← hf, mul_assoc, a2, mul_one]
          have e2 : T = ex⟦q t⟧ * view A.diagind⟦c t⟧ := by
            rw [← show T * w' = ex⟦q t⟧ from heq, mul_assoc, b2, mul_one]
          have hu := hlow t ht
          unfold lowerFactor at hu
          rw [if_pos (hlt t ht)] at hu
          have e3 := facEntry_stored hA hS hle (hc (t + 1) ht) hq1
          rw [hq2] at e3
          rw [e3] at hu
          exact hu.mul_left_cancel (e2.symm.trans e1)
    · -- from an entry to the pivot of its row
      have ht : t < L := by omega
      rw [hod] at hv hne
      rw [show 2 * t + 1 + 1 = 2 * (t + 1) by omega, hev] at hv ⊢
      obtain ⟨hq1, hq2⟩ := hq t ht
      obtain ⟨b, hb1, hb2⟩ := hup' t ht
      have hct := hc (t + 1) ht
      have hdt := hD.inRow hct
      have hdn := hA.lt_nnz hct hdt.2
      have hcol := hD.diag_col _ hct
      have hrow := hA.rowOf_eq hct hdt
      have hf := hfix _ hdn
      rw [hview _ hdn]
      have hnlt : ¬ A.bcolind⟦A.diagind⟦c (t + 1)⟧⟧ < A.rowOf A.diagind⟦c (t + 1)⟧ := by rw [hcol, hrow]; omega
      have hlt' := hlt t ht
      have hw := posSum_wrong hA hS hposOk hct hdt hq1 (b := b) (by rw [hq2, hcol]; omega) (by rw [hq2]; exact hb1) (by rw [hb2, hcol]) (view := view) (ex := get0 ex)
        (fun q' hq' hne' => hv q' (by omega) hq' hne')
      unfold facVal at hf ⊢
      rw [if_neg hnlt] at hf ⊢
      injection hf with hf
      refine ⟨_, fun heq => hne ?_, Or.inl rfl⟩
      rw [hw] at heq
      have e1 : (view (q t) - ex⟦q t⟧) * ex⟦b⟧ = 0 := by
        have h5 := heq.trans (show get0 ex A.diagind⟦c (t + 1)⟧ = _ from hf.symm)
        rw [← sub_sub, sub_eq_self] at h5
        exact h5
      have hu := hup t ht
      unfold upperFactor at hu
      rw [if_pos hlt'.le] at hu
      have e3 := facEntry_stored hA hS hle (hc t (by omega)) hb1
      rw [hb2] at e3
      rw [e3] at hu
      exact sub_eq_zero.mp ((hu.mul_left_eq_zero).mp e1)

end factorization

/-! ### Concrete cases: the tridiagonal matrix `exTri` with three rows, for which five build sweeps and three application sweeps suffice -/

theorem exTri_full : exTri.Full := by constructor <;> decide
theorem exTri_sorted : exTri.Sorted := SR.sorted_of_check (by decide)
theorem exTri_diag : exTri.HasDiag := by constructor <;> decide

/-- Non-vacuity of `async_ilu_sharp`: four rounds from zeros do not always give the factors of `exTri`. -/
theorem exTri_four_rounds : ∃ pos log last, computeILUPositions exTri = .ok pos ∧
    ARounds (iluComp exTri (scalarScale? none) pos) mixWhole (List.replicate 7 0) 4 log last ∧
    applyLog (List.replicate 7 0) log ≠ [2, -1, -1/2, 3/2, -1, -2/3, 4/3] := by
  obtain ⟨pos, hpos, -⟩ := compute_ILU_positions_correct exTri exTri_full exTri_sorted exTri_diag
  have e : computeILUPositions exTri >>= (fun pos => iluSweeps exTri (scalarScale? none) pos 1 (List.replicate 7 0)) =
      .ok [2, -1, -1/2, 3/2, -1, -2/3, 4/3] := by decide +kernel
  rw [hpos, ok_bind] at e
  have hsc : Scales exTri (scalarScale? none) exTri.entry := by
    intro i hi p hp
    rw [exTri_full.entry_stored exTri_sorted hi hp]
    rfl
  obtain ⟨log, last, h1, h2⟩ := async_ilu_sharp (mix := mixWhole) (fun _ _ h => h) exTri_full exTri_sorted exTri_diag hpos hsc le_rfl (by decide) e
    (x := List.replicate 7 0) (by decide) (L := 2) (by decide) (c := id) (fun t ht => by have : t ≤ 2 := ht; show t < 3; omega) (fun t _ => by show t < t + 1; omega)
    (fun t ht => by rw [isUnit_iff_ne_zero]; interval_cases t <;> decide +kernel) (fun t ht => by rw [isUnit_iff_ne_zero]; interval_cases t <;> decide +kernel)
    (by decide +kernel)
  exact ⟨pos, log, last, hpos, h1, h2⟩

/-- The factors of `exTri`. -/
def exTriFac : List ℚ := [2, -1, -1/2, 3/2, -1, -2/3, 4/3]

theorem exTri_pivots : PivotsOk exTri exTriFac := by
  intro i hi
  have : i < 3 := hi
  rw [isUnit_iff_ne_zero]
  interval_cases i <;> decide +kernel

/-- Non-vacuity of `scalar_ilu_apply_lower_sharp`: two sweeps do not always apply the factors of `exTri`. -/
example : ∃ z' y', AsyncIluApply (unitLowerRow exTri exTriFac) (upperRow exTri exTriFac) 3 mixWhole none 2
    .zero (fun _ => [2, 0, 1]) [1, 1/2, 1/3] [7, 7, 7] [9, 9, 9] z' y' ∧
    ¬ ∃ w : Nat → ℚ, (∀ i < 3, z'⟦i⟧ = scaleAt none i * w i) ∧
      ∀ i < 3, ∑ j ∈ range 3, luProd exTri exTriFac i j * w j = scaleAt none i * ([1, 1/2, 1/3] : List ℚ)⟦i⟧ :=
  scalar_ilu_apply_lower_sharp (scale := none) exTri_full exTri_sorted exTri_diag (by decide) exTri_pivots scaleLen_none (fun _ _ => one_ne_zero) (fun _ _ h => h) (by decide)
    (c := id) (fun t ht => by show t < 3; omega) (fun t _ => by show t < t + 1; omega) (fun t ht => by interval_cases t <;> decide +kernel) (by decide)
    (fun _ => by decide) rfl rfl rfl (e := fun _ => 1) (fun i hi => by have : i < 3 := hi; interval_cases i <;> decide +kernel) one_ne_zero

/-- Non-vacuity of `scalar_ilu_apply_upper_sharp`. -/
example : ∃ z' y', AsyncIluApply (unitLowerRow exTri exTriFac) (upperRow exTri exTriFac) 3 mixWhole none 2
    .zero (fun _ => [2, 0, 1]) [1, 0, 1] [7, 7, 7] [9, 9, 9] z' y' ∧
    ¬ ∃ w : Nat → ℚ, (∀ i < 3, z'⟦i⟧ = scaleAt none i * w i) ∧
      ∀ i < 3, ∑ j ∈ range 3, luProd exTri exTriFac i j * w j = scaleAt none i * ([1, 0, 1] : List ℚ)⟦i⟧ :=
  scalar_ilu_apply_upper_sharp (scale := none) exTri_full exTri_sorted exTri_diag (by decide) exTri_pivots scaleLen_none (fun _ _ => one_ne_zero) (fun _ _ h => h) (by decide)
    (c := fun t => 2 - t) (fun t ht => by show 2 - t < 3; omega) (fun t ht => by show 2 - (t + 1) < 2 - t; omega) (fun t ht => by interval_cases t <;> decide +kernel)
    (fun _ => by decide) rfl rfl rfl (w := fun _ => 1) (fun i hi => by have : i < 3 := hi; interval_cases i <;> decide +kernel) one_ne_zero

theorem exTri_diagInv : DiagInv exTri [1/2, 1/2, 1/2] where
  len := rfl
  right := by
    intro i hi
    have : i < 3 := hi
    interval_cases i <;> decide +kernel
  left := by
    intro i hi
    have : i < 3 := hi
    interval_cases i <;> decide +kernel

/-- Non-vacuity of `sgs_apply_sharp`. -/
example : ∃ z' y', AsyncSgsApply exTri [1/2, 1/2, 1/2] mixWhole 2 .none (fun _ => [2, 0, 1]) [1, 1/2, 3/2] [7, 7, 7] [9, 9, 9] z' y' ∧
    ¬ ∀ i < 3, ∑ j ∈ range 3, sgsMat exTri [1/2, 1/2, 1/2] i j • z'⟦j⟧ = ([1, 1/2, 3/2] : List ℚ)⟦i⟧ :=
  sgs_apply_sharp exTri_full exTri_sorted exTri_diag exTri_diagInv (fun _ _ h => h) (by decide)
    (c := fun t => 2 - t) (fun t ht => by show 2 - t < 3; omega) (fun t ht => by show 2 - (t + 1) < 2 - t; omega)
    (fun t ht => by rw [isUnit_iff_ne_zero]; interval_cases t <;> decide +kernel)
    (fun _ => by decide) rfl rfl rfl (e := fun _ => 1) (fun i hi => by have : i < 3 := hi; interval_cases i <;> decide +kernel) (Or.inr ⟨rfl, by decide +kernel⟩)

end Blasted
