import Verif.Krylov.GcrLemmas

/-!
# The loops of `GCR::solve`
-/

namespace Blasted

open Matrix Finset

variable {K : Type} [Field K] [LinearOrder K]

/-- A flexible GMRES iteration with restarts after `nr` iterations: `X j` are the iterates and `Z j` the vectors which the
preconditioner yields for their residuals. Let `m = j / nr * nr` be the beginning of the cycle of iteration `j`.

* `A Z j` is linearly independent of its predecessors in the cycle.
* `X (j+1)` lies in the affine space which `X m` and `Z m, ..., Z j` span, and has the smallest residual in it. -/
def Fgmres (A : MatView K) (P : (Fin A.dim → K) → (Fin A.dim → K) → Prop) (b : List K) (nr : Nat)
    (X Z : Nat → Fin A.dim → K) (steps : Nat) : Prop :=
  ∀ j < steps, P (A.resid b (X j)) (Z j) ∧
    A.mat *ᵥ Z j ∉ Submodule.span K ((fun i => A.mat *ᵥ Z i) '' Set.Ico (j / nr * nr) j) ∧
    X (j + 1) - X (j / nr * nr) ∈ Submodule.span K (Z '' Set.Ico (j / nr * nr) (j + 1)) ∧
    ∀ u ∈ Submodule.span K (Z '' Set.Ico (j / nr * nr) (j + 1)),
      nrm2 (A.resid b (X (j + 1))) ≤ nrm2 (A.resid b (X (j / nr * nr) + u))

theorem Fgmres.congr {A : MatView K} {P : (Fin A.dim → K) → (Fin A.dim → K) → Prop} {b : List K} {nr : Nat}
    {X Z X' Z' : Nat → Fin A.dim → K} {steps : Nat} (h : Fgmres A P b nr X Z steps) (hX : ∀ i ≤ steps, X' i = X i)
    (hZ : ∀ i < steps, Z' i = Z i) : Fgmres A P b nr X' Z' steps := by
  intro j hj
  obtain ⟨h1, h2, h3, h4⟩ := h j hj
  have hm : j / nr * nr ≤ j := Nat.div_mul_le_self j nr
  have e1 : (fun i => A.mat *ᵥ Z' i) '' Set.Ico (j / nr * nr) j = (fun i => A.mat *ᵥ Z i) '' Set.Ico (j / nr * nr) j :=
    Set.image_congr fun i hi => by
      have : i < j := hi.2
      show A.mat *ᵥ Z' i = A.mat *ᵥ Z i
      rw [hZ i (by omega)]
  have e2 : Z' '' Set.Ico (j / nr * nr) (j + 1) = Z '' Set.Ico (j / nr * nr) (j + 1) :=
    Set.image_congr fun i hi => by have : i < j + 1 := hi.2; exact hZ i (by omega)
  rw [e1, e2, hX j (by omega), hX (j + 1) (by omega), hX (j / nr * nr) (by omega), hZ j hj]
  exact ⟨h1, h2, h3, h4⟩

/-- The lengths of the arrays. -/
structure GcrLens (n nr : Nat) (st : GcrState K) : Prop where
  x : st.x.length = n
  res : st.res.length = n
  z : st.z.length = n
  beta : st.beta.length = nr + 1
  p : Dirs n nr 0 st.p (fun _ => 0)
  q : Dirs n nr 0 st.q (fun _ => 0)

omit [LinearOrder K] in
theorem Dirs.zero {n nr d : Nat} {p : List (List K)} {f : Nat → Fin n → K} (h : Dirs n nr d p f) :
    Dirs n nr 0 p (fun _ => 0) :=
  ⟨h.1, fun i hi => by
    obtain ⟨l, e, h1, -⟩ := h.2 i hi
    exact ⟨l, e, h1, fun h => absurd h (Nat.not_lt_zero i)⟩⟩

/-- The state of the program in the inner loop. -/
structure GcrHolds (A : MatView K) (b : List K) (nr m k d : Nat) (st : GcrState K) (X Z Pv : Nat → Fin A.dim → K) :
    Prop where
  lx : st.x.length = A.dim
  lres : st.res.length = A.dim
  lz : st.z.length = A.dim
  lbeta : st.beta.length = nr + 1
  p : Dirs A.dim nr d st.p Pv
  q : Dirs A.dim nr d st.q (fun i => A.mat *ᵥ Pv i)
  x : vecN A.dim st.x = X (m + k)
  res : vecN A.dim st.res = A.resid b (X (m + k))
  step : st.step = m + k
  inv : GcrInv A b m k d X Z Pv

omit [LinearOrder K] in
theorem GcrHolds.lens {A : MatView K} {b : List K} {nr m k d : Nat} {st : GcrState K} {X Z Pv : Nat → Fin A.dim → K}
    (h : GcrHolds A b nr m k d st X Z Pv) : GcrLens A.dim nr st :=
  ⟨h.lx, h.lres, h.lz, h.lbeta, h.p.zero, h.q.zero⟩

theorem gcrStep_ok {E : SolverEnv K} (hS : E.sched.Valid E.A) {b : List K}
    {nr m k : Nat} (hk : k < nr) {st : GcrState K} {X Z Pv : Nat → Fin E.A.dim → K}
    (h : GcrHolds E.A b nr m k (k + 1) st X Z Pv) :
    OkDz ((E.A.mat *ᵥ Pv k) ⬝ᵥ (E.A.mat *ᵥ Pv k) = 0) (gcrStep E k st) (fun st' =>
      (E.A.mat *ᵥ Pv k) ⬝ᵥ (E.A.mat *ᵥ Pv k) ≠ 0 ∧
      ∃ xn, GcrHolds E.A b nr m (k + 1) (k + 1) st' (Function.update X (m + (k + 1)) xn) Z Pv ∧
        st'.resnorm = E.sqrt (nrm2 (E.A.resid b xn))) := by
  unfold gcrStep
  refine (h.p.rd hk).bindDz fun pk hpk => (h.q.rd hk).bindDz fun qk hqk => ?_
  have hp := hpk.2 (by omega)
  have hq := hqk.2 (by omega)
  rw [dotp_eq h.lres hqk.1, ok_bind, dotp_eq hqk.1 hqk.1, ok_bind, hq, h.res]
  refine (fdiv_okDz _ _).bind fun alpha ha => ?_
  refine (axpby_ok (hS.2 _ 1) 1 alpha h.lx hpk.1).bindDz fun x hx => ?_
  refine (axpby_ok (hS.2 _ 2) 1 (-alpha) h.lres hqk.1).bindDz fun res hres => ?_
  have hx2 : vecN E.A.dim x = X (m + k) + alpha • Pv k := by rw [hx.2, one_smul, h.x, hp]
  have hr2 : vecN E.A.dim res = E.A.resid b (X (m + k) + alpha • Pv k) := by
    rw [hres.2, one_smul, h.res, hq, resid_add, mulVec_smul, neg_smul, ← sub_eq_add_neg]
  rw [dotp_eq hres.1 hres.1, ok_bind, hr2]
  have hne : m + k ≠ m + (k + 1) := by omega
  refine .inr (Ok.pure ⟨ha.1, X (m + k) + alpha • Pv k, ⟨hx.1, hres.1, h.lz, h.lbeta, h.p, h.q, ?_, ?_, ?_, ?_⟩, rfl⟩)
  · rw [Function.update_self]; exact hx2
  · rw [Function.update_self]; exact hr2
  · show st.step + 1 = _
    rw [h.step]; rfl
  · have hc := h.inv.congr (by omega) (X' := Function.update X (m + (k + 1)) (X (m + k) + alpha • Pv k)) (Z' := Z) (Pv' := Pv)
      (fun i hi => Function.update_of_ne (by omega) _ _) (fun _ _ => rfl) (fun _ _ => rfl)
    refine hc.step (alpha := alpha) ha.1 ?_ ?_
    · rw [Function.update_of_ne hne]; exact ha.2
    · rw [Function.update_self, Function.update_of_ne hne]

theorem gcrBeta_ok {n nr k : Nat} (hk : k + 1 < nr) {q : List (List K)} {f : Nat → Fin n → K} (hq : Dirs n nr (k + 2) q f)
    (hf : ∀ i < k + 1, f i ⬝ᵥ f i ≠ 0) {beta : List K} (hb : beta.length = nr + 1) :
    Ok (gcrBeta n k q beta) (fun beta' => beta'.length = nr + 1 ∧
      ∀ i < k + 1, beta'⟦i⟧ * (f i ⬝ᵥ f i) = -(f (k + 1) ⬝ᵥ f i)) := by
  unfold gcrBeta
  refine (forRange_ok (fun j (beta' : List K) => beta'.length = nr + 1 ∧
      ∀ i < j, beta'⟦i⟧ * (f i ⬝ᵥ f i) = -(f (k + 1) ⬝ᵥ f i)) (Nat.zero_le _)
    ⟨hb, fun i hi => absurd hi (Nat.not_lt_zero i)⟩ ?_)
  rintro i beta' - hi ⟨h1, h2⟩
  refine (hq.rd hk).bind fun qn hqn => (hq.rd (show i < nr by omega)).bind fun qi hqi => ?_
  rw [dotp_eq hqn.1 hqi.1, ok_bind, dotp_eq hqi.1 hqi.1, ok_bind, hqn.2 (by omega), hqi.2 (by omega)]
  refine ((fdiv_okDz _ _).ok (hf i hi)).bind fun c hc => ?_
  refine ⟨_, wr_eq (by omega), by rw [List.length_set]; exact h1, fun j hj => ?_⟩
  by_cases e : j = i
  · subst e
    rw [get0_set_self (by omega)]; exact hc.2
  · rw [get0_set_ne (Ne.symm e)]; exact h2 j (by omega)

omit [LinearOrder K] in
theorem gcrOrth_ok {n nr k l : Nat} (hk : k + 1 < nr) (hl : l < k + 1) {ord : List Nat} (ho : ord.Perm (List.range n))
    (c : K) {p : List (List K)} {f : Nat → Fin n → K} (hp : Dirs n nr (k + 2) p f) :
    Ok (gcrOrth n ord k l c p)
      (fun p' => Dirs n nr (k + 2) p' (Function.update f (k + 1) (f (k + 1) + c • f l))) := by
  unfold gcrOrth
  refine (hp.rd hk).bind fun pn hpn => (hp.rd (show l < nr by omega)).bind fun pl hpl => ?_
  refine (axpby_ok ho 1 c hpn.1 hpl.1).bind fun pn' hpn' => ?_
  refine hp.wr hk hpn'.1 _ _ (fun j hj hne => ⟨by omega, Function.update_of_ne hne _ _⟩) ?_
  rw [Function.update_self, hpn'.2, one_smul, hpn.2 (by omega), hpl.2 (by omega)]

theorem gcrNext_ok {E : SolverEnv K} {P : (Fin E.A.dim → K) → (Fin E.A.dim → K) → Prop} (hA : E.A.Ready)
    (hS : E.sched.Valid E.A) (hp : E.prec.Meets E.A.dim P) {b : List K}
    {nr m k : Nat} (hk : k + 1 < nr) {st : GcrState K} {X Z Pv : Nat → Fin E.A.dim → K}
    (h : GcrHolds E.A b nr m (k + 1) (k + 1) st X Z Pv) :
    Ok (gcrNext E k st) (fun st' => st'.resnorm = st.resnorm ∧ ∃ zn pn, P (E.A.resid b (X (m + (k + 1)))) zn ∧
      GcrHolds E.A b nr m (k + 1) (k + 2) st' X (Function.update Z (m + (k + 1)) zn) (Function.update Pv (k + 1) pn)) := by
  unfold gcrNext
  refine Ok.bind (hp st.step st.res st.z h.lres h.lz) fun z hz => ?_
  have hPz := hz.2
  rw [h.res] at hPz
  refine (h.q.rd hk).bind fun qn hqn => ?_
  refine (MatView.apply_ok hA (hS.1 _ 0) hz.1 hqn.1).bind fun qn' hqn' => ?_
  refine (h.q.wr hk hqn'.1 (k + 2) (Function.update (fun i => E.A.mat *ᵥ Pv i) (k + 1) (E.A.mat *ᵥ vecN E.A.dim z))
    (fun j hj hne => ⟨by omega, Function.update_of_ne hne _ _⟩) (by rw [Function.update_self]; exact hqn'.2)).bind fun q hq => ?_
  refine (h.p.rd hk).bind fun pn hpn => ?_
  rw [vecassign_ok (hS.2 _ 0) hz.1 hpn.1, ok_bind]
  refine (h.p.wr hk hz.1 (k + 2) (Function.update Pv (k + 1) (vecN E.A.dim z))
    (fun j hj hne => ⟨by omega, Function.update_of_ne hne _ _⟩) (by rw [Function.update_self])).bind fun p hp' => ?_
  refine (gcrBeta_ok hk hq (fun i hi => by
    rw [Function.update_of_ne (by omega)]; exact h.inv.pos i hi) h.lbeta).bind fun beta hbeta => ?_
  have hloop := forRange_ok (σ := List (List K) × List (List K)) (lo := 0) (hi := k + 1)
    (body := fun l pq => do
      let b ← rd beta l
      let p ← gcrOrth E.A.dim (E.sched.cells st.step (3 + l)) k l b pq.1
      let q ← gcrOrth E.A.dim (E.sched.cells st.step (3 + l)) k l b pq.2
      .ok (p, q)) (s := (p, q))
    (fun l pq =>
      Dirs E.A.dim nr (k + 2) pq.1 (Function.update Pv (k + 1) (vecN E.A.dim z + ∑ i ∈ range l, beta⟦i⟧ • Pv i)) ∧
      Dirs E.A.dim nr (k + 2) pq.2 (Function.update (fun i => E.A.mat *ᵥ Pv i) (k + 1)
        (E.A.mat *ᵥ (vecN E.A.dim z + ∑ i ∈ range l, beta⟦i⟧ • Pv i))))
    (Nat.zero_le _) (by simpa using ⟨hp', hq⟩)
    (by
      rintro l ⟨p1, q1⟩ - hl ⟨h1, h2⟩
      have hr : rd beta l = .ok beta⟦l⟧ := rd_eq (by rw [hbeta.1]; omega)
      dsimp only
      rw [hr, ok_bind]
      refine (gcrOrth_ok hk hl (hS.2 _ _) beta⟦l⟧ h1).bind fun p2 h1' => ?_
      refine (gcrOrth_ok hk hl (hS.2 _ _) beta⟦l⟧ h2).bind fun q2 h2' => Ok.pure ⟨?_, ?_⟩
      · rw [Function.update_idem, Function.update_self, Function.update_of_ne (by omega)] at h1'
        rwa [sum_range_succ, ← add_assoc]
      · rw [Function.update_idem, Function.update_self, Function.update_of_ne (by omega)] at h2'
        rwa [sum_range_succ, ← add_assoc, mulVec_add, mulVec_smul])
  refine hloop.bind fun pq hpq => Ok.pure ⟨rfl, vecN E.A.dim z, vecN E.A.dim z + ∑ i ∈ range (k + 1), beta⟦i⟧ • Pv i, hPz,
    ⟨h.lx, h.lres, hz.1, hbeta.1, hpq.1, ?_, h.x, h.res, h.step, ?_⟩⟩
  · have e : (fun i => E.A.mat *ᵥ (Function.update Pv (k + 1) (vecN E.A.dim z + ∑ i ∈ range (k + 1), beta⟦i⟧ • Pv i) i)) =
        Function.update (fun i => E.A.mat *ᵥ Pv i) (k + 1)
          (E.A.mat *ᵥ (vecN E.A.dim z + ∑ i ∈ range (k + 1), beta⟦i⟧ • Pv i)) := by
      funext i
      by_cases e : i = k + 1
      · subst e; rw [Function.update_self, Function.update_self]
      · rw [Function.update_of_ne e, Function.update_of_ne e]
    rw [e]; exact hpq.2
  · have hne : ∀ i < k + 1, i ≠ k + 1 := fun i hi => by omega
    have hc := h.inv.congr le_rfl (X' := X) (Z' := Function.update Z (m + (k + 1)) (vecN E.A.dim z))
      (Pv' := Function.update Pv (k + 1) (vecN E.A.dim z + ∑ i ∈ range (k + 1), beta⟦i⟧ • Pv i))
      (fun _ _ => rfl) (fun i hi => Function.update_of_ne (by omega) _ _) (fun i hi => Function.update_of_ne (hne i hi) _ _)
    refine hc.next (fun i => beta⟦i⟧) (fun i hi => ?_) ?_
    · have := hbeta.2 i hi
      rw [Function.update_self, Function.update_of_ne (hne i hi)] at this
      rw [Function.update_of_ne (hne i hi), Function.update_self]
      exact this
    · rw [Function.update_self, Function.update_self]
      congr 1
      exact sum_congr rfl fun i hi => by rw [Function.update_of_ne (hne i (mem_range.mp hi))]

end Blasted
