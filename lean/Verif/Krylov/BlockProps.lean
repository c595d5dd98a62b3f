import Verif.Krylov.ContractProps
import Verif.Solve.BlockDomProps

/-!
# The solve program with block ILU(0) (C90)
-/

namespace Blasted

open Finset

section flat
variable {K : Type} [Field K] {bs : Nat}

theorem length_segs {v : List K} {n : Nat} (hbs : 0 < bs) (h : v.length = n * bs) : (segs bs v).length = n := by
  unfold segs
  rw [List.length_map, List.length_range, h, Nat.mul_div_cancel _ hbs]

theorem get0_segs {v : List K} {n i : Nat} (hbs : 0 < bs) (h : v.length = n * bs) (hi : i < n) (a : Fin bs) : (segs bs v)⟦i⟧ a = v⟦i * bs + a⟧ := by
  unfold segs
  rw [get0_map_range _ (by rw [h, Nat.mul_div_cancel _ hbs]; exact hi)]

omit [Field K] in
theorem length_unsegs (s : List (Fin bs → K)) : (unsegs s).length = s.length * bs := by
  unfold unsegs
  induction s with
  | nil => simp
  | cons v s ih => rw [List.flatMap_cons, List.length_append, List.length_ofFn, ih, List.length_cons, Nat.succ_mul, Nat.add_comm]

theorem get0_unsegs (s : List (Fin bs → K)) {i : Nat} (hi : i < s.length) (a : Fin bs) : (unsegs s)⟦i * bs + a⟧ = s⟦i⟧ a := by
  induction s generalizing i with
  | nil => simp at hi
  | cons v s ih =>
    have e : unsegs (v :: s) = List.ofFn v ++ unsegs s := by unfold unsegs; rw [List.flatMap_cons]
    have hl : (List.ofFn v ++ unsegs s).length = bs + s.length * bs := by rw [List.length_append, List.length_ofFn, length_unsegs]
    have ha := a.2
    rw [e]
    cases i with
    | zero =>
      rw [get0_eq_getElem (by omega), List.getElem_append_left (by rw [List.length_ofFn]; omega), List.getElem_ofFn]
      show v ⟨0 * bs + a, _⟩ = v a
      congr 1
      exact Fin.ext (by show 0 * bs + a.1 = a.1; omega)
    | succ i =>
      have hi' : i < s.length := by rw [List.length_cons] at hi; omega
      have hm : (i + 1) * bs ≤ s.length * bs := Nat.mul_le_mul_right _ hi'
      rw [Nat.succ_mul] at hm
      have h1 : (i + 1) * bs + a < (List.ofFn v ++ unsegs s).length := by rw [Nat.succ_mul, hl]; omega
      have h2 : i * bs + a < (unsegs s).length := by rw [length_unsegs]; omega
      have := ih hi'
      rw [get0_eq_getElem h2] at this
      rw [get0_eq_getElem h1, List.getElem_append_right (by rw [List.length_ofFn, Nat.succ_mul]; omega)]
      rw [show (v :: s)⟦i + 1⟧ = s⟦i⟧ from rfl, ← this]
      congr 1
      rw [List.length_ofFn, Nat.succ_mul]
      omega

variable {stor : Stor} {A : SR K}

theorem SR.Full.blocks (hbs : 0 < bs) (hA : A.Full (bs * bs)) : (A.blocks stor bs).Full where
  ptr_len := hA.ptr_len
  ptr_zero := hA.ptr_zero
  ptr_mono := hA.ptr_mono
  end_len := hA.end_len
  end_eq := hA.end_eq
  ind_len := hA.ind_len
  val_len := by
    show ((List.range (A.vals.length / (bs * bs))).map _).length = _
    rw [List.length_map, List.length_range, hA.val_len, Nat.mul_div_cancel _ (Nat.mul_pos hbs hbs), Nat.mul_one]
    rfl
  col_lt := hA.col_lt

theorem SR.HasDiag.blocks (h : A.HasDiag) : (A.blocks stor bs).HasDiag := ⟨h.diag_len, h.diag_ge, h.diag_lt, h.diag_col⟩

theorem SR.blocks_entry (hA : A.Full (bs * bs)) {i : Nat} (hi : i < A.nbrows) (j : Nat) (a c : Fin bs) :
    (A.blocks stor bs).entry i j a c = A.bentry stor bs (i * bs + a) (j * bs + c) := by
  have hbs : 0 < bs := Nat.lt_of_le_of_lt (Nat.zero_le _) a.2
  have hq : ∀ (m : Nat) (b : Fin bs), (m * bs + b) / bs = m ∧ (m * bs + b) % bs = b := fun m b => by
    rw [Nat.mul_comm]
    exact ⟨by rw [Nat.mul_add_div hbs, Nat.div_eq_of_lt b.2, Nat.add_zero], by rw [Nat.mul_add_mod, Nat.mod_eq_of_lt b.2]⟩
  unfold SR.bentry SR.entry
  rw [(hq i a).1, (hq i a).2, (hq j c).1, (hq j c).2, Matrix.sum_apply]
  refine Finset.sum_congr rfl fun k hk => ?_
  have hk := mem_Ico.mp hk
  have hlt : k < A.browptr⟦A.nbrows⟧ := hA.lt_nnz hi (by
    have h := hk.2
    change k < A.browendptr⟦i⟧ at h
    rwa [hA.end_eq i hi] at h)
  show (if A.bcolind⟦k⟧ = j then (A.blocks stor bs).vals⟦k⟧ else 0) a c = _
  split
  · unfold SR.blocks
    rw [get0_map_range _ (by rw [hA.val_len, Nat.mul_div_cancel _ (Nat.mul_pos hbs hbs)]; exact hlt)]
    rfl
  · rfl

end flat

section dom
variable {K : Type} [Field K] [LinearOrder K] [IsStrictOrderedRing K] {bs : Nat} {stor : Stor} {A : SR K}

/-- A matrix that is dominant by scalar rows is dominant by blocks. -/
theorem WDominant.blocks (hA : A.Full (bs * bs)) {d : Nat → K} {rho : K} (h : WDominant (A.nbrows * bs) (A.bentry stor bs) d rho) (h1 : rho < 1) :
    WBlockDominant A.nbrows (A.blocks stor bs).entry (fun i a => d (i * bs + a)) rho := by
  have hlt : ∀ i < A.nbrows, ∀ a : Fin bs, i * bs + a < A.nbrows * bs := fun i hi a => by
    have := Nat.mul_le_mul_right bs (show i + 1 ≤ A.nbrows from hi)
    rw [Nat.succ_mul] at this
    have := a.2
    omega
  refine .of_scalar h1 (fun i hi a => h.pos _ (hlt i hi a)) (fun i hi a => by rw [SR.blocks_entry hA hi]; exact h.diag _ (hlt i hi a)) fun i hi a => ?_
  simp only [SR.blocks_entry hA hi]
  refine le_trans (le_of_eq ?_) (h.dom _ (hlt i hi a))
  have e1 : ∀ (I : Nat) (f : Nat → K), I < A.nbrows * bs → ∑ j ∈ (range (A.nbrows * bs)).erase I, f j = ∑ j ∈ range (A.nbrows * bs), f j - f I := fun I f hI => by
    rw [← Finset.add_sum_erase _ f (mem_range.mpr hI)]
    ring
  rw [e1 _ _ (hlt i hi a), sum_range_mul_blocks, ← Finset.add_sum_erase _ _ (mem_range.mpr hi)]
  have e2 : ∀ j, ∑ b ∈ range bs, |A.bentry stor bs (i * bs + a) (j * bs + b)| * d (j * bs + b) =
      ∑ c : Fin bs, |A.bentry stor bs (i * bs + a) (j * bs + c)| * d (j * bs + c) := fun j =>
    (Fin.sum_univ_eq_sum_range (fun b => |A.bentry stor bs (i * bs + a) (j * bs + b)| * d (j * bs + b)) bs).symm
  rw [e2 i, Finset.sum_congr rfl fun j _ => e2 j, ← Finset.add_sum_erase univ _ (Finset.mem_univ a)]
  ring

/-- The factors of a block ILU(0) object with enough sweeps are exact, with inverted diagonal blocks. -/
theorem BlockIluFactors.exact {conf : IluConf} {B : SR (Matrix (Fin bs) (Fin bs) K)} {y : List (Matrix (Fin bs) (Fin bs) K)} (hA : B.Full) (hS : B.Sorted) (hD : B.HasDiag)
    (hu : conf.usescaling = false) (hk : if conf.threadedfactor then 2 * (B.nbrows : Int) - 1 ≤ conf.nbuildsweeps else 1 ≤ conf.nbuildsweeps)
    {d : Nat → Fin bs → K} {rho : K} (hdom : WBlockDominant B.nbrows B.entry d rho) (h1 : rho < 1) (h : BlockIluFactors conf B y) :
    ∃ (isq : K → K) (u : List (Matrix (Fin bs) (Fin bs) K)), ExactILU B (blockScaledEntry isq false B) u ∧ DiagInverted B u y := by
  unfold BlockIluFactors at h
  split at h
  · rename_i ht
    rw [if_pos ht] at hk
    obtain ⟨pos, mix, x, log, last, ord, hpos, hm, hx, hr, ho, hy⟩ := h
    have hdom' := hdom.scaled (isq := fun _ => 1) (us := false) (by simp)
    obtain ⟨u, h2, h3, -, h4, -⟩ := block_ilu_dominant_async hA hS hD hpos
      (BlockScaleIs.scales (isq := fun _ => 1) (us := false) (o := none) hA hS rfl) hdom' h1
    have := h4 mix hm x hx conf.nbuildsweeps.toNat (by omega) log last hr
    rw [this] at hy
    rcases blockInvertDiag_cases hA hD ho h2 with ⟨y', e, g1, g2, g3⟩ | ⟨e, -⟩
    · rw [e] at hy
      cases hy
      exact ⟨_, u, h3, h2, g1, g2, g3⟩
    · rw [e] at hy
      cases hy
  · rename_i ht
    rw [if_neg ht] at hk
    obtain ⟨isq, ord, ord2, ordc, gilu, gdblks, gscale, inf, st', o1, o2, o3, l1, l2, l3, e, e2⟩ := h
    obtain ⟨-, -, u, y', hy', hex, -, hinv⟩ := block_ilu_compute_exact ⟨hA, hS, hD, o1, o2, o3, l1, l2, l3, .inl rfl⟩ (by show 1 ≤ conf.nbuildsweeps.toNat; omega) e
    rw [e2] at hy'
    cases hy'
    change ExactILU B (blockScaledEntry isq conf.usescaling B) u at hex
    rw [hu] at hex
    exact ⟨isq, u, hex, hinv⟩

omit [LinearOrder K] [IsStrictOrderedRing K] in
/-- The applications of a block ILU(0) object with enough sweeps are among those of C72. -/
theorem BlockIluApplies.outcome {conf : IluConf} {B : SR (Matrix (Fin bs) (Fin bs) K)} {y : List (Matrix (Fin bs) (Fin bs) K)} {r z : List (Fin bs → K)}
    (hk : if conf.threadedapply then (B.nbrows : Int) ≤ conf.napplysweeps else 1 ≤ conf.napplysweeps)
    (hi : conf.applyinittype ≠ .none) (h : BlockIluApplies conf B y r z) : BlockIluOutcome B y none r z := by
  obtain ⟨ord, z₀, t, t', ho, hz, hy, h⟩ := h
  split at h
  · rename_i ht
    rw [if_pos ht] at hk
    obtain ⟨mix, hm, h⟩ := h
    exact .async _ (by omega) _ hi mix hm ord ho z₀ t t' hz hy h
  · rename_i ht
    rw [if_neg ht] at hk
    exact .sequential _ (by omega) _ hi ord ho z₀ t t' hz hy h

/-- **C87** For the arrays of a block matrix that is strictly diagonally dominant by scalar rows: every application of a block ILU(0) object with enough sweeps contracts the error of every coefficient,
with threads or without. -/
theorem block_ilu_object_contracts {conf : IluConf} (hbs : 0 < bs) (hA : A.Full (bs * bs)) (hS : A.Sorted) (hD : A.HasDiag) (hu : conf.usescaling = false)
    (hk : if conf.threadedfactor then 2 * (A.nbrows : Int) - 1 ≤ conf.nbuildsweeps else 1 ≤ conf.nbuildsweeps)
    (hk' : if conf.threadedapply then (A.nbrows : Int) ≤ conf.napplysweeps else 1 ≤ conf.napplysweeps) (hi : conf.applyinittype ≠ .none)
    {d : Nat → K} {rho : K} (hdom : WDominant (A.nbrows * bs) (A.bentry stor bs) d rho) (h0 : 0 ≤ rho) (h1 : rho < 1) {y : List (Matrix (Fin bs) (Fin bs) K)}
    (hy : BlockIluFactors conf (A.blocks stor bs) y) {r : List K} (hr : r.length = A.nbrows * bs) {z : List (Fin bs → K)}
    (hz : BlockIluApplies conf (A.blocks stor bs) y (segs bs r) z) :
    (unsegs z).length = A.nbrows * bs ∧ Contracting (A.nbrows * bs) (A.bentry stor bs) d rho r (unsegs z) := by
  have hF := hA.blocks (stor := stor) hbs
  have hS' : (A.blocks stor bs).Sorted := hS
  have hD' := hD.blocks (stor := stor) (bs := bs)
  have hdom' := hdom.blocks hA h1
  obtain ⟨isq, u, hex, hinv⟩ := hy.exact hF hS' hD' hu hk hdom' h1
  have hzs := (hz.outcome hk' hi).solved hF hS' hD' hinv (by intro _ h; cases h) (length_segs hbs hr)
  have hzl : z.length = A.nbrows := hzs.1
  refine ⟨by rw [length_unsegs, hzl], fun e he c hc hb I hI => ?_⟩
  have hlt : ∀ i < A.nbrows, ∀ a : Fin bs, i * bs + a < A.nbrows * bs := fun i hi a => by
    have := Nat.mul_le_mul_right bs (show i + 1 ≤ A.nbrows from hi)
    rw [Nat.succ_mul] at this
    have := a.2
    omega
  have hres : ∀ i < A.nbrows, ∑ j ∈ range A.nbrows, ((A.blocks stor bs).entry i j).mulVec (fun a : Fin bs => e (j * bs + a)) = (segs bs r)⟦i⟧ := by
    intro i hi
    funext a
    rw [get0_segs hbs hr hi, ← he _ (hlt i hi a), sum_range_mul_blocks, Finset.sum_apply]
    refine Finset.sum_congr rfl fun j _ => ?_
    rw [← Fin.sum_univ_eq_sum_range (fun b => A.bentry stor bs (i * bs + a) (j * bs + b) * e (j * bs + b))]
    show ∑ b, (A.blocks stor bs).entry i j a b * e (j * bs + b) = _
    exact Finset.sum_congr rfl fun b _ => by rw [SR.blocks_entry hA hi]
  have hcon := block_ilu_correction_contracts (isq := isq) (us := false) (scale := none) hF hD' hinv.len rfl hex (by simp) hdom' h0 h1
    (b := segs bs r) (r := segs bs r) (x := []) (s := fun i a => e (i * bs + a)) hres
    (fun i hi => by
      rw [Finset.sum_eq_zero fun j _ => ?_, sub_zero]
      show Matrix.mulVec _ (0 : Fin bs → K) = 0
      exact Matrix.mulVec_zero _)
    hzs hc (fun i hi a => by
      show |(0 : K) - e (i * bs + a)| ≤ _
      rw [zero_sub, abs_neg]
      exact hb _ (hlt i hi a))
  have hq : I = I / bs * bs + I % bs := by rw [Nat.mul_comm]; exact (Nat.div_add_mod I bs).symm
  have hI' : I / bs < A.nbrows := Nat.div_lt_of_lt_mul (by rwa [Nat.mul_comm])
  have := hcon (I / bs) hI' ⟨I % bs, Nat.mod_lt _ hbs⟩
  dsimp only at this
  rw [← get0_unsegs z (by omega) ⟨I % bs, Nat.mod_lt _ hbs⟩] at this
  dsimp only at this
  rw [← hq] at this
  have h0' : (([] : List (Fin bs → K))⟦I / bs⟧ ⟨I % bs, Nat.mod_lt _ hbs⟩) = 0 := rfl
  rw [h0', zero_add, abs_sub_comm] at this
  exact this

end dom

section prog
variable {K : Type} [Field K] [LinearOrder K] [IsStrictOrderedRing K]

/-- The storage order that the word on the command line names. -/
def orderOf (w : String) : Stor := if w = "rowmajor" then .rowMajor else .colMajor

omit [Field K] [LinearOrder K] [IsStrictOrderedRing K] in
theorem prog_block_ilu_object (p : ProgParams K) (info : Bool) (hp : p.precontype ∈ iluWords) {f : FactInit} (hf : (p.factinittype, f) ∈ factWords) {a : ApplyInit}
    (ha : (p.applyinittype, a) ∈ applyWords) :
    ∃ o, progSettings 4 info p = .ok o ∧ createPreconditioner (.async o) = .ok (.asyncBlockIlu0 4 (orderOf p.storageorder) (iluMeaning p info f a)) := by
  have h2 : getFactInitFromString p.factinittype = .ok f := by
    simp only [factWords, List.mem_cons, Prod.mk.injEq, List.not_mem_nil, or_false] at hf
    rcases hf with ⟨e, rfl⟩ | ⟨e, rfl⟩ | ⟨e, rfl⟩ | ⟨e, rfl⟩ <;> rw [e] <;> rfl
  have h3 : getApplyInitFromString p.applyinittype = .ok a := by
    simp only [applyWords, List.mem_cons, Prod.mk.injEq, List.not_mem_nil, or_false] at ha
    rcases ha with ⟨e, rfl⟩ | ⟨e, rfl⟩ <;> rw [e] <;> rfl
  simp only [iluWords, List.mem_cons, List.not_mem_nil, or_false] at hp
  unfold progSettings iluMeaning orderOf
  rcases hp with e | e | e | e <;> rw [e] <;> by_cases ho : p.storageorder = "rowmajor" <;> simp only [ho, if_true, if_false] <;>
    exact ⟨_, by rw [show solverTypeFromString _ = .ok _ from rfl, ok_bind, h2, ok_bind, h3, ok_bind], rfl⟩

/-- The surroundings provide block ILU(0) objects: for the matrix of the file, in sorted BSR format with all diagonal blocks, an object of the configuration `conf` can be computed, and it
behaves as block ILU(0) objects do. -/
def ProvidesBlockIlu (E : SolveProgEnv K) (stor : Stor) (bs : Nat) (conf : IluConf) (n : Nat) (es : List (Nat × Nat × K)) : Prop :=
  ∀ A : SR K, A.Full (bs * bs) → A.Sorted → A.HasDiag → A.nbrows * bs = n → (∀ i < n, ∀ j, A.bentry stor bs i j = fileEntry es i j) →
    ∃ f, E.object (.asyncBlockIlu0 bs stor conf) A = .ok f ∧ BlockIluRuns conf stor bs A f

omit [LinearOrder K] [IsStrictOrderedRing K] in
theorem HoldsFile.bentry {order : String} {n : Nat} {es : List (Nat × Nat × K)} {A : SR K} (h : HoldsFile 4 order n es A) {i : Nat} (hi : i < n) (j : Nat) :
    A.bentry (orderOf order) 4 i j = fileEntry es i j := by
  have := h.view.entry i hi j
  unfold progView at this
  rw [if_neg (by decide)] at this
  unfold orderOf
  split at this <;> rename_i ho
  · rw [if_pos ho]; exact this
  · rw [if_neg ho]; exact this

/-- Block ILU(0) objects with enough sweeps provide contractions. -/
theorem ProvidesBlockIlu.contraction {E : SolveProgEnv K} {p : ProgParams K} {n : Nat} {es : List (Nat × Nat × K)} (htouch : BlocksTouched 4 es)
    (hp : p.precontype ∈ iluWords) {f : FactInit} (hf : (p.factinittype, f) ∈ factWords) {a : ApplyInit} (ha : (p.applyinittype, a) ∈ applyWords)
    (hsw : EnoughSweeps p (n / 4)) (hobj : ProvidesBlockIlu E (orderOf p.storageorder) 4 (iluMeaning p E.info f a) n es) {d : Nat → K} {rho : K}
    (hdom : WDominant n (fileEntry es) d rho) (h0 : 0 ≤ rho) (h1 : rho < 1) : ProvidesContraction E 4 p n es d rho := by
  obtain ⟨o, e1, e2⟩ := prog_block_ilu_object p E.info hp hf ha
  refine ⟨o, _, e1, e2, fun A hA => ?_⟩
  obtain ⟨hF, hS, hD⟩ := hA.sorted htouch hdom.diag
  have hent : ∀ i < n, ∀ j, A.bentry (orderOf p.storageorder) 4 i j = fileEntry es i j := fun i hi j => hA.bentry hi j
  have hn := hA.rows
  obtain ⟨F, g1, y, hy, hF2⟩ := hobj A hF hS hD hn hent
  have hnb : A.nbrows = n / 4 := by omega
  subst hn
  rw [← hnb] at hsw
  have hdom' : WDominant (A.nbrows * 4) (A.bentry (orderOf p.storageorder) 4) d rho :=
    ⟨hdom.pos, fun i hi => by rw [hent i hi]; exact hdom.diag i hi, fun i hi => by
      rw [hent i hi, Finset.sum_congr rfl fun j _ => by rw [hent i hi j]]
      exact hdom.dom i hi⟩
  have hai : a ≠ .none := by
    rintro rfl
    simp [applyWords] at ha
  refine ⟨F, g1, fun k r z hr hz => ?_⟩
  obtain ⟨z', k1, k2⟩ := hF2 k r z hr hz
  obtain ⟨c1, c2⟩ := block_ilu_object_contracts (by decide) hF hS hD rfl (by simpa [iluMeaning] using hsw.1) (by simpa [iluMeaning] using hsw.2) hai hdom' h0 h1 hy hr k2
  refine ⟨_, k1, c1, fun e he => c2 e fun i hi => ?_⟩
  rw [← he i hi]
  exact Finset.sum_congr rfl fun j _ => by rw [hent i hi]

/-- **C90** In BSR format with block size 4, in both storage orders: with block ILU(0) objects the program solves every (weighted) strictly diagonally dominant system whose blocks all have an entry in their first row,
with threads or without, if the numbers of sweeps suffice. -/
theorem solve_program_block_ilu_converges [Archimedean K] {E : SolveProgEnv K} {p : ProgParams K} {n : Nat} {es : List (Nat × Nat × K)} {vs : List K} (h : SolveFiles E p n es vs)
    (hvs : vs.length = n) (hs : SqrtOk E.sqrt) (hsched : ProgSched E 4 n) (hmat : p.mattype = "bsr") (hbs : p.blocksize = 4) (hn : n % 4 = 0)
    (hord : p.storageorder = "rowmajor" ∨ p.storageorder = "colmajor") (htouch : BlocksTouched 4 es) (hsolver : p.solvertype = "richardson")
    (hp : p.precontype ∈ iluWords) {f : FactInit} (hf : (p.factinittype, f) ∈ factWords) {a : ApplyInit} (ha : (p.applyinittype, a) ∈ applyWords)
    (hsw : EnoughSweeps p (n / 4)) (hobj : ProvidesBlockIlu E (orderOf p.storageorder) 4 (iluMeaning p E.info f a) n es) {d : Nat → K} {rho : K}
    (hdom : WDominant n (fileEntry es) d rho) (h0 : 0 ≤ rho) (h1 : rho < 1) (hb : ∃ i < n, vs⟦i⟧ ≠ 0) (ht : 0 < p.tol) (hx : p.x_file = "NONE") :
    ∃ m0 : Nat, ∀ maxiter : Int, m0 < maxiter → ∃ info x, solveMain E { p with maxiter := maxiter } = .ok (some (info, x, none)) ∧ info.iters ≤ m0 ∧
      x.length = n ∧ fileResid2 n es vs x < p.tol ^ 2 * norm2 n vs :=
  solve_program_contracting_converges h (.inr ⟨hmat, hbs, rfl⟩) (.inr ⟨by decide, hn, hord⟩) hvs hs hsched hsolver (hobj.contraction htouch hp hf ha hsw hdom h0 h1) hdom h0 h1 hb ht hx

/-- **C90** Likewise it passes its own test against a reference file that holds the exact solution. -/
theorem solve_program_block_ilu_passes [Archimedean K] {E : SolveProgEnv K} {p : ProgParams K} {n : Nat} {es : List (Nat × Nat × K)} {vs : List K} (h : SolveFiles E p n es vs)
    (hvs : vs.length = n) (hs : SqrtOk E.sqrt) (hsched : ProgSched E 4 n) (hmat : p.mattype = "bsr") (hbs : p.blocksize = 4) (hn : n % 4 = 0)
    (hord : p.storageorder = "rowmajor" ∨ p.storageorder = "colmajor") (htouch : BlocksTouched 4 es) (hsolver : p.solvertype = "richardson")
    (hp : p.precontype ∈ iluWords) {f : FactInit} (hf : (p.factinittype, f) ∈ factWords) {a : ApplyInit} (ha : (p.applyinittype, a) ∈ applyWords)
    (hsw : EnoughSweeps p (n / 4)) (hobj : ProvidesBlockIlu E (orderOf p.storageorder) 4 (iluMeaning p E.info f a) n es) {d : Nat → K} {rho : K}
    (hdom : WDominant n (fileEntry es) d rho) (h0 : 0 ≤ rho) (h1 : rho < 1) (hb : ∃ i < n, vs⟦i⟧ ≠ 0) (hx : p.x_file ≠ "NONE") {ans : List K}
    (hans : HoldsArray E p.x_file ans) (hal : n ≤ ans.length) (hsol : ∀ i < n, ∑ j ∈ range n, fileEntry es i j * ans⟦j⟧ = vs⟦i⟧) (htt : 0 < p.testtol) :
    ∃ tol0 > 0, ∀ tol, 0 < tol → tol ≤ tol0 → ∃ m0 : Nat, ∀ maxiter : Int, m0 < maxiter →
      ∃ info x v, solveMain E { p with tol := tol, maxiter := maxiter } = .ok (some (info, x, some v)) ∧ info.iters ≤ m0 ∧ x.length = n ∧
        fileResid2 n es vs x < tol ^ 2 * norm2 n vs ∧ v ^ 2 = ∑ i ∈ range n, (x⟦i⟧ - ans⟦i⟧) ^ 2 ∧ v < p.testtol :=
  solve_program_contracting_passes h (.inr ⟨hmat, hbs, rfl⟩) (.inr ⟨by decide, hn, hord⟩) hvs hs hsched hsolver (hobj.contraction htouch hp hf ha hsw hdom h0 h1) hdom h0 h1 hb hx
    hans hal hsol htt

/-- The sequential objects exist for dominant matrices, and behave as described. -/
theorem seqBlockIluObject_provides {E : SolveProgEnv K} {isq : K → K} {g : Nat → K} (hE : E.object = seqBlockIluObject isq g) {p : ProgParams K} (hp : p.precontype = "seqilu0") (info : Bool)
    (f : FactInit) {a : ApplyInit} (ha : a ≠ .none) (hb : 1 ≤ p.nbuildsweeps) (hn : 1 ≤ p.napplysweeps) {n : Nat} {es : List (Nat × Nat × K)} {d : Nat → K} {rho : K}
    (hdom : WDominant n (fileEntry es) d rho) (h1 : rho < 1) (stor : Stor) {bs : Nat} (hbs : 0 < bs) : ProvidesBlockIlu E stor bs (iluMeaning p info f a) n es := by
  intro A hA hS hD hrows hent
  subst hrows
  have hdom' : WDominant (A.nbrows * bs) (A.bentry stor bs) d rho :=
    ⟨hdom.pos, fun i hi => by rw [hent i hi]; exact hdom.diag i hi, fun i hi => by
      rw [hent i hi, Finset.sum_congr rfl fun j _ => by rw [hent i hi j]]
      exact hdom.dom i hi⟩
  have hF := hA.blocks (stor := stor) hbs
  have hS' : (A.blocks stor bs).Sorted := hS
  have hD' := hD.blocks (stor := stor) (bs := bs)
  have hlen : A.nbrows < A.browptr.length := by have := hA.ptr_len; omega
  have htf : (iluMeaning p info f a).threadedfactor = false := by simp [iluMeaning, hp]
  have hta : (iluMeaning p info f a).threadedapply = false := by simp [iluMeaning, hp]
  obtain ⟨inf, st, u, y, e, hy, hsc, hinv, -⟩ := block_ilu_dominant_compute (isq := isq) (conf := ⟨false, p.nbuildsweeps.toNat, f, info⟩) (A := A.blocks stor bs)
    (ord := List.range A.nbrows) (ord2 := List.range A.nbrows) (ordc := List.range A.browptr⟦A.nbrows⟧)
    (gilu := (List.range A.browptr⟦A.nbrows⟧).map fun k => Matrix.of fun a c => g (k * (bs * bs) + stor.off bs a c))
    (gdblks := (List.range A.nbrows).map fun k => Matrix.of fun a c => g (k * (bs * bs) + stor.off bs a c)) (gscale := (List.range (A.nbrows * bs)).map g) (st := {})
    ⟨hF, hS', hD', .refl _, .refl _, .refl _, by rw [List.length_map, List.length_range]; rfl, by rw [List.length_map, List.length_range]; rfl, by rw [List.length_map, List.length_range]; rfl, .inl rfl⟩
    (by show 1 ≤ p.nbuildsweeps.toNat; omega) (by simp) (hdom'.blocks hA h1) h1
  have hsn : st.scale = none := hsc
  have hobj : E.object (.asyncBlockIlu0 bs stor (iluMeaning p info f a)) A = .ok fun _ b z =>
      (blockIluApply (A.blocks stor bs) y st.scale p.napplysweeps.toNat a (fun _ => List.range A.nbrows) (segs bs b) (segs bs z)
        ((List.range A.nbrows).map fun i a => g (i * bs + a))).bind fun zt => .ok (unsegs zt.1) := by
    rw [hE]
    unfold seqBlockIluObject
    dsimp only
    rw [if_neg (by rw [htf, hta]; decide), rd_eq hlen, ok_bind]
    dsimp only [iluMeaning]
    rw [e, ok_bind, hy]
    rfl
  refine ⟨_, hobj, y, ?_, ?_⟩
  · unfold BlockIluFactors
    rw [htf, if_neg (by decide)]
    exact ⟨isq, _, _, _, _, _, _, inf, st, .refl _, .refl _, .refl _, by rw [List.length_map, List.length_range]; rfl, by rw [List.length_map, List.length_range]; rfl,
      by rw [List.length_map, List.length_range]; rfl, e, hy⟩
  · intro k r z hr hz
    have hl : ((List.range A.nbrows).map fun i (a : Fin bs) => g (i * bs + a)).length = (A.blocks stor bs).nbrows := by rw [List.length_map, List.length_range]; rfl
    obtain ⟨z', y', e2, -⟩ := block_ilu_apply_correct hF hS' hD' hinv (scale := none) (by intro _ h; cases h) (k := p.napplysweeps.toNat) (by omega) ha
      (ord := fun _ => List.range A.nbrows) (fun _ => .refl _) (length_segs hbs hr) (length_segs hbs hz) hl
    refine ⟨z', ?_, fun _ => List.range A.nbrows, segs bs z, _, y', fun _ => .refl _, length_segs hbs hz, hl, ?_⟩
    · dsimp only
      rw [hsn, e2]
      rfl
    · rw [hta, if_neg (by decide)]
      exact e2

/-- **C90** Without threads nothing is assumed about the preconditioner: in BSR format with block size 4 and with `seqilu0` the program, with the block factorization and application of the library, solves every (weighted)
strictly diagonally dominant system in the files whose blocks all have an entry in their first row, with any positive numbers of sweeps, and any initialisation of the factors. -/
theorem solve_program_block_seqilu0_converges [Archimedean K] {E : SolveProgEnv K} {isq : K → K} {g : Nat → K} (hE : E.object = seqBlockIluObject isq g) {p : ProgParams K} {n : Nat}
    {es : List (Nat × Nat × K)} {vs : List K} (h : SolveFiles E p n es vs) (hvs : vs.length = n) (hs : SqrtOk E.sqrt) (hsched : ProgSched E 4 n)
    (hmat : p.mattype = "bsr") (hbs : p.blocksize = 4) (hn4 : n % 4 = 0) (hord : p.storageorder = "rowmajor" ∨ p.storageorder = "colmajor") (htouch : BlocksTouched 4 es)
    (hsolver : p.solvertype = "richardson") (hp : p.precontype = "seqilu0") {f : FactInit} (hf : (p.factinittype, f) ∈ factWords)
    {a : ApplyInit} (ha : (p.applyinittype, a) ∈ applyWords) (hb : 1 ≤ p.nbuildsweeps) (hn : 1 ≤ p.napplysweeps) {d : Nat → K} {rho : K}
    (hdom : WDominant n (fileEntry es) d rho) (h0 : 0 ≤ rho) (h1 : rho < 1) (hv : ∃ i < n, vs⟦i⟧ ≠ 0) (ht : 0 < p.tol) (hx : p.x_file = "NONE") :
    ∃ m0 : Nat, ∀ maxiter : Int, m0 < maxiter → ∃ info x, solveMain E { p with maxiter := maxiter } = .ok (some (info, x, none)) ∧ info.iters ≤ m0 ∧
      x.length = n ∧ fileResid2 n es vs x < p.tol ^ 2 * norm2 n vs := by
  have hai : a ≠ .none := by
    rintro rfl
    simp [applyWords] at ha
  exact solve_program_block_ilu_converges h hvs hs hsched hmat hbs hn4 hord htouch hsolver (by rw [hp]; decide) hf ha
    ⟨by rw [hp, if_neg (by decide)]; exact hb, by rw [hp, if_neg (by decide)]; exact hn⟩ (seqBlockIluObject_provides hE hp E.info f hai hb hn hdom h1 _ (by decide)) hdom h0 h1 hv ht hx

end prog

/-! ### Blocks out of order -/

/-- A block lower triangular matrix, ordered by rows and columns, whose lower block has no entry in its first row. -/
def exLowBlock : COO ℚ where
  entries := [⟨0, 0, 1⟩, ⟨1, 1, 1⟩, ⟨2, 2, 1⟩, ⟨3, 1, 1⟩, ⟨3, 3, 1⟩]
  nnz := 5
  nrows := 4
  ncols := 4
  rowptr := [0, 1, 2, 3, 5]

/-- The same matrix with an explicit zero in the first row of the block. -/
def exLowBlockZ : COO ℚ where
  entries := [⟨0, 0, 1⟩, ⟨1, 1, 1⟩, ⟨2, 0, 0⟩, ⟨2, 2, 1⟩, ⟨3, 1, 1⟩, ⟨3, 3, 1⟩]
  nnz := 6
  nrows := 4
  ncols := 4
  rowptr := [0, 1, 2, 4, 6]

/-- A sequential configuration. -/
def exSeqConf : IluConf :=
  { usescaling := false, threadedfactor := false, threadedapply := false, nbuildsweeps := 1, napplysweeps := 1, thread_chunk_size := 1, factinittype := .original, applyinittype := .zero
    compute_precinfo := false }

/-- The conversion to blocks, the block ILU(0) object for the result, and one application of it to `r`. -/
def convertAndApply (A : COO ℚ) (r : List ℚ) : C (SR ℚ × List ℚ) := do
  let B ← getSRMatrixFromCOO 2 "rowmajor" (fun _ => 9) (fun _ => 9) (fun _ => 9) A
  let f ← seqBlockIluObject id (fun _ => 5) (.asyncBlockIlu0 2 .rowMajor exSeqConf) B.1
  let z ← f 0 r [0, 0, 0, 0]
  .ok (B.1, z)

/-- **C39** What it means that blocks come out of order: a block below the diagonal that is stored after the diagonal block is taken for a block above it, and the preconditioner ignores it without any message. For the same
matrix with an explicit zero in the file, which gives the right order, the preconditioner solves the system, as it should for a block triangular matrix. -/
theorem unsorted_blocks_ignored : ∃ B z B' z' r, convertAndApply exLowBlock r = .ok (B, z) ∧ convertAndApply exLowBlockZ r = .ok (B', z') ∧
    (∀ i < 4, ∀ j < 4, B.bentry .rowMajor 2 i j = B'.bentry .rowMajor 2 i j) ∧
    (∀ i < 4, ∑ j ∈ range 4, B.bentry .rowMajor 2 i j * z'⟦j⟧ = r⟦i⟧) ∧ ¬ ∀ i < 4, ∑ j ∈ range 4, B.bentry .rowMajor 2 i j * z⟦j⟧ = r⟦i⟧ :=
  ⟨{ browptr := [0, 1, 3], bcolind := [0, 1, 0], vals := [1, 0, 0, 1, 1, 0, 0, 1, 0, 0, 0, 1], diagind := [0, 1], browendptr := [1, 3], nbrows := 2, nnzb := 3, nbstored := 3 }, [1, 1, 1, 2],
    { browptr := [0, 1, 3], bcolind := [0, 0, 1], vals := [1, 0, 0, 1, 0, 0, 0, 1, 1, 0, 0, 1], diagind := [0, 2], browendptr := [1, 3], nbrows := 2, nnzb := 3, nbstored := 3 }, [1, 1, 1, 1],
    [1, 1, 1, 2], by decide +kernel, by decide +kernel, by decide +kernel, by decide +kernel, by decide +kernel⟩

/-! ### Examples -/

/-- A matrix of order 8 with three non-zero blocks of size 4. -/
def exBlkMat : List Char := "%%MatrixMarket matrix coordinate real general\n8 8 9\n1 1 4\n2 2 4\n3 3 4\n4 4 4\n5 1 1\n5 5 4\n6 6 4\n7 7 4\n8 8 4\n".toList

theorem exBlkMat_ok : CoordinateFile exNum exBlkMat 8 8 [(1, 1, 4), (2, 2, 4), (3, 3, 4), (4, 4, 4), (5, 1, 1), (5, 5, 4), (6, 6, 4), (7, 7, 4), (8, 8, 4)] where
  parts := by
    refine ⟨"real", "1 1 4\n2 2 4\n3 3 4\n4 4 4\n5 1 1\n5 5 4\n6 6 4\n7 7 4\n8 8 4\n".toList, .inl rfl, ?_, ?_⟩
    · refine ⟨"%%MatrixMarket matrix coordinate real general".toList, [], "8 8 9".toList,
        [['8'], ['8'], ['9']], by decide +kernel, by decide, .of_tokens (by decide +kernel), by decide, by decide, by decide,
        .of_tokens (by decide +kernel), .cons (.one 8) (.cons (.one 8) (.cons (.one 9) .nil))⟩
    · exact ⟨[(['1'], ['1'], ['4']), (['2'], ['2'], ['4']), (['3'], ['3'], ['4']), (['4'], ['4'], ['4']), (['5'], ['1'], ['1']), (['5'], ['5'], ['4']), (['6'], ['6'], ['4']), (['7'], ['7'], ['4']), (['8'], ['8'], ['4'])], .of_tokens (by decide +kernel),
        .cons ⟨.one 1, .one 1, by decide +kernel⟩ (.cons ⟨.one 2, .one 2, by decide +kernel⟩ (.cons ⟨.one 3, .one 3, by decide +kernel⟩ (.cons ⟨.one 4, .one 4, by decide +kernel⟩ (.cons ⟨.one 5, .one 1, by decide +kernel⟩ (.cons ⟨.one 5, .one 5, by decide +kernel⟩ (.cons ⟨.one 6, .one 6, by decide +kernel⟩ (.cons ⟨.one 7, .one 7, by decide +kernel⟩ (.cons ⟨.one 8, .one 8, by decide +kernel⟩ (.nil)))))))))⟩
  row := by decide
  col := by decide
  nrows_le := by decide
  ncols_le := by decide
  nnz_le := by decide

/-- A right-hand side. -/
def exBlkVec : List Char := "%%MatrixMarket matrix array real general\n8 1\n4\n4\n4\n4\n5\n4\n4\n4\n".toList

theorem exBlkVec_ok : ArrayFile exNum exBlkVec 8 1 [4, 4, 4, 4, 5, 4, 4, 4] where
  parts := ⟨"real", "4\n4\n4\n4\n5\n4\n4\n4\n".toList, .inl rfl,
    ⟨"%%MatrixMarket matrix array real general".toList, [], "8 1".toList, [['8'], ['1']], by decide +kernel,
      by decide, .of_tokens (by decide +kernel), by decide, by decide, by decide, .of_tokens (by decide +kernel),
      .cons (.one 8) (.cons (.one 1) .nil)⟩,
    [['4'], ['4'], ['4'], ['4'], ['5'], ['4'], ['4'], ['4']], .of_tokens (by decide +kernel), .cons (by decide +kernel) (.cons (by decide +kernel) (.cons (by decide +kernel) (.cons (by decide +kernel) (.cons (by decide +kernel) (.cons (by decide +kernel) (.cons (by decide +kernel) (.cons (by decide +kernel) (.nil))))))))⟩
  length := rfl
  nrows_le := by decide
  ncols_le := by decide
  size_le := by decide

/-- The solution. -/
def exBlkSol : List Char := "%%MatrixMarket matrix array real general\n8 1\n1\n1\n1\n1\n1\n1\n1\n1\n".toList

theorem exBlkSol_ok : ArrayFile exNum exBlkSol 8 1 [1, 1, 1, 1, 1, 1, 1, 1] where
  parts := ⟨"real", "1\n1\n1\n1\n1\n1\n1\n1\n".toList, .inl rfl,
    ⟨"%%MatrixMarket matrix array real general".toList, [], "8 1".toList, [['8'], ['1']], by decide +kernel,
      by decide, .of_tokens (by decide +kernel), by decide, by decide, by decide, .of_tokens (by decide +kernel),
      .cons (.one 8) (.cons (.one 1) .nil)⟩,
    [['1'], ['1'], ['1'], ['1'], ['1'], ['1'], ['1'], ['1']], .of_tokens (by decide +kernel), .cons (by decide +kernel) (.cons (by decide +kernel) (.cons (by decide +kernel) (.cons (by decide +kernel) (.cons (by decide +kernel) (.cons (by decide +kernel) (.cons (by decide +kernel) (.cons (by decide +kernel) (.nil))))))))⟩
  length := rfl
  nrows_le := by decide
  ncols_le := by decide
  size_le := by decide

/-- The entries of the matrix. -/
def exBlkEntries : List (Nat × Nat × ℝ) := [(1, 1, 4), (2, 2, 4), (3, 3, 4), (4, 4, 4), (5, 1, 1), (5, 5, 4), (6, 6, 4), (7, 7, 4), (8, 8, 4)]

/-- Surroundings with these files. -/
noncomputable def exBlkEnv (object : Prec → SR ℝ → C (PrecFun ℝ)) : SolveProgEnv ℝ where
  files f := if f = "A" then some exBlkMat else if f = "b" then some exBlkVec else if f = "x" then some exBlkSol else none
  num := fun w => Option.map (fun q : ℚ => (q : ℝ)) (exNum w)
  srt key l := l.insertionSort fun a b => key a ≤ key b
  gi _ := 7
  gd _ := 7
  gv _ := 7
  gi2 _ := 7
  gd2 _ := 7
  gv2 _ := 7
  fuel := 200
  info := true
  sqrt := Real.sqrt
  sched := ⟨fun _ _ => [1, 0], fun _ _ => List.range 8⟩
  object := object

/-- Parameters with the sequential block ILU(0) preconditioner. -/
noncomputable def exBlkParams (order x : String) : ProgParams ℝ :=
  { exProgParams "A" "b" x with mattype := "bsr", blocksize := 4, storageorder := order }

theorem exBlk_vec (object : Prec → SR ℝ → C (PrecFun ℝ)) : HoldsArray (exBlkEnv object) "b" [4, 4, 4, 4, 5, 4, 4, 4] ∧ HoldsArray (exBlkEnv object) "x" [1, 1, 1, 1, 1, 1, 1, 1] := by
  refine ⟨⟨_, 8, 1, rfl, ?_, by show exBlkVec.length ≤ 200; decide⟩, ⟨_, 8, 1, rfl, ?_, by show exBlkSol.length ≤ 200; decide⟩⟩
  · have h := exBlkVec_ok.mapNum (fun q : ℚ => (q : ℝ)); simp at h; exact h
  · have h := exBlkSol_ok.mapNum (fun q : ℚ => (q : ℝ)); simp at h; exact h

theorem exBlkFiles (object : Prec → SR ℝ → C (PrecFun ℝ)) (order x : String) : SolveFiles (exBlkEnv object) (exBlkParams order x) 8 exBlkEntries [4, 4, 4, 4, 5, 4, 4, 4] where
  size := by decide
  sort := exProgEnv_sort object
  mat := ⟨exBlkMat, rfl, by have h := exBlkMat_ok.mapNum (fun q : ℚ => (q : ℝ)); simp at h; exact h, by show exBlkMat.length ≤ 200; decide⟩
  rhs := (exBlk_vec object).1
  rows := by intro r h1 h2; interval_cases r <;> simp [exBlkEntries]
  distinct := by simp [DistinctPositions, exBlkEntries]

theorem exBlk_touched : BlocksTouched 4 exBlkEntries := by
  intro e he
  simp only [exBlkEntries, List.mem_cons, List.not_mem_nil, or_false] at he
  rcases he with rfl | rfl | rfl | rfl | rfl | rfl | rfl | rfl | rfl
  iterate 4 exact ⟨(1, 1, 4), by simp [exBlkEntries], rfl, rfl⟩
  · exact ⟨(5, 1, 1), by simp [exBlkEntries], rfl, rfl⟩
  iterate 4 exact ⟨(5, 5, 4), by simp [exBlkEntries], rfl, rfl⟩

theorem exBlk_dom : WDominant 8 (fileEntry exBlkEntries) (fun _ => 1) (1 / 4) := by
  refine ⟨fun _ _ => one_pos, fun i hi => ?_, fun i hi => ?_⟩
  · interval_cases i <;> simp [fileEntry, exBlkEntries]
  · have h := Finset.add_sum_erase (range 8) (fun j => |fileEntry exBlkEntries i j| * 1) (mem_range.mpr hi)
    rw [← eq_sub_iff_add_eq'] at h
    rw [h]
    interval_cases i <;> simp [fileEntry, exBlkEntries, Finset.sum_range_succ]

theorem exBlk_sched (object : Prec → SR ℝ → C (PrecFun ℝ)) : ProgSched (exBlkEnv object) 4 8 := ⟨fun _ _ => .swap _ _ _, fun _ _ => .refl _⟩

/-- The hypotheses of `solve_program_block_seqilu0_converges` (and with them those of `solve_program_block_ilu_converges` and `solve_program_contracting_converges`) can be met, in both storage orders. -/
example (order : String) (ho : order = "rowmajor" ∨ order = "colmajor") : ∃ m0 : Nat, ∀ maxiter : Int, m0 < maxiter → ∃ info x,
    solveMain (exBlkEnv (seqBlockIluObject id fun _ => 5)) { exBlkParams order "NONE" with maxiter := maxiter } = .ok (some (info, x, none)) ∧ info.iters ≤ m0 ∧
      x.length = 8 ∧ fileResid2 8 exBlkEntries [4, 4, 4, 4, 5, 4, 4, 4] x < (1 / 100) ^ 2 * norm2 8 [(4 : ℝ), 4, 4, 4, 5, 4, 4, 4] :=
  solve_program_block_seqilu0_converges (p := exBlkParams order "NONE") (E := exBlkEnv (seqBlockIluObject id fun _ => 5)) (isq := id) (g := fun _ => 5) rfl (exBlkFiles _ _ _) rfl real_sqrt_ok (exBlk_sched _) rfl rfl rfl ho exBlk_touched rfl rfl (f := .original)
    (by simp [factWords, exProgParams, exBlkParams]) (a := .zero) (by simp [applyWords, exProgParams, exBlkParams]) le_rfl le_rfl exBlk_dom (by norm_num) (by norm_num)
    ⟨0, by decide, by simp [get0]⟩ (by norm_num [exProgParams, exBlkParams]) rfl

/-- The hypotheses of `solve_program_block_ilu_passes` (and with them those of `solve_program_contracting_passes`) can be met. -/
example (order : String) (ho : order = "rowmajor" ∨ order = "colmajor") : ∃ tol0 > 0, ∀ tol, 0 < tol → tol ≤ tol0 → ∃ m0 : Nat, ∀ maxiter : Int, m0 < maxiter → ∃ info x v,
    solveMain (exBlkEnv (seqBlockIluObject id fun _ => 5)) { exBlkParams order "x" with tol := tol, maxiter := maxiter } = .ok (some (info, x, some v)) ∧ info.iters ≤ m0 ∧
      x.length = 8 ∧ fileResid2 8 exBlkEntries [4, 4, 4, 4, 5, 4, 4, 4] x < tol ^ 2 * norm2 8 [(4 : ℝ), 4, 4, 4, 5, 4, 4, 4] ∧
      v ^ 2 = ∑ i ∈ range 8, (x⟦i⟧ - [(1 : ℝ), 1, 1, 1, 1, 1, 1, 1]⟦i⟧) ^ 2 ∧ v < 1 / 10 :=
  solve_program_block_ilu_passes (p := exBlkParams order "x") (exBlkFiles _ _ _) rfl real_sqrt_ok (exBlk_sched _) rfl rfl rfl ho exBlk_touched rfl (by simp [iluWords, exProgParams, exBlkParams]) (f := .original)
    (by simp [factWords, exProgParams, exBlkParams]) (a := .zero) (by simp [applyWords, exProgParams, exBlkParams]) ⟨by simp [exProgParams, exBlkParams], by simp [exProgParams, exBlkParams]⟩
    (seqBlockIluObject_provides (isq := id) (g := fun _ => 5) rfl rfl true .original (by decide) le_rfl le_rfl exBlk_dom (by norm_num) _ (by decide)) exBlk_dom
    (by norm_num) (by norm_num) ⟨0, by decide, by simp [get0]⟩ (by show "x" ≠ "NONE"; decide) (exBlk_vec _).2 (by decide)
    (by intro i hi; interval_cases i <;> simp [fileEntry, exBlkEntries, Finset.sum_range_succ, get0] <;> norm_num) (by norm_num [exProgParams, exBlkParams])

end Blasted
