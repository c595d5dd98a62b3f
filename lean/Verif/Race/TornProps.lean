import Verif.Race.TornKernels
import Verif.Race.AsyncProps
import Verif.Arith.SolveProps
import Verif.Relax.Props

/-!
# C88: asynchronous block sweeps coefficient by coefficient

What C68 says of executions in which a block or a segment is loaded and stored as a whole holds of executions in which every single number is loaded and stored on its own.
-/

namespace Blasted

open Prog Finset

variable {K V R M : Type} {w : Nat}

/-! ### Factorization -/

section ilu
variable [Zero K] [Zero R] [Sub R] [Mul R] [PInvOp R] {A : SR R} {scal : Nat → Nat → R → C R} {pos : ILUPos} {e : R ≃ (Fin w → K)}

omit [Zero K] in
theorem iluComp_readView (hA : A.Full) (hS : A.Sorted) (hD : A.HasDiag) (hpos : ILUPosOk A pos) {ks : Nat} (hks : 1 ≤ ks) {x0 ex : List R} (hl0 : x0.length = A.browptr⟦A.nbrows⟧)
    (hseq : iluSweeps A scal pos ks x0 = .ok ex) :
    ex.length = A.browptr⟦A.nbrows⟧ ∧ ∀ p < A.browptr⟦A.nbrows⟧, iluComp A scal pos p (readView A.browptr⟦A.nbrows⟧ (get0 ex)) = .ok ex⟦p⟧ := by
  obtain ⟨hle, hfix⟩ := iluSweeps_fixed hA hS hD hpos hks hl0 hseq
  refine ⟨hle, fun p hp => ?_⟩
  rw [← hfix p hp]
  refine iluComp_rank hA hS hD hpos hp fun q hq _ => ?_
  unfold readView
  rw [if_pos hq, rd_eq (by omega)]

/-- **C88** for C22: the block factors of the sequential code, bit for bit, after `(2 n - 2) (2 L - 1) + L` sweeps in which no job begins before all jobs of the sweep `L` before have ended, from
any initial guess, although threads see blocks of which only some coefficients have been stored. -/
theorem torn_ilu_exact (hA : A.Full) (hS : A.Sorted) (hD : A.HasDiag) (hpos : computeILUPositions A = .ok pos)
    {ks : Nat} (hks : 1 ≤ ks) {x0 ex : List R} (hl0 : x0.length = A.browptr⟦A.nbrows⟧) (hseq : iluSweeps A scal pos ks x0 = .ok ex) {L s : Nat} (hL : 1 ≤ L)
    (hs : (2 * A.nbrows - 2) * (2 * L - 1) + L ≤ s) {x : List R} (hl : x.length = A.browptr⟦A.nbrows⟧) {m : List K}
    (h : TornExec (Lag A.browptr⟦A.nbrows⟧ L) A.browptr⟦A.nbrows⟧ (s * A.browptr⟦A.nbrows⟧) w (iluCompT e A scal pos) (flat e x) m) : m = flat e ex := by
  obtain ⟨pos', h1, hposOk⟩ := compute_ILU_positions_correct A hA hS hD
  rw [hpos] at h1; cases h1
  obtain ⟨hle, hfix⟩ := iluComp_readView hA hS hD hposOk hks hl0 hseq
  exact h.exact (tornKernel_ilu e scal _) hle hfix (rank := iluRank A) (fun i hi j _ hd => facDep_rank hA hD hposOk hi hd) hL (k := 2 * A.nbrows - 1) (fun i hi => iluRank_lt hA hi)
    (fun _ => by rw [show 2 * A.nbrows - 1 - 1 = 2 * A.nbrows - 2 by omega]; exact hs) hl

/-- **C88** for C21: the factors of the sequential code are unchanged by any execution, however late any thread is. -/
theorem torn_ilu_fixed (hA : A.Full) (hS : A.Sorted) (hD : A.HasDiag) (hpos : computeILUPositions A = .ok pos)
    {ks : Nat} (hks : 1 ≤ ks) {x0 ex : List R} (hl0 : x0.length = A.browptr⟦A.nbrows⟧) (hseq : iluSweeps A scal pos ks x0 = .ok ex) {G : Nat → Nat → Prop} {N : Nat} {m : List K}
    (h : TornExec G A.browptr⟦A.nbrows⟧ N w (iluCompT e A scal pos) (flat e ex) m) : m = flat e ex := by
  obtain ⟨pos', h1, hposOk⟩ := compute_ILU_positions_correct A hA hS hD
  rw [hpos] at h1; cases h1
  obtain ⟨hle, hfix⟩ := iluComp_readView hA hS hD hposOk hks hl0 hseq
  exact h.fixed (tornKernel_ilu e scal _) hle hfix

end ilu

/-! ### Triangular solves -/

theorem flat_inj [Zero K] [Zero V] {e : V ≃ (Fin w → K)} {x y : List V} (hl : x.length = y.length) (h : flat e x = flat e y) : x = y := by
  refine ext_get0 hl fun i hi => e.injective (funext fun a => ?_)
  rw [← flat_get e x hi a, ← flat_get e y (by omega) a, h]

/-- An asynchronous triangular solve at the granularity of coefficients. -/
theorem RowUpd.torn [Zero K] [Zero M] {e : M ≃ (Fin w → K)} {upd : Nat → (Nat → C M) → C M} {n : Nat} {D : Nat → Nat → Prop} {f : Nat → (Nat → M) → M} (h : RowUpd upd n D f)
    {p : Nat → Prog K (Fin w → K)} (hp : TornKernel e n D p upd) (hex : ∃ ex : Nat → M, ∀ i < n, ex i = f i ex) {rank : Nat → Nat}
    (hrank : ∀ i < n, ∀ j < n, D i j → rank j < rank i) (hlt : ∀ i < n, rank i < n) {L s : Nat} (hL : 1 ≤ L) (hs : (n - 1) * (2 * L - 1) + L ≤ s) {x x' : List M} (hx : x.length = n)
    (hx' : x'.length = n) (ha : TornExec (Lag n L) n (s * n) w p (flat e x) (flat e x')) : ∀ i < n, x'⟦i⟧ = f i (get0 x') := by
  obtain ⟨ex, he⟩ := hex
  have hg : ∀ i < n, ((List.range n).map ex)⟦i⟧ = ex i := fun i hi => get0_map_range ex hi
  have hfe : ∀ i < n, f i (get0 ((List.range n).map ex)) = ((List.range n).map ex)⟦i⟧ := fun i hi => by
    rw [hg i hi, he i hi]
    exact h.dep i hi _ _ fun j hj _ => hg j hj
  have heq := flat_inj (by simp [hx']) (ha.exact hp (ex := (List.range n).map ex) (by simp)
    (fun i hi => (h.eval i hi _ (get0 ((List.range n).map ex)) fun j hj => if_pos hj).trans (by rw [hfe i hi])) hrank hL hlt (fun _ => hs) hx)
  intro i hi
  rw [heq, hfe i hi]

/-- `block_ilu0_apply` with threads, `src/solverops_ilu0.cpp` lines 240-321, with both triangular solves coefficient by coefficient; otherwise as `AsyncIluExec`. -/
def TornIluExec [Zero M] (e : M ≃ (Fin w → K)) (lower upper : List M → Nat → Prog K (Fin w → K)) (n : Nat) (G : Nat → Nat → Prop) (scale : Option (Nat → M → C M)) (s : Nat) (init : ApplyInit)
    (ord : Nat → List Nat) (r z y z' y' : List M) : Prop :=
  ∃ z₁ y₁ z₂ z₃, applyScaleIn n scale (ord 0) r z = .ok z₁ ∧ applyInitY n init (ord 1) y = .ok y₁ ∧
    y'.length = n ∧ TornExec G n (s * n) w (lower z₁) (flat e y₁) (flat e y') ∧ applyInitZ n init (ord 2) y' z₁ = .ok z₂ ∧
    z₃.length = n ∧ TornExec G n (s * n) w (upper y') (flat e z₂) (flat e z₃) ∧ applyScaleOut n scale (ord 3) z₃ = .ok z'

section solves

/-- **C88** for C27: the application of the block ILU preconditioner gives the result of the sequential code, bit for bit, after `(n - 1) (2 L - 1) + L` sweeps in each of the two triangular
solves, although threads see segments of which only some coefficients have been stored. -/
theorem torn_block_ilu_apply [Zero K] [Zero R] [Zero M] [Add M] [Sub M] [SMul R M] {e : M ≃ (Fin w → K)} {A : SR V} {m : Nat} (hA : A.Full m) (hS : A.Sorted) (hD : A.HasDiag) {ilu : List R}
    (hl : ilu.length = A.browptr⟦A.nbrows⟧) {scale : Option (Nat → M → C M)} {S : Nat → M → M} (hsc : SegOk scale S A.nbrows)
    {L s : Nat} (hL : 1 ≤ L) (hs : (A.nbrows - 1) * (2 * L - 1) + L ≤ s) {init : ApplyInit} (hi : init ≠ .none) {ord : Nat → List Nat}
    (hord : ∀ t, (ord t).Perm (List.range A.nbrows)) {r z y z' y' : List M} (hr : r.length = A.nbrows) (hz : z.length = A.nbrows) (hy : y.length = A.nbrows)
    (h : TornIluExec e (unitLowerT e A ilu) (blockUpperT e A ilu) A.nbrows (Lag A.nbrows L) scale s init ord r z y z' y') :
    ∃ y'', iluApplyWith (unitLowerRow A ilu) (blockUpperRow A ilu) A.nbrows scale 1 init ord r z y = .ok (z', y'') := by
  have hlo := triAny_unitLower (M := M) hA hS hD hl
  have hup := triAny_blockUpper (M := M) hA hS hD hl
  have hDL : ∀ i j, LowDep A i j → j < i := fun _ _ h => h.2
  have hDU : ∀ i j, UpDep A i j → i < j := fun _ _ h => h.2
  obtain ⟨z₁, y₁, z₂, z₃, e1, e2, hy2, h3, e4, hz3, h5, e6⟩ := h
  have h1 := (applyScaleIn_ok hsc (hord 0) hr hz).post _ e1
  have hy1 := (applyInitY_ok init (hord 1) hy).post _ e2
  have hz2 := (applyInitZ_ok hi (hord 2) hy2 h1.1).post _ e4
  have h6 := (applyScaleOut_ok hsc (hord 3) hz3).post _ e6
  have hf := (hlo.upd z₁ h1.1).torn (tornKernel_unitLower e hS hD ilu z₁) ((hlo.upd z₁ h1.1).exists_fwd hDL) (rank := fun i => i) (fun _ _ _ _ h => h.2) (fun i hi => hi) hL hs hy1 hy2 h3
  have hg := (hup.upd y' hy2).torn (tornKernel_blockUpper e hS hD ilu y') ((hup.upd y' hy2).exists_bwd hDU) (rank := fun i => A.nbrows - 1 - i)
    (fun i hi j hj h => by have := h.2; omega) (fun i hi => by omega) hL hs hz2 hz3 h5
  have hsol : IluSolved (fun b i x => b i - lowAdd A ilu i x) (fun b i x => ilu⟦A.diagind⟦i⟧⟧ • (b i - upAdd A ilu i x)) S A.nbrows r z' := IluSolved.of hlo h1.2 hf hg h6.1 h6.2
  obtain ⟨⟨x, v⟩, g1, -, hx⟩ := iluApplyWith_ok hlo hup hDL hDU hsc (Nat.le_refl 1) hi hord hr hz hy
  rw [hsol.unique_any hlo hup hDL hDU hx]
  exact ⟨v, g1⟩

/-- `apply` of the block SGS preconditioner with threads, `src/solverops_sgs.cpp` lines 48-83, with the backward sweeps coefficient by coefficient; otherwise as `AsyncSgsExec`. -/
def TornSgsExec [Zero M] [Add M] [Sub M] [SMul R M] (e : M ≃ (Fin w → K)) (A : SR R) (dinv : List R) (G : Nat → Nat → Prop) (s : Nat) (init : ApplyInit) (ord : Nat → List Nat)
    (r z y z' y' : List M) : Prop :=
  ∃ y₁ z₁, sgsInitY A.nbrows init (ord 0) y = .ok y₁ ∧ fwdSweeps (fgsRow A dinv r) A.nbrows s y₁ = .ok y' ∧
    sgsInitZ A.nbrows init (ord 1) y' z = .ok z₁ ∧ z'.length = A.nbrows ∧ TornExec G A.nbrows (s * A.nbrows) w (bgsT e A dinv y') (flat e z₁) (flat e z')

/-- **C88** for C31: the application of the block SGS preconditioner. -/
theorem torn_sgs_apply [Zero K] [Zero R] [Zero M] [Add M] [Sub M] [SMul R M] {e : M ≃ (Fin w → K)} {A : SR R} {dinv : List R} (hA : A.Full) (hS : A.Sorted) (hD : A.HasDiag)
    (hd : dinv.length = A.nbrows) {L s : Nat} (hL : 1 ≤ L) (hs : (A.nbrows - 1) * (2 * L - 1) + L ≤ s) {init : ApplyInit} {ord : Nat → List Nat}
    (hord : ∀ t, (ord t).Perm (List.range A.nbrows)) {r z y z' y' : List M} (hr : r.length = A.nbrows) (hz : z.length = A.nbrows) (hy : y.length = A.nbrows)
    (h : TornSgsExec e A dinv (Lag A.nbrows L) s init ord r z y z' y') : ∃ y'', sgsApply A dinv 1 init ord r z y = .ok (z', y'') := by
  obtain ⟨y₁, z₁, e1, e2, e3, hz2, h4⟩ := h
  have hf := triAny_fgs (M := M) hA hS hD hd
  have hg := triAny_bgs (M := M) hA hS hD hd
  have hDL : ∀ i j, LowDep A i j → j < i := fun _ _ h => h.2
  have hDU : ∀ i j, UpDep A i j → i < j := fun _ _ h => h.2
  have hs1 : 1 ≤ s := by omega
  have hy1 := (applyInitY_ok init (hord 0) hy).post _ e1
  have hy2 := ((hf.upd r hr).fwd hDL hs1 hy1).post _ e2
  have hz1 := (sgsInitZ_ok init (hord 1) hy2.1 hz).post _ e3
  have hz3 := (hg.upd y' hy2.1).torn (tornKernel_bgs e hS hD dinv y') ((hg.upd y' hy2.1).exists_bwd hDU) (rank := fun i => A.nbrows - 1 - i)
    (fun i hi j hj h => by have := h.2; omega) (fun i hi => by omega) hL hs hz1 hz2 h4
  obtain ⟨y₂, e5, hy5⟩ := (hf.upd r hr).fwd hDL (Nat.le_refl 1) hy1
  have heq : y₂ = y' := ext_get0 (by omega) fun i hi => fwd_unique hDL (hf.upd r hr).dep hy5.2 hy2.2 i (by omega)
  subst heq
  obtain ⟨z₄, e6, hz4⟩ := (hg.upd y₂ hy2.1).bwd hDU (Nat.le_refl 1) hz1
  have heq : z₄ = z' := ext_get0 (by omega) fun i hi => bwd_unique hDU (hg.upd y₂ hy2.1).dep hz4.2 hz3 i (by omega)
  subst heq
  refine ⟨y₂, ?_⟩
  unfold sgsApply
  rw [e1, ok_bind, e5, ok_bind, e3, ok_bind, e6, ok_bind]

end solves

/-! ### Relaxation -/

/-- **C88** for C36: a solution of the linear system is unchanged by any execution of the chaotic relaxation, however late any thread is. -/
theorem torn_relax_fixed [Zero K] [Ring R] [AddCommGroup M] [Module R M] {e : M ≃ (Fin w → K)} {A : SR R} {dinv : List R} {b : List M} (hA : A.Full) (hS : A.Sorted) (hD : A.HasDiag)
    (hI : DiagInv A dinv) (hb : b.length = A.nbrows) {x : List M} (hx : x.length = A.nbrows) (hsol : Solves A b (get0 x)) {G : Nat → Nat → Prop} {N : Nat} {m : List K}
    (h : TornExec G A.nbrows N w (relaxT e A dinv b) (flat e x) m) : m = flat e x :=
  h.fixed (tornKernel_relax e A dinv b) hx fun i hi =>
    ((rowUpd_relaxVal hA hS hD hI hb).eval i hi _ (get0 x) fun j hj => if_pos hj).trans (by rw [← (solves_iff hI).mp hsol i hi])

/-- Dominance that does not depend on how the product of a row of the inverse diagonal block with a block is added up: with positive weights `v` of the unknowns,
`∑_j |D_i^-1| |A_ij| v_j ≤ rho v_i` in every component. -/
def AbsBlockDominant [Field K] [LinearOrder K] (A : SR (Matrix (Fin w) (Fin w) K)) (dinv : List (Matrix (Fin w) (Fin w) K)) (v : Nat → Fin w → K) (rho : K) : Prop :=
  ∀ i < A.nbrows, ∀ a : Fin w, ∑ d, |dinv⟦i⟧ a d| * ∑ j ∈ (range A.nbrows).erase i, ∑ c, |A.entry i j d c| * v j c ≤ rho * v i a

section order
variable [Field K] [LinearOrder K] [IsStrictOrderedRing K]

omit [Field K] [LinearOrder K] [IsStrictOrderedRing K] in
/-- A sum over the stored entries of a row other than the one on the diagonal. -/
theorem sum_stored {V N : Type} [AddCommMonoid V] [AddCommMonoid N] {A : SR V} (hA : A.Full) (hS : A.Sorted) (hD : A.HasDiag) {i : Nat} (hi : i < A.nbrows) (g : V → Nat → N)
    (hg : ∀ j, g 0 j = 0) :
    ∑ k ∈ Ico A.browptr⟦i⟧ A.diagind⟦i⟧, g A.vals⟦k⟧ A.bcolind⟦k⟧ + ∑ k ∈ Ico (A.diagind⟦i⟧ + 1) A.browptr⟦i + 1⟧, g A.vals⟦k⟧ A.bcolind⟦k⟧ =
      ∑ j ∈ (range A.nbrows).erase i, g (A.entry i j) j := by
  have hstep : ∀ k ∈ Ico A.browptr⟦i⟧ A.browptr⟦i + 1⟧, g A.vals⟦k⟧ A.bcolind⟦k⟧ = g (A.entry i A.bcolind⟦k⟧) A.bcolind⟦k⟧ := fun k hk => by
    rw [hA.entry_stored hS hi (mem_Ico.mp hk)]
  have hlo := hD.diag_ge i hi
  have hhi := hD.diag_lt i hi
  have hunion : (Ico A.browptr⟦i⟧ A.browptr⟦i + 1⟧).erase A.diagind⟦i⟧ = Ico A.browptr⟦i⟧ A.diagind⟦i⟧ ∪ Ico (A.diagind⟦i⟧ + 1) A.browptr⟦i + 1⟧ := by
    ext k
    simp only [mem_erase, mem_Ico, mem_union]
    omega
  rw [← sum_union (disjoint_left.mpr fun k h1 h2 => by rw [mem_Ico] at h1 h2; omega), ← hunion, sum_congr rfl fun k hk => hstep k (mem_of_mem_erase hk)]
  have hinj : Set.InjOn (fun k => A.bcolind⟦k⟧) ((Ico A.browptr⟦i⟧ A.browptr⟦i + 1⟧).erase A.diagind⟦i⟧ : Finset Nat) := fun k hk l hl h =>
    hS.inj hi (mem_Ico.mp (mem_of_mem_erase (mem_coe.mp hk))) (mem_Ico.mp (mem_of_mem_erase (mem_coe.mp hl))) h
  rw [← sum_image (f := fun j => g (A.entry i j) j) hinj]
  refine sum_subset (fun j hj => ?_) fun j hj hno => ?_
  · obtain ⟨k, hk, rfl⟩ := mem_image.mp hj
    obtain ⟨hne, hk⟩ := mem_erase.mp hk
    refine mem_erase.mpr ⟨fun h => hne (hS.inj hi (mem_Ico.mp hk) (hD.inRow hi) (h.trans (hD.diag_col i hi).symm)), mem_range.mpr ?_⟩
    exact hA.col_lt k (hA.lt_nnz hi (mem_Ico.mp hk).2)
  · rw [hA.entry_unstored hi fun k hk h => hno ?_, hg]
    refine mem_image.mpr ⟨k, mem_erase.mpr ⟨fun he => ?_, mem_Ico.mpr hk⟩, h⟩
    rw [he, hD.diag_col i hi] at h
    exact (mem_erase.mp hj).1 h.symm

open scoped Matrix.Module

variable {A : SR (Matrix (Fin w) (Fin w) K)} {dinv : List (Matrix (Fin w) (Fin w) K)} {b : List (Fin w → K)}

/-- A sum of products with segments of which every coefficient is near the one of `X`. -/
theorem all_rowSumT {n : Nat} {S : Nat → Set K} {J : Prop} {X v : Nat → Fin w → K} {E : K} (hS : ∀ j < n, ∀ c : Fin w, ∀ u ∈ S (j * w + c), |u - X j c| ≤ E * v j c)
    {colind : List Nat} {vals : List (Matrix (Fin w) (Fin w) K)} {lo hi : Nat} (hle : lo ≤ hi) (h1 : hi ≤ colind.length) (h2 : hi ≤ vals.length) (hc : ∀ k, lo ≤ k → k < hi → colind⟦k⟧ < n)
    {s t F : Fin w → K} (h0 : ∀ d, |s d - t d| ≤ F d) :
    (rowSumT (Equiv.refl (Fin w → K)) colind vals lo hi s).All S J fun s' => ∀ d,
      |s' d - (t d + ∑ k ∈ Ico lo hi, (vals⟦k⟧ • X colind⟦k⟧) d)| ≤ F d + ∑ k ∈ Ico lo hi, ∑ c, |vals⟦k⟧ d c| * (E * v colind⟦k⟧ c) := by
  unfold rowSumT
  refine all_forRange (P := fun jj (s' : Fin w → K) => ∀ d,
      |s' d - (t d + ∑ k ∈ Ico lo jj, (vals⟦k⟧ • X colind⟦k⟧) d)| ≤ F d + ∑ k ∈ Ico lo jj, ∑ c, |vals⟦k⟧ d c| * (E * v colind⟦k⟧ c)) hle ?_ (by simpa using h0)
  intro jj g1 g2 s' hs'
  rw [rd_eq (by omega), rd_eq (by omega)]
  refine all_coefP (P := fun y => ∃ x : Fin w → K, (∀ c, |x c - X colind⟦jj⟧ c| ≤ E * v colind⟦jj⟧ c) ∧ y = s' + vals⟦jj⟧ • x) ?_ ?_
  · refine (all_loadP (P := fun x : Fin w → K => ∀ c, |x c - X colind⟦jj⟧ c| ≤ E * v colind⟦jj⟧ c) fun x hx c => ?_).do fun x hx => ?_
    · exact hS _ (hc jj g1 g2) c _ (hx c)
    · exact ⟨x, hx, rfl⟩
  · intro y hy d
    obtain ⟨_, ⟨x, hx, rfl⟩, hyd⟩ := hy d
    simp only [Equiv.refl_apply] at hyd
    have e1 : (vals⟦jj⟧ • x) d = ∑ c, vals⟦jj⟧ d c * x c := rfl
    have e2 : (vals⟦jj⟧ • X colind⟦jj⟧) d = ∑ c, vals⟦jj⟧ d c * X colind⟦jj⟧ c := rfl
    rw [hyd, Pi.add_apply, sum_Ico_succ_top g1, sum_Ico_succ_top g1, e1, e2,
      show ∀ p q r S' T : K, p + q - (T + (S' + r)) = (p - (T + S')) + (q - r) from fun _ _ _ _ _ => by ring, ← add_assoc]
    refine (abs_add_le _ _).trans (add_le_add (hs' d) ?_)
    rw [← sum_sub_distrib]
    refine (abs_sum_le_sum_abs _ _).trans (sum_le_sum fun c _ => ?_)
    rw [← mul_sub, abs_mul]
    exact mul_le_mul_of_nonneg_left (hx c) (abs_nonneg _)

/-- One update from values near the solution. -/
theorem all_relaxT (hA : A.Full) (hS : A.Sorted) (hD : A.HasDiag) (hI : DiagInv A dinv) (hb : b.length = A.nbrows) {X v : Nat → Fin w → K} {rho E : K} (hdom : AbsBlockDominant A dinv v rho)
    (hsol : Solves A b X) (hE : 0 ≤ E) {S : Nat → Set K} {J : Prop} (hv : ∀ j < A.nbrows, ∀ c : Fin w, ∀ u ∈ S (j * w + c), |u - X j c| ≤ E * v j c) {i : Nat} (hi : i < A.nbrows) :
    (relaxT (Equiv.refl (Fin w → K)) A dinv b i).All S J fun y => ∀ a, |y a - X i a| ≤ rho * E * v i a := by
  have h1 := hA.ptr_len
  have h2 := hD.diag_len
  have h3 := hI.len
  have hlo := hD.diag_ge i hi
  have hhi := hD.diag_lt i hi
  have hnz := hA.ptr_le (show i + 1 ≤ A.nbrows by omega)
  have h4 := hA.ind_len
  have h5 := hA.val_len
  unfold relaxT
  rw [rd_eq (by omega), rd_eq (by omega), rd_eq (by omega), rd_eq (by omega), rd_eq (by omega)]
  refine (all_rowSumT (n := A.nbrows) hv hlo (by omega) (by omega) (fun k g1 g2 => hA.col_lt k (by omega)) (s := 0) (t := 0) (F := 0) (by simp)).do fun s hs => ?_
  refine (all_rowSumT (n := A.nbrows) hv (show A.diagind⟦i⟧ + 1 ≤ A.browptr⟦i + 1⟧ by omega) (by omega) (by omega) (fun k g1 g2 => hA.col_lt k (by omega)) hs).do fun s' hs' => ?_
  show ∀ a, |(dinv⟦i⟧ • (b⟦i⟧ - s')) a - X i a| ≤ rho * E * v i a
  intro a
  have hfix := congrFun ((solves_iff hI).mp hsol i hi) a
  have hsum : ∀ d, |s' d - (∑ j ∈ (range A.nbrows).erase i, A.entry i j • X j) d| ≤ ∑ j ∈ (range A.nbrows).erase i, ∑ c, |A.entry i j d c| * (E * v j c) := fun d => by
    have := hs' d
    simp only [Pi.zero_apply, zero_add] at this
    rw [sum_stored hA hS hD hi (fun (V : Matrix (Fin w) (Fin w) K) j => (V • X j) d) (fun j => by rw [zero_smul]; rfl),
      sum_stored hA hS hD hi (fun (V : Matrix (Fin w) (Fin w) K) j => ∑ c, |V d c| * (E * v j c)) (fun j => by simp)] at this
    rwa [Finset.sum_apply]
  rw [hfix]
  unfold relaxVal
  rw [← Pi.sub_apply, ← smul_sub, sub_sub_sub_cancel_left]
  have e1 : (dinv⟦i⟧ • (∑ j ∈ (range A.nbrows).erase i, A.entry i j • X j - s')) a = ∑ d, dinv⟦i⟧ a d * ((∑ j ∈ (range A.nbrows).erase i, A.entry i j • X j) d - s' d) := rfl
  rw [e1]
  calc |∑ d, dinv⟦i⟧ a d * ((∑ j ∈ (range A.nbrows).erase i, A.entry i j • X j) d - s' d)|
      ≤ ∑ d, |dinv⟦i⟧ a d| * ∑ j ∈ (range A.nbrows).erase i, ∑ c, |A.entry i j d c| * (E * v j c) := by
        refine (abs_sum_le_sum_abs _ _).trans (sum_le_sum fun d _ => ?_)
        rw [abs_mul, abs_sub_comm]
        exact mul_le_mul_of_nonneg_left (hsum d) (abs_nonneg _)
    _ = E * ∑ d, |dinv⟦i⟧ a d| * ∑ j ∈ (range A.nbrows).erase i, ∑ c, |A.entry i j d c| * v j c := by
        rw [mul_sum]
        refine sum_congr rfl fun d _ => ?_
        rw [mul_left_comm, mul_sum (a := E)]
        refine congrArg _ (sum_congr rfl fun j _ => ?_)
        rw [mul_sum]
        exact sum_congr rfl fun c _ => by ring
    _ ≤ E * (rho * v i a) := mul_le_mul_of_nonneg_left (hdom i hi a) hE
    _ = rho * E * v i a := by ring

/-- **C88** for C37 and C76: every `2 L - 1` sweeps of the chaotic block relaxation multiply the largest weighted error by at most `rho`, although threads see segments of which only some
coefficients have been stored, and although the coefficients of one product may be computed from different versions of a segment. -/
theorem torn_relax_converges (hA : A.Full) (hS : A.Sorted) (hD : A.HasDiag) (hI : DiagInv A dinv) (hb : b.length = A.nbrows) {v : Nat → Fin w → K} {rho E : K} (hdom : AbsBlockDominant A dinv v rho)
    (hpos : ∀ i a, 0 ≤ v i a) (hr : 0 ≤ rho) (hr1 : rho ≤ 1) {sol : Nat → Fin w → K} (hsol : Solves A b sol) {x : List (Fin w → K)} (hx : x.length = A.nbrows) (hE : 0 ≤ E)
    (h0 : ∀ i < A.nbrows, ∀ a, |x⟦i⟧ a - sol i a| ≤ E * v i a) {L k s : Nat} (hL : 1 ≤ L) (hk : 1 ≤ k) (hs : (k - 1) * (2 * L - 1) + L ≤ s) {m : List K}
    (h : TornExec (Lag A.nbrows L) A.nbrows (s * A.nbrows) w (relaxT (Equiv.refl (Fin w → K)) A dinv b) (flat (Equiv.refl _) x) m) :
    ∀ i < A.nbrows, ∀ a : Fin w, |m⟦i * w + a⟧ - sol i a| ≤ rho ^ k * E * v i a := by
  have hm : (flat (Equiv.refl (Fin w → K)) x).length = A.nbrows * w := by rw [flat_length, hx]
  have key := h.rounds (Q := fun r c => {u | ∀ a : Fin w, c = c / w * w + a → |u - sol (c / w) a| ≤ rho ^ r * E * v (c / w) a}) hL hk hs hm ?_ ?_ ?_
  · intro i hi a
    have := key.2 (i * w + a) (tcell_lt hi a)
    simp only [tcell_div, Set.mem_ofPred_eq] at this
    exact this a rfl
  · intro r r' c _ hrr u hu a hc
    refine (hu a hc).trans (mul_le_mul_of_nonneg_right (mul_le_mul_of_nonneg_right (pow_le_pow_of_le_one hr hr1 hrr) hE) (hpos _ _))
  · intro c hc a hca
    rw [hca, tcell_div, flat_get _ _ (by rw [hx]; exact div_cell_lt hc)]
    simpa using h0 _ (div_cell_lt hc) a
  · intro r i hi
    refine (all_relaxT hA hS hD hI hb hdom hsol (E := rho ^ r * E) (mul_nonneg (pow_nonneg hr _) hE) ?_ hi).imp fun y hy a => ?_
    · intro j hj c u hu
      simp only [tcell_div, Set.mem_ofPred_eq] at hu
      exact hu c rfl
    · simp only [tcell_div, Set.mem_ofPred_eq]
      intro a' haa
      rw [← tcell_inj haa, pow_succ]
      refine (hy a).trans (le_of_eq ?_)
      ring

end order

end Blasted
