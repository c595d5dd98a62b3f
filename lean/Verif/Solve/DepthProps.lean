import Verif.ILU.AsyncProps
import Verif.Levels.Props
import Verif.Solve.IluProps
import Verif.Solve.SgsProps

/-!
# Asynchronous sweeps and the depth of the pattern (C77)

The specification is a depth function on the rows, `DepthOk`: rows that a row depends on in a forward substitution have smaller depth, rows that it depends on in a
backward substitution have larger depth. The index of the level of a level schedule is one.
-/

namespace Blasted

open Finset

variable {V R M K : Type}

/-- Every stored off-diagonal entry joins rows of different depth, the later row being deeper; all depths are below `L`. -/
structure DepthOk (A : SR V) (depth : Nat → Nat) (L : Nat) : Prop where
  low : ∀ i < A.nbrows, ∀ j < A.nbrows, LowDep A i j → depth j < depth i
  up : ∀ i < A.nbrows, ∀ j < A.nbrows, UpDep A i j → depth i < depth j
  lt : ∀ i < A.nbrows, depth i < L

/-- The number of the row is a depth. -/
theorem depthOk_id (A : SR V) : DepthOk A id A.nbrows :=
  ⟨fun _ _ _ _ h => h.2, fun _ _ _ _ h => h.2, fun _ hi => hi⟩

/-- The index of the level that contains row `i`. -/
noncomputable def levelOf (levels : List Nat) (i : Nat) : Nat := sSup {t | t + 1 < levels.length ∧ levels⟦t⟧ ≤ i}

theorem levelOf_spec {A : SR V} {levels : List Nat} (hL : LevelsOk A levels) {i : Nat} (hi : i < A.nbrows) :
    levelOf levels i + 1 < levels.length ∧ levels⟦levelOf levels i⟧ ≤ i ∧ i < levels⟦levelOf levels i + 1⟧ := by
  have h2 : 2 ≤ levels.length := by
    by_contra hc
    have h1 := hL.pos
    have h3 : levels.length - 1 = 0 := by omega
    have := hL.last
    rw [h3, hL.zero] at this
    omega
  have hbdd : BddAbove {t | t + 1 < levels.length ∧ levels⟦t⟧ ≤ i} := ⟨levels.length, fun t ht => by have := ht.1; omega⟩
  have hmem : levelOf levels i ∈ {t | t + 1 < levels.length ∧ levels⟦t⟧ ≤ i} :=
    Nat.sSup_mem ⟨0, by omega, by rw [hL.zero]; omega⟩ hbdd
  refine ⟨hmem.1, hmem.2, ?_⟩
  by_contra hc
  rcases Nat.lt_or_ge (levelOf levels i + 1 + 1) levels.length with h | h
  · have : levelOf levels i + 1 ≤ levelOf levels i := le_csSup hbdd ⟨h, by omega⟩
    omega
  · have h3 : levelOf levels i + 1 = levels.length - 1 := by have := hmem.1; omega
    rw [h3, hL.last] at hc
    omega

theorem levelOf_mono {A : SR V} {levels : List Nat} (hL : LevelsOk A levels) {i j : Nat} (hij : i ≤ j) (hj : j < A.nbrows) :
    levelOf levels i ≤ levelOf levels j := by
  obtain ⟨h1, h2, h3⟩ := levelOf_spec hL (show i < A.nbrows by omega)
  obtain ⟨g1, g2, g3⟩ := levelOf_spec hL hj
  by_contra hc
  have := hL.le (s := levelOf levels j + 1) (t := levelOf levels i) (by omega) (by omega)
  omega

/-- The levels of a level schedule are a depth, below the number of levels. -/
theorem LevelsOk.depthOk {A : SR V} {levels : List Nat} (hL : LevelsOk A levels) : DepthOk A (levelOf levels) (levels.length - 1) := by
  have key : ∀ i < A.nbrows, ∀ j < A.nbrows, Nbr A i j → i ≠ j → levelOf levels i ≠ levelOf levels j := by
    intro i hi j hj hn hne he
    obtain ⟨h1, h2, h3⟩ := levelOf_spec hL hi
    obtain ⟨g1, g2, g3⟩ := levelOf_spec hL hj
    rw [← he] at g2 g3
    exact hne (hL.indep _ h1 i j h2 h3 g2 g3 hn)
  refine ⟨fun i hi j hj h => ?_, fun i hi j hj h => ?_, fun i hi => ?_⟩
  · have h1 := levelOf_mono hL h.2.le hi
    have h2 := key i hi j hj h.1 (by have := h.2; omega)
    omega
  · have h1 := levelOf_mono hL h.2.le hj
    have h2 := key i hi j hj h.1 (by have := h.2; omega)
    omega
  · have := (levelOf_spec hL hi).1
    omega

/-! ### The factorization -/

section factorization
variable [Ring R] [PInv R] {A : SR R} {scal : Nat → Nat → R → C R} {pos : ILUPos} {S : Nat → Nat → R} {mix : Set R → Set R}

/-- The length of the chain of dependencies that ends in entry `p`, in terms of the depth of rows. -/
def depthRank (A : SR V) (depth : Nat → Nat) (p : Nat) : Nat :=
  if A.bcolind⟦p⟧ < A.rowOf p then 2 * depth A.bcolind⟦p⟧ + 1 else 2 * depth (A.rowOf p)

theorem depthRank_lt {A : SR V} {m : Nat} (hA : A.Full m) {depth : Nat → Nat} {L : Nat} (hd : DepthOk A depth L) {p : Nat}
    (hp : p < A.browptr⟦A.nbrows⟧) : depthRank A depth p < 2 * L - 1 := by
  obtain ⟨h1, h2⟩ := hA.rowOf_spec hp
  have h3 := hd.lt _ h1
  unfold depthRank
  split
  · rename_i h4
    have := hd.low _ h1 A.bcolind⟦p⟧ (by omega) ⟨⟨p, h2, rfl⟩, h4⟩
    omega
  · omega

theorem iluComp_exact_depth (hA : A.Full) (hS : A.Sorted) (hD : A.HasDiag) (hpos : ILUPosOk A pos)
    (hscal : Scales A scal S) {depth : Nat → Nat} {L : Nat} (hd : DepthOk A depth L) {ex : List R} (hl : ex.length = A.browptr⟦A.nbrows⟧)
    (he : ExactILU A S ex) (hpv : UsedPivotsOk A ex) {p : Nat} (hp : p < A.browptr⟦A.nbrows⟧)
    {view : Nat → R}
    (hv : ∀ q < A.browptr⟦A.nbrows⟧, depthRank A depth q < depthRank A depth p → view q = ex⟦q⟧) :
    iluComp A scal pos p (readView A.browptr⟦A.nbrows⟧ view) = .ok ex⟦p⟧ := by
  obtain ⟨hi, hrow⟩ := hA.rowOf_spec hp
  have hfix := (iluComp_fix_iff hA hS hD hpos (hscal.scalOk hA) hl hp).mpr (exact_pos hA he hpv p hp)
  rw [iluComp_view hA hS hD hpos (hscal.scalOk hA) hp (g := get0 ex) (fun q hq => rd_eq (by omega))] at hfix
  rw [iluComp_view hA hS hD hpos (hscal.scalOk hA) hp (g := view) (fun q hq => by
    unfold readView; rw [if_pos (by omega)])]
  rw [← hfix]
  have hc := hA.col_lt p hp
  have hsum : posSum pos view p = posSum pos (get0 ex) p := by
    unfold posSum
    refine sum_congr rfl fun t ht => ?_
    rw [mem_Ico] at ht
    obtain ⟨k, hk, h3, h4, h5, h6⟩ := hpos.sound _ hi p hrow t ht.1 ht.2
    have hki : k < A.rowOf p := lt_of_lt_of_le hk (min_le_left _ _)
    have hkj : k < A.bcolind⟦p⟧ := lt_of_lt_of_le hk (min_le_right _ _)
    have hkn : k < A.nbrows := by omega
    have d1 : depth k < depth (A.rowOf p) := hd.low _ hi k hkn ⟨⟨_, h3, h4⟩, hki⟩
    have d2 : depth k < depth A.bcolind⟦p⟧ := hd.up _ hkn _ hc ⟨⟨_, h5, h6⟩, hkj⟩
    have r1 : depthRank A depth pos.lowerp⟦t⟧ < depthRank A depth p := by
      unfold depthRank
      rw [hA.rowOf_eq hi h3, h4, if_pos hki]
      split <;> omega
    have r2 : depthRank A depth pos.upperp⟦t⟧ < depthRank A depth p := by
      unfold depthRank
      rw [hA.rowOf_eq hkn h5, h6, if_neg (by omega)]
      split <;> omega
    rw [hv _ (hA.lt_nnz hi h3.2) r1, hv _ (hA.lt_nnz hkn h5.2) r2]
  unfold facVal
  rw [hsum]
  by_cases hlow : A.bcolind⟦p⟧ < A.rowOf p
  · have hdr := hD.inRow hc
    have r3 : depthRank A depth A.diagind⟦A.bcolind⟦p⟧⟧ < depthRank A depth p := by
      unfold depthRank
      rw [hA.rowOf_eq hc hdr, hD.diag_col _ hc, if_neg (by omega), if_pos hlow]
      omega
    rw [if_pos hlow, if_pos hlow, hv _ (hA.lt_nnz hc hdr.2) r3]
  · rw [if_neg hlow, if_neg hlow]

/-- **C77** If the rows have depths below `L`, `2 L - 1` overlapping asynchronous rounds give the sequential factors, whatever the initial guess, schedule and
staleness: scalars and blocks. -/
theorem async_ilu_depth (hm : MixOk mix) (hA : A.Full) (hS : A.Sorted) (hD : A.HasDiag) (hpos : computeILUPositions A = .ok pos) (hscal : Scales A scal S)
    {depth : Nat → Nat} {L : Nat} (hd : DepthOk A depth L) {ks : Nat} (hks : 1 ≤ ks) {x0 ex : List R} (hl0 : x0.length = A.browptr⟦A.nbrows⟧)
    (hseq : iluSweeps A scal pos ks x0 = .ok ex) {x : List R} (hl : x.length = A.browptr⟦A.nbrows⟧) {k : Nat} (hk : 2 * L - 1 ≤ k)
    {log last : List (Nat × R)} (h : ARounds (iluComp A scal pos) mix x k log last) : applyLog x log = ex := by
  obtain ⟨pos', h1, hposOk⟩ := compute_ILU_positions_correct A hA hS hD
  rw [hpos] at h1; cases h1
  obtain ⟨hle, hex⟩ := iluSweeps_sound hA hS hD hposOk (hscal.scalOk hA) hks hl0 hseq
  have he : ExactILU A S ex := by
    intro i hi p hp
    have := (hex p (hA.lt_nnz hi hp.2)).1
    rwa [hA.rowOf_eq hi hp] at this
  have hpv : UsedPivotsOk A ex := by
    intro i hi p hp hlt
    have := (hex p (hA.lt_nnz hi hp.2)).2
    rw [hA.rowOf_eq hi hp] at this
    exact this hlt
  refine ext_get0 (by simp; omega) fun p hp => ?_
  rw [applyLog_length, hl] at hp
  have hmem := h.mem_last (memOf_get0 (x := applyLog x log) (i := p) (by simp; omega))
  refine h.exact hm (e := get0 ex) (rank := depthRank A depth) ?_ _ hmem ?_
  · intro q hq view hview v hv
    rw [hl] at hq hv hview
    exact hv.eq (iluComp_exact_depth hA hS hD hposOk hscal hd hle he hpv hq hview)
  · exact lt_of_lt_of_le (depthRank_lt hA hd hp) hk

/-- **C77** In terms of the levels that the level-scheduled classes compute: with `l` levels, `2 l - 1` rounds suffice. -/
theorem async_ilu_levels (hm : MixOk mix) (hA : A.Full) (hS : A.Sorted) (hD : A.HasDiag) (hsym : SymPattern A) (hpos : computeILUPositions A = .ok pos)
    (hscal : Scales A scal S) {fuel : Nat} {levels : List Nat} (hf : A.nbrows < fuel) (hlev : computeLevels fuel A = .ok levels)
    {ks : Nat} (hks : 1 ≤ ks) {x0 ex : List R} (hl0 : x0.length = A.browptr⟦A.nbrows⟧)
    (hseq : iluSweeps A scal pos ks x0 = .ok ex) {x : List R} (hl : x.length = A.browptr⟦A.nbrows⟧) {k : Nat} (hk : 2 * (levels.length - 1) - 1 ≤ k)
    {log last : List (Nat × R)} (h : ARounds (iluComp A scal pos) mix x k log last) : applyLog x log = ex := by
  obtain ⟨levels', e, hL⟩ := computeLevels_correct hA hS hD hsym hf
  rw [hlev] at e
  injection e with e
  subst e
  exact async_ilu_depth hm hA hS hD hpos hscal hL.levelsOk.depthOk hks hl0 hseq hl hk h

end factorization

/-! ### The applications -/

section applications

/-- **C77**, scalar ILU application. -/
theorem scalar_ilu_apply_depth [Field K] [DecidableEq K] {A : SR K} {m : Nat} {u : List K} {scale : Option (List K)} (hA : A.Full m) (hS : A.Sorted) (hD : A.HasDiag)
    (hl : u.length = A.browptr⟦A.nbrows⟧) (hp : PivotsOk A u) (hs : ScaleLen scale A.nbrows)
    {mix : Set K → Set K} (hm : MixOk mix) {depth : Nat → Nat} {L : Nat} (hd : DepthOk A depth L) {k : Nat} (hk : L ≤ k)
    {init : ApplyInit} (hi : init ≠ .none) {ord : Nat → List Nat}
    (hord : ∀ t, (ord t).Perm (List.range A.nbrows)) {r z y z' y' : List K} (hr : r.length = A.nbrows)
    (hz : z.length = A.nbrows) (hy : y.length = A.nbrows)
    (h : AsyncIluApply (unitLowerRow A u) (upperRow A u) A.nbrows mix (scale.map scalarSeg) k init ord r z y z' y') :
    z'.length = A.nbrows ∧ ∃ w : Nat → K, (∀ i < A.nbrows, z'⟦i⟧ = scaleAt scale i * w i) ∧
      ∀ i < A.nbrows, ∑ j ∈ range A.nbrows, luProd A u i j * w j = scaleAt scale i * r⟦i⟧ :=
  scalar_ilu_apply_async_rank hA hS hD hl hp hs hm (rankL := depth) (rankU := fun i => L - 1 - depth i) hd.low
    (fun i hi j hj h => by have h1 := hd.up i hi j hj h; have h2 := hd.lt i hi; have h3 := hd.lt j hj; omega)
    (fun i hi => lt_of_lt_of_le (hd.lt i hi) hk) (fun i hi => by have h2 := hd.lt i hi; omega) hi hord hr hz hy h

/-- **C77**, symmetric Gauss-Seidel application, scalar and block. -/
theorem sgs_apply_depth [Ring R] [AddCommGroup M] [Module R M] {A : SR R} {dinv : List R} (hA : A.Full) (hS : A.Sorted) (hD : A.HasDiag) (hI : DiagInv A dinv)
    {mix : Set M → Set M} (hm : MixOk mix) {depth : Nat → Nat} {L : Nat} (hd : DepthOk A depth L) {k : Nat} (hk1 : 1 ≤ k)
    (hk : L ≤ k) {init : ApplyInit} {ord : Nat → List Nat}
    (hord : ∀ t, (ord t).Perm (List.range A.nbrows)) {r z y z' y' : List M} (hr : r.length = A.nbrows)
    (hz : z.length = A.nbrows) (hy : y.length = A.nbrows)
    (h : AsyncSgsApply A dinv mix k init ord r z y z' y') :
    z'.length = A.nbrows ∧ ∀ i < A.nbrows, ∑ j ∈ range A.nbrows, sgsMat A dinv i j • z'⟦j⟧ = r⟦i⟧ :=
  sgs_apply_async_rank hA hS hD hI hm (rank := fun i => L - 1 - depth i)
    (fun i hi j hj hij hn => by have h1 := hd.up i hi j hj ⟨hn, hij⟩; have h2 := hd.lt i hi; have h3 := hd.lt j hj; omega) hk1
    (fun i hi => by have h2 := hd.lt i hi; omega) hord hr hz hy h

section block
open scoped Matrix.Module
variable [Field K] {bs : Nat}

/-- **C77**, block ILU application. -/
theorem block_ilu_apply_depth {A : SR V} {m : Nat} {u ilu : List (Matrix (Fin bs) (Fin bs) K)} {scale : Option (List K)} (hA : A.Full m) (hS : A.Sorted) (hD : A.HasDiag)
    (hu : DiagInverted A u ilu) (hs : ScaleLen scale (A.nbrows * bs)) {mix : Set (Fin bs → K) → Set (Fin bs → K)} (hm : MixOk mix)
    {depth : Nat → Nat} {L : Nat} (hd : DepthOk A depth L) {k : Nat} (hk : L ≤ k) {init : ApplyInit} (hi : init ≠ .none) {ord : Nat → List Nat}
    (hord : ∀ t, (ord t).Perm (List.range A.nbrows)) {r z y z' y' : List (Fin bs → K)} (hr : r.length = A.nbrows)
    (hz : z.length = A.nbrows) (hy : y.length = A.nbrows)
    (h : AsyncIluApply (unitLowerRow A ilu) (blockUpperRow A ilu) A.nbrows mix (scale.map (blockSeg bs)) k init ord
      r z y z' y') : BlockIluSolved A u scale r z' := by
  have h2 := asyncIluApply_ok (triUpd_unitLower (M := Fin bs → K) hA hS hD hu.len')
    (triUpd_blockUpper (M := Fin bs → K) hA hS hD hu.len') (fun _ _ h => h.2) (fun _ _ h => h.2) (segOk_block hs) hm
    (rankL := depth) (rankU := fun i => L - 1 - depth i) hd.low
    (fun i hi j hj h => by have h1 := hd.up i hi j hj h; have h2 := hd.lt i hi; have h3 := hd.lt j hj; omega)
    (fun i hi => lt_of_lt_of_le (hd.lt i hi) hk) (fun i hi => by have h2 := hd.lt i hi; omega) hi hord hr hz hy h
  exact iluApplied_block hA hS hD hu h2.2

end block

end applications

/-! ### Two colours -/

/-- Rows numbered colour by colour with two colours (red-black ordering) have depths below two, whatever the number of rows: three rounds build the factors and two
apply them. -/
theorem depthOk_two_colours {A : SR V} {b : Nat} (h : ∀ i < A.nbrows, ∀ j < A.nbrows, Nbr A i j → i ≠ j → (i < b ↔ b ≤ j)) :
    DepthOk A (fun i => if i < b then 0 else 1) 2 := by
  refine ⟨fun i hi j hj hd => ?_, fun i hi j hj hd => ?_, fun i _ => by split <;> omega⟩ <;>
  · have h1 := h i hi j hj hd.1 (by have := hd.2; omega)
    have h2 := hd.2
    split <;> split <;> omega

/-- Non-vacuity: `exStar` has four rows and depth two. -/
theorem exStar_depth : DepthOk exStar (levelOf [0, 3, 4]) 2 := exStar_levels.depthOk

example : DepthOk exStar (fun i => if i < 3 then 0 else 1) 2 :=
  depthOk_two_colours (b := 3) (by
    intro i hi j hj
    have h4 : i < 4 := hi
    have h5 : j < 4 := hj
    interval_cases i <;> interval_cases j <;> decide)

/-- Non-vacuity of `async_ilu_depth`: every execution of three rounds on the four rows of `exStar`, from any initial guess, gives the sequential factors. -/
example {x : List ℚ} (hx : x.length = 10) {log last : List (Nat × ℚ)} {pos : ILUPos} (hpos : computeILUPositions exStar = .ok pos)
    (h : ARounds (iluComp exStar (scalarScale? none) pos) mixWhole x 3 log last) :
    applyLog x log = [2, 1, 3, 1, 4, 1, 1/2, 1/3, 1/4, 9 - 1/2 - 1/3 - 1/4] := by
  have e : computeILUPositions exStar >>= (fun pos => iluSweeps exStar (scalarScale? none) pos 1 (List.replicate 10 0)) =
      .ok [2, 1, 3, 1, 4, 1, 1/2, 1/3, 1/4, 9 - 1/2 - 1/3 - 1/4] := by decide +kernel
  rw [hpos, ok_bind] at e
  have hsc : Scales exStar (scalarScale? none) exStar.entry := by
    intro i hi p hp
    rw [exStar_full.entry_stored exStar_sorted hi hp]
    rfl
  exact async_ilu_depth mixOk_whole exStar_full exStar_sorted exStar_diag hpos hsc exStar_depth le_rfl (by decide) e (by rw [hx]; decide)
    (by decide) h

/-- Non-vacuity of `sgs_apply_depth`: two sweeps suffice. -/
example {mix : Set ℚ → Set ℚ} (hm : MixOk mix) {z' y' : List ℚ}
    (h : AsyncSgsApply exStar [1/2, 1/3, 1/4, 1/9] mix 2 .none (fun _ => [3, 1, 2, 0]) [3, 4, 5, 12 + 1/2 + 1/3 + 1/4] [7, 7, 7, 7] [9, 9, 9, 9] z' y') :
    ∀ i < 4, ∑ j ∈ range 4, sgsMat exStar [1/2, 1/3, 1/4, 1/9] i j • z'⟦j⟧ = ([3, 4, 5, 12 + 1/2 + 1/3 + 1/4] : List ℚ)⟦i⟧ :=
  (sgs_apply_depth exStar_full exStar_sorted exStar_diag exStar_diagInv hm exStar_depth (by decide) le_rfl (fun _ => by decide) rfl rfl rfl h).2

end Blasted
