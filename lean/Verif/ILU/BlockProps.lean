import Verif.ILU.BlockLemmas

/-!
# Block ILU(0): the factorization (C19, C20, C23, C24)

Blocks are `bs × bs` matrices over a field; the block product does not commute.
-/

namespace Blasted

open Finset

variable {K : Type} [Field K] [DecidableEq K] [LinearOrder K] {bs : Nat}

local notation "Blk" => Matrix (Fin bs) (Fin bs) K

/-- The setting of the theorems about the block `compute`: well-formed block matrix with sorted rows and stored
diagonal blocks, parallel loops in arbitrary order, fresh memory with arbitrary contents, a new
object or one used before (arbitrary factor contents). -/
structure BlockSetting (us : Bool) (A : SR Blk) (ord ord2 ordc : List Nat) (gilu gdblks : List Blk)
    (gscale : List K) (st : ILUState Blk K) : Prop where
  full : A.Full
  sorted : A.Sorted
  diag : A.HasDiag
  ord_perm : ord.Perm (List.range A.nbrows)
  ord2_perm : ord2.Perm (List.range A.nbrows)
  ordc_perm : ordc.Perm (List.range A.browptr⟦A.nbrows⟧)
  gilu_len : gilu.length = A.browptr⟦A.nbrows⟧
  gdblks_len : gdblks.length = A.nbrows
  gscale_len : gscale.length = A.nbrows * bs
  state : st = {} ∨ ILUShape bs us A st

/-- The stored array `y` holds the factors `u` with the diagonal blocks inverted. -/
structure DiagInverted {R V : Type} [Semiring R] (A : SR V) (u y : List R) : Prop where
  len : u.length = A.browptr⟦A.nbrows⟧
  len' : y.length = A.browptr⟦A.nbrows⟧
  diag : ∀ i < A.nbrows, u⟦A.diagind⟦i⟧⟧ * y⟦A.diagind⟦i⟧⟧ = 1 ∧ y⟦A.diagind⟦i⟧⟧ * u⟦A.diagind⟦i⟧⟧ = 1
  off : ∀ p, (∀ i < A.nbrows, p ≠ A.diagind⟦i⟧) → y⟦p⟧ = u⟦p⟧

/-- `compute` in steps. -/
theorem blockCompute_split {isq : K → K} {conf : ILUConf} {A : SR Blk} {ord ord2 ordc : List Nat}
    {gilu gdblks : List Blk} {gscale : List K} {st : ILUState Blk K}
    (hc : BlockSetting conf.usescaling A ord ord2 ordc gilu gdblks gscale st) :
    ∃ st1 ilu0 sc, ILUShape bs conf.usescaling A st1 ∧ BlockScaleIs isq conf.usescaling A sc ∧
      ilu0.length = A.browptr⟦A.nbrows⟧ ∧
      (st = {} → ilu0 = A.vals) ∧ (∀ l, st.iluvals = some l → ilu0 = l) ∧
      ∀ conf' : ILUConf, conf'.usescaling = conf.usescaling →
      blockCompute isq conf' A ord ord2 ordc gilu gdblks gscale st = (do
        let ilu1 ← blockFactInit A conf'.factinit conf.usescaling (blockScale? bs sc) gdblks ord ord2 ordc ilu0
        let u ← iluSweeps A (blockScale? bs sc) st1.plist conf'.nbuildsweeps ilu1
        let y ← blockInvertDiag A ord u
        let T := fun p => blockScaledEntry isq conf.usescaling A (A.rowOf p) A.bcolind⟦p⟧
        .ok (if conf'.precinfo then some ⟨resSum blockNorm1 A T ilu1, resSum blockNorm1 A T u⟩ else none,
          { st1 with iluvals := some y, scale := sc })) := by
  have hA := hc.full
  have hv := hA.val_len
  -- the part after the set-up
  have tail : ∀ (st1 : ILUState Blk K) (ilu0 : List Blk), ILUShape bs conf.usescaling A st1 →
      ilu0.length = A.browptr⟦A.nbrows⟧ → ∃ sc, BlockScaleIs isq conf.usescaling A sc ∧
      ∀ conf' : ILUConf, (do
        let scale ← updBlockScale isq A ord st1.scale
        let (inf, ilu) ← blockIlu0Factorize blockNorm1 A st1.plist conf'.nbuildsweeps conf'.factinit
          scale.isSome (blockScale? bs scale) conf'.precinfo gdblks ord ord2 ordc ilu0
        .ok (inf, { st1 with iluvals := some ilu, scale := scale })) = (do
        let ilu1 ← blockFactInit A conf'.factinit conf.usescaling (blockScale? bs sc) gdblks ord ord2 ordc ilu0
        let u ← iluSweeps A (blockScale? bs sc) st1.plist conf'.nbuildsweeps ilu1
        let y ← blockInvertDiag A ord u
        let T := fun p => blockScaledEntry isq conf.usescaling A (A.rowOf p) A.bcolind⟦p⟧
        .ok (if conf'.precinfo then some ⟨resSum blockNorm1 A T ilu1, resSum blockNorm1 A T u⟩ else none,
          { st1 with iluvals := some y, scale := sc })) := by
    intro st1 ilu0 hsh hl0
    obtain ⟨sc, he, hsc⟩ := blockScaleIs_step (isq := isq) hA hc.sorted hc.diag hc.ord_perm hsh.scale
    refine ⟨sc, hsc, fun conf' => ?_⟩
    have hT := (hsc.scales hA hc.sorted).scalOk hA
    rw [he, ok_bind, hsc.isSome,
      blockFactorize_eq blockNorm1 hA hc.sorted hc.diag hsh.plist hT (by
        intro hus p hp
        have hr := hA.rowOf_spec hp
        rw [hus, blockScaledEntry_false, hA.entry_stored hc.sorted hr.1 hr.2]) hc.gdblks_len hc.ord_perm hc.ord2_perm
        hc.ordc_perm hl0]
    cases blockFactInit A conf'.factinit conf.usescaling (blockScale? bs sc) gdblks ord ord2 ordc ilu0 with
    | error e => rfl
    | ok ilu1 =>
      rw [ok_bind, ok_bind]
      cases iluSweeps A (blockScale? bs sc) st1.plist conf'.nbuildsweeps ilu1 with
      | error e => rfl
      | ok u =>
        rw [ok_bind, ok_bind]
        cases blockInvertDiag A ord u with
        | error e => rfl
        | ok y => rfl
  rcases hc.state with rfl | hsh
  · obtain ⟨pos, hpos, hposOk⟩ := compute_ILU_positions_correct A hA hc.sorted hc.diag
    obtain ⟨ilu0, he, h1, h2⟩ : Ok (parCells A ordc (fun j ilu => do
        let v ← rd A.vals j
        wr ilu j v) gilu) (fun y => y.length = A.browptr⟦A.nbrows⟧ ∧
          ∀ c < A.browptr⟦A.nbrows⟧, y⟦c⟧ = A.vals⟦c⟧) := by
      refine par_stored hA hc.ordc_perm hc.gilu_len _ fun i hi y' hl => ?_
      rw [rd_eq (by omega), ok_bind, wr_eq (by omega)]
    have hsh1 : ILUShape bs conf.usescaling A
        ⟨some ilu0, allocScale conf gscale none, none, pos⟩ := by
      refine ⟨⟨_, rfl, h1⟩, ?_, hposOk⟩
      unfold allocScale
      cases conf.usescaling
      · simp
      · simp only [if_true]; exact ⟨_, rfl, hc.gscale_len⟩
    obtain ⟨sc, hsc, ht⟩ := tail _ ilu0 hsh1 h1
    refine ⟨_, ilu0, sc, hsh1, hsc, h1, fun _ => ext_get0 (by omega) fun p hp => h2 p (by omega),
      (by rintro l ⟨⟩), fun conf' hus => ?_⟩
    rw [← ht conf']
    unfold blockCompute allocScale
    simp only [Option.isNone_none, if_true, hus]
    rw [he, ok_bind, hpos, ok_bind, ok_bind]
    rfl
  · obtain ⟨l, hl, hlen⟩ := hsh.ilu
    obtain ⟨sc, hsc, ht⟩ := tail st l hsh hlen
    refine ⟨st, l, sc, hsh, hsc, hlen, ?_, ?_, fun conf' _ => ?_⟩
    · rintro rfl; cases hl
    · intro l' h; rw [hl] at h; cases h; rfl
    · rw [← ht conf']
      unfold blockCompute
      simp only [hl, ok_bind, Option.isNone_some, Bool.false_eq_true, if_false, deref]

omit [DecidableEq K] [LinearOrder K] in
theorem BlockScaleIs.shape {isq : K → K} {us : Bool} {A : SR Blk} {sc : Option (List K)}
    (h : BlockScaleIs isq us A sc) :
    if us then ∃ s, sc = some s ∧ s.length = A.nbrows * bs else sc = none := by
  unfold BlockScaleIs at h
  cases us with
  | false => exact h
  | true =>
    simp only [if_true] at h ⊢
    obtain ⟨s, h1, h2, _⟩ := h
    exact ⟨s, h1, h2⟩

/-- The factors left by a successful `compute`, for any number of sweeps: they come from the sweeps by
inversion of the diagonal blocks. -/
theorem block_compute_ok {isq : K → K} {conf : ILUConf} {A : SR Blk} {ord ord2 ordc : List Nat}
    {gilu gdblks : List Blk} {gscale : List K} {st st' : ILUState Blk K} {inf : Option (RemInfo K)}
    (hc : BlockSetting conf.usescaling A ord ord2 ordc gilu gdblks gscale st)
    (h : blockCompute isq conf A ord ord2 ordc gilu gdblks gscale st = .ok (inf, st')) :
    ILUShape bs conf.usescaling A st' ∧ BlockScaleIs isq conf.usescaling A st'.scale ∧
    ∃ ilu0 ilu1 u y, blockFactInit A conf.factinit conf.usescaling (blockScale? bs st'.scale) gdblks
        ord ord2 ordc ilu0 = .ok ilu1 ∧ ilu0.length = A.browptr⟦A.nbrows⟧ ∧
      ilu1.length = A.browptr⟦A.nbrows⟧ ∧
      iluSweeps A (blockScale? bs st'.scale) st'.plist conf.nbuildsweeps ilu1 = .ok u ∧
      st'.iluvals = some y ∧ DiagInverted A u y ∧
      inf = (let T := fun p => blockScaledEntry isq conf.usescaling A (A.rowOf p) A.bcolind⟦p⟧
        if conf.precinfo then some ⟨resSum blockNorm1 A T ilu1, resSum blockNorm1 A T u⟩ else none) := by
  have hA := hc.full
  obtain ⟨st1, ilu0, sc, hsh, hsc, hl0, _, _, he⟩ := blockCompute_split (isq := isq) hc
  rw [he conf rfl] at h
  have hT := (hsc.scales hA hc.sorted).scalOk hA
  have hTv : conf.usescaling = false → ∀ p < A.browptr⟦A.nbrows⟧,
      blockScaledEntry isq conf.usescaling A (A.rowOf p) A.bcolind⟦p⟧ = A.vals⟦p⟧ := by
    intro hus p hp
    have hr := hA.rowOf_spec hp
    rw [hus, blockScaledEntry_false, hA.entry_stored hc.sorted hr.1 hr.2]
  rcases (blockFactInit_safe (ft := conf.factinit) (gd := gdblks) hA hc.sorted hc.diag hT hTv hc.gdblks_len
    hc.ord_perm hc.ord2_perm hc.ordc_perm hl0).1 with ⟨ilu1, h1, hl1⟩ | h1
  · rw [h1, ok_bind] at h
    rcases iluSweeps_fail hA hc.sorted hc.diag hsh.plist hT conf.nbuildsweeps hl1 with ⟨u, h2, hl2⟩ | h2
    · rw [h2, ok_bind] at h
      rcases blockInvertDiag_cases hA hc.diag hc.ord_perm hl2 with ⟨y, h3, hl3, h4, h5⟩ | ⟨h3, _⟩
      · rw [h3, ok_bind] at h
        cases h
        exact ⟨⟨⟨y, rfl, hl3⟩, hsc.shape, hsh.plist⟩, hsc, ilu0, ilu1, u, y, h1, hl0, hl1, h2, rfl,
          ⟨hl2, hl3, h4, h5⟩, rfl⟩
      · rw [h3] at h; cases h
    · rw [h2] at h; cases h
  · rw [h1] at h; cases h

/-! ### C19 -/

/-- **C19.** A sequential block `compute` with at least one sweep that ends without having to invert a singular
block: there are factors `u` with `L U` equal to the (scaled) matrix at every stored block position and invertible
pivot blocks, and the stored array is `u` with the diagonal blocks replaced by their inverses. For any initial
guess and earlier contents of the object, any order of the parallel loops. -/
theorem block_ilu_compute_exact {isq : K → K} {conf : ILUConf} {A : SR Blk} {ord ord2 ordc : List Nat}
    {gilu gdblks : List Blk} {gscale : List K} {st st' : ILUState Blk K} {inf : Option (RemInfo K)}
    (hc : BlockSetting conf.usescaling A ord ord2 ordc gilu gdblks gscale st)
    (hk : 1 ≤ conf.nbuildsweeps)
    (h : blockCompute isq conf A ord ord2 ordc gilu gdblks gscale st = .ok (inf, st')) :
    ILUShape bs conf.usescaling A st' ∧ BlockScaleIs isq conf.usescaling A st'.scale ∧
    ∃ u y, st'.iluvals = some y ∧ ExactILU A (blockScaledEntry isq conf.usescaling A) u ∧
      PivotsOk A u ∧ DiagInverted A u y := by
  have hA := hc.full
  obtain ⟨h1, h2, ilu0, ilu1, u, y, _, _, h3, h4, h5, h6, _⟩ := block_compute_ok hc h
  obtain ⟨h7, h8⟩ := iluSweeps_sound hA hc.sorted hc.diag h1.plist
    ((h2.scales hA hc.sorted).scalOk hA) hk h3 h4
  refine ⟨h1, h2, u, y, h5, ?_, ?_, h6⟩
  · intro i hi p hp
    have := (h8 p (hA.lt_nnz hi hp.2)).1
    rwa [hA.rowOf_eq hi hp] at this
  · intro i hi
    rw [upperFactor_diag hA hc.sorted hc.diag h7 hi]
    have := h6.diag i hi
    exact ⟨⟨_, _, this.1, this.2⟩, rfl⟩

/-- **C19**, converse: whenever exact factors with invertible pivot blocks exist (and, for `init_sgs`, the
diagonal blocks of the scaled matrix are invertible), `compute` succeeds with them. -/
theorem block_ilu_compute_complete {isq : K → K} {conf : ILUConf} {A : SR Blk} {ord ord2 ordc : List Nat}
    {gilu gdblks : List Blk} {gscale : List K} {st : ILUState Blk K}
    (hc : BlockSetting conf.usescaling A ord ord2 ordc gilu gdblks gscale st)
    (hk : 1 ≤ conf.nbuildsweeps)
    (hft : conf.factinit = .sgs → ∀ i < A.nbrows, IsUnit (blockScaledEntry isq conf.usescaling A i i))
    {ex : List Blk} (hl : ex.length = A.browptr⟦A.nbrows⟧)
    (hex : ExactILU A (blockScaledEntry isq conf.usescaling A) ex) (hpiv : PivotsOk A ex) :
    ∃ inf st' y, blockCompute isq conf A ord ord2 ordc gilu gdblks gscale st = .ok (inf, st') ∧
      st'.iluvals = some y ∧ DiagInverted A ex y := by
  have hA := hc.full
  obtain ⟨st1, ilu0, sc, hsh, hsc, hl0, _, _, he⟩ := blockCompute_split (isq := isq) hc
  have hT := (hsc.scales hA hc.sorted).scalOk hA
  have hTv : conf.usescaling = false → ∀ p < A.browptr⟦A.nbrows⟧,
      blockScaledEntry isq conf.usescaling A (A.rowOf p) A.bcolind⟦p⟧ = A.vals⟦p⟧ := by
    intro hus p hp
    have hr := hA.rowOf_spec hp
    rw [hus, blockScaledEntry_false, hA.entry_stored hc.sorted hr.1 hr.2]
  obtain ⟨g1, g2⟩ := blockFactInit_safe (ft := conf.factinit) (gd := gdblks) hA hc.sorted hc.diag hT hTv
    hc.gdblks_len hc.ord_perm hc.ord2_perm hc.ordc_perm hl0
  obtain ⟨ilu1, h1⟩ := g2 (by
    intro hf i hi
    rw [hA.rowOf_eq hi (hc.diag.inRow hi), hc.diag.diag_col i hi]
    exact hft hf i hi)
  have hl1 : ilu1.length = A.browptr⟦A.nbrows⟧ := by
    rcases g1 with ⟨l, h2, h3⟩ | h2
    · rw [h1] at h2; cases h2; exact h3
    · rw [h1] at h2; cases h2
  have h2 := iluSweeps_complete hA hc.sorted hc.diag hsh.plist hT hk hl1 hl (exact_pos hA hex (by
    intro i hi p hp _
    exact hpiv _ (hA.col_lt p (hA.lt_nnz hi hp.2))))
  have hd : ∀ i < A.nbrows, IsUnit ex⟦A.diagind⟦i⟧⟧ := by
    intro i hi
    rw [← upperFactor_diag hA hc.sorted hc.diag hl hi]
    exact hpiv i hi
  rcases blockInvertDiag_cases hA hc.diag hc.ord_perm hl with ⟨y, h3, hl3, h4, h5⟩ | ⟨_, i, hi, hnu⟩
  · have e := he conf rfl
    rw [h1, ok_bind, h2, ok_bind, h3, ok_bind] at e
    exact ⟨_, _, y, e, rfl, ⟨hl, hl3, h4, h5⟩⟩
  · exact absurd (hd i hi) hnu

/-- **C19**, safety: a block `compute` never fails otherwise than by inverting a singular block, whatever the
options. -/
theorem block_ilu_compute_no_ub {isq : K → K} {conf : ILUConf} {A : SR Blk} {ord ord2 ordc : List Nat}
    {gilu gdblks : List Blk} {gscale : List K} {st : ILUState Blk K}
    (hc : BlockSetting conf.usescaling A ord ord2 ordc gilu gdblks gscale st) :
    (∃ inf st', blockCompute isq conf A ord ord2 ordc gilu gdblks gscale st = .ok (inf, st')) ∨
      blockCompute isq conf A ord ord2 ordc gilu gdblks gscale st = .error .divzero := by
  have hA := hc.full
  obtain ⟨st1, ilu0, sc, hsh, hsc, hl0, _, _, he⟩ := blockCompute_split (isq := isq) hc
  have hT := (hsc.scales hA hc.sorted).scalOk hA
  have hTv : conf.usescaling = false → ∀ p < A.browptr⟦A.nbrows⟧,
      blockScaledEntry isq conf.usescaling A (A.rowOf p) A.bcolind⟦p⟧ = A.vals⟦p⟧ := by
    intro hus p hp
    have hr := hA.rowOf_spec hp
    rw [hus, blockScaledEntry_false, hA.entry_stored hc.sorted hr.1 hr.2]
  rw [he conf rfl]
  rcases (blockFactInit_safe (ft := conf.factinit) (gd := gdblks) hA hc.sorted hc.diag hT hTv hc.gdblks_len
    hc.ord_perm hc.ord2_perm hc.ordc_perm hl0).1 with ⟨ilu1, h1, hl1⟩ | h1
  · rw [h1, ok_bind]
    rcases iluSweeps_fail hA hc.sorted hc.diag hsh.plist hT conf.nbuildsweeps hl1 with ⟨u, h2, hl2⟩ | h2
    · rw [h2, ok_bind]
      rcases blockInvertDiag_cases hA hc.diag hc.ord_perm hl2 with ⟨y, h3, hl3, h4, h5⟩ | ⟨h3, _⟩
      · rw [h3, ok_bind]
        exact Or.inl ⟨_, _, rfl⟩
      · rw [h3]; exact Or.inr rfl
    · rw [h2]; exact Or.inr rfl
  · rw [h1]; exact Or.inr rfl

/-- A `2 × 2` block. -/
def mk2 (a b c d : ℚ) : Matrix (Fin 2) (Fin 2) ℚ := !![a, b; c, d]

/-- A block tridiagonal matrix with `2 × 2` blocks that do not commute. -/
def exB : SR (Matrix (Fin 2) (Fin 2) ℚ) :=
  { browptr := [0, 2, 5, 7], bcolind := [0, 1, 0, 1, 2, 1, 2],
    vals := [mk2 2 1 0 1, mk2 1 0 2 1, mk2 0 1 1 0, mk2 3 0 1 2, mk2 1 1 0 1, mk2 1 0 0 2, mk2 1 2 3 4],
    diagind := [0, 3, 6], browendptr := [2, 5, 7], nbrows := 3, nnzb := 7, nbstored := 7 }

/-- The setting is met by a new object on `exB`. -/
theorem exB_setting (us : Bool) : BlockSetting us exB [2, 0, 1] [0, 1, 2] (List.range 7)
    (List.replicate 7 (mk2 7 7 7 7)) (List.replicate 3 (mk2 7 7 7 7)) (List.replicate 6 7) {} where
  full := by constructor <;> decide
  sorted := SR.sorted_of_check (by decide)
  diag := by constructor <;> decide
  ord_perm := by decide
  ord2_perm := by decide
  ordc_perm := by decide
  gilu_len := by decide
  gdblks_len := by decide
  gscale_len := by decide
  state := Or.inl rfl

/-- Non-vacuity: with every initialisation the block `compute` succeeds on `exB`, with zero final remainder. -/
example : ∀ ft ∈ [FactInit.none, .zero, .sgs, .original],
    (blockCompute (fun x : ℚ => x⁻¹) ⟨true, 2, ft, true⟩ exB [2, 0, 1] [0, 1, 2] (List.range 7)
      (List.replicate 7 (mk2 7 7 7 7)) (List.replicate 3 (mk2 7 7 7 7)) (List.replicate 6 7) {}).map
      (fun r => (r.1.map RemInfo.final, r.2.iluvals.isSome)) = .ok (some 0, true) := by
  decide +kernel

/-! ### C20 -/

omit [DecidableEq K] [LinearOrder K] in
theorem DiagInverted.unique {A : SR Blk} {u y y' : List Blk} (h : DiagInverted A u y) (h' : DiagInverted A u y') :
    y = y' := by
  refine ext_get0 (by rw [h.len', h'.len']) fun p hp => ?_
  by_cases hd : ∃ i < A.nbrows, p = A.diagind⟦i⟧
  · obtain ⟨i, hi, rfl⟩ := hd
    exact left_inv_eq_right_inv (h.diag i hi).2 (h'.diag i hi).1
  · push Not at hd
    rw [h.off p hd, h'.off p hd]

/-- **C20** for blocks: factors and scaling vector depend only on the matrix. -/
theorem block_ilu_compute_independent {isq : K → K} {A : SR Blk} {conf conf' : ILUConf}
    {ord ord2 ordc ord' ord2' ordc' : List Nat} {gilu gdblks gilu' gdblks' : List Blk}
    {gscale gscale' : List K} {st st₁ st' st₁' : ILUState Blk K} {inf inf' : Option (RemInfo K)}
    (hc : BlockSetting conf.usescaling A ord ord2 ordc gilu gdblks gscale st)
    (hc' : BlockSetting conf'.usescaling A ord' ord2' ordc' gilu' gdblks' gscale' st')
    (hus : conf.usescaling = conf'.usescaling) (hk : 1 ≤ conf.nbuildsweeps)
    (hk' : 1 ≤ conf'.nbuildsweeps)
    (h : blockCompute isq conf A ord ord2 ordc gilu gdblks gscale st = .ok (inf, st₁))
    (h' : blockCompute isq conf' A ord' ord2' ordc' gilu' gdblks' gscale' st' = .ok (inf', st₁')) :
    st₁.iluvals = st₁'.iluvals ∧ st₁.scale = st₁'.scale := by
  have hA := hc.full
  obtain ⟨hsh, hs, u, y, h1, h2, h3, h4⟩ := block_ilu_compute_exact hc hk h
  obtain ⟨hsh', hs', u', y', h1', h2', h3', h4'⟩ := block_ilu_compute_exact hc' hk' h'
  constructor
  · have hT := (hs.scales hA hc.sorted).scalOk hA
    rw [← hus] at h2'
    have up : ∀ {l : List Blk}, PivotsOk A l → UsedPivotsOk A l := fun h i hi p hp _ =>
      h _ (hA.col_lt p (hA.lt_nnz hi hp.2))
    have r1 := iluSweeps_complete hA hc.sorted hc.diag hsh.plist hT (k := 1) (by omega) h4.len h4.len
      (exact_pos hA h2 (up h3))
    have r2 := iluSweeps_complete hA hc.sorted hc.diag hsh.plist hT (k := 1) (by omega) h4.len h4'.len
      (exact_pos hA h2' (up h3'))
    rw [r1] at r2
    cases r2
    rw [h1, h1', h4.unique h4']
  · rw [← hus] at hs'
    exact hs.unique hs'

/-- One call of `compute`: matrix values at that time, loop orders and fresh memory contents. -/
structure BlockStep (K : Type) (bs : Nat) where
  vals : List (Matrix (Fin bs) (Fin bs) K)
  ord : List Nat
  ord2 : List Nat
  ordc : List Nat
  gilu : List (Matrix (Fin bs) (Fin bs) K)
  gdblks : List (Matrix (Fin bs) (Fin bs) K)
  gscale : List K

/-- A history of one preconditioner object. -/
def blockHistory (isq : K → K) (conf : ILUConf) (A : SR Blk) (steps : List (BlockStep K bs))
    (st : ILUState Blk K) : C (ILUState Blk K) :=
  forList steps (fun s st => do
    let r ← blockCompute isq conf { A with vals := s.vals } s.ord s.ord2 s.ordc s.gilu s.gdblks s.gscale st
    .ok r.2) st

/-- The step uses arrays of the right sizes. -/
structure BlockStep.Valid (A : SR Blk) (s : BlockStep K bs) : Prop where
  full : ({ A with vals := s.vals } : SR Blk).Full
  ord_perm : s.ord.Perm (List.range A.nbrows)
  ord2_perm : s.ord2.Perm (List.range A.nbrows)
  ordc_perm : s.ordc.Perm (List.range A.browptr⟦A.nbrows⟧)
  gilu_len : s.gilu.length = A.browptr⟦A.nbrows⟧
  gdblks_len : s.gdblks.length = A.nbrows
  gscale_len : s.gscale.length = A.nbrows * bs

omit [Field K] [DecidableEq K] [LinearOrder K] in
theorem ILUShape.withVals' {us : Bool} {A : SR Blk} {st : ILUState Blk K} (v w : List Blk)
    (h : ILUShape bs us { A with vals := v } st) : ILUShape bs us { A with vals := w } st :=
  ⟨h.ilu, h.scale, ⟨h.plist.ptr_len, h.plist.ptr_zero, h.plist.ptr_mono, h.plist.low_len,
    h.plist.up_len, h.plist.sound, h.plist.incr, h.plist.complete⟩⟩

theorem blockHistory_shape {isq : K → K} {conf : ILUConf} {A : SR Blk} (hS : A.Sorted)
    (hD : A.HasDiag) {steps : List (BlockStep K bs)}
    (hv : ∀ s ∈ steps, s.Valid A) {st st' : ILUState Blk K}
    (hst : st = {} ∨ ILUShape bs conf.usescaling A st)
    (h : blockHistory isq conf A steps st = .ok st') :
    st' = {} ∨ ILUShape bs conf.usescaling A st' := by
  induction steps generalizing st with
  | nil => cases h; exact hst
  | cons s steps ih =>
    unfold blockHistory at h
    rw [forList_cons] at h
    cases hc : blockCompute isq conf { A with vals := s.vals } s.ord s.ord2 s.ordc s.gilu s.gdblks s.gscale st with
    | error e => rw [hc] at h; cases h
    | ok r =>
      rw [hc] at h
      have hs := hv s (by simp)
      have := (block_compute_ok (st' := r.2) (inf := r.1) ⟨hs.full, hS,
        ⟨hD.diag_len, hD.diag_ge, hD.diag_lt, hD.diag_col⟩,
        hs.ord_perm, hs.ord2_perm, hs.ordc_perm, hs.gilu_len, hs.gdblks_len, hs.gscale_len,
        hst.imp id fun h => ILUShape.withVals' A.vals s.vals h⟩ hc).1
      refine ih (fun s' hs' => hv s' (by simp [hs'])) (Or.inr ?_) h
      exact ILUShape.withVals' s.vals A.vals this

/-- **C20** for blocks and histories: whatever was computed before, on two objects that may differ in
initialisation option and number of sweeps, the factors and the scaling after a `compute` depend only on the
matrix values at that `compute`. -/
theorem block_ilu_history_independent {isq : K → K} {A : SR Blk} (hS : A.Sorted) (hD : A.HasDiag)
    {conf conf' : ILUConf} (hus : conf.usescaling = conf'.usescaling) (hk : 1 ≤ conf.nbuildsweeps)
    (hk' : 1 ≤ conf'.nbuildsweeps) {steps steps' : List (BlockStep K bs)} {s s' : BlockStep K bs}
    (hv : ∀ t ∈ steps ++ [s], t.Valid A) (hv' : ∀ t ∈ steps' ++ [s'], t.Valid A)
    (hvals : s.vals = s'.vals) {st st' : ILUState Blk K}
    (h : blockHistory isq conf A (steps ++ [s]) {} = .ok st)
    (h' : blockHistory isq conf' A (steps' ++ [s']) {} = .ok st') :
    st.iluvals = st'.iluvals ∧ st.scale = st'.scale := by
  have key : ∀ (conf : ILUConf) (steps : List (BlockStep K bs)) (s : BlockStep K bs) (st : ILUState Blk K),
      (∀ t ∈ steps ++ [s], t.Valid A) →
      blockHistory isq conf A (steps ++ [s]) {} = .ok st →
      ∃ st0 inf, BlockSetting conf.usescaling { A with vals := s.vals } s.ord s.ord2 s.ordc s.gilu s.gdblks
          s.gscale st0 ∧
        blockCompute isq conf { A with vals := s.vals } s.ord s.ord2 s.ordc s.gilu s.gdblks s.gscale st0 =
          .ok (inf, st) := by
    intro conf steps s st hv h
    unfold blockHistory at h
    rw [forList_append] at h
    cases h0 : blockHistory isq conf A steps {} with
    | error e => unfold blockHistory at h0; rw [h0] at h; cases h
    | ok st0 =>
      have hsh := blockHistory_shape hS hD (fun t ht => hv t (by simp [ht])) (Or.inl rfl) h0
      unfold blockHistory at h0
      rw [h0, ok_bind, forList_cons] at h
      cases hc : blockCompute isq conf { A with vals := s.vals } s.ord s.ord2 s.ordc s.gilu s.gdblks s.gscale
        st0 with
      | error e => rw [hc] at h; cases h
      | ok r =>
        rw [hc] at h
        cases h
        have hs := hv s (by simp)
        refine ⟨st0, r.1, ⟨hs.full, hS, ⟨hD.diag_len, hD.diag_ge, hD.diag_lt, hD.diag_col⟩,
          hs.ord_perm, hs.ord2_perm, hs.ordc_perm, hs.gilu_len, hs.gdblks_len, hs.gscale_len, hsh.imp id fun h =>
          ILUShape.withVals' A.vals s.vals h⟩, hc⟩
  obtain ⟨st0, inf, hc, he⟩ := key conf steps s st hv h
  obtain ⟨st0', inf', hc', he'⟩ := key conf' steps' s' st' hv' h'
  rw [← hvals] at hc' he'
  exact block_ilu_compute_independent hc hc' hus hk hk' he he'

/-- Non-vacuity: a history of two computations succeeds. -/
example : ((blockHistory (fun x : ℚ => x⁻¹) ⟨true, 1, .none, false⟩ exB
    [⟨exB.vals, [0, 1, 2], [2, 1, 0], List.range 7, List.replicate 7 (mk2 7 7 7 7),
        List.replicate 3 (mk2 7 7 7 7), List.replicate 6 7⟩,
     ⟨exB.vals.map (fun B => (2 : ℚ) • B), [2, 1, 0], [0, 1, 2], List.range 7, [],
        List.replicate 3 (mk2 7 7 7 7), []⟩] {}).map (fun st => st.iluvals.isSome)) = .ok true := by
  decide +kernel

/-! ### C23 -/

omit [DecidableEq K] in
/-- The loop computes the sum of the moduli of the coefficients. -/
theorem blockNorm1_eq (B : Blk) : blockNorm1 B = ∑ i, ∑ j, |B i j| := by
  unfold blockNorm1
  have h1 : ∀ (i : Fin bs) (l : List (Fin bs)) (s : K),
      l.foldl (fun s j => s + |B i j|) s = s + (l.map fun j => |B i j|).sum := by
    intro i l
    induction l with
    | nil => intro s; simp
    | cons j l ih => intro s; rw [List.foldl_cons, ih, List.map_cons, List.sum_cons, add_assoc]
  have h2 : ∀ (l : List (Fin bs)) (s : K),
      l.foldl (fun s i => (List.finRange bs).foldl (fun s j => s + |B i j|) s) s =
        s + (l.map fun i => ∑ j, |B i j|).sum := by
    intro l
    induction l with
    | nil => intro s; simp
    | cons i l ih =>
      intro s
      rw [List.foldl_cons, ih, h1, List.map_cons, List.sum_cons, add_assoc]
      congr 2
  rw [h2, zero_add]
  exact (Fin.sum_univ_def _).symm

/-- The sum over stored blocks of the moduli of the coefficients of `S - L U`. -/
def blockRemNorm (A : SR Blk) (S : Nat → Nat → Blk) (ilu : List Blk) : K :=
  ∑ i ∈ range A.nbrows, ∑ p ∈ Ico A.browptr⟦i⟧ A.browptr⟦i + 1⟧,
    ∑ a, ∑ b, |(S i A.bcolind⟦p⟧ - luProd A ilu i A.bcolind⟦p⟧) a b|

omit [DecidableEq K] in
theorem resSum_eq {A : SR Blk} (hA : A.Full) (S : Nat → Nat → Blk) (ilu : List Blk) :
    resSum blockNorm1 A (fun p => S (A.rowOf p) A.bcolind⟦p⟧) ilu = blockRemNorm A S ilu := by
  unfold resSum blockRemNorm
  refine sum_congr rfl fun i hi => sum_congr rfl fun p hp => ?_
  dsimp only
  rw [hA.rowOf_eq (mem_range.mp hi) ⟨(mem_Ico.mp hp).1, (mem_Ico.mp hp).2⟩, blockNorm1_eq]

omit [DecidableEq K] in
/-- The remainder norm vanishes exactly for exact factors. -/
theorem blockRemNorm_eq_zero_iff [IsStrictOrderedRing K] {A : SR Blk} {S : Nat → Nat → Blk} {ilu : List Blk} :
    blockRemNorm A S ilu = 0 ↔ ExactILU A S ilu := by
  have h0 : ∀ B : Blk, 0 ≤ ∑ a, ∑ b, |B a b| := fun B => sum_nonneg fun _ _ => sum_nonneg fun _ _ => abs_nonneg _
  unfold blockRemNorm ExactILU
  rw [sum_eq_zero_iff_of_nonneg fun i _ => sum_nonneg fun p _ => h0 _]
  refine forall_congr' fun i => ?_
  rw [mem_range]
  refine forall_congr' fun hi => ?_
  rw [sum_eq_zero_iff_of_nonneg fun p _ => h0 _]
  refine forall_congr' fun p => ?_
  rw [mem_Ico]
  unfold SR.InRow
  refine forall_congr' fun hp => ?_
  rw [sum_eq_zero_iff_of_nonneg fun _ _ => sum_nonneg fun _ _ => abs_nonneg _]
  constructor
  · intro h
    ext a b
    have h1 := (sum_eq_zero_iff_of_nonneg fun _ _ => abs_nonneg _).mp (h a (mem_univ _)) b (mem_univ _)
    rw [abs_eq_zero] at h1
    have : (S i A.bcolind⟦p⟧ - luProd A ilu i A.bcolind⟦p⟧) a b =
      S i A.bcolind⟦p⟧ a b - luProd A ilu i A.bcolind⟦p⟧ a b := rfl
    rw [this, sub_eq_zero] at h1
    exact h1.symm
  · intro h a _
    rw [h]
    simp

omit [DecidableEq K] in
/-- **C23** for blocks: the nonlinear residual is the sum over the stored blocks of the moduli of the coefficients of
`S - L U`, for every reduction order, and is zero exactly for exact factors. -/
theorem block_ilu_residual_correct [IsStrictOrderedRing K] {isq : K → K} {us : Bool} {A : SR Blk} (hA : A.Full)
    (hS : A.Sorted) (hD : A.HasDiag) {pos : ILUPos} (hpos : computeILUPositions A = .ok pos)
    {sc : Option (List K)} (hsc : BlockScaleIs isq us A sc)
    {ord : List Nat} (hord : ord.Perm (List.range A.nbrows)) {ilu : List Blk}
    (hl : ilu.length = A.browptr⟦A.nbrows⟧) :
    ∃ r, iluRes blockNorm1 A (blockScale? bs sc) pos ord ilu = .ok r ∧
      r = blockRemNorm A (blockScaledEntry isq us A) ilu ∧
      (r = 0 ↔ ExactILU A (blockScaledEntry isq us A) ilu) := by
  obtain ⟨pos', h1, hposOk⟩ := compute_ILU_positions_correct A hA hS hD
  rw [hpos] at h1; cases h1
  have e := iluRes_eq blockNorm1 hA hS hD hposOk ((hsc.scales hA hS).scalOk hA) hord hl
  have e2 := resSum_eq hA (blockScaledEntry isq us A) ilu
  unfold resSum at e2
  refine ⟨_, e, e2, ?_⟩
  rw [e2]
  exact blockRemNorm_eq_zero_iff

/-- **C23** for blocks, the preconditioner information: the final remainder is that of the factors before the
inversion of the diagonal blocks. -/
theorem block_ilu_compute_info {isq : K → K} {conf : ILUConf} {A : SR Blk} {ord ord2 ordc : List Nat}
    {gilu gdblks : List Blk} {gscale : List K} {st st' : ILUState Blk K} {inf : Option (RemInfo K)}
    (hc : BlockSetting conf.usescaling A ord ord2 ordc gilu gdblks gscale st)
    (h : blockCompute isq conf A ord ord2 ordc gilu gdblks gscale st = .ok (inf, st')) :
    ∃ ilu0 ilu1 u y, blockFactInit A conf.factinit conf.usescaling (blockScale? bs st'.scale) gdblks
        ord ord2 ordc ilu0 = .ok ilu1 ∧
      st'.iluvals = some y ∧ DiagInverted A u y ∧
      inf = if conf.precinfo then
        some ⟨blockRemNorm A (blockScaledEntry isq conf.usescaling A) ilu1,
          blockRemNorm A (blockScaledEntry isq conf.usescaling A) u⟩ else none := by
  obtain ⟨_, _, ilu0, ilu1, u, y, h1, _, _, _, h2, h3, h4⟩ := block_compute_ok hc h
  refine ⟨ilu0, ilu1, u, y, h1, h2, h3, ?_⟩
  rw [h4, ← resSum_eq hc.full, ← resSum_eq hc.full]

/-! ### C24 -/

omit [LinearOrder K] in
/-- **C24** for blocks: what the sweeps start from. `init_zero`: zero; `init_original`: the (scaled) matrix;
`init_sgs`: factors with `L U = (D + Lo) D⁻¹ (D + Up)` of the (scaled) matrix at every block
position, when the diagonal blocks are invertible; with scaling or without. -/
theorem block_ilu_inits {isq : K → K} {us : Bool} {A : SR Blk} {ord ord2 ordc : List Nat}
    {gilu gdblks : List Blk} {gscale : List K} {st : ILUState Blk K}
    (hc : BlockSetting us A ord ord2 ordc gilu gdblks gscale st) {sc : Option (List K)}
    (hsc : BlockScaleIs isq us A sc) {ilu0 : List Blk} (hl0 : ilu0.length = A.browptr⟦A.nbrows⟧) :
    (∃ ilu, blockFactInit A .zero us (blockScale? bs sc) gdblks ord ord2 ordc ilu0 = .ok ilu ∧
      ilu = List.replicate A.browptr⟦A.nbrows⟧ 0) ∧
    (∃ ilu, blockFactInit A .original us (blockScale? bs sc) gdblks ord ord2 ordc ilu0 = .ok ilu ∧
      ilu.length = A.browptr⟦A.nbrows⟧ ∧
      ∀ i < A.nbrows, ∀ j, facEntry A ilu i j = blockScaledEntry isq us A i j) ∧
    ((∀ i < A.nbrows, IsUnit (blockScaledEntry isq us A i i)) →
      ∃ ilu dinv, blockFactInit A .sgs us (blockScale? bs sc) gdblks ord ord2 ordc ilu0 = .ok ilu ∧
      ilu.length = A.browptr⟦A.nbrows⟧ ∧
      (∀ i < A.nbrows, blockScaledEntry isq us A i i * dinv i = 1 ∧
        dinv i * blockScaledEntry isq us A i i = 1) ∧
      ∀ i < A.nbrows, ∀ j < A.nbrows,
        luProd A ilu i j = sgsProd A.nbrows (blockScaledEntry isq us A) dinv i j) := by
  have hA := hc.full
  have hT := (hsc.scales hA hc.sorted).scalOk hA
  have hTv : us = false → ∀ p < A.browptr⟦A.nbrows⟧,
      blockScaledEntry isq us A (A.rowOf p) A.bcolind⟦p⟧ = A.vals⟦p⟧ := by
    intro hus p hp
    have hr := hA.rowOf_spec hp
    rw [hus, blockScaledEntry_false, hA.entry_stored hc.sorted hr.1 hr.2]
  have hun : ∀ i < A.nbrows, ∀ j, (∀ p, A.InRow i p → A.bcolind⟦p⟧ ≠ j) → blockScaledEntry isq us A i j = 0 := by
    intro i hi j hp
    ext a b
    unfold blockScaledEntry
    rw [hA.entry_unstored hi hp]
    simp
  refine ⟨?_, ?_, fun hu => ?_⟩
  · obtain ⟨y, h1, h2, h3⟩ : Ok (parCells A ordc (fun i ilu => wr ilu i 0) ilu0) (fun y =>
        y.length = A.browptr⟦A.nbrows⟧ ∧ ∀ c < A.browptr⟦A.nbrows⟧, y⟦c⟧ = (0 : Blk)) :=
      par_stored hA hc.ordc_perm hl0 (fun _ => 0) fun i hi y' hl => wr_eq (by omega)
    refine ⟨y, h1, ext_get0 (by simp [h2]) fun p hp => ?_⟩
    rw [h3 p (by omega), get0_replicate_of_lt (by omega)]
  · obtain ⟨y, h1, h2, h3⟩ := blockInitOriginal_ok (gd := gdblks) (ord2 := ord2) hA hT hTv hc.ord_perm
      hc.ordc_perm hl0
    refine ⟨y, h1, h2, fun i hi j => ?_⟩
    by_cases hp : ∃ p, A.InRow i p ∧ A.bcolind⟦p⟧ = j
    · obtain ⟨p, hp, rfl⟩ := hp
      have hpn := hA.lt_nnz hi hp.2
      rw [facEntry_stored hA hc.sorted h2 hi hp, h3 p hpn, hA.rowOf_eq hi hp]
    · push Not at hp
      rw [facEntry_unstored hA h2 hi hp, hun i hi j hp]
  · obtain ⟨g1, g2⟩ := blockInitSgs_safe hA hc.sorted hc.diag hT hc.gdblks_len hc.ord_perm hc.ord2_perm hl0
    have hde : ∀ i < A.nbrows, blockScaledEntry isq us A (A.rowOf A.diagind⟦i⟧) A.bcolind⟦A.diagind⟦i⟧⟧ =
        blockScaledEntry isq us A i i := by
      intro i hi
      rw [hA.rowOf_eq hi (hc.diag.inRow hi), hc.diag.diag_col i hi]
    obtain ⟨y, hy⟩ := g2 (fun i hi => by rw [hde i hi]; exact hu i hi)
    rcases g1 with ⟨y', h1, h2, dinv, h3, h4⟩ | h1
    · have hd : ∀ i < A.nbrows, blockScaledEntry isq us A i i * dinv i = 1 ∧
          dinv i * blockScaledEntry isq us A i i = 1 := by
        intro i hi
        have := PInv.pinv_ok (h3 i hi)
        rwa [hde i hi] at this
      refine ⟨y', dinv, h1, h2, hd, luProd_sgs hA hc.sorted h2 (fun i hi => (hd i hi).1) hun ?_⟩
      intro i hi p hp
      rw [h4 p (hA.lt_nnz hi hp.2), hA.rowOf_eq hi hp]
    · rw [h1] at hy; cases hy

end Blasted
