import Verif.ILU.InitLemmas
import Mathlib.Algebra.Field.Rat
import Mathlib.Algebra.Order.Ring.Rat

/-!
# Scalar ILU(0): the factorization (C18, C20, C23, C24)

Specification vocabulary is in `Spec.lean` (`luProd`, `ExactILU`, `PivotsOk`) and
`InitLemmas.lean` (`scaledEntry`, the symmetrically scaled matrix).
-/

namespace Blasted

open Finset

variable {K : Type} [Field K] [DecidableEq K] [LinearOrder K]

/-- What every completed `compute` leaves behind, apart from the values: storage of the right size, a
scaling vector iff scaling is on, position lists of the pattern. The contents are arbitrary. -/
structure ILUShape {R : Type} (bs : Nat) (usescaling : Bool) (A : SR R) (st : ILUState R K) : Prop where
  ilu : ∃ l, st.iluvals = some l ∧ l.length = A.browptr⟦A.nbrows⟧
  scale : if usescaling then ∃ s, st.scale = some s ∧ s.length = A.nbrows * bs else st.scale = none
  plist : ILUPosOk A st.plist

/-- The scaling vector is the one of the current matrix. -/
def ScaleIs (isq : K → K) (usescaling : Bool) (A : SR K) (o : Option (List K)) : Prop :=
  if usescaling then ∃ s, o = some s ∧ s.length = A.nbrows ∧ ∀ i < A.nbrows, s⟦i⟧ = isq (A.entry i i)
  else o = none

omit [DecidableEq K] [LinearOrder K] in
theorem ScaleIs.scalOk {isq : K → K} {us : Bool} {A : SR K} (hA : A.Full) (hS : A.Sorted)
    {o : Option (List K)} (h : ScaleIs isq us A o) :
    ScalOk A (scalarScale? o) (fun p => scaledEntry isq us A (A.rowOf p) A.bcolind⟦p⟧) := by
  intro p hp
  have h1 := hA.rowOf_spec hp
  have h2 := hA.col_lt p hp
  have h3 := hA.entry_stored hS h1.1 h1.2
  unfold ScaleIs at h
  cases us with
  | false =>
    simp only [Bool.false_eq_true, if_false] at h
    subst h
    simp [scalarScale?, noScale, scaledEntry, scaleFac, h3]
  | true =>
    simp only [if_true] at h
    obtain ⟨s, rfl, hl, hs⟩ := h
    rw [scalarScale_ok hA (some s) (by rintro t ⟨⟩; exact hl) p hp]
    simp [scaledEntry, scaleFac, h3, hs _ h1.1, hs _ h2]

omit [DecidableEq K] [LinearOrder K] in
theorem ScaleIs.initVal {isq : K → K} {us : Bool} {A : SR K} (hA : A.Full) (hS : A.Sorted)
    {o : Option (List K)} (h : ScaleIs isq us A o) {p : Nat} (hp : p < A.browptr⟦A.nbrows⟧) :
    initVal A o p = scaledEntry isq us A (A.rowOf p) A.bcolind⟦p⟧ := by
  have h1 := hA.rowOf_spec hp
  have h2 := hA.col_lt p hp
  have h3 := hA.entry_stored hS h1.1 h1.2
  unfold ScaleIs at h
  cases us with
  | false =>
    simp only [Bool.false_eq_true, if_false] at h
    subst h
    simp [Blasted.initVal, scaledEntry, scaleFac, h3]
  | true =>
    simp only [if_true] at h
    obtain ⟨s, rfl, hl, hs⟩ := h
    simp [Blasted.initVal, scaledEntry, scaleFac, h3, hs _ h1.1, hs _ h2]

omit [DecidableEq K] [LinearOrder K] in
theorem ScaleIs.length {isq : K → K} {us : Bool} {A : SR K} {o : Option (List K)}
    (h : ScaleIs isq us A o) : ∀ t, o = some t → t.length = A.nbrows := by
  rintro t rfl
  unfold ScaleIs at h
  split at h
  · obtain ⟨s, hs, hl, _⟩ := h
    cases hs; exact hl
  · cases h

omit [LinearOrder K] [DecidableEq K] in
theorem ScaleIs.unique {isq : K → K} {us : Bool} {A : SR K} {o o' : Option (List K)}
    (hs : ScaleIs isq us A o) (hs' : ScaleIs isq us A o') : o = o' := by
  unfold ScaleIs at hs hs'
  split at hs
  · rename_i hu
    simp only [hu, if_true] at hs'
    obtain ⟨s, e1, l1, v1⟩ := hs
    obtain ⟨s', e2, l2, v2⟩ := hs'
    rw [e1, e2]
    congr 1
    refine ext_get0 (by omega) fun i hi => ?_
    rw [v1 i (by omega), v2 i (by omega)]
  · rename_i hu
    simp only [hu] at hs'
    rw [hs]; exact hs'.symm

omit [LinearOrder K] [DecidableEq K] in
theorem scaleIs_step {isq : K → K} {us : Bool} {A : SR K} (hA : A.Full) (hS : A.Sorted)
    (hD : A.HasDiag) {ord : List Nat} (hord : ord.Perm (List.range A.nbrows)) {o : Option (List K)}
    (ho : if us then ∃ s, o = some s ∧ s.length = A.nbrows * 1 else o = none) :
    Ok (updScale isq A ord o) (ScaleIs isq us A) := by
  cases us with
  | false =>
    simp only [Bool.false_eq_true, if_false] at ho
    subst ho
    exact Ok.pure (by simp [ScaleIs])
  | true =>
    simp only [if_true, Nat.mul_one] at ho
    obtain ⟨s, rfl, hl⟩ := ho
    refine (getScalingVector_ok isq hA hD hord hl).bind ?_
    rintro s' ⟨h1, h2⟩
    refine Ok.pure ?_
    simp only [ScaleIs, if_true]
    refine ⟨s', rfl, h1, fun i hi => ?_⟩
    rw [h2 i hi]
    have := hA.entry_stored hS hi (hD.inRow hi)
    rw [hD.diag_col i hi] at this
    rw [this]

/-- The setting of the theorems about `compute`: well-formed matrix with sorted rows and stored diagonal,
parallel loops in arbitrary order, freshly allocated arrays of the right sizes with arbitrary contents, and
either a new object or one that has been used before (with arbitrary factor contents). -/
structure CompSetting (us : Bool) (A : SR K) (ord ordc : List Nat) (gilu gy gscale : List K)
    (st : ILUState K K) : Prop where
  full : A.Full
  sorted : A.Sorted
  diag : A.HasDiag
  ord_perm : ord.Perm (List.range A.nbrows)
  ordc_perm : ordc.Perm (List.range A.browptr⟦A.nbrows⟧)
  gilu_len : gilu.length = A.browptr⟦A.nbrows⟧
  gy_len : gy.length = A.nbrows
  gscale_len : gscale.length = A.nbrows
  state : st = {} ∨ ILUShape 1 us A st

/-- `compute` is the factorization on storage of the right shape; on a new object the storage holds the
matrix values. -/
theorem scalarCompute_split {isq : K → K} {conf : ILUConf} {A : SR K} {ord ordc : List Nat}
    {gilu gy gscale : List K} {st : ILUState K K}
    (hc : CompSetting conf.usescaling A ord ordc gilu gy gscale st) :
    ∃ st1 ilu0, ILUShape 1 conf.usescaling A st1 ∧ st1.iluvals = some ilu0 ∧
      ilu0.length = A.browptr⟦A.nbrows⟧ ∧
      (st = {} → ∀ p < A.browptr⟦A.nbrows⟧, ilu0⟦p⟧ = A.vals⟦p⟧) ∧
      (∀ l, st.iluvals = some l → ilu0 = l) ∧
      ∀ conf' : ILUConf, conf'.usescaling = conf.usescaling →
      scalarCompute isq conf' A ord ordc gilu gy gscale st = (do
        let (inf, ilu, scale) ← scalarIlu0Factorize isq A st1.plist conf'.nbuildsweeps conf'.factinit
          conf'.precinfo ord ordc ilu0 st1.scale
        .ok (inf, { st1 with iluvals := some ilu, scale := scale })) := by
  have hA := hc.full
  rcases hc.state with rfl | hsh
  · obtain ⟨pos, hpos, hposOk⟩ := compute_ILU_positions_correct A hA hc.sorted hc.diag
    obtain ⟨ilu0, he, h1, h2⟩ : Ok (parCells A ordc (fun j ilu => do
        let v ← rd A.vals j
        wr ilu j v) gilu) (fun y => y.length = A.browptr⟦A.nbrows⟧ ∧
          ∀ c < A.browptr⟦A.nbrows⟧, y⟦c⟧ = A.vals⟦c⟧) := by
      refine par_stored hA hc.ordc_perm hc.gilu_len _ fun i hi y' hl => ?_
      have := hA.val_len
      rw [rd_eq (by omega), ok_bind, wr_eq (by omega)]
    obtain ⟨y, hye, _⟩ : Ok (parFor A.nbrows ord (fun i y => wr y i 0) gy) (fun y => y.length = A.nbrows ∧
          ∀ c < A.nbrows, y⟦c⟧ = 0) :=
      par_cells hc.ord_perm hc.gy_len _ fun i hi y' hl => wr_eq (by omega)
    refine ⟨⟨some ilu0, allocScale conf gscale none, some y, pos⟩, ilu0, ⟨⟨_, rfl, h1⟩, ?_, hposOk⟩, rfl, h1, fun _ => h2,
      (by rintro l ⟨⟩), fun conf' hus => ?_⟩
    · unfold allocScale
      cases conf.usescaling
      · simp
      · simp only [if_true]; exact ⟨_, rfl, by rw [Nat.mul_one]; exact hc.gscale_len⟩
    · unfold scalarCompute scalarSetupStorage allocY allocScale
      simp only [Option.isNone_none, if_true, hus]
      rw [he, ok_bind, hye, ok_bind, ok_bind, ok_bind, hpos, ok_bind, ok_bind]
      rfl
  · obtain ⟨l, hl, hlen⟩ := hsh.ilu
    refine ⟨st, l, hsh, hl, hlen, ?_, ?_, fun conf' _ => ?_⟩
    · rintro rfl; cases hl
    · intro l' h; rw [hl] at h; cases h; rfl
    · unfold scalarCompute
      simp only [hl, ok_bind, Option.isNone_some, Bool.false_eq_true, if_false, deref]

/-- The factorization as its steps: after the scaling vector and the initial guess only the sweeps change
the factors, and the information is the pair of residuals. -/
theorem scalarFactorize_ok {isq : K → K} {us : Bool} {A : SR K} (hA : A.Full) (hS : A.Sorted)
    (hD : A.HasDiag) {pos : ILUPos} (hpos : ILUPosOk A pos) {k : Nat} {ft : FactInit} {info : Bool}
    {ord ordc : List Nat} (hord : ord.Perm (List.range A.nbrows)) {ilu0 : List K}
    (hl0 : ilu0.length = A.browptr⟦A.nbrows⟧) {sc : Option (List K)}
    (hsc : if us then ∃ s, sc = some s ∧ s.length = A.nbrows * 1 else sc = none) :
    ∃ sc', ScaleIs isq us A sc' ∧
      (∀ res, scalarIlu0Factorize isq A pos k ft info ord ordc ilu0 sc = .ok res →
        res.2.2 = sc' ∧ ∃ ilu1, scalarFactInit A ft sc' ord ordc ilu0 = .ok ilu1 ∧
          ilu1.length = A.browptr⟦A.nbrows⟧ ∧
          iluSweeps A (scalarScale? sc') pos k ilu1 = .ok res.2.1 ∧
          res.1 = if info then some
            ⟨∑ i ∈ range A.nbrows, ∑ p ∈ Ico A.browptr⟦i⟧ A.browptr⟦i + 1⟧,
              |scaledEntry isq us A (A.rowOf p) A.bcolind⟦p⟧ - luProd A ilu1 i A.bcolind⟦p⟧|,
             ∑ i ∈ range A.nbrows, ∑ p ∈ Ico A.browptr⟦i⟧ A.browptr⟦i + 1⟧,
              |scaledEntry isq us A (A.rowOf p) A.bcolind⟦p⟧ - luProd A res.2.1 i A.bcolind⟦p⟧|⟩
            else none) ∧
      (∀ ilu1, scalarFactInit A ft sc' ord ordc ilu0 = .ok ilu1 →
        (∀ ilu2, iluSweeps A (scalarScale? sc') pos k ilu1 = .ok ilu2 →
          ∃ inf, scalarIlu0Factorize isq A pos k ft info ord ordc ilu0 sc = .ok (inf, ilu2, sc')) ∧
        (∀ e, iluSweeps A (scalarScale? sc') pos k ilu1 = .error e →
          scalarIlu0Factorize isq A pos k ft info ord ordc ilu0 sc = .error e)) ∧
      (∀ e, scalarFactInit A ft sc' ord ordc ilu0 = .error e →
        scalarIlu0Factorize isq A pos k ft info ord ordc ilu0 sc = .error e) := by
  obtain ⟨sc', he, hsc'⟩ := scaleIs_step (isq := isq) hA hS hD hord hsc
  have hT := hsc'.scalOk hA hS
  have hres : ∀ ilu : List K, ilu.length = A.browptr⟦A.nbrows⟧ →
      iluRes (fun x : K => |x|) A (scalarScale? sc') pos ord ilu = _ := fun ilu hl =>
    iluRes_eq (fun x : K => |x|) hA hS hD hpos hT hord hl
  have hinit := scalarFactInit_post A ft sc' ord ordc hl0
  refine ⟨sc', hsc', ?_, ?_, ?_⟩
  · intro res hr
    unfold scalarIlu0Factorize at hr
    rw [he, ok_bind] at hr
    cases h1 : scalarFactInit A ft sc' ord ordc ilu0 with
    | error e => rw [h1] at hr; cases hr
    | ok ilu1 =>
      rw [h1, ok_bind] at hr
      have hl1 := hinit ilu1 h1
      rw [hres ilu1 hl1] at hr
      cases h2 : iluSweeps A (scalarScale? sc') pos k ilu1 with
      | error e =>
        rw [h2] at hr
        cases info <;> cases hr
      | ok ilu2 =>
        have hl2 : ilu2.length = A.browptr⟦A.nbrows⟧ := by
          rcases iluSweeps_fail hA hS hD hpos hT k hl1 with ⟨l, h3, h4⟩ | h3
          · rw [h2] at h3; cases h3; exact h4
          · rw [h2] at h3; cases h3
        rw [h2] at hr
        simp only [ok_bind] at hr
        rw [hres ilu2 hl2] at hr
        cases info with
        | false =>
          cases hr
          exact ⟨rfl, ilu1, rfl, hl1, h2, rfl⟩
        | true =>
          cases hr
          exact ⟨rfl, ilu1, rfl, hl1, h2, rfl⟩
  · intro ilu1 h1
    have hl1 := hinit ilu1 h1
    constructor
    · intro ilu2 h2
      have hl2 : ilu2.length = A.browptr⟦A.nbrows⟧ := by
        rcases iluSweeps_fail hA hS hD hpos hT k hl1 with ⟨l, h3, h4⟩ | h3
        · rw [h2] at h3; cases h3; exact h4
        · rw [h2] at h3; cases h3
      unfold scalarIlu0Factorize
      rw [he, ok_bind, h1, ok_bind, hres ilu1 hl1, h2]
      simp only [ok_bind]
      rw [hres ilu2 hl2]
      cases info
      · exact ⟨_, rfl⟩
      · exact ⟨_, rfl⟩
    · intro e h2
      unfold scalarIlu0Factorize
      rw [he, ok_bind, h1, ok_bind, hres ilu1 hl1, h2]
      cases info <;> rfl
  · intro e h1
    unfold scalarIlu0Factorize
    rw [he, ok_bind, h1]; rfl

/-- The information a `compute` reports. -/
def remNorm (A : SR K) (S : Nat → Nat → K) (ilu : List K) : K :=
  ∑ i ∈ range A.nbrows, ∑ p ∈ Ico A.browptr⟦i⟧ A.browptr⟦i + 1⟧,
    |S i A.bcolind⟦p⟧ - luProd A ilu i A.bcolind⟦p⟧|

omit [DecidableEq K] in
theorem remNorm_eq {A : SR K} (hA : A.Full) (S : Nat → Nat → K) (ilu : List K) :
    (∑ i ∈ range A.nbrows, ∑ p ∈ Ico A.browptr⟦i⟧ A.browptr⟦i + 1⟧,
      |S (A.rowOf p) A.bcolind⟦p⟧ - luProd A ilu i A.bcolind⟦p⟧|) = remNorm A S ilu := by
  unfold remNorm
  refine sum_congr rfl fun i hi => sum_congr rfl fun p hp => ?_
  rw [hA.rowOf_eq (mem_range.mp hi) ⟨(mem_Ico.mp hp).1, (mem_Ico.mp hp).2⟩]

omit [DecidableEq K] [LinearOrder K] in
theorem exact_iff_pos {V : Type} {A : SR V} {m : Nat} (hA : A.Full m) {S : Nat → Nat → K} {ilu : List K} :
    ExactILU A S ilu ↔ ∀ p < A.browptr⟦A.nbrows⟧,
      luProd A ilu (A.rowOf p) A.bcolind⟦p⟧ = S (A.rowOf p) A.bcolind⟦p⟧ := by
  constructor
  · intro h p hp
    have := hA.rowOf_spec hp
    exact h _ this.1 p this.2
  · intro h i hi p hp
    have := h p (hA.lt_nnz hi hp.2)
    rwa [hA.rowOf_eq hi hp] at this

/-! ### C18 -/

omit [LinearOrder K] in
/-- The initialisations do not fail. -/
theorem scalarFactInit_ok {isq : K → K} {conf : ILUConf} {A : SR K} {ord ordc : List Nat}
    {gilu gy gscale : List K} {st : ILUState K K}
    (hc : CompSetting conf.usescaling A ord ordc gilu gy gscale st)
    (hft : conf.factinit ≠ .sgs ∨
      (conf.usescaling = false ∧ ∀ i < A.nbrows, A.entry i i ≠ 0)) {sc' : Option (List K)}
    (hsc' : ScaleIs isq conf.usescaling A sc') {ilu0 : List K}
    (hl0 : ilu0.length = A.browptr⟦A.nbrows⟧) :
    Ok (scalarFactInit A conf.factinit sc' ord ordc ilu0)
      (fun l => l.length = A.browptr⟦A.nbrows⟧) := by
    have hA := hc.full
    unfold scalarFactInit
    have hO : ∀ l : List K, l.length = A.browptr⟦A.nbrows⟧ → Ok (factInitOriginal A sc' ord ordc l)
      (fun l => l.length = A.browptr⟦A.nbrows⟧) := fun l hl =>
        (factInitOriginal_ok hA sc' hsc'.length hc.ord_perm hc.ordc_perm hl).mono fun _ h => h.1
    cases hf : conf.factinit with
    | none => exact Ok.pure hl0
    | original => exact hO _ hl0
    | zero =>
      refine Ok.bind (par_stored hA hc.ordc_perm hl0 (fun _ => 0) fun i hi y' hl => wr_eq (by omega)) ?_
      rintro l ⟨h1, _⟩
      exact hO _ h1
    | sgs =>
      rcases hft with h | ⟨h1, h2⟩
      · exact absurd hf h
      · have : sc' = none := by
          have := hsc'
          rw [h1] at this
          simpa [ScaleIs] using this
        subst this
        refine (factInitSgs_ok hA hc.sorted hc.diag (fun i hi => ?_) hc.ord_perm hl0).mono fun _ h => h.1
        have h3 := hA.entry_stored hc.sorted hi (hc.diag.inRow hi)
        rw [hc.diag.diag_col i hi] at h3
        rw [← h3]; exact h2 i hi



/-- **C18.** A sequential `compute` with at least one build sweep that ends without dividing by a zero pivot
leaves factors with `L U` equal to the (symmetrically scaled) matrix at every stored position, and the
scaling vector in use. For any initial guess, any earlier contents of the object, any
execution order of the parallel loops. -/
theorem scalar_ilu_compute_exact {isq : K → K} {conf : ILUConf} {A : SR K} {ord ordc : List Nat}
    {gilu gy gscale : List K} {st st' : ILUState K K} {inf : Option (RemInfo K)}
    (hc : CompSetting conf.usescaling A ord ordc gilu gy gscale st) (hk : 1 ≤ conf.nbuildsweeps)
    (h : scalarCompute isq conf A ord ordc gilu gy gscale st = .ok (inf, st')) :
    ILUShape 1 conf.usescaling A st' ∧ ScaleIs isq conf.usescaling A st'.scale ∧
    ∃ ilu, st'.iluvals = some ilu ∧ ilu.length = A.browptr⟦A.nbrows⟧ ∧
      ExactILU A (scaledEntry isq conf.usescaling A) ilu ∧
      UsedPivotsOk A ilu := by
  have hA := hc.full
  obtain ⟨st1, ilu0, hsh, _, hl0, _, _, he⟩ := scalarCompute_split (isq := isq) hc
  obtain ⟨sc', hsc', hok, _⟩ := scalarFactorize_ok (isq := isq) (k := conf.nbuildsweeps)
    (ft := conf.factinit) (info := conf.precinfo) (ordc := ordc) hA hc.sorted hc.diag hsh.plist
    hc.ord_perm hl0 hsh.scale
  rw [he conf rfl] at h
  cases hf : scalarIlu0Factorize isq A st1.plist conf.nbuildsweeps conf.factinit
          conf.precinfo ord ordc ilu0 st1.scale with
  | error e => rw [hf] at h; cases h
  | ok res =>
    rw [hf] at h
    obtain ⟨h1, ilu1, h2, h3, h4, h5⟩ := hok res hf
    obtain ⟨r1, r2, r3⟩ := res
    dsimp only at h1 h4 h5
    subst h1
    cases h
    obtain ⟨h6, h7⟩ := iluSweeps_sound hA hc.sorted hc.diag hsh.plist (hsc'.scalOk hA hc.sorted) hk h3 h4
    refine ⟨⟨⟨_, rfl, h6⟩, ?_, hsh.plist⟩, hsc', r2, rfl, h6, ?_, ?_⟩
    · revert hsc'
      unfold ScaleIs
      split
      · rintro ⟨s, h8, h9, _⟩; exact ⟨s, h8, by omega⟩
      · exact fun h => h
    · rw [exact_iff_pos hA]
      exact fun p hp => (h7 p hp).1
    · intro i hi p hp hlt
      have := (h7 p (hA.lt_nnz hi hp.2)).2
      rw [hA.rowOf_eq hi hp] at this
      exact this hlt

/-- **C18**, converse direction: whenever exact factors with non-zero (used) pivots exist, `compute` (with an
initial guess that itself does not fail, see `scalar_ilu_compute_no_ub`) returns exactly these. -/
theorem scalar_ilu_compute_complete {isq : K → K} {conf : ILUConf} {A : SR K} {ord ordc : List Nat}
    {gilu gy gscale : List K} {st : ILUState K K}
    (hc : CompSetting conf.usescaling A ord ordc gilu gy gscale st) (hk : 1 ≤ conf.nbuildsweeps)
    (hft : conf.factinit ≠ .sgs ∨
      (conf.usescaling = false ∧ ∀ i < A.nbrows, A.entry i i ≠ 0)) {ex : List K}
    (hl : ex.length = A.browptr⟦A.nbrows⟧) (hex : ExactILU A (scaledEntry isq conf.usescaling A) ex)
    (hpiv : UsedPivotsOk A ex) :
    ∃ inf st', scalarCompute isq conf A ord ordc gilu gy gscale st = .ok (inf, st') ∧
      st'.iluvals = some ex := by
  have hA := hc.full
  obtain ⟨st1, ilu0, hsh, _, hl0, _, _, he⟩ := scalarCompute_split (isq := isq) hc
  obtain ⟨sc', hsc', _, hok, _⟩ := scalarFactorize_ok (isq := isq) (k := conf.nbuildsweeps)
    (ft := conf.factinit) (info := conf.precinfo) (ordc := ordc) hA hc.sorted hc.diag hsh.plist
    hc.ord_perm hl0 hsh.scale
  have hinit := scalarFactInit_ok hc hft hsc' hl0
  obtain ⟨ilu1, h1, hl1⟩ := hinit
  have h2 := iluSweeps_complete hA hc.sorted hc.diag hsh.plist (hsc'.scalOk hA hc.sorted) hk hl1 hl (by
    intro p hp
    refine ⟨(exact_iff_pos hA).mp hex p hp, fun hlt => ?_⟩
    obtain ⟨h3, h4⟩ := hA.rowOf_spec hp
    exact hpiv _ h3 p h4 hlt)
  obtain ⟨inf, h3⟩ := (hok ilu1 h1).1 ex h2
  exact ⟨inf, { st1 with iluvals := some ex, scale := sc' }, by rw [he conf rfl, h3]; rfl, rfl⟩

/-- **C18**, safety: the only way a sequential `compute` fails is a zero pivot. Not so with `init_sgs` and
scaling together, see `scalar_ilu_scaled_sgs_ub`. -/
theorem scalar_ilu_compute_no_ub_partial {isq : K → K} {conf : ILUConf} {A : SR K} {ord ordc : List Nat}
    {gilu gy gscale : List K} {st : ILUState K K}
    (hc : CompSetting conf.usescaling A ord ordc gilu gy gscale st)
    (hft : conf.factinit ≠ .sgs ∨
      (conf.usescaling = false ∧ ∀ i < A.nbrows, A.entry i i ≠ 0)) :
    (∃ inf st', scalarCompute isq conf A ord ordc gilu gy gscale st = .ok (inf, st')) ∨
      scalarCompute isq conf A ord ordc gilu gy gscale st = .error .divzero := by
  have hA := hc.full
  obtain ⟨st1, ilu0, hsh, _, hl0, _, _, he⟩ := scalarCompute_split (isq := isq) hc
  obtain ⟨sc', hsc', _, hok, _⟩ := scalarFactorize_ok (isq := isq) (k := conf.nbuildsweeps)
    (ft := conf.factinit) (info := conf.precinfo) (ordc := ordc) hA hc.sorted hc.diag hsh.plist
    hc.ord_perm hl0 hsh.scale
  have hinit := scalarFactInit_ok hc hft hsc' hl0
  obtain ⟨ilu1, h1, hl1⟩ := hinit
  rcases iluSweeps_fail hA hc.sorted hc.diag hsh.plist (hsc'.scalOk hA hc.sorted) conf.nbuildsweeps hl1
    with ⟨ilu2, h2, _⟩ | h2
  · obtain ⟨inf, h3⟩ := (hok ilu1 h1).1 ilu2 h2
    exact Or.inl ⟨inf, _, by rw [he conf rfl, h3]; rfl⟩
  · right
    rw [he conf rfl, (hok ilu1 h1).2 _ h2]; rfl

/-- A rational matrix with fill-in, pattern `[x x . x; x x x .; . x x x; x . x x]`. -/
def exQ : SR ℚ :=
  { browptr := [0, 3, 6, 9, 12], bcolind := [0, 1, 3, 0, 1, 2, 1, 2, 3, 0, 2, 3],
    vals := [2, 1, 1, 4, 3, 1, 2, 5, 1, 6, 3, 9], diagind := [0, 4, 7, 11],
    browendptr := [3, 6, 9, 12], nbrows := 4, nnzb := 12, nbstored := 12 }

theorem exQ_full : exQ.Full := by constructor <;> decide
theorem exQ_sorted : exQ.Sorted := SR.sorted_of_check (by decide)
theorem exQ_diag : exQ.HasDiag := by constructor <;> decide

/-- The setting is met by a new object on `exQ`. -/
theorem exQ_setting (us : Bool) : CompSetting us exQ [2, 0, 1, 3] (List.range 12)
    (List.replicate 12 7) (List.replicate 4 7) (List.replicate 4 7) {} where
  full := exQ_full
  sorted := exQ_sorted
  diag := exQ_diag
  ord_perm := by decide
  ordc_perm := by decide
  gilu_len := by decide
  gy_len := by decide
  gscale_len := by decide
  state := Or.inl rfl

/-- Non-vacuity: `compute` on `exQ` succeeds, here with one sweep and without scaling, and the
factors are not the matrix. -/
example : (scalarCompute (fun x : ℚ => x⁻¹) ⟨false, 1, .original, true⟩ exQ [2, 0, 1, 3] (List.range 12)
    (List.replicate 12 7) (List.replicate 4 7) (List.replicate 4 7) {}).map
      (fun r => (r.1, r.2.iluvals)) =
    .ok (some ⟨41, 0⟩, some [2, 1, 1, 2, 1, 1, 2, 3, 1, 3, 1, 5]) := by
  decide +kernel

/-- Non-vacuity with scaling and several sweeps. -/
example : ((scalarCompute (fun x : ℚ => x⁻¹) ⟨true, 3, .none, true⟩ exQ [2, 0, 1, 3] (List.range 12)
    (List.replicate 12 7) (List.replicate 4 7) (List.replicate 4 7) {}).map
      (fun r => (r.1.map RemInfo.final, r.2.scale))) =
    .ok (some 0, some [1/2, 1/3, 1/5, 1/9]) := by
  decide +kernel

/-- A tridiagonal matrix of order 3. -/
def exTri : SR ℚ :=
  { browptr := [0, 2, 5, 7], bcolind := [0, 1, 0, 1, 2, 1, 2],
    vals := [2, -1, -1, 2, -1, -1, 2], diagind := [0, 3, 6],
    browendptr := [2, 5, 7], nbrows := 3, nnzb := 7, nbstored := 7 }

/-- **C18/C24 violated with scaling and `init_sgs`.** The code reads `scale[diagind[c]]`
(`src/async_ilu_factor.cpp` lines 121-122), out of the bounds of `scale`, for a well-formed symmetric
positive definite tridiagonal matrix. -/
theorem scalar_ilu_scaled_sgs_ub :
    exTri.Full ∧ exTri.Sorted ∧ exTri.HasDiag ∧
    scalarCompute (fun x : ℚ => x⁻¹) ⟨true, 1, .sgs, false⟩ exTri [0, 1, 2] (List.range 7)
      (List.replicate 7 0) (List.replicate 3 0) (List.replicate 3 0) {} = .error .ub := by
  refine ⟨by constructor <;> decide, SR.sorted_of_check (by decide), by constructor <;> decide, ?_⟩
  decide +kernel

/-! ### C20 -/

/-- **C20.** Two sequential computations for the same matrix, with different initialisations, sweep counts, loop
orders, allocations, and objects with different histories, end with the same factors and scaling. -/
theorem scalar_ilu_compute_independent {isq : K → K} {A : SR K}
    {conf conf' : ILUConf} {ord ordc ord' ordc' : List Nat}
    {gilu gy gscale gilu' gy' gscale' : List K} {st st₁ st' st₁' : ILUState K K}
    {inf inf' : Option (RemInfo K)}
    (hc : CompSetting conf.usescaling A ord ordc gilu gy gscale st)
    (hc' : CompSetting conf'.usescaling A ord' ordc' gilu' gy' gscale' st')
    (hus : conf.usescaling = conf'.usescaling) (hk : 1 ≤ conf.nbuildsweeps)
    (hk' : 1 ≤ conf'.nbuildsweeps)
    (h : scalarCompute isq conf A ord ordc gilu gy gscale st = .ok (inf, st₁))
    (h' : scalarCompute isq conf' A ord' ordc' gilu' gy' gscale' st' = .ok (inf', st₁')) :
    st₁.iluvals = st₁'.iluvals ∧ st₁.scale = st₁'.scale := by
  have hA := hc.full
  obtain ⟨_, hs, ilu, h1, h2, h3, h4⟩ := scalar_ilu_compute_exact hc hk h
  obtain ⟨_, hs', ilu', h1', h2', h3', h4'⟩ := scalar_ilu_compute_exact hc' hk' h'
  constructor
  · obtain ⟨pos, _, hpos⟩ := compute_ILU_positions_correct A hA hc.sorted hc.diag
    rw [h1, h1']
    have hT := hs.scalOk hA hc.sorted
    have e : ∀ {l : List K}, ExactILU A (scaledEntry isq conf.usescaling A) l → UsedPivotsOk A l →
        ∀ p < A.browptr⟦A.nbrows⟧, luProd A l (A.rowOf p) A.bcolind⟦p⟧ =
            scaledEntry isq conf.usescaling A (A.rowOf p) A.bcolind⟦p⟧ ∧
          (A.bcolind⟦p⟧ < A.rowOf p → IsUnit (upperFactor A l A.bcolind⟦p⟧ A.bcolind⟦p⟧)) := by
      intro l h1 h2 p hp
      have := hA.rowOf_spec hp
      exact ⟨(exact_iff_pos hA).mp h1 p hp, h2 _ this.1 p this.2⟩
    rw [← hus] at h3'
    have r1 := iluSweeps_complete hA hc.sorted hc.diag hpos hT (k := 1) (by omega) h2 h2 (e h3 h4)
    have r2 := iluSweeps_complete hA hc.sorted hc.diag hpos hT (k := 1) (by omega) h2 h2' (e h3' h4')
    rw [r1] at r2
    cases r2; rfl
  · rw [← hus] at hs'
    exact hs.unique hs'

/-- One call of `compute`: the matrix values at that time, loop orders and fresh memory contents. -/
structure CompStep (K : Type) where
  vals : List K
  ord : List Nat
  ordc : List Nat
  gilu : List K
  gy : List K
  gscale : List K

/-- A history of one preconditioner object: the matrix values change, `compute` is called, and so on. -/
def computeHistory (isq : K → K) (conf : ILUConf) (A : SR K) (steps : List (CompStep K))
    (st : ILUState K K) : C (ILUState K K) :=
  forList steps (fun s st => do
    let r ← scalarCompute isq conf { A with vals := s.vals } s.ord s.ordc s.gilu s.gy s.gscale st
    .ok r.2) st

/-- The step uses arrays of the right sizes. -/
structure CompStep.Valid (A : SR K) (s : CompStep K) : Prop where
  full : ({ A with vals := s.vals } : SR K).Full
  ord_perm : s.ord.Perm (List.range A.nbrows)
  ordc_perm : s.ordc.Perm (List.range A.browptr⟦A.nbrows⟧)
  gilu_len : s.gilu.length = A.browptr⟦A.nbrows⟧
  gy_len : s.gy.length = A.nbrows
  gscale_len : s.gscale.length = A.nbrows

omit [Field K] [DecidableEq K] [LinearOrder K] in
theorem ILUShape.withVals {us : Bool} {A : SR K} {st : ILUState K K} (v w : List K)
    (h : ILUShape 1 us { A with vals := v } st) : ILUShape 1 us { A with vals := w } st :=
  ⟨h.ilu, h.scale, ⟨h.plist.ptr_len, h.plist.ptr_zero, h.plist.ptr_mono, h.plist.low_len,
    h.plist.up_len, h.plist.sound, h.plist.incr, h.plist.complete⟩⟩

theorem computeHistory_shape {isq : K → K} {conf : ILUConf} {A : SR K} (hS : A.Sorted)
    (hD : A.HasDiag) (hk : 1 ≤ conf.nbuildsweeps) {steps : List (CompStep K)}
    (hv : ∀ s ∈ steps, s.Valid A) {st st' : ILUState K K}
    (hst : st = {} ∨ ILUShape 1 conf.usescaling A st)
    (h : computeHistory isq conf A steps st = .ok st') :
    st' = {} ∨ ILUShape 1 conf.usescaling A st' := by
  induction steps generalizing st with
  | nil => cases h; exact hst
  | cons s steps ih =>
    unfold computeHistory at h
    rw [forList_cons] at h
    cases hc : scalarCompute isq conf { A with vals := s.vals } s.ord s.ordc s.gilu s.gy s.gscale st with
    | error e => rw [hc] at h; cases h
    | ok r =>
      rw [hc] at h
      have hs := hv s (by simp)
      have := (scalar_ilu_compute_exact (st' := r.2) (inf := r.1) ⟨hs.full, hS,
        ⟨hD.diag_len, hD.diag_ge, hD.diag_lt, hD.diag_col⟩,
        hs.ord_perm, hs.ordc_perm, hs.gilu_len, hs.gy_len, hs.gscale_len, hst.imp id fun h =>
          ILUShape.withVals A.vals s.vals h⟩ hk hc).1
      refine ih (fun s' hs' => hv s' (by simp [hs'])) (Or.inr ?_) h
      exact ILUShape.withVals s.vals A.vals this

/-- **C20**, for histories: whatever was computed before, on two objects that may differ in initialisation option
and number of sweeps, the factors and the scaling after a `compute` depend only on the matrix values at
that `compute`. -/
theorem scalar_ilu_history_independent {isq : K → K} {A : SR K} (hS : A.Sorted) (hD : A.HasDiag)
    {conf conf' : ILUConf} (hus : conf.usescaling = conf'.usescaling) (hk : 1 ≤ conf.nbuildsweeps)
    (hk' : 1 ≤ conf'.nbuildsweeps) {steps steps' : List (CompStep K)} {s s' : CompStep K}
    (hv : ∀ t ∈ steps ++ [s], t.Valid A) (hv' : ∀ t ∈ steps' ++ [s'], t.Valid A)
    (hvals : s.vals = s'.vals) {st st' : ILUState K K}
    (h : computeHistory isq conf A (steps ++ [s]) {} = .ok st)
    (h' : computeHistory isq conf' A (steps' ++ [s']) {} = .ok st') :
    st.iluvals = st'.iluvals ∧ st.scale = st'.scale := by
  have key : ∀ (conf : ILUConf) (steps : List (CompStep K)) (s : CompStep K) (st : ILUState K K),
      1 ≤ conf.nbuildsweeps → (∀ t ∈ steps ++ [s], t.Valid A) →
      computeHistory isq conf A (steps ++ [s]) {} = .ok st →
      ∃ st0 inf, CompSetting conf.usescaling { A with vals := s.vals } s.ord s.ordc s.gilu s.gy s.gscale st0 ∧
        scalarCompute isq conf { A with vals := s.vals } s.ord s.ordc s.gilu s.gy s.gscale st0 =
          .ok (inf, st) := by
    intro conf steps s st hk hv h
    unfold computeHistory at h
    rw [forList_append] at h
    cases h0 : computeHistory isq conf A steps {} with
    | error e => unfold computeHistory at h0; rw [h0] at h; cases h
    | ok st0 =>
      have hsh := computeHistory_shape hS hD hk (fun t ht => hv t (by simp [ht])) (Or.inl rfl) h0
      unfold computeHistory at h0
      rw [h0, ok_bind, forList_cons] at h
      cases hc : scalarCompute isq conf { A with vals := s.vals } s.ord s.ordc s.gilu s.gy s.gscale st0 with
      | error e => rw [hc] at h; cases h
      | ok r =>
        rw [hc] at h
        cases h
        have hs := hv s (by simp)
        refine ⟨st0, r.1, ⟨hs.full, hS, ⟨hD.diag_len, hD.diag_ge, hD.diag_lt, hD.diag_col⟩,
          hs.ord_perm, hs.ordc_perm, hs.gilu_len, hs.gy_len, hs.gscale_len, hsh.imp id fun h =>
          ILUShape.withVals A.vals s.vals h⟩, hc⟩
  obtain ⟨st0, inf, hc, he⟩ := key conf steps s st hk hv h
  obtain ⟨st0', inf', hc', he'⟩ := key conf' steps' s' st' hk' hv' h'
  rw [← hvals] at hc' he'
  exact scalar_ilu_compute_independent hc hc' hus hk hk' he he'

/-- Non-vacuity: a history of three computations succeeds. -/
example : ((computeHistory (fun x : ℚ => x⁻¹) ⟨true, 1, .none, false⟩ exQ
    [⟨exQ.vals, [0, 1, 2, 3], List.range 12, List.replicate 12 7, List.replicate 4 7, List.replicate 4 7⟩,
     ⟨exQ.vals.map (· * 2), [3, 1, 2, 0], List.range 12, [], [], []⟩,
     ⟨exQ.vals.map (· - 1/5), [3, 1, 2, 0], List.range 12, [], [], []⟩] {}).map
      (fun st => st.iluvals.isSome)) = .ok true := by
  decide +kernel

/-! ### C23 -/

omit [DecidableEq K] in
/-- **C23**, specification side: a sum of moduli is zero iff `L U` is the matrix on the pattern. -/
theorem remNorm_eq_zero_iff [IsStrictOrderedRing K] {A : SR K} {S : Nat → Nat → K} {ilu : List K} :
    remNorm A S ilu = 0 ↔ ExactILU A S ilu := by
  unfold remNorm ExactILU
  rw [sum_eq_zero_iff_of_nonneg fun i _ => sum_nonneg fun p _ => abs_nonneg _]
  refine forall_congr' fun i => ?_
  rw [mem_range]
  refine forall_congr' fun hi => ?_
  rw [sum_eq_zero_iff_of_nonneg fun p _ => abs_nonneg _]
  refine forall_congr' fun p => ?_
  rw [mem_Ico]
  unfold SR.InRow
  refine forall_congr' fun hp => ?_
  rw [abs_eq_zero, sub_eq_zero, eq_comm]

omit [DecidableEq K] in
/-- **C23.** The nonlinear residual of any factors equals the sum over the stored positions of
`|S - L U|`, for every order of the reduction; it is zero exactly for exact factors. -/
theorem scalar_ilu_residual_correct [IsStrictOrderedRing K] {isq : K → K} {us : Bool} {A : SR K} (hA : A.Full)
    (hS : A.Sorted) (hD : A.HasDiag) {pos : ILUPos} (hpos : computeILUPositions A = .ok pos)
    {sc : Option (List K)} (hsc : ScaleIs isq us A sc)
    {ord : List Nat} (hord : ord.Perm (List.range A.nbrows)) {ilu : List K}
    (hl : ilu.length = A.browptr⟦A.nbrows⟧) :
    ∃ r, iluRes (fun x : K => |x|) A (scalarScale? sc) pos ord ilu = .ok r ∧
      r = remNorm A (scaledEntry isq us A) ilu ∧
      (r = 0 ↔ ExactILU A (scaledEntry isq us A) ilu) := by
  obtain ⟨pos', h1, hposOk⟩ := compute_ILU_positions_correct A hA hS hD
  rw [hpos] at h1; cases h1
  refine ⟨_, iluRes_eq _ hA hS hD hposOk (hsc.scalOk hA hS) hord hl, remNorm_eq hA _ _, ?_⟩
  rw [← remNorm_eq_zero_iff, ← remNorm_eq hA]

/-- **C23**, what the preconditioner information contains: the initial remainder is that of the factors with which
the sweeps start (what `compute` with zero sweeps leaves), the final one that of the factors
left by `compute`. -/
theorem scalar_ilu_compute_info {isq : K → K} {conf : ILUConf} {A : SR K} {ord ordc : List Nat}
    {gilu gy gscale : List K} {st st' : ILUState K K} {inf : Option (RemInfo K)}
    (hc : CompSetting conf.usescaling A ord ordc gilu gy gscale st)
    (h : scalarCompute isq conf A ord ordc gilu gy gscale st = .ok (inf, st')) :
    ∃ inf0 st0 ilu0 ilu, scalarCompute isq { conf with nbuildsweeps := 0 } A ord ordc gilu gy gscale st =
        .ok (inf0, st0) ∧ st0.iluvals = some ilu0 ∧ st'.iluvals = some ilu ∧
      inf = if conf.precinfo then
        some ⟨remNorm A (scaledEntry isq conf.usescaling A) ilu0,
          remNorm A (scaledEntry isq conf.usescaling A) ilu⟩ else none := by
  have hA := hc.full
  obtain ⟨st1, ilu0, hsh, _, hl0, _, hold, he⟩ := scalarCompute_split (isq := isq) hc
  obtain ⟨sc', hsc', hok, _⟩ := scalarFactorize_ok (isq := isq) (k := conf.nbuildsweeps)
    (ft := conf.factinit) (info := conf.precinfo) (ordc := ordc) hA hc.sorted hc.diag hsh.plist
    hc.ord_perm hl0 hsh.scale
  obtain ⟨sc0, hsc0, hex0, hok0, hfail0⟩ := scalarFactorize_ok (isq := isq) (k := 0)
    (ft := conf.factinit) (info := conf.precinfo) (ordc := ordc) hA hc.sorted hc.diag hsh.plist
    hc.ord_perm hl0 hsh.scale
  have he0 := he { conf with nbuildsweeps := 0 } rfl
  dsimp only at he0
  have hss : sc0 = sc' := hsc0.unique hsc'
  subst hss
  rw [he conf rfl] at h
  cases hf : scalarIlu0Factorize isq A st1.plist conf.nbuildsweeps conf.factinit
          conf.precinfo ord ordc ilu0 st1.scale with
  | error e => rw [hf] at h; cases h
  | ok res =>
    rw [hf] at h
    obtain ⟨h1, ilu1, h2, h3, h4, h5⟩ := hok res hf
    obtain ⟨r1, r2, r3⟩ := res
    dsimp only at h1 h4 h5
    subst h1
    cases h
    obtain ⟨inf0, h6⟩ := (hok0 ilu1 h2).1 ilu1 (by simp [iluSweeps])
    rw [h6] at he0
    refine ⟨inf0, { st1 with iluvals := some ilu1, scale := r3 }, ilu1, r2, he0, rfl, rfl, ?_⟩
    rw [h5, remNorm_eq hA, remNorm_eq hA]

/-- Non-vacuity of the residual theorem: `exQ` taken as its own factors has remainder 41. -/
example : iluRes (fun x : ℚ => |x|) exQ (scalarScale? none)
    ⟨[3, 6, 9, 10], [1, 5, 2, 8], [0, 0, 0, 0, 0, 1, 1, 1, 2, 2, 2, 2, 4]⟩ [3, 0, 1, 2] exQ.vals =
      .ok 41 := by
  decide +kernel

/-! ### C24 -/

/-- With zero sweeps `compute` leaves the initial factors. -/
theorem scalarCompute_zero {isq : K → K} {conf : ILUConf} {A : SR K} {ord ordc : List Nat}
    {gilu gy gscale : List K} {st : ILUState K K}
    (hc : CompSetting conf.usescaling A ord ordc gilu gy gscale st) (hk : conf.nbuildsweeps = 0) :
    ∃ sc' ilu0, ScaleIs isq conf.usescaling A sc' ∧ ilu0.length = A.browptr⟦A.nbrows⟧ ∧
      (st = {} → ∀ p < A.browptr⟦A.nbrows⟧, ilu0⟦p⟧ = A.vals⟦p⟧) ∧
      (∀ l, st.iluvals = some l → ilu0 = l) ∧
      ∀ ilu1, scalarFactInit A conf.factinit sc' ord ordc ilu0 = .ok ilu1 →
        ∃ inf st', scalarCompute isq conf A ord ordc gilu gy gscale st = .ok (inf, st') ∧
          st'.iluvals = some ilu1 := by
  have hA := hc.full
  obtain ⟨st1, ilu0, hsh, _, hl0, hnew, hold, he⟩ := scalarCompute_split (isq := isq) hc
  obtain ⟨sc', hsc', _, hok, _⟩ := scalarFactorize_ok (isq := isq) (k := conf.nbuildsweeps)
    (ft := conf.factinit) (info := conf.precinfo) (ordc := ordc) hA hc.sorted hc.diag hsh.plist
    hc.ord_perm hl0 hsh.scale
  refine ⟨sc', ilu0, hsc', hl0, hnew, hold, fun ilu1 h1 => ?_⟩
  obtain ⟨inf, h2⟩ := (hok ilu1 h1).1 ilu1 (by simp [iluSweeps, hk])
  refine ⟨inf, { st1 with iluvals := some ilu1, scale := sc' }, ?_, rfl⟩
  rw [he conf rfl, h2]; rfl

/-- **C24**, `init_original`: the initial factors are the (scaled) matrix. -/
theorem scalar_ilu_init_original {isq : K → K} {conf : ILUConf} {A : SR K} {ord ordc : List Nat}
    {gilu gy gscale : List K} {st : ILUState K K}
    (hc : CompSetting conf.usescaling A ord ordc gilu gy gscale st) (hk : conf.nbuildsweeps = 0)
    (hft : conf.factinit = .original) :
    ∃ inf st' ilu, scalarCompute isq conf A ord ordc gilu gy gscale st = .ok (inf, st') ∧
      st'.iluvals = some ilu ∧ ilu.length = A.browptr⟦A.nbrows⟧ ∧
      ∀ i < A.nbrows, ∀ j < A.nbrows, facEntry A ilu i j = scaledEntry isq conf.usescaling A i j := by
  have hA := hc.full
  obtain ⟨sc', ilu0, hsc, hl0, _, _, h⟩ := scalarCompute_zero (isq := isq) hc hk
  obtain ⟨ilu1, h1, h2, h3⟩ := factInitOriginal_ok hA sc' hsc.length hc.ord_perm hc.ordc_perm hl0
  obtain ⟨inf, st', h4, h5⟩ := h ilu1 (by rw [hft]; exact h1)
  refine ⟨inf, st', ilu1, h4, h5, h2, fun i hi j hj => ?_⟩
  by_cases hp : ∃ p, A.InRow i p ∧ A.bcolind⟦p⟧ = j
  · obtain ⟨p, hp, rfl⟩ := hp
    have hpn := hA.lt_nnz hi hp.2
    rw [facEntry_stored hA hc.sorted h2 hi hp, h3 p hpn, hsc.initVal hA hc.sorted hpn, hA.rowOf_eq hi hp]
  · push Not at hp
    rw [facEntry_unstored hA h2 hi hp]
    unfold scaledEntry
    rw [hA.entry_unstored hi hp]
    simp

/-- **C24 violated for `init_zero`** in the scalar code: for want of a `break` (`src/async_ilu_factor.cpp`
lines 48-54) it starts from the (scaled) matrix, exactly as `init_original`. -/
theorem scalar_ilu_init_zero_is_original {isq : K → K} {conf : ILUConf} {A : SR K} {ord ordc : List Nat}
    {gilu gy gscale : List K} {st : ILUState K K}
    (hc : CompSetting conf.usescaling A ord ordc gilu gy gscale st) (hk : conf.nbuildsweeps = 0)
    (hft : conf.factinit = .zero) :
    ∃ inf st' ilu, scalarCompute isq conf A ord ordc gilu gy gscale st = .ok (inf, st') ∧
      st'.iluvals = some ilu ∧ ilu.length = A.browptr⟦A.nbrows⟧ ∧
      ∀ i < A.nbrows, ∀ j < A.nbrows, facEntry A ilu i j = scaledEntry isq conf.usescaling A i j := by
  have hA := hc.full
  obtain ⟨sc', ilu0, hsc, hl0, _, _, h⟩ := scalarCompute_zero (isq := isq) hc hk
  obtain ⟨iluz, hz, hlz, _⟩ : Ok (parCells A ordc (fun i ilu => wr ilu i 0) ilu0)
      (fun y => y.length = A.browptr⟦A.nbrows⟧ ∧ ∀ c < A.browptr⟦A.nbrows⟧, y⟦c⟧ = (0 : K)) :=
    par_stored hA hc.ordc_perm hl0 (fun _ => 0) fun i hi y' hl => wr_eq (by omega)
  obtain ⟨ilu1, h1, h2, h3⟩ := factInitOriginal_ok hA sc' hsc.length hc.ord_perm hc.ordc_perm hlz
  obtain ⟨inf, st', h4, h5⟩ := h ilu1 (by rw [hft]; unfold scalarFactInit; rw [hz]; exact h1)
  refine ⟨inf, st', ilu1, h4, h5, h2, fun i hi j hj => ?_⟩
  by_cases hp : ∃ p, A.InRow i p ∧ A.bcolind⟦p⟧ = j
  · obtain ⟨p, hp, rfl⟩ := hp
    have hpn := hA.lt_nnz hi hp.2
    rw [facEntry_stored hA hc.sorted h2 hi hp, h3 p hpn, hsc.initVal hA hc.sorted hpn, hA.rowOf_eq hi hp]
  · push Not at hp
    rw [facEntry_unstored hA h2 hi hp]
    unfold scaledEntry
    rw [hA.entry_unstored hi hp]
    simp

/-- The negation of the `init_zero` part of C24 on a concrete matrix: the factors are not zero. -/
theorem scalar_ilu_init_zero_not_zero :
    (scalarCompute (fun x : ℚ => x⁻¹) ⟨false, 0, .zero, false⟩ exQ [2, 0, 1, 3] (List.range 12)
      (List.replicate 12 7) (List.replicate 4 7) (List.replicate 4 7) {}).map (fun r => r.2.iluvals) =
      .ok (some exQ.vals) ∧ exQ.vals ≠ List.replicate 12 0 := by
  decide +kernel

/-- **C24**, no initialisation (`init_none`): the sweeps start from the matrix values on a new object and
from the factors of the previous `compute` on a used one. -/
theorem scalar_ilu_init_none {isq : K → K} {conf : ILUConf} {A : SR K} {ord ordc : List Nat}
    {gilu gy gscale : List K} {st : ILUState K K}
    (hc : CompSetting conf.usescaling A ord ordc gilu gy gscale st) (hk : conf.nbuildsweeps = 0)
    (hft : conf.factinit = .none) :
    ∃ inf st' ilu, scalarCompute isq conf A ord ordc gilu gy gscale st = .ok (inf, st') ∧
      st'.iluvals = some ilu ∧ (st = {} → ilu = A.vals) ∧ (∀ l, st.iluvals = some l → ilu = l) := by
  have hA := hc.full
  obtain ⟨sc', ilu0, hsc, hl0, hnew, hold, h⟩ := scalarCompute_zero (isq := isq) hc hk
  obtain ⟨inf, st', h4, h5⟩ := h ilu0 (by rw [hft]; rfl)
  refine ⟨inf, st', ilu0, h4, h5, fun hst => ?_, hold⟩
  have := hA.val_len
  exact ext_get0 (by omega) fun p hp => hnew hst p (by omega)

/-- The product `(D + Lo) D⁻¹ (D + Up)` for the matrix `S` of order `n` with diagonal `D` and strict triangles
`Lo`, `Up`; `dinv k` is the inverse of `S k k`. -/
def sgsProd {R : Type} [Semiring R] (n : Nat) (S : Nat → Nat → R) (dinv : Nat → R) (i j : Nat) : R :=
  ∑ k ∈ range n, (if k ≤ i then S i k else 0) * dinv k * (if k ≤ j then S k j else 0)

/-- Factors `L = I + Lo D⁻¹`, `U = D + Up` have the SGS product. -/
theorem luProd_sgs {R : Type} [Ring R] {V : Type} {A : SR V} {m : Nat} (hA : A.Full m) (hS : A.Sorted)
    {S : Nat → Nat → R} {dinv : Nat → R} {ilu : List R}
    (hl : ilu.length = A.browptr⟦A.nbrows⟧) (hd : ∀ i < A.nbrows, S i i * dinv i = 1)
    (hS0 : ∀ i < A.nbrows, ∀ j, (∀ p, A.InRow i p → A.bcolind⟦p⟧ ≠ j) → S i j = 0)
    (h : ∀ i < A.nbrows, ∀ p, A.InRow i p → ilu⟦p⟧ =
      if A.bcolind⟦p⟧ < i then S i A.bcolind⟦p⟧ * dinv A.bcolind⟦p⟧ else S i A.bcolind⟦p⟧) :
    ∀ i < A.nbrows, ∀ j < A.nbrows, luProd A ilu i j = sgsProd A.nbrows S dinv i j := by
  intro i hi j hj
  have hfe : ∀ i < A.nbrows, ∀ j, facEntry A ilu i j = if j < i then S i j * dinv j else S i j := by
    intro i hi j
    by_cases hp : ∃ p, A.InRow i p ∧ A.bcolind⟦p⟧ = j
    · obtain ⟨p, hp, rfl⟩ := hp
      rw [facEntry_stored hA hS hl hi hp, h i hi p hp]
    · push Not at hp
      rw [facEntry_unstored hA hl hi hp, hS0 i hi j hp]
      simp
  unfold luProd sgsProd
  refine sum_congr rfl fun k hk => ?_
  rw [mem_range] at hk
  unfold lowerFactor upperFactor
  rw [hfe i hi, hfe k hk]
  have hu : (if k ≤ j then if j < k then S k j * dinv j else S k j else 0) =
      if k ≤ j then S k j else 0 := by
    by_cases h2 : k ≤ j
    · rw [if_pos h2, if_pos h2, if_neg (by omega)]
    · rw [if_neg h2, if_neg h2]
  rw [hu]
  congr 1
  rcases Nat.lt_trichotomy k i with h1 | h1 | h1
  · rw [if_pos h1, if_pos h1, if_pos (by omega)]
  · subst h1
    rw [if_neg (by omega), if_pos rfl, if_pos (by omega), hd k hk]
  · rw [if_neg (by omega), if_neg (by omega), if_neg (by omega), zero_mul]

/-- **C24**, `init_sgs` without scaling: the initial factors have `L U = (D + Lo) D⁻¹ (D + Up)`, at every
position. With scaling the scalar code reads out of bounds, `scalar_ilu_scaled_sgs_ub`. -/
theorem scalar_ilu_init_sgs_partial {isq : K → K} {conf : ILUConf} {A : SR K} {ord ordc : List Nat}
    {gilu gy gscale : List K} {st : ILUState K K}
    (hc : CompSetting conf.usescaling A ord ordc gilu gy gscale st) (hk : conf.nbuildsweeps = 0)
    (hft : conf.factinit = .sgs) (hus : conf.usescaling = false)
    (hnz : ∀ i < A.nbrows, A.entry i i ≠ 0) :
    ∃ inf st' ilu, scalarCompute isq conf A ord ordc gilu gy gscale st = .ok (inf, st') ∧
      st'.iluvals = some ilu ∧ ilu.length = A.browptr⟦A.nbrows⟧ ∧
      ∀ i < A.nbrows, ∀ j < A.nbrows,
        luProd A ilu i j = sgsProd A.nbrows A.entry (fun k => (A.entry k k)⁻¹) i j := by
  have hA := hc.full
  obtain ⟨sc', ilu0, hsc, hl0, _, _, h⟩ := scalarCompute_zero (isq := isq) hc hk
  have hn : sc' = none := by
    rw [hus] at hsc
    simpa [ScaleIs] using hsc
  subst hn
  have hde : ∀ i < A.nbrows, A.entry i i = A.vals⟦A.diagind⟦i⟧⟧ := by
    intro i hi
    have h3 := hA.entry_stored hc.sorted hi (hc.diag.inRow hi)
    rwa [hc.diag.diag_col i hi] at h3
  obtain ⟨ilu1, h1, h2, h3⟩ := factInitSgs_ok hA hc.sorted hc.diag
    (fun i hi => by rw [← hde i hi]; exact hnz i hi) hc.ord_perm hl0
  obtain ⟨inf, st', h4, h5⟩ := h ilu1 (by rw [hft]; exact h1)
  refine ⟨inf, st', ilu1, h4, h5, h2, luProd_sgs hA hc.sorted h2 ?_ ?_ ?_⟩
  · intro i hi; exact mul_inv_cancel₀ (hnz i hi)
  · intro i hi j hp; exact hA.entry_unstored hi hp
  · intro i hi p hp
    have hpn := hA.lt_nnz hi hp.2
    rw [h3 p hpn, hA.rowOf_eq hi hp, hA.entry_stored hc.sorted hi hp, hde _ (hA.col_lt p hpn)]

/-- Non-vacuity: `init_sgs` on `exQ`. -/
example : (scalarCompute (fun x : ℚ => x⁻¹) ⟨false, 0, .sgs, false⟩ exQ [2, 0, 1, 3] (List.range 12)
      (List.replicate 12 7) (List.replicate 4 7) (List.replicate 4 7) {}).map (fun r => r.2.iluvals) =
      .ok (some [2, 1, 1, 2, 3, 1, 2/3, 5, 1, 3, 3/5, 9]) := by
  decide +kernel

end Blasted
