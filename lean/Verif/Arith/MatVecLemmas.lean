import Verif.Arith.RowLemmas
import Verif.MatVec.Lemmas

/-!
# The matrix-vector products in an arbitrary arithmetic
-/

namespace Blasted

variable {K : Type}

theorem addUp_self [Add K] (f : Nat → K) (lo : Nat) (s : K) : addUp f lo lo s = s := by
  unfold addUp; rw [Nat.sub_self]; rfl

theorem addUp_succ [Add K] (f : Nat → K) {lo t : Nat} (h : lo ≤ t) (s : K) : addUp f lo (t + 1) s = addUp f lo t s + f t := by
  unfold addUp
  rw [Nat.succ_sub h, List.range'_concat, List.foldl_append]
  simp only [List.foldl_cons, List.foldl_nil, Nat.one_mul]
  rw [Nat.add_sub_cancel' h]

theorem subUp_self [Sub K] (f : Nat → K) (lo : Nat) (s : K) : subUp f lo lo s = s := by
  unfold subUp; rw [Nat.sub_self]; rfl

theorem subUp_succ [Sub K] (f : Nat → K) {lo t : Nat} (h : lo ≤ t) (s : K) : subUp f lo (t + 1) s = subUp f lo t s - f t := by
  unfold subUp
  rw [Nat.succ_sub h, List.range'_concat, List.foldl_append]
  simp only [List.foldl_cons, List.foldl_nil, Nat.one_mul]
  rw [Nat.add_sub_cancel' h]

section
variable [Zero K] [Add K] [Mul K]

omit [Mul K] in
/-- Cell `i` accumulates over a loop: all other cells unchanged. -/
theorem forRange_accAny {lo hi : Nat} (hle : lo ≤ hi) {body : Nat → List K → C (List K)} {y : List K} {i : Nat} (hi' : i < y.length) (g : Nat → K)
    (h : ∀ k, lo ≤ k → k < hi → ∀ y' : List K, y'.length = y.length → body k y' = .ok (y'.set i (y'⟦i⟧ + g k))) :
    forRange lo hi body y = .ok (y.set i (addUp g lo hi y⟦i⟧)) := by
  have := forRange_ok (body := body) (s := y) (fun k y' => y' = y.set i (addUp g lo k y⟦i⟧)) hle ?_ ?_
  · obtain ⟨a, e, rfl⟩ := this; exact e
  · rw [addUp_self]
    apply ext_get0 (by simp)
    intro j hj
    rw [get0_set]
    split
    · rename_i h; rw [h.1]
    · rfl
  · intro k y' h1 h2 hy
    rw [h k h1 h2 y' (by simp [hy])]
    refine Ok.pure ?_
    subst hy
    rw [get0_set_self hi', addUp_succ g h1, List.set_set]

theorem csrApplyRow_any {A : SR K} (hA : A.Full) {x y : List K} (hx : x.length = A.nbrows) {i : Nat} (hi : i < A.nbrows) (hy : y.length = A.nbrows) :
    csrApplyRow A x i y = .ok (y.set i (addUp (fun p => A.vals⟦p⟧ * x⟦A.bcolind⟦p⟧⟧) A.browptr⟦i⟧ A.browptr⟦i + 1⟧ 0)) := by
  unfold csrApplyRow
  have hl := hA.ptr_len
  rw [wr_eq (by omega), ok_bind, rd_eq (by omega), ok_bind, rd_eq (by omega), ok_bind]
  rw [forRange_accAny (hA.ptr_mono i hi) (i := i) (by simp; omega) (fun k => A.vals⟦k⟧ * x⟦A.bcolind⟦k⟧⟧)]
  · rw [List.set_set, get0_set_self (by omega)]
  · intro k h1 h2 y' hy'
    have hk := hA.lt_nnz hi h2
    have hc := hA.col_lt k hk
    have h3 := hA.val_len
    have h4 := hA.ind_len
    simp only [List.length_set] at hy'
    rw [rd_eq (by omega), ok_bind, rd_eq (by omega), ok_bind, rd_eq (by omega), ok_bind,
      rd_eq (by omega), ok_bind, wr_eq (by omega)]

theorem csrGemv3Row_any {A : SR K} (hA : A.Full) {a b : K} {x zz : List K} {yy : Option (List K)} (hx : x.length = A.nbrows)
    (hyy : ∀ y ∈ yy, y.length = A.nbrows) {i : Nat} (hi : i < A.nbrows) (hz : zz.length = A.nbrows) :
    csrGemv3Row A a x b yy i zz =
      .ok (zz.set i (addUp (fun p => a * A.vals⟦p⟧ * x⟦A.bcolind⟦p⟧⟧) A.browptr⟦i⟧ A.browptr⟦i + 1⟧ (b * (yy.getD zz)⟦i⟧))) := by
  unfold csrGemv3Row
  have hl := hA.ptr_len
  have hyl : (yy.getD zz).length = A.nbrows := by
    cases yy with
    | none => simpa using hz
    | some y => simpa using hyy y (by simp)
  rw [rd_eq (by omega), ok_bind, wr_eq (by omega), ok_bind, rd_eq (by omega), ok_bind,
    rd_eq (by omega), ok_bind]
  rw [forRange_accAny (hA.ptr_mono i hi) (i := i) (by simp; omega) (fun k => a * A.vals⟦k⟧ * x⟦A.bcolind⟦k⟧⟧)]
  · rw [List.set_set, get0_set_self (by omega)]
  · intro k h1 h2 y' hy'
    have hk := hA.lt_nnz hi h2
    have hc := hA.col_lt k hk
    have h3 := hA.val_len
    have h4 := hA.ind_len
    simp only [List.length_set] at hy'
    rw [rd_eq (by omega), ok_bind, rd_eq (by omega), ok_bind, rd_eq (by omega), ok_bind,
      rd_eq (by omega), ok_bind, wr_eq (by omega)]

/-- What the code computes for component `a` of `coef(data[jj]) * x[jcol]`. -/
def dotAny (stor : Stor) (bs : Nat) (coef : K → K) (vals : List K) (jj : Nat) (x : List K) (jcol a : Nat) : K :=
  addUp (fun b => coef vals⟦jj * (bs * bs) + stor.off bs a b⟧ * x⟦jcol * bs + b⟧) 0 bs 0

theorem blkDot_any {stor : Stor} {bs : Nat} {coef : K → K} {vals x : List K} {jj jcol a : Nat} (ha : a < bs) {nb n : Nat} (hv : vals.length = nb * (bs * bs))
    (hx : x.length = n * bs) (hjj : jj < nb) (hc : jcol < n) :
    blkDot stor bs coef vals jj x jcol a = .ok (dotAny stor bs coef vals jj x jcol a) := by
  unfold blkDot
  refine forRange_foldl (fun b _ hb s => ?_) 0
  rw [rd_eq (by rw [hv]; exact blk_lt hjj (stor.off_lt ha hb)), ok_bind,
      rd_eq (by rw [hx]; exact blk_lt hc hb), ok_bind, ok_bind]

/-- The accumulation loop of a block row (lines 41-46 and 69-73). -/
theorem bsrAcc_any {stor : Stor} {bs : Nat} (hbs : 0 < bs) {A : SR K} (hA : A.Full (bs * bs)) {coef : K → K} {x y : List K} (hx : x.length = A.nbrows * bs) {i : Nat}
    (hi : i < A.nbrows) (hy : y.length = A.nbrows * bs) :
    Ok (forRange A.browptr⟦i⟧ A.browptr⟦i + 1⟧ (fun jj y => do
      let jcol ← rd A.bcolind jj
      forRange 0 bs (fun a y => do
        let p ← blkDot stor bs coef A.vals jj x jcol a
        let o ← rd y (i * bs + a)
        wr y (i * bs + a) (o + p)) y) y)
    (fun y' => y'.length = y.length ∧ ∀ c < y.length, y'⟦c⟧ = if c / bs = i then
      addUp (fun jj => dotAny stor bs coef A.vals jj x A.bcolind⟦jj⟧ (c % bs)) A.browptr⟦i⟧ A.browptr⟦i + 1⟧ y⟦c⟧ else y⟦c⟧) := by
  have hseg : i * bs + bs ≤ y.length := by
    rw [hy, ← Nat.succ_mul]
    exact Nat.mul_le_mul_right _ hi
  refine forRange_ok (fun k y' => y'.length = y.length ∧ ∀ c < y.length, y'⟦c⟧ = if c / bs = i then
      addUp (fun jj => dotAny stor bs coef A.vals jj x A.bcolind⟦jj⟧ (c % bs)) A.browptr⟦i⟧ k y⟦c⟧ else y⟦c⟧)
      (hA.ptr_mono i hi) ⟨rfl, by simp [addUp_self]⟩ ?_
  rintro k y' h1 h2 ⟨hl, hI⟩
  have hk := hA.lt_nnz hi h2
  have hc := hA.col_lt k hk
  have h4 := hA.ind_len
  rw [rd_eq (by omega), ok_bind]
  refine (seg_update (base := i * bs) (fun a v => v + dotAny stor bs coef A.vals k x A.bcolind⟦k⟧ a) (by omega) ?_).mono ?_
  · intro a ha y'' hy'' _
    have : i * bs + a < y''.length := by omega
    rw [blkDot_any ha hA.val_len hx hk hc, ok_bind, rd_eq this, ok_bind, wr_eq this]
  · rintro y'' ⟨hl', h5⟩
    refine ⟨by omega, fun c hc' => ?_⟩
    rw [h5 c (by omega), hI c hc']
    by_cases hci : c / bs = i
    · have hci' := (div_eq_iff_seg hbs).mp hci
      rw [if_pos hci', if_pos hci, if_pos hci, addUp_succ _ h1]
      have : c - i * bs = c % bs := by
        have := Nat.div_add_mod c bs
        rw [hci, Nat.mul_comm] at this
        omega
      rw [this]
    · have hci' := mt (div_eq_iff_seg hbs).mpr hci
      rw [if_neg hci', if_neg hci, if_neg hci]

theorem bsrApplyRow_any {stor : Stor} {bs : Nat} (hbs : 0 < bs) {A : SR K} (hA : A.Full (bs * bs)) {x y : List K} (hx : x.length = A.nbrows * bs) {i : Nat}
    (hi : i < A.nbrows) (hy : y.length = A.nbrows * bs) :
    Ok (bsrApplyRow stor bs A x i y) (fun y' => y'.length = y.length ∧ ∀ c < y.length, y'⟦c⟧ = if c / bs = i then
      addUp (fun jj => dotAny stor bs id A.vals jj x A.bcolind⟦jj⟧ (c % bs)) A.browptr⟦i⟧ A.browptr⟦i + 1⟧ 0 else y⟦c⟧) := by
  have hp := hA.ptr_len
  have hseg : i * bs + bs ≤ y.length := by
    rw [hy, ← Nat.succ_mul]
    exact Nat.mul_le_mul_right _ hi
  unfold bsrApplyRow
  refine (seg_update (base := i * bs) (fun _ _ => 0) hseg (fun a ha y'' hy'' _ => by rw [wr_eq (by omega)])).bind ?_
  rintro y1 ⟨hl1, h1⟩
  rw [rd_eq (by omega), ok_bind, rd_eq (by omega), ok_bind]
  refine (bsrAcc_any hbs hA hx hi (by omega)).mono ?_
  rintro y2 ⟨hl2, h2⟩
  refine ⟨by omega, fun c hc => ?_⟩
  rw [h2 c (by omega), h1 c (by omega)]
  by_cases hci : c / bs = i
  · rw [if_pos hci, if_pos hci, if_pos ((div_eq_iff_seg hbs).mp hci)]
  · rw [if_neg hci, if_neg hci, if_neg (mt (div_eq_iff_seg hbs).mpr hci)]

theorem bsrGemv3Row_any {stor : Stor} {bs : Nat} (hbs : 0 < bs) {A : SR K} (hA : A.Full (bs * bs)) {a b : K} {x : List K} {yy : Option (List K)} {zz : List K}
    (hx : x.length = A.nbrows * bs) (hyy : ∀ y ∈ yy, y.length = A.nbrows * bs) {i : Nat} (hi : i < A.nbrows) (hz : zz.length = A.nbrows * bs) :
    Ok (bsrGemv3Row stor bs A a x b yy i zz) (fun y' => y'.length = zz.length ∧ ∀ c < zz.length, y'⟦c⟧ = if c / bs = i then
      addUp (fun jj => dotAny stor bs (a * ·) A.vals jj x A.bcolind⟦jj⟧ (c % bs)) A.browptr⟦i⟧ A.browptr⟦i + 1⟧ (b * (yy.getD zz)⟦c⟧) else zz⟦c⟧) := by
  have hp := hA.ptr_len
  have hseg : i * bs + bs ≤ zz.length := by
    rw [hz, ← Nat.succ_mul]
    exact Nat.mul_le_mul_right _ hi
  unfold bsrGemv3Row
  refine (seg_update (base := i * bs) (fun k v => b * (match yy with | none => v | some y => y⟦i * bs + k⟧)) hseg
    (fun a ha y'' hy'' _ => by
      cases yy with
      | none => simp only [Option.getD_none]; rw [rd_eq (by omega), ok_bind, wr_eq (by omega)]
      | some y =>
        have := hyy y (by simp)
        simp only [Option.getD_some]; rw [rd_eq (by omega), ok_bind, wr_eq (by omega)])).bind ?_
  rintro y1 ⟨hl1, h1⟩
  rw [rd_eq (by omega), ok_bind, rd_eq (by omega), ok_bind]
  refine (bsrAcc_any hbs hA hx hi (by omega)).mono ?_
  rintro y2 ⟨hl2, h2⟩
  refine ⟨by omega, fun c hc => ?_⟩
  rw [h2 c (by omega), h1 c (by omega)]
  by_cases hci : c / bs = i
  · have hseg' := (div_eq_iff_seg hbs).mp hci
    rw [if_pos hci, if_pos hci, if_pos hseg']
    cases yy with
    | none => rfl
    | some y => simp only [Option.getD_some]; rw [show i * bs + (c - i * bs) = c by omega]
  · rw [if_neg hci, if_neg hci, if_neg (mt (div_eq_iff_seg hbs).mpr hci)]

end

end Blasted
