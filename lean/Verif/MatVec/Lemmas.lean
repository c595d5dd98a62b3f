import Verif.MatVec.Model
import Mathlib.Algebra.BigOperators.Ring.Finset
import Mathlib.Algebra.BigOperators.Group.Finset.Sigma
import Mathlib.Tactic.Ring
import Mathlib.Tactic.Linarith

namespace Blasted
open Finset

variable {K : Type _} [CommRing K]

/-- Cell `i` accumulates over a loop: all other cells unchanged. -/
theorem forRange_acc {lo hi : Nat} (hle : lo ≤ hi) {body : Nat → List K → C (List K)} {y : List K}
    {i : Nat} (hi' : i < y.length) (g : Nat → K)
    (h : ∀ k, lo ≤ k → k < hi → ∀ y' : List K, y'.length = y.length →
      body k y' = .ok (y'.set i (y'⟦i⟧ + g k))) :
    forRange lo hi body y = .ok (y.set i (y⟦i⟧ + ∑ k ∈ Ico lo hi, g k)) := by
  have := forRange_ok (body := body) (s := y)
    (fun k y' => y' = y.set i (y⟦i⟧ + ∑ k ∈ Ico lo k, g k)) hle ?_ ?_
  · obtain ⟨a, e, rfl⟩ := this; exact e
  · simp
    apply ext_get0 (by simp)
    intro j hj
    rw [get0_set]
    split
    · rename_i h; rw [h.1]
    · rfl
  · intro k y' h1 h2 hy
    rw [h k h1 h2 y' (by simp [hy])]
    refine Ok.pure ?_
    subst hy
    rw [get0_set_self hi', sum_Ico_succ_top h1, List.set_set, add_assoc]

theorem csrApplyRow_eq {A : SR K} (hA : A.Full) {x y : List K} (hx : x.length = A.nbrows)
    {i : Nat} (hi : i < A.nbrows) (hy : y.length = A.nbrows) :
    csrApplyRow A x i y = .ok (y.set i (∑ j ∈ range A.nbrows, A.entry i j * x⟦j⟧)) := by
  unfold csrApplyRow
  have hl := hA.ptr_len
  rw [wr_eq (by omega), ok_bind, rd_eq (by omega), ok_bind, rd_eq (by omega), ok_bind]
  rw [forRange_acc (hA.ptr_mono i hi) (i := i) (by simp; omega) (fun k => A.vals⟦k⟧ * x⟦A.bcolind⟦k⟧⟧)]
  · rw [List.set_set, get0_set_self (by omega), zero_add,
      hA.sum_row hi (fun v j => v * x⟦j⟧) (by simp) (by intros; ring)]
  · intro k h1 h2 y' hy'
    have hk := hA.lt_nnz hi h2
    have hc := hA.col_lt k hk
    have h3 := hA.val_len
    have h4 := hA.ind_len
    simp only [List.length_set] at hy'
    rw [rd_eq (by omega), ok_bind, rd_eq (by omega), ok_bind, rd_eq (by omega), ok_bind,
      rd_eq (by omega), ok_bind, wr_eq (by omega)]

theorem csrGemv3Row_eq {A : SR K} (hA : A.Full) {a b : K} {x zz : List K} {yy : Option (List K)}
    (hx : x.length = A.nbrows) (hyy : ∀ y ∈ yy, y.length = A.nbrows)
    {i : Nat} (hi : i < A.nbrows) (hz : zz.length = A.nbrows) :
    csrGemv3Row A a x b yy i zz =
      .ok (zz.set i (a * ∑ j ∈ range A.nbrows, A.entry i j * x⟦j⟧ + b * (yy.getD zz)⟦i⟧)) := by
  unfold csrGemv3Row
  have hl := hA.ptr_len
  have hyl : (yy.getD zz).length = A.nbrows := by
    cases yy with
    | none => simpa using hz
    | some y => simpa using hyy y (by simp)
  rw [rd_eq (by omega), ok_bind, wr_eq (by omega), ok_bind, rd_eq (by omega), ok_bind,
    rd_eq (by omega), ok_bind]
  rw [forRange_acc (hA.ptr_mono i hi) (i := i) (by simp; omega)
    (fun k => a * A.vals⟦k⟧ * x⟦A.bcolind⟦k⟧⟧)]
  · rw [List.set_set, get0_set_self (by omega),
      hA.sum_row hi (fun v j => a * v * x⟦j⟧) (by simp) (by intros; ring), mul_sum, add_comm]
    simp only [mul_assoc]
  · intro k h1 h2 y' hy'
    have hk := hA.lt_nnz hi h2
    have hc := hA.col_lt k hk
    have h3 := hA.val_len
    have h4 := hA.ind_len
    simp only [List.length_set] at hy'
    rw [rd_eq (by omega), ok_bind, rd_eq (by omega), ok_bind, rd_eq (by omega), ok_bind,
      rd_eq (by omega), ok_bind, wr_eq (by omega)]

/-! ### Interleavings of one-cell statements -/

/-- If every statement `(i,s)` only replaces cell `i` by a function of that cell, then the final value of
cell `i` is determined by the statements of `i` in their own order. -/
theorem forList_interleave {α S : Type _} [Zero α] {sched : List (Nat × S)}
    {step : Nat × S → List α → C (List α)} {y : List α} (g : Nat → S → α → α)
    (hlt : ∀ e ∈ sched, e.1 < y.length)
    (h : ∀ e ∈ sched, ∀ y' : List α, y'.length = y.length →
      step e y' = .ok (y'.set e.1 (g e.1 e.2 y'⟦e.1⟧))) :
    Ok (forList sched step y) (fun y' => y'.length = y.length ∧ ∀ c < y.length,
      y'⟦c⟧ = ((sched.filter (fun e => e.1 == c)).map Prod.snd).foldl (fun v s => g c s v) y⟦c⟧) := by
  refine forList_ok (fun done y' => y'.length = y.length ∧ ∀ c < y.length,
      y'⟦c⟧ = ((done.filter (fun e => e.1 == c)).map Prod.snd).foldl (fun v s => g c s v) y⟦c⟧)
      ⟨rfl, by simp⟩ ?_
  rintro done ⟨i, s⟩ rest y' hs ⟨hl, hI⟩
  have hmem : (i, s) ∈ sched := by simp [hs]
  have hil := hlt _ hmem
  rw [h _ hmem y' hl]
  refine Ok.pure ⟨by simp [hl], fun c hc => ?_⟩
  simp only at hil ⊢
  rw [get0_set]
  by_cases hic : i = c
  · subst hic
    simp [hl, hil, List.filter_append, hI i hc]
  · simp [hic, List.filter_append, hI c hc]

theorem foldl_some_add {S : Type _} (l : List S) (f : S → K) (v : K) :
    l.foldl (fun v s => v + f s) v = v + (l.map f).sum := by
  induction l generalizing v with
  | nil => simp
  | cons a l ih => rw [List.foldl_cons, ih, List.map_cons, List.sum_cons, add_assoc]

theorem sum_map_range' {M : Type _} [AddCommMonoid M] (lo hi : Nat) (f : Nat → M) :
    ((List.range' lo (hi - lo)).map f).sum = ∑ k ∈ Ico lo hi, f k := by
  rfl

/-! ### Flat block memory -/

theorem Stor.off_lt (s : Stor) {bs a b : Nat} (ha : a < bs) (hb : b < bs) :
    s.off bs a b < bs * bs := by
  cases s <;> simp only [Stor.off]
  · calc a * bs + b < a * bs + bs := by omega
      _ = (a + 1) * bs := by ring
      _ ≤ bs * bs := Nat.mul_le_mul_right _ ha
  · calc b * bs + a < b * bs + bs := by omega
      _ = (b + 1) * bs := by ring
      _ ≤ bs * bs := Nat.mul_le_mul_right _ hb

theorem blk_lt {n m k o : Nat} (hk : k < n) (ho : o < m) : k * m + o < n * m := by
  calc k * m + o < k * m + m := by omega
    _ = (k + 1) * m := by ring
    _ ≤ n * m := Nat.mul_le_mul_right _ hk

theorem div_eq_iff_seg {bs c i : Nat} (hbs : 0 < bs) : c / bs = i ↔ i * bs ≤ c ∧ c < i * bs + bs := by
  rw [Nat.div_eq_iff hbs]
  constructor
  · rintro ⟨h1, h2⟩; exact ⟨h1, by omega⟩
  · rintro ⟨h1, h2⟩; exact ⟨h1, by omega⟩

theorem blkDot_eq {stor : Stor} {bs : Nat} {coef : K → K} {vals x : List K} {jj jcol a : Nat}
    (ha : a < bs) {nb n : Nat} (hv : vals.length = nb * (bs * bs)) (hx : x.length = n * bs)
    (hjj : jj < nb) (hc : jcol < n) :
    blkDot stor bs coef vals jj x jcol a =
      .ok (∑ b ∈ range bs, coef vals⟦jj * (bs * bs) + stor.off bs a b⟧ * x⟦jcol * bs + b⟧) := by
  unfold blkDot
  rw [forRange_sum (Nat.zero_le _) (g := fun b =>
    coef vals⟦jj * (bs * bs) + stor.off bs a b⟧ * x⟦jcol * bs + b⟧)]
  · rw [zero_add, Finset.range_eq_Ico]
  · intro b _ hb
    rw [rd_eq (by rw [hv]; exact blk_lt hjj (stor.off_lt ha hb)), ok_bind,
      rd_eq (by rw [hx]; exact blk_lt hc hb), ok_bind]

omit [CommRing K] in
/-- Component-wise update of the segment starting at `base`. -/
theorem seg_update [Zero K] {bs base : Nat} {body : Nat → List K → C (List K)} {y : List K}
    (g : Nat → K → K) (hb : base + bs ≤ y.length)
    (h : ∀ a < bs, ∀ y' : List K, y'.length = y.length → y'⟦base + a⟧ = y⟦base + a⟧ →
      body a y' = .ok (y'.set (base + a) (g a y'⟦base + a⟧))) :
    Ok (forRange 0 bs body y) (fun y' => y'.length = y.length ∧ ∀ c < y.length,
      y'⟦c⟧ = if base ≤ c ∧ c < base + bs then g (c - base) y⟦c⟧ else y⟦c⟧) := by
  refine forRange_ok (fun k y' => y'.length = y.length ∧ ∀ c < y.length,
      y'⟦c⟧ = if base ≤ c ∧ c < base + k then g (c - base) y⟦c⟧ else y⟦c⟧)
      (Nat.zero_le _) ⟨rfl, ?_⟩ ?_
  · intro c _; rw [if_neg (by omega)]
  · rintro k y' _ hk ⟨hl, hI⟩
    have hold : y'⟦base + k⟧ = y⟦base + k⟧ := by
      rw [hI _ (by omega), if_neg (by omega)]
    rw [h k hk y' hl hold]
    refine Ok.pure ⟨by simp [hl], fun c hc => ?_⟩
    rw [get0_set, hold]
    by_cases hck : base + k = c
    · subst hck
      rw [if_pos ⟨rfl, by omega⟩, if_pos ⟨by omega, by omega⟩]
      simp
    · rw [if_neg (fun h => hck h.1), hI c hc]
      by_cases hin : base ≤ c ∧ c < base + k
      · rw [if_pos hin, if_pos ⟨hin.1, by omega⟩]
      · rw [if_neg hin, if_neg (by omega)]

/-! ### Sums over block rows -/

theorem sum_range_mul_blocks {M : Type _} [AddCommMonoid M] (n bs : Nat) (f : Nat → M) :
    ∑ J ∈ range (n * bs), f J = ∑ j ∈ range n, ∑ b ∈ range bs, f (j * bs + b) := by
  induction n with
  | zero => simp
  | succ n ih => rw [Nat.succ_mul, sum_range_add, ih, sum_range_succ]

theorem SR.Full.sum_brow {stor : Stor} {bs : Nat} {A : SR K} (hA : A.Full (bs * bs))
    {I : Nat} (hI : I / bs < A.nbrows) (x : List K) (coef : K) :
    ∑ k ∈ Ico A.browptr⟦I / bs⟧ A.browptr⟦I / bs + 1⟧, ∑ b ∈ range bs,
        coef * A.vals⟦k * (bs * bs) + stor.off bs (I % bs) b⟧ * x⟦A.bcolind⟦k⟧ * bs + b⟧ =
      coef * ∑ J ∈ range (A.nbrows * bs), A.bentry stor bs I J * x⟦J⟧ := by
  simp only [SR.bentry, hA.end_eq _ hI, mul_sum, sum_mul]
  conv_rhs => rw [sum_comm]
  refine sum_congr rfl fun k hk => ?_
  rw [mem_Ico] at hk
  have hc := hA.col_lt k (hA.lt_nnz hI hk.2)
  symm
  rw [sum_range_mul_blocks, sum_eq_single A.bcolind⟦k⟧]
  · refine sum_congr rfl fun b hb => ?_
    rw [mem_range] at hb
    have h1 : (A.bcolind⟦k⟧ * bs + b) / bs = A.bcolind⟦k⟧ := by
      rw [div_eq_iff_seg (by omega)]; omega
    have h2 : (A.bcolind⟦k⟧ * bs + b) % bs = b := by
      rw [Nat.mul_comm, Nat.mul_add_mod, Nat.mod_eq_of_lt hb]
    rw [h1, h2, if_pos rfl]; ring
  · intro j _ hj
    refine sum_eq_zero fun b hb => ?_
    rw [mem_range] at hb
    have h1 : (j * bs + b) / bs = j := by
      rw [div_eq_iff_seg (by omega)]; omega
    rw [h1, if_neg (Ne.symm hj)]; ring
  · intro h; exact absurd (mem_range.mpr hc) h

/-- The accumulation loop of a block row (lines 41-46 and 69-73). -/
theorem bsrAcc_ok {stor : Stor} {bs : Nat} (hbs : 0 < bs) {A : SR K} (hA : A.Full (bs * bs)) {coef : K}
    {x y : List K} (hx : x.length = A.nbrows * bs) {i : Nat} (hi : i < A.nbrows)
    (hy : y.length = A.nbrows * bs) :
    Ok (forRange A.browptr⟦i⟧ A.browptr⟦i + 1⟧ (fun jj y => do
      let jcol ← rd A.bcolind jj
      forRange 0 bs (fun a y => do
        let p ← blkDot stor bs (coef * ·) A.vals jj x jcol a
        let o ← rd y (i * bs + a)
        wr y (i * bs + a) (o + p)) y) y)
    (fun y' => y'.length = y.length ∧ ∀ c < y.length, y'⟦c⟧ = if c / bs = i then
      y⟦c⟧ + coef * ∑ J ∈ range (A.nbrows * bs), A.bentry stor bs c J * x⟦J⟧ else y⟦c⟧) := by
  have hseg : i * bs + bs ≤ y.length := by
    rw [hy]
    calc i * bs + bs = (i + 1) * bs := by ring
      _ ≤ _ := Nat.mul_le_mul_right _ hi
  refine (forRange_ok (fun k y' => y'.length = y.length ∧ ∀ c < y.length, y'⟦c⟧ = if c / bs = i then
      y⟦c⟧ + ∑ k ∈ Ico A.browptr⟦i⟧ k, ∑ b ∈ range bs,
        coef * A.vals⟦k * (bs * bs) + stor.off bs (c % bs) b⟧ * x⟦A.bcolind⟦k⟧ * bs + b⟧ else y⟦c⟧)
      (hA.ptr_mono i hi) ⟨rfl, by simp⟩ ?_).mono ?_
  · rintro k y' h1 h2 ⟨hl, hI⟩
    have hk := hA.lt_nnz hi h2
    have hc := hA.col_lt k hk
    have h4 := hA.ind_len
    rw [rd_eq (by omega), ok_bind]
    refine (seg_update (base := i * bs) (fun a v => v + ∑ b ∈ range bs,
      coef * A.vals⟦k * (bs * bs) + stor.off bs a b⟧ * x⟦A.bcolind⟦k⟧ * bs + b⟧) (by omega) ?_).mono ?_
    · intro a ha y'' hy'' _
      have : i * bs + a < y''.length := by omega
      rw [blkDot_eq ha hA.val_len hx hk hc, ok_bind, rd_eq this, ok_bind, wr_eq this]
    · rintro y'' ⟨hl', h5⟩
      refine ⟨by omega, fun c hc' => ?_⟩
      rw [h5 c (by omega), hI c hc']
      by_cases hci : c / bs = i
      · have hci' := (div_eq_iff_seg hbs).mp hci
        rw [if_pos hci', if_pos hci, if_pos hci, sum_Ico_succ_top h1, add_assoc]
        have : c - i * bs = c % bs := by
          have := Nat.div_add_mod c bs
          rw [hci, Nat.mul_comm] at this
          omega
        rw [this]
      · have hci' := mt (div_eq_iff_seg hbs).mpr hci
        rw [if_neg hci', if_neg hci, if_neg hci]
  · rintro y' ⟨hl, hI⟩
    refine ⟨hl, fun c hc => ?_⟩
    rw [hI c hc]
    by_cases hci : c / bs = i
    · subst hci
      rw [if_pos rfl, if_pos rfl, hA.sum_brow hi]
    · rw [if_neg hci, if_neg hci]

end Blasted
