import Verif.PetscIO.Model
import Verif.Coo.MMProps
import Mathlib.Tactic.Ring

/-!
# Lemmas for reading files into PETSc objects
-/

namespace Blasted
open Finset

variable {K : Type}

/-- What does not change when values are set. -/
structure PMat.Same (A B : PMat K) : Prop where
  rows : B.rows = A.rows
  cols : B.cols = A.cols
  bs : B.bs = A.bs
  ori : B.rowOriented = A.rowOriented

theorem PMat.Same.refl (A : PMat K) : A.Same A := ⟨rfl, rfl, rfl, rfl⟩

theorem PMat.Same.trans {A B D : PMat K} (h : A.Same B) (h' : B.Same D) : A.Same D :=
  ⟨h'.rows.trans h.rows, h'.cols.trans h.cols, h'.bs.trans h.bs, h'.ori.trans h.ori⟩

/-- Position of the value for row number `a` and column number `b` of the arguments. -/
def setPos (ori : Bool) (m n a b : Nat) : Nat := if ori then a * n + b else b * m + a

theorem setPos_lt {ori : Bool} {m n a b : Nat} (ha : a < m) (hb : b < n) : setPos ori m n a b < m * n := by
  unfold setPos
  split
  · exact blk_lt ha hb
  · rw [Nat.mul_comm m n]; exact blk_lt hb ha

/-- `MatSetValues` with indices in range and without repetitions succeeds and sets exactly the given elements. -/
theorem matSetValues_ok [Zero K] (checks : Bool) (A : PMat K) {im jn : List Nat} (him : im.Nodup) (hjn : jn.Nodup)
    (hr : ∀ i ∈ im, i < A.rows) (hc : ∀ j ∈ jn, j < A.cols) {vals : List K} {off : Nat} (hv : off + im.length * jn.length ≤ vals.length) :
    ∃ B, matSetValues checks A (im.map fun (x : Nat) => (x : Int)) (jn.map fun (x : Nat) => (x : Int)) vals off = .ok (B, 0) ∧ A.Same B ∧
      (∀ a (ha : a < im.length) b (hb : b < jn.length),
        B.val im[a] jn[b] = some vals⟦off + setPos A.rowOriented im.length jn.length a b⟧) ∧
      (∀ i j, i ∉ im ∨ j ∉ jn → B.val i j = A.val i j) := by
  have key : Ok (matSetValues checks A (im.map fun (x : Nat) => (x : Int)) (jn.map fun (x : Nat) => (x : Int)) vals off) (fun s =>
      s.2 = 0 ∧ A.Same s.1 ∧
      (∀ a (ha : a < im.length) b (hb : b < jn.length),
        (a, b) ∈ ((List.range (im.map fun (x : Nat) => (x : Int)).length).flatMap fun a => (List.range (jn.map fun (x : Nat) => (x : Int)).length).map fun b => (a, b)) →
        s.1.val im[a] jn[b] = some vals⟦off + setPos A.rowOriented im.length jn.length a b⟧) ∧
      (∀ i j, i ∉ im ∨ j ∉ jn → s.1.val i j = A.val i j)) := by
    unfold matSetValues
    refine forList_ok (fun done (s : PMat K × Nat) => s.2 = 0 ∧ A.Same s.1 ∧
      (∀ a (ha : a < im.length) b (hb : b < jn.length), (a, b) ∈ done →
        s.1.val im[a] jn[b] = some vals⟦off + setPos A.rowOriented im.length jn.length a b⟧) ∧
      (∀ i j, i ∉ im ∨ j ∉ jn → s.1.val i j = A.val i j)) ⟨rfl, PMat.Same.refl A, by simp, fun _ _ _ => rfl⟩ ?_
    rintro done ⟨a, b⟩ rest s heq ⟨h0, hs, h1, h2⟩
    have hmem : (a, b) ∈ ((List.range (im.map fun (x : Nat) => (x : Int)).length).flatMap fun a => (List.range (jn.map fun (x : Nat) => (x : Int)).length).map fun b => (a, b)) := by
      rw [heq]; simp
    simp only [List.length_map, List.mem_flatMap, List.mem_range, List.mem_map, Prod.mk.injEq] at hmem
    obtain ⟨a', ha, b', hb, rfl, rfl⟩ := hmem
    dsimp only
    have e1 : rd (im.map fun (x : Nat) => (x : Int)) a' = .ok ((im[a'] : Nat) : Int) := by
      rw [rd_getElem (by simpa using ha), List.getElem_map]
    have e2 : rd (jn.map fun (x : Nat) => (x : Int)) b' = .ok ((jn[b'] : Nat) : Int) := by
      rw [rd_getElem (by simpa using hb), List.getElem_map]
    rw [if_neg (by simp [h0]), e1, ok_bind, e2, ok_bind]
    simp only [List.length_map]
    have hpos := setPos_lt (ori := A.rowOriented) ha hb
    have hra := hr _ (List.getElem_mem ha)
    have hcb := hc _ (List.getElem_mem hb)
    unfold setPos at hpos
    rw [rd_eq (by omega), ok_bind]
    unfold PMat.put
    rw [if_neg (by omega), Int.toNat_natCast, Int.toNat_natCast, hs.rows, hs.cols, if_neg (by omega)]
    refine Ok.pure ⟨rfl, ⟨rfl, rfl, hs.bs, hs.ori⟩, ?_, ?_⟩
    · intro a'' ha'' b'' hb'' hm
      dsimp only
      by_cases h : im[a''] = im[a'] ∧ jn[b''] = jn[b']
      · rw [if_pos h, (him.getElem_inj_iff).mp h.1, (hjn.getElem_inj_iff).mp h.2]
        rfl
      · rw [if_neg h]
        refine h1 a'' ha'' b'' hb'' ?_
        rcases List.mem_append.mp hm with hm | hm
        · exact hm
        · simp only [List.mem_singleton, Prod.mk.injEq] at hm
          obtain ⟨rfl, rfl⟩ := hm
          exact absurd ⟨rfl, rfl⟩ h
    · intro i j hij
      dsimp only
      rw [if_neg, h2 i j hij]
      rintro ⟨rfl, rfl⟩
      rcases hij with h | h
      · exact h (List.getElem_mem ha)
      · exact h (List.getElem_mem hb)
  obtain ⟨⟨B, c⟩, h1, h2, h3, h4, h5⟩ := key
  dsimp only at h2 h3 h4 h5
  subst h2
  refine ⟨B, h1, h3, fun a ha b hb => h4 a ha b hb ?_, h5⟩
  simp only [List.length_map, List.mem_flatMap, List.mem_range, List.mem_map, Prod.mk.injEq]
  exact ⟨a, ha, b, hb, rfl, rfl⟩

/-! ### Blocks -/

/-- The scalar indices of a list of blocks, as naturals. -/
def blockNat (bs : Nat) (l : List Nat) : List Nat := (List.range (l.length * bs)).map fun t => l⟦t / bs⟧ * bs + t % bs

theorem blockIndices_cast (bs : Nat) (l : List Nat) :
    blockIndices bs (l.map fun (x : Nat) => (x : Int)) = (blockNat bs l).map fun (x : Nat) => (x : Int) := by
  rcases Nat.eq_zero_or_pos bs with rfl | hbs
  · simp [blockIndices, blockNat]
  unfold blockIndices
  induction l with
  | nil => simp [blockNat]
  | cons a l ih =>
    rw [List.map_cons, List.flatMap_cons, ih]
    unfold blockNat
    rw [List.length_cons, Nat.add_mul, Nat.one_mul, Nat.add_comm _ bs, List.range_add, List.map_append, List.map_append, List.map_map,
      List.map_map, List.map_map, List.map_map]
    congr 1
    · refine List.map_congr_left fun t ht => ?_
      rw [List.mem_range] at ht
      simp only [Function.comp, Nat.div_eq_of_lt ht, Nat.mod_eq_of_lt ht]
      show _ = ((a * bs + t : Nat) : Int)
      omega
    · refine List.map_congr_left fun t _ => ?_
      simp only [Function.comp, Nat.add_div_left t hbs, Nat.add_mod_left]
      rfl

theorem blockNat_length (bs : Nat) (l : List Nat) : (blockNat bs l).length = l.length * bs := by simp [blockNat]

theorem blockNat_getElem {bs : Nat} {l : List Nat} {q y : Nat} (hq : q < l.length) (hy : y < bs) (h : q * bs + y < (blockNat bs l).length) :
    (blockNat bs l)[q * bs + y] = l[q] * bs + y := by
  have hd : (q * bs + y) / bs = q := by rw [Nat.mul_comm, Nat.mul_add_div (by omega), Nat.div_eq_of_lt hy, Nat.add_zero]
  have hm : (q * bs + y) % bs = y := by rw [Nat.mul_comm, Nat.mul_add_mod, Nat.mod_eq_of_lt hy]
  simp only [blockNat, List.getElem_map, List.getElem_range, hd, hm, get0_eq_getElem hq]

theorem mem_blockNat {bs : Nat} (hbs : 0 < bs) {l : List Nat} {i : Nat} : i ∈ blockNat bs l ↔ i / bs ∈ l := by
  have h := Nat.div_add_mod i bs
  have hm := Nat.mod_lt i hbs
  constructor
  · intro hi
    simp only [blockNat, List.mem_map, List.mem_range] at hi
    obtain ⟨t, ht, rfl⟩ := hi
    have hq : t / bs < l.length := (Nat.div_lt_iff_lt_mul hbs).mpr ht
    rw [get0_eq_getElem hq, Nat.mul_comm, Nat.mul_add_div hbs, Nat.div_eq_of_lt (Nat.mod_lt _ hbs), Nat.add_zero]
    exact List.getElem_mem hq
  · intro hi
    obtain ⟨q, hq, he⟩ := List.getElem_of_mem hi
    have hlt : q * bs + i % bs < (blockNat bs l).length := by rw [blockNat_length]; exact blk_lt hq hm
    have := blockNat_getElem hq hm hlt
    rw [he, Nat.mul_comm (i / bs), h] at this
    rw [← this]
    exact List.getElem_mem hlt

theorem blockNat_nodup {bs : Nat} (hbs : 0 < bs) {l : List Nat} (h : l.Nodup) : (blockNat bs l).Nodup := by
  unfold blockNat
  refine List.Nodup.map_on ?_ List.nodup_range
  intro t ht u hu he
  rw [List.mem_range] at ht hu
  have hq : t / bs < l.length := (Nat.div_lt_iff_lt_mul hbs).mpr ht
  have hr : u / bs < l.length := (Nat.div_lt_iff_lt_mul hbs).mpr hu
  obtain ⟨e1, e2⟩ := blk_ne (Nat.mod_lt t hbs) (Nat.mod_lt u hbs) he
  rw [get0_eq_getElem hq, get0_eq_getElem hr] at e1
  have e3 := h.getElem_inj_iff.mp e1
  rw [← Nat.div_add_mod t bs, ← Nat.div_add_mod u bs, e2, e3]

theorem blockNat_one (l : List Nat) : blockNat 1 l = l := by
  apply List.ext_getElem (by simp [blockNat])
  intro q h1 h2
  have := blockNat_getElem (bs := 1) h2 Nat.one_pos (by simpa using h1)
  simpa using this

/-- No column occurs twice in a row. -/
def SR.ColsDistinct {V : Type _} (R : SR V) : Prop :=
  ∀ i < R.nbrows, ∀ k l, R.InRow i k → R.InRow i l → R.bcolind⟦k⟧ = R.bcolind⟦l⟧ → k = l

/-- Inserting one block-row. -/
theorem setRowFromSR_ok [Zero K] (checks : Bool) {R : SR K} {bs : Nat} (hbs : 0 < bs) (hR : R.Full (bs * bs)) (hd : R.ColsDistinct) {i : Nat}
    (hi : i < R.nbrows) {A : PMat K} (hrows : A.rows = R.nbrows * bs) (hcols : A.cols = R.nbrows * bs) (hAbs : A.bs = bs)
    (hori : bs = 1 ∨ A.rowOriented = false) :
    ∃ B, setRowFromSR checks R bs i (A, 0) = .ok (B, 0) ∧ A.Same B ∧
      (∀ k, R.InRow i k → ∀ x < bs, ∀ y < bs,
        B.val (i * bs + x) (R.bcolind⟦k⟧ * bs + y) = some R.vals⟦k * (bs * bs) + Stor.colMajor.off bs x y⟧) ∧
      (∀ I J, (I / bs ≠ i ∨ ∀ k, R.InRow i k → R.bcolind⟦k⟧ ≠ J / bs) → B.val I J = A.val I J) := by
  obtain ⟨p, hp⟩ : ∃ p, R.browptr⟦i⟧ = p := ⟨_, rfl⟩
  obtain ⟨q, hq⟩ : ∃ q, R.browptr⟦i + 1⟧ = q := ⟨_, rfl⟩
  have hpq : p ≤ q := by have := hR.ptr_mono i hi; omega
  have hqn : q ≤ R.browptr⟦R.nbrows⟧ := by rw [← hq]; exact hR.ptr_le hi (Nat.le_refl _)
  have hil := hR.ind_len
  have hvl := hR.val_len
  have hpl := hR.ptr_len
  obtain ⟨jn, hjn⟩ : ∃ jn, (R.bcolind.drop p).take (q - p) = jn := ⟨_, rfl⟩
  have hjl : jn.length = q - p := by rw [← hjn]; simp; omega
  have hjg : ∀ b (hb : b < jn.length), jn[b] = R.bcolind⟦p + b⟧ := by
    intro b hb
    rw [get0_eq_getElem (by omega)]
    simp only [← hjn, List.getElem_take, List.getElem_drop]
  have hin : ∀ k, R.InRow i k ↔ p ≤ k ∧ k < q := by intro k; unfold SR.InRow; rw [hp, hq]
  have hjnd : jn.Nodup := by
    rw [List.nodup_iff_injective_getElem]
    rintro ⟨a, ha⟩ ⟨b, hb⟩ hab
    simp only at hab
    rw [hjg a ha, hjg b hb] at hab
    have := hd i hi (p + a) (p + b) ((hin _).mpr (by omega)) ((hin _).mpr (by omega)) hab
    ext
    simp only; omega
  have hnd1 : (blockNat bs [i]).Nodup := blockNat_nodup hbs (List.nodup_singleton i)
  have hnd2 : (blockNat bs jn).Nodup := blockNat_nodup hbs hjnd
  have hr : ∀ I ∈ blockNat bs [i], I < A.rows := by
    intro I hI
    rw [mem_blockNat hbs, List.mem_singleton] at hI
    rw [hrows, ← Nat.div_lt_iff_lt_mul hbs, hI]; exact hi
  have hc : ∀ J ∈ blockNat bs jn, J < A.cols := by
    intro J hJ
    rw [mem_blockNat hbs] at hJ
    obtain ⟨b, hb, he⟩ := List.getElem_of_mem hJ
    rw [hcols, ← Nat.div_lt_iff_lt_mul hbs, ← he, hjg b hb]
    exact hR.col_lt _ (by omega)
  have hlen1 : (blockNat bs [i]).length = bs := by rw [blockNat_length]; simp
  have hlen2 : (blockNat bs jn).length = (q - p) * bs := by rw [blockNat_length, hjl]
  have hv : p * bs * bs + (blockNat bs [i]).length * (blockNat bs jn).length ≤ R.vals.length := by
    rw [hlen1, hlen2, hvl]
    have h1 : p * bs * bs + bs * ((q - p) * bs) = q * (bs * bs) := by
      obtain ⟨d, rfl⟩ := Nat.exists_eq_add_of_le hpq
      rw [Nat.add_sub_cancel_left]; ring
    rw [h1]
    exact Nat.mul_le_mul_right _ hqn
  obtain ⟨B, b1, b2, b3, b4⟩ := matSetValues_ok checks A hnd1 hnd2 hr hc hv
  refine ⟨B, ?_, b2, ?_, ?_⟩
  · unfold setRowFromSR idxSlice
    rw [if_neg (by simp), rd_eq (by omega), ok_bind, rd_eq (by omega), ok_bind, hp, hq, if_neg (by omega), if_pos (by omega), ok_bind, hjn]
    by_cases h1 : bs = 1
    · subst h1
      rw [if_pos rfl]
      rw [blockNat_one, blockNat_one] at b1
      exact b1
    · rw [if_neg h1]
      unfold matSetValuesBlocked
      rw [hAbs]
      have e : blockIndices bs [(i : Int)] = (blockNat bs [i]).map fun (x : Nat) => (x : Int) := blockIndices_cast bs [i]
      rw [e, blockIndices_cast]
      exact b1
  · intro k hk x hx y hy
    rw [hin] at hk
    have hb : k - p < jn.length := by omega
    have h1 : (k - p) * bs + y < (blockNat bs jn).length := by rw [hlen2]; exact blk_lt (by omega) hy
    have h2 : 0 * bs + x < (blockNat bs [i]).length := by rw [hlen1]; omega
    have := b3 (0 * bs + x) h2 ((k - p) * bs + y) h1
    rw [blockNat_getElem (l := [i]) (by simp) hx h2, blockNat_getElem hb hy h1, hjg _ hb, List.getElem_cons_zero] at this
    rw [show p + (k - p) = k by omega] at this
    rw [this]
    congr 2
    have hpos : setPos A.rowOriented (blockNat bs [i]).length (blockNat bs jn).length (0 * bs + x) ((k - p) * bs + y) =
        ((k - p) * bs + y) * bs + x := by
      rw [hlen1, hlen2]
      unfold setPos
      rcases hori with h | h
      · subst h
        have hx0 : x = 0 := by omega
        subst hx0
        split <;> simp
      · rw [h, if_neg (by simp)]; simp
    rw [hpos]
    show p * bs * bs + (((k - p) * bs + y) * bs + x) = k * (bs * bs) + (y * bs + x)
    obtain ⟨d, rfl⟩ := Nat.exists_eq_add_of_le hk.1
    rw [Nat.add_sub_cancel_left]; ring
  · intro I J h
    refine b4 I J ?_
    rw [mem_blockNat hbs, mem_blockNat hbs, List.mem_singleton]
    rcases h with h | h
    · exact .inl h
    · refine .inr fun hm => ?_
      obtain ⟨b, hb, he⟩ := List.getElem_of_mem hm
      rw [hjg b hb] at he
      exact h (p + b) ((hin _).mpr (by omega)) he

/-- Inserting all block-rows gives the matrix that the storage denotes. -/
theorem setRows_ok [AddCommMonoid K] (checks : Bool) {R : SR K} {bs : Nat} (hbs : 0 < bs) (hR : R.Full (bs * bs)) (hd : R.ColsDistinct)
    {A : PMat K} (hrows : A.rows = R.nbrows * bs) (hcols : A.cols = R.nbrows * bs) (hAbs : A.bs = bs)
    (hori : bs = 1 ∨ A.rowOriented = false) (hnone : ∀ i j, A.val i j = none) :
    ∃ B, forRange 0 R.nbrows (setRowFromSR checks R bs) (A, 0) = .ok (B, 0) ∧ A.Same B ∧
      ∀ I < R.nbrows * bs, ∀ J, B.entry I J = R.bentry .colMajor bs I J := by
  obtain ⟨⟨B, c⟩, h1, rfl, h3, h4, h5⟩ := forRange_ok (body := setRowFromSR checks R bs) (s := (A, 0))
    (fun t (s : PMat K × Nat) => s.2 = 0 ∧ A.Same s.1 ∧
      (∀ i < t, ∀ k, R.InRow i k → ∀ x < bs, ∀ y < bs,
        s.1.val (i * bs + x) (R.bcolind⟦k⟧ * bs + y) = some R.vals⟦k * (bs * bs) + Stor.colMajor.off bs x y⟧) ∧
      (∀ I J, (t ≤ I / bs ∨ ∀ k, R.InRow (I / bs) k → R.bcolind⟦k⟧ ≠ J / bs) → s.1.val I J = none))
    (Nat.zero_le _) ⟨rfl, PMat.Same.refl A, fun i hi => absurd hi (Nat.not_lt_zero i), fun I J _ => hnone I J⟩ (by
      rintro t ⟨A', c⟩ - ht ⟨rfl, hs, g1, g2⟩
      dsimp only at hs g1 g2 ⊢
      obtain ⟨B, b1, b2, b3, b4⟩ := setRowFromSR_ok checks hbs hR hd ht (A := A') (by rw [hs.rows, hrows]) (by rw [hs.cols, hcols])
        (by rw [hs.bs, hAbs]) (by rw [hs.ori]; exact hori)
      rw [b1]
      refine Ok.pure ⟨rfl, hs.trans b2, ?_, ?_⟩
      · intro i hi k hk x hx y hy
        by_cases h : i = t
        · subst h; exact b3 k hk x hx y hy
        · dsimp only
          rw [b4 _ _ (.inl ?_)]
          · exact g1 i (by omega) k hk x hx y hy
          · rw [Nat.mul_comm, Nat.mul_add_div hbs, Nat.div_eq_of_lt hx]; omega
      · intro I J h
        dsimp only
        have h' : I / bs ≠ t ∨ ∀ k, R.InRow t k → R.bcolind⟦k⟧ ≠ J / bs := by
          by_cases e : I / bs = t
          · right
            rcases h with h | h
            · omega
            · rw [e] at h; exact h
          · exact .inl e
        rw [b4 I J h']
        refine g2 I J ?_
        rcases h with h | h
        · exact .inl (by omega)
        · exact .inr h)
  refine ⟨B, h1, h3, fun I hI J => ?_⟩
  dsimp only at h4 h5
  have hi : I / bs < R.nbrows := (Nat.div_lt_iff_lt_mul hbs).mpr hI
  have hx := Nat.mod_lt I hbs
  have hy := Nat.mod_lt J hbs
  unfold PMat.entry SR.bentry
  rw [hR.end_eq _ hi]
  by_cases hex : ∃ k, R.InRow (I / bs) k ∧ R.bcolind⟦k⟧ = J / bs
  · obtain ⟨k, hk, hc⟩ := hex
    have := h4 (I / bs) hi k hk (I % bs) hx (J % bs) hy
    rw [hc, Nat.mul_comm (I / bs), Nat.mul_comm (J / bs), Nat.div_add_mod, Nat.div_add_mod] at this
    rw [this, Option.getD_some, sum_eq_single k]
    · rw [if_pos hc]
    · intro l hl hne
      rw [if_neg]
      intro hcl
      exact hne (hd (I / bs) hi l k (mem_Ico.mp hl) hk (by omega))
    · intro h
      exact absurd (mem_Ico.mpr hk) h
  · rw [h5 I J (.inr fun k hk hc => hex ⟨k, hk, hc⟩), Option.getD_none, sum_eq_zero]
    intro k hk
    rw [if_neg]
    intro hc
    exact hex ⟨k, mem_Ico.mp hk, hc⟩

end Blasted
