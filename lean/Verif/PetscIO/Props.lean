import Verif.PetscIO.Lemmas

/-!
# Properties of reading files into PETSc objects (C60)

What a file says is `CoordinateFile`, `ArrayFile` and `fileEntry` of `Verif/Coo/MMSpec.lean`.
-/

namespace Blasted
open Finset

variable {K : Type}

/-- No position is listed twice in the file. -/
def DistinctPositions (es : List (Nat × Nat × K)) : Prop := es.Pairwise fun a b => ¬ (a.1 = b.1 ∧ a.2.1 = b.2.1)

theorem DistinctPositions.noDup {es : List (Nat × Nat × K)} (h : DistinctPositions es) {l : List (Entry K)} (hp : l.Perm (es.map zeroBased)) :
    NoDup l := by
  have h' : (es.map zeroBased).Pairwise fun a b => ¬ (a.rowind = b.rowind ∧ a.colind = b.colind) := by
    rw [List.pairwise_map]
    refine h.imp fun {a b} h h' => h ?_
    simp only [zeroBased] at h'
    omega
  exact (hp.pairwise_iff (fun {a b} h h' => h ⟨h'.1.symm, h'.2.symm⟩)).mpr h'

/-- An entry is between the pointers of its row. -/
theorem COO.Valid.pos_row {A : COO K} (hA : A.Valid) {k : Nat} (hk : k < A.entries.length) {i : Nat} (h : A.entries[k].rowind = i) :
    A.rowptr⟦i⟧ ≤ k ∧ k < A.rowptr⟦i + 1⟧ := by
  have hkn : k < A.rowptr⟦A.nrows⟧ := by rw [hA.ptr_last, ← hA.nnz_eq]; exact hk
  obtain ⟨r, hr, hr1, hr2⟩ : ∃ r < A.nrows, A.rowptr⟦r⟧ ≤ k ∧ k < A.rowptr⟦r + 1⟧ := by
    by_contra hno
    have hall' : ∀ t ≤ A.nrows, A.rowptr⟦t⟧ ≤ k := by
      intro t ht
      induction t with
      | zero => rw [hA.ptr_zero]; omega
      | succ t ih =>
        by_contra h
        exact hno ⟨t, by omega, ih (by omega), by omega⟩
    have := hall' A.nrows (Nat.le_refl _)
    omega
  have hrr := hA.row r hr k _ hr1 hr2 (List.getElem?_eq_getElem hk)
  have : r = i := by omega
  subst this
  exact ⟨hr1, hr2⟩

/-- Collecting the columns and the values of one row. -/
theorem readMatGather_ok [Zero K] {A : COO K} {p q : Nat} (hpq : p ≤ q) (hq : q ≤ A.entries.length) :
    readMatGather A p q = .ok (((A.entries.drop p).take (q - p)).map Entry.colind, ((A.entries.drop p).take (q - p)).map Entry.value) := by
  unfold readMatGather
  rw [if_neg (by omega)]
  obtain ⟨⟨c, v⟩, h1, h2, h3, h4⟩ := forRange_ok (body := fun jr (s : List Int × List K) => do
      let e ← rd A.entries jr
      let c ← wr s.1 (jr - p) e.colind
      let v ← wr s.2 (jr - p) e.value
      .ok (c, v)) (s := (List.replicate (q - p) 0, List.replicate (q - p) 0))
    (fun t (s : List Int × List K) => s.1.length = q - p ∧ s.2.length = q - p ∧
      ∀ a < t - p, s.1[a]? = (A.entries[p + a]?).map Entry.colind ∧ s.2[a]? = (A.entries[p + a]?).map Entry.value) hpq
    ⟨by simp, by simp, fun a ha => absurd ha (by omega)⟩ (by
      rintro t ⟨c, v⟩ hpt htq ⟨g1, g2, g3⟩
      dsimp only at g1 g2 g3 ⊢
      have htl : t < A.entries.length := by omega
      rw [rd_getElem htl, ok_bind, wr_eq (by omega), ok_bind, wr_eq (by omega), ok_bind]
      refine Ok.pure ⟨by simp [g1], by simp [g2], fun a ha => ?_⟩
      dsimp only
      rw [List.getElem?_set, List.getElem?_set]
      by_cases h : t - p = a
      · subst h
        rw [if_pos rfl, if_pos rfl, if_pos (by omega), if_pos (by omega), show p + (t - p) = t by omega, List.getElem?_eq_getElem htl]
        exact ⟨rfl, rfl⟩
      · rw [if_neg h, if_neg h]; exact g3 a (by omega))
  rw [h1]
  dsimp only at h2 h3 h4
  congr 2
  · apply List.ext_getElem?
    intro a
    by_cases ha : a < q - p
    · rw [(h4 a ha).1, List.getElem?_map, List.getElem?_take, if_pos ha, List.getElem?_drop]
    · rw [List.getElem?_eq_none (by omega), List.getElem?_eq_none (by simp; omega)]
  · apply List.ext_getElem?
    intro a
    by_cases ha : a < q - p
    · rw [(h4 a ha).2, List.getElem?_map, List.getElem?_take, if_pos ha, List.getElem?_drop]
    · rw [List.getElem?_eq_none (by omega), List.getElem?_eq_none (by simp; omega)]

/-- Inserting one row from the coordinate entries. -/
theorem readMatRow_ok [Zero K] (checks : Bool) {A : COO K} (hA : A.Valid) (hnd : NoDup A.entries) {i : Nat} (hi : i < A.nrows)
    (hne : A.rowptr⟦i⟧ < A.rowptr⟦i + 1⟧) {s : PMat K × Nat} (hrows : s.1.rows = A.nrows) (hcols : (s.1.cols : Int) = A.ncols) :
    ∃ B, readMatRow checks A i s = .ok (B, 0) ∧ s.1.Same B ∧
      (∀ k e, A.rowptr⟦i⟧ ≤ k → k < A.rowptr⟦i + 1⟧ → A.entries[k]? = some e → B.val i e.colind.toNat = some e.value) ∧
      (∀ I J : Nat, (I ≠ i ∨ ∀ e ∈ A.entries, e.rowind = i → e.colind ≠ J) → B.val I J = s.1.val I J) := by
  obtain ⟨p, hp⟩ : ∃ p, A.rowptr⟦i⟧ = p := ⟨_, rfl⟩
  obtain ⟨q, hq⟩ : ∃ q, A.rowptr⟦i + 1⟧ = q := ⟨_, rfl⟩
  rw [hp, hq] at hne
  have hle : ∀ j, j ≤ A.nrows → i + 1 ≤ j → A.rowptr⟦i + 1⟧ ≤ A.rowptr⟦j⟧ := by
    intro j hj hij
    induction j, hij using Nat.le_induction with
    | base => exact Nat.le_refl _
    | succ j hij ih => exact (ih (by omega)).trans (hA.ptr_mono j (by omega))
  have hqn : q ≤ A.entries.length := by
    have := hle A.nrows (Nat.le_refl _) hi
    rw [hA.ptr_last, hq, ← hA.nnz_eq] at this
    exact this
  have hpl := hA.ptr_len
  have hrow : ∀ k (hk : k < A.entries.length), p ≤ k → k < q → A.entries[k].rowind = i := by
    intro k hk h1 h2
    exact hA.row i hi k _ (by omega) (by omega) (List.getElem?_eq_getElem hk)
  obtain ⟨l, hl⟩ : ∃ l, (A.entries.drop p).take (q - p) = l := ⟨_, rfl⟩
  have hll : l.length = q - p := by rw [← hl]; simp; omega
  have hlg : ∀ b (hb : b < l.length), l[b] = A.entries[p + b]'(by omega) := by
    intro b hb
    simp only [← hl, List.getElem_take, List.getElem_drop]
  have hlm : ∀ e ∈ l, e ∈ A.entries ∧ e.rowind = i := by
    intro e he
    obtain ⟨b, hb, rfl⟩ := List.getElem_of_mem he
    rw [hlg b hb]
    exact ⟨List.getElem_mem _, hrow _ _ (by omega) (by omega)⟩
  obtain ⟨jn, hjn⟩ : ∃ jn, l.map (fun e => e.colind.toNat) = jn := ⟨_, rfl⟩
  have hjl : jn.length = q - p := by rw [← hjn, List.length_map, hll]
  have hcast : l.map Entry.colind = jn.map fun (x : Nat) => (x : Int) := by
    rw [← hjn, List.map_map]
    refine List.map_congr_left fun e he => ?_
    have := hA.col e (hlm e he).1
    simp only [Function.comp]; omega
  have hjnd : jn.Nodup := by
    rw [← hjn]
    refine List.pairwise_map.mpr ?_
    rw [List.pairwise_iff_getElem]
    intro a b ha hb hab
    rw [hlg a ha, hlg b hb]
    have := List.pairwise_iff_getElem.mp hnd (p + a) (p + b) (by omega) (by omega) (by omega)
    have r1 := hrow (p + a) (by omega) (by omega) (by omega)
    have r2 := hrow (p + b) (by omega) (by omega) (by omega)
    have c1 := hA.col _ (List.getElem_mem (show p + a < A.entries.length by omega))
    have c2 := hA.col _ (List.getElem_mem (show p + b < A.entries.length by omega))
    omega
  obtain ⟨B, b1, b2, b3, b4⟩ := matSetValues_ok checks s.1 (im := [i]) (jn := jn) (List.nodup_singleton i) hjnd (by simp; omega) (by
      intro j hj
      rw [← hjn] at hj
      obtain ⟨e, he, rfl⟩ := List.mem_map.mp hj
      have := hA.col e (hlm e he).1
      omega) (vals := l.map Entry.value) (off := 0) (by simp [hjl, hll])
  refine ⟨B, ?_, b2, ?_, ?_⟩
  · unfold readMatRow
    rw [rd_eq (by omega), ok_bind, hp, rd_getElem (show p < A.entries.length by omega), ok_bind,
      if_neg (by rw [hrow p (by omega) (Nat.le_refl _) hne]; simp), rd_eq (by omega), ok_bind, hq, readMatGather_ok (by omega) hqn, ok_bind,
      if_neg (by omega), hl, hcast]
    exact b1
  · intro k e hk1 hk2 he
    obtain ⟨hk, rfl⟩ := List.getElem?_eq_some_iff.mp he
    have hb : k - p < jn.length := by omega
    have := b3 0 (by simp) (k - p) hb
    have hlk : l[k - p]'(by omega) = A.entries[k] := by rw [hlg]; congr 1; omega
    simp only [← hjn, List.getElem_map, List.getElem_cons_zero, hlk] at this
    rw [this]
    congr 1
    have hpos : setPos s.1.rowOriented [i].length (l.map fun e => e.colind.toNat).length 0 (k - p) = k - p := by
      unfold setPos; split <;> simp
    rw [hpos, Nat.zero_add, get0_eq_getElem (by simp; omega), List.getElem_map, hlk]
  · intro I J h
    refine b4 I J ?_
    rcases h with h | h
    · exact .inl (by simpa using h)
    · refine .inr fun hm => ?_
      rw [← hjn] at hm
      obtain ⟨e, he, hJ⟩ := List.mem_map.mp hm
      have := hA.col e (hlm e he).1
      exact h e (hlm e he).1 (hlm e he).2 (by omega)

/-- With distinct positions the denoted entry is the one that is listed, or zero. -/
theorem cooEntry_noDup [AddCommMonoid K] {l : List (Entry K)} (hnd : NoDup l) (i j : Nat) :
    (∀ e ∈ l, e.rowind = i → e.colind = j → cooEntry l i j = e.value) ∧
      ((∀ e ∈ l, e.rowind = i → e.colind ≠ j) → cooEntry l i j = 0) := by
  have h0 : ∀ l : List (Entry K), (∀ e ∈ l, e.rowind = i → e.colind ≠ j) → cooEntry l i j = 0 := by
    intro l h
    unfold cooEntry
    refine List.sum_eq_zero fun x hx => ?_
    obtain ⟨e, he, rfl⟩ := List.mem_map.mp hx
    rw [if_neg fun h' => h e he h'.1 h'.2]
  refine ⟨?_, h0 l⟩
  induction l with
  | nil => simp
  | cons a l ih =>
    intro e he h1 h2
    have hnd' := List.pairwise_cons.mp hnd
    have hc : cooEntry (a :: l) i j = (if a.rowind = (i : Int) ∧ a.colind = (j : Int) then a.value else 0) + cooEntry l i j := by
      simp [cooEntry]
    rw [hc]
    rcases List.mem_cons.mp he with rfl | he
    · rw [if_pos ⟨h1, h2⟩, h0 l fun e' he' g1 g2 => hnd'.1 e' he' ⟨by omega, by omega⟩, add_zero]
    · rw [if_neg fun h => hnd'.1 e he ⟨by omega, by omega⟩, zero_add]
      exact ih hnd'.2 e he h1 h2

/-- **C60** `readMatFromCOOFile`: for a file with an entry in each row and no position listed twice, the function succeeds and the PETSc matrix has
the sizes and the elements that the file gives, in whatever order the file lists them. -/
theorem read_mat_correct [AddCommMonoid K] (checks : Bool) {optbs : Nat} {num : List Char → Option K}
    {srt : (Entry K → Int) → List (Entry K) → List (Entry K)} (hsrt : IsSort srt) (g : Nat → Nat) {text : List Char} {n m : Nat}
    {es : List (Nat × Nat × K)} (hfile : CoordinateFile num text n m es) (hn : 0 < n)
    (hall : ∀ r, 1 ≤ r → r ≤ n → ∃ e ∈ es, e.1 = r) (hnd : DistinctPositions es) (hdn : optbs ∣ n) (hdm : optbs ∣ m)
    {fuel : Nat} (hf : text.length ≤ fuel) :
    ∃ B, readMatFromCOOFile checks optbs num srt g fuel (some text) = .ok (B, 0) ∧ B.rows = n ∧ B.cols = m ∧ B.bs = optbs ∧
      ∀ i < n, ∀ j, B.entry i j = fileEntry es i j := by
  obtain ⟨A, a1, a2, a3, a4, a5, a6, a7, a8⟩ := read_matrix_market_correct_partial hsrt g hfile hn hall hf
  have hndA : NoDup A.entries := hnd.noDup a5
  have hne : ∀ i < A.nrows, A.rowptr⟦i⟧ < A.rowptr⟦i + 1⟧ := by
    intro i hi
    obtain ⟨e, he, h1⟩ := hall (i + 1) (by omega) (by omega)
    obtain ⟨k, hk, h2⟩ := List.getElem_of_mem (a5.mem_iff.mpr (List.mem_map.mpr ⟨e, he, rfl⟩) : zeroBased e ∈ A.entries)
    have := a7.pos_row hk (i := i) (by rw [h2]; simp only [zeroBased]; omega)
    omega
  have hset : matSetSizes (matCreate optbs : PMat K) A.nrows A.ncols = (⟨n, m, optbs, true, fun _ _ => none⟩, 0) := by
    unfold matSetSizes
    rw [a2, a3, if_neg (by omega), if_neg]
    · simp [matCreate]
    · have e1 : ((n : Int) % ((matCreate optbs : PMat K).bs : Int)) = 0 := by
        rw [show (matCreate optbs : PMat K).bs = optbs from rfl]
        exact_mod_cast Nat.mod_eq_zero_of_dvd hdn
      have e2 : ((m : Int) % ((matCreate optbs : PMat K).bs : Int)) = 0 := by
        rw [show (matCreate optbs : PMat K).bs = optbs from rfl]
        exact_mod_cast Nat.mod_eq_zero_of_dvd hdm
      rw [e1, e2]; simp
  obtain ⟨A0, hA0⟩ : ∃ A0 : PMat K, (⟨n, m, optbs, false, fun _ _ => none⟩ : PMat K) = A0 := ⟨_, rfl⟩
  obtain ⟨⟨B, c⟩, h1, rfl, h3, h4, h5⟩ := forRange_ok (body := readMatRow checks A) (s := (A0, 0))
    (fun t (s : PMat K × Nat) => s.2 = 0 ∧ A0.Same s.1 ∧
      (∀ i < t, ∀ k e, A.rowptr⟦i⟧ ≤ k → k < A.rowptr⟦i + 1⟧ → A.entries[k]? = some e → s.1.val i e.colind.toNat = some e.value) ∧
      (∀ I J : Nat, (∀ e ∈ A.entries, e.rowind = I → e.colind ≠ J) → s.1.val I J = none) ∧
      (∀ I J : Nat, t ≤ I → s.1.val I J = none))
    (Nat.zero_le A.nrows) ⟨rfl, PMat.Same.refl A0, fun i hi => absurd hi (Nat.not_lt_zero i), fun I J _ => by rw [← hA0], fun I J _ => by rw [← hA0]⟩ (by
      rintro t s - ht ⟨-, hs, g1, g2, g3⟩
      obtain ⟨B, b1, b2, b3, b4⟩ := readMatRow_ok checks a7 hndA ht (hne t ht) (s := s) (by rw [hs.rows, ← hA0]; exact a2.symm)
        (by rw [hs.cols, ← hA0]; exact a3.symm)
      rw [b1]
      refine Ok.pure ⟨rfl, hs.trans b2, ?_, ?_, ?_⟩
      · intro i hi k e hk1 hk2 he
        by_cases h : i = t
        · subst h; exact b3 k e hk1 hk2 he
        · dsimp only
          rw [b4 _ _ (.inl h)]
          exact g1 i (by omega) k e hk1 hk2 he
      · intro I J h
        dsimp only
        by_cases hI : I = t
        · rw [b4 I J (.inr (by rw [← hI]; exact h))]; exact g2 I J h
        · rw [b4 I J (.inl hI)]; exact g2 I J h
      · intro I J h
        dsimp only
        rw [b4 I J (.inl (by omega))]
        exact g3 I J (by omega))
  dsimp only at h3 h4 h5
  refine ⟨B, ?_, by rw [h3.rows, ← hA0], by rw [h3.cols, ← hA0], by rw [h3.bs, ← hA0], ?_⟩
  · unfold readMatFromCOOFile
    rw [a1, ok_bind]
    dsimp only
    rw [hset, if_neg (by simp)]
    show forRange 0 A.nrows (readMatRow checks A) ((⟨n, m, optbs, false, fun _ _ => none⟩ : PMat K), 0) = _
    rw [hA0]
    exact h1
  · intro i hi j
    rw [← cooEntry_file a5]
    have hc := cooEntry_noDup hndA i j
    unfold PMat.entry
    by_cases hex : ∃ e ∈ A.entries, e.rowind = i ∧ e.colind = j
    · obtain ⟨e, he, e1, e2⟩ := hex
      obtain ⟨k, hk, rfl⟩ := List.getElem_of_mem he
      have hki := a7.pos_row hk e1
      have := h4 i (by omega) k _ hki.1 hki.2 (List.getElem?_eq_getElem hk)
      rw [e2, Int.toNat_natCast] at this
      rw [this, Option.getD_some, hc.1 _ he e1 e2]
    · have hno : ∀ e ∈ A.entries, e.rowind = (i : Int) → e.colind ≠ (j : Int) := fun e he g1 g2 => hex ⟨e, he, g1, g2⟩
      rw [h5.1 i j hno, Option.getD_none, hc.2 hno]

theorem SR.Sorted.colsDistinct {V : Type _} {R : SR V} (h : R.Sorted) : R.ColsDistinct := by
  intro i hi k l hk hl he
  rcases Nat.lt_trichotomy k l with hlt | heq | hlt
  · have := h i hi k l hk.1 hlt hl.2; omega
  · exact heq
  · have := h i hi l k hl.1 hlt hk.2; omega

theorem bentry_one [AddCommMonoid K] (R : SR K) (i j : Nat) : R.bentry .colMajor 1 i j = R.entry i j := by
  unfold SR.bentry SR.entry
  simp [Stor.off, Nat.mod_one]

/-- **C60** (partial: missing are matrices that are not square, for which it is false, see `read_mat_via_sr_not_square`) `readMatFromCOOFile_viaSR` for a square matrix: with block size 3, 4 or 7 in the options (a divisor of the dimension) and with any other block size, the
function succeeds and the PETSc matrix has the elements that the file gives; in the first case it has the block size asked for, in the second block size 1. -/
theorem read_mat_via_sr_correct_partial [AddCommMonoid K] (checks : Bool) {mpisize optbs : Nat} (hmpi : mpisize ≤ 1) {num : List Char → Option K}
    {srt : (Entry K → Int) → List (Entry K) → List (Entry K)} (hsrt : IsSort srt) (gi : Nat → Nat) (gd : Nat → Int) (gv : Nat → K)
    {text : List Char} {n : Nat} {es : List (Nat × Nat × K)} (hfile : CoordinateFile num text n n es) (hn : 0 < n)
    (hall : ∀ r, 1 ≤ r → r ≤ n → ∃ e ∈ es, e.1 = r) (hnd : DistinctPositions es)
    (hdn : optbs = 3 ∨ optbs = 4 ∨ optbs = 7 → optbs ∣ n) {fuel : Nat} (hf : text.length ≤ fuel) :
    ∃ B, readMatFromCOOFileViaSR checks mpisize optbs num srt gi gd gv fuel (some text) = .ok (B, 0) ∧ B.rows = n ∧ B.cols = n ∧
      B.bs = (if optbs = 3 ∨ optbs = 4 ∨ optbs = 7 then optbs else 1) ∧ ∀ i < n, ∀ j, B.entry i j = fileEntry es i j := by
  obtain ⟨A, a1, a2, a3, a4, a5, a6, a7, a8⟩ := read_matrix_market_correct_partial hsrt gi hfile hn hall hf
  have hndA : NoDup A.entries := hnd.noDup a5
  unfold readMatFromCOOFileViaSR
  rw [if_neg (by omega), a1, ok_bind]
  by_cases hb : optbs = 3 ∨ optbs = 4 ∨ optbs = 7
  · have hbs : 0 < optbs := by omega
    have hbs1 : optbs ≠ 1 := by omega
    have hdiv : n % optbs = 0 := Nat.mod_eq_zero_of_dvd (hdn hb)
    obtain ⟨R, d, r1, r2, r3, -, -, r4, -, r5, -⟩ := coo_to_bsr_correct_partial A a7 (by omega) hndA optbs hbs hbs1 (by rw [a2]; exact hdiv)
      (.inr (by
        obtain ⟨e, he, h⟩ := hall 1 (Nat.le_refl _) hn
        refine ⟨zeroBased e, a5.mem_iff.mpr (List.mem_map.mpr ⟨e, he, rfl⟩), ?_⟩
        simp only [zeroBased, h]; omega)) "colmajor" .colMajor (.inr ⟨rfl, rfl⟩) gi gd gv
    have hset : matSetSizes (matCreate optbs : PMat K) A.nrows A.ncols = (⟨n, n, optbs, true, fun _ _ => none⟩, 0) := by
      unfold matSetSizes
      rw [a2, a3, if_neg (by omega), if_neg]
      · simp [matCreate]
      · have e1 : ((n : Int) % ((matCreate optbs : PMat K).bs : Int)) = 0 := by
          rw [show (matCreate optbs : PMat K).bs = optbs from rfl]
          exact_mod_cast hdiv
        rw [e1]; simp
    obtain ⟨B, b1, b2, b3⟩ := setRows_ok checks hbs r2 r5 (A := ⟨n, n, optbs, false, fun _ _ => none⟩) (by show n = _; omega) (by show n = _; omega) rfl
      (.inr rfl) (fun _ _ => rfl)
    refine ⟨B, ?_, b2.rows, b2.cols, by rw [if_pos hb]; exact b2.bs, ?_⟩
    · unfold viaSRConvert viaSRInsert
      rw [if_pos hb, r1, ok_bind, ok_bind]
      dsimp only
      rw [if_neg hbs1, hset, if_neg (by simp)]
      exact b1
    · intro i hi j
      rw [b3 i (by omega) j, r4 i (by omega) j, cooEntry_file a5]
  · have hlex : A.entries.Pairwise lexLt := (a6.and hndA).imp fun {a b} h => by
      unfold lexLe at h; unfold lexLt; omega
    obtain ⟨R, d, r1, r2, r3, -, -, -, -, r4, -⟩ := coo_to_csr_correct A a7 (by omega) "colmajor" gi gd gv
    obtain ⟨R', d', c1, c2, -⟩ := coo_to_csr_sorted A a7 (by omega) hlex "colmajor" gi gd gv
    rw [r1] at c1
    injection c1 with c1
    obtain ⟨rfl, rfl⟩ := Prod.ext_iff.mp c1
    obtain ⟨B, b1, b2, b3⟩ := setRows_ok checks (bs := 1) Nat.one_pos r2 c2.colsDistinct (A := ⟨R.nbrows, R.nbrows, 1, true, fun _ _ => none⟩)
      (by simp) (by simp) rfl (.inl rfl) (fun _ _ => rfl)
    refine ⟨B, ?_, by rw [b2.rows]; show R.nbrows = n; omega, by rw [b2.cols]; show R.nbrows = n; omega, by rw [if_neg hb]; exact b2.bs, ?_⟩
    · unfold viaSRConvert viaSRInsert
      rw [if_neg hb, r1, ok_bind, ok_bind]
      dsimp only
      rw [if_pos rfl]
      exact b1
    · intro i hi j
      rw [b3 i (by omega) j, bentry_one, r4 i (by omega) j, cooEntry_file a5]

/-- **C60** The two functions read the same matrix. -/
theorem read_mat_agree [AddCommMonoid K] (checks : Bool) {optbs : Nat} {num : List Char → Option K}
    {srt : (Entry K → Int) → List (Entry K) → List (Entry K)} (hsrt : IsSort srt) (g gi : Nat → Nat) (gd : Nat → Int) (gv : Nat → K)
    {text : List Char} {n : Nat} {es : List (Nat × Nat × K)} (hfile : CoordinateFile num text n n es) (hn : 0 < n)
    (hall : ∀ r, 1 ≤ r → r ≤ n → ∃ e ∈ es, e.1 = r) (hnd : DistinctPositions es) (hdn : optbs ∣ n) {fuel : Nat} (hf : text.length ≤ fuel) :
    ∃ A B, readMatFromCOOFile checks optbs num srt g fuel (some text) = .ok (A, 0) ∧
      readMatFromCOOFileViaSR checks 1 optbs num srt gi gd gv fuel (some text) = .ok (B, 0) ∧ A.rows = B.rows ∧ A.cols = B.cols ∧
      ∀ i < A.rows, ∀ j, A.entry i j = B.entry i j := by
  obtain ⟨A, a1, a2, a3, -, a4⟩ := read_mat_correct checks hsrt g hfile hn hall hnd hdn hdn hf
  obtain ⟨B, b1, b2, b3, -, b4⟩ := read_mat_via_sr_correct_partial checks (Nat.le_refl 1) hsrt gi gd gv hfile hn hall hnd (fun _ => hdn) hf
  exact ⟨A, B, a1, b1, by omega, by omega, fun i hi j => by rw [a4 i (by omega) j, b4 i (by omega) j]⟩

/-- **C60** More than one process is refused before anything is read. -/
theorem read_mat_via_sr_one_process [Zero K] (checks : Bool) {mpisize : Nat} (h : 1 < mpisize) (optbs : Nat) (num : List Char → Option K)
    (srt : (Entry K → Int) → List (Entry K) → List (Entry K)) (gi : Nat → Nat) (gd : Nat → Int) (gv : Nat → K) (fuel : Nat) (file : Option (List Char)) :
    readMatFromCOOFileViaSR checks mpisize optbs num srt gi gd gv fuel file =
      .error (.throw "std::runtime_error" " Currently only 1 rank is supported") := by
  unfold readMatFromCOOFileViaSR
  rw [if_pos h]

theorem vecSetValues_ok [Zero K] (checks : Bool) {v y : List K} (h : y.length ≤ v.length) :
    vecSetValues checks v (List.range y.length) y = .ok (y ++ v.drop y.length, 0) := by
  obtain ⟨⟨w, c⟩, h1, rfl, h3, h4⟩ := forRange_ok (lo := 0) (hi := (List.range y.length).length)
    (body := fun a (s : List K × Nat) =>
      if s.2 ≠ 0 then .ok s
      else do
        let i ← rd (List.range y.length) a
        let x ← rd y a
        if i < s.1.length then .ok (s.1.set i x, 0)
        else if checks then .ok (s.1, petscErrRange) else .error .ub) (s := (v, 0))
    (fun t (s : List K × Nat) => s.2 = 0 ∧ s.1.length = v.length ∧ ∀ k, s.1⟦k⟧ = if k < t then y⟦k⟧ else v⟦k⟧) (Nat.zero_le _)
    ⟨rfl, rfl, fun k => by rw [if_neg (by omega)]⟩ (by
      rintro t ⟨w, c⟩ - ht ⟨rfl, g1, g2⟩
      rw [List.length_range] at ht
      dsimp only at g1 g2 ⊢
      rw [if_neg (by simp), rd_getElem (by simpa using ht), ok_bind, List.getElem_range, rd_eq ht, ok_bind, if_pos (by omega)]
      refine Ok.pure ⟨rfl, by simp [g1], fun k => ?_⟩
      dsimp only
      by_cases hk : t = k
      · subst hk
        rw [get0_set_self (by omega), if_pos (by omega)]
      · rw [get0_set_ne hk, g2 k]
        by_cases hkt : k < t
        · rw [if_pos hkt, if_pos (by omega)]
        · rw [if_neg hkt, if_neg (by omega)])
  unfold vecSetValues
  rw [h1]
  dsimp only at h3 h4
  rw [List.length_range] at h4
  congr 2
  refine ext_get0 (by simp; omega) fun k hk => ?_
  rw [h4 k]
  by_cases hky : k < y.length
  · rw [if_pos hky, get0_append_left hky]
  · rw [if_neg hky, get0_append_right (by omega)]
    unfold get0
    rw [List.getD_eq_getElem?_getD, List.getD_eq_getElem?_getD, List.getElem?_drop]
    congr 2; omega

/-- **C60** `readVecFromFile` without a matrix: the vector holds the numbers of the file in their order. -/
theorem read_vec_correct [Zero K] (checks : Bool) {num : List Char → Option K} {text : List Char} {n m : Nat} {vs : List K}
    (hfile : ArrayFile num text n m vs) {fuel : Nat} (hf : text.length ≤ fuel) :
    readVecFromFile checks num fuel (some text) none = .ok (vs, 0) := by
  unfold readVecFromFile
  rw [read_dense_correct hfile hf, ok_bind]
  show vecSetValues checks (List.replicate vs.length 0) (List.range vs.length) vs = _
  rw [vecSetValues_ok checks (by simp)]
  simp

/-- **C60** `readVecFromFile` with a matrix: the vector has as many elements as the matrix has rows; those that are not in the file are zero. When the file has more numbers
than the matrix has rows, the call fails with an error code if PETSc checks indices. -/
theorem read_vec_like_matrix [Zero K] (checks : Bool) {num : List Char → Option K} {text : List Char} {n m : Nat} {vs : List K}
    (hfile : ArrayFile num text n m vs) {fuel : Nat} (hf : text.length ≤ fuel) (A : PMat K) :
    (vs.length ≤ A.rows → readVecFromFile checks num fuel (some text) (some A) = .ok (vs ++ List.replicate (A.rows - vs.length) 0, 0)) ∧
    (A.rows < vs.length → ∃ w, readVecFromFile true num fuel (some text) (some A) = .ok (w, petscErrRange)) := by
  constructor
  · intro h
    unfold readVecFromFile
    rw [read_dense_correct hfile hf, ok_bind]
    show vecSetValues checks (List.replicate A.rows 0) (List.range vs.length) vs = _
    rw [vecSetValues_ok checks (by simpa using h), List.drop_replicate]
  · intro h
    unfold readVecFromFile
    rw [read_dense_correct hfile hf, ok_bind]
    show ∃ w, vecSetValues true (List.replicate A.rows 0) (List.range vs.length) vs = _
    obtain ⟨⟨w, c⟩, h1, h2, h3⟩ := forRange_ok (lo := 0) (hi := (List.range vs.length).length)
      (body := fun a (s : List K × Nat) =>
        if s.2 ≠ 0 then .ok s
        else do
          let i ← rd (List.range vs.length) a
          let x ← rd vs a
          if i < s.1.length then .ok (s.1.set i x, 0)
          else if true then .ok (s.1, petscErrRange) else .error .ub) (s := (List.replicate A.rows 0, 0))
      (fun t (s : List K × Nat) => s.1.length = A.rows ∧ (s.2 = if t ≤ A.rows then 0 else petscErrRange)) (Nat.zero_le _)
      ⟨by simp, by rw [if_pos (Nat.zero_le _)]⟩ (by
        rintro t ⟨w, c⟩ - ht ⟨g1, g2⟩
        rw [List.length_range] at ht
        dsimp only at g1 g2 ⊢
        by_cases hA : t ≤ A.rows
        · rw [if_pos hA] at g2
          subst g2
          rw [if_neg (by simp), rd_getElem (by simpa using ht), ok_bind, List.getElem_range, rd_eq ht, ok_bind]
          by_cases htA : t < A.rows
          · rw [if_pos (by omega)]
            exact Ok.pure ⟨by simp [g1], by rw [if_pos (show t + 1 ≤ A.rows by omega)]⟩
          · rw [if_neg (by omega), if_pos rfl]
            exact Ok.pure ⟨g1, by rw [if_neg (show ¬ t + 1 ≤ A.rows by omega)]⟩
        · rw [if_neg hA] at g2
          subst g2
          rw [if_pos (by decide)]
          exact Ok.pure ⟨g1, by rw [if_neg (show ¬ t + 1 ≤ A.rows by omega)]⟩)
    rw [List.length_range, if_neg (by omega)] at h3
    dsimp only at h3
    subst h3
    exact ⟨w, h1⟩

/-! ### Examples and what goes wrong -/

/-- All elements of a small matrix, with the sizes, the block size and the error code. -/
def dumpMat : C (PMat ℚ × Nat) → Option (List Nat × List (List (Option ℚ)))
  | .ok (A, e) => some ([A.rows, A.cols, A.bs, e], (List.range A.rows).map fun i => (List.range A.cols).map fun j => A.val i j)
  | .error _ => none

example : CoordinateFile exNum exFile 3 3 [(3, 3, 4), (1, 3, 1), (2, 1, 2), (1, 1, 5), (3, 2, 3)] ∧
    DistinctPositions [((3, 3, 4) : Nat × Nat × ℚ), (1, 3, 1), (2, 1, 2), (1, 1, 5), (3, 2, 3)] ∧
    dumpMat (readMatFromCOOFile true 1 exNum exSort (fun _ => 9) 100 (some exFile)) =
      some ([3, 3, 1, 0], [[some 5, none, some 1], [some 2, none, none], [none, some 3, some 4]]) ∧
    dumpMat (readMatFromCOOFileViaSR true 1 1 exNum exSort (fun _ => 9) (fun _ => 9) (fun _ => 9) 100 (some exFile)) =
      some ([3, 3, 1, 0], [[some 5, none, some 1], [some 2, none, none], [none, some 3, some 4]]) ∧
    dumpMat (readMatFromCOOFileViaSR true 1 3 exNum exSort (fun _ => 9) (fun _ => 9) (fun _ => 9) 100 (some exFile)) =
      some ([3, 3, 3, 0], [[some 5, some 0, some 1], [some 2, some 0, some 0], [some 0, some 3, some 4]]) :=
  ⟨exFile_ok, by unfold DistinctPositions; decide, by decide +kernel, by decide +kernel, by decide +kernel⟩

/-- The error code of every row but the last is lost: this file has an entry in column 3 of a matrix with two columns; `MatSetValues` reports it, and
`readMatFromCOOFile` returns success with a matrix that does not have the entry. -/
theorem read_mat_error_lost :
    ∃ text : List Char, dumpMat (readMatFromCOOFile true 1 exNum exSort (fun _ => 0) 100 (some text)) =
        some ([2, 2, 1, 0], [[some 5, none], [none, some 4]]) ∧
      (readMatrixMarket exNum exSort (fun _ => 0) 100 (some text)).map COO.entries = .ok [⟨0, 0, 5⟩, ⟨0, 2, 7⟩, ⟨1, 1, 4⟩] :=
  ⟨"%%MatrixMarket matrix coordinate real general\n2 2 3\n1 1 5\n1 3 7\n2 2 4\n".toList, by decide +kernel, by decide +kernel⟩

/-- `readMatFromCOOFile_viaSR` takes the number of rows for the number of columns: a 3 × 2 matrix comes out as 3 × 3, where `readMatFromCOOFile` gives 3 × 2; and a 2 × 3
matrix cannot be read. -/
theorem read_mat_via_sr_not_square :
    (∃ text : List Char, dumpMat (readMatFromCOOFile true 1 exNum exSort (fun _ => 0) 100 (some text)) =
        some ([3, 2, 1, 0], [[some 5, none], [none, some 4], [some 6, none]]) ∧
      dumpMat (readMatFromCOOFileViaSR true 1 1 exNum exSort (fun _ => 0) (fun _ => 0) (fun _ => 0) 100 (some text)) =
        some ([3, 3, 1, 0], [[some 5, none, none], [none, some 4, none], [some 6, none, none]])) ∧
    (∃ text : List Char, dumpMat (readMatFromCOOFile true 1 exNum exSort (fun _ => 0) 100 (some text)) =
        some ([2, 3, 1, 0], [[some 5, none, some 7], [none, some 4, none]]) ∧
      (dumpMat (readMatFromCOOFileViaSR true 1 1 exNum exSort (fun _ => 0) (fun _ => 0) (fun _ => 0) 100 (some text))).map (fun r => r.1[3]?) =
        some (some petscErrRange)) :=
  ⟨⟨"%%MatrixMarket matrix coordinate real general\n3 2 3\n1 1 5\n2 2 4\n3 1 6\n".toList, by decide +kernel, by decide +kernel⟩,
    ⟨"%%MatrixMarket matrix coordinate real general\n2 3 3\n1 1 5\n1 3 7\n2 2 4\n".toList, by decide +kernel, by decide +kernel⟩⟩

example : readVecFromFile true exNum 100 (some "%%MatrixMarket matrix array integer general\n%\n2 2\n1 2\n3\n4".toList) none = .ok (([1, 2, 3, 4] : List ℚ), 0) :=
  read_vec_correct true exDense_ok (by decide)

example : ∃ A : PMat ℚ, [(1 : ℚ), 2, 3, 4].length ≤ A.rows ∧
    readVecFromFile true exNum 100 (some "%%MatrixMarket matrix array integer general\n%\n2 2\n1 2\n3\n4".toList) (some A) =
      .ok ([1, 2, 3, 4, 0, 0], 0) :=
  ⟨⟨6, 6, 1, true, fun _ _ => none⟩, by decide, (read_vec_like_matrix true exDense_ok (by decide) _).1 (by decide)⟩

end Blasted
