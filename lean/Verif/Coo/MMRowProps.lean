import Verif.Coo.MMRows

/-!
# Which coordinate files are read, and as what (C85)

With or without assertions, for entries with any row and column numbers.
-/

namespace Blasted
open Finset

variable {K : Type}

/-! ## Specification -/

/-- The word `w` is the integer `v`: a sign or none, and decimal digits. -/
def IntWord (w : List Char) (v : Int) : Prop :=
  ∃ (sign ds : List Char) (n : Nat), w = sign ++ ds ∧ Decimal ds n ∧ ((sign = [] ∨ sign = ['+']) ∧ v = n ∨ sign = ['-'] ∧ v = -(n : Int))

/-- The text begins with the entries `es` (row number, column number, value), where row and column numbers are any integers; `extra` are the words that follow. -/
def BeginsWithEntries (num : List Char → Option K) (body : List Char) (es : List (Int × Int × K)) : Prop :=
  ∃ (toks : List (List Char × List Char × List Char)) (extra : List (List Char)),
    Words body ((toks.flatMap fun t => [t.1, t.2.1, t.2.2]) ++ extra) ∧
    List.Forall₂ (fun t e => IntWord t.1 e.1 ∧ IntWord t.2.1 e.2.1 ∧ num t.2.2 = some e.2.2) toks es

/-- `text` has a header of a kind that is read and the sizes `n`, `m` and the length of `es`, and then lists `es`; more words on the size line and more text after the
entries are allowed. All numbers of the file fit in `int`, also after 1 is subtracted from them. -/
structure CoordinateText (num : List Char → Option K) (text : List Char) (n m : Int) (es : List (Int × Int × K)) : Prop where
  parts : ∃ ss more body, HasSizeLine text ss body ∧ List.Forall₂ SizeWord ss (n :: m :: (es.length : Int) :: more) ∧ BeginsWithEntries num body es
  range : ∀ e ∈ es, -2147483648 < e.1 ∧ e.1 ≤ 2147483647 ∧ -2147483648 < e.2.1 ∧ e.2.1 ≤ 2147483647

/-- The row numbers that occur. -/
def rowNumbers (es : List (Int × Int × K)) : Finset Int := (es.map fun e => e.1).toFinset

/-- The place of the row number `x` among the row numbers that occur. -/
def rowPlace (es : List (Int × Int × K)) (x : Int) : Nat := ((rowNumbers es).filter (· < x)).card

/-- The entry with 1 subtracted from its row and column number. -/
def lessOne (e : Int × Int × K) : Entry K := ⟨e.1 - 1, e.2.1 - 1, e.2.2⟩

/-! ## Lemmas -/

theorem readInt_word {s : IStr} (hg : s.good = true) {t : List Char} {ts : List (List Char)} {v : Int}
    (h : tokens s.rest = t :: ts) (hd : IntWord t v) (h1 : -2147483648 ≤ v) (h2 : v ≤ 2147483647) :
    ∃ r, readInt s = ({ rest := r, eof := r.isEmpty }, some v) ∧ tokens r = ts := by
  obtain ⟨sign, ds, n, rfl, hdec, hv⟩ := hd
  have hdec := hdec.isDec
  obtain ⟨r, h1', h2', -, h4, h5⟩ := tokens_split h
  refine ⟨r, ?_, h5⟩
  have hne : sign ++ ds ++ r ≠ [] := List.append_ne_nil_of_left_ne_nil h2' r
  obtain ⟨e1, e2⟩ := takeWhile_digits hdec.2.1 h4
  have hsp : splitSign (sign ++ ds ++ r) = (decide (sign = ['-']), ds ++ r) := by
    rcases hv with ⟨rfl | rfl, -⟩ | ⟨rfl, -⟩
    · rw [List.nil_append, splitSign_digits hdec.1 hdec.2.1]; rfl
    · rfl
    · rfl
  have hval : signedVal (decide (sign = ['-'])) ds = v := by
    unfold signedVal
    rw [hdec.2.2]
    rcases hv with ⟨rfl | rfl, rfl⟩ | ⟨rfl, rfl⟩ <;> simp
  unfold readInt
  rw [if_pos hg, h1', if_neg hne]
  simp only [hsp, e1, e2, if_neg hdec.1, hval]
  rw [if_neg (by unfold intMax; omega), if_neg (by unfold intMin; omega)]

theorem readEntries_words [Zero K] {num : List Char → Option K} {body : List Char} {es : List (Int × Int × K)} (hb : BeginsWithEntries num body es)
    (hr : ∀ e ∈ es, -2147483648 < e.1 ∧ e.1 ≤ 2147483647 ∧ -2147483648 < e.2.1 ∧ e.2.1 ≤ 2147483647) :
    ∃ s', readEntries num es.length { rest := body } = .ok (s', es.map lessOne) := by
  obtain ⟨toks, extra, ht, hf⟩ := hb
  have key : ∀ (toks : List (List Char × List Char × List Char)) (es : List (Int × Int × K)),
      List.Forall₂ (fun t e => IntWord t.1 e.1 ∧ IntWord t.2.1 e.2.1 ∧ num t.2.2 = some e.2.2) toks es →
      (∀ e ∈ es, -2147483648 < e.1 ∧ e.1 ≤ 2147483647 ∧ -2147483648 < e.2.1 ∧ e.2.1 ≤ 2147483647) →
      ∀ (s : IStr) (acc : List (Entry K)) (lo : Nat), (es ≠ [] → s.good = true) →
      tokens s.rest = toks.flatMap (fun t => [t.1, t.2.1, t.2.2]) ++ extra →
      ∃ s', forRange lo (lo + es.length) (fun _ (st : IStr × List (Entry K)) => do
        let r ← readEntry num st.1
        .ok (r.1, st.2 ++ [r.2])) (s, acc) = .ok (s', acc ++ es.map lessOne) := by
    intro toks es hf
    induction hf with
    | nil =>
      intro _ s acc lo _ ht
      exact ⟨s, by simp [forRange_self]⟩
    | @cons t e toks es hte hf ih =>
      intro hr s acc lo hg ht
      have hre := hr e (by simp)
      have ht' : tokens s.rest = t.1 :: t.2.1 :: t.2.2 :: (toks.flatMap (fun t => [t.1, t.2.1, t.2.2]) ++ extra) := by simpa using ht
      obtain ⟨r1, e1, g1⟩ := readInt_word (hg (by simp)) ht' hte.1 (by omega) (by omega)
      obtain ⟨r2, e2, g2⟩ := readInt_word (good_of_tokens g1) g1 hte.2.1 (by omega) (by omega)
      obtain ⟨r3, e3, g3⟩ := readNum_ok (num := num) (good_of_tokens g2) g2 hte.2.2
      have hread : readEntry num s = .ok ({ rest := r3, eof := r3.isEmpty }, lessOne e) := by
        unfold readEntry
        simp only [e1, e2, e3]
        rw [if_neg (by unfold intMin; omega)]
        rfl
      obtain ⟨s', hs'⟩ := ih (fun x hx => hr x (by simp [hx])) { rest := r3, eof := r3.isEmpty } (acc ++ [lessOne e]) (lo + 1)
        (by
          intro hne
          cases hf with
          | nil => exact absurd rfl hne
          | cons h1 h2 => exact good_of_tokens (by simpa using g3)) g3
      refine ⟨s', ?_⟩
      rw [List.length_cons, show lo + (es.length + 1) = lo + 1 + es.length by omega,
        forRange_split (mid := lo + 1) (by omega) (by omega), forRange_succ_right (Nat.le_refl _), forRange_self,
        ok_bind]
      dsimp only
      rw [hread, ok_bind, ok_bind, hs']
      simp
  obtain ⟨s', hs'⟩ := key toks es hf hr { rest := body } [] 0 (fun _ => rfl) ht.tokens
  rw [Nat.zero_add] at hs'
  exact ⟨s', by unfold readEntries; rw [hs']; rfl⟩

/-- Reduction to what comes after the entries have been read. -/
theorem readMatrixMarketB_text [Zero K] (dbg : Bool) {num : List Char → Option K} {srt : (Entry K → Int) → List (Entry K) → List (Entry K)} (g : Nat → Nat)
    {text : List Char} {n m : Int} {es : List (Int × Int × K)} (h : CoordinateText num text n m es) {fuel : Nat} (hf : text.length ≤ fuel) :
    readMatrixMarketB dbg num srt g fuel (some text) =
      if n < -1 then .error (.throw "std::length_error" "vector::_M_default_append")
      else if n = -1 then .error .ub
      else (do
        let sc ← rowScanB dbg g (srt Entry.rowind (es.map lessOne)) n.toNat
        let es' ← forRange 0 n.toNat (sortRow srt sc.rowits) (srt Entry.rowind (es.map lessOne))
        .ok { entries := es', nnz := es.length, nrows := n.toNat, ncols := m, rowptr := sc.rowptr }) := by
  obtain ⟨ss, more, body, hl, hss, hb⟩ := h.parts
  obtain ⟨-, k2⟩ := readMatrixMarketB_sizes (num := num) (srt := srt) dbg g hl hf
  obtain ⟨_, _, _, _, _, -, -, -, -, -, -, -, hw⟩ := hl
  obtain ⟨m1, -⟩ := mapM_stoi hw.no_blank
  have := hss.length_eq
  simp only [List.length_cons] at this
  rw [k2 (by omega), (m1 _).2 hss, ok_bind, show rd (n :: m :: (es.length : Int) :: more) 2 = .ok (es.length : Int) from rfl, ok_bind,
    show rd (n :: m :: (es.length : Int) :: more) 0 = .ok n from rfl, ok_bind, show rd (n :: m :: (es.length : Int) :: more) 1 = .ok m from rfl, ok_bind]
  obtain ⟨s', e1⟩ := readEntries_words hb h.range
  unfold readBodyB
  rw [if_neg (by omega), Int.toNat_natCast, e1, ok_bind]

theorem rowPlace_facts (es : List (Int × Int × K)) :
    (∀ x ∈ rowNumbers es, ∀ y, rowPlace es x < rowPlace es y ↔ x < y) ∧ (∀ x ∈ rowNumbers es, rowPlace es x < (rowNumbers es).card) ∧
    (∀ r < (rowNumbers es).card, ∃ x ∈ rowNumbers es, rowPlace es x = r) := by
  have h1 : ∀ x ∈ rowNumbers es, ∀ y, x < y → rowPlace es x < rowPlace es y := by
    intro x hx y hxy
    refine card_lt_card ⟨fun z hz => ?_, fun hsub => ?_⟩
    · rw [mem_filter] at hz ⊢
      exact ⟨hz.1, lt_trans hz.2 hxy⟩
    · have := hsub (mem_filter.2 ⟨hx, hxy⟩)
      exact lt_irrefl _ (mem_filter.1 this).2
  have hmono : ∀ x y, x ≤ y → rowPlace es x ≤ rowPlace es y := by
    intro x y hxy
    refine card_le_card fun z hz => ?_
    rw [mem_filter] at hz ⊢
    exact ⟨hz.1, lt_of_lt_of_le hz.2 hxy⟩
  have h2 : ∀ x ∈ rowNumbers es, rowPlace es x < (rowNumbers es).card := by
    intro x hx
    refine card_lt_card ⟨filter_subset _ _, fun hsub => ?_⟩
    exact lt_irrefl _ (mem_filter.1 (hsub hx)).2
  refine ⟨fun x hx y => ⟨fun h => ?_, h1 x hx y⟩, h2, ?_⟩
  · by_contra hc
    have := hmono y x (by omega)
    omega
  · have hinj : Set.InjOn (rowPlace es) (rowNumbers es) := by
      intro x hx y hy hxy
      rcases lt_trichotomy x y with h | h | h
      · have := h1 x hx y h; omega
      · exact h
      · have := h1 y hy x h; omega
    have himg : (rowNumbers es).image (rowPlace es) = range (rowNumbers es).card := by
      refine eq_of_subset_of_card_le (fun r hr => ?_) ?_
      · obtain ⟨x, hx, rfl⟩ := mem_image.1 hr
        exact mem_range.2 (h2 x hx)
      · rw [card_range, card_image_of_injOn hinj]
    intro r hr
    have : r ∈ (rowNumbers es).image (rowPlace es) := by rw [himg]; exact mem_range.2 hr
    obtain ⟨x, hx, hxr⟩ := mem_image.1 this
    exact ⟨x, hx, hxr⟩

/-- The part of the reader after the reading of the entries. -/
theorem text_groups {srt : (Entry K → Int) → List (Entry K) → List (Entry K)} (hsrt : IsSort srt) {es : List (Int × Int × K)} (hne : es ≠ []) :
    srt Entry.rowind (es.map lessOne) ≠ [] ∧
    (srt Entry.rowind (es.map lessOne)).Pairwise (fun a b => rowPlace es (a.rowind + 1) ≤ rowPlace es (b.rowind + 1)) ∧
    (∀ a ∈ srt Entry.rowind (es.map lessOne), ∀ b ∈ srt Entry.rowind (es.map lessOne),
      rowPlace es (a.rowind + 1) = rowPlace es (b.rowind + 1) ↔ a.rowind = b.rowind) ∧
    (∀ e ∈ srt Entry.rowind (es.map lessOne), rowPlace es (e.rowind + 1) < (rowNumbers es).card) ∧
    (∀ r < (rowNumbers es).card, ∃ e ∈ srt Entry.rowind (es.map lessOne), rowPlace es (e.rowind + 1) = r) := by
  obtain ⟨p1, p2⟩ := hsrt Entry.rowind (es.map lessOne)
  obtain ⟨f1, f2, f3⟩ := rowPlace_facts es
  have hmem : ∀ a ∈ srt Entry.rowind (es.map lessOne), a.rowind + 1 ∈ rowNumbers es := by
    intro a ha
    obtain ⟨e, he, rfl⟩ := List.mem_map.1 (p1.mem_iff.1 ha)
    unfold rowNumbers
    rw [List.mem_toFinset, List.mem_map]
    exact ⟨e, he, by simp [lessOne]⟩
  refine ⟨?_, ?_, ?_, fun e he => f2 _ (hmem e he), fun r hr => ?_⟩
  · intro h
    have := p1.length_eq
    rw [h, List.length_map] at this
    exact hne (List.length_eq_zero_iff.1 this.symm)
  · refine p2.imp_of_mem fun {a b} ha hb h => ?_
    by_contra hc
    have := (f1 _ (hmem b hb) (a.rowind + 1)).1 (by omega)
    omega
  · intro a ha b hb
    have h1 := f1 _ (hmem a ha) (b.rowind + 1)
    have h2 := f1 _ (hmem b hb) (a.rowind + 1)
    constructor
    · intro h; omega
    · intro h; rw [h]
  · obtain ⟨x, hx, hxr⟩ := f3 r hr
    unfold rowNumbers at hx
    rw [List.mem_toFinset, List.mem_map] at hx
    obtain ⟨e, he, rfl⟩ := hx
    exact ⟨lessOne e, p1.mem_iff.2 (List.mem_map.2 ⟨e, he, rfl⟩), by simpa [lessOne] using hxr⟩

/-! ## Theorems -/

/-- **C85** What is rejected. A number of rows less than -1 throws, and -1 is undefined behaviour. Otherwise only the number of different row numbers counts, not
their values. If it is less than the number of rows, a build with assertions aborts and one without assertions has undefined behaviour. If it is larger by one, only a
build with assertions aborts; if it is larger by two or more, memory is overwritten in both, which is undefined behaviour, as is a file without entries. -/
theorem read_rows_rejected [Zero K] {num : List Char → Option K} {srt : (Entry K → Int) → List (Entry K) → List (Entry K)} (hsrt : IsSort srt) (g : Nat → Nat)
    {text : List Char} {n m : Int} {es : List (Int × Int × K)} (h : CoordinateText num text n m es) {fuel : Nat} (hf : text.length ≤ fuel) (dbg : Bool) :
    (n < -1 → ∃ msg, readMatrixMarketB dbg num srt g fuel (some text) = .error (.throw "std::length_error" msg)) ∧
    (n = -1 ∨ 0 ≤ n ∧ es = [] → readMatrixMarketB dbg num srt g fuel (some text) = .error .ub) ∧
    (0 ≤ n → es ≠ [] →
      (((rowNumbers es).card : Int) < n → readMatrixMarketB dbg num srt g fuel (some text) = if dbg then .error .abort else .error .ub) ∧
      (((rowNumbers es).card : Int) = n + 1 → readMatrixMarketB true num srt g fuel (some text) = .error .abort) ∧
      (((rowNumbers es).card : Int) ≥ n + 2 → readMatrixMarketB dbg num srt g fuel (some text) = .error .ub)) := by
  refine ⟨fun hn => ⟨_, by rw [readMatrixMarketB_text dbg g h hf, if_pos hn]⟩, ?_, fun hn hne => ?_⟩
  · rintro (hn | ⟨hn, rfl⟩)
    · rw [readMatrixMarketB_text dbg g h hf, if_neg (by omega), if_pos hn]
    · have hnil : srt Entry.rowind (([] : List (Int × Int × K)).map lessOne) = [] := by
        have := (hsrt Entry.rowind (([] : List (Int × Int × K)).map lessOne)).1
        simpa using this
      rw [readMatrixMarketB_text dbg g h hf, if_neg (by omega), if_neg (by omega), hnil]
      unfold rowScanB
      rw [wr_eq (by simp), ok_bind, wr_eq (by simp), ok_bind, if_pos rfl]
      rfl
  · obtain ⟨t1, t2, t3, t4, t5⟩ := text_groups hsrt hne
    have hred : ∀ dbg, readMatrixMarketB dbg num srt g fuel (some text) = (do
        let sc ← rowScanB dbg g (srt Entry.rowind (es.map lessOne)) n.toNat
        let es' ← forRange 0 n.toNat (sortRow srt sc.rowits) (srt Entry.rowind (es.map lessOne))
        .ok { entries := es', nnz := es.length, nrows := n.toNat, ncols := m, rowptr := sc.rowptr }) := by
      intro dbg
      rw [readMatrixMarketB_text dbg g h hf, if_neg (by omega), if_neg (by omega)]
    have hsc := fun dbg => scanAndSort hsrt (rk := fun e => rowPlace es (e.rowind + 1)) t1 t2 t3 t4 t5 dbg n.toNat g
    refine ⟨fun hd => ?_, fun hd => ?_, fun hd => ?_⟩
    · cases dbg with
      | true =>
        rw [hred, (hsc true).2.1 (by omega) (by omega)]
        rfl
      | false =>
        obtain ⟨sc, e1, e2⟩ := (hsc false).2.2.2.2 (by omega)
        rw [hred, e1, ok_bind, e2]
        rfl
    · rw [hred, (hsc true).2.1 (by omega) (by omega)]
      rfl
    · rw [hred, (hsc dbg).1 (by omega)]
      rfl

/-- **C85** What is accepted. If the number of different row numbers is the number of rows, or, without assertions, larger by one, then the file is read; what
the row numbers are does not matter. Rows are numbered by the place of their number among the row numbers that occur, but without assertions the last two of `n + 1`
rows become one. The entries are those of the file with 1 subtracted from both numbers, ordered by row and then by column, so the entries of two rows that became
one are mixed. The row pointers count entries accordingly. -/
theorem read_rows_accepted [Zero K] {num : List Char → Option K} {srt : (Entry K → Int) → List (Entry K) → List (Entry K)} (hsrt : IsSort srt) (g : Nat → Nat)
    {text : List Char} {n : Nat} {m : Int} {es : List (Int × Int × K)} (h : CoordinateText num text n m es) {fuel : Nat} (hf : text.length ≤ fuel) (dbg : Bool)
    (hes : es ≠ []) (hd : (rowNumbers es).card = n ∨ dbg = false ∧ (rowNumbers es).card = n + 1) :
    ∃ A, readMatrixMarketB dbg num srt g fuel (some text) = .ok A ∧ A.nrows = n ∧ A.ncols = m ∧ A.nnz = es.length ∧ A.entries.Perm (es.map lessOne) ∧
      A.rowptr.length = n + 1 ∧ A.rowptr⟦n⟧ = es.length ∧
      (0 < n → (∀ r ≤ n, A.rowptr⟦r⟧ = es.countP fun e => decide (min (rowPlace es e.1) (n - 1) < r)) ∧
        A.entries.Pairwise fun a b => min (rowPlace es (a.rowind + 1)) (n - 1) < min (rowPlace es (b.rowind + 1)) (n - 1) ∨
          (min (rowPlace es (a.rowind + 1)) (n - 1) = min (rowPlace es (b.rowind + 1)) (n - 1) ∧ a.colind ≤ b.colind)) := by
  obtain ⟨t1, t2, t3, t4, t5⟩ := text_groups hsrt hes
  obtain ⟨p1, p2⟩ := hsrt Entry.rowind (es.map lessOne)
  have hred : readMatrixMarketB dbg num srt g fuel (some text) = (do
      let sc ← rowScanB dbg g (srt Entry.rowind (es.map lessOne)) n
      let es' ← forRange 0 n (sortRow srt sc.rowits) (srt Entry.rowind (es.map lessOne))
      .ok { entries := es', nnz := es.length, nrows := n, ncols := m, rowptr := sc.rowptr }) := by
    rw [readMatrixMarketB_text dbg g h hf, if_neg (by omega), if_neg (by omega), Int.toNat_natCast]
  have hsc := scanAndSort hsrt (rk := fun e => rowPlace es (e.rowind + 1)) t1 t2 t3 t4 t5 dbg n g
  have hlen : (srt Entry.rowind (es.map lessOne)).length = es.length := by rw [p1.length_eq, List.length_map]
  by_cases h0 : 0 < n
  · obtain ⟨sc, es', e1, e2, e3, e4, e5, e6⟩ := hsc.2.2.1 h0 hd
    have hcount : ∀ r ≤ n, sc.rowptr⟦r⟧ = es.countP fun e => decide (min (rowPlace es e.1) (n - 1) < r) := by
      intro r hr
      rw [e6 r hr, p1.countP_eq, List.countP_map]
      refine List.countP_congr fun e _ => ?_
      simp [lessOne]
    refine ⟨_, by rw [hred, e1, ok_bind, e2, ok_bind], rfl, rfl, rfl, e3.trans p1, e5, ?_, fun _ => ⟨hcount, e4⟩⟩
    show sc.rowptr⟦n⟧ = es.length
    rw [hcount n (Nat.le_refl _)]
    exact List.countP_eq_length.mpr fun e he => by simp only [decide_eq_true_eq]; omega
  · have hn0 : n = 0 := by omega
    have hpos : 0 < (rowNumbers es).card := by
      obtain ⟨e, l, rfl⟩ := List.exists_cons_of_ne_nil hes
      exact card_pos.2 ⟨e.1, by unfold rowNumbers; simp⟩
    have hdbg : dbg = false ∧ (rowNumbers es).card = n + 1 := by
      rcases hd with h | h
      · omega
      · exact h
    obtain ⟨rfl, hd⟩ := hdbg
    obtain ⟨sc, e1, e2⟩ := hsc.2.2.2.1 hn0 (by omega)
    subst hn0
    refine ⟨_, by rw [hred, e1, ok_bind, forRange_self, ok_bind], rfl, rfl, rfl, p1, ?_, ?_, fun h => absurd h (by omega)⟩
    · show sc.rowptr.length = 1
      rw [e2]; rfl
    · show sc.rowptr⟦0⟧ = es.length
      rw [e2, ← hlen]; rfl

/-- **C85** Exactly which files with at least one entry are read: those with as many different row numbers as the size line announces rows and, in a build
without assertions, those with one more. -/
theorem read_rows_accepted_iff [Zero K] {num : List Char → Option K} {srt : (Entry K → Int) → List (Entry K) → List (Entry K)} (hsrt : IsSort srt) (g : Nat → Nat)
    {text : List Char} {n m : Int} {es : List (Int × Int × K)} (h : CoordinateText num text n m es) {fuel : Nat} (hf : text.length ≤ fuel) (dbg : Bool) (hes : es ≠ []) :
    (∃ A, readMatrixMarketB dbg num srt g fuel (some text) = .ok A) ↔
      0 ≤ n ∧ (((rowNumbers es).card : Int) = n ∨ dbg = false ∧ ((rowNumbers es).card : Int) = n + 1) := by
  constructor
  · rintro ⟨A, hA⟩
    obtain ⟨r1, r2, r3⟩ := read_rows_rejected hsrt g h hf dbg
    by_cases hn : 0 ≤ n
    · refine ⟨hn, ?_⟩
      obtain ⟨q1, q2, q3⟩ := r3 hn hes
      rcases lt_trichotomy ((rowNumbers es).card : Int) n with hc | hc | hc
      · rw [q1 hc] at hA
        cases dbg <;> cases hA
      · exact .inl hc
      · by_cases hc' : ((rowNumbers es).card : Int) = n + 1
        · right
          cases dbg with
          | true => rw [q2 hc'] at hA; cases hA
          | false => exact ⟨rfl, hc'⟩
        · rw [q3 (by omega)] at hA; cases hA
    · by_cases hn' : n = -1
      · rw [r2 (.inl hn')] at hA; cases hA
      · obtain ⟨msg, e⟩ := r1 (by omega)
        rw [e] at hA; cases hA
  · rintro ⟨hn, hd⟩
    obtain ⟨k, rfl⟩ := Int.eq_ofNat_of_zero_le hn
    obtain ⟨A, e, -⟩ := read_rows_accepted hsrt g h hf dbg hes (hd.imp (fun h => by omega) fun h => ⟨h.1, by omega⟩)
    exact ⟨A, e⟩

/-! ## Concrete cases -/

theorem exRowText : CoordinateText exNum "%%MatrixMarket matrix coordinate real general\n2 2 3\n-5 2 2\n+9 1 7\n0 1 3\nmore".toList 2 2
    [(-5, 2, 2), (9, 1, 7), (0, 1, 3)] := by
  refine ⟨⟨["2".toList, "2".toList, "3".toList], [], "-5 2 2\n+9 1 7\n0 1 3\nmore".toList,
    ⟨"%%MatrixMarket matrix coordinate real general".toList, "matrix".toList, "real".toList, [], "2 2 3".toList, by decide +kernel,
      by decide, .of_tokens (by decide +kernel), by decide, by decide, by decide, by decide, .of_tokens (by decide +kernel)⟩, ?_, ?_⟩, by decide⟩
  · rw [← (mapM_stoi (by decide)).1]
    decide +kernel
  · refine ⟨[("-5".toList, "2".toList, "2".toList), ("+9".toList, "1".toList, "7".toList), ("0".toList, "1".toList, "3".toList)], ["more".toList],
      .of_tokens (by decide +kernel), .cons ⟨⟨['-'], ['5'], 5, rfl, .one 5, .inr ⟨rfl, rfl⟩⟩, ⟨[], ['2'], 2, rfl, .one 2, .inl ⟨.inl rfl, rfl⟩⟩, by decide +kernel⟩
      (.cons ⟨⟨['+'], ['9'], 9, rfl, .one 9, .inl ⟨.inr rfl, rfl⟩⟩, ⟨[], ['1'], 1, rfl, .one 1, .inl ⟨.inl rfl, rfl⟩⟩, by decide +kernel⟩
      (.cons ⟨⟨[], ['0'], 0, rfl, .one 0, .inl ⟨.inl rfl, rfl⟩⟩, ⟨[], ['1'], 1, rfl, .one 1, .inl ⟨.inl rfl, rfl⟩⟩, by decide +kernel⟩ .nil))⟩

/-- Three different row numbers and two rows: aborted with assertions, read without them. -/
example (g : Nat → Nat) : readMatrixMarketB true exNum exSort g 200
      (some "%%MatrixMarket matrix coordinate real general\n2 2 3\n-5 2 2\n+9 1 7\n0 1 3\nmore".toList) = .error .abort ∧
    ∃ A, readMatrixMarketB false exNum exSort g 200
      (some "%%MatrixMarket matrix coordinate real general\n2 2 3\n-5 2 2\n+9 1 7\n0 1 3\nmore".toList) = .ok A :=
  ⟨((read_rows_rejected exSort_isSort g exRowText (by decide) true).2.2 (by decide) (by simp)).2.1 (by decide),
   (read_rows_accepted_iff exSort_isSort g exRowText (by decide) false (by simp)).2 ⟨by decide, .inr ⟨rfl, by decide⟩⟩⟩

/-- The last two rows have become one, and their entries are ordered by column only. -/
theorem release_merges_rows : readMatrixMarketB false exNum exSort (fun _ => 0) 200
    (some "%%MatrixMarket matrix coordinate real general\n2 2 4\n1 1 2\n2 2 7\n3 1 3\n3 3 4\n".toList) =
    .ok { entries := [⟨0, 0, 2⟩, ⟨2, 0, 3⟩, ⟨1, 1, 7⟩, ⟨2, 2, 4⟩], nnz := 4, nrows := 2, ncols := 2, rowptr := [0, 1, 4] } := by decide +kernel

end Blasted
