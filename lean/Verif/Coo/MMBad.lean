import Verif.Coo.MMProps

/-!
# Malformed Matrix Market files (C81)

Size lines, truncated files and indices out of range.
-/

namespace Blasted

variable {K : Type}

/-! ## Specification -/

/-- The word `w` begins with the integer `v`: a sign or none, then at least one digit, then something that does not begin with a digit. -/
def IntPrefix (w : List Char) (v : Int) : Prop :=
  ∃ (sign ds rest : List Char) (n : Nat), w = sign ++ (ds ++ rest) ∧ Decimal ds n ∧
    (∀ d : Fin 10, rest.head? ≠ some (digitChar d)) ∧
    ((sign = [] ∨ sign = ['+']) ∧ v = n ∨ sign = ['-'] ∧ v = -(n : Int))

/-- The word `w` denotes a size that the program can hold. -/
def SizeWord (w : List Char) (v : Int) : Prop := IntPrefix w v ∧ -2147483648 ≤ v ∧ v ≤ 2147483647

/-- The header line, the comments and the size line of a coordinate file of a kind that is read; the words of the size line are arbitrary. -/
def HasSizeLine (text : List Char) (ss : List (List Char)) (body : List Char) : Prop :=
  ∃ (h : List Char) (object field : List Char) (comments : List (List Char)) (s : List Char),
    text = h ++ '\n' :: (comments.flatMap (fun c => c ++ ['\n']) ++ (s ++ '\n' :: body)) ∧
    '\n' ∉ h ∧ Words h ["%%MatrixMarket".toList, object, "coordinate".toList, field, "general".toList] ∧
    field ∈ ["real".toList, "complex".toList, "integer".toList] ∧
    (∀ c ∈ comments, '\n' ∉ c ∧ c.head? = some '%') ∧ '\n' ∉ s ∧ s.head? ≠ some '%' ∧ Words s ss

/-! ## Lemmas -/

theorem digit_iff (c : Char) : c.isDigit = true ↔ ∃ d : Fin 10, c = digitChar d := by
  constructor
  · intro h
    have h1 : 48 ≤ c.toNat ∧ c.toNat ≤ 57 := by
      simp only [Char.isDigit, ge_iff_le, Bool.and_eq_true, decide_eq_true_eq] at h
      exact ⟨by have := h.1; simpa [UInt32.le_iff_toNat_le] using this, by have := h.2; simpa [UInt32.le_iff_toNat_le] using this⟩
    have key : ∀ k : Fin 10, Char.ofNat (48 + k) = digitChar k := by decide
    refine ⟨⟨c.toNat - 48, by omega⟩, ?_⟩
    rw [← key, show 48 + (c.toNat - 48) = c.toNat by omega, Char.ofNat_toNat]
  · rintro ⟨d, rfl⟩
    revert d
    decide

theorem IsDec.decimal {w : List Char} {n : Nat} (h : IsDec w n) : Decimal w n := by
  obtain ⟨h1, h2, h3⟩ := h
  have hv : ∀ d : Fin 10, (digitChar d).toNat - 48 = d := by decide
  induction w using List.reverseRecOn generalizing n with
  | nil => exact absurd rfl h1
  | append_singleton w c ih =>
    obtain ⟨d, rfl⟩ := (digit_iff c).1 (h2 c (by simp))
    unfold decVal at h3
    rw [List.foldl_append] at h3
    simp only [List.foldl_cons, List.foldl_nil, hv] at h3
    by_cases hw : w = []
    · subst hw
      simp only [List.foldl_nil] at h3
      subst h3
      rw [Nat.mul_zero, Nat.zero_add]
      exact .one d
    · rw [← h3]
      exact .more d (ih hw (fun c hc => h2 c (by simp [hc])) rfl)

theorem takeWhile_isDigit_split {ds rest : List Char} (hd : ∀ c ∈ ds, c.isDigit = true)
    (hr : ∀ d : Fin 10, rest.head? ≠ some (digitChar d)) : (ds ++ rest).takeWhile Char.isDigit = ds := by
  rw [List.takeWhile_append_of_pos hd]
  cases rest with
  | nil => simp
  | cons c r =>
    have : ¬ c.isDigit = true := fun h => by
      obtain ⟨d, rfl⟩ := (digit_iff c).1 h
      exact hr d rfl
    rw [List.takeWhile_cons_of_neg this, List.append_nil]

/-- The value of the sign and the digits that a word begins with. -/
theorem intPrefix_iff (w : List Char) (v : Int) :
    IntPrefix w v ↔ (splitSign w).2.takeWhile Char.isDigit ≠ [] ∧
      v = signedVal (splitSign w).1 ((splitSign w).2.takeWhile Char.isDigit) := by
  constructor
  · rintro ⟨sign, ds, rest, n, rfl, hdec, hrest, hs⟩
    have hd := hdec.isDec
    have ht := takeWhile_isDigit_split (rest := rest) hd.2.1 hrest
    rcases hs with ⟨rfl | rfl, rfl⟩ | ⟨rfl, rfl⟩
    · rw [List.nil_append, splitSign_digits hd.1 hd.2.1]
      dsimp only
      rw [ht]
      exact ⟨hd.1, by simp [signedVal, hd.2.2]⟩
    · simp only [List.singleton_append, splitSign, ht]
      exact ⟨hd.1, by simp [signedVal, hd.2.2]⟩
    · simp only [List.singleton_append, splitSign, ht]
      exact ⟨hd.1, by simp [signedVal, hd.2.2]⟩
  · rintro ⟨h1, rfl⟩
    have hrest : ∀ (l : List Char) (d : Fin 10), (l.dropWhile Char.isDigit).head? ≠ some (digitChar d) := by
      intro l d h
      have := List.head?_dropWhile_not Char.isDigit l
      rw [h] at this
      exact absurd ((digit_iff _).2 ⟨d, rfl⟩) (by simpa using this)
    have hdec : Decimal ((splitSign w).2.takeWhile Char.isDigit) (decVal ((splitSign w).2.takeWhile Char.isDigit)) :=
      IsDec.decimal ⟨h1, fun c hc => List.mem_takeWhile_imp hc, rfl⟩
    have hw : ∃ sign, w = sign ++ (splitSign w).2 ∧
        ((sign = [] ∨ sign = ['+']) ∧ (splitSign w).1 = false ∨ sign = ['-'] ∧ (splitSign w).1 = true) := by
      unfold splitSign
      split
      · exact ⟨['-'], rfl, .inr ⟨rfl, rfl⟩⟩
      · exact ⟨['+'], rfl, .inl ⟨.inr rfl, rfl⟩⟩
      · exact ⟨[], rfl, .inl ⟨.inl rfl, rfl⟩⟩
    obtain ⟨sign, e, hs⟩ := hw
    refine ⟨sign, _, (splitSign w).2.dropWhile Char.isDigit, _, ?_, hdec, hrest _, ?_⟩
    · rw [List.takeWhile_append_dropWhile]
      exact e
    · rcases hs with ⟨h, e⟩ | ⟨h, e⟩
      · exact .inl ⟨h, by rw [e]; simp [signedVal]⟩
      · exact .inr ⟨h, by rw [e]; simp [signedVal]⟩

/-- `std::stoi` accepts exactly the words that begin with an integer of the type. -/
theorem stoi_iff {w : List Char} (hw : ∀ c ∈ w, isSp c = false) (v : Int) : stoiOrAbort w = .ok v ↔ SizeWord w v := by
  have hdw : w.dropWhile isSp = w := by
    cases w with
    | nil => rfl
    | cons c t => rw [List.dropWhile_cons_of_neg (by simp [hw c (by simp)])]
  unfold stoiOrAbort SizeWord
  rw [hdw, intPrefix_iff]
  dsimp only
  unfold intMax intMin
  split_ifs with h1 h2 h3
  · simp [h1]
  · constructor
    · intro h; cases h
    · rintro ⟨⟨-, rfl⟩, h4, h5⟩; omega
  · constructor
    · intro h; cases h
    · rintro ⟨⟨-, rfl⟩, h4, h5⟩; omega
  · constructor
    · intro h
      injection h with h
      subst h
      exact ⟨⟨h1, rfl⟩, by omega, by omega⟩
    · rintro ⟨⟨-, rfl⟩, -⟩
      rfl

theorem stoi_cases (w : List Char) : (∃ v, stoiOrAbort w = .ok v) ∨ stoiOrAbort w = .error .abort := by
  unfold stoiOrAbort
  dsimp only
  split_ifs
  · exact .inr rfl
  · exact .inr rfl
  · exact .inr rfl
  · exact .inl ⟨_, rfl⟩

theorem mapM_stoi {ss : List (List Char)} (hs : ∀ w ∈ ss, ∀ c ∈ w, isSp c = false) :
    (∀ vs, ss.mapM stoiOrAbort = (.ok vs : C (List Int)) ↔ List.Forall₂ SizeWord ss vs) ∧
    ((∃ w ∈ ss, ¬ ∃ v, SizeWord w v) → ss.mapM stoiOrAbort = (.error .abort : C (List Int))) := by
  induction ss with
  | nil =>
    refine ⟨fun vs => ?_, fun ⟨w, hw, _⟩ => by cases hw⟩
    rw [List.mapM_nil]
    constructor
    · intro h
      injection h with h
      subst h
      exact .nil
    · intro h
      cases h
      rfl
  | cons w ss ih =>
    obtain ⟨ih1, ih2⟩ := ih fun w hw => hs w (by simp [hw])
    have hw := fun v => stoi_iff (hs w (by simp)) v
    rcases stoi_cases w with ⟨v, hv⟩ | hv
    · refine ⟨fun vs => ?_, ?_⟩
      · rw [List.mapM_cons, hv, ok_bind]
        constructor
        · intro h
          cases hr : ss.mapM stoiOrAbort with
          | error e => rw [hr, error_bind] at h; cases h
          | ok us =>
            rw [hr, ok_bind] at h
            injection h with h
            subst h
            exact .cons ((hw v).1 hv) ((ih1 us).1 hr)
        · intro h
          cases h with
          | @cons _ u _ us h1 h2 =>
            have e : v = u := by
              have := (hw u).2 h1
              rw [hv] at this
              injection this
            rw [(ih1 us).2 h2, ok_bind, e]
            rfl
      · rintro ⟨w', hw', hno⟩
        rw [List.mapM_cons, hv, ok_bind]
        rcases List.mem_cons.1 hw' with rfl | hw'
        · exact absurd ⟨v, (hw v).1 hv⟩ hno
        · rw [ih2 ⟨w', hw', hno⟩, error_bind]
    · refine ⟨fun vs => ?_, fun _ => ?_⟩
      · rw [List.mapM_cons, hv, error_bind]
        constructor
        · intro h; cases h
        · intro h
          cases h with
          | cons h1 _ => rw [(hw _).2 h1] at hv; cases hv
      · rw [List.mapM_cons, hv, error_bind]

/-- Reduction of the reader to what comes after the size line. -/
theorem readMatrixMarketB_sizes [Zero K] (dbg : Bool) {num : List Char → Option K} {srt : (Entry K → Int) → List (Entry K) → List (Entry K)}
    (g : Nat → Nat) {text body : List Char} {ss : List (List Char)} (hl : HasSizeLine text ss body) {fuel : Nat} (hf : text.length ≤ fuel) :
    (ss.length < 3 → readMatrixMarketB dbg num srt g fuel (some text) = .error .abort) ∧
    (3 ≤ ss.length → readMatrixMarketB dbg num srt g fuel (some text) = (do
      let z ← ss.mapM stoiOrAbort
      let nnz ← rd z 2
      let nrows ← rd z 0
      let ncols ← rd z 1
      readBodyB dbg num srt g { rest := body } nrows ncols nnz)) := by
  obtain ⟨h, object, field, comments, s, rfl, h1, h2, h3, h4, h5, h6, h7⟩ := hl
  have hfuel := prelude_fuel (h := h) (comments := comments) (s := s) (body := body) rfl
  have hdesc : ∃ sc, sc ≠ MMScalarType.pattern ∧
      mmDescrOfWords ["%%MatrixMarket".toList, object, "coordinate".toList, field, "general".toList] = .ok ⟨.coordinate, sc, .general⟩ := by
    simp only [List.mem_cons, List.not_mem_nil, or_false] at h3
    rcases h3 with rfl | rfl | rfl
    · exact ⟨.real, by simp, rfl⟩
    · exact ⟨.complex, by simp, rfl⟩
    · exact ⟨.integer, by simp, rfl⟩
  obtain ⟨sc, hsc, hdesc⟩ := hdesc
  have key : readMatrixMarketB dbg num srt g fuel (some (h ++ '\n' :: (comments.flatMap (fun c => c ++ ['\n']) ++ (s ++ '\n' :: body)))) =
      (if ss.length < 3 then .error .abort else (do
      let z ← ss.mapM stoiOrAbort
      let nnz ← rd z 2
      let nrows ← rd z 0
      let ncols ← rd z 1
      readBodyB dbg num srt g { rest := body } nrows ncols nnz)) := by
    unfold readMatrixMarketB
    dsimp only
    rw [getMMDescription_line h1 h2, hdesc, ok_bind, ok_bind]
    simp only [checkReadable]
    rw [if_neg (by simp), if_neg hsc, if_neg (by simp), ok_bind]
    unfold getSizes
    rw [skipComments_ok h4 h5 h6 (by omega) (by rfl), ok_bind]
    dsimp only
    rw [h7.tokens]
    by_cases hlen : ss.length < 3
    · rw [if_pos ⟨rfl, hlen⟩, if_pos hlen, error_bind]
    · rw [if_neg (fun h => hlen h.2), if_neg (by omega), if_neg hlen]
      cases ss.mapM stoiOrAbort with
      | error e => rw [error_bind, error_bind, error_bind]
      | ok z => rw [ok_bind, ok_bind, ok_bind]
  exact ⟨fun h => by rw [key, if_pos h], fun h => by rw [key, if_neg (by omega)]⟩

/-- The same in a build with assertions. -/
theorem readMatrixMarket_sizes [Zero K] {num : List Char → Option K} {srt : (Entry K → Int) → List (Entry K) → List (Entry K)}
    (g : Nat → Nat) {text body : List Char} {ss : List (List Char)} (hl : HasSizeLine text ss body) {fuel : Nat} (hf : text.length ≤ fuel) :
    (ss.length < 3 → readMatrixMarket num srt g fuel (some text) = .error .abort) ∧
    (3 ≤ ss.length → readMatrixMarket num srt g fuel (some text) = (do
      let z ← ss.mapM stoiOrAbort
      let nnz ← rd z 2
      let nrows ← rd z 0
      let ncols ← rd z 1
      readBody num srt g { rest := body } nrows ncols nnz)) :=
  readMatrixMarketB_sizes true g hl hf

theorem Words.no_blank {l : List Char} {ws : List (List Char)} (h : Words l ws) : ∀ w ∈ ws, ∀ c ∈ w, isSp c = false := by
  intro w hw
  rw [← h.tokens] at hw
  exact (tokens_word_mem hw).2

theorem dropWhile_of_tokens_nil {l : List Char} (h : tokens l = []) : l.dropWhile isSp = [] := by
  have hw := Words.of_tokens h
  generalize he : ([] : List (List Char)) = ws at hw
  cases hw with
  | blank hsp => exact List.dropWhile_eq_nil_iff.2 fun c hc => isSp_iff.2 (hsp c hc)
  | last _ _ _ => cases he
  | word _ _ _ _ _ => cases he

/-- A stream whose text is used up gives no number. -/
theorem readInt_exhausted {s : IStr} (h : tokens s.rest = []) : (readInt s).2 = none := by
  unfold readInt
  by_cases hg : s.good = true
  · rw [if_pos hg, if_pos (dropWhile_of_tokens_nil h)]
  · rw [if_neg hg]

theorem readEntry_exhausted [Zero K] {num : List Char → Option K} {s : IStr} (h : tokens s.rest = []) :
    readEntry num s = .error .ub := by
  unfold readEntry
  simp only [readInt_exhausted h]

/-! ## Theorems -/

/-- **C81** The size line. If it has fewer than three words, or a word that does not begin with an integer of the type `int`, the program is
aborted. If the number of entries is negative, an exception is thrown. -/
theorem read_matrix_market_size_line [Zero K] {num : List Char → Option K} {srt : (Entry K → Int) → List (Entry K) → List (Entry K)}
    (g : Nat → Nat) {text body : List Char} {ss : List (List Char)} (hl : HasSizeLine text ss body) {fuel : Nat} (hf : text.length ≤ fuel) :
    (ss.length < 3 → readMatrixMarket num srt g fuel (some text) = .error .abort) ∧
    ((∃ w ∈ ss, ¬ ∃ v, SizeWord w v) → readMatrixMarket num srt g fuel (some text) = .error .abort) ∧
    (∀ n m z more, List.Forall₂ SizeWord ss (n :: m :: z :: more) → z < 0 →
      ∃ msg, readMatrixMarket num srt g fuel (some text) = .error (.throw "std::length_error" msg)) := by
  obtain ⟨k1, k2⟩ := readMatrixMarket_sizes (num := num) (srt := srt) g hl hf
  obtain ⟨_, _, _, _, _, -, -, -, -, -, -, -, hw⟩ := hl
  obtain ⟨m1, m2⟩ := mapM_stoi hw.no_blank
  refine ⟨k1, fun h => ?_, fun n m z more h hz => ?_⟩
  · by_cases hlen : ss.length < 3
    · exact k1 hlen
    · rw [k2 (by omega), m2 h, error_bind]
  · have := h.length_eq
    simp only [List.length_cons] at this
    rw [k2 (by omega), (m1 _).2 h, ok_bind]
    exact ⟨_, by
      rw [show rd (n :: m :: z :: more) 2 = .ok z from rfl, ok_bind, show rd (n :: m :: z :: more) 0 = .ok n from rfl, ok_bind,
        show rd (n :: m :: z :: more) 1 = .ok m from rfl, ok_bind]
      unfold readBody readBodyB
      rw [if_pos hz]⟩

/-- A file accepted by the reader has a size line whose first three words begin with integers, and the matrix has these sizes: as many rows and columns as the first
two say, and as many entries as the third says. -/
theorem read_matrix_market_accepted_sizes [Zero K] {num : List Char → Option K} {srt : (Entry K → Int) → List (Entry K) → List (Entry K)}
    (g : Nat → Nat) {text body : List Char} {ss : List (List Char)} (hl : HasSizeLine text ss body) {fuel : Nat} (hf : text.length ≤ fuel)
    {A : COO K} (hA : readMatrixMarket num srt g fuel (some text) = .ok A) :
    ∃ n m z more, List.Forall₂ SizeWord ss (n :: m :: z :: more) ∧ (A.nrows : Int) = n ∧ (A.ncols : Int) = m ∧ (A.nnz : Int) = z := by
  obtain ⟨k1, k2⟩ := readMatrixMarket_sizes (num := num) (srt := srt) g hl hf
  obtain ⟨_, _, _, _, _, -, -, -, -, -, -, -, hw⟩ := hl
  obtain ⟨m1, m2⟩ := mapM_stoi hw.no_blank
  by_cases hlen : ss.length < 3
  · rw [k1 hlen] at hA; cases hA
  rw [k2 (by omega)] at hA
  cases hz : ss.mapM stoiOrAbort with
  | error e => rw [hz, error_bind] at hA; cases hA
  | ok vs =>
    rw [hz, ok_bind] at hA
    have hf2 := (m1 vs).1 hz
    have := hf2.length_eq
    match vs, this with
    | n :: m :: z :: more, _ =>
      refine ⟨n, m, z, more, hf2, ?_⟩
      rw [show rd (n :: m :: z :: more) 2 = .ok z from rfl, ok_bind, show rd (n :: m :: z :: more) 0 = .ok n from rfl, ok_bind,
        show rd (n :: m :: z :: more) 1 = .ok m from rfl, ok_bind] at hA
      unfold readBody readBodyB at hA
      by_cases h1 : z < 0
      · rw [if_pos h1] at hA; cases hA
      rw [if_neg h1] at hA
      cases h2 : readEntries num z.toNat { rest := body } with
      | error e => rw [h2, error_bind] at hA; cases hA
      | ok r =>
        rw [h2, ok_bind] at hA
        dsimp only at hA
        by_cases h3 : n < -1
        · rw [if_pos h3] at hA; cases hA
        rw [if_neg h3] at hA
        by_cases h4 : n = -1
        · rw [if_pos h4] at hA; cases hA
        rw [if_neg h4] at hA
        cases h5 : rowScanB true g (srt Entry.rowind r.2) n.toNat with
        | error e => rw [h5, error_bind] at hA; cases hA
        | ok sc =>
          rw [h5, ok_bind] at hA
          cases h6 : forRange 0 n.toNat (sortRow srt sc.rowits) (srt Entry.rowind r.2) with
          | error e => rw [h6, error_bind] at hA; cases hA
          | ok es =>
            rw [h6, ok_bind] at hA
            injection hA with hA
            subst hA
            exact ⟨by dsimp only; omega, rfl, by dsimp only; omega⟩
    | [], h => exact absurd (by rw [h]; simp) hlen
    | [_], h => exact absurd (by rw [h]; simp) hlen
    | [_, _], h => exact absurd (by rw [h]; simp) hlen

/-- A file that lists fewer entries than its size line announces is not rejected: the reader uses indices that were never assigned, which is undefined behaviour. -/
theorem read_matrix_market_truncated_ub [Zero K] {num : List Char → Option K} {srt : (Entry K → Int) → List (Entry K) → List (Entry K)}
    (g : Nat → Nat) {text body : List Char} {ss : List (List Char)} (hl : HasSizeLine text ss body) {n m : Int} {z : Nat} {more : List Int}
    (hss : List.Forall₂ SizeWord ss (n :: m :: (z : Int) :: more)) {es : List (Nat × Nat × K)} (hb : ListsEntries num body es)
    (hes : ∀ e ∈ es, e.1 ≤ 2147483647 ∧ e.2.1 ≤ 2147483647) (hz : es.length < z) {fuel : Nat} (hf : text.length ≤ fuel) :
    readMatrixMarket num srt g fuel (some text) = .error .ub := by
  obtain ⟨k1, k2⟩ := readMatrixMarket_sizes (num := num) (srt := srt) g hl hf
  obtain ⟨_, _, _, _, _, -, -, -, -, -, -, -, hw⟩ := hl
  obtain ⟨m1, m2⟩ := mapM_stoi hw.no_blank
  have := hss.length_eq
  simp only [List.length_cons] at this
  rw [k2 (by omega), (m1 _).2 hss, ok_bind, show rd (n :: m :: (z : Int) :: more) 2 = .ok (z : Int) from rfl, ok_bind,
    show rd (n :: m :: (z : Int) :: more) 0 = .ok n from rfl, ok_bind, show rd (n :: m :: (z : Int) :: more) 1 = .ok m from rfl, ok_bind]
  obtain ⟨s', e1, e2⟩ := readEntries_ok hb.bodyIs (fun e he => by
    have := hes e he
    unfold intMax; omega)
  have e3 : readEntries num z { rest := body } = .error .ub := by
    unfold readEntries at e1 ⊢
    rw [forRange_split (mid := es.length) (by omega) (by omega), e1, ok_bind, forRange_split (mid := es.length + 1) (by omega) (by omega),
      forRange_succ_right (Nat.le_refl _), forRange_self, ok_bind]
    dsimp only
    rw [readEntry_exhausted e2, error_bind, error_bind]
  unfold readBody readBodyB
  rw [if_neg (by omega), Int.toNat_natCast, e3, error_bind]

/-! ## Files that are accepted although they describe no matrix -/

/-- Row numbers are not compared with the number of rows: a file whose rows are numbered from zero is accepted, and the entries it gives are in no row of the matrix. -/
theorem read_matrix_market_row_range_unchecked :
    readMatrixMarket exNum exSort (fun _ => 0) 100
      (some "%%MatrixMarket matrix coordinate real general\n2 2 2\n0 1 2\n1 2 7\n".toList) =
    .ok { entries := [⟨-1, 0, 2⟩, ⟨0, 1, 7⟩], nnz := 2, nrows := 2, ncols := 2, rowptr := [0, 1, 2] } := by decide +kernel

/-- Column numbers are not compared with the number of columns. -/
theorem read_matrix_market_column_range_unchecked :
    readMatrixMarket exNum exSort (fun _ => 0) 100
      (some "%%MatrixMarket matrix coordinate real general\n2 2 2\n1 -4 2\n2 9 7\n".toList) =
    .ok { entries := [⟨0, -5, 2⟩, ⟨1, 8, 7⟩], nnz := 2, nrows := 2, ncols := 2, rowptr := [0, 1, 2] } := by decide +kernel

/-- A missing last value is read as zero. -/
theorem read_matrix_market_missing_value :
    readMatrixMarket exNum exSort (fun _ => 0) 100
      (some "%%MatrixMarket matrix coordinate real general\n2 2 2\n1 1 2\n2 2\n".toList) =
    .ok { entries := [⟨0, 0, 2⟩, ⟨1, 1, 0⟩], nnz := 2, nrows := 2, ncols := 2, rowptr := [0, 1, 2] } := by decide +kernel

/-- A row or column number at or below the smallest number of the index type is not rejected: one is subtracted from it, which overflows (undefined behaviour). -/
theorem read_matrix_market_index_overflow_ub :
    readMatrixMarket exNum exSort (fun _ => 0) 100
      (some "%%MatrixMarket matrix coordinate real general\n2 2 2\n1 1 2\n-2147483648 2 7\n".toList) = .error .ub ∧
    readMatrixMarket exNum exSort (fun _ => 0) 100
      (some "%%MatrixMarket matrix coordinate real general\n2 2 2\n1 1 2\n2 -2147483648 7\n".toList) = .error .ub ∧
    (readMatrixMarket exNum exSort (fun _ => 0) 100
      (some "%%MatrixMarket matrix coordinate real general\n2 2 2\n1 1 2\n2 -2147483647 7\n".toList)).isOk = true := by
  refine ⟨?_, ?_, ?_⟩ <;> decide +kernel

/-! ## Concrete cases -/

example : HasSizeLine "%%MatrixMarket matrix coordinate real general\n%c\n2 +2x -1\n1 1 2\n".toList
    ["2".toList, "+2x".toList, "-1".toList] "1 1 2\n".toList ∧ List.Forall₂ SizeWord ["2".toList, "+2x".toList, "-1".toList] [2, 2, -1] := by
  refine ⟨⟨"%%MatrixMarket matrix coordinate real general".toList, "matrix".toList, "real".toList, ["%c".toList], "2 +2x -1".toList, by decide +kernel,
    by decide, .of_tokens (by decide +kernel), by decide, by decide, by decide, by decide, .of_tokens (by decide +kernel)⟩, ?_⟩
  rw [← (mapM_stoi (by decide)).1]
  decide +kernel

example : ¬ ∃ v, SizeWord "x2".toList v := by
  rintro ⟨v, hv⟩
  rw [← stoi_iff (by decide)] at hv
  revert hv
  rw [show stoiOrAbort "x2".toList = .error .abort by decide +kernel]
  intro h
  cases h

/-- Two entries are announced and one is listed. -/
example (g : Nat → Nat) : readMatrixMarket exNum exSort g 100
    (some "%%MatrixMarket matrix coordinate real general\n2 2 2\n1 1 2\n".toList) = .error .ub := by
  refine read_matrix_market_truncated_ub (n := 2) (m := 2) (z := 2) (more := []) (ss := ["2".toList, "2".toList, "2".toList]) (body := "1 1 2\n".toList)
    (es := [(1, 1, 2)]) g ⟨"%%MatrixMarket matrix coordinate real general".toList, "matrix".toList, "real".toList, [], "2 2 2".toList, by decide +kernel,
      by decide, .of_tokens (by decide +kernel), by decide, by decide, by decide, by decide, .of_tokens (by decide +kernel)⟩ ?_
    ⟨[("1".toList, "1".toList, "2".toList)], .of_tokens (by decide +kernel), .cons ⟨.one 1, .one 1, by decide +kernel⟩ .nil⟩ (by decide) (by decide) (by decide)
  rw [← (mapM_stoi (by decide)).1]
  decide +kernel

end Blasted
