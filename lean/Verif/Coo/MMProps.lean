import Verif.Coo.MMSort
import Verif.Coo.CsrProps
import Verif.Coo.BsrProps
import Mathlib.Data.List.Sort

/-!
# Properties of reading Matrix Market files

C40, C41, C56.
-/

namespace Blasted
open Finset

variable {K : Type}

/-! ### Header (C41) -/

/-- The values the enumerations take for each of the standard's words. -/
def formatOf : String → Option MMStorageType
  | "coordinate" => some .coordinate
  | "array" => some .array
  | _ => none

@[inherit_doc formatOf] def fieldOf : String → Option MMScalarType
  | "real" => some .real
  | "complex" => some .complex
  | "integer" => some .integer
  | "pattern" => some .pattern
  | _ => none

@[inherit_doc formatOf] def symmetryOf : String → Option MMMatrixType
  | "general" => some .general
  | "symmetric" => some .symmetric
  | "skew-symmetric" => some .skewsymmetric
  | "hermitian" => some .hermitian
  | _ => none

theorem getMMDescription_line {h : List Char} (hnl : '\n' ∉ h) {ws : List (List Char)} (hw : Words h ws) (rest : List Char) :
    getMMDescription { rest := h ++ '\n' :: rest } =
      (mmDescrOfWords ws >>= fun d => .ok ({ rest := rest }, d)) := by
  unfold getMMDescription
  dsimp only
  rw [getline_line hnl, hw.tokens]

theorem mmDescr_std {f s t : String} (hf : f ∈ mmFormats) (hs : s ∈ mmFields) (ht : t ∈ mmSymmetries)
    (hs' : s ≠ "pattern") (ht' : t ≠ "skew-symmetric") :
    ∃ st sc mt, formatOf f = some st ∧ fieldOf s = some sc ∧ symmetryOf t = some mt ∧ ∀ object : List Char,
      mmDescrOfWords ["%%MatrixMarket".toList, object, f.toList, s.toList, t.toList] = .ok ⟨st, sc, mt⟩ := by
  simp only [mmFormats, mmFields, mmSymmetries, List.mem_cons, List.not_mem_nil, or_false] at hf hs ht
  rcases hf with rfl | rfl <;> rcases hs with rfl | rfl | rfl | rfl <;> rcases ht with rfl | rfl | rfl | rfl <;>
    first
    | exact absurd rfl hs'
    | exact absurd rfl ht'
    | exact ⟨_, _, _, rfl, rfl, rfl, fun _ => rfl⟩

/-- **C41** (in part) Every header line of the standard (in lower case) is accepted and classified correctly, if its field is not `pattern` and
its symmetry is not `skew-symmetric`. What is missing: those two words, which the code rejects (`mm_description_rejects_pattern`,
`mm_description_rejects_skew`). -/
theorem mm_description_standard_partial {h rest : List Char} (hnl : '\n' ∉ h) {f s t : String} (hf : f ∈ mmFormats)
    (hs : s ∈ mmFields) (ht : t ∈ mmSymmetries) (hs' : s ≠ "pattern") (ht' : t ≠ "skew-symmetric")
    (hw : Words h ["%%MatrixMarket".toList, "matrix".toList, f.toList, s.toList, t.toList]) :
    ∃ st sc mt, formatOf f = some st ∧ fieldOf s = some sc ∧ symmetryOf t = some mt ∧
      getMMDescription { rest := h ++ '\n' :: rest } = .ok ({ rest := rest }, ⟨st, sc, mt⟩) := by
  obtain ⟨st, sc, mt, h1, h2, h3, h4⟩ := mmDescr_std hf hs ht hs' ht'
  exact ⟨st, sc, mt, h1, h2, h3, by rw [getMMDescription_line hnl hw, h4, ok_bind]⟩

theorem mmStorage_ok_iff {w : List Char} {r : MMStorageType} :
    mmStorage w = .ok r ↔ (w = "coordinate".toList ∧ r = .coordinate) ∨ (w = "array".toList ∧ r = .array) := by
  unfold mmStorage
  split_ifs with h1 h2
  · subst h1; cases r <;> decide
  · subst h2; cases r <;> decide
  · simp only [h1, h2, false_and, or_self]

theorem mmScalar_ok_iff {w : List Char} {r : MMScalarType} :
    mmScalar w = .ok r ↔ (w = "real".toList ∧ r = .real) ∨ (w = "complex".toList ∧ r = .complex) ∨
      (w = "integer".toList ∧ r = .integer) ∨ (w = "patter".toList ∧ r = .pattern) := by
  unfold mmScalar
  split_ifs with h1 h2 h3 h4
  · subst h1; cases r <;> decide
  · subst h2; cases r <;> decide
  · subst h3; cases r <;> decide
  · subst h4; cases r <;> decide
  · simp only [h1, h2, h3, h4, false_and, or_self]

theorem mmMatrix_ok_iff {w : List Char} {r : MMMatrixType} :
    mmMatrix w = .ok r ↔ (w = "general".toList ∧ r = .general) ∨ (w = "symmetric".toList ∧ r = .symmetric) ∨
      (w = "skewsymmetric".toList ∧ r = .skewsymmetric) ∨ (w = "hermitian".toList ∧ r = .hermitian) := by
  unfold mmMatrix
  split_ifs with h1 h2 h3 h4
  · subst h1; cases r <;> decide
  · subst h2; cases r <;> decide
  · subst h3; cases r <;> decide
  · subst h4; cases r <;> decide
  · simp only [h1, h2, h3, h4, false_and, or_self]

theorem mmDescrOfWords_ok {ws : List (List Char)} {d : MMDescription} (h : mmDescrOfWords ws = .ok d) :
    ∃ obj w2 w3 w4, ws = ["%%MatrixMarket".toList, obj, w2, w3, w4] ∧ mmStorage w2 = .ok d.storagetype ∧
      mmScalar w3 = .ok d.scalartype ∧ mmMatrix w4 = .ok d.matrixtype := by
  unfold mmDescrOfWords at h
  split at h
  · rename_i w0 w1 w2 w3 w4
    by_cases h0 : w0 ≠ "%%MatrixMarket".toList
    · rw [if_pos h0] at h; cases h
    · rw [if_neg h0] at h
      obtain rfl := not_not.mp h0
      cases e1 : mmStorage w2 with
      | error e => rw [e1, error_bind] at h; cases h
      | ok st =>
        rw [e1, ok_bind] at h
        cases e2 : mmScalar w3 with
        | error e => rw [e2, error_bind] at h; cases h
        | ok sc =>
          rw [e2, ok_bind] at h
          cases e3 : mmMatrix w4 with
          | error e => rw [e3, error_bind] at h; cases h
          | ok mt =>
            rw [e3, ok_bind] at h
            injection h with h; subst h
            exact ⟨w1, w2, w3, w4, rfl, e1, e2, e3⟩
  · cases h

/-- **C41** The exact set of accepted header lines: five words, the first of which is `%%MatrixMarket`, the second anything, and the others from
a list that has `patter` and `skewsymmetric` in the places of `pattern` and `skew-symmetric`. All others are rejected. -/
theorem mm_description_iff {h rest : List Char} (hnl : '\n' ∉ h) {ws : List (List Char)} (hw : Words h ws) (d : MMDescription) :
    (∃ s', getMMDescription { rest := h ++ '\n' :: rest } = .ok (s', d)) ↔
      ∃ object w2 w3 w4, ws = ["%%MatrixMarket".toList, object, w2, w3, w4] ∧
        ((w2 = "coordinate".toList ∧ d.storagetype = .coordinate) ∨ (w2 = "array".toList ∧ d.storagetype = .array)) ∧
        ((w3 = "real".toList ∧ d.scalartype = .real) ∨ (w3 = "complex".toList ∧ d.scalartype = .complex) ∨
          (w3 = "integer".toList ∧ d.scalartype = .integer) ∨ (w3 = "patter".toList ∧ d.scalartype = .pattern)) ∧
        ((w4 = "general".toList ∧ d.matrixtype = .general) ∨ (w4 = "symmetric".toList ∧ d.matrixtype = .symmetric) ∨
          (w4 = "skewsymmetric".toList ∧ d.matrixtype = .skewsymmetric) ∨ (w4 = "hermitian".toList ∧ d.matrixtype = .hermitian)) := by
  rw [getMMDescription_line hnl hw]
  constructor
  · rintro ⟨s', h1⟩
    cases hd : mmDescrOfWords ws with
    | error e => rw [hd, error_bind] at h1; cases h1
    | ok d' =>
      rw [hd, ok_bind] at h1
      have : d' = d := by injection h1 with h1; exact (Prod.ext_iff.mp h1).2
      subst this
      obtain ⟨obj, w2, w3, w4, e0, e1, e2, e3⟩ := mmDescrOfWords_ok hd
      exact ⟨obj, w2, w3, w4, e0, mmStorage_ok_iff.mp e1, mmScalar_ok_iff.mp e2, mmMatrix_ok_iff.mp e3⟩
  · rintro ⟨obj, w2, w3, w4, rfl, e1, e2, e3⟩
    refine ⟨{ rest := rest }, ?_⟩
    unfold mmDescrOfWords
    dsimp only
    rw [if_neg (by simp), mmStorage_ok_iff.mpr e1, ok_bind, mmScalar_ok_iff.mpr e2, ok_bind, mmMatrix_ok_iff.mpr e3,
      ok_bind, ok_bind]

/-- Every `pattern` header of the standard is rejected: the program is aborted. -/
theorem mm_description_rejects_pattern {h rest : List Char} (hnl : '\n' ∉ h) {f t : String} (hf : f ∈ mmFormats)
    (hw : Words h ["%%MatrixMarket".toList, "matrix".toList, f.toList, "pattern".toList, t.toList]) :
    getMMDescription { rest := h ++ '\n' :: rest } = .error .abort := by
  rw [getMMDescription_line hnl hw]
  simp only [mmFormats, List.mem_cons, List.not_mem_nil, or_false] at hf
  rcases hf with rfl | rfl <;> rfl

/-- Every `skew-symmetric` header of the standard is rejected: the program is aborted. -/
theorem mm_description_rejects_skew {h rest : List Char} (hnl : '\n' ∉ h) {f s : String} (hf : f ∈ mmFormats) (hs : s ∈ mmFields)
    (hw : Words h ["%%MatrixMarket".toList, "matrix".toList, f.toList, s.toList, "skew-symmetric".toList]) :
    getMMDescription { rest := h ++ '\n' :: rest } = .error .abort := by
  rw [getMMDescription_line hnl hw]
  simp only [mmFormats, mmFields, List.mem_cons, List.not_mem_nil, or_false] at hf hs
  rcases hf with rfl | rfl <;> rcases hs with rfl | rfl | rfl | rfl <;> rfl

/-- Headers that are not in the standard are accepted. -/
theorem mm_description_accepts_nonstandard :
    getMMDescription { rest := "%%MatrixMarket vector coordinate patter skewsymmetric\n".toList } =
      .ok ({ rest := [] }, ⟨.coordinate, .pattern, .skewsymmetric⟩) := by decide +kernel

/-- The standard does not distinguish upper and lower case; the code does. -/
theorem mm_description_case_sensitive :
    getMMDescription { rest := "%%MatrixMarket matrix coordinate Real general\n".toList } = .error .abort := by decide +kernel

theorem Words.of_tokens {l : List Char} {ws : List (List Char)} (h : Blasted.tokens l = ws) : Words l ws := by
  induction ws generalizing l with
  | nil =>
    have : ∀ c ∈ l, Blank c := by
      intro c hc
      by_contra hb
      induction l with
      | nil => cases hc
      | cons d l ih =>
        by_cases hd : isSp d = true
        · rw [tokens_sp hd] at h
          rcases List.mem_cons.mp hc with rfl | hc
          · exact hb (isSp_iff.mp hd)
          · exact ih h hc
        · unfold Blasted.tokens at h
          rw [List.foldr_cons, tokStep, if_neg hd] at h
          simp at h
    exact .blank this
  | cons t ts ih =>
    obtain ⟨r, h1, h2, h3, h4, h5⟩ := tokens_split h
    have hl : l = l.takeWhile isSp ++ l.dropWhile isSp := (List.takeWhile_append_dropWhile ..).symm
    have hsp : ∀ c ∈ l.takeWhile isSp, Blank c := fun c hc => isSp_iff.mp (List.mem_takeWhile_imp hc)
    have ht : ∀ c ∈ t, ¬ Blank c := fun c hc hb => by
      have := h3 c hc; rw [isSp_iff.mpr hb] at this; cases this
    rw [hl, h1]
    rcases h4 with rfl | ⟨c, r', rfl, hc⟩
    · rw [tokens_nil] at h5
      subst h5
      rw [List.append_nil]
      exact .last hsp h2 ht
    · rw [tokens_sp hc] at h5
      exact .word hsp h2 ht (isSp_iff.mp hc) (ih h5)

example : '\n' ∉ "%%MatrixMarket  matrix coordinate real general ".toList ∧
    Words "%%MatrixMarket  matrix coordinate real general ".toList
      ["%%MatrixMarket".toList, "matrix".toList, "coordinate".toList, "real".toList, "general".toList] :=
  ⟨by decide, .of_tokens (by decide +kernel)⟩

/-! ### Coordinate files (C40) -/

theorem getSizes_ok {d : MMDescription} {comments : List (List Char)} (hc : ∀ c ∈ comments, '\n' ∉ c ∧ c.head? = some '%')
    {s body : List Char} (hs : '\n' ∉ s) (hs' : s.head? ≠ some '%') {ss : List (List Char)} {sizes : List Nat}
    (hw : Words s ss) (hd : List.Forall₂ Decimal ss sizes) (hb : ∀ n ∈ sizes, n ≤ 2147483647)
    (hlen : 2 ≤ sizes.length ∧ (d.storagetype = .coordinate → 3 ≤ sizes.length)) {fuel : Nat} (hf : comments.length + 2 ≤ fuel) :
    getSizes fuel { rest := comments.flatMap (fun c => c ++ ['\n']) ++ (s ++ '\n' :: body) } d =
      .ok ({ rest := body }, sizes.map fun n : Nat => (n : Int)) := by
  have hl := hd.length_eq
  have hmem : ∀ t ∈ ss, ∀ c ∈ t, isSp c = false := by
    intro t ht
    rw [← hw.tokens] at ht
    exact (tokens_word_mem ht).2
  have hm : ss.mapM stoiOrAbort = (.ok (sizes.map fun n : Nat => (n : Int)) : C (List Int)) := by
    clear hl hw hlen
    induction hd with
    | nil => rfl
    | @cons t n ss sizes h1 _ ih =>
      rw [List.mapM_cons, stoi_ok h1.isDec (hmem t (by simp)) (by unfold intMax; have := hb n (by simp); omega)]
      have := ih (fun n hn => hb n (by simp [hn])) (fun t ht => hmem t (by simp [ht]))
      rw [this]
      rfl
  unfold getSizes
  rw [skipComments_ok hc hs hs' hf (by rfl), ok_bind]
  dsimp only
  rw [hw.tokens, if_neg (by rintro ⟨h1, h2⟩; have := hlen.2 h1; omega), if_neg (by omega), hm, ok_bind]

theorem prelude_fuel {h : List Char} {comments : List (List Char)} {s body text : List Char}
    (ht : text = h ++ '\n' :: (comments.flatMap (fun c => c ++ ['\n']) ++ (s ++ '\n' :: body))) :
    comments.length + 2 ≤ text.length := by
  have : comments.length ≤ (comments.flatMap (fun c => c ++ ['\n'])).length := by
    clear ht
    induction comments with
    | nil => simp
    | cons c cs ih => rw [List.flatMap_cons, List.length_append, List.length_append, List.length_cons]; simp at ih ⊢; omega
  rw [ht]
  simp only [List.length_append, List.length_cons]
  omega

theorem zeroBased_row {n : Nat} {es : List (Nat × Nat × K)} (h : ∀ e ∈ es, 1 ≤ e.1 ∧ e.1 ≤ n) :
    ∀ e ∈ es.map zeroBased, 0 ≤ e.rowind ∧ e.rowind < (n : Int) := by
  intro e he
  obtain ⟨x, hx, rfl⟩ := List.mem_map.mp he
  have := h x hx
  simp only [zeroBased]; omega

/-- Reduction of `readMatrixMarket` to its last part. -/
theorem readMatrixMarket_eq [Zero K] {num : List Char → Option K} {srt : (Entry K → Int) → List (Entry K) → List (Entry K)}
    (g : Nat → Nat) {text : List Char} {n m : Nat} {es : List (Nat × Nat × K)} (hfile : CoordinateFile num text n m es)
    {fuel : Nat} (hf : text.length ≤ fuel) :
    readMatrixMarket num srt g fuel (some text) =
      (do
        let sc ← rowScan g (srt Entry.rowind (es.map zeroBased)) n
        let es' ← forRange 0 n (sortRow srt sc.rowits) (srt Entry.rowind (es.map zeroBased))
        .ok { entries := es', nnz := es.length, nrows := n, ncols := m, rowptr := sc.rowptr }) := by
  obtain ⟨field, body, hfield, ⟨h, comments, s, ss, rfl, h1, h2, h3, h4, h5, h6, h7⟩, hbody⟩ := hfile.parts
  have hfuel := prelude_fuel (h := h) (comments := comments) (s := s) (body := body) rfl
  have hdesc : ∃ sc, sc ≠ MMScalarType.pattern ∧ mmDescrOfWords ["%%MatrixMarket".toList, "matrix".toList, "coordinate".toList, field.toList,
      "general".toList] = .ok ⟨.coordinate, sc, .general⟩ := by
    rcases hfield with rfl | rfl
    · exact ⟨.real, by simp, rfl⟩
    · exact ⟨.integer, by simp, rfl⟩
  obtain ⟨sc, hsc, hdesc⟩ := hdesc
  have hsizes : ∀ x ∈ [n, m, es.length], x ≤ 2147483647 := by
    intro x hx
    simp only [List.mem_cons, List.not_mem_nil, or_false] at hx
    rcases hx with rfl | rfl | rfl
    · exact hfile.nrows_le
    · exact hfile.ncols_le
    · exact hfile.nnz_le
  unfold readMatrixMarket readMatrixMarketB
  dsimp only
  rw [getMMDescription_line h1 h2, hdesc, ok_bind, ok_bind]
  simp only [checkReadable]
  rw [if_neg (by simp), if_neg hsc, if_neg (by simp), ok_bind,
    getSizes_ok h3 h4 h5 h6 h7 hsizes (by simp) (by omega), ok_bind]
  obtain ⟨s', hs', -⟩ := readEntries_ok hbody.bodyIs (fun e he => by
    have := hfile.row e he
    have := hfile.col e he
    have := hfile.nrows_le
    have := hfile.ncols_le
    unfold intMax; omega)
  have e0 : rd (List.map (fun n : Nat => (n : Int)) [n, m, es.length]) 2 = .ok (es.length : Int) := rfl
  have e1 : rd (List.map (fun n : Nat => (n : Int)) [n, m, es.length]) 0 = .ok (n : Int) := rfl
  have e2 : rd (List.map (fun n : Nat => (n : Int)) [n, m, es.length]) 1 = .ok (m : Int) := rfl
  rw [e0, e1, e2, ok_bind, ok_bind, ok_bind]
  unfold readBodyB
  rw [if_neg (by omega), Int.toNat_natCast, hs', ok_bind]
  dsimp only
  rw [if_neg (by omega), if_neg (by omega), Int.toNat_natCast]
  rfl

/-- **C40** (in part) Reading a coordinate file in which every row has an entry: in whatever order the file lists the entries, the stored
entries are those of the file with 1 subtracted from both indices, they are ordered by row and then by column, and the row pointers delimit the rows. What is missing: files
in which some row has no entry; for them the program is aborted (`read_matrix_market_empty_row_aborts`), and when there is no entry at all the behaviour is undefined (`read_matrix_market_no_entries_ub`). -/
theorem read_matrix_market_correct_partial [Zero K] {num : List Char → Option K}
    {srt : (Entry K → Int) → List (Entry K) → List (Entry K)} (hsrt : IsSort srt) (g : Nat → Nat) {text : List Char} {n m : Nat}
    {es : List (Nat × Nat × K)} (hfile : CoordinateFile num text n m es) (hn : 0 < n)
    (hall : ∀ r, 1 ≤ r → r ≤ n → ∃ e ∈ es, e.1 = r) {fuel : Nat} (hf : text.length ≤ fuel) :
    ∃ A, readMatrixMarket num srt g fuel (some text) = .ok A ∧ A.nrows = n ∧ A.ncols = m ∧ A.nnz = es.length ∧
      A.entries.Perm (es.map zeroBased) ∧ A.entries.Pairwise lexLe ∧ A.Valid ∧
      ∀ r ≤ n, A.rowptr⟦r⟧ = es.countP fun e => e.1 ≤ r := by
  obtain ⟨p1, p2⟩ := hsrt Entry.rowind (es.map zeroBased)
  have hr0 := zeroBased_row hfile.row
  have hr : ∀ e ∈ srt Entry.rowind (es.map zeroBased), 0 ≤ e.rowind ∧ e.rowind < (n : Int) := fun e he =>
    hr0 e (p1.mem_iff.mp he)
  obtain ⟨sc, q1, q2, q3, q4, q5⟩ := rowScan_ok hn hr p2 (by
    intro r hrn
    obtain ⟨e, he, her⟩ := hall (r + 1) (by omega) (by omega)
    exact ⟨zeroBased e, p1.mem_iff.mpr (List.mem_map.mpr ⟨e, he, rfl⟩), by simp [zeroBased, her]⟩) g
  obtain ⟨es', t1, t2, t3⟩ := sortRows_ok hsrt hr p2 q3 q5
  have hperm : es'.Perm (es.map zeroBased) := t2.trans p1
  refine ⟨_, by rw [readMatrixMarket_eq g hfile hf, q1, ok_bind, t1, ok_bind], rfl, rfl, rfl, hperm, t3, ?_, ?_⟩
  · have h0' : ∀ e ∈ es', 0 ≤ e.rowind := fun e he => (hr0 e (hperm.mem_iff.mp he)).1
    have hs' : es'.Pairwise fun a b => a.rowind ≤ b.rowind := t3.imp fun {a b} h => by unfold lexLe at h; omega
    have hc : ∀ r, rowCnt (srt Entry.rowind (es.map zeroBased)) r = rowCnt es' r := fun r => rowCnt_perm t2.symm r
    constructor
    · show es'.length = es.length
      rw [hperm.length_eq, List.length_map]
    · exact q2
    · show sc.rowptr⟦0⟧ = 0
      rw [q4 0 (by omega), hc, rowCnt_zero h0']
    · intro i hi
      show sc.rowptr⟦i⟧ ≤ sc.rowptr⟦i + 1⟧
      have hi' : i < n := hi
      rw [q4 i (by omega), q4 (i + 1) (by omega)]
      exact rowCnt_mono _ (by omega)
    · show sc.rowptr⟦n⟧ = es.length
      rw [q4 n (by omega), rowCnt_all fun e he => (hr e he).2, p1.length_eq, List.length_map]
    · intro i hi k e hk1 hk2 he
      have hi' : i < n := hi
      simp only at hk1 hk2 he
      rw [q4 i (by omega), hc] at hk1
      rw [q4 (i + 1) (by omega), hc] at hk2
      obtain ⟨hk, rfl⟩ := List.getElem?_eq_some_iff.mp he
      exact (rowCnt_pos h0' hs' hk).mp ⟨hk1, hk2⟩
    · intro e he
      obtain ⟨x, hx, rfl⟩ := List.mem_map.mp (hperm.mem_iff.mp he)
      have := hfile.col x hx
      simp only [zeroBased]; omega
  · intro r hrn
    show sc.rowptr⟦r⟧ = _
    rw [q4 r hrn, rowCnt_perm p1]
    unfold rowCnt
    rw [List.countP_map]
    refine List.countP_congr fun e he => ?_
    have h : ((e.1 : Int) - 1 < (r : Int)) ↔ e.1 ≤ r := by omega
    simp only [Function.comp_apply, zeroBased, h]

/-- A coordinate file in which some row has no entry makes the program abort. -/
theorem read_matrix_market_empty_row_aborts [Zero K] {num : List Char → Option K}
    {srt : (Entry K → Int) → List (Entry K) → List (Entry K)} (hsrt : IsSort srt) (g : Nat → Nat) {text : List Char} {n m : Nat}
    {es : List (Nat × Nat × K)} (hfile : CoordinateFile num text n m es) (hes : es ≠ [])
    (hex : ∃ r, 1 ≤ r ∧ r ≤ n ∧ ∀ e ∈ es, e.1 ≠ r) {fuel : Nat} (hf : text.length ≤ fuel) :
    readMatrixMarket num srt g fuel (some text) = .error .abort := by
  obtain ⟨p1, p2⟩ := hsrt Entry.rowind (es.map zeroBased)
  have hr0 := zeroBased_row hfile.row
  obtain ⟨r, hr1, hr2, hr3⟩ := hex
  rw [readMatrixMarket_eq g hfile hf, rowScan_abort (n := n) (by
      intro h
      have := p1.length_eq
      rw [h, List.length_map] at this
      exact hes (List.length_eq_zero_iff.mp this.symm))
    (fun e he => hr0 e (p1.mem_iff.mp he)) p2 ⟨r - 1, by omega, by
      intro e he
      obtain ⟨x, hx, rfl⟩ := List.mem_map.mp (p1.mem_iff.mp he)
      have := hr3 x hx
      simp only [zeroBased]; omega⟩]
  rfl

/-- A file whose header announces another format than coordinates, no values, or anything but a general matrix is not read: the program is aborted or
throws, whatever follows the header. -/
theorem read_matrix_market_rejects [Zero K] {num : List Char → Option K}
    {srt : (Entry K → Int) → List (Entry K) → List (Entry K)} (g : Nat → Nat) {h rest : List Char} (hnl : '\n' ∉ h) {f s t : String}
    (hf : f ∈ mmFormats) (hs : s ∈ mmFields) (ht : t ∈ mmSymmetries)
    (hw : Words h ["%%MatrixMarket".toList, "matrix".toList, f.toList, s.toList, t.toList])
    (hno : f ≠ "coordinate" ∨ s = "pattern" ∨ t ≠ "general") (fuel : Nat) :
    readMatrixMarket num srt g fuel (some (h ++ '\n' :: rest)) = .error .abort ∨
      ∃ msg, readMatrixMarket num srt g fuel (some (h ++ '\n' :: rest)) = .error (.throw "MatrixReadException" msg) := by
  unfold readMatrixMarket readMatrixMarketB
  simp only [getMMDescription_line hnl hw]
  simp only [mmFormats, mmFields, mmSymmetries, List.mem_cons, List.not_mem_nil, or_false] at hf hs ht
  rcases hf with rfl | rfl <;> rcases hs with rfl | rfl | rfl | rfl <;> rcases ht with rfl | rfl | rfl | rfl <;>
    first
    | exact Or.inl rfl
    | exact Or.inr ⟨_, rfl⟩
    | (exfalso; revert hno; decide)

/-- A coordinate file without entries is undefined behaviour. -/
theorem read_matrix_market_no_entries_ub [Zero K] {num : List Char → Option K}
    {srt : (Entry K → Int) → List (Entry K) → List (Entry K)} (hsrt : IsSort srt) (g : Nat → Nat) {text : List Char} {n m : Nat}
    (hfile : CoordinateFile num text n m []) {fuel : Nat} (hf : text.length ≤ fuel) :
    readMatrixMarket num srt g fuel (some text) = .error .ub := by
  have h : srt Entry.rowind (([] : List (Nat × Nat × K)).map zeroBased) = [] := by
    have := (hsrt Entry.rowind (([] : List (Nat × Nat × K)).map zeroBased)).1
    simpa using this
  rw [readMatrixMarket_eq g hfile hf, h]
  unfold rowScan rowScanB
  dsimp only [assertB]
  rw [wr_eq (by simp), ok_bind, wr_eq (by simp), ok_bind, if_pos rfl]
  rfl

/-- **C40** The matrix read does not depend on the order in which the file lists the entries, nor on the field of the header, the comments, the white space, or
the sorting algorithm, if no position is listed twice. -/
theorem read_matrix_market_order_irrelevant [Zero K] {num : List Char → Option K}
    {srt srt' : (Entry K → Int) → List (Entry K) → List (Entry K)} (hsrt : IsSort srt) (hsrt' : IsSort srt') (g g' : Nat → Nat)
    {text text' : List Char} {n m : Nat} {es es' : List (Nat × Nat × K)} (hfile : CoordinateFile num text n m es)
    (hfile' : CoordinateFile num text' n m es') (hperm : es.Perm es') (hn : 0 < n)
    (hnd : es.Pairwise fun a b => ¬ (a.1 = b.1 ∧ a.2.1 = b.2.1))
    (hall : ∀ r, 1 ≤ r → r ≤ n → ∃ e ∈ es, e.1 = r) {fuel fuel' : Nat} (hf : text.length ≤ fuel) (hf' : text'.length ≤ fuel') :
    readMatrixMarket num srt g fuel (some text) = readMatrixMarket num srt' g' fuel' (some text') := by
  obtain ⟨A, a1, a2, a3, a4, a5, a6, a7, a8⟩ := read_matrix_market_correct_partial hsrt g hfile hn hall hf
  obtain ⟨B, b1, b2, b3, b4, b5, b6, b7, b8⟩ := read_matrix_market_correct_partial hsrt' g' hfile' hn
    (fun r h1 h2 => by obtain ⟨e, he, h⟩ := hall r h1 h2; exact ⟨e, hperm.mem_iff.mp he, h⟩) hf'
  have hnd' : (es.map zeroBased).Pairwise fun a b => ¬ (a.rowind = b.rowind ∧ a.colind = b.colind) := by
    rw [List.pairwise_map]
    refine hnd.imp fun {a b} h h' => h ?_
    simp only [zeroBased] at h'
    omega
  have hAB : A.entries.Perm B.entries := a5.trans ((hperm.map zeroBased).trans b5.symm)
  have hndA : NoDup A.entries := by
    unfold NoDup
    refine (a5.pairwise_iff ?_).mpr hnd'
    intro a b h h'
    exact h ⟨h'.1.symm, h'.2.symm⟩
  have hmemeq : ∀ x ∈ A.entries, ∀ y ∈ A.entries, x.rowind = y.rowind → x.colind = y.colind → x = y := by
    intro x hx y hy h1 h2
    obtain ⟨i, hi, rfl⟩ := List.getElem_of_mem hx
    obtain ⟨j, hj, rfl⟩ := List.getElem_of_mem hy
    rcases Nat.lt_trichotomy i j with h | h | h
    · exact absurd ⟨h1, h2⟩ (List.pairwise_iff_getElem.mp hndA i j hi hj h)
    · subst h; rfl
    · exact absurd ⟨h1.symm, h2.symm⟩ (List.pairwise_iff_getElem.mp hndA j i hj hi h)
  have he : A.entries = B.entries := by
    refine hAB.eq_of_pairwise (le := lexLe) ?_ a6 b6
    intro x y hx hy h1 h2
    have hy' := hAB.mem_iff.mpr hy
    unfold lexLe at h1 h2
    exact hmemeq x hx y hy' (by omega) (by omega)
  have hp : A.rowptr = B.rowptr := by
    have la := a7.ptr_len
    have lb := b7.ptr_len
    refine ext_get0 (by omega) fun k hk => ?_
    rw [a8 k (by omega), b8 k (by omega)]
    exact hperm.countP_eq _
  rw [a1, b1]
  have hlen := hperm.length_eq
  cases A; cases B
  simp only at *
  subst he hp
  congr 2
  · omega
  · omega
  · omega

/-! ### From the file to the matrix -/

theorem cooEntry_file [AddCommMonoid K] {es : List (Nat × Nat × K)} {es' : List (Entry K)} (h : es'.Perm (es.map zeroBased)) (i j : Nat) :
    cooEntry es' i j = fileEntry es i j := by
  unfold cooEntry fileEntry
  rw [(h.map _).sum_eq, List.map_map]
  congr 1
  refine List.map_congr_left fun e _ => ?_
  have h : ((e.1 : Int) - 1 = (i : Int) ∧ (e.2.1 : Int) - 1 = (j : Int)) ↔ (e.1 = i + 1 ∧ e.2.1 = j + 1) := by omega
  simp only [Function.comp, zeroBased, h]

/-- **C56** From the file to the CSR matrix: the storage denotes the matrix of the file, with repeated positions added up. -/
theorem construct_from_file_csr [AddCommMonoid K] {num : List Char → Option K}
    {srt : (Entry K → Int) → List (Entry K) → List (Entry K)} (hsrt : IsSort srt) (gi : Nat → Nat) (gd : Nat → Int) (gv : Nat → K)
    {text : List Char} {n : Nat} {es : List (Nat × Nat × K)} (hfile : CoordinateFile num text n n es) (hn : 0 < n)
    (hall : ∀ r, 1 ≤ r → r ≤ n → ∃ e ∈ es, e.1 = r) {fuel : Nat} (hf : text.length ≤ fuel) :
    ∃ B d, constructFromFile num srt 1 gi gd gv fuel (some text) = .ok (B, d) ∧ B.Full ∧ B.nbrows = n ∧
      (∀ i < n, ∀ j, B.entry i j = fileEntry es i j) ∧
      ((es.Pairwise fun a b => ¬ (a.1 = b.1 ∧ a.2.1 = b.2.1)) → B.Sorted ∧
        ((∀ i, 1 ≤ i → i ≤ n → ∃ e ∈ es, e.1 = i ∧ e.2.1 = i) → B.HasDiag)) := by
  obtain ⟨A, a1, a2, a3, a4, a5, a6, a7, a8⟩ := read_matrix_market_correct_partial hsrt gi hfile hn hall hf
  have hsq : A.ncols ≤ A.nrows := by omega
  obtain ⟨B, d, b1, b2, b3, -, -, -, -, b4, -⟩ := coo_to_csr_correct A a7 hsq "rowmajor" gi gd gv
  refine ⟨B, d, by unfold constructFromFile; rw [a1, ok_bind, b1], b2, by omega, ?_, ?_⟩
  · intro i hi j
    rw [b4 i (by omega) j, cooEntry_file a5]
  · intro hnd
    have hnd' : (es.map zeroBased).Pairwise fun a b => ¬ (a.rowind = b.rowind ∧ a.colind = b.colind) := by
      rw [List.pairwise_map]
      refine hnd.imp fun {a b} h h' => h ?_
      simp only [zeroBased] at h'
      omega
    have hndA : A.entries.Pairwise fun a b => ¬ (a.rowind = b.rowind ∧ a.colind = b.colind) :=
      (a5.pairwise_iff (fun {a b} h h' => h ⟨h'.1.symm, h'.2.symm⟩)).mpr hnd'
    have hlex : A.entries.Pairwise lexLt := (a6.and hndA).imp fun {a b} h => by
      unfold lexLe at h; unfold lexLt; omega
    obtain ⟨B', d', c1, c2, c3⟩ := coo_to_csr_sorted A a7 hsq hlex "rowmajor" gi gd gv
    rw [b1] at c1
    injection c1 with c1
    obtain ⟨rfl, rfl⟩ := Prod.ext_iff.mp c1
    refine ⟨c2, fun hd => c3 fun i hi => ?_⟩
    obtain ⟨e, he, h1, h2⟩ := hd (i + 1) (by omega) (by omega)
    exact ⟨zeroBased e, a5.mem_iff.mpr (List.mem_map.mpr ⟨e, he, rfl⟩), by simp [zeroBased, h1], by simp [zeroBased, h2]⟩

/-- **C56** From the file to the block matrix (row-major blocks). -/
theorem construct_from_file_bsr [AddCommMonoid K] {num : List Char → Option K}
    {srt : (Entry K → Int) → List (Entry K) → List (Entry K)} (hsrt : IsSort srt) (bs : Nat) (hbs : 1 < bs) (gi : Nat → Nat) (gd : Nat → Int)
    (gv : Nat → K) {text : List Char} {n : Nat} {es : List (Nat × Nat × K)} (hfile : CoordinateFile num text n n es) (hn : 0 < n)
    (hdiv : n % bs = 0) (hnd : es.Pairwise fun a b => ¬ (a.1 = b.1 ∧ a.2.1 = b.2.1))
    (hall : ∀ r, 1 ≤ r → r ≤ n → ∃ e ∈ es, e.1 = r) {fuel : Nat} (hf : text.length ≤ fuel) :
    ∃ B d, constructFromFile num srt bs gi gd gv fuel (some text) = .ok (B, d) ∧ B.Full (bs * bs) ∧ B.nbrows * bs = n ∧
      ∀ i < n, ∀ j, B.bentry .rowMajor bs i j = fileEntry es i j := by
  obtain ⟨A, a1, a2, a3, a4, a5, a6, a7, a8⟩ := read_matrix_market_correct_partial hsrt gi hfile hn hall hf
  have hnd' : (es.map zeroBased).Pairwise fun a b => ¬ (a.rowind = b.rowind ∧ a.colind = b.colind) := by
    rw [List.pairwise_map]
    refine hnd.imp fun {a b} h h' => h ?_
    simp only [zeroBased] at h'
    omega
  have hndA : NoDup A.entries := (a5.pairwise_iff (fun {a b} h h' => h ⟨h'.1.symm, h'.2.symm⟩)).mpr hnd'
  obtain ⟨B, d, b1, b2, b3, -, -, b4, -⟩ := coo_to_bsr_correct_partial A a7 (by omega) hndA bs (by omega) (by omega) (by rw [a2]; exact hdiv)
    (.inr (by
      obtain ⟨e, he, h⟩ := hall 1 (Nat.le_refl _) hn
      refine ⟨zeroBased e, a5.mem_iff.mpr (List.mem_map.mpr ⟨e, he, rfl⟩), ?_⟩
      simp only [zeroBased, h]; omega)) "rowmajor" .rowMajor (.inl ⟨rfl, rfl⟩) gi gd gv
  refine ⟨B, d, by unfold constructFromFile; rw [a1, ok_bind, b1], b2, by omega, ?_⟩
  intro i hi j
  rw [b4 i (by omega) j, cooEntry_file a5]

/-! ### Array files -/

theorem readValues_ok [Zero K] {num : List Char → Option K} {toks : List (List Char)} {vs : List K}
    (h : List.Forall₂ (fun t v => num t = some v) toks vs) :
    ∀ s : IStr, (vs ≠ [] → s.good = true) → tokens s.rest = toks → readValues num vs.length s = vs := by
  induction h with
  | nil => intro s _ _; rfl
  | @cons t v toks vs h1 hf ih =>
    intro s hg ht
    obtain ⟨r, e1, e2⟩ := readNum_ok (num := num) (hg (by simp)) ht h1
    rw [List.length_cons, readValues, e1]
    simp only [Option.getD_some]
    rw [ih _ ?_ e2]
    intro hne
    cases hf with
    | nil => exact absurd rfl hne
    | cons h2 h3 => exact good_of_tokens e2

/-- **C56** Reading an array file returns its values in the order of the file. -/
theorem read_dense_correct [Zero K] {num : List Char → Option K} {text : List Char} {n m : Nat} {vs : List K}
    (hfile : ArrayFile num text n m vs) {fuel : Nat} (hf : text.length ≤ fuel) :
    readDenseMatrixMarket num fuel (some text) = .ok vs := by
  obtain ⟨field, body, hfield, ⟨h, comments, s, ss, rfl, h1, h2, h3, h4, h5, h6, h7⟩, toks, hw, hv⟩ := hfile.parts
  have hfuel := prelude_fuel (h := h) (comments := comments) (s := s) (body := body) rfl
  have hdesc : ∃ sc, mmDescrOfWords ["%%MatrixMarket".toList, "matrix".toList, "array".toList, field.toList,
      "general".toList] = .ok ⟨.array, sc, .general⟩ := by
    rcases hfield with rfl | rfl
    · exact ⟨.real, rfl⟩
    · exact ⟨.integer, rfl⟩
  obtain ⟨sc, hdesc⟩ := hdesc
  have hsizes : ∀ x ∈ [n, m], x ≤ 2147483647 := by
    intro x hx
    simp only [List.mem_cons, List.not_mem_nil, or_false] at hx
    rcases hx with rfl | rfl
    · exact hfile.nrows_le
    · exact hfile.ncols_le
  unfold readDenseMatrixMarket
  dsimp only
  rw [getMMDescription_line h1 h2, hdesc, ok_bind, ok_bind]
  dsimp only
  rw [if_neg (by simp), if_neg (by simp), getSizes_ok h3 h4 h5 h6 h7 hsizes (by simp) (by omega), ok_bind]
  have e1 : rd (List.map (fun n : Nat => (n : Int)) [n, m]) 0 = .ok (n : Int) := rfl
  have e2 : rd (List.map (fun n : Nat => (n : Int)) [n, m]) 1 = .ok (m : Int) := rfl
  have hle := hfile.size_le
  have e3 : (n : Int) * (m : Int) = ((n * m : Nat) : Int) := by push_cast; rfl
  rw [e1, e2, ok_bind, ok_bind, e3, if_neg (by unfold intMax; omega), Int.toNat_natCast, ← hfile.length]
  rw [readValues_ok hv _ (fun _ => rfl) hw.tokens]

/-! ### Files on which the reader does not return -/

theorem skipComments_stuck {s : IStr} (hs : s.good = false) {line : List Char} (hl : line.head? = some '%') (fuel : Nat) :
    skipComments fuel s line = .error .fuel := by
  induction fuel generalizing s with
  | zero => rfl
  | succ f ih =>
    have : getline s line = ({ s with fail := true }, line) := by unfold getline; rw [if_neg (by simp [hs])]
    rw [skipComments, if_pos hl, this]
    exact ih (by simp [IStr.good])

/-- A file that ends in a comment line without a newline, after a readable header, is never finished: no number of iterations is
enough. -/
theorem read_matrix_market_hangs [Zero K] {num : List Char → Option K}
    {srt : (Entry K → Int) → List (Entry K) → List (Entry K)} (g : Nat → Nat) {h last : List Char} (comments : List (List Char))
    (hnl : '\n' ∉ h) (hc : ∀ c ∈ comments, '\n' ∉ c ∧ c.head? = some '%') (hl : '\n' ∉ last ∧ last.head? = some '%')
    {field : String} (hfield : field = "real" ∨ field = "integer")
    (hw : Words h ["%%MatrixMarket".toList, "matrix".toList, "coordinate".toList, field.toList, "general".toList]) (fuel : Nat) :
    readMatrixMarket num srt g fuel (some (h ++ '\n' :: (comments.flatMap (fun c => c ++ ['\n']) ++ last))) = .error .fuel := by
  have key : ∀ (comments : List (List Char)), (∀ c ∈ comments, '\n' ∉ c ∧ c.head? = some '%') → ∀ (line : List Char) (fuel : Nat), line.head? = some '%' →
      skipComments fuel { rest := comments.flatMap (fun c => c ++ ['\n']) ++ last } line = .error .fuel := by
    intro comments
    induction comments with
    | nil =>
      intro _ line fuel hline
      cases fuel with
      | zero => rfl
      | succ f =>
        have hdw : last.dropWhile (fun c => decide (c ≠ '\n')) = [] := by
          rw [List.dropWhile_eq_nil_iff]
          intro c hc
          simp only [decide_eq_true_eq]
          rintro rfl; exact hl.1 hc
        have : getline { rest := last } line = ({ rest := [], eof := true, fail := last.isEmpty }, last) := by
          unfold getline
          rw [if_pos (by rfl)]
          simp only [hdw]
        rw [List.flatMap_nil, List.nil_append, skipComments, if_pos hline, this]
        exact skipComments_stuck (by simp [IStr.good]) hl.2 f
    | cons c cs ih =>
      intro hc line fuel hline
      cases fuel with
      | zero => rfl
      | succ f =>
        have hcc := hc c (by simp)
        have e : (c :: cs).flatMap (fun c => c ++ ['\n']) ++ last =
            c ++ '\n' :: (cs.flatMap (fun c => c ++ ['\n']) ++ last) := by
          simp [List.flatMap_cons, List.append_assoc]
        rw [e, skipComments, if_pos hline, getline_line hcc.1]
        exact ih (fun d hd => hc d (by simp [hd])) _ _ hcc.2
  have hdesc : ∃ sc, sc ≠ MMScalarType.pattern ∧ mmDescrOfWords ["%%MatrixMarket".toList, "matrix".toList, "coordinate".toList, field.toList,
      "general".toList] = .ok ⟨.coordinate, sc, .general⟩ := by
    rcases hfield with rfl | rfl
    · exact ⟨.real, by simp, rfl⟩
    · exact ⟨.integer, by simp, rfl⟩
  obtain ⟨sc, hsc, hdesc⟩ := hdesc
  unfold readMatrixMarket readMatrixMarketB
  dsimp only
  rw [getMMDescription_line hnl hw, hdesc, ok_bind, ok_bind]
  simp only [checkReadable]
  rw [if_neg (by simp), if_neg hsc, if_neg (by simp), ok_bind]
  unfold getSizes
  rw [key comments hc _ _ (by rfl)]
  rfl

/-! ### Examples -/

/-- Insertion sort, as an instance of `IsSort`. -/
def exSort (key : Entry ℚ → Int) (l : List (Entry ℚ)) : List (Entry ℚ) :=
  l.insertionSort fun a b => key a ≤ key b

theorem exSort_isSort : IsSort exSort := by
  intro key l
  refine ⟨List.perm_insertionSort _ l, ?_⟩
  have : Std.Total (fun a b : Entry ℚ => key a ≤ key b) := ⟨fun a b => Int.le_total ..⟩
  have : IsTrans (Entry ℚ) (fun a b : Entry ℚ => key a ≤ key b) := ⟨fun a b c => Int.le_trans⟩
  exact List.pairwise_insertionSort _ l

/-- A conversion of words to numbers that knows integers only. -/
def exNum (w : List Char) : Option ℚ := if w.all Char.isDigit then some (decVal w : ℚ) else none

/-- A coordinate file with its entries in no particular order. -/
def exFile : List Char :=
  "%%MatrixMarket matrix coordinate real general\n% c\n%\n3 3 5\n3 3 4\n1 3 1\n2 1 2\n1 1 5\n3 2 3\n".toList

theorem exFile_ok : CoordinateFile exNum exFile 3 3 [(3, 3, 4), (1, 3, 1), (2, 1, 2), (1, 1, 5), (3, 2, 3)] where
  parts := by
    refine ⟨"real", "3 3 4\n1 3 1\n2 1 2\n1 1 5\n3 2 3\n".toList, .inl rfl, ?_, ?_⟩
    · refine ⟨"%%MatrixMarket matrix coordinate real general".toList, ["% c".toList, "%".toList], "3 3 5".toList,
        [['3'], ['3'], ['5']], by decide +kernel, by decide, .of_tokens (by decide +kernel), by decide, by decide, by decide,
        .of_tokens (by decide +kernel), .cons (.one 3) (.cons (.one 3) (.cons (.one 5) .nil))⟩
    · exact ⟨[(['3'], ['3'], ['4']), (['1'], ['3'], ['1']), (['2'], ['1'], ['2']), (['1'], ['1'], ['5']), (['3'], ['2'], ['3'])],
        .of_tokens (by decide +kernel),
        .cons ⟨.one 3, .one 3, by decide +kernel⟩ (.cons ⟨.one 1, .one 3, by decide +kernel⟩ (.cons ⟨.one 2, .one 1, by decide +kernel⟩
          (.cons ⟨.one 1, .one 1, by decide +kernel⟩ (.cons ⟨.one 3, .one 2, by decide +kernel⟩ .nil))))⟩
  row := by decide
  col := by decide
  nrows_le := by decide
  ncols_le := by decide
  nnz_le := by decide

example : (∀ r, 1 ≤ r → r ≤ 3 → ∃ e ∈ [((3 : Nat), (3 : Nat), (4 : ℚ)), (1, 3, 1), (2, 1, 2), (1, 1, 5), (3, 2, 3)], e.1 = r) ∧
    readMatrixMarket exNum exSort (fun _ => 77) exFile.length (some exFile) =
      .ok { entries := [⟨0, 0, 5⟩, ⟨0, 2, 1⟩, ⟨1, 0, 2⟩, ⟨2, 1, 3⟩, ⟨2, 2, 4⟩], nnz := 5, nrows := 3, ncols := 3, rowptr := [0, 2, 3, 5] } :=
  ⟨by intro r h1 h2; interval_cases r <;> simp, by decide +kernel⟩

/-- The hypotheses of `construct_from_file_csr` and `construct_from_file_bsr` (block size 3) hold for `exFile`. -/
example : (∃ B d, constructFromFile exNum exSort 1 (fun _ => 0) (fun _ => 0) (fun _ => 0) exFile.length (some exFile) = .ok (B, d) ∧
      B.entry 2 1 = 3 ∧ B.entry 1 1 = 0) ∧
    ∃ B d, constructFromFile exNum exSort 3 (fun _ => 0) (fun _ => 0) (fun _ => 0) exFile.length (some exFile) = .ok (B, d) ∧
      B.nbrows * 3 = 3 ∧ B.bentry .rowMajor 3 2 1 = 3 := by
  have hall : ∀ r, 1 ≤ r → r ≤ 3 → ∃ e ∈ [((3 : Nat), (3 : Nat), (4 : ℚ)), (1, 3, 1), (2, 1, 2), (1, 1, 5), (3, 2, 3)], e.1 = r := by
    intro r h1 h2; interval_cases r <;> simp
  obtain ⟨B, d, h1, -, -, h2, -⟩ := construct_from_file_csr exSort_isSort (fun _ => 0) (fun _ => 0) (fun _ => 0) exFile_ok (by decide) hall (le_refl _)
  obtain ⟨B', d', g1, -, g2, g3⟩ := construct_from_file_bsr exSort_isSort 3 (by decide) (fun _ => 0) (fun _ => 0) (fun _ => 0) exFile_ok
    (by decide) (by decide) (by decide) hall (le_refl _)
  exact ⟨⟨B, d, h1, by rw [h2 2 (by decide)]; decide +kernel, by rw [h2 1 (by decide)]; decide +kernel⟩, B', d', g1, g2,
    by rw [g3 2 (by decide)]; decide +kernel⟩

/-- A file whose second row is empty. -/
example : ∃ text, CoordinateFile exNum text 2 2 [(1, 1, 4)] ∧
    readMatrixMarket exNum exSort (fun _ => 0) text.length (some text) = .error .abort := by
  have h : CoordinateFile exNum "%%MatrixMarket matrix coordinate real general\n2 2 1\n1 1 4".toList 2 2 [(1, 1, 4)] :=
    { parts := ⟨"real", "1 1 4".toList, .inl rfl,
        ⟨"%%MatrixMarket matrix coordinate real general".toList, [], "2 2 1".toList, [['2'], ['2'], ['1']], by decide +kernel,
          by decide, .of_tokens (by decide +kernel), by decide, by decide, by decide, .of_tokens (by decide +kernel),
          .cons (.one 2) (.cons (.one 2) (.cons (.one 1) .nil))⟩,
        [(['1'], ['1'], ['4'])], .of_tokens (by decide +kernel), .cons ⟨.one 1, .one 1, by decide +kernel⟩ .nil⟩
      row := by decide
      col := by decide
      nrows_le := by decide
      ncols_le := by decide
      nnz_le := by decide }
  exact ⟨_, h, read_matrix_market_empty_row_aborts exSort_isSort _ h (by simp) ⟨2, by decide, by decide, by simp⟩ (le_refl _)⟩

theorem exDense_ok : ArrayFile exNum "%%MatrixMarket matrix array integer general\n%\n2 2\n1 2\n3\n4".toList 2 2 [1, 2, 3, 4] where
  parts := ⟨"integer", "1 2\n3\n4".toList, .inr rfl,
    ⟨"%%MatrixMarket matrix array integer general".toList, ["%".toList], "2 2".toList, [['2'], ['2']], by decide +kernel,
      by decide, .of_tokens (by decide +kernel), by decide, by decide, by decide, .of_tokens (by decide +kernel),
      .cons (.one 2) (.cons (.one 2) .nil)⟩,
    [['1'], ['2'], ['3'], ['4']], .of_tokens (by decide +kernel),
    .cons (by decide +kernel) (.cons (by decide +kernel) (.cons (by decide +kernel) (.cons (by decide +kernel) .nil)))⟩
  length := rfl
  nrows_le := by decide
  ncols_le := by decide
  size_le := by decide

example : readDenseMatrixMarket exNum 100 (some "%%MatrixMarket matrix array integer general\n%\n2 2\n1 2\n3\n4".toList) =
    .ok [1, 2, 3, 4] := by decide +kernel

/-- Non-vacuity of `read_matrix_market_rejects`. -/
example : readMatrixMarket exNum exSort (fun _ => 0) 100
    (some "%%MatrixMarket matrix coordinate real symmetric\n2 2 2\n1 1 2\n2 1 7\n".toList) =
    .error (.throw "MatrixReadException" "! COOMatrix: readMatrixMarket: Can only read general matrices.") := by decide +kernel

/-- A `complex` file is not rejected; its numbers are read as if each entry had one. -/
theorem read_complex_misread :
    readMatrixMarket exNum exSort (fun _ => 0) 100
      (some "%%MatrixMarket matrix coordinate complex general\n2 2 2\n1 1 2 2\n2 2 7 7\n".toList) =
    .ok { entries := [⟨0, 0, 2⟩, ⟨1, 1, 2⟩], nnz := 2, nrows := 2, ncols := 2, rowptr := [0, 1, 2] } := by decide +kernel

end Blasted
