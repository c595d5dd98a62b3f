import Verif.Coo.MMModel
import Verif.Coo.MMSpec
import Verif.Coo.BsrLemmas
import Mathlib.Data.List.TakeWhile

/-!
# Lemmas for reading Matrix Market files
-/

namespace Blasted
open Finset

variable {K : Type}

/-! ### Words -/

theorem tokens_nil : tokens [] = [] := rfl

theorem tokens_sp {c : Char} (h : isSp c = true) (l : List Char) : tokens (c :: l) = tokens l := by
  unfold tokens
  rw [List.foldr_cons, tokStep, if_pos h, if_pos rfl]

theorem tokens_dropWhile (l : List Char) : tokens (l.dropWhile isSp) = tokens l := by
  induction l with
  | nil => rfl
  | cons c l ih =>
    by_cases h : isSp c = true
    · rw [List.dropWhile_cons_of_pos h, ih, tokens_sp h]
    · rw [List.dropWhile_cons_of_neg h]

theorem tokens_word {w r : List Char} (hw : ∀ c ∈ w, isSp c = false) (hne : w ≠ [])
    (hr : r = [] ∨ ∃ c r', r = c :: r' ∧ isSp c = true) : tokens (w ++ r) = w :: tokens r := by
  have hr1 : (r.foldr tokStep ([], [])).1 = [] := by
    rcases hr with rfl | ⟨c, r', rfl, hc⟩
    · rfl
    · rw [List.foldr_cons, tokStep, if_pos hc]
  have hfold : ∀ w : List Char, (∀ c ∈ w, isSp c = false) →
      (w ++ r).foldr tokStep ([], []) = (w, (r.foldr tokStep ([], [])).2) := by
    intro w
    induction w with
    | nil => intro _; exact Prod.ext hr1 rfl
    | cons c w ih =>
      intro h
      rw [List.cons_append, List.foldr_cons, ih (fun d hd => h d (by simp [hd])), tokStep,
        if_neg (by rw [h c (by simp)]; simp)]
  have e2 : tokens r = (r.foldr tokStep ([], [])).2 := by
    unfold tokens; rw [if_pos hr1]
  unfold tokens
  rw [hfold w hw, if_neg hne]
  rw [hr1, if_pos rfl]

/-- Reading the next word. -/
theorem tokens_split {l t : List Char} {ts : List (List Char)} (h : tokens l = t :: ts) :
    ∃ r, l.dropWhile isSp = t ++ r ∧ t ≠ [] ∧ (∀ c ∈ t, isSp c = false) ∧
      (r = [] ∨ ∃ c r', r = c :: r' ∧ isSp c = true) ∧ tokens r = ts := by
  rw [← tokens_dropWhile] at h
  have hhead : ∀ c, (l.dropWhile isSp).head? = some c → isSp c = false := by
    intro c hc
    cases hl : l.dropWhile isSp with
    | nil => rw [hl] at hc; cases hc
    | cons d m =>
      have := List.head?_dropWhile_not isSp l
      rw [hc] at this
      simpa using this
  generalize l.dropWhile isSp = m at h hhead
  have hm : m = m.takeWhile (fun c => !isSp c) ++ m.dropWhile (fun c => !isSp c) := (List.takeWhile_append_dropWhile ..).symm
  have hw : ∀ c ∈ m.takeWhile (fun c => !isSp c), isSp c = false := by
    intro c hc
    have := List.mem_takeWhile_imp hc
    simpa using this
  have hr : m.dropWhile (fun c => !isSp c) = [] ∨ ∃ c r', m.dropWhile (fun c => !isSp c) = c :: r' ∧ isSp c = true := by
    cases hd : m.dropWhile (fun c => !isSp c) with
    | nil => exact .inl rfl
    | cons c r' =>
      refine .inr ⟨c, r', rfl, ?_⟩
      have := List.head?_dropWhile_not (fun c => !isSp c) m
      rw [hd] at this
      simpa using this
  have hne : m.takeWhile (fun c => !isSp c) ≠ [] := by
    cases m with
    | nil => rw [tokens_nil] at h; cases h
    | cons c m =>
      have := hhead c rfl
      rw [List.takeWhile_cons_of_pos (by simp [this])]
      simp
  rw [hm, tokens_word hw hne hr] at h
  injection h with h1 h2
  subst h1
  exact ⟨_, hm, hne, hw, hr, h2⟩

/-- A word that is a decimal number without a sign. -/
def IsDec (w : List Char) (n : Nat) : Prop := w ≠ [] ∧ (∀ c ∈ w, c.isDigit = true) ∧ decVal w = n

theorem digit_not_sp {c : Char} (h : isSp c = true) : c.isDigit = false := by
  unfold isSp at h
  simp only [Bool.or_eq_true, decide_eq_true_eq] at h
  rcases h with ((((rfl | rfl) | rfl) | rfl) | rfl) | rfl <;> decide

theorem takeWhile_digits {t r : List Char} (ht : ∀ c ∈ t, c.isDigit = true)
    (hr : r = [] ∨ ∃ c r', r = c :: r' ∧ isSp c = true) :
    (t ++ r).takeWhile Char.isDigit = t ∧ (t ++ r).dropWhile Char.isDigit = r := by
  have h1 : r.takeWhile Char.isDigit = [] ∧ r.dropWhile Char.isDigit = r := by
    rcases hr with rfl | ⟨c, r', rfl, hc⟩
    · exact ⟨rfl, rfl⟩
    · have := digit_not_sp hc
      exact ⟨List.takeWhile_cons_of_neg (by simp [this]), List.dropWhile_cons_of_neg (by simp [this])⟩
  exact ⟨by rw [List.takeWhile_append_of_pos ht, h1.1, List.append_nil],
    by rw [List.dropWhile_append_of_pos ht, h1.2]⟩

theorem splitSign_digits {t r : List Char} (hne : t ≠ []) (ht : ∀ c ∈ t, c.isDigit = true) :
    splitSign (t ++ r) = (false, t ++ r) := by
  cases t with
  | nil => exact absurd rfl hne
  | cons c t =>
    have hc := ht c (by simp)
    rw [List.cons_append]
    unfold splitSign
    split
    · rename_i heq; injection heq with h1 _; subst h1; exact absurd hc (by decide)
    · rename_i heq; injection heq with h1 _; subst h1; exact absurd hc (by decide)
    · rfl

/-- Reading a number from a good stream whose next word is one. -/
theorem readInt_ok {s : IStr} (hg : s.good = true) {t : List Char} {ts : List (List Char)} {n : Nat}
    (h : tokens s.rest = t :: ts) (hd : IsDec t n) (hn : (n : Int) ≤ intMax) :
    ∃ r, readInt s = ({ rest := r, eof := r.isEmpty }, some (n : Int)) ∧ tokens r = ts := by
  obtain ⟨r, h1, h2, -, h4, h5⟩ := tokens_split h
  refine ⟨r, ?_, h5⟩
  have hne : t ++ r ≠ [] := by simp [h2]
  obtain ⟨e1, e2⟩ := takeWhile_digits hd.2.1 h4
  unfold readInt
  rw [if_pos hg, h1, if_neg hne]
  simp only [splitSign_digits h2 hd.2.1, e1, e2, if_neg h2, signedVal, hd.2.2, Bool.false_eq_true, if_false]
  rw [if_neg (by omega), if_neg (by unfold intMin; omega)]

theorem readNum_ok [Zero K] {num : List Char → Option K} {s : IStr} (hg : s.good = true) {t : List Char}
    {ts : List (List Char)} {v : K} (h : tokens s.rest = t :: ts) (hv : num t = some v) :
    ∃ r, readNum num s = ({ rest := r, eof := r.isEmpty }, some v) ∧ tokens r = ts := by
  obtain ⟨r, h1, h2, h3, h4, h5⟩ := tokens_split h
  refine ⟨r, ?_, h5⟩
  have hne : t ++ r ≠ [] := by simp [h2]
  have e1 : (t ++ r).takeWhile (fun c => !isSp c) = t := by
    rw [List.takeWhile_append_of_pos (by simpa using h3)]
    rcases h4 with rfl | ⟨c, r', rfl, hc⟩
    · simp
    · rw [List.takeWhile_cons_of_neg (by simp [hc]), List.append_nil]
  have e2 : (t ++ r).dropWhile (fun c => !isSp c) = r := by
    rw [List.dropWhile_append_of_pos (by simpa using h3)]
    rcases h4 with rfl | ⟨c, r', rfl, hc⟩
    · rfl
    · rw [List.dropWhile_cons_of_neg (by simp [hc])]
  unfold readNum
  rw [if_pos hg, h1, if_neg hne]
  simp only [e1, e2, hv]

theorem stoi_ok {t : List Char} {n : Nat} (hd : IsDec t n) (hsp : ∀ c ∈ t, isSp c = false) (hn : (n : Int) ≤ intMax) :
    stoiOrAbort t = .ok (n : Int) := by
  have hdw : t.dropWhile isSp = t := by
    cases t with
    | nil => rfl
    | cons c t => rw [List.dropWhile_cons_of_neg (by simp [hsp c (by simp)])]
  have e0 := splitSign_digits (r := []) hd.1 hd.2.1
  obtain ⟨e1, -⟩ := takeWhile_digits (r := []) hd.2.1 (.inl rfl)
  rw [List.append_nil] at e0 e1
  unfold stoiOrAbort
  rw [hdw]
  simp only [e0, e1, if_neg hd.1, signedVal, hd.2.2, Bool.false_eq_true, if_false]
  rw [if_neg (by omega), if_neg (by unfold intMin; omega)]

theorem tokens_word_mem {l t : List Char} (h : t ∈ tokens l) : t ≠ [] ∧ ∀ c ∈ t, isSp c = false := by
  induction hl : (tokens l).length generalizing l with
  | zero => rw [List.length_eq_zero_iff] at hl; rw [hl] at h; cases h
  | succ n ih =>
    cases hts : tokens l with
    | nil => rw [hts] at h; cases h
    | cons u us =>
      obtain ⟨r, -, h2, h3, -, h5⟩ := tokens_split hts
      rw [hts] at h
      rcases List.mem_cons.mp h with rfl | h
      · exact ⟨h2, h3⟩
      · rw [← h5] at h
        refine ih h ?_
        rw [hts, List.length_cons] at hl
        rw [h5]; omega

/-! ### The specification's words and numbers -/

theorem isSp_iff {c : Char} : isSp c = true ↔ Blank c := by
  unfold isSp Blank
  simp [or_assoc]

theorem isSp_not {c : Char} (h : ¬ Blank c) : isSp c = false := by
  rw [← isSp_iff] at h; simpa using h

theorem tokens_blank_append {sp : List Char} (h : ∀ c ∈ sp, Blank c) (l : List Char) : tokens (sp ++ l) = tokens l := by
  induction sp with
  | nil => rfl
  | cons c sp ih => rw [List.cons_append, tokens_sp (isSp_iff.mpr (h c (by simp))), ih fun d hd => h d (by simp [hd])]

theorem Words.tokens {l : List Char} {ws : List (List Char)} (h : Words l ws) : tokens l = ws := by
  induction h with
  | @blank sp h => rw [← List.append_nil sp, tokens_blank_append h, tokens_nil]
  | @last sp w h h1 h2 =>
    rw [tokens_blank_append h, ← List.append_nil w, tokens_word (fun c hc => isSp_not (h2 c hc)) h1 (.inl rfl), tokens_nil, List.append_nil]
  | @word sp w r c ws h h1 h2 h3 _ ih =>
    rw [tokens_blank_append h, tokens_word (fun c hc => isSp_not (h2 c hc)) h1 (.inr ⟨c, r, rfl, isSp_iff.mpr h3⟩),
      tokens_sp (isSp_iff.mpr h3), ih]

theorem Decimal.isDec {w : List Char} {n : Nat} (h : Decimal w n) : IsDec w n := by
  have hd : ∀ d : Fin 10, (digitChar d).isDigit = true ∧ (digitChar d).toNat - 48 = d := by decide
  induction h with
  | one d =>
    refine ⟨by simp, by simpa using (hd d).1, ?_⟩
    simp only [decVal, List.foldl_cons, List.foldl_nil, (hd d).2]; omega
  | @more w n d _ ih =>
    refine ⟨by simp, ?_, ?_⟩
    · intro c hc
      rcases List.mem_append.mp hc with hc | hc
      · exact ih.2.1 c hc
      · rw [List.mem_singleton] at hc; subst hc; exact (hd d).1
    · have := ih.2.2
      unfold decVal at this ⊢
      rw [List.foldl_append, this]
      simp only [List.foldl_cons, List.foldl_nil, (hd d).2]

/-! ### Lines -/

theorem getline_line {l r : List Char} (h : '\n' ∉ l) (line : List Char) :
    getline { rest := l ++ '\n' :: r } line = ({ rest := r }, l) := by
  have hp : ∀ c ∈ l, decide (c ≠ '\n') = true := by
    intro c hc
    simp only [decide_eq_true_eq]
    rintro rfl; exact h hc
  have e1 : (l ++ '\n' :: r).dropWhile (fun c => decide (c ≠ '\n')) = '\n' :: r := by
    rw [List.dropWhile_append_of_pos hp, List.dropWhile_cons_of_neg (by simp)]
  have e2 : (l ++ '\n' :: r).takeWhile (fun c => decide (c ≠ '\n')) = l := by
    rw [List.takeWhile_append_of_pos hp, List.takeWhile_cons_of_neg (by simp), List.append_nil]
  unfold getline
  rw [if_pos (by rfl)]
  simp only [e1, e2]

theorem skipComments_ok {comments : List (List Char)} (hc : ∀ c ∈ comments, '\n' ∉ c ∧ c.head? = some '%')
    {size body : List Char} (hs : '\n' ∉ size) (hs' : size.head? ≠ some '%') {fuel : Nat}
    (hf : comments.length + 2 ≤ fuel) {line : List Char} (hl : line.head? = some '%') :
    skipComments fuel { rest := comments.flatMap (fun c => c ++ ['\n']) ++ (size ++ '\n' :: body) } line =
      .ok ({ rest := body }, size) := by
  induction comments generalizing fuel line with
  | nil =>
    obtain ⟨f, rfl⟩ : ∃ f, fuel = f + 1 + 1 := ⟨fuel - 2, by simp at hf; omega⟩
    simp only [List.flatMap_nil, List.nil_append]
    rw [skipComments, if_pos hl, getline_line hs, skipComments, if_neg hs']
  | cons c comments ih =>
    obtain ⟨f, rfl⟩ : ∃ f, fuel = f + 1 := ⟨fuel - 1, by simp at hf; omega⟩
    have hcc := hc c (by simp)
    have e : (c :: comments).flatMap (fun c => c ++ ['\n']) ++ (size ++ '\n' :: body) =
        c ++ '\n' :: (comments.flatMap (fun c => c ++ ['\n']) ++ (size ++ '\n' :: body)) := by
      simp [List.flatMap_cons, List.append_assoc]
    rw [e, skipComments, if_pos hl, getline_line hcc.1]
    exact ih (fun d hd => hc d (by simp [hd])) (by simp at hf; omega) hcc.2

/-! ### Entries -/

/-- The body of a coordinate file lists the entries `es`: a row number, a column number and a value for each. -/
def BodyIs (num : List Char → Option K) (body : List Char) (es : List (Nat × Nat × K)) : Prop :=
  ∃ toks : List (List Char × List Char × List Char), tokens body = toks.flatMap (fun t => [t.1, t.2.1, t.2.2]) ∧
    List.Forall₂ (fun t e => IsDec t.1 e.1 ∧ IsDec t.2.1 e.2.1 ∧ num t.2.2 = some e.2.2) toks es

theorem ListsEntries.bodyIs {num : List Char → Option K} {body : List Char} {es : List (Nat × Nat × K)}
    (h : ListsEntries num body es) : BodyIs num body es := by
  obtain ⟨toks, h1, h2⟩ := h
  exact ⟨toks, h1.tokens, h2.imp fun t e h => ⟨h.1.isDec, h.2.1.isDec, h.2.2⟩⟩

theorem good_of_tokens {r : List Char} {t : List Char} {ts : List (List Char)} (h : tokens r = t :: ts) :
    ({ rest := r, eof := r.isEmpty } : IStr).good = true := by
  cases r with
  | nil => rw [tokens_nil] at h; cases h
  | cons c r => rfl

theorem readEntry_ok [Zero K] {num : List Char → Option K} {s : IStr} (hg : s.good = true) {t1 t2 t3 : List Char}
    {ts : List (List Char)} {e : Nat × Nat × K} (h : tokens s.rest = t1 :: t2 :: t3 :: ts) (h1 : IsDec t1 e.1)
    (h2 : IsDec t2 e.2.1) (h3 : num t3 = some e.2.2) (b1 : (e.1 : Int) ≤ intMax) (b2 : (e.2.1 : Int) ≤ intMax) :
    ∃ r, readEntry num s = .ok ({ rest := r, eof := r.isEmpty }, zeroBased e) ∧ tokens r = ts := by
  obtain ⟨r1, e1, g1⟩ := readInt_ok hg h h1 b1
  obtain ⟨r2, e2, g2⟩ := readInt_ok (good_of_tokens g1) g1 h2 b2
  obtain ⟨r3, e3, g3⟩ := readNum_ok (num := num) (good_of_tokens g2) g2 h3
  refine ⟨r3, ?_, g3⟩
  unfold readEntry
  simp only [e1, e2, e3]
  rw [if_neg (by unfold intMin; omega)]
  rfl

theorem readEntries_ok [Zero K] {num : List Char → Option K} {body : List Char} {es : List (Nat × Nat × K)}
    (hb : BodyIs num body es) (hr : ∀ e ∈ es, (e.1 : Int) ≤ intMax ∧ (e.2.1 : Int) ≤ intMax) :
    ∃ s', readEntries num es.length { rest := body } = .ok (s', es.map zeroBased) ∧ tokens s'.rest = [] := by
  obtain ⟨toks, ht, hf⟩ := hb
  have key : ∀ (toks : List (List Char × List Char × List Char)) (es : List (Nat × Nat × K)),
      List.Forall₂ (fun t e => IsDec t.1 e.1 ∧ IsDec t.2.1 e.2.1 ∧ num t.2.2 = some e.2.2) toks es →
      (∀ e ∈ es, (e.1 : Int) ≤ intMax ∧ (e.2.1 : Int) ≤ intMax) →
      ∀ (s : IStr) (acc : List (Entry K)) (lo : Nat), (es ≠ [] → s.good = true) → tokens s.rest = toks.flatMap (fun t => [t.1, t.2.1, t.2.2]) →
      ∃ s', forRange lo (lo + es.length) (fun _ (st : IStr × List (Entry K)) => do
        let r ← readEntry num st.1
        .ok (r.1, st.2 ++ [r.2])) (s, acc) = .ok (s', acc ++ es.map zeroBased) ∧ tokens s'.rest = [] := by
    intro toks es hf
    induction hf with
    | nil =>
      intro _ s acc lo _ ht
      exact ⟨s, by simp [forRange_self], ht⟩
    | @cons t e toks es hte hf ih =>
      intro hr s acc lo hg ht
      have hre := hr e (by simp)
      obtain ⟨r, e1, g1⟩ := readEntry_ok (num := num) (hg (by simp)) (by simpa using ht) hte.1 hte.2.1 hte.2.2 hre.1 hre.2
      obtain ⟨s', hs', hs''⟩ := ih (fun x hx => hr x (by simp [hx])) { rest := r, eof := r.isEmpty } (acc ++ [zeroBased e]) (lo + 1)
        (by
          intro hne
          cases hf with
          | nil => exact absurd rfl hne
          | cons h1 h2 => exact good_of_tokens (by simpa using g1)) g1
      refine ⟨s', ?_, hs''⟩
      rw [List.length_cons, show lo + (es.length + 1) = lo + 1 + es.length by omega,
        forRange_split (mid := lo + 1) (by omega) (by omega), forRange_succ_right (Nat.le_refl _), forRange_self,
        ok_bind, e1, ok_bind, ok_bind, hs']
      simp
  obtain ⟨s', hs', hs''⟩ := key toks es hf hr { rest := body } [] 0 (fun _ => rfl) ht
  exact ⟨s', by simpa [readEntries] using hs', hs''⟩

end Blasted
