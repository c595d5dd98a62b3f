import Verif.Coo.Model

/-!
# Specification of Matrix Market files

What a Matrix Market file says, stated without reference to how the library reads it.
-/

namespace Blasted

variable {K : Type}

/-- A white-space character. -/
def Blank (c : Char) : Prop := c ∈ [' ', '\t', '\n', '\x0b', '\x0c', '\r']

/-- `Words l ws`: the text `l` consists of the words `ws`, separated (and possibly surrounded) by white space. -/
inductive Words : List Char → List (List Char) → Prop where
  | blank {sp : List Char} : (∀ c ∈ sp, Blank c) → Words sp []
  | last {sp w : List Char} : (∀ c ∈ sp, Blank c) → w ≠ [] → (∀ c ∈ w, ¬ Blank c) → Words (sp ++ w) [w]
  | word {sp w r : List Char} {c : Char} {ws : List (List Char)} : (∀ c ∈ sp, Blank c) → w ≠ [] →
      (∀ c ∈ w, ¬ Blank c) → Blank c → Words r ws → Words (sp ++ (w ++ c :: r)) (w :: ws)

/-- The character of a decimal digit. -/
def digitChar (d : Fin 10) : Char := ['0', '1', '2', '3', '4', '5', '6', '7', '8', '9'].get d

/-- `Decimal w n`: the word `w` is a decimal representation of `n`. -/
inductive Decimal : List Char → Nat → Prop where
  | one (d : Fin 10) : Decimal [digitChar d] d
  | more {w : List Char} {n : Nat} (d : Fin 10) : Decimal w n → Decimal (w ++ [digitChar d]) (10 * n + d)

/-- The lines before the data of a Matrix Market file: a header line with the given words, lines that begin with `%`, and a line
with the sizes; `body` is what follows. -/
def HasPrelude (text : List Char) (header : List (List Char)) (sizes : List Nat) (body : List Char) : Prop :=
  ∃ (h : List Char) (comments : List (List Char)) (s : List Char) (ss : List (List Char)),
    text = h ++ '\n' :: (comments.flatMap (fun c => c ++ ['\n']) ++ (s ++ '\n' :: body)) ∧
    '\n' ∉ h ∧ Words h header ∧
    (∀ c ∈ comments, '\n' ∉ c ∧ c.head? = some '%') ∧
    '\n' ∉ s ∧ s.head? ≠ some '%' ∧ Words s ss ∧ List.Forall₂ Decimal ss sizes

/-- The data of a coordinate file: for each entry a row number and a column number, counted from 1, and a value. `num` says which
number a word denotes. -/
def ListsEntries (num : List Char → Option K) (body : List Char) (es : List (Nat × Nat × K)) : Prop :=
  ∃ toks : List (List Char × List Char × List Char), Words body (toks.flatMap fun t => [t.1, t.2.1, t.2.2]) ∧
    List.Forall₂ (fun t e => Decimal t.1 e.1 ∧ Decimal t.2.1 e.2.1 ∧ num t.2.2 = some e.2.2) toks es

/-- `text` is a coordinate file of a general `n × m` matrix with the entries `es`; all indices are in range and all sizes fit in `int`. -/
structure CoordinateFile (num : List Char → Option K) (text : List Char) (n m : Nat) (es : List (Nat × Nat × K)) : Prop where
  parts : ∃ field body, (field = "real" ∨ field = "integer") ∧
    HasPrelude text ["%%MatrixMarket".toList, "matrix".toList, "coordinate".toList, field.toList, "general".toList]
      [n, m, es.length] body ∧ ListsEntries num body es
  row : ∀ e ∈ es, 1 ≤ e.1 ∧ e.1 ≤ n
  col : ∀ e ∈ es, 1 ≤ e.2.1 ∧ e.2.1 ≤ m
  nrows_le : n ≤ 2147483647
  ncols_le : m ≤ 2147483647
  nnz_le : es.length ≤ 2147483647

/-- `text` is an array file of a general `n × m` matrix with the values `vs`, in the order of the file. -/
structure ArrayFile (num : List Char → Option K) (text : List Char) (n m : Nat) (vs : List K) : Prop where
  parts : ∃ field body, (field = "real" ∨ field = "integer") ∧
    HasPrelude text ["%%MatrixMarket".toList, "matrix".toList, "array".toList, field.toList, "general".toList]
      [n, m] body ∧ ∃ toks, Words body toks ∧ List.Forall₂ (fun t v => num t = some v) toks vs
  length : vs.length = n * m
  nrows_le : n ≤ 2147483647
  ncols_le : m ≤ 2147483647
  size_le : n * m ≤ 2147483647

/-- The entry of the matrix, with indices counted from 0, that a line of a coordinate file describes. -/
def zeroBased (e : Nat × Nat × K) : Entry K := ⟨(e.1 : Int) - 1, (e.2.1 : Int) - 1, e.2.2⟩

/-- The matrix described by the entries of a coordinate file, with indices counted from 0. -/
def fileEntry [AddCommMonoid K] (es : List (Nat × Nat × K)) (i j : Nat) : K :=
  (es.map fun e => if e.1 = i + 1 ∧ e.2.1 = j + 1 then e.2.2 else 0).sum

/-- The words the Matrix Market standard allows for the format, the field and the symmetry. -/
def mmFormats : List String := ["coordinate", "array"]
@[inherit_doc mmFormats] def mmFields : List String := ["real", "complex", "integer", "pattern"]
@[inherit_doc mmFormats] def mmSymmetries : List String := ["general", "symmetric", "skew-symmetric", "hermitian"]

end Blasted
