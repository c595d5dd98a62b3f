import Verif.Coo.Model

/-!
# Reading Matrix Market files

`getMMDescription`, `getSizeFromMatrixMarket`, `readDenseMatrixMarket`, `COOMatrix::readMatrixMarket` and
`constructBSRMatrixFromMatrixMarketFile`, `src/coomatrix.cpp` lines 30-164, 186-259, 417-424. The file is its sequence of
characters; the parts of the standard library's stream and string functions that the code uses are transcribed from the C++
standard. Console output is not modelled.
-/

namespace Blasted

variable {K : Type}

/-! ### Input streams -/

/-- An input stream: the characters not yet read, `eofbit` and `failbit`. -/
structure IStr where
  rest : List Char
  eof : Bool := false
  fail : Bool := false
deriving Repr, DecidableEq

/-- `std::istream::good()`. -/
def IStr.good (s : IStr) : Bool := !s.eof && !s.fail

/-- White space in the C locale. -/
def isSp (c : Char) : Bool :=
  c = ' ' || c = '\t' || c = '\n' || c = '\x0b' || c = '\x0c' || c = '\r'

/-- `std::getline(s, line)`: the stream and the new contents of `line`, which is left alone when the stream is not good. -/
def getline (s : IStr) (line : List Char) : IStr × List Char :=
  if s.good then
    match s.rest.dropWhile (· ≠ '\n') with
    | _ :: r => ({ rest := r }, s.rest.takeWhile (· ≠ '\n'))
    | [] => ({ rest := [], eof := true, fail := s.rest.isEmpty }, s.rest)
  else ({ s with fail := true }, line)

/-- One character of the splitting into words, from the end: the word that is being built and the words after it. -/
def tokStep (c : Char) (st : List Char × List (List Char)) : List Char × List (List Char) :=
  if isSp c then ([], if st.1 = [] then st.2 else st.1 :: st.2) else (c :: st.1, st.2)

/-- The words of a text, as obtained with `std::istream_iterator<std::string>` (`src/coomatrix.cpp` lines 37-38, 98-99). -/
def tokens (l : List Char) : List (List Char) :=
  if (l.foldr tokStep ([], [])).1 = [] then (l.foldr tokStep ([], [])).2
  else (l.foldr tokStep ([], [])).1 :: (l.foldr tokStep ([], [])).2

/-- The number written as a sequence of decimal digits. -/
def decVal (l : List Char) : Nat := l.foldl (fun a c => 10 * a + (c.toNat - 48)) 0

/-- Largest value of `int`, the index type `COOMatrix` is instantiated for (`src/coomatrix.cpp` line 444). -/
def intMax : Int := 2147483647

/-- Smallest value of `int`. -/
def intMin : Int := -2147483648

/-- An optional sign: whether the number is negative, and what follows the sign. -/
def splitSign : List Char → Bool × List Char
  | '-' :: r => (true, r)
  | '+' :: r => (false, r)
  | r => (false, r)

/-- Value of the digits `ds` with a sign. -/
def signedVal (neg : Bool) (ds : List Char) : Int := if neg then -(decVal ds : Int) else decVal ds

/-- `s >> i` for an `int` variable: the stream and the value assigned; `none` when the variable is not assigned because
the stream was not good or only white space was left. -/
def readInt (s : IStr) : IStr × Option Int :=
  if s.good then
    if s.rest.dropWhile isSp = [] then ({ rest := [], eof := true, fail := true }, none)
    else
      let sg := splitSign (s.rest.dropWhile isSp)
      let ds := sg.2.takeWhile Char.isDigit
      let r := sg.2.dropWhile Char.isDigit
      let v := signedVal sg.1 ds
      if ds = [] then ({ rest := r, eof := r.isEmpty, fail := true }, some 0)
      else if v > intMax then ({ rest := r, eof := r.isEmpty, fail := true }, some intMax)
      else if v < intMin then ({ rest := r, eof := r.isEmpty, fail := true }, some intMin)
      else ({ rest := r, eof := r.isEmpty }, some v)
  else ({ s with fail := true }, none)

/-- `s >> x` for a floating-point variable. `num` is the conversion of a word to a number. Simplification: the
whole word up to the next white space is converted, where the library stops at the first character that cannot belong to a number. -/
def readNum [Zero K] (num : List Char → Option K) (s : IStr) : IStr × Option K :=
  if s.good then
    if s.rest.dropWhile isSp = [] then ({ rest := [], eof := true, fail := true }, none)
    else
      let w := (s.rest.dropWhile isSp).takeWhile fun c => !isSp c
      let r := (s.rest.dropWhile isSp).dropWhile fun c => !isSp c
      match num w with
      | some v => ({ rest := r, eof := r.isEmpty }, some v)
      | none => ({ rest := r, eof := r.isEmpty, fail := true }, some 0)
  else ({ s with fail := true }, none)

/-- `std::stoi` of a word inside the `try` block of `getSizeFromMatrixMarket`, `src/coomatrix.cpp` lines 117-127: both
exceptions end in `std::abort`. -/
def stoiOrAbort (w : List Char) : C Int :=
  let sg := splitSign (w.dropWhile isSp)
  let ds := sg.2.takeWhile Char.isDigit
  let v := signedVal sg.1 ds
  if ds = [] then .error .abort
  else if v > intMax then .error .abort
  else if v < intMin then .error .abort
  else .ok v

/-! ### Header and sizes -/

/-- `MMMatrixType`, `include/coomatrix.hpp` line 34. -/
inductive MMMatrixType where
  | general | symmetric | skewsymmetric | hermitian
deriving Repr, DecidableEq

/-- `MMStorageType`, `include/coomatrix.hpp` line 36. -/
inductive MMStorageType where
  | coordinate | array
deriving Repr, DecidableEq

/-- `MMScalarType`, `include/coomatrix.hpp` line 38. -/
inductive MMScalarType where
  | real | complex | integer | pattern
deriving Repr, DecidableEq

/-- `MMDescription`, `include/coomatrix.hpp` lines 43-47. -/
structure MMDescription where
  storagetype : MMStorageType
  scalartype : MMScalarType
  matrixtype : MMMatrixType
deriving Repr, DecidableEq

/-- `src/coomatrix.cpp` lines 47-56. -/
def mmStorage (w : List Char) : C MMStorageType :=
  if w = "coordinate".toList then .ok .coordinate
  else if w = "array".toList then .ok .array
  else .error .abort

/-- `src/coomatrix.cpp` lines 58-69. -/
def mmScalar (w : List Char) : C MMScalarType :=
  if w = "real".toList then .ok .real
  else if w = "complex".toList then .ok .complex
  else if w = "integer".toList then .ok .integer
  else if w = "patter".toList then .ok .pattern
  else .error .abort

/-- `src/coomatrix.cpp` lines 71-82. -/
def mmMatrix (w : List Char) : C MMMatrixType :=
  if w = "general".toList then .ok .general
  else if w = "symmetric".toList then .ok .symmetric
  else if w = "skewsymmetric".toList then .ok .skewsymmetric
  else if w = "hermitian".toList then .ok .hermitian
  else .error .abort

/-- The words of the first line, `src/coomatrix.cpp` lines 42-84. -/
def mmDescrOfWords : List (List Char) → C MMDescription
  | [w0, _, w2, w3, w4] =>
    if w0 ≠ "%%MatrixMarket".toList then .error (.throw "MatrixReadException" "! Not a matrix market file!")
    else do
      let st ← mmStorage w2
      let sc ← mmScalar w3
      let mt ← mmMatrix w4
      .ok ⟨st, sc, mt⟩
  | _ => .error (.throw "MatrixReadException" "! Not enough terms in the header!")

/-- `getMMDescription`, `src/coomatrix.cpp` lines 30-85. -/
def getMMDescription (s : IStr) : C (IStr × MMDescription) := do
  let r := getline s []
  let d ← mmDescrOfWords (tokens r.2)
  .ok (r.1, d)

/-- The loop `while(line[0] == '%') std::getline(fin, line);`, `src/coomatrix.cpp` lines 93-94. (`line[0]` of an empty string
is the null character.) `fuel` bounds the number of tests of the condition. -/
def skipComments : Nat → IStr → List Char → C (IStr × List Char)
  | 0, _, _ => .error .fuel
  | fuel + 1, s, line =>
    if line.head? = some '%' then skipComments fuel (getline s line).1 (getline s line).2
    else .ok (s, line)

/-- `getSizeFromMatrixMarket`, `src/coomatrix.cpp` lines 87-131. -/
def getSizes (fuel : Nat) (s : IStr) (d : MMDescription) : C (IStr × List Int) := do
  let r ← skipComments fuel s ['%']
  let ws := tokens r.2
  if d.storagetype = .coordinate ∧ ws.length < 3 then .error .abort
  else if ws.length < 2 then .error .abort
  else do
    let sizes ← ws.mapM stoiOrAbort
    .ok (r.1, sizes)

/-! ### Dense files -/

/-- The reading loop of `readDenseMatrixMarket`, `src/coomatrix.cpp` lines 156-158: a variable that is not assigned
keeps the zero it was initialised with. -/
def readValues [Zero K] (num : List Char → Option K) : Nat → IStr → List K
  | 0, _ => []
  | n + 1, s => (readNum num s).2.getD 0 :: readValues num n (readNum num s).1

/-- `readDenseMatrixMarket`, `src/coomatrix.cpp` lines 133-161. `file = none`: the file cannot be opened. Simplification: a number of elements
that does not fit in `int` (undefined overflow) and a negative one are both reported as undefined. -/
def readDenseMatrixMarket [Zero K] (num : List Char → Option K) (fuel : Nat) : Option (List Char) → C (List K)
  | none => .error .abort
  | some text => do
    let r ← getMMDescription { rest := text }
    if r.2.matrixtype ≠ .general then .error (.throw "const char*" "Matrix should be general!")
    else if r.2.storagetype ≠ .array then .error (.throw "const char*" "Matrix should be stored as dense!")
    else do
      let z ← getSizes fuel r.1 r.2
      let a ← rd z.2 0
      let b ← rd z.2 1
      if a * b < 0 ∨ intMax < a * b then .error .ub
      else .ok (readValues num (a * b).toNat z.1)

/-! ### Coordinate files -/

/-- One iteration of the loop that reads the entries, `src/coomatrix.cpp` lines 217-222. Using an unassigned `ri` or `ci` is undefined,
as is the overflow of `ri-1`. `entries[i].value` is zero before. -/
def readEntry [Zero K] (num : List Char → Option K) (s : IStr) : C (IStr × Entry K) :=
  let r := readInt s
  let c := readInt r.1
  let v := readNum num c.1
  match r.2, c.2 with
  | some ri, some ci =>
    if ri = intMin ∨ ci = intMin then .error .ub
    else .ok (v.1, { rowind := ri - 1, colind := ci - 1, value := v.2.getD 0 })
  | _, _ => .error .ub

/-- The loop that reads the entries, `src/coomatrix.cpp` lines 216-222. -/
def readEntries [Zero K] (num : List Char → Option K) (nnz : Nat) (s : IStr) : C (IStr × List (Entry K)) :=
  forRange 0 nnz (fun _ (st : IStr × List (Entry K)) => do
    let r ← readEntry num st.1
    .ok (r.1, st.2 ++ [r.2])) (s, [])

/-- State of the loop that finds the rows, `src/coomatrix.cpp` lines 231-237. An iterator is a position; `none` is
a default-constructed iterator. -/
structure RowScan where
  rowptr : List Nat
  rowits : List (Option Nat)
  k : Nat
  nextrow : Nat
deriving Repr, DecidableEq

/-- Lines 240-244 of `src/coomatrix.cpp`. -/
def rowScanNew (es : List (Entry K)) (it : Nat) (s : RowScan) : C RowScan := do
  let e ← rd es it
  let e' ← rd es (it - 1)
  if e.rowind ≠ e'.rowind then do
    let rowits ← wr s.rowits s.nextrow (some it)
    let rowptr ← wr s.rowptr s.nextrow s.k
    .ok { s with rowits := rowits, rowptr := rowptr, nextrow := s.nextrow + 1 }
  else .ok s

/-- `assert(b)` in a build with (`dbg`) or without assertions: a release build defines `NDEBUG` (`CMakeLists.txt` line 327). -/
def assertB (dbg : Bool) (b : Bool) : C Unit :=
  match dbg with
  | true => cassert b
  | false => .ok ()

/-- `src/coomatrix.cpp` lines 230-251: row pointers and row iterators of entries sorted by row. `entries.begin()+1` of an
empty vector is undefined. `g`: what the new elements of `rowptr` contain does not matter. -/
def rowScanB (dbg : Bool) (g : Nat → Nat) (es : List (Entry K)) (nrows : Nat) : C RowScan := do
  let rowptr ← wr (fresh (nrows + 1) g) 0 0
  let rowits ← wr (List.replicate (nrows + 1) (none : Option Nat)) 0 (some 0)
  if es = [] then .error .ub
  else do
    let s ← forRange 1 es.length (fun it s => do
      let s ← rowScanNew es it s
      .ok { s with k := s.k + 1 }) { rowptr := rowptr, rowits := rowits, k := 1, nextrow := 1 }
    assertB dbg (decide (s.nextrow = nrows))
    let rowits ← wr s.rowits nrows (some es.length)
    let rowptr ← wr s.rowptr nrows es.length
    .ok { s with rowits := rowits, rowptr := rowptr }

/-- The same in a build with assertions. -/
def rowScan (g : Nat → Nat) (es : List (Entry K)) (nrows : Nat) : C RowScan := rowScanB true g es nrows

/-- Use of an iterator: a default-constructed one is undefined. -/
def derefIt : Option Nat → C Nat
  | some p => .ok p
  | none => .error .ub

/-- One iteration of the loop that sorts each row, `src/coomatrix.cpp` lines 256-257. -/
def sortRow (srt : (Entry K → Int) → List (Entry K) → List (Entry K)) (rowits : List (Option Nat)) (i : Nat)
    (es : List (Entry K)) : C (List (Entry K)) := do
  let a ← rd rowits i
  let lo ← derefIt a
  let b ← rd rowits (i + 1)
  let hi ← derefIt b
  if hi < lo then .error .ub
  else .ok (es.take lo ++ (srt Entry.colind ((es.take hi).drop lo) ++ es.drop hi))

/-- The part of `readMatrixMarket` after the sizes are known, `src/coomatrix.cpp` lines 211-258. `srt key l` is the
result of `std::sort` of `l` by `key`. Resizing a vector to a negative length throws. -/
def readBodyB [Zero K] (dbg : Bool) (num : List Char → Option K) (srt : (Entry K → Int) → List (Entry K) → List (Entry K))
    (g : Nat → Nat) (s : IStr) (nrows ncols nnz : Int) : C (COO K) :=
  if nnz < 0 then .error (.throw "std::length_error" "vector::_M_default_append")
  else do
    let r ← readEntries num nnz.toNat s
    let es := srt Entry.rowind r.2
    if nrows < -1 then .error (.throw "std::length_error" "vector::_M_default_append")
    else if nrows = -1 then .error .ub
    else do
      let sc ← rowScanB dbg g es nrows.toNat
      let es ← forRange 0 nrows.toNat (sortRow srt sc.rowits) es
      .ok { entries := es, nnz := nnz.toNat, nrows := nrows.toNat, ncols := ncols, rowptr := sc.rowptr }

/-- The same in a build with assertions. -/
def readBody [Zero K] (num : List Char → Option K) (srt : (Entry K → Int) → List (Entry K) → List (Entry K))
    (g : Nat → Nat) (s : IStr) (nrows ncols nnz : Int) : C (COO K) := readBodyB true num srt g s nrows ncols nnz

/-- The checks of the description in `readMatrixMarket`, `src/coomatrix.cpp` lines 199-207. -/
def checkReadable (d : MMDescription) : C Unit :=
  if d.storagetype ≠ .coordinate then
    .error (.throw "MatrixReadException" "! COOMatrix: readMatrixMarket: Can only read coordinate storage.")
  else if d.scalartype = .pattern then
    .error (.throw "MatrixReadException" "! COOMatrix: readMatrixMarket: Cannot read pattern matrices.")
  else if d.matrixtype ≠ .general then
    .error (.throw "MatrixReadException" "! COOMatrix: readMatrixMarket: Can only read general matrices.")
  else .ok ()

/-- `readMatrixMarket`, `src/coomatrix.cpp` lines 186-259, on a newly constructed object, in a build with (`dbg`) or without assertions. -/
def readMatrixMarketB [Zero K] (dbg : Bool) (num : List Char → Option K) (srt : (Entry K → Int) → List (Entry K) → List (Entry K))
    (g : Nat → Nat) (fuel : Nat) : Option (List Char) → C (COO K)
  | none => .error .abort
  | some text => do
    let r ← getMMDescription { rest := text }
    checkReadable r.2
    let z ← getSizes fuel r.1 r.2
    let nnz ← rd z.2 2
    let nrows ← rd z.2 0
    let ncols ← rd z.2 1
    readBodyB dbg num srt g z.1 nrows ncols nnz

/-- The same in a build with assertions. -/
def readMatrixMarket [Zero K] (num : List Char → Option K) (srt : (Entry K → Int) → List (Entry K) → List (Entry K))
    (g : Nat → Nat) (fuel : Nat) (file : Option (List Char)) : C (COO K) := readMatrixMarketB true num srt g fuel file

/-- `constructBSRMatrixFromMatrixMarketFile`, `src/coomatrix.cpp` lines 417-424: the storage from which the matrix object is
move-constructed. -/
def constructFromFile [Zero K] (num : List Char → Option K) (srt : (Entry K → Int) → List (Entry K) → List (Entry K))
    (bs : Nat) (gi : Nat → Nat) (gd : Nat → Int) (gv : Nat → K) (fuel : Nat) (file : Option (List Char)) :
    C (SR K × List Int) := do
  let A ← readMatrixMarket num srt gi fuel file
  getSRMatrixFromCOO bs "rowmajor" gi gd gv A

end Blasted
