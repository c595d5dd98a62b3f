import Verif.Coo.MMModel
import Verif.PetscIO.OptModel

/-!
# The control file of the Poisson problem (`tests/poisson3d-fd/poisson_setup.cpp`)

A file is a list of characters. `fscanf` gives what is left of the file, the number that it returns (1 after a conversion, 0 if the input does not match, `EOF` = -1 if only white space was left) and
the value, which is `none` if the variable is not assigned. Variables that are never assigned are not initialised.
-/

namespace Blasted

/-- `EOF`. -/
def cEOF : Int := -1

/-- `fscanf(conf, "%s", buf)` for a buffer of 50 characters (`tests/poisson3d-fd/poisson_setup.cpp` line 30, `poisson_utils.hpp` line 17): a word and its final zero must fit. -/
def scanWord (l : List Char) : C (List Char × Int × Option (List Char)) :=
  let m := l.dropWhile isSp
  if m = [] then .ok ([], cEOF, none)
  else
    let w := m.takeWhile fun c => !isSp c
    if 50 < w.length + 1 then .error .ub
    else .ok (m.dropWhile (fun c => !isSp c), 1, some w)

/-- `fscanf(conf, "%d", &i)` (`tests/poisson3d-fd/poisson_setup.cpp` line 38). A number that does not fit in `int` is undefined. -/
def scanInt (l : List Char) : C (List Char × Int × Option Int) :=
  let m := l.dropWhile isSp
  if m = [] then .ok ([], cEOF, none)
  else
    let sg := splitSign m
    let ds := sg.2.takeWhile Char.isDigit
    let v := signedVal sg.1 ds
    if ds = [] then .ok (sg.2, 0, none)
    else if v > intMax then .error .ub
    else if v < intMin then .error .ub
    else .ok (sg.2.dropWhile Char.isDigit, 1, some v)

variable {K : Type}

/-- `fscanf(conf, "%lf", &x)` (`tests/poisson3d-fd/poisson_setup.cpp` lines 44, 50). Simplification as in `readNum`: the whole word is converted. -/
def scanReal (num : List Char → Option K) (l : List Char) : C (List Char × Int × Option K) :=
  let m := l.dropWhile isSp
  if m = [] then .ok ([], cEOF, none)
  else
    match num (m.takeWhile fun c => !isSp c) with
    | some v => .ok (m.dropWhile (fun c => !isSp c), 1, some v)
    | none => .ok (m, 0, none)

/-- A loop over `n` conversions with `file_input_throw` after each, `tests/poisson3d-fd/poisson_setup.cpp` lines 37-40, 43-46 and 49-52: what is left of the file and the values. -/
def scanLoop {α : Type} (scan : List Char → C (List Char × Int × Option α)) : Nat → List Char → C (List Char × List (Option α))
  | 0, l => .ok (l, [])
  | n + 1, l => do
    let r ← scan l
    fileInputThrow r.2.1
    let rs ← scanLoop scan n r.1
    .ok (rs.1, r.2.2 :: rs.2)

/-- `MeshSpec`, `tests/poisson3d-fd/poisson_utils.hpp` lines 13-18. -/
structure MeshFile (K : Type) where
  /-- `gridtype` -/
  gridtype : Option (List Char)
  /-- `npdim` -/
  npdim : List (Option Int)
  /-- `rmin` -/
  rmin : List (Option K)
  /-- `rmax` -/
  rmax : List (Option K)
  deriving DecidableEq

/-- `test::readInputFile`, `tests/poisson3d-fd/poisson_setup.cpp` lines 22-63, for the contents of the file; `none` if the file cannot be opened: the result of `fopen` is not looked at. -/
def readInputFile (num : List Char → Option K) : Option (List Char) → C (MeshFile K)
  | none => .error .ub
  | some text => do
    let h1 ← scanWord text
    fileInputThrow h1.2.1
    let g ← scanWord h1.1
    fileInputThrow g.2.1
    let h2 ← scanWord g.1
    fileInputThrow h2.2.1
    let np ← scanLoop scanInt 3 h2.1
    let h3 ← scanWord np.1
    fileInputThrow h3.2.1
    let a ← scanLoop (scanReal num) 3 h3.1
    let h4 ← scanWord a.1
    fileInputThrow h4.2.1
    let b ← scanLoop (scanReal num) 3 h4.1
    .ok ⟨g.2.2, np.2, a.2, b.2⟩

end Blasted
