import Verif.Base.Mem

/-!
# Reading options (`src/utils/cmdoptions.cpp`, `include/utils/cmdoptions.hpp`)

PETSc is not part of the repository; what its functions do with the options database is written here from its manual pages. A call of a PETSc function gives an error code
and values for the output arguments; an output argument that PETSc does not touch keeps the value that it had.
-/

namespace Blasted

/-- What the functions of `src/utils/cmdoptions.cpp` use of PETSc: the options database (a name is absent, is there without a value, or has a value), the conversions of the
value of an option, which end with an error code when the text is not a value of the type, and the table of error messages with the two values that bound the error
codes (`PETSC_ERR_MIN_VALUE` and `PETSC_ERR_MAX_VALUE`). Not modelled: aliases of options, several options tables, prefixes. -/
structure PetscSys (Real : Type) where
  db : String → Option (Option (List Char))
  toInt : List Char → Except Int Int
  toReal : List Char → Except Int Real
  toBool : List Char → Except Int Bool
  /-- the integers of a list, at most as many as the second argument says -/
  toInts : List Char → Nat → Except Int (List Int)
  errMin : Int
  errMax : Int
  /-- the error code of `PetscErrorMessage`, the general text and the specific text -/
  message : Int → Int × Option String × Option String

variable {Real : Type}

/-- The error code of a conversion, and the value that it leaves in the output argument. -/
def outOf {α : Type} (old : α) : Except Int α → Int × α
  | .ok a => (0, a)
  | .error c => (c, old)

/-- `PetscOptionsHasName` -/
def optHasName (P : PetscSys Real) (name : String) : Int × Bool := (0, (P.db name).isSome)

/-- `PetscOptionsGetInt`: error code, output, `set`. An option without a value counts as not set. -/
def optGetInt (P : PetscSys Real) (name : String) (old : Int) : Int × Int × Bool :=
  match P.db name with
  | some (some s) => ((outOf old (P.toInt s)).1, (outOf old (P.toInt s)).2, true)
  | _ => (0, old, false)

/-- `PetscOptionsGetReal`: as for integers. -/
def optGetReal (P : PetscSys Real) (name : String) (old : Real) : Int × Real × Bool :=
  match P.db name with
  | some (some s) => ((outOf old (P.toReal s)).1, (outOf old (P.toReal s)).2, true)
  | _ => (0, old, false)

/-- `PetscOptionsGetBool`: an option without a value is true. -/
def optGetBool (P : PetscSys Real) (name : String) (old : Bool) : Int × Bool × Bool :=
  match P.db name with
  | some (some s) => ((outOf old (P.toBool s)).1, (outOf old (P.toBool s)).2, true)
  | some none => (0, true, true)
  | none => (0, old, false)

/-- The error code for a buffer without room for the terminator. -/
def petscErrNull : Int := 85

/-- `PetscOptionsGetString` with a buffer `buf` (one cell per character, `none` where nothing was written since the allocation) and its stated length `len`: the first
`len - 1` characters of the value and a terminator (`'\x00'`) are copied; the buffer is zeroed over `len` cells when the option has no value. -/
def optGetString (P : PetscSys Real) (name : String) (buf : List (Option Char)) (len : Nat) : Int × List (Option Char) × Bool :=
  match P.db name with
  | some (some s) =>
    if len = 0 then (petscErrNull, buf, true)
    else (0, ((s.take (len - 1)).map some ++ [some '\x00']) ++ buf.drop (min s.length (len - 1) + 1), true)
  | some none => (0, List.replicate len (some '\x00') ++ buf.drop len, true)
  | none => (0, buf, false)

/-- `PetscOptionsGetIntArray` with an array of `arr.length` elements and `len` at entry: error code, the array, `len` at exit, `set`. -/
def optGetIntArray (P : PetscSys Real) (name : String) (arr : List Int) (len : Nat) : Int × List Int × Nat × Bool :=
  match P.db name with
  | some (some s) =>
    match P.toInts s len with
    | .ok vs => (0, vs ++ arr.drop vs.length, vs.length, true)
    | .error c => (c, arr, 0, true)
  | some none => (0, arr, 0, true)
  | none => (0, arr, 0, false)

/-- The two halves of an error message, lines 29-36. -/
def joinMessage (text : String) : Option String → String
  | some specific => text ++ " " ++ specific
  | none => text

/-- `parsePetscErrorCode`, `src/utils/cmdoptions.cpp` lines 17-39. -/
def parsePetscErrorCode (P : PetscSys Real) (ierr : Int) : C String :=
  if ierr ≤ P.errMin then .error (.throw "std::runtime_error" "Invalid PETSc error code!")
  else if P.errMax ≤ ierr then .error (.throw "std::runtime_error" "Invalid PETSc error code!")
  else if (P.message ierr).1 ≠ 0 then .error (.throw "std::runtime_error" "Could not get PETSc error message!")
  else match (P.message ierr).2.1 with
    | none => .error (.throw "std::runtime_error" "PETSc error text is null!")
    | some text => .ok (joinMessage text (P.message ierr).2.2)

/-- `petsc_throw`, `include/utils/cmdoptions.hpp` lines 41-44, with the constructor of `Petsc_exception`, `src/utils/cmdoptions.cpp` lines 41-43; the exception that the
constructor may raise itself takes the place of the one being made. -/
def petscThrow (P : PetscSys Real) (ierr : Int) : C Unit :=
  if ierr ≠ 0 then do
    let msg ← parsePetscErrorCode P ierr
    .error (.throw "Petsc_exception" ("PETSc error: " ++ msg))
  else .ok ()

/-- `throw InputNotGivenError(msg)`, `src/utils/cmdoptions.cpp` lines 45-47. -/
def notGiven {α : Type} (msg : String) : C α := .error (.throw "InputNotGivenError" ("Input not given: " ++ msg))

/-- `parsePetscCmd_isDefined`, `src/utils/cmdoptions.cpp` lines 49-59. -/
def parsePetscCmdIsDefined (P : PetscSys Real) (name : String) : C Bool := do
  let r := optHasName P name
  petscThrow P r.1
  if r.2 then .ok true else .ok false

/-- `parsePetscCmd_int`, `src/utils/cmdoptions.cpp` lines 64-74. -/
def parsePetscCmdInt (P : PetscSys Real) (name : String) : C Int := do
  let r := optGetInt P name 0
  petscThrow P r.1
  if !r.2.2 then notGiven ("Integer " ++ name ++ " not set") else .ok r.2.1

/-- `parseOptionalPetscCmd_real`, `src/utils/cmdoptions.cpp` lines 79-90, without the line printed. `zero` is the initial value of `output`. -/
def parseOptionalPetscCmdReal (P : PetscSys Real) (zero : Real) (name : String) (defval : Real) : C Real := do
  let r := optGetReal P name zero
  petscThrow P r.1
  if !r.2.2 then .ok defval else .ok r.2.1

/-- `parsePetscCmd_bool`, `src/utils/cmdoptions.cpp` lines 92-102. -/
def parsePetscCmdBool (P : PetscSys Real) (name : String) : C Bool := do
  let r := optGetBool P name false
  petscThrow P r.1
  if !r.2.2 then notGiven ("Boolean " ++ name ++ " not set") else .ok r.2.1

/-- `std::string(const char*)`: the characters up to the first terminator; reading a cell that was never written, or past the end, is undefined. -/
def cString : List (Option Char) → C (List Char)
  | [] => .error .ub
  | none :: _ => .error .ub
  | some c :: rest =>
    if c = '\x00' then .ok []
    else do
      let s ← cString rest
      .ok (c :: s)

/-- `parsePetscCmd_string`, `src/utils/cmdoptions.cpp` lines 105-117, and the number of buffers that are still allocated when it ends. -/
def parsePetscCmdString (P : PetscSys Real) (name : String) (p_strlen : Nat) : C (List Char) × Nat :=
  let r := optGetString P name (List.replicate (p_strlen + 1) none) p_strlen
  match petscThrow P r.1 with
  | .error e => (.error e, 1)
  | .ok _ =>
    if !r.2.2 then (notGiven ("String " ++ name ++ " not set"), 1)
    else match cString r.2.1 with
      | .error e => (.error e, 1)
      | .ok s => (.ok s, 0)

/-- `parsePetscCmd_intArray`, `src/utils/cmdoptions.cpp` lines 122-137. A negative `maxlen` becomes a size that no vector has; `&arr[0]` of a vector without elements is
undefined. -/
def parsePetscCmdIntArray (P : PetscSys Real) (name : String) (maxlen : Int) : C (List Int) := do
  if maxlen < 0 then .error (.throw "std::length_error" "vector")
  else if maxlen = 0 then .error .ub
  else do
    let r := optGetIntArray P name (List.replicate maxlen.toNat 0) maxlen.toNat
    petscThrow P r.1
    let arr := r.2.1.take r.2.2.1 ++ List.replicate (r.2.2.1 - r.2.1.length) 0
    if !r.2.2.2 then notGiven ("Array " ++ name ++ " not set") else .ok arr

/-- `parseOptionalPetscCmd_intArray`, `src/utils/cmdoptions.cpp` lines 139-154: the same statements. -/
def parseOptionalPetscCmdIntArray (P : PetscSys Real) (name : String) (maxlen : Int) : C (List Int) := do
  if maxlen < 0 then .error (.throw "std::length_error" "vector")
  else if maxlen = 0 then .error .ub
  else do
    let r := optGetIntArray P name (List.replicate maxlen.toNat 0) maxlen.toNat
    petscThrow P r.1
    let arr := r.2.1.take r.2.2.1 ++ List.replicate (r.2.2.1 - r.2.1.length) 0
    if !r.2.2.2 then notGiven ("Array " ++ name ++ " not set") else .ok arr

/-- `file_input_throw`, `include/utils/cmdoptions.hpp` lines 47-50. -/
def fileInputThrow (fstatus : Int) : C Unit :=
  if fstatus = 0 then notGiven ("Error while reading file + " ++ toString fstatus) else .ok ()

end Blasted
