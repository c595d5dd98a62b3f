import Verif.PetscIO.Model
import Verif.PetscIO.OptModel

/-!
# The conversion program

`src/utils/util_petsc_io.c`: reads a matrix and up to two vectors from text files and writes them in PETSc's binary format. PETSc's part (start-up, viewers) is written from its manual, for an
options database that was filled by `PetscInitialize`. Console output is not modelled, and a `char` array is a list of cells which are `none` before they are written.
-/

namespace Blasted

variable {K Real : Type}

/-- What PETSc writes into a binary file: a matrix or a vector. -/
inductive PObj (K : Type) : Type where
  | mat (A : PMat K)
  | vec (v : List K)

/-- A file: text, or objects in PETSc's binary format. -/
inductive FileData (K : Type) : Type where
  | text (t : List Char)
  | objects (l : List (PObj K))

/-- The files, by name. -/
abbrev Disk (K : Type) := List Char → Option (FileData K)

/-- The characters that a program that opens the file for reading gets. Simplification: files with binary objects count as files that cannot be opened. -/
def Disk.textOf (d : Disk K) (name : List Char) : Option (List Char) :=
  match d name with
  | some (.text t) => some t
  | _ => none

/-- What the program finds in its surroundings: the options database, the number of processes, the block size in the options, whether PETSc was built with its checks, the names of the files that
can be written, the conversion of words to numbers, the sorting algorithm and the contents of fresh arrays of the library, and a bound on the number of lines of the files. -/
structure UtilEnv (K Real : Type) where
  sys : PetscSys Real
  mpisize : Nat
  optbs : Nat
  checks : Bool
  writable : List Char → Bool
  num : List Char → Option K
  srt : (Entry K → Int) → List (Entry K) → List (Entry K)
  gi : Nat → Nat
  gd : Nat → Int
  gv : Nat → K
  fuel : Nat

/-- `strcpy(buf, src)`, for a string `src`: undefined when the characters and the terminator do not fit. -/
def strcpyC (buf : List (Option Char)) (src : List Char) : C (List (Option Char)) :=
  if src.length < buf.length then .ok (src.map some ++ some '\x00' :: buf.drop (src.length + 1)) else .error .ub

/-- `strcat(buf, src)`. -/
def strcatC (buf : List (Option Char)) (src : List Char) : C (List (Option Char)) := do
  let s ← cString buf
  if s.length + src.length < buf.length then .ok ((s ++ src).map some ++ some '\x00' :: buf.drop (s.length + src.length + 1)) else .error .ub

/-- `strcpy(buf, name); strcat(buf, ".pmat")`, `src/utils/util_petsc_io.c` lines 61-68: the name of an output file, in an array of `PETSCOPTION_STR_LEN` = 500 characters (lines 12, 59). -/
def outName (name : List Char) : C (List Char) := do
  let buf ← strcpyC (List.replicate 500 none) name
  let buf ← strcatC buf ".pmat".toList
  cString buf

/-- `PETSC_ERR_FILE_OPEN` of `petscerror.h`. -/
def petscErrOpen : Nat := 65

/-- `PetscViewerBinaryOpen` for writing: the file is created, or emptied if it exists. -/
def viewerOpen (E : UtilEnv K Real) (d : Disk K) (name : List Char) : Disk K × Nat :=
  if E.writable name then (Function.update d name (some (.objects [])), 0) else (d, petscErrOpen)

/-- `MatView` and `VecView` as used here, once for each viewer, followed at the end by `PetscViewerDestroy`. Simplification: when two viewers write to the same file, the last one to write determines
all of its contents. -/
def viewerWrite (d : Disk K) (name : List Char) (o : PObj K) : Disk K := Function.update d name (some (.objects [o]))

/-- Lines 70-98 of `src/utils/util_petsc_io.c`: the viewers are opened and the objects written; the exit code. `x` is the name and the value of the exact solution if there is one. -/
def utilWrite (E : UtilEnv K Real) (d : Disk K) (matname bname : List Char) (A : PMat K) (b : List K) (x : Option (List Char × List K)) : Disk K × Int :=
  let r := viewerOpen E d matname
  if r.2 ≠ 0 then (r.1, r.2)
  else
    let r := viewerOpen E r.1 bname
    if r.2 ≠ 0 then (r.1, r.2)
    else match x with
      | none => (viewerWrite (viewerWrite r.1 matname (.mat A)) bname (.vec b), 0)
      | some x =>
        let r := viewerOpen E r.1 x.1
        if r.2 ≠ 0 then (r.1, r.2)
        else (viewerWrite (viewerWrite (viewerWrite r.1 matname (.mat A)) bname (.vec b)) x.1 (.vec x.2), 0)

/-- Lines 54-56 of `src/utils/util_petsc_io.c`, where `buf` is the array `xfile`: its name and value, or the error code. -/
def utilReadExact [Zero K] (E : UtilEnv K Real) (d : Disk K) (buf : List (Option Char)) (A : PMat K) : C (List Char × List K × Nat) := do
  let name ← cString buf
  let v ← readVecFromFile E.checks E.num E.fuel (d.textOf name) (some A)
  .ok (name, v.1, v.2)

/-- `main`, `src/utils/util_petsc_io.c` lines 14-99: the files and the exit code at the end. `argv` has the name of the program first. `CHKERRQ` ends the program with the error code. Where the
model has an exception, nothing has been written. Simplification: `PetscInitialize` succeeds. -/
def utilMain [Zero K] (E : UtilEnv K Real) (argv : List (List Char)) (d : Disk K) : C (Disk K × Int) :=
  if argv.length < 3 then .ok (d, 0)
  else do
    let matfile ← rd argv 1
    let bfile ← rd argv 2
    let opt := optGetString E.sys "-exact_soln" (List.replicate 500 none) 500
    if opt.1 ≠ 0 then .ok (d, opt.1)
    else do
      let A ← readMatFromCOOFileViaSR E.checks E.mpisize E.optbs E.num E.srt E.gi E.gd E.gv E.fuel (d.textOf matfile)
      if A.2 ≠ 0 then .ok (d, A.2)
      else do
        let b ← readVecFromFile E.checks E.num E.fuel (d.textOf bfile) (some A.1)
        if b.2 ≠ 0 then .ok (d, b.2)
        else if opt.2.2 then do
          let x ← utilReadExact E d opt.2.1 A.1
          if x.2.2 ≠ 0 then .ok (d, x.2.2)
          else do
            let om ← outName matfile
            let ob ← outName bfile
            let ox ← outName x.1
            .ok (utilWrite E d om ob A.1 b.1 (some (ox, x.2.1)))
        else do
          let om ← outName matfile
          let ob ← outName bfile
          .ok (utilWrite E d om ob A.1 b.1 none)

end Blasted
