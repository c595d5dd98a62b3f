import Verif.PetscIO.OptModel

/-!
# The functions that read options (C59)
-/

namespace Blasted

variable {Real : Type}

/-- What is assumed of PETSc: a conversion that fails gives an error code within the range of PETSc's error codes, zero is not in that range, there is a text for every
error code in the range, and a list of integers is cut to the room there is for it. -/
structure PetscSys.Sound (P : PetscSys Real) : Prop where
  min_nonneg : 0 ≤ P.errMin
  int_code : ∀ s c, P.toInt s = .error c → P.errMin < c ∧ c < P.errMax
  real_code : ∀ s c, P.toReal s = .error c → P.errMin < c ∧ c < P.errMax
  bool_code : ∀ s c, P.toBool s = .error c → P.errMin < c ∧ c < P.errMax
  ints_code : ∀ s k c, P.toInts s k = .error c → P.errMin < c ∧ c < P.errMax
  null_code : P.errMin < petscErrNull ∧ petscErrNull < P.errMax
  has_text : ∀ c, P.errMin < c → c < P.errMax → (P.message c).1 = 0 ∧ ∃ t, (P.message c).2.1 = some t
  ints_room : ∀ s k vs, P.toInts s k = .ok vs → vs.length ≤ k

/-- The exception for an error code: a `Petsc_exception` whose message begins with the text of PETSc for that code. -/
def IsPetscException (P : PetscSys Real) (c : Int) (e : Fail) : Prop :=
  ∃ text, (P.message c).2.1 = some text ∧
    e = .throw "Petsc_exception" ("PETSc error: " ++ (match (P.message c).2.2 with | some more => text ++ " " ++ more | none => text))

/-- The exception for an option that is required and was not given. -/
def IsNotGiven (kind name : String) (e : Fail) : Prop :=
  e = .throw "InputNotGivenError" ("Input not given: " ++ (kind ++ " " ++ name ++ " not set"))

/-- **C59** `petsc_throw` lets exactly the code zero pass; for any other code, sensible or not, an exception is thrown. -/
theorem petsc_throw_zero_iff (P : PetscSys Real) (c : Int) :
    (petscThrow P c = .ok () ↔ c = 0) ∧ (c ≠ 0 → ∃ ty msg, petscThrow P c = .error (.throw ty msg)) := by
  have key : c ≠ 0 → ∃ ty msg, petscThrow P c = .error (.throw ty msg) := by
    intro h
    unfold petscThrow
    rw [if_pos h]
    unfold parsePetscErrorCode
    by_cases h1 : c ≤ P.errMin
    · rw [if_pos h1]; exact ⟨_, _, rfl⟩
    by_cases h2 : P.errMax ≤ c
    · rw [if_neg h1, if_pos h2]; exact ⟨_, _, rfl⟩
    by_cases h3 : (P.message c).1 ≠ 0
    · rw [if_neg h1, if_neg h2, if_pos h3]; exact ⟨_, _, rfl⟩
    rw [if_neg h1, if_neg h2, if_neg h3]
    cases (P.message c).2.1 with
    | none => exact ⟨_, _, rfl⟩
    | some t => exact ⟨_, _, rfl⟩
  refine ⟨⟨fun h => ?_, fun h => by unfold petscThrow; rw [if_neg (by simpa using h)]⟩, key⟩
  by_contra hc
  obtain ⟨ty, msg, h'⟩ := key hc
  rw [h'] at h
  cases h

theorem petscThrow_zero (P : PetscSys Real) : petscThrow P 0 = .ok () := (petsc_throw_zero_iff P 0).1.mpr rfl

theorem petscThrow_code {P : PetscSys Real} (hP : P.Sound) {c : Int} (h1 : P.errMin < c) (h2 : c < P.errMax) :
    ∃ e, petscThrow P c = .error e ∧ IsPetscException P c e := by
  obtain ⟨g1, t, g2⟩ := hP.has_text c h1 h2
  have h0 := hP.min_nonneg
  refine ⟨.throw "Petsc_exception" ("PETSc error: " ++ joinMessage t (P.message c).2.2), ?_, t, g2, ?_⟩
  · unfold petscThrow parsePetscErrorCode
    rw [if_pos (by omega), if_neg (by omega), if_neg (by omega), if_neg (by simpa using g1), g2]
    rfl
  · unfold joinMessage
    cases (P.message c).2.2 <;> rfl

/-- **C59** An integer option: the value is returned when it was given and is an integer; it throws when the option is absent or has no value, and when the value is not an
integer. -/
theorem parse_int_correct {P : PetscSys Real} (hP : P.Sound) (name : String) :
    (∀ s v, P.db name = some (some s) → P.toInt s = .ok v → parsePetscCmdInt P name = .ok v) ∧
    (P.db name = none ∨ P.db name = some none → ∃ e, parsePetscCmdInt P name = .error e ∧ IsNotGiven "Integer" name e) ∧
    (∀ s c, P.db name = some (some s) → P.toInt s = .error c → ∃ e, parsePetscCmdInt P name = .error e ∧ IsPetscException P c e) := by
  unfold parsePetscCmdInt optGetInt
  refine ⟨fun s v h1 h2 => ?_, fun h => ?_, fun s c h1 h2 => ?_⟩
  · simp [h1, h2, outOf, petscThrow_zero, ok_bind]
  · refine ⟨_, ?_, rfl⟩
    rcases h with h | h <;> simp [h, petscThrow_zero, ok_bind, notGiven]
  · obtain ⟨e, e1, e2⟩ := petscThrow_code hP (hP.int_code s c h2).1 (hP.int_code s c h2).2
    refine ⟨e, ?_, e2⟩
    simp only [h1, h2, outOf]
    rw [e1, error_bind]

/-- **C59** A boolean option: as for integers, but an option that is there without a value is true. -/
theorem parse_bool_correct {P : PetscSys Real} (hP : P.Sound) (name : String) :
    (∀ s v, P.db name = some (some s) → P.toBool s = .ok v → parsePetscCmdBool P name = .ok v) ∧
    (P.db name = some none → parsePetscCmdBool P name = .ok true) ∧
    (P.db name = none → ∃ e, parsePetscCmdBool P name = .error e ∧ IsNotGiven "Boolean" name e) ∧
    (∀ s c, P.db name = some (some s) → P.toBool s = .error c → ∃ e, parsePetscCmdBool P name = .error e ∧ IsPetscException P c e) := by
  unfold parsePetscCmdBool optGetBool
  refine ⟨fun s v h1 h2 => ?_, fun h => ?_, fun h => ⟨_, ?_, rfl⟩, fun s c h1 h2 => ?_⟩
  · simp [h1, h2, outOf, petscThrow_zero, ok_bind]
  · simp [h, petscThrow_zero, ok_bind]
  · simp [h, petscThrow_zero, ok_bind, notGiven]
  · obtain ⟨e, e1, e2⟩ := petscThrow_code hP (hP.bool_code s c h2).1 (hP.bool_code s c h2).2
    refine ⟨e, ?_, e2⟩
    simp only [h1, h2, outOf]
    rw [e1, error_bind]

/-- **C59** An optional real: the value when it was given, the default of the caller when it was not, an exception when the text is not a number. -/
theorem parse_optional_real_correct {P : PetscSys Real} (hP : P.Sound) (zero : Real) (name : String) (defval : Real) :
    (∀ s v, P.db name = some (some s) → P.toReal s = .ok v → parseOptionalPetscCmdReal P zero name defval = .ok v) ∧
    (P.db name = none ∨ P.db name = some none → parseOptionalPetscCmdReal P zero name defval = .ok defval) ∧
    (∀ s c, P.db name = some (some s) → P.toReal s = .error c →
      ∃ e, parseOptionalPetscCmdReal P zero name defval = .error e ∧ IsPetscException P c e) := by
  unfold parseOptionalPetscCmdReal optGetReal
  refine ⟨fun s v h1 h2 => ?_, fun h => ?_, fun s c h1 h2 => ?_⟩
  · simp [h1, h2, outOf, petscThrow_zero, ok_bind]
  · rcases h with h | h <;> simp [h, petscThrow_zero, ok_bind]
  · obtain ⟨e, e1, e2⟩ := petscThrow_code hP (hP.real_code s c h2).1 (hP.real_code s c h2).2
    refine ⟨e, ?_, e2⟩
    simp only [h1, h2, outOf]
    rw [e1, error_bind]

/-- **C59** Whether an option was passed, with or without a value. -/
theorem parse_is_defined_correct (P : PetscSys Real) (name : String) : parsePetscCmdIsDefined P name = .ok (P.db name).isSome := by
  unfold parsePetscCmdIsDefined optHasName
  cases P.db name <;> simp [petscThrow_zero, ok_bind]

theorem cString_term {s : List Char} (h : '\x00' ∉ s) (rest : List (Option Char)) :
    cString (s.map some ++ some '\x00' :: rest) = .ok s := by
  induction s with
  | nil => simp [cString]
  | cons a t ih =>
    rw [List.mem_cons, not_or] at h
    rw [List.map_cons, List.cons_append, cString, if_neg (Ne.symm h.1), ih h.2, ok_bind]

/-- **C59** A string option: all of the value when it is shorter than the length asked for, otherwise its first `len - 1` characters; an option without a value is the empty
string. No buffer is left allocated. -/
theorem parse_string_correct (P : PetscSys Real) (name : String) {len : Nat} (hlen : 0 < len) :
    (∀ s, P.db name = some (some s) → '\x00' ∉ s → parsePetscCmdString P name len = (.ok (s.take (len - 1)), 0)) ∧
    (P.db name = some none → parsePetscCmdString P name len = (.ok [], 0)) ∧
    (P.db name = none → ∃ e, (parsePetscCmdString P name len).1 = .error e ∧ IsNotGiven "String" name e) := by
  unfold parsePetscCmdString optGetString
  refine ⟨fun s h1 h2 => ?_, fun h => ?_, fun h => ⟨_, ?_, rfl⟩⟩
  · have h3 : '\x00' ∉ s.take (len - 1) := fun h => h2 (List.mem_of_mem_take h)
    simp only [h1, if_neg (Nat.pos_iff_ne_zero.mp hlen), petscThrow_zero]
    rw [List.append_assoc, List.singleton_append, cString_term h3]
    rfl
  · obtain ⟨k, rfl⟩ : ∃ k, len = k + 1 := ⟨len - 1, by omega⟩
    simp [h, petscThrow_zero, List.replicate_succ, cString]
  · simp [h, petscThrow_zero, notGiven]

/-- **C59** A value that fits, that is one with fewer than `len` characters, is returned unchanged. -/
theorem parse_string_whole (P : PetscSys Real) (name : String) {len : Nat} {s : List Char} (h : P.db name = some (some s)) (h0 : '\x00' ∉ s)
    (hs : s.length < len) : parsePetscCmdString P name len = (.ok s, 0) := by
  rw [(parse_string_correct P name (show 0 < len by omega)).1 s h h0, List.take_of_length_le (by omega)]

/-- **C59** A list of integers: what is returned are the integers that were read, no more; an option without a value is an empty list. -/
theorem parse_int_array_correct {P : PetscSys Real} (hP : P.Sound) (name : String) {maxlen : Int} (hm : 0 < maxlen) :
    (∀ s vs, P.db name = some (some s) → P.toInts s maxlen.toNat = .ok vs →
      parsePetscCmdIntArray P name maxlen = .ok vs ∧ (vs.length : Int) ≤ maxlen) ∧
    (P.db name = some none → parsePetscCmdIntArray P name maxlen = .ok []) ∧
    (P.db name = none → ∃ e, parsePetscCmdIntArray P name maxlen = .error e ∧ IsNotGiven "Array" name e) ∧
    (∀ s c, P.db name = some (some s) → P.toInts s maxlen.toNat = .error c →
      ∃ e, parsePetscCmdIntArray P name maxlen = .error e ∧ IsPetscException P c e) := by
  unfold parsePetscCmdIntArray optGetIntArray
  rw [if_neg (by omega), if_neg (by omega)]
  refine ⟨fun s vs h1 h2 => ?_, fun h => ?_, fun h => ⟨_, ?_, rfl⟩, fun s c h1 h2 => ?_⟩
  · have := hP.ints_room _ _ _ h2
    refine ⟨?_, by omega⟩
    simp [h1, h2, petscThrow_zero, ok_bind]
  · simp [h, petscThrow_zero, ok_bind]
  · simp [h, petscThrow_zero, ok_bind, notGiven]
  · obtain ⟨e, e1, e2⟩ := petscThrow_code hP (hP.ints_code s _ c h2).1 (hP.ints_code s _ c h2).2
    refine ⟨e, ?_, e2⟩
    simp only [h1, h2]
    rw [e1, error_bind]

/-- **C59** (partial) The optional variant returns the integers when the option is there. Missing: the empty list for an option that was not given, which the header
promises; see `parse_optional_int_array_throws`. -/
theorem parse_optional_int_array_correct_partial {P : PetscSys Real} (hP : P.Sound) (name : String) {maxlen : Int} (hm : 0 < maxlen) :
    (∀ s vs, P.db name = some (some s) → P.toInts s maxlen.toNat = .ok vs →
      parseOptionalPetscCmdIntArray P name maxlen = .ok vs ∧ (vs.length : Int) ≤ maxlen) ∧
    (P.db name = some none → parseOptionalPetscCmdIntArray P name maxlen = .ok []) :=
  ⟨(parse_int_array_correct hP name hm).1, (parse_int_array_correct hP name hm).2.1⟩

/-- Contrary to `include/utils/cmdoptions.hpp` ("Does not throw if the requested option was not found; just returns an empty vector in that case"), the optional variant
throws whenever the option was not given. -/
theorem parse_optional_int_array_throws {P : PetscSys Real} (name : String) {maxlen : Int} (hm : 0 < maxlen) (h : P.db name = none) :
    ∃ e, parseOptionalPetscCmdIntArray P name maxlen = .error e ∧ IsNotGiven "Array" name e := by
  refine ⟨_, ?_, rfl⟩
  unfold parseOptionalPetscCmdIntArray optGetIntArray
  rw [if_neg (by omega), if_neg (by omega)]
  simp [h, petscThrow_zero, ok_bind, notGiven]

/-- A value with exactly as many characters as the caller expects at most loses the last one. -/
theorem parse_string_cut (P : PetscSys Real) (name : String) {s : List Char} (h : P.db name = some (some s)) (h0 : '\x00' ∉ s) (hs : s ≠ []) :
    parsePetscCmdString P name s.length = (.ok s.dropLast, 0) ∧ s.dropLast ≠ s := by
  have hp : 0 < s.length := List.length_pos_iff.mpr hs
  refine ⟨by rw [(parse_string_correct P name hp).1 s h h0, List.dropLast_eq_take], fun e => ?_⟩
  have := congrArg List.length e
  rw [List.length_dropLast] at this
  omega

/-- Whenever the string option was not given, the buffer is never freed. -/
theorem parse_string_leaks (P : PetscSys Real) (name : String) (len : Nat) (h : P.db name = none) : (parsePetscCmdString P name len).2 = 1 := by
  unfold parsePetscCmdString optGetString
  simp [h, petscThrow_zero]

/-- With room for no element at all the address of the first element is taken all the same; with a negative number the vector cannot be made. -/
theorem parse_int_array_no_room (P : PetscSys Real) (name : String) :
    parsePetscCmdIntArray P name 0 = .error .ub ∧ ∀ k < (0 : Int), parsePetscCmdIntArray P name k = .error (.throw "std::length_error" "vector") :=
  ⟨rfl, fun k hk => by unfold parsePetscCmdIntArray; rw [if_pos hk]⟩

/-- **C59** `file_input_throw` throws exactly for a stream in a failed state. -/
theorem file_input_throw_iff (fstatus : Int) :
    (fileInputThrow fstatus = .ok () ↔ fstatus ≠ 0) ∧ (fstatus = 0 → ∃ msg, fileInputThrow fstatus = .error (.throw "InputNotGivenError" msg)) := by
  unfold fileInputThrow notGiven
  by_cases h : fstatus = 0 <;> simp [h]

/-! ### An instance -/

/-- A database with an option of each kind, and conversions that know a few words. -/
def exSys : PetscSys Int where
  db name := if name = "-n" then some (some ['4']) else if name = "-bad" then some (some ['x']) else if name = "-flag" then some none
    else if name = "-list" then some (some ['1', ',', '2']) else if name = "-type" then some (some ['i', 'l', 'u', '0']) else none
  toInt s := if s = ['4'] then .ok 4 else .error 83
  toReal s := if s = ['4'] then .ok 4 else .error 83
  toBool s := if s = ['1'] then .ok true else .error 83
  toInts s k := if s = ['1', ',', '2'] then .ok (([1, 2] : List Int).take k) else .error 83
  errMin := 54
  errMax := 99
  message c := (0, some "Invalid argument", if c = 83 then some "Integer value not known" else none)

theorem exSys_sound : exSys.Sound where
  min_nonneg := by decide
  int_code s c h := by simp only [exSys] at h ⊢; split at h <;> cases h; decide
  real_code s c h := by simp only [exSys] at h ⊢; split at h <;> cases h; decide
  bool_code s c h := by simp only [exSys] at h ⊢; split at h <;> cases h; decide
  ints_code s k c h := by simp only [exSys] at h ⊢; split at h <;> cases h; decide
  null_code := by decide
  has_text c _ _ := ⟨rfl, _, rfl⟩
  ints_room s k vs h := by simp only [exSys] at h; split at h <;> cases h; simp

example : parsePetscCmdInt exSys "-n" = .ok 4 ∧
    parsePetscCmdInt exSys "-m" = .error (.throw "InputNotGivenError" "Input not given: Integer -m not set") ∧
    parsePetscCmdInt exSys "-flag" = .error (.throw "InputNotGivenError" "Input not given: Integer -flag not set") ∧
    parsePetscCmdInt exSys "-bad" = .error (.throw "Petsc_exception" "PETSc error: Invalid argument Integer value not known") ∧
    parsePetscCmdBool exSys "-flag" = .ok true ∧ parseOptionalPetscCmdReal exSys 0 "-m" 7 = .ok 7 ∧ parseOptionalPetscCmdReal exSys 0 "-n" 7 = .ok 4 ∧
    parsePetscCmdString exSys "-type" 10 = (.ok ['i', 'l', 'u', '0'], 0) ∧ parsePetscCmdString exSys "-type" 4 = (.ok ['i', 'l', 'u'], 0) ∧
    parsePetscCmdIntArray exSys "-list" 3 = .ok [1, 2] ∧ parsePetscCmdIntArray exSys "-list" 1 = .ok [1] ∧ parsePetscCmdIsDefined exSys "-flag" = .ok true ∧
    parseOptionalPetscCmdIntArray exSys "-m" 3 = .error (.throw "InputNotGivenError" "Input not given: Array -m not set") := by
  decide +kernel

end Blasted
