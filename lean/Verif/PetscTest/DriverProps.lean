import Verif.PetscTest.DriverModel
import Verif.PetscTest.SingleProps
import Verif.PetscIO.OptProps

/-!
# C109: what the program for the convergence tests does
-/

namespace Blasted

variable {Real : Type}

/-! ### Specification -/

/-- The value of an option that must be given and be an integer. -/
def GivenInt (P : PetscSys Real) (o : String) (v : Int) : Prop := ∃ s, P.db o = some (some s) ∧ P.toInt s = .ok v

/-- The parameters that the options give. -/
structure ConvOptions (P : PetscSys Real) (dtol : Real) (p : ConvParams Real) : Prop where
  sweeps : GivenInt P "-max_sweeps" p.maxsweeps
  chunk : GivenInt P "-blasted_thread_chunk_size" p.chunk
  repeats : GivenInt P "-num_repeats" p.nrepeats
  tol : (∃ s, P.db "-tolerance" = some (some s) ∧ P.toReal s = .ok p.tol) ∨ ((P.db "-tolerance" = none ∨ P.db "-tolerance" = some none) ∧ p.tol = dtol)
  init : (∃ s, P.db "-initialization" = some (some s) ∧ '\x00' ∉ s ∧ p.initialization = s.take 19) ∨ (P.db "-initialization" = some none ∧ p.initialization = [])
  scale : (∃ s, P.db "-blasted_use_symmetric_scaling" = some (some s) ∧ P.toBool s = .ok p.usescale) ∨ (P.db "-blasted_use_symmetric_scaling" = some none ∧ p.usescale = true)

/-- The problem that is asked for by the arguments from the second on. -/
def Asked (argv : List (List Char)) : ProblemChoice → Prop
  | .exit => False
  | .poisson f => argv[2]? = some "poisson".toList ∧ ∃ v, f = some v ∧ argv[3]? = some v
  | .files a b x => (∃ w, argv[2]? = some w ∧ w ≠ "poisson".toList) ∧ (∃ v, a = some v ∧ argv[3]? = some v) ∧ (∃ v, b = some v ∧ argv[4]? = some v) ∧ ∃ v, x = some v ∧ argv[5]? = some v

/-! ### Lemmas -/

theorem asked_choice {argv : List (List Char)} {c : ProblemChoice} (h : Asked argv c) : generateDiscreteProblem argv 2 = .ok c ∧ c ≠ .exit ∧ 3 ≤ argv.length := by
  have hlen : ∀ {w}, argv[2]? = some w → 3 ≤ argv.length := by
    intro w hw
    by_contra hcon
    rw [List.getElem?_eq_none (by omega)] at hw
    cases hw
  cases c with
  | exit => exact h.elim
  | poisson f =>
    obtain ⟨h1, v, rfl, h2⟩ := h
    exact ⟨(problem_choice_correct h1 (by omega)).1 rfl v h2, by simp, hlen h1⟩
  | files a b x =>
    obtain ⟨⟨w, h1, hw⟩, ⟨v, rfl, h2⟩, ⟨u, rfl, h3⟩, ⟨t, rfl, h4⟩⟩ := h
    exact ⟨(problem_choice_correct h1 (by omega)).2 hw v u t h2 h3 h4, by simp, hlen h1⟩

theorem rd_of_getElem? {α : Type} {l : List α} {i : Nat} {v : α} (h : l[i]? = some v) : rd l i = .ok v := by unfold rd; rw [h]

theorem convParams_eq {P : PetscSys Real} (hP : P.Sound) {zero dtol : Real} {p : ConvParams Real} (h : ConvOptions P dtol p) : convParams P zero dtol = .ok p := by
  obtain ⟨s1, a1, b1⟩ := h.sweeps
  obtain ⟨s2, a2, b2⟩ := h.chunk
  obtain ⟨s3, a3, b3⟩ := h.repeats
  have h4 : parseOptionalPetscCmdReal P zero "-tolerance" dtol = .ok p.tol := by
    rcases h.tol with ⟨s, a, b⟩ | ⟨a, b⟩
    · exact (parse_optional_real_correct hP zero _ dtol).1 s _ a b
    · rw [b]; exact (parse_optional_real_correct hP zero _ dtol).2.1 a
  have h5 : (parsePetscCmdString P "-initialization" 20).1 = .ok p.initialization := by
    rcases h.init with ⟨s, a, b, c⟩ | ⟨a, b⟩
    · rw [(parse_string_correct P _ (by decide)).1 s a b, c]
    · rw [(parse_string_correct P _ (by decide)).2.1 a, b]
  have h6 : parsePetscCmdBool P "-blasted_use_symmetric_scaling" = .ok p.usescale := by
    rcases h.scale with ⟨s, a, b⟩ | ⟨a, b⟩
    · exact (parse_bool_correct hP _).1 s _ a b
    · rw [b]; exact (parse_bool_correct hP _).2.1 a
  unfold convParams
  rw [(parse_int_correct hP _).1 s1 _ a1 b1, ok_bind, h4, ok_bind, (parse_int_correct hP _).1 s2 _ a2 b2, ok_bind, (parse_int_correct hP _).1 s3 _ a3 b3, ok_bind, h5, ok_bind, h6, ok_bind]

theorem convDriver_general {P : PetscSys Real} (hP : P.Sound) {zero dtol : Real} {argv : List (List Char)} {load : ProblemChoice → C Nat} {ailu tri : Nat → ConvParams Real → C Int} {destroy finalize : Int}
    {c : ProblemChoice} {bs : Nat} {p : ConvParams Real} {ty : List Char} (hc : Asked argv c) (hload : load c = .ok bs) (hp : ConvOptions P dtol p) (hty : argv[1]? = some ty) :
    convDriver P zero dtol argv load ailu tri destroy finalize =
      ((if ty = "ailu".toList then convSwitch ailu bs p else if ty = "triangular".toList then convSwitch tri bs p
        else .error (.throw "std::runtime_error" "Test type not supported!")) >>= fun _ => if destroy ≠ 0 then .ok destroy else .ok finalize) := by
  obtain ⟨h1, h2, h3⟩ := asked_choice hc
  unfold convDriver
  rw [if_neg (by omega), rd_of_getElem? hty, ok_bind, h1, ok_bind, if_neg h2, hload, ok_bind, convParams_eq hP hp, ok_bind]

/-! ### Theorems -/

/-- **C109** With all arguments and options the program runs the test that is asked for once, with the block size of the matrix (1 or 4) and the parameters that the options give; it fails as the test
fails, and otherwise its exit status is that of the clean-up. The error code of the test is not looked at. -/
theorem conv_driver_correct {P : PetscSys Real} (hP : P.Sound) {zero dtol : Real} {argv : List (List Char)} {load : ProblemChoice → C Nat} {ailu tri : Nat → ConvParams Real → C Int} {c : ProblemChoice}
    {bs : Nat} {p : ConvParams Real} (hc : Asked argv c) (hload : load c = .ok bs) (hbs : bs = 1 ∨ bs = 4) (hp : ConvOptions P dtol p) :
    (argv[1]? = some "ailu".toList → convDriver P zero dtol argv load ailu tri 0 0 = (ailu bs p).map fun _ => 0) ∧
      (argv[1]? = some "triangular".toList → convDriver P zero dtol argv load ailu tri 0 0 = (tri bs p).map fun _ => 0) := by
  have hsw : ∀ test : Nat → ConvParams Real → C Int, convSwitch test bs p = test bs p := by
    intro test
    unfold convSwitch
    rcases hbs with rfl | rfl
    · rw [if_pos rfl]
    · rw [if_neg (by decide), if_pos rfl]
  constructor
  · intro hty
    rw [convDriver_general hP hc hload hp hty, if_pos rfl, hsw]
    cases ailu bs p <;> rfl
  · intro hty
    rw [convDriver_general hP hc hload hp hty, if_neg (by decide), if_pos rfl, hsw]
    cases tri bs p <;> rfl

/-- **C109**, negative: a test that returns an error code, any error code, is reported as a success. -/
theorem conv_driver_ignores_code {P : PetscSys Real} (hP : P.Sound) {zero dtol : Real} {argv : List (List Char)} {load : ProblemChoice → C Nat} {ailu tri : Nat → ConvParams Real → C Int} {c : ProblemChoice}
    {bs : Nat} {p : ConvParams Real} {e : Int} (hc : Asked argv c) (hload : load c = .ok bs) (hbs : bs = 1 ∨ bs = 4) (hp : ConvOptions P dtol p) (hty : argv[1]? = some "ailu".toList)
    (he : ailu bs p = .ok e) : convDriver P zero dtol argv load ailu tri 0 0 = .ok 0 := by
  rw [(conv_driver_correct hP hc hload hbs hp).1 hty, he]
  rfl

/-- **C109** An error of the clean-up is the exit status. -/
theorem conv_driver_cleanup {P : PetscSys Real} (hP : P.Sound) {zero dtol : Real} {argv : List (List Char)} {load : ProblemChoice → C Nat} {ailu tri : Nat → ConvParams Real → C Int} {c : ProblemChoice}
    {bs : Nat} {p : ConvParams Real} {e d f : Int} (hc : Asked argv c) (hload : load c = .ok bs) (hbs : bs = 1 ∨ bs = 4) (hp : ConvOptions P dtol p) (hty : argv[1]? = some "ailu".toList)
    (he : ailu bs p = .ok e) : convDriver P zero dtol argv load ailu tri d f = .ok (if d ≠ 0 then d else f) := by
  have hsw : convSwitch ailu bs p = .ok e := by
    unfold convSwitch
    rcases hbs with rfl | rfl
    · rw [if_pos rfl, he]
    · rw [if_neg (by decide), if_pos rfl, he]
  rw [convDriver_general hP hc hload hp hty, if_pos rfl, hsw, ok_bind]
  by_cases hd : d ≠ 0
  · rw [if_pos hd, if_pos hd]
  · rw [if_neg hd, if_neg hd]

/-- **C109** Other block sizes and other types of test are refused. -/
theorem conv_driver_refuses {P : PetscSys Real} (hP : P.Sound) {zero dtol : Real} {argv : List (List Char)} {load : ProblemChoice → C Nat} {ailu tri : Nat → ConvParams Real → C Int} {destroy finalize : Int}
    {c : ProblemChoice} {bs : Nat} {p : ConvParams Real} {ty : List Char} (hc : Asked argv c) (hload : load c = .ok bs) (hp : ConvOptions P dtol p) (hty : argv[1]? = some ty) :
    (ty ∉ ["ailu".toList, "triangular".toList] → convDriver P zero dtol argv load ailu tri destroy finalize = .error (.throw "std::runtime_error" "Test type not supported!")) ∧
      (ty ∈ ["ailu".toList, "triangular".toList] → bs ≠ 1 → bs ≠ 4 →
        convDriver P zero dtol argv load ailu tri destroy finalize = .error (.throw "std::out_of_range" ("Block size " ++ toString bs ++ " not supported!"))) := by
  rw [convDriver_general hP hc hload hp hty]
  constructor
  · intro h
    rw [if_neg (fun e => h (by simp [e])), if_neg (fun e => h (by simp [e]))]
    rfl
  · intro h h1 h4
    have hsw : ∀ test : Nat → ConvParams Real → C Int, convSwitch test bs p = .error (.throw "std::out_of_range" ("Block size " ++ toString bs ++ " not supported!")) := by
      intro test
      unfold convSwitch
      rw [if_neg h1, if_neg h4]
    rw [hsw, hsw]
    by_cases ha : ty = "ailu".toList
    · rw [if_pos ha]
      rfl
    · rw [if_neg ha, if_pos ((List.mem_cons.mp h).elim (fun e => absurd e ha) List.mem_singleton.mp)]
      rfl

/-- **C109**, negative: the type of test that the program's own message names is refused. -/
theorem conv_driver_help_refused {P : PetscSys Real} (hP : P.Sound) {zero dtol : Real} {argv : List (List Char)} {load : ProblemChoice → C Nat} {ailu tri : Nat → ConvParams Real → C Int}
    {destroy finalize : Int} {c : ProblemChoice} {bs : Nat} {p : ConvParams Real} (hc : Asked argv c) (hload : load c = .ok bs) (hp : ConvOptions P dtol p) (hty : argv[1]? = some "atriangular".toList) :
    convDriver P zero dtol argv load ailu tri destroy finalize = .error (.throw "std::runtime_error" "Test type not supported!") :=
  (conv_driver_refuses hP hc hload hp hty).1 (by decide)

/-- **C109** With fewer than two arguments the program ends with a message. -/
theorem conv_driver_few_arguments {P : PetscSys Real} {zero dtol : Real} {argv : List (List Char)} {load : ProblemChoice → C Nat} {ailu tri : Nat → ConvParams Real → C Int} {destroy finalize : Int}
    (h : argv.length ≤ 2) : convDriver P zero dtol argv load ailu tri destroy finalize = .ok (-1) := by
  unfold convDriver
  rw [if_pos (by omega)]

/-- **C109** If an integer option is not there, there is an exception that names it. -/
theorem conv_driver_option_missing {P : PetscSys Real} (hP : P.Sound) {zero dtol : Real} {argv : List (List Char)} {load : ProblemChoice → C Nat} {ailu tri : Nat → ConvParams Real → C Int}
    {destroy finalize : Int} {c : ProblemChoice} {bs : Nat} {ty : List Char} (hc : Asked argv c) (hload : load c = .ok bs) (hty : argv[1]? = some ty) (hm : P.db "-max_sweeps" = none) :
    ∃ e, convDriver P zero dtol argv load ailu tri destroy finalize = .error e ∧ IsNotGiven "Integer" "-max_sweeps" e := by
  obtain ⟨e, h1, h2⟩ := (parse_int_correct hP "-max_sweeps").2.1 (.inl hm)
  obtain ⟨g1, g2, g3⟩ := asked_choice hc
  refine ⟨e, ?_, h2⟩
  unfold convDriver convParams
  rw [if_neg (by omega), rd_of_getElem? hty, ok_bind, g1, ok_bind, if_neg g2, hload, ok_bind, h1]
  rfl

/-! ### Examples -/

/-- The options of the example. -/
def exDriverSys : PetscSys ℚ where
  db name := if name ∈ ["-max_sweeps", "-blasted_thread_chunk_size", "-num_repeats"] then some (some "2".toList) else if name = "-initialization" then some (some "init_zero".toList)
    else if name = "-blasted_use_symmetric_scaling" then some none else none
  toInt s := if s = ['2'] then .ok 2 else .error 83
  toReal _ := .error 83
  toBool _ := .error 83
  toInts _ _ := .error 83
  errMin := 54
  errMax := 99
  message _ := (0, some "Invalid argument", none)

theorem exDriverSys_sound : exDriverSys.Sound where
  min_nonneg := by decide
  int_code s c h := by
    simp only [exDriverSys] at h ⊢
    split_ifs at h
    simp only [Except.error.injEq] at h
    omega
  real_code s c h := by
    simp only [exDriverSys, Except.error.injEq] at h ⊢
    omega
  bool_code s c h := by
    simp only [exDriverSys, Except.error.injEq] at h ⊢
    omega
  ints_code s k c h := by
    simp only [exDriverSys, Except.error.injEq] at h ⊢
    omega
  null_code := by decide
  has_text c _ _ := ⟨rfl, _, rfl⟩
  ints_room s k vs h := by cases h

/-- The parameters that they give. -/
def exDriverParams : ConvParams ℚ := ⟨1 / 10 ^ 25, 2, true, 2, "init_zero".toList, 2⟩

theorem exDriver_options : ConvOptions exDriverSys (1 / 10 ^ 25) exDriverParams where
  sweeps := ⟨['2'], by decide +kernel, by decide +kernel⟩
  chunk := ⟨['2'], by decide +kernel, by decide +kernel⟩
  repeats := ⟨['2'], by decide +kernel, by decide +kernel⟩
  tol := .inr ⟨.inl (by decide +kernel), rfl⟩
  init := .inl ⟨"init_zero".toList, by decide +kernel, by decide, by decide +kernel⟩
  scale := .inr ⟨by decide +kernel, rfl⟩

-- a test that returns the code 7 is a success
example : convDriver exDriverSys 0 (1 / 10 ^ 25) ["prog".toList, "ailu".toList, "poisson".toList, "f".toList] (fun _ => .ok 4) (fun _ _ => .ok 7) (fun _ _ => .ok 0) 0 0 = .ok 0 :=
  conv_driver_ignores_code exDriverSys_sound (c := .poisson (some "f".toList)) (bs := 4) (p := exDriverParams) (e := 7) ⟨rfl, _, rfl, rfl⟩ rfl (.inr rfl) exDriver_options rfl rfl

end Blasted
