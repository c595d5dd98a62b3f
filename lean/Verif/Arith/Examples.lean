import Verif.Arith.SolveProps
import Verif.Arith.MatVecProps
import Verif.Arith.FacProps

/-!
# An arithmetic without laws, and the statements of C62 in it

`Dec2` are decimal numbers with two significant digits and no bound on the exponent, rounded towards zero. Its
addition and multiplication are not associative and multiplication does not distribute over addition, so that none of the theorems about
exact arithmetic says anything about it.
-/

namespace Blasted

/-- `mant * 10 ^ expo`. -/
structure Dec2 where
  mant : Int
  expo : Int
deriving DecidableEq

namespace Dec2

/-- Drop digits until two are left. -/
def chop : Nat → Int → Int → Dec2
  | 0, m, e => ⟨m, e⟩
  | k + 1, m, e => if m.natAbs < 100 then ⟨m, if m = 0 then 0 else e⟩ else chop k (m.tdiv 10) (e + 1)

/-- Round `m * 10 ^ e`. -/
def rnd (m e : Int) : Dec2 := chop 12 m e

/-- The operands written with the same exponent. -/
def align (a b : Dec2) : Int × Int × Int :=
  let e := min a.expo b.expo
  (a.mant * 10 ^ (a.expo - e).toNat, b.mant * 10 ^ (b.expo - e).toNat, e)

instance : Zero Dec2 := ⟨⟨0, 0⟩⟩
instance : One Dec2 := ⟨⟨1, 0⟩⟩
instance : Add Dec2 := ⟨fun a b => let t := align a b; rnd (t.1 + t.2.1) t.2.2⟩
instance : Sub Dec2 := ⟨fun a b => let t := align a b; rnd (t.1 - t.2.1) t.2.2⟩
instance : Mul Dec2 := ⟨fun a b => rnd (a.mant * b.mant) (a.expo + b.expo)⟩

/-- Division, six digits of the quotient being computed before rounding. -/
def quot (a b : Dec2) : C Dec2 :=
  if b.mant = 0 then .error .divzero else .ok (rnd ((a.mant * 1000000).tdiv b.mant) (a.expo - b.expo - 6))

instance : PInvOp Dec2 := ⟨fun b => quot 1 b, quot⟩

/-- An integer as a number of `Dec2`. -/
def of (m : Int) : Dec2 := rnd m 0

/-- Neither associative nor distributive. -/
example : of 99 + of 8 + of 8 ≠ of 99 + (of 8 + of 8) ∧ of 35 * of 3 * of 3 ≠ of 35 * (of 3 * of 3) ∧
    of 35 * (of 3 + of 3) ≠ of 35 * of 3 + of 35 * of 3 := by decide +kernel

end Dec2

open Dec2

/-- A star of four rows, with entries in `Dec2`. -/
def exStarD : SR Dec2 :=
  { browptr := [0, 2, 4, 6, 10], bcolind := [0, 3, 1, 3, 2, 3, 0, 1, 2, 3],
    vals := [of 3, of 17, of 7, of 13, of 9, of 11, of 19, of 23, of 29, of 97], diagind := [0, 2, 4, 9],
    browendptr := [2, 4, 6, 10], nbrows := 4, nnzb := 10, nbstored := 10 }

theorem exStarD_full : exStarD.Full := by constructor <;> decide +kernel
theorem exStarD_sorted : exStarD.Sorted := SR.sorted_of_check (by decide +kernel)
theorem exStarD_diag : exStarD.HasDiag := by constructor <;> decide +kernel

theorem exStarD_levels : LevelsOk exStarD [0, 3, 4] where
  pos := by decide
  zero := rfl
  last := rfl
  mono := exStar_levels.mono
  indep := exStar_levels.indep

/-- The right-hand side of the examples. -/
def exRhsD : List Dec2 := [of 5, of 71, of 37, of 83]

/-- Non-vacuity of `csr_apply_any` and `csr_gemv3_any`; the exact value of the last row is 10852. -/
example : csrApply [2, 0, 3, 1] exStarD exRhsD exRhsD = .ok [⟨14, 2⟩, ⟨14, 2⟩, ⟨12, 2⟩, ⟨10, 3⟩] := by decide +kernel

example : ∃ y', (∀ order, order.Perm (List.range 4) → csrApply order exStarD exRhsD exRhsD = .ok y') ∧ y'.length = 4 :=
  let ⟨y', h, hl, _⟩ := csr_apply_any exStarD exStarD_full exRhsD exRhsD rfl rfl
  ⟨y', h, hl⟩

example : (csrGemv3 [2, 0, 3, 1] exStarD (of 3) exRhsD (of 7) none exRhsD).isOk = true := by decide +kernel

/-- The position lists of the star. -/
theorem exStarD_pos : ∃ pos, computeILUPositions exStarD = .ok pos :=
  let ⟨pos, h, _⟩ := compute_ILU_positions_correct exStarD exStarD_full exStarD_sorted exStarD_diag
  ⟨pos, h⟩

/-- The factors of `exStarD` as computed with two digits. -/
def exFacD : List Dec2 := [⟨3, 0⟩, ⟨17, 0⟩, ⟨7, 0⟩, ⟨13, 0⟩, ⟨9, 0⟩, ⟨11, 0⟩, ⟨63, -1⟩, ⟨32, -1⟩, ⟨32, -1⟩, ⟨-79, 0⟩]

/-- Non-vacuity of `ilu_sweeps_same_bits`: one sweep and three sweeps from different initial values. -/
example : (do let pos ← computeILUPositions exStarD; iluSweeps exStarD (scalarScale? none) pos 1 (List.replicate 10 0)) = .ok exFacD ∧
    (do let pos ← computeILUPositions exStarD; iluSweeps exStarD (scalarScale? none) pos 3 exStarD.vals) = .ok exFacD := by decide +kernel

example : ∀ i < exStarD.nbrows, ∃ w, pinv exFacD⟦exStarD.diagind⟦i⟧⟧ = .ok w := by
  intro i hi
  have hi' : i < 4 := hi
  interval_cases i
  exacts [⟨⟨33, -2⟩, by decide +kernel⟩, ⟨⟨14, -2⟩, by decide +kernel⟩, ⟨⟨11, -2⟩, by decide +kernel⟩, ⟨⟨-12, -3⟩, by decide +kernel⟩]

/-- Non-vacuity of `scalar_ilu_apply_same_bits`: one sweep from zero, two sweeps in another order from another initial value, and the level-scheduled application. -/
example : (scalarIluApply exStarD exFacD none 1 .zero (fun _ => [3, 1, 2, 0]) exRhsD exRhsD exRhsD).map Prod.fst =
      (scalarIluApply exStarD exFacD none 2 .jacobi (fun _ => [0, 1, 3, 2]) exRhsD [0, 0, 0, 0] [0, 0, 0, 0]).map Prod.fst ∧
    (scalarIluApply exStarD exFacD none 1 .zero (fun _ => [3, 1, 2, 0]) exRhsD exRhsD exRhsD).map Prod.fst =
      (levelScalarIluApply exStarD exFacD none [0, 3, 4] (fun _ l => l.reverse) (fun _ l => l) (fun _ => [3, 1, 2, 0]) exRhsD exRhsD exRhsD).map Prod.fst ∧
    ((scalarIluApply exStarD exFacD none 1 .zero (fun _ => [3, 1, 2, 0]) exRhsD exRhsD exRhsD).map Prod.fst).isOk = true := by decide +kernel

/-- Non-vacuity of `sgs_apply_same_bits`. -/
example : ((sgsApply exStarD exRhsD 1 .zero (fun _ => [3, 1, 2, 0]) exRhsD exRhsD exRhsD).map Prod.fst).isOk = true ∧
    (sgsApply exStarD exRhsD 1 .zero (fun _ => [3, 1, 2, 0]) exRhsD exRhsD exRhsD).map Prod.fst =
      (levelSgsApply exStarD exRhsD [0, 3, 4] (fun _ l => l.reverse) (fun _ l => l) exRhsD exRhsD exRhsD).map Prod.fst := by decide +kernel

/-- Non-vacuity of `jacobi_apply_any`. -/
example : (jacobiApply 4 exRhsD [3, 1, 2, 0] exRhsD exRhsD).isOk = true := by decide +kernel

/-- Non-vacuity of `async_ilu_same_bits`: seven asynchronous rounds, in which the entries are updated in reverse order, reach the factors of the sequential sweep. -/
example : (do
    let pos ← computeILUPositions exStarD
    forList (List.range 7) (fun _ x => forList (List.range 10).reverse (fun p x => do
      let v ← iluComp exStarD (scalarScale? none) pos p (rd x)
      wr x p v) x) exStarD.vals) = .ok exFacD := by decide +kernel

end Blasted
