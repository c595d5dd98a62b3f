import Verif.Arith.MatVecLemmas
import Verif.MatVec.Props

/-!
# Products of a matrix and a vector, in an arbitrary arithmetic (C62)

Nothing is assumed about the four operations: they may be those of floating-point numbers, with any rounding. The result is then a fixed expression in the entries of the matrix and of the vectors.
-/

namespace Blasted

variable {K : Type} [Zero K] [Add K] [Mul K]

/-- **C62** `matrix_apply` of a scalar matrix: row `i` is `((0 + a₁ x₁) + a₂ x₂) + …`, in the order in which the row is stored, however the rows are distributed over the threads. -/
theorem csr_apply_any (A : SR K) (hA : A.Full) (x y : List K) (hx : x.length = A.nbrows) (hy : y.length = A.nbrows) :
    ∃ y', (∀ order, order.Perm (List.range A.nbrows) → csrApply order A x y = .ok y') ∧ y'.length = A.nbrows ∧
      ∀ i < A.nbrows, y'⟦i⟧ = addUp (fun p => A.vals⟦p⟧ * x⟦A.bcolind⟦p⟧⟧) A.browptr⟦i⟧ A.browptr⟦i + 1⟧ 0 := by
  have key : ∀ order, order.Perm (List.range A.nbrows) → ∃ y', csrApply order A x y = .ok y' ∧ y'.length = A.nbrows ∧
      ∀ i < A.nbrows, y'⟦i⟧ = addUp (fun p => A.vals⟦p⟧ * x⟦A.bcolind⟦p⟧⟧) A.browptr⟦i⟧ A.browptr⟦i + 1⟧ 0 := by
    intro order ho
    have hmem : ∀ i, i ∈ order ↔ i < A.nbrows := fun i => by rw [ho.mem_iff, List.mem_range]
    obtain ⟨y', e, hl, h⟩ := forList_par (body := csrApplyRow A x) (y := y) _ (ho.nodup_iff.mpr List.nodup_range)
      (fun i hi => by rw [hy]; exact (hmem i).mp hi)
      (fun i hi y' hl _ => csrApplyRow_any hA hx ((hmem i).mp hi) (by omega))
    refine ⟨y', (parFor_eq ho _ _).trans e, by omega, fun i hi => ?_⟩
    rw [h i (by omega), if_pos ((hmem i).mpr hi)]
  obtain ⟨y', h1, h2, h3⟩ := key _ (List.Perm.refl _)
  refine ⟨y', fun order ho => ?_, h2, h3⟩
  obtain ⟨y'', g1, g2, g3⟩ := key order ho
  rw [g1, ext_get0 (g2.trans h2.symm) (fun i hi => by rw [g3 i (by omega), h3 i (by omega)])]

/-- **C62** `gemv3` of a scalar matrix; `yy = none` when the result overwrites the argument `y`. -/
theorem csr_gemv3_any (A : SR K) (hA : A.Full) (a b : K) (x : List K) (yy : Option (List K)) (zz : List K) (hx : x.length = A.nbrows)
    (hyy : ∀ y ∈ yy, y.length = A.nbrows) (hz : zz.length = A.nbrows) :
    ∃ z', (∀ order, order.Perm (List.range A.nbrows) → csrGemv3 order A a x b yy zz = .ok z') ∧ z'.length = A.nbrows ∧
      ∀ i < A.nbrows, z'⟦i⟧ = addUp (fun p => a * A.vals⟦p⟧ * x⟦A.bcolind⟦p⟧⟧) A.browptr⟦i⟧ A.browptr⟦i + 1⟧ (b * (yy.getD zz)⟦i⟧) := by
  have key : ∀ order, order.Perm (List.range A.nbrows) → ∃ z', csrGemv3 order A a x b yy zz = .ok z' ∧ z'.length = A.nbrows ∧
      ∀ i < A.nbrows, z'⟦i⟧ = addUp (fun p => a * A.vals⟦p⟧ * x⟦A.bcolind⟦p⟧⟧) A.browptr⟦i⟧ A.browptr⟦i + 1⟧ (b * (yy.getD zz)⟦i⟧) := by
    intro order ho
    have hmem : ∀ i, i ∈ order ↔ i < A.nbrows := fun i => by rw [ho.mem_iff, List.mem_range]
    obtain ⟨y', e, hl, h⟩ := forList_par (body := csrGemv3Row A a x b yy) (y := zz)
      (fun i => addUp (fun p => a * A.vals⟦p⟧ * x⟦A.bcolind⟦p⟧⟧) A.browptr⟦i⟧ A.browptr⟦i + 1⟧ (b * (yy.getD zz)⟦i⟧)) (ho.nodup_iff.mpr List.nodup_range)
      (fun i hi => by rw [hz]; exact (hmem i).mp hi)
      (fun i hi y' hl hyi => by
        rw [csrGemv3Row_any hA hx hyy ((hmem i).mp hi) (by omega)]
        cases yy with
        | none => simp only [Option.getD_none]; rw [hyi]
        | some y => rfl)
    refine ⟨y', (parFor_eq ho _ _).trans e, by omega, fun i hi => ?_⟩
    rw [h i (by omega), if_pos ((hmem i).mpr hi)]
  obtain ⟨y', h1, h2, h3⟩ := key _ (List.Perm.refl _)
  refine ⟨y', fun order ho => ?_, h2, h3⟩
  obtain ⟨y'', g1, g2, g3⟩ := key order ho
  rw [g1, ext_get0 (g2.trans h2.symm) (fun i hi => by rw [g3 i (by omega), h3 i (by omega)])]

/-- **C62** `matrix_apply` of a block matrix. -/
theorem bsr_apply_any (stor : Stor) (bs : Nat) (hbs : 0 < bs) (A : SR K) (hA : A.Full (bs * bs)) (x y : List K) (hx : x.length = A.nbrows * bs)
    (hy : y.length = A.nbrows * bs) :
    ∃ y', (∀ order, order.Perm (List.range A.nbrows) → bsrApply stor bs order A x y = .ok y') ∧ y'.length = A.nbrows * bs ∧
      ∀ I < A.nbrows * bs, y'⟦I⟧ =
        addUp (fun jj => dotAny stor bs id A.vals jj x A.bcolind⟦jj⟧ (I % bs)) A.browptr⟦I / bs⟧ A.browptr⟦I / bs + 1⟧ 0 := by
  have key : ∀ order, order.Perm (List.range A.nbrows) → ∃ y', bsrApply stor bs order A x y = .ok y' ∧ y'.length = A.nbrows * bs ∧
      ∀ I < A.nbrows * bs, y'⟦I⟧ =
        addUp (fun jj => dotAny stor bs id A.vals jj x A.bcolind⟦jj⟧ (I % bs)) A.browptr⟦I / bs⟧ A.browptr⟦I / bs + 1⟧ 0 := by
    intro order ho
    have hmem : ∀ i, i ∈ order ↔ i < A.nbrows := fun i => by rw [ho.mem_iff, List.mem_range]
    obtain ⟨y', e, hl, h⟩ := forList_own (body := bsrApplyRow stor bs A x) (y := y) (· / bs)
      (fun c => addUp (fun jj => dotAny stor bs id A.vals jj x A.bcolind⟦jj⟧ (c % bs)) A.browptr⟦c / bs⟧ A.browptr⟦c / bs + 1⟧ 0) (ho.nodup_iff.mpr List.nodup_range)
      (fun i hi y' hl _ => (bsrApplyRow_any hbs hA hx ((hmem i).mp hi) (by omega)).mono fun y'' h => ⟨h.1.trans hl, fun c hc => by
        rw [h.2 c (by omega)]
        by_cases hci : c / bs = i
        · rw [if_pos hci, if_pos hci, hci]
        · rw [if_neg hci, if_neg hci]⟩)
    refine ⟨y', (parFor_eq ho _ _).trans e, by omega, fun I hI => ?_⟩
    rw [h I (by omega), if_pos ((hmem _).mpr (Nat.div_lt_of_lt_mul (by rw [Nat.mul_comm]; exact hI)))]
  obtain ⟨y', h1, h2, h3⟩ := key _ (List.Perm.refl _)
  refine ⟨y', fun order ho => ?_, h2, h3⟩
  obtain ⟨y'', g1, g2, g3⟩ := key order ho
  rw [g1, ext_get0 (g2.trans h2.symm) (fun i hi => by rw [g3 i (by omega), h3 i (by omega)])]

/-- **C62** `gemv3` of a block matrix. -/
theorem bsr_gemv3_any (stor : Stor) (bs : Nat) (hbs : 0 < bs) (A : SR K) (hA : A.Full (bs * bs)) (a b : K) (x : List K) (yy : Option (List K))
    (zz : List K) (hx : x.length = A.nbrows * bs) (hyy : ∀ y ∈ yy, y.length = A.nbrows * bs) (hz : zz.length = A.nbrows * bs) :
    ∃ z', (∀ order, order.Perm (List.range A.nbrows) → bsrGemv3 stor bs order A a x b yy zz = .ok z') ∧ z'.length = A.nbrows * bs ∧
      ∀ I < A.nbrows * bs, z'⟦I⟧ =
        addUp (fun jj => dotAny stor bs (a * ·) A.vals jj x A.bcolind⟦jj⟧ (I % bs)) A.browptr⟦I / bs⟧ A.browptr⟦I / bs + 1⟧ (b * (yy.getD zz)⟦I⟧) := by
  have key : ∀ order, order.Perm (List.range A.nbrows) → ∃ y', bsrGemv3 stor bs order A a x b yy zz = .ok y' ∧ y'.length = A.nbrows * bs ∧
      ∀ I < A.nbrows * bs, y'⟦I⟧ =
        addUp (fun jj => dotAny stor bs (a * ·) A.vals jj x A.bcolind⟦jj⟧ (I % bs)) A.browptr⟦I / bs⟧ A.browptr⟦I / bs + 1⟧ (b * (yy.getD zz)⟦I⟧) := by
    intro order ho
    have hmem : ∀ i, i ∈ order ↔ i < A.nbrows := fun i => by rw [ho.mem_iff, List.mem_range]
    obtain ⟨y', e, hl, h⟩ := forList_own (body := bsrGemv3Row stor bs A a x b yy) (y := zz) (· / bs)
      (fun c => addUp (fun jj => dotAny stor bs (a * ·) A.vals jj x A.bcolind⟦jj⟧ (c % bs)) A.browptr⟦c / bs⟧ A.browptr⟦c / bs + 1⟧ (b * (yy.getD zz)⟦c⟧))
      (ho.nodup_iff.mpr List.nodup_range)
      (fun i hi y' hl hown => (bsrGemv3Row_any hbs hA hx hyy ((hmem i).mp hi) (by omega)).mono fun y'' h => ⟨h.1.trans hl, fun c hc => by
        rw [h.2 c (by omega)]
        by_cases hci : c / bs = i
        · rw [if_pos hci, if_pos hci, hci]
          cases yy with
          | none => simp only [Option.getD_none]; rw [hown c hc hci]
          | some y => rfl
        · rw [if_neg hci, if_neg hci]⟩)
    refine ⟨y', (parFor_eq ho _ _).trans e, by omega, fun I hI => ?_⟩
    rw [h I (by omega), if_pos ((hmem _).mpr (Nat.div_lt_of_lt_mul (by rw [Nat.mul_comm]; exact hI)))]
  obtain ⟨y', h1, h2, h3⟩ := key _ (List.Perm.refl _)
  refine ⟨y', fun order ho => ?_, h2, h3⟩
  obtain ⟨y'', g1, g2, g3⟩ := key order ho
  rw [g1, ext_get0 (g2.trans h2.symm) (fun i hi => by rw [g3 i (by omega), h3 i (by omega)])]

end Blasted
