import Verif.MatVec.Lemmas
import Mathlib.Algebra.Field.Rat

/-!
# Properties C01-C03: row-oriented matrix-vector products
-/

namespace Blasted
open Finset

variable {K : Type _} [CommRing K]

/-- **C01** `apply` of a CSR matrix returns `A x`, for any order of the rows and any previous content of
`y`; no out-of-bounds access. -/
theorem csr_apply_correct (A : SR K) (hA : A.Full) (x y : List K)
    (hx : x.length = A.nbrows) (hy : y.length = A.nbrows)
    (order : List Nat) (ho : order.Perm (List.range A.nbrows)) :
    ∃ y', csrApply order A x y = .ok y' ∧ y'.length = A.nbrows ∧
      ∀ i < A.nbrows, y'⟦i⟧ = ∑ j ∈ range A.nbrows, A.entry i j * x⟦j⟧ := by
  have hmem : ∀ i, i ∈ order ↔ i < A.nbrows := fun i => by rw [ho.mem_iff, List.mem_range]
  obtain ⟨y', e, hl, h⟩ := forList_par (body := csrApplyRow A x) (y := y)
    (fun i => ∑ j ∈ range A.nbrows, A.entry i j * x⟦j⟧) (ho.nodup_iff.mpr List.nodup_range)
    (fun i hi => by rw [hy]; exact (hmem i).mp hi)
    (fun i hi y' hl _ => csrApplyRow_eq hA hx ((hmem i).mp hi) (by omega))
  refine ⟨y', (parFor_eq ho _ _).trans e, by omega, fun i hi => ?_⟩
  rw [h i (by omega), if_pos ((hmem i).mpr hi)]

/-- **C01**, interleaving form: the assignment statements of different rows may interleave
arbitrarily. -/
theorem csr_apply_interleaved (A : SR K) (hA : A.Full) (x y : List K)
    (hx : x.length = A.nbrows) (hy : y.length = A.nbrows)
    (sched : List (Nat × Option Nat)) (hs : IsInterleaving A sched) :
    ∃ y', forList sched (csrApplyStmt A x) y = .ok y' ∧ y'.length = A.nbrows ∧
      ∀ i < A.nbrows, y'⟦i⟧ = ∑ j ∈ range A.nbrows, A.entry i j * x⟦j⟧ := by
  have key : ∀ e ∈ sched, ∀ jj, e.2 = some jj →
      A.browptr⟦e.1⟧ ≤ jj ∧ jj < A.browptr⟦e.1 + 1⟧ := by
    intro e he jj hjj
    have h1 := hs.2 e.1 (hs.1 e he)
    have h2 : e.2 ∈ rowStmts A e.1 := by
      rw [← h1, List.mem_map]
      exact ⟨e, by simp [he], rfl⟩
    rw [hjj] at h2
    have h3 := hA.ptr_mono e.1 (hs.1 e he)
    simp only [rowStmts, List.mem_cons, reduceCtorEq, List.mem_map, List.mem_range'_1,
      Option.some.injEq, exists_eq_right, false_or] at h2
    omega
  obtain ⟨y', e, hl, h⟩ := forList_interleave (step := csrApplyStmt A x) (y := y)
    (fun _ s v => match s with | none => 0 | some jj => v + A.vals⟦jj⟧ * x⟦A.bcolind⟦jj⟧⟧)
    (fun e he => by rw [hy]; exact hs.1 e he) (by
      rintro ⟨i, s⟩ he y' hl
      have hi := hs.1 _ he
      simp only at hi
      cases s with
      | none => simp only [csrApplyStmt]; rw [wr_eq (by omega)]
      | some jj =>
        have hb := key _ he jj rfl
        have hk := hA.lt_nnz hi hb.2
        have hc := hA.col_lt jj hk
        have h3 := hA.val_len
        have h4 := hA.ind_len
        simp only [csrApplyStmt]
        rw [rd_eq (by omega), ok_bind, rd_eq (by omega), ok_bind, rd_eq (by omega), ok_bind,
          rd_eq (by omega), ok_bind, wr_eq (by omega)])
  refine ⟨y', e, by omega, fun i hi => ?_⟩
  rw [h i (by omega), hs.2 i hi, rowStmts, List.foldl_cons, List.foldl_map, foldl_some_add,
    zero_add, sum_map_range', hA.sum_row hi (fun v j => v * x⟦j⟧) (by simp) (by intros; ring)]

/-- **C03** for CSR: `gemv3` returns `a A x + b y`, whether or not `z` is the same array as `y`. -/
theorem csr_gemv3_correct (A : SR K) (hA : A.Full) (a b : K) (x : List K)
    (yy : Option (List K)) (zz : List K) (hx : x.length = A.nbrows)
    (hyy : ∀ y ∈ yy, y.length = A.nbrows) (hz : zz.length = A.nbrows)
    (order : List Nat) (ho : order.Perm (List.range A.nbrows)) :
    ∃ z', csrGemv3 order A a x b yy zz = .ok z' ∧ z'.length = A.nbrows ∧
      ∀ i < A.nbrows,
        z'⟦i⟧ = a * ∑ j ∈ range A.nbrows, A.entry i j * x⟦j⟧ + b * (yy.getD zz)⟦i⟧ := by
  have hmem : ∀ i, i ∈ order ↔ i < A.nbrows := fun i => by rw [ho.mem_iff, List.mem_range]
  obtain ⟨y', e, hl, h⟩ := forList_par (body := csrGemv3Row A a x b yy) (y := zz)
    (fun i => a * ∑ j ∈ range A.nbrows, A.entry i j * x⟦j⟧ + b * (yy.getD zz)⟦i⟧)
    (ho.nodup_iff.mpr List.nodup_range)
    (fun i hi => by rw [hz]; exact (hmem i).mp hi)
    (fun i hi y' hl hyi => by
      rw [csrGemv3Row_eq hA hx hyy ((hmem i).mp hi) (by omega)]
      cases yy with
      | none => simp only [Option.getD_none]; rw [hyi]
      | some y => rfl)
  refine ⟨y', (parFor_eq ho _ _).trans e, by omega, fun i hi => ?_⟩
  rw [h i (by omega), if_pos ((hmem i).mpr hi)]

/-- **C03** for CSR, interleaving form. -/
theorem csr_gemv3_interleaved (A : SR K) (hA : A.Full) (a b : K) (x : List K)
    (yy : Option (List K)) (zz : List K) (hx : x.length = A.nbrows)
    (hyy : ∀ y ∈ yy, y.length = A.nbrows) (hz : zz.length = A.nbrows)
    (sched : List (Nat × Option Nat)) (hs : IsInterleaving A sched) :
    ∃ z', forList sched (csrGemv3Stmt A a x b yy) zz = .ok z' ∧ z'.length = A.nbrows ∧
      ∀ i < A.nbrows,
        z'⟦i⟧ = a * ∑ j ∈ range A.nbrows, A.entry i j * x⟦j⟧ + b * (yy.getD zz)⟦i⟧ := by
  have key : ∀ e ∈ sched, ∀ jj, e.2 = some jj →
      A.browptr⟦e.1⟧ ≤ jj ∧ jj < A.browptr⟦e.1 + 1⟧ := by
    intro e he jj hjj
    have h1 := hs.2 e.1 (hs.1 e he)
    have h2 : e.2 ∈ rowStmts A e.1 := by
      rw [← h1, List.mem_map]
      exact ⟨e, by simp [he], rfl⟩
    rw [hjj] at h2
    have h3 := hA.ptr_mono e.1 (hs.1 e he)
    simp only [rowStmts, List.mem_cons, reduceCtorEq, List.mem_map, List.mem_range'_1,
      Option.some.injEq, exists_eq_right, false_or] at h2
    omega
  obtain ⟨y', e, hl, h⟩ := forList_interleave (step := csrGemv3Stmt A a x b yy) (y := zz)
    (fun i s v => match s with
      | none => b * (match yy with | none => v | some y => y⟦i⟧)
      | some jj => v + a * A.vals⟦jj⟧ * x⟦A.bcolind⟦jj⟧⟧)
    (fun e he => by rw [hz]; exact hs.1 e he) (by
      rintro ⟨i, s⟩ he y' hl
      have hi := hs.1 _ he
      simp only at hi
      cases s with
      | none =>
        simp only [csrGemv3Stmt]
        cases yy with
        | none => simp only [Option.getD_none]; rw [rd_eq (by omega), ok_bind, wr_eq (by omega)]
        | some y =>
          have := hyy y (by simp)
          simp only [Option.getD_some]; rw [rd_eq (by omega), ok_bind, wr_eq (by omega)]
      | some jj =>
        have hb := key _ he jj rfl
        have hk := hA.lt_nnz hi hb.2
        have hc := hA.col_lt jj hk
        have h3 := hA.val_len
        have h4 := hA.ind_len
        simp only [csrGemv3Stmt]
        rw [rd_eq (by omega), ok_bind, rd_eq (by omega), ok_bind, rd_eq (by omega), ok_bind,
          rd_eq (by omega), ok_bind, wr_eq (by omega)])
  refine ⟨y', e, by omega, fun i hi => ?_⟩
  rw [h i (by omega), hs.2 i hi, rowStmts, List.foldl_cons, List.foldl_map, foldl_some_add,
    sum_map_range', hA.sum_row hi (fun v j => a * v * x⟦j⟧) (by simp) (by intros; ring), mul_sum,
    add_comm]
  cases yy <;> simp [mul_assoc]

/-- **C02** `apply` of a BSR matrix returns `A x` for both block layouts and every block size. -/
theorem bsr_apply_correct (stor : Stor) (bs : Nat) (hbs : 0 < bs) (A : SR K)
    (hA : A.Full (bs * bs)) (x y : List K)
    (hx : x.length = A.nbrows * bs) (hy : y.length = A.nbrows * bs)
    (order : List Nat) (ho : order.Perm (List.range A.nbrows)) :
    ∃ y', bsrApply stor bs order A x y = .ok y' ∧ y'.length = A.nbrows * bs ∧
      ∀ I < A.nbrows * bs,
        y'⟦I⟧ = ∑ J ∈ range (A.nbrows * bs), A.bentry stor bs I J * x⟦J⟧ := by
  have hmem : ∀ i, i ∈ order ↔ i < A.nbrows := fun i => by rw [ho.mem_iff, List.mem_range]
  obtain ⟨y', e, hl, h⟩ := forList_own (body := bsrApplyRow stor bs A x) (y := y) (fun c => c / bs)
    (fun c => ∑ J ∈ range (A.nbrows * bs), A.bentry stor bs c J * x⟦J⟧)
    (ho.nodup_iff.mpr List.nodup_range)
    (by
      intro i hi y' hl _
      have hi := (hmem i).mp hi
      have hp := hA.ptr_len
      have hseg : i * bs + bs ≤ y'.length := by
        rw [hl, hy]
        calc i * bs + bs = (i + 1) * bs := by ring
          _ ≤ _ := Nat.mul_le_mul_right _ hi
      unfold bsrApplyRow
      simp only [show (id : K → K) = (fun v => 1 * v) from funext fun v => (one_mul v).symm]
      refine (seg_update (base := i * bs) (fun _ _ => 0) hseg
        (fun a ha y'' hy'' _ => by rw [wr_eq (by omega)])).bind ?_
      rintro y1 ⟨hl1, h1⟩
      rw [rd_eq (by omega), ok_bind, rd_eq (by omega), ok_bind]
      refine (bsrAcc_ok hbs hA hx hi (by omega)).mono ?_
      rintro y2 ⟨hl2, h2⟩
      refine ⟨by omega, fun c hc => ?_⟩
      rw [h2 c (by omega), h1 c (by omega)]
      by_cases hci : c / bs = i
      · rw [if_pos hci, if_pos hci, if_pos ((div_eq_iff_seg hbs).mp hci), zero_add, one_mul]
      · rw [if_neg hci, if_neg hci, if_neg (mt (div_eq_iff_seg hbs).mpr hci)])
  refine ⟨y', (parFor_eq ho _ _).trans e, by omega, fun I hI => ?_⟩
  rw [h I (by omega), if_pos]
  rw [hmem]
  exact (Nat.div_lt_iff_lt_mul hbs).mpr hI

/-- **C03** for BSR: `gemv3` returns `a A x + b y`, whether or not `z` is the same array as `y`. -/
theorem bsr_gemv3_correct (stor : Stor) (bs : Nat) (hbs : 0 < bs) (A : SR K)
    (hA : A.Full (bs * bs)) (a b : K) (x : List K) (yy : Option (List K)) (zz : List K)
    (hx : x.length = A.nbrows * bs) (hyy : ∀ y ∈ yy, y.length = A.nbrows * bs)
    (hz : zz.length = A.nbrows * bs)
    (order : List Nat) (ho : order.Perm (List.range A.nbrows)) :
    ∃ z', bsrGemv3 stor bs order A a x b yy zz = .ok z' ∧ z'.length = A.nbrows * bs ∧
      ∀ I < A.nbrows * bs,
        z'⟦I⟧ = a * ∑ J ∈ range (A.nbrows * bs), A.bentry stor bs I J * x⟦J⟧
          + b * (yy.getD zz)⟦I⟧ := by
  have hmem : ∀ i, i ∈ order ↔ i < A.nbrows := fun i => by rw [ho.mem_iff, List.mem_range]
  obtain ⟨y', e, hl, h⟩ := forList_own (body := bsrGemv3Row stor bs A a x b yy) (y := zz)
    (fun c => c / bs)
    (fun c => a * ∑ J ∈ range (A.nbrows * bs), A.bentry stor bs c J * x⟦J⟧ + b * (yy.getD zz)⟦c⟧)
    (ho.nodup_iff.mpr List.nodup_range)
    (by
      intro i hi y' hl hown
      have hi := (hmem i).mp hi
      have hp := hA.ptr_len
      have hseg : i * bs + bs ≤ y'.length := by
        rw [hl, hz]
        calc i * bs + bs = (i + 1) * bs := by ring
          _ ≤ _ := Nat.mul_le_mul_right _ hi
      unfold bsrGemv3Row
      refine (seg_update (base := i * bs)
        (fun k v => b * (match yy with | none => v | some y => y⟦i * bs + k⟧)) hseg
        (fun a ha y'' hy'' _ => by
          cases yy with
          | none => simp only [Option.getD_none]; rw [rd_eq (by omega), ok_bind, wr_eq (by omega)]
          | some y =>
            have := hyy y (by simp)
            simp only [Option.getD_some]; rw [rd_eq (by omega), ok_bind, wr_eq (by omega)])).bind ?_
      rintro y1 ⟨hl1, h1⟩
      rw [rd_eq (by omega), ok_bind, rd_eq (by omega), ok_bind]
      refine (bsrAcc_ok hbs hA hx hi (by omega)).mono ?_
      rintro y2 ⟨hl2, h2⟩
      refine ⟨by omega, fun c hc => ?_⟩
      rw [h2 c (by omega), h1 c (by omega)]
      by_cases hci : c / bs = i
      · have hseg' := (div_eq_iff_seg hbs).mp hci
        rw [if_pos hci, if_pos hci, if_pos hseg', add_comm]
        cases yy with
        | none => simp only [Option.getD_none]; rw [hown c hc hci]
        | some y => simp only [Option.getD_some]; rw [show i * bs + (c - i * bs) = c by omega]
      · rw [if_neg hci, if_neg hci, if_neg (mt (div_eq_iff_seg hbs).mpr hci)])
  refine ⟨y', (parFor_eq ho _ _).trans e, by omega, fun I hI => ?_⟩
  rw [h I (by omega), if_pos]
  rw [hmem]
  exact (Nat.div_lt_iff_lt_mul hbs).mpr hI

/-! ### Non-vacuity -/

/-- A 3x3 CSR matrix with an unsorted row and a repeated column index. -/
def exCsr : SR ℚ where
  browptr := [0, 2, 5, 6]
  bcolind := [1, 0, 1, 2, 1, 2]
  vals := [2, 3, 5, 7, 11, 13]
  diagind := [1, 2, 5]
  browendptr := [2, 5, 6]
  nbrows := 3
  nnzb := 6
  nbstored := 6

theorem exCsr_full : exCsr.Full := by
  constructor <;> decide

example : exCsr.Full ∧ [1, 2, 3].length = exCsr.nbrows ∧ [2, 0, 1].Perm (List.range exCsr.nbrows) :=
  ⟨exCsr_full, rfl, by decide⟩

example : csrApply [2, 0, 1] exCsr [1, 10, 100] [9, 9, 9] = .ok [23, 860, 1300] := by
  decide +kernel

/-- The interleaving hypothesis is satisfied by a schedule mixing the three rows. -/
example : IsInterleaving exCsr [(1, none), (0, none), (1, some 2), (0, some 0), (2, none),
    (1, some 3), (2, some 5), (0, some 1), (1, some 4)] := by
  constructor <;> decide

/-- A 2x2 block matrix with 2x2 blocks. -/
def exBsr : SR ℚ where
  browptr := [0, 2, 3]
  bcolind := [0, 1, 1]
  vals := [1, 2, 3, 4, 5, 6, 7, 8, 9, 10, 11, 12]
  diagind := [0, 2]
  browendptr := [2, 3]
  nbrows := 2
  nnzb := 3
  nbstored := 3

theorem exBsr_full : exBsr.Full (2 * 2) := by
  constructor <;> decide

example : bsrApply .rowMajor 2 [1, 0] exBsr [1, 10, 100, 1000] [9, 9, 9, 9]
    = .ok [6521, 8743, 10900, 13100] := by decide +kernel

example : bsrApply .colMajor 2 [1, 0] exBsr [1, 10, 100, 1000] [9, 9, 9, 9]
    = .ok [7531, 8642, 11900, 13000] := by decide +kernel

end Blasted
