import Verif.Arith.FlLemmas
import Verif.Arith.MatVecProps

/-!
# Rounding errors of matrix-vector products (C63)
-/

namespace Blasted

open Finset

theorem get0_map [Zero α] [Zero β] (f : α → β) (h0 : f 0 = 0) (l : List α) (i : Nat) : (l.map f)⟦i⟧ = f l⟦i⟧ := by
  by_cases h : i < l.length
  · rw [get0_eq_getElem (by simpa using h), get0_eq_getElem h, List.getElem_map]
  · rw [get0_of_le (by simpa using h), get0_of_le (by omega), h0]

variable {F K : Type} [Zero F] [Add F] [Sub F] [Mul F] [PInvOp F] [Field K] [LinearOrder K]

/-- The matrix that the stored numbers stand for. -/
def Rounding.mat (ρ : Rounding F K) (A : SR F) : SR K := { A with vals := A.vals.map ρ.val }

theorem Rounding.mat_full (ρ : Rounding F K) {A : SR F} {m : Nat} (hA : A.Full m) : (ρ.mat A).Full m where
  ptr_len := hA.ptr_len
  ptr_zero := hA.ptr_zero
  ptr_mono := hA.ptr_mono
  ind_len := hA.ind_len
  val_len := by rw [show (ρ.mat A).vals.length = A.vals.length from List.length_map _]; exact hA.val_len
  end_len := hA.end_len
  end_eq := hA.end_eq
  col_lt := hA.col_lt

theorem Rounding.mat_vals (ρ : Rounding F K) (A : SR F) (p : Nat) : (ρ.mat A).vals⟦p⟧ = ρ.val A.vals⟦p⟧ := get0_map _ ρ.zero _ _

theorem Rounding.mat_row (ρ : Rounding F K) {A : SR F} (hA : A.Full) {i : Nat} (hi : i < A.nbrows) (x : Nat → K) :
    ∑ j ∈ range A.nbrows, (ρ.mat A).entry i j * x j = ∑ p ∈ Ico A.browptr⟦i⟧ A.browptr⟦i + 1⟧, ρ.val A.vals⟦p⟧ * x A.bcolind⟦p⟧ := by
  have h := (ρ.mat_full hA).sum_row hi (fun v j => v * x j) (fun j => zero_mul _) (fun u v j => add_mul _ _ _)
  simp only [ρ.mat_vals] at h
  exact h.symm

variable [IsStrictOrderedRing K] (ρ : Rounding F K)

/-- **C63** `matrix_apply` of a scalar matrix: the error in row `i` is at most `gam u nᵢ` times `∑ |aᵢⱼ| |xⱼ|`, where `nᵢ` is the number of stored entries of the row. -/
theorem csr_apply_rounding {order : List Nat} (A : SR F) (hA : A.Full) (ho : order.Perm (List.range A.nbrows)) (x y : List F) (hx : x.length = A.nbrows) (hy : y.length = A.nbrows) :
    ∃ y', csrApply order A x y = .ok y' ∧ y'.length = A.nbrows ∧ ∀ i < A.nbrows,
      |ρ.val y'⟦i⟧ - ∑ j ∈ range A.nbrows, (ρ.mat A).entry i j * ρ.val x⟦j⟧| ≤
        gam ρ.u (A.browptr⟦i + 1⟧ - A.browptr⟦i⟧) * ∑ p ∈ Ico A.browptr⟦i⟧ A.browptr⟦i + 1⟧, |ρ.val A.vals⟦p⟧| * |ρ.val x⟦A.bcolind⟦p⟧⟧| := by
  obtain ⟨y', h1, h2, h3⟩ := csr_apply_any A hA x y hx hy
  refine ⟨y', h1 _ ho, h2, fun i hi => ?_⟩
  obtain ⟨θ, g1, g2⟩ := dot_fl (ρ := ρ) (fun p => A.vals⟦p⟧) (fun p => x⟦A.bcolind⟦p⟧⟧) (hA.ptr_mono i hi)
  rw [h3 i hi, g2, ρ.mat_row hA hi (fun j => ρ.val x⟦j⟧)]
  refine (abs_sum_fuzz_le ρ.u_nonneg ρ.u_lt_one (fun p _ => g1 p)).trans (le_of_eq ?_)
  simp only [abs_mul]

/-- **C63** `gemv3` of a scalar matrix, `a A x + b y`. -/
theorem csr_gemv3_rounding {order : List Nat} (A : SR F) (hA : A.Full) (ho : order.Perm (List.range A.nbrows)) (a b : F) (x : List F) (yy : Option (List F)) (zz : List F)
    (hx : x.length = A.nbrows) (hyy : ∀ y ∈ yy, y.length = A.nbrows) (hz : zz.length = A.nbrows) :
    ∃ z', csrGemv3 order A a x b yy zz = .ok z' ∧ z'.length = A.nbrows ∧ ∀ i < A.nbrows,
      |ρ.val z'⟦i⟧ - (ρ.val b * ρ.val (yy.getD zz)⟦i⟧ + ρ.val a * ∑ j ∈ range A.nbrows, (ρ.mat A).entry i j * ρ.val x⟦j⟧)| ≤
        gam ρ.u (A.browptr⟦i + 1⟧ - A.browptr⟦i⟧ + 2) *
          (|ρ.val b| * |ρ.val (yy.getD zz)⟦i⟧| + |ρ.val a| * ∑ p ∈ Ico A.browptr⟦i⟧ A.browptr⟦i + 1⟧, |ρ.val A.vals⟦p⟧| * |ρ.val x⟦A.bcolind⟦p⟧⟧|) := by
  obtain ⟨z', h1, h2, h3⟩ := csr_gemv3_any A hA a b x yy zz hx hyy hz
  refine ⟨z', h1 _ ho, h2, fun i hi => ?_⟩
  obtain ⟨η, θ, g0, g1, g2⟩ := addUp_fl (ρ := ρ) (fun p => a * A.vals⟦p⟧ * x⟦A.bcolind⟦p⟧⟧) (b * (yy.getD zz)⟦i⟧) (hA.ptr_mono i hi)
  obtain ⟨δ, hδ, e⟩ := ρ.mul_fl b (yy.getD zz)⟦i⟧
  choose ε hε e' using fun p => ρ.mul_fl a A.vals⟦p⟧
  choose ε' hε' e'' using fun p => ρ.mul_fl (a * A.vals⟦p⟧) x⟦A.bcolind⟦p⟧⟧
  rw [h3 i hi, g2, ρ.mat_row hA hi (fun j => ρ.val x⟦j⟧), mul_sum, mul_sum]
  simp only [e, e', e'']
  have k := abs_add_sum_fuzz_le ρ.u_nonneg ρ.u_lt_one (k := A.browptr⟦i + 1⟧ - A.browptr⟦i⟧ + 2) (c := ρ.val b * ρ.val (yy.getD zz)⟦i⟧) (η := δ * η)
    (s := Ico A.browptr⟦i⟧ A.browptr⟦i + 1⟧) (f := fun p => ρ.val a * (ρ.val A.vals⟦p⟧ * ρ.val x⟦A.bcolind⟦p⟧⟧)) (θ := fun p => ε p * ε' p * θ p)
    ((hδ.mul' g0).mono' (by omega)) (fun p _ => (((hε p).mul' (hε' p)).mul' (g1 p)).mono' (by omega))
  refine le_trans (le_of_eq ?_) (k.trans (le_of_eq ?_))
  · congr 2
    congr 1
    · ring
    · exact sum_congr rfl fun p _ => by ring
  · simp only [abs_mul]

/-- **C63** `matrix_apply` of a block matrix. -/
theorem bsr_apply_rounding {order : List Nat} (stor : Stor) (bs : Nat) (hbs : 0 < bs) (A : SR F) (hA : A.Full (bs * bs)) (ho : order.Perm (List.range A.nbrows)) (x y : List F)
    (hx : x.length = A.nbrows * bs) (hy : y.length = A.nbrows * bs) :
    ∃ y', bsrApply stor bs order A x y = .ok y' ∧ y'.length = A.nbrows * bs ∧ ∀ I < A.nbrows * bs,
      |ρ.val y'⟦I⟧ - ∑ J ∈ range (A.nbrows * bs), (ρ.mat A).bentry stor bs I J * ρ.val x⟦J⟧| ≤
        gam ρ.u (A.browptr⟦I / bs + 1⟧ - A.browptr⟦I / bs⟧ + bs) * ∑ k ∈ Ico A.browptr⟦I / bs⟧ A.browptr⟦I / bs + 1⟧, ∑ b ∈ range bs,
          |ρ.val A.vals⟦k * (bs * bs) + stor.off bs (I % bs) b⟧| * |ρ.val x⟦A.bcolind⟦k⟧ * bs + b⟧| := by
  obtain ⟨y', h1, h2, h3⟩ := bsr_apply_any stor bs hbs A hA x y hx hy
  refine ⟨y', h1 _ ho, h2, fun I hI => ?_⟩
  have hi : I / bs < A.nbrows := Nat.div_lt_of_lt_mul (by rwa [Nat.mul_comm])
  obtain ⟨θ, g1, g2⟩ := addUp_fl_zero (ρ := ρ) (fun jj => dotAny stor bs id A.vals jj x A.bcolind⟦jj⟧ (I % bs)) (hA.ptr_mono _ hi)
  choose η g3 g4 using fun k => dot_fl (ρ := ρ) (fun b => A.vals⟦k * (bs * bs) + stor.off bs (I % bs) b⟧) (fun b => x⟦A.bcolind⟦k⟧ * bs + b⟧) (Nat.zero_le bs)
  have hs := (ρ.mat_full hA).sum_brow (stor := stor) hi (x.map ρ.val) 1
  simp only [get0_map _ ρ.zero, one_mul, ρ.mat_vals] at hs
  have k := abs_sum_fuzz_le ρ.u_nonneg ρ.u_lt_one (k := A.browptr⟦I / bs + 1⟧ - A.browptr⟦I / bs⟧ + bs) (s := Ico A.browptr⟦I / bs⟧ A.browptr⟦I / bs + 1⟧ ×ˢ range bs)
    (f := fun q => ρ.val A.vals⟦q.1 * (bs * bs) + stor.off bs (I % bs) q.2⟧ * ρ.val x⟦A.bcolind⟦q.1⟧ * bs + q.2⟧) (θ := fun q => η q.1 q.2 * θ q.1)
    (fun q _ => ((g3 q.1 q.2).mul' (g1 q.1)).mono' (by omega))
  simp only [sum_product] at k
  refine le_trans (le_of_eq ?_) (k.trans (le_of_eq ?_))
  · rw [h3 I hI, g2, show (∑ J ∈ range (A.nbrows * bs), (ρ.mat A).bentry stor bs I J * ρ.val x⟦J⟧) = _ from hs.symm]
    congr 2
    refine sum_congr rfl fun k _ => ?_
    unfold dotAny
    simp only [id]
    rw [g4 k, sum_mul, range_eq_Ico]
    exact sum_congr rfl fun b _ => by ring
  · simp only [abs_mul]

/-- **C63** `gemv3` of a block matrix. -/
theorem bsr_gemv3_rounding {order : List Nat} (stor : Stor) (bs : Nat) (hbs : 0 < bs) (A : SR F) (hA : A.Full (bs * bs)) (ho : order.Perm (List.range A.nbrows)) (a b : F) (x : List F)
    (yy : Option (List F)) (zz : List F) (hx : x.length = A.nbrows * bs) (hyy : ∀ y ∈ yy, y.length = A.nbrows * bs) (hz : zz.length = A.nbrows * bs) :
    ∃ z', bsrGemv3 stor bs order A a x b yy zz = .ok z' ∧ z'.length = A.nbrows * bs ∧ ∀ I < A.nbrows * bs,
      |ρ.val z'⟦I⟧ - (ρ.val b * ρ.val (yy.getD zz)⟦I⟧ + ρ.val a * ∑ J ∈ range (A.nbrows * bs), (ρ.mat A).bentry stor bs I J * ρ.val x⟦J⟧)| ≤
        gam ρ.u (A.browptr⟦I / bs + 1⟧ - A.browptr⟦I / bs⟧ + bs + 1) * (|ρ.val b| * |ρ.val (yy.getD zz)⟦I⟧| +
          |ρ.val a| * ∑ k ∈ Ico A.browptr⟦I / bs⟧ A.browptr⟦I / bs + 1⟧, ∑ c ∈ range bs,
            |ρ.val A.vals⟦k * (bs * bs) + stor.off bs (I % bs) c⟧| * |ρ.val x⟦A.bcolind⟦k⟧ * bs + c⟧|) := by
  obtain ⟨z', h1, h2, h3⟩ := bsr_gemv3_any stor bs hbs A hA a b x yy zz hx hyy hz
  refine ⟨z', h1 _ ho, h2, fun I hI => ?_⟩
  have hi : I / bs < A.nbrows := Nat.div_lt_of_lt_mul (by rwa [Nat.mul_comm])
  obtain ⟨ζ, θ, g0, g1, g2⟩ := addUp_fl (ρ := ρ) (fun jj => dotAny stor bs (a * ·) A.vals jj x A.bcolind⟦jj⟧ (I % bs)) (b * (yy.getD zz)⟦I⟧) (hA.ptr_mono _ hi)
  choose η g3 g4 using fun k => dot_fl (ρ := ρ) (fun c => a * A.vals⟦k * (bs * bs) + stor.off bs (I % bs) c⟧) (fun c => x⟦A.bcolind⟦k⟧ * bs + c⟧) (Nat.zero_le bs)
  obtain ⟨δ, hδ, e⟩ := ρ.mul_fl b (yy.getD zz)⟦I⟧
  choose ε hε e' using fun p => ρ.mul_fl a A.vals⟦p⟧
  have hs := (ρ.mat_full hA).sum_brow (stor := stor) hi (x.map ρ.val) (ρ.val a)
  simp only [get0_map _ ρ.zero, ρ.mat_vals] at hs
  have k := abs_add_sum_fuzz_le ρ.u_nonneg ρ.u_lt_one (k := A.browptr⟦I / bs + 1⟧ - A.browptr⟦I / bs⟧ + bs + 1) (c := ρ.val b * ρ.val (yy.getD zz)⟦I⟧) (η := δ * ζ)
    (s := Ico A.browptr⟦I / bs⟧ A.browptr⟦I / bs + 1⟧ ×ˢ range bs)
    (f := fun q => ρ.val a * ρ.val A.vals⟦q.1 * (bs * bs) + stor.off bs (I % bs) q.2⟧ * ρ.val x⟦A.bcolind⟦q.1⟧ * bs + q.2⟧)
    (θ := fun q => ε (q.1 * (bs * bs) + stor.off bs (I % bs) q.2) * η q.1 q.2 * θ q.1)
    ((hδ.mul' g0).mono' (by omega)) (fun q _ => (((hε _).mul' (g3 q.1 q.2)).mul' (g1 q.1)).mono' (by omega))
  simp only [sum_product] at k
  refine le_trans (le_of_eq ?_) (k.trans (le_of_eq ?_))
  · rw [h3 I hI, g2, show (ρ.val a * ∑ J ∈ range (A.nbrows * bs), (ρ.mat A).bentry stor bs I J * ρ.val x⟦J⟧) = _ from hs.symm, e]
    congr 2
    congr 1
    · ring
    · refine sum_congr rfl fun k _ => ?_
      unfold dotAny
      rw [g4 k, sum_mul, range_eq_Ico]
      exact sum_congr rfl fun c _ => by rw [e']; ring
  · simp only [abs_mul, mul_sum, mul_assoc]

end Blasted
