import Verif.Arith.FlSolveProps
import Verif.Arith.FacProps

/-!
# Rounding errors of the scalar ILU(0) factorization (C65)
-/

namespace Blasted

open Finset

section
variable {V : Type} {A : SR V} {m : Nat} {pos : ILUPos}

/-- The list of positions of an entry is not longer than the part of its row left of the diagonal. -/
theorem ILUPosOk.count_le (hS : A.Sorted) (hD : A.HasDiag) (hpos : ILUPosOk A pos) {i p : Nat} (hi : i < A.nbrows) (hp : A.InRow i p) :
    pos.posptr⟦p + 1⟧ - pos.posptr⟦p⟧ ≤ A.diagind⟦i⟧ - A.browptr⟦i⟧ := by
  have key : ∀ d, pos.posptr⟦p⟧ + d < pos.posptr⟦p + 1⟧ → A.browptr⟦i⟧ + d ≤ pos.lowerp⟦pos.posptr⟦p⟧ + d⟧ := by
    intro d
    induction d with
    | zero =>
      intro h
      obtain ⟨k, _, h2, _⟩ := hpos.sound i hi p hp _ (Nat.le_add_right _ 0) h
      exact h2.1
    | succ d ih =>
      intro h
      have h1 := ih (by omega)
      obtain ⟨_, _, a, _⟩ := hpos.sound i hi p hp (pos.posptr⟦p⟧ + d) (by omega) (by omega)
      obtain ⟨_, _, b, _⟩ := hpos.sound i hi p hp (pos.posptr⟦p⟧ + (d + 1)) (by omega) h
      have := hpos.incr i hi p hp (pos.posptr⟦p⟧ + d) (pos.posptr⟦p⟧ + (d + 1)) (by omega) (by omega) h
      rw [hS.lt_iff hi a b] at this
      omega
  by_contra hc
  obtain ⟨k, h1, h2, h3, _⟩ := hpos.sound i hi p hp (pos.posptr⟦p⟧ + (A.diagind⟦i⟧ - A.browptr⟦i⟧)) (by omega) (by omega)
  have h4 := key (A.diagind⟦i⟧ - A.browptr⟦i⟧) (by omega)
  have h5 : A.bcolind⟦pos.lowerp⟦pos.posptr⟦p⟧ + (A.diagind⟦i⟧ - A.browptr⟦i⟧)⟧⟧ < A.bcolind⟦A.diagind⟦i⟧⟧ := by
    rw [h3, hD.diag_col i hi]; omega
  rw [hS.lt_iff hi h2 (hD.inRow hi)] at h5
  have := hD.diag_ge i hi
  omega

variable {K : Type} [Field K] [LinearOrder K] [IsStrictOrderedRing K]

theorem abs_facEntry (hA : A.Full m) (hS : A.Sorted) {u : List K} (hl : u.length = A.browptr⟦A.nbrows⟧) {i j : Nat} (hi : i < A.nbrows) :
    |facEntry A u i j| = facEntry A (u.map abs) i j := by
  have hl' : (u.map abs).length = A.browptr⟦A.nbrows⟧ := by simpa using hl
  by_cases h : Nbr A i j
  · obtain ⟨p, hp, rfl⟩ := h
    rw [facEntry_stored hA hS hl hi hp, facEntry_stored hA hS hl' hi hp, get0_map _ abs_zero]
  · rw [facEntry_eq_zero hA hl hi h, facEntry_eq_zero hA hl' hi h, abs_zero]

/-- The product of the matrices of absolute values. -/
theorem abs_luProd (hA : A.Full m) (hS : A.Sorted) {u : List K} (hl : u.length = A.browptr⟦A.nbrows⟧) {i j : Nat} (hi : i < A.nbrows) :
    ∑ q ∈ range A.nbrows, |lowerFactor A u i q| * |upperFactor A u q j| = luProd A (u.map abs) i j := by
  unfold luProd
  refine sum_congr rfl fun q hq => ?_
  rw [mem_range] at hq
  congr 1
  · unfold lowerFactor
    split
    · exact abs_facEntry hA hS hl hi
    · split <;> simp
  · unfold upperFactor
    split
    · exact abs_facEntry hA hS hl hq
    · simp

end

variable {F K : Type} [Zero F] [Add F] [Sub F] [Mul F] [PInvOp F] [Field K] [LinearOrder K] [IsStrictOrderedRing K] (ρ : Rounding F K)

/-- The rounded scaling of an entry. -/
theorem scalarScale_fl {scale : Option (List F)} {n : Nat} (hs : ScaleLen scale n) {i j : Nat} (hi : i < n) (hj : j < n) (v : F) :
    ∃ T θ, scalarScale? scale i j v = .ok T ∧ Fuzz ρ.u 2 θ ∧
      ρ.val T = ρ.val v * scaleAt (scale.map (List.map ρ.val)) i * scaleAt (scale.map (List.map ρ.val)) j * θ := by
  cases scale with
  | none => exact ⟨v, 1, rfl, ρ.one 2, by simp [scaleAt]⟩
  | some s =>
    have := hs s rfl
    obtain ⟨δ, h1, h2⟩ := ρ.mul_fl v s⟦i⟧
    obtain ⟨ε, h3, h4⟩ := ρ.mul_fl (v * s⟦i⟧) s⟦j⟧
    refine ⟨v * s⟦i⟧ * s⟦j⟧, δ * ε, ?_, h1.mul' h3, ?_⟩
    · show scalarScale s i j v = _
      unfold scalarScale
      rw [rd_eq (by omega), ok_bind, rd_eq (by omega), ok_bind]
    · show _ = ρ.val v * (s.map ρ.val)⟦i⟧ * (s.map ρ.val)⟦j⟧ * (δ * ε)
      rw [h4, h2, get0_map _ ρ.zero, get0_map _ ρ.zero]
      ring

/-- **C65** At every stored position, the product of the computed factors differs from the (scaled) matrix by at most `gam u (k+2)` times the product of the absolute values of the factors, where `k` bounds
the number of entries of a row. -/
theorem scalar_ilu_rounding {A : SR F} (hA : A.Full) (hS : A.Sorted) (hD : A.HasDiag) {pos : ILUPos} (hpos : computeILUPositions A = .ok pos) {scale : Option (List F)}
    (hs : ScaleLen scale A.nbrows) {ks : Nat} (hks : 1 ≤ ks) {x₀ ilu : List F} (hl : x₀.length = A.browptr⟦A.nbrows⟧) (hseq : iluSweeps A (scalarScale? scale) pos ks x₀ = .ok ilu)
    {k : Nat} (hk : ∀ i < A.nbrows, A.browptr⟦i + 1⟧ - A.browptr⟦i⟧ ≤ k) {i p : Nat} (hi : i < A.nbrows) (hp : A.InRow i p) :
    |luProd A (ilu.map ρ.val) i A.bcolind⟦p⟧ -
        (ρ.mat A).entry i A.bcolind⟦p⟧ * scaleAt (scale.map (List.map ρ.val)) i * scaleAt (scale.map (List.map ρ.val)) A.bcolind⟦p⟧| ≤
      gam ρ.u (k + 2) * ∑ q ∈ range A.nbrows, |lowerFactor A (ilu.map ρ.val) i q| * |upperFactor A (ilu.map ρ.val) q A.bcolind⟦p⟧| := by
  obtain ⟨pos', h1, hposOk⟩ := compute_ILU_positions_correct A hA hS hD
  rw [hpos] at h1; cases h1
  obtain ⟨hle, hfix⟩ := iluSweeps_fixed hA hS hD hposOk hks hl hseq
  have hpn := hA.lt_nnz hi hp.2
  have hj := hA.col_lt p hpn
  have hl' : (ilu.map ρ.val).length = A.browptr⟦A.nbrows⟧ := by simpa using hle
  have hl'' : ((ilu.map ρ.val).map abs).length = A.browptr⟦A.nbrows⟧ := by simpa using hle
  have hent : (ρ.mat A).entry i A.bcolind⟦p⟧ = ρ.val A.vals⟦p⟧ := by
    have := (ρ.mat_full hA).entry_stored (A := ρ.mat A) hS hi hp
    rwa [ρ.mat_vals] at this
  obtain ⟨T, τ, hT, hτ, eT⟩ := scalarScale_fl ρ hs hi hj A.vals⟦p⟧
  have hcomp := hfix p hpn
  unfold iluComp at hcomp
  rw [hA.rowOf_eq hi hp, iluUpd_any (g := get0 ilu) hA hS hD hposOk hi hp hT (fun q hq => rd_eq (by omega))] at hcomp
  have hcount := hposOk.count_le hS hD hi hp
  have hdl := hD.diag_lt i hi
  have hdg := hD.diag_ge i hi
  have hki := hk i hi
  obtain ⟨φ, θ, f1, f2, f3⟩ := subUp_fl (ρ := ρ) (fun t => ilu⟦pos.lowerp⟦t⟧⟧) (fun t => ilu⟦pos.upperp⟦t⟧⟧) T (hposOk.ptr_mono p hpn)
  set sub := subUp (fun t => ilu⟦pos.lowerp⟦t⟧⟧ * ilu⟦pos.upperp⟦t⟧⟧) pos.posptr⟦p⟧ pos.posptr⟦p + 1⟧ T with hsub
  -- the last step, as a product
  set E : K := if A.bcolind⟦p⟧ < i then ρ.val ilu⟦p⟧ * ρ.val ilu⟦A.diagind⟦A.bcolind⟦p⟧⟧⟧ else ρ.val ilu⟦p⟧ with hE
  obtain ⟨ψ, hψ, eψ⟩ : ∃ ψ, Fuzz ρ.u 1 ψ ∧ ρ.val sub = E * ψ := by
    unfold facAny at hcomp
    by_cases hc : A.bcolind⟦p⟧ < i
    · rw [if_pos hc] at hcomp
      obtain ⟨δ, g1, g2, g3⟩ := Rounding.div_fl (ρ := ρ) hcomp
      refine ⟨δ⁻¹, g1.inv', ?_⟩
      have n1 := g1.ne'
      rw [hE, if_pos hc, g3, ← hsub]
      field_simp
    · rw [if_neg hc] at hcomp
      injection hcomp with e
      exact ⟨1, ρ.one 1, by rw [hE, if_neg hc, mul_one, hsub, ← e]⟩
  have hτ0 := hτ.ne'
  rw [eψ, eT] at f3
  have hX : ρ.val A.vals⟦p⟧ * scaleAt (scale.map (List.map ρ.val)) i * scaleAt (scale.map (List.map ρ.val)) A.bcolind⟦p⟧ =
      E * (ψ * φ * τ⁻¹) + ∑ t ∈ Ico pos.posptr⟦p⟧ pos.posptr⟦p + 1⟧, ρ.val ilu⟦pos.lowerp⟦t⟧⟧ * ρ.val ilu⟦pos.upperp⟦t⟧⟧ * (θ t * τ⁻¹) := by
    have e2 : ∑ t ∈ Ico pos.posptr⟦p⟧ pos.posptr⟦p + 1⟧, ρ.val ilu⟦pos.lowerp⟦t⟧⟧ * ρ.val ilu⟦pos.upperp⟦t⟧⟧ * (θ t * τ⁻¹) =
        (∑ t ∈ Ico pos.posptr⟦p⟧ pos.posptr⟦p + 1⟧, ρ.val ilu⟦pos.lowerp⟦t⟧⟧ * ρ.val ilu⟦pos.upperp⟦t⟧⟧ * θ t) * τ⁻¹ := by
      rw [sum_mul]; exact sum_congr rfl fun t _ => by ring
    rw [e2, show E * (ψ * φ * τ⁻¹) = E * ψ * φ * τ⁻¹ by ring, ← add_mul, ← f3]
    field_simp
  have key := abs_add_sum_fuzz_le ρ.u_nonneg ρ.u_lt_one (k := k + 2) (c := E) (η := ψ * φ * τ⁻¹) (s := Ico pos.posptr⟦p⟧ pos.posptr⟦p + 1⟧)
    (f := fun t => ρ.val ilu⟦pos.lowerp⟦t⟧⟧ * ρ.val ilu⟦pos.upperp⟦t⟧⟧) (θ := fun t => θ t * τ⁻¹)
    (((hψ.mul' f1).mul' hτ.inv').mono' (by omega)) (fun t _ => ((f2 t).mul' hτ.inv').mono' (by omega))
  rw [← hX] at key
  rw [hent, abs_luProd hA hS hl' hi, luProd_eq hA hS hD hposOk hl' hi hp, luProd_eq hA hS hD hposOk hl'' hi hp, abs_sub_comm]
  unfold posSum
  simp only [get0_map _ ρ.zero, get0_map _ abs_zero]
  rw [add_comm (∑ t ∈ _, _) (ite _ _ _), add_comm (∑ t ∈ _, _) (ite _ _ _)]
  refine key.trans (le_of_eq ?_)
  rw [hE]
  congr 2
  · split
    · rw [abs_mul]
    · rfl
  · exact sum_congr rfl fun t _ => abs_mul _ _

/-- **C65** The same for the asynchronous factorization with `2n - 1` or more rounds. -/
theorem async_scalar_ilu_rounding {A : SR F} (hA : A.Full) (hS : A.Sorted) (hD : A.HasDiag) {pos : ILUPos} (hpos : computeILUPositions A = .ok pos) {scale : Option (List F)}
    (hs : ScaleLen scale A.nbrows) {mix : Set F → Set F} (hm : MixOk mix) {ks : Nat} (hks : 1 ≤ ks) {x₀ ilu : List F} (hl : x₀.length = A.browptr⟦A.nbrows⟧)
    (hseq : iluSweeps A (scalarScale? scale) pos ks x₀ = .ok ilu) {x : List F} (hx : x.length = A.browptr⟦A.nbrows⟧) {rounds : Nat} (hr : 2 * A.nbrows - 1 ≤ rounds)
    {log last : List (Nat × F)} (h : ARounds (iluComp A (scalarScale? scale) pos) mix x rounds log last)
    {k : Nat} (hk : ∀ i < A.nbrows, A.browptr⟦i + 1⟧ - A.browptr⟦i⟧ ≤ k) {i p : Nat} (hi : i < A.nbrows) (hp : A.InRow i p) :
    |luProd A ((applyLog x log).map ρ.val) i A.bcolind⟦p⟧ -
        (ρ.mat A).entry i A.bcolind⟦p⟧ * scaleAt (scale.map (List.map ρ.val)) i * scaleAt (scale.map (List.map ρ.val)) A.bcolind⟦p⟧| ≤
      gam ρ.u (k + 2) * ∑ q ∈ range A.nbrows, |lowerFactor A ((applyLog x log).map ρ.val) i q| * |upperFactor A ((applyLog x log).map ρ.val) q A.bcolind⟦p⟧| := by
  rw [async_ilu_same_bits hm hA hS hD hpos hks hl hseq hx hr h]
  exact scalar_ilu_rounding ρ hA hS hD hpos hs hks hl hseq hk hi hp

end Blasted
