import Verif.ILU.NoscaleModel
import Verif.Solve.DomProps

/-!
# The factorization without scaling
-/

namespace Blasted
open Finset

variable {K : Type} [Field K] [LinearOrder K]

omit [LinearOrder K] in
theorem noscaleFactInit_eq [DecidableEq K] (A : SR K) (ft : FactInit) (ord ordc : List Nat) (ilu : List K) : noscaleFactInit A ft ord ordc ilu = scalarFactInit A ft none ord ordc ilu := by
  cases ft <;> rfl

/-- **C93** The factorization without scaling is the general factorization without a scaling vector. -/
theorem noscale_factorize_agrees (isq : K → K) (A : SR K) (pos : ILUPos) (k : Nat) (ft : FactInit) (ord ordc : List Nat) (ilu : List K) :
    scalarIlu0Factorize isq A pos k ft false ord ordc ilu none = (do let u ← scalarIlu0FactorizeNoscale A pos k ft ord ordc ilu; .ok (none, u, none)) := by
  unfold scalarIlu0Factorize scalarIlu0FactorizeNoscale
  rw [noscaleFactInit_eq]
  simp only [updScale, ok_bind]
  cases h : scalarFactInit A ft none ord ordc ilu with
  | error e => rfl
  | ok ilu1 =>
    simp only [ok_bind, resIf]
    have e : (scalarScale? (none : Option (List K)) : Nat → Nat → K → Except Fail K) = noScale := rfl
    rw [e]
    cases h : iluSweeps A noScale pos k ilu1 <;> rfl

omit [LinearOrder K] in
theorem scaledEntry_false (isq : K → K) (A : SR K) : scaledEntry isq false A = A.entry := by
  funext i j
  unfold scaledEntry scaleFac
  simp

/-- **C93** The factorization without scaling leaves the exact ILU(0) factors of the matrix, with invertible pivots where they are divided by, whatever the initialisation, the previous contents of the
array and the number of sweeps. -/
theorem noscale_factorize_exact {A : SR K} (hA : A.Full) (hS : A.Sorted) (hD : A.HasDiag) {pos : ILUPos} (hpos : ILUPosOk A pos) {k : Nat} (hk : 1 ≤ k) {ft : FactInit} {ord ordc : List Nat}
    {ilu u : List K} (hl : ilu.length = A.browptr⟦A.nbrows⟧) (h : scalarIlu0FactorizeNoscale A pos k ft ord ordc ilu = .ok u) :
    u.length = A.browptr⟦A.nbrows⟧ ∧ ExactILU A A.entry u ∧ UsedPivotsOk A u := by
  have hsc : ScaleIs (fun x : K => x) false A none := rfl
  unfold scalarIlu0FactorizeNoscale at h
  rw [noscaleFactInit_eq] at h
  cases h1 : scalarFactInit A ft none ord ordc ilu with
  | error e => rw [h1] at h; cases h
  | ok ilu1 =>
    rw [h1, ok_bind] at h
    have hl1 := scalarFactInit_post A ft none ord ordc hl ilu1 h1
    obtain ⟨h6, h7⟩ := iluSweeps_sound hA hS hD hpos (hsc.scalOk hA hS) hk hl1 h
    refine ⟨h6, ?_, fun i hi p hp hlt => ?_⟩
    · rw [← scaledEntry_false (fun x : K => x) A, exact_iff_pos hA]
      exact fun p hp => (h7 p hp).1
    · have := (h7 p (hA.lt_nnz hi hp.2)).2
      rw [hA.rowOf_eq hi hp] at this
      exact this hlt

/-- **C93** For a (weighted) strictly diagonally dominant matrix the factorization without scaling does not break down, whatever the initialisation, the previous contents of the array, the number of
sweeps and the order of the parallel loops; and the result does not depend on any of these. -/
theorem noscale_factorize_dominant [IsStrictOrderedRing K] {A : SR K} (hA : A.Full) (hS : A.Sorted) (hD : A.HasDiag) {pos : ILUPos} (hpos : computeILUPositions A = .ok pos)
    {d : Nat → K} {rho : K} (hdom : WDominant A.nbrows A.entry d rho) (h1 : rho < 1) :
    ∃ u : List K, u.length = A.browptr⟦A.nbrows⟧ ∧ ExactILU A A.entry u ∧ PivotsOk A u ∧
      ∀ (k : Nat) (ft : FactInit) (ord ordc : List Nat) (ilu : List K), 1 ≤ k → ord.Perm (List.range A.nbrows) → ordc.Perm (List.range A.browptr⟦A.nbrows⟧) →
        ilu.length = A.browptr⟦A.nbrows⟧ → scalarIlu0FactorizeNoscale A pos k ft ord ordc ilu = .ok u := by
  obtain ⟨pos', e, hpos'⟩ := compute_ILU_positions_correct A hA hS hD
  rw [hpos] at e
  cases e
  obtain ⟨u, hl, hex, hp⟩ := exists_exact_ilu hA hS hD hpos' hdom h1
  refine ⟨u, hl, hex, hp, fun k ft ord ordc ilu hk ho hoc hi => ?_⟩
  have hsc : ScaleIs (fun x : K => x) false A none := rfl
  have hc : CompSetting false A ord ordc ilu (List.replicate A.nbrows 0) (List.replicate A.nbrows 0) ({} : ILUState K K) :=
    ⟨hA, hS, hD, ho, hoc, hi, by simp, by simp, .inl rfl⟩
  obtain ⟨ilu1, e1, hl1⟩ := scalarFactInit_ok (isq := fun x : K => x) (conf := ⟨false, k, ft, false⟩)
    hc (.inr ⟨rfl, hdom.diag⟩) hsc hi
  unfold scalarIlu0FactorizeNoscale
  rw [noscaleFactInit_eq, e1, ok_bind]
  refine iluSweeps_complete hA hS hD hpos' (hsc.scalOk hA hS) hk hl1 hl fun p hq => ?_
  have := (exact_iff_pos (S := scaledEntry (fun x : K => x) false A) hA).mp (by rw [scaledEntry_false]; exact hex) p hq
  exact ⟨this, fun hlt => hp _ (by have := (hA.rowOf_spec hq).1; omega)⟩

/-- The theorems apply to a matrix with fill outside the pattern: three runs from different initial contents, orders and numbers of sweeps give the same exact factors. -/
example : ∃ pos u, computeILUPositions exM = .ok pos ∧ ExactILU exM exM.entry u ∧
    scalarIlu0FactorizeNoscale exM pos 1 .zero [2, 0, 1, 3] (List.range 12).reverse (List.replicate 12 7) = .ok u ∧
    scalarIlu0FactorizeNoscale exM pos 5 .sgs [3, 2, 1, 0] (List.range 12) (List.replicate 12 0) = .ok u ∧
    scalarIlu0FactorizeNoscale exM pos 2 .none [0, 1, 2, 3] (List.range 12) (List.replicate 12 (-3)) = .ok u := by
  have hc := exM_setting false
  obtain ⟨pos, hpos, -⟩ := compute_ILU_positions_correct exM hc.full hc.sorted hc.diag
  obtain ⟨u, hl, hex, hp, h⟩ := noscale_factorize_dominant hc.full hc.sorted hc.diag hpos exM_dominant (by norm_num)
  refine ⟨pos, u, hpos, hex, h _ _ _ _ _ ?_ ?_ ?_ ?_, h _ _ _ _ _ ?_ ?_ ?_ ?_, h _ _ _ _ _ ?_ ?_ ?_ ?_⟩ <;> decide +kernel

end Blasted
