import Verif.ILU.Spec
import Verif.Algo.Props
import Verif.Transpose.Props

/-!
# Correctness of the ILU(0) position lists
-/

namespace Blasted

open Finset

variable {V σ : Type}

theorem innerSearch_find (a : List Nat) (st en x : Nat) (h1 : st ≤ en) (h2 : en ≤ a.length) :
    innerSearch a st en x (-1) = .ok (match (List.range' st (en - st)).find? (fun q => a⟦q⟧ == x) with
      | some q => (q : Int)
      | none => -1) := by
  rcases inner_search_correct a st en x (-1) h1 h2 with ⟨p, e, h3, h4, h5, h6⟩ | ⟨e, h⟩
  · have : (List.range' st (en - st)).find? (fun q => a⟦q⟧ == x) = some p := by
      rw [List.find?_range'_eq_some]
      refine ⟨by simp [h5], by rw [List.mem_range'_1]; omega, fun j hj hjp => ?_⟩
      simpa using h6 j hj hjp
    rw [this, e]
  · have : (List.range' st (en - st)).find? (fun q => a⟦q⟧ == x) = none := by
      rw [List.find?_eq_none]
      intro q hq
      rw [List.mem_range'_1] at hq
      simpa using h q hq.1 (by omega)
    rw [this, e]

/-- The pairs of positions for entry `p`. -/
def SR.iluPairs (A : SR V) (p : Nat) : List (Nat × Nat) :=
  let i := A.rowOf p
  let c := if A.bcolind⟦p⟧ < i then p else A.diagind⟦i⟧
  (List.range' A.browptr⟦i⟧ (c - A.browptr⟦i⟧)).filterMap fun k =>
    ((List.range' A.diagind⟦A.bcolind⟦k⟧⟧
      (A.browptr⟦A.bcolind⟦k⟧ + 1⟧ - A.diagind⟦A.bcolind⟦k⟧⟧)).find?
        (fun q => A.bcolind⟦q⟧ == A.bcolind⟦p⟧)).map fun q => (k, q)

theorem forList_filterMap {ι κ : Type} (l : List ι) (g : ι → Option κ) (body : κ → σ → C σ) (s : σ) :
    forList (l.filterMap g) body s = forList l (fun i s => (g i).elim (.ok s) (fun e => body e s)) s := by
  induction l generalizing s with
  | nil => rfl
  | cons i l ih =>
    rw [List.filterMap_cons, forList_cons]
    cases g i with
    | none => exact ih s
    | some e =>
      simp only [forList_cons]
      congr 1; funext s'; exact ih s'

/-- The search loops visit exactly the pairs. -/
theorem iluScan_eq {A : SR V} {m : Nat} (hA : A.Full m) (hS : A.Sorted) (hD : A.HasDiag) {p : Nat}
    (hp : p < A.browptr⟦A.nbrows⟧) (found : Nat → Int → σ → C σ)
    (hf : ∀ k s, found k (-1) s = .ok s) (s : σ) :
    iluScan A (A.rowOf p) p found s =
      forList (A.iluPairs p) (fun e => found e.1 (e.2 : Int)) s := by
  obtain ⟨hi, hrow⟩ := hA.rowOf_spec hp
  unfold SR.iluPairs iluScan
  generalize A.rowOf p = i at hi hrow
  have h1 := hA.ptr_len
  have h2 := hA.ind_len
  have h3 := hD.diag_len
  rw [forList_filterMap, rd_eq (by omega), ok_bind, rd_eq (by omega), ok_bind, rd_eq (by omega), ok_bind]
  dsimp only
  have hcj := hA.col_lt p hp
  have hdr := hD.inRow hi
  have hdc := hD.diag_col i hi
  have key : ∀ c, A.browptr⟦i⟧ ≤ c → c ≤ A.browptr⟦i + 1⟧ → ∀ s,
      forRange A.browptr⟦i⟧ c (fun k s => do
        let ck ← rd A.bcolind k
        let st ← rd A.diagind ck
        let en ← rd A.browptr (ck + 1)
        let ipos ← innerSearch A.bcolind st en A.bcolind⟦p⟧ (-1)
        found k ipos s) s =
      forList (List.range' A.browptr⟦i⟧ (c - A.browptr⟦i⟧)) (fun k s =>
        (((List.range' A.diagind⟦A.bcolind⟦k⟧⟧
          (A.browptr⟦A.bcolind⟦k⟧ + 1⟧ - A.diagind⟦A.bcolind⟦k⟧⟧)).find?
            (fun q => A.bcolind⟦q⟧ == A.bcolind⟦p⟧)).map fun q => (k, q)).elim (.ok s)
          (fun e => found e.1 (e.2 : Int) s)) s := by
    intro c hc1 hc2 s
    unfold forRange
    refine forList_congr fun k hk s => ?_
    rw [List.mem_range'_1] at hk
    have hkn : k < A.browptr⟦A.nbrows⟧ := hA.lt_nnz hi (by omega)
    have hck := hA.col_lt k hkn
    have hen := hD.diag_lt _ hck
    have hle := hA.ptr_le (i := A.bcolind⟦k⟧ + 1) (j := A.nbrows) hck (Nat.le_refl _)
    rw [rd_eq (by omega), ok_bind, rd_eq (by omega), ok_bind, rd_eq (by omega), ok_bind,
      innerSearch_find _ _ _ _ (by omega) (by omega), ok_bind]
    cases (List.range' A.diagind⟦A.bcolind⟦k⟧⟧
          (A.browptr⟦A.bcolind⟦k⟧ + 1⟧ - A.diagind⟦A.bcolind⟦k⟧⟧)).find?
            (fun q => A.bcolind⟦q⟧ == A.bcolind⟦p⟧) with
    | none => exact hf k s
    | some q => rfl
  by_cases hlow : A.bcolind⟦p⟧ < i
  · rw [if_pos hlow, if_pos hlow]
    rw [forWhile_eq (c := p) hrow.1 (by have := hrow.2; omega)]
    · exact key p hrow.1 (by have := hrow.2; omega) s
    · intro k hk1 hk2
      have hkr : A.InRow i k := ⟨hk1, by have := hrow.2; omega⟩
      have := (hS.lt_iff hi hkr hrow).mpr hk2
      rw [rd_eq (by omega), ok_bind]
      simp [this]
    · intro _
      rw [rd_eq (by omega), ok_bind]
      simp
  · rw [if_neg hlow, if_neg hlow]
    rw [forWhile_eq (c := A.diagind⟦i⟧) hdr.1 (by have := hdr.2; omega)]
    · exact key _ hdr.1 (by have := hdr.2; omega) s
    · intro k hk1 hk2
      have hkr : A.InRow i k := ⟨hk1, by have := hdr.2; omega⟩
      have h4 := (hS.lt_iff hi hkr hdr).mpr hk2
      have h5 := hA.lt_nnz hi hkr.2
      rw [hdc] at h4
      rw [rd_eq (by omega), ok_bind]
      simp [h4]
    · intro _
      have h5 := hA.lt_nnz hi hdr.2
      rw [rd_eq (by omega), ok_bind, hdc]
      simp

/-- Pairs are what the property says. -/
theorem mem_iluPairs {A : SR V} {m : Nat} (hA : A.Full m) (hS : A.Sorted) (hD : A.HasDiag) {i p a b : Nat}
    (hi : i < A.nbrows) (hp : A.InRow i p) :
    (a, b) ∈ A.iluPairs p ↔ A.InRow i a ∧ A.bcolind⟦a⟧ < min i A.bcolind⟦p⟧ ∧
      A.InRow A.bcolind⟦a⟧ b ∧ A.bcolind⟦b⟧ = A.bcolind⟦p⟧ := by
  unfold SR.iluPairs
  rw [hA.rowOf_eq hi hp]
  have hdr := hD.inRow hi
  have hdc := hD.diag_col i hi
  simp only [List.mem_filterMap, List.mem_range'_1, Option.map_eq_some_iff, Prod.mk.injEq]
  -- bound of the outer loop
  have hc : ∀ k, A.InRow i k → (k < (if A.bcolind⟦p⟧ < i then p else A.diagind⟦i⟧) ↔
      A.bcolind⟦k⟧ < min i A.bcolind⟦p⟧) := by
    intro k hk
    split
    · rename_i h
      rw [← hS.lt_iff hi hk hp, min_eq_right (by omega)]
    · rename_i h
      rw [← hS.lt_iff hi hk hdr, hdc, min_eq_left (by omega)]
  have hcle : (if A.bcolind⟦p⟧ < i then p else A.diagind⟦i⟧) < A.browptr⟦i + 1⟧ := by
    split
    · exact hp.2
    · exact hdr.2
  have hcge : A.browptr⟦i⟧ ≤ (if A.bcolind⟦p⟧ < i then p else A.diagind⟦i⟧) := by
    split
    · exact hp.1
    · exact hdr.1
  constructor
  · rintro ⟨k, ⟨hk1, hk2⟩, q, hq, rfl, rfl⟩
    have hkr : A.InRow i k := ⟨hk1, by omega⟩
    have hcol := (hc k hkr).mp (by omega)
    have hck := hA.col_lt k (hA.lt_nnz hi hkr.2)
    have hdk := hD.inRow hck
    rw [List.find?_range'_eq_some] at hq
    obtain ⟨h1, h2, _⟩ := hq
    rw [List.mem_range'_1] at h2
    have h3 := hdk.1
    have h4 := hdk.2
    exact ⟨hkr, hcol, ⟨by omega, by omega⟩, by simpa using h1⟩
  · rintro ⟨ha, hcol, hb, hbc⟩
    have h1 := (hc a ha).mpr hcol
    have hck := hA.col_lt a (hA.lt_nnz hi ha.2)
    have hdk := hD.inRow hck
    have h2 := ha.1
    have h3 := hb.2
    have h4 := hdk.2
    refine ⟨a, ⟨h2, by omega⟩, b, ?_, rfl, rfl⟩
    rw [List.find?_range'_eq_some]
    have hge : A.diagind⟦A.bcolind⟦a⟧⟧ < b := by
      rw [← hS.lt_iff hck hdk hb, hD.diag_col _ hck, hbc]
      exact lt_of_lt_of_le hcol (min_le_right _ _)
    refine ⟨by simp [hbc], by rw [List.mem_range'_1]; omega, fun j hj hjb => ?_⟩
    have h5 := hdk.1
    have := hS _ hck j b (by omega) hjb h3
    rw [hbc] at this
    simp; omega

theorem iluPairs_sorted {A : SR V} (p : Nat) :
    (A.iluPairs p).Pairwise (fun e f => e.1 < f.1) := by
  unfold SR.iluPairs
  dsimp only
  rw [List.pairwise_filterMap]
  refine (List.pairwise_lt_range' (s := A.browptr⟦A.rowOf p⟧)).imp ?_
  intro k l hkl e he f hf
  simp only [Option.map_eq_some_iff] at he hf
  obtain ⟨_, _, rfl⟩ := he
  obtain ⟨_, _, rfl⟩ := hf
  exact hkl

end Blasted
