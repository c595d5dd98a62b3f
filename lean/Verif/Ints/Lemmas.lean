import Verif.Ints.Model
import Verif.ILU.PosProps
import Verif.Solve.Lemmas

/-!
# Lemmas about checked index arithmetic
-/

namespace Blasted

open Finset

variable {V : Type}

theorem ick_eq {imax x : Nat} (h : x ≤ imax) : ick imax x = .ok x := if_pos h

theorem ick_ub {imax x : Nat} (h : imax < x) : ick imax x = .error .ub := if_neg (by omega)

/-- A loop that reaches iteration `t`, which fails. -/
theorem forRange_error {σ : Type} {lo t hi : Nat} {body : Nat → σ → C σ} {s : σ} {P : σ → Prop} {e : Fail}
    (h1 : lo ≤ t) (h2 : t < hi) (hok : Ok (forRange lo t body s) P)
    (hb : ∀ s, P s → body t s = .error e) : forRange lo hi body s = .error e := by
  rw [forRange_split h1 h2.le]
  obtain ⟨a, ha, hP⟩ := hok
  rw [ha, ok_bind, forRange, show hi - t = (hi - t - 1) + 1 by omega, List.range'_succ, forList_cons, hb a hP]
  rfl

theorem sum_range_get0 (v : List Nat) : ∑ j ∈ range v.length, v⟦j⟧ = v.sum := by
  have : v = (List.range v.length).map fun j => v⟦j⟧ :=
    ext_get0 (by simp) fun i hi => by rw [get0_map_range _ hi]
  conv_rhs => rw [this]
  rw [sum_map_range_nat]

/-- State of the scan before iteration `k`. -/
def ScanInv (v : List Nat) (k : Nat) (w : List Nat) : Prop :=
  w.length = v.length ∧ (∀ i < k, w⟦i⟧ = ∑ j ∈ range (i + 1), v⟦j⟧) ∧ ∀ i, k ≤ i → i < v.length → w⟦i⟧ = v⟦i⟧

theorem inclusiveScanI_prefix (imax : Nat) (v : List Nat) (t : Nat) (h1 : 1 ≤ t) (ht : t ≤ v.length)
    (hs : ∑ j ∈ range t, v⟦j⟧ ≤ imax) :
    Ok (forRange 1 t (fun i v => do
      let a ← rd v i
      let b ← rd v (i - 1)
      let s ← ick imax (a + b)
      wr v i s) v) (ScanInv v t) := by
  refine forRange_ok (ScanInv v) h1 ⟨rfl, ?_, fun i _ _ => rfl⟩ ?_
  · intro i hi
    obtain rfl : i = 0 := by omega
    simp
  · rintro i w hi1 hi2 ⟨hl, h3, h4⟩
    have e : w⟦i⟧ + w⟦i - 1⟧ = ∑ j ∈ range (i + 1), v⟦j⟧ := by
      rw [h4 i (Nat.le_refl _) (by omega), h3 (i - 1) (by omega), show i - 1 + 1 = i by omega, sum_range_succ,
        add_comm]
    have hle : ∑ j ∈ range (i + 1), v⟦j⟧ ≤ ∑ j ∈ range t, v⟦j⟧ :=
      sum_le_sum_of_subset (by intro a; simp only [mem_range]; omega)
    rw [rd_eq (by omega), ok_bind, rd_eq (by omega), ok_bind, e, ick_eq (by omega), ok_bind, wr_eq (by omega)]
    refine Ok.pure ⟨by simp [hl], fun j hj => ?_, fun j hj hj2 => ?_⟩
    · by_cases hji : j = i
      · subst hji; rw [get0_set_self (by omega)]
      · rw [get0_set_ne (Ne.symm hji)]; exact h3 j (by omega)
    · rw [get0_set_ne (by omega)]; exact h4 j (by omega) hj2

theorem toIndex_small {imax x : Nat} (h : x ≤ imax) : toIndex imax (x : Int) = x := by
  unfold toIndex
  apply Int.bmod_eq_of_le <;> omega

theorem accumulateI_eq {imax : Nat} {l : List Nat} (h : l.sum ≤ imax) : accumulateI imax l = (l.sum : Int) := by
  have H : ∀ (l : List Nat) (acc : Nat), acc + l.sum ≤ imax →
      l.foldl (fun (acc : Int) (x : Nat) => toIndex imax (acc + x)) (acc : Int) = ((acc + l.sum : Nat) : Int) := by
    intro l
    induction l with
    | nil => intro acc _; simp
    | cons x l ih =>
      intro acc hacc
      rw [List.sum_cons] at hacc
      rw [List.foldl_cons, ← Nat.cast_add, toIndex_small (by omega), ih (acc + x) (by omega), List.sum_cons, add_assoc]
  have := H l 0 (by omega)
  simpa [accumulateI] using this

/-! ### The number of products -/

open Classical in
/-- The number of products in the entry `(i,j)` of the factors: the `k < min i j` with `(i,k)` and `(k,j)` stored. -/
noncomputable def entryProducts (A : SR V) (i j : Nat) : Nat :=
  ((range (min i j)).filter fun k => Nbr A i k ∧ Nbr A k j).card

open Classical in
/-- The number of products in an ILU(0) factorization: for every stored entry `(i,j)`, the `k < min i j` with `(i,k)` and
`(k,j)` stored. -/
noncomputable def iluProducts (A : SR V) : Nat :=
  ∑ i ∈ range A.nbrows, ∑ j ∈ range A.nbrows, if Nbr A i j then entryProducts A i j else 0

theorem Sorted.col_inj {A : SR V} (hS : A.Sorted) {i a b : Nat} (hi : i < A.nbrows) (ha : A.InRow i a)
    (hb : A.InRow i b) (h : A.bcolind⟦a⟧ = A.bcolind⟦b⟧) : a = b := by
  rcases Nat.lt_trichotomy a b with hab | hab | hab
  · have := hS i hi a b ha.1 hab hb.2; omega
  · exact hab
  · have := hS i hi b a hb.1 hab ha.2; omega

theorem iluPairs_length {A : SR V} {m : Nat} (hA : A.Full m) (hS : A.Sorted) (hD : A.HasDiag) {i p : Nat}
    (hi : i < A.nbrows) (hp : A.InRow i p) : (A.iluPairs p).length = entryProducts A i A.bcolind⟦p⟧ := by
  classical
  unfold entryProducts
  have hnd : (A.iluPairs p).Nodup := (iluPairs_sorted p).imp (by
    intro e f h he; subst he; exact lt_irrefl _ h)
  rw [← List.toFinset_card_of_nodup hnd]
  refine card_bij (fun e _ => A.bcolind⟦e.1⟧) ?_ ?_ ?_
  · rintro ⟨a, b⟩ he
    rw [List.mem_toFinset] at he
    obtain ⟨h1, h2, h3, h4⟩ := (mem_iluPairs hA hS hD hi hp).mp he
    simp only [mem_filter, mem_range]
    exact ⟨h2, ⟨a, h1, rfl⟩, ⟨b, h3, h4⟩⟩
  · rintro ⟨a, b⟩ he ⟨a', b'⟩ he' h
    rw [List.mem_toFinset] at he he'
    obtain ⟨h1, h2, h3, h4⟩ := (mem_iluPairs hA hS hD hi hp).mp he
    obtain ⟨h1', h2', h3', h4'⟩ := (mem_iluPairs hA hS hD hi hp).mp he'
    dsimp only at h
    obtain rfl := Sorted.col_inj hS hi h1 h1' h
    obtain rfl := Sorted.col_inj hS (by omega) h3 h3' (h4.trans h4'.symm)
    rfl
  · intro k hk
    simp only [mem_filter, mem_range] at hk
    obtain ⟨h2, ⟨a, h1, rfl⟩, ⟨b, h3, h4⟩⟩ := hk
    exact ⟨(a, b), by rw [List.mem_toFinset]; exact (mem_iluPairs hA hS hD hi hp).mpr ⟨h1, h2, h3, h4⟩, rfl⟩

theorem sum_positions {A : SR V} {m : Nat} (hA : A.Full m) (f : Nat → Nat) :
    ∑ p ∈ range A.browptr⟦A.nbrows⟧, f p =
      ∑ i ∈ range A.nbrows, ∑ p ∈ Ico A.browptr⟦i⟧ A.browptr⟦i + 1⟧, f p := by
  have H : ∀ n ≤ A.nbrows, ∑ p ∈ range A.browptr⟦n⟧, f p =
      ∑ i ∈ range n, ∑ p ∈ Ico A.browptr⟦i⟧ A.browptr⟦i + 1⟧, f p := by
    intro n hn
    induction n with
    | zero => simp [hA.ptr_zero]
    | succ n ih =>
      rw [sum_range_succ, ← ih (by omega), sum_range_add_sum_Ico]
      exact hA.ptr_mono n hn
  exact H _ (Nat.le_refl _)

theorem iluProducts_eq {A : SR V} {m : Nat} (hA : A.Full m) (hS : A.Sorted) (hD : A.HasDiag) :
    offs (fun p => A.iluPairs p) A.browptr⟦A.nbrows⟧ = iluProducts A := by
  classical
  unfold offs iluProducts
  rw [sum_positions hA]
  refine sum_congr rfl fun i hi => ?_
  rw [mem_range] at hi
  rw [← sum_filter]
  have : (range A.nbrows).filter (fun j => Nbr A i j) =
      (Ico A.browptr⟦i⟧ A.browptr⟦i + 1⟧).image (fun p => A.bcolind⟦p⟧) := by
    ext j
    rw [mem_filter, mem_range, mem_image]
    constructor
    · rintro ⟨_, p, hp, rfl⟩; exact ⟨p, mem_Ico.mpr hp, rfl⟩
    · rintro ⟨p, hp, rfl⟩
      rw [mem_Ico] at hp
      exact ⟨hA.col_lt p (hA.lt_nnz hi hp.2), p, hp, rfl⟩
  rw [this, sum_image (by
    intro a ha b hb h
    exact Sorted.col_inj hS hi (mem_Ico.mp ha) (mem_Ico.mp hb) h)]
  refine sum_congr rfl fun p hp => ?_
  rw [mem_Ico] at hp
  exact iluPairs_length hA hS hD hi hp

theorem entryProducts_le (A : SR V) (i j : Nat) : entryProducts A i j ≤ i := by
  classical
  unfold entryProducts
  refine (card_filter_le _ _).trans ?_
  rw [card_range]
  exact min_le_left _ _

end Blasted
