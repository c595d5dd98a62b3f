import Verif.Ints.Lemmas
import Mathlib.Tactic.Ring

/-!
# C67: the ILU(0) position lists with `int` indices
-/

namespace Blasted

open Finset

variable {V : Type}

/-- **C67**, prefix sums: `inclusive_scan` of representable numbers gives the prefix sums if their total is representable,
and overflows otherwise. -/
theorem inclusive_scan_int (imax : Nat) (v : List Nat) (hv : ∀ i < v.length, v⟦i⟧ ≤ imax) :
    (v.sum ≤ imax → ∃ w, inclusiveScanI imax v = .ok w ∧ inclusiveScan v = .ok w ∧ w.length = v.length ∧
      ∀ i < v.length, w⟦i⟧ = ∑ j ∈ range (i + 1), v⟦j⟧) ∧
    (imax < v.sum → inclusiveScanI imax v = .error .ub) := by
  rcases Nat.eq_zero_or_pos v.length with h0 | hpos
  · have : v = [] := List.eq_nil_of_length_eq_zero h0
    subst this
    exact ⟨fun _ => ⟨[], rfl, rfl, rfl, by simp⟩, fun h => by simp at h⟩
  constructor
  · intro hs
    obtain ⟨w, ew, _, hwl, hw⟩ := inclusive_scan_correct v
    obtain ⟨w', ew', hl, h1, _⟩ := inclusiveScanI_prefix imax v v.length hpos (Nat.le_refl _)
      (by rw [sum_range_get0]; exact hs)
    have : w' = w := ext_get0 (by omega) fun i hi => by rw [h1 i (by omega), hw i (by omega)]
    subst this
    exact ⟨w', ew', ew, hwl, hw⟩
  · intro hs
    -- the first prefix sum that is too large
    have hex : ∃ t, imax < ∑ j ∈ range (t + 1), v⟦j⟧ := ⟨v.length - 1, by
      rw [show v.length - 1 + 1 = v.length by omega, sum_range_get0]; exact hs⟩
    classical
    set t := Nat.find hex with ht
    have ht1 : imax < ∑ j ∈ range (t + 1), v⟦j⟧ := Nat.find_spec hex
    have hmin : ∀ s < t, ∑ j ∈ range (s + 1), v⟦j⟧ ≤ imax := fun s hs => by
      have := Nat.find_min hex hs; omega
    have htl : t < v.length := by
      have : t ≤ v.length - 1 := Nat.find_min' hex (by
        rw [show v.length - 1 + 1 = v.length by omega, sum_range_get0]; exact hs)
      omega
    have htp : 1 ≤ t := by
      by_contra hc
      have h00 : t = 0 := by omega
      rw [h00] at ht1
      have := hv 0 hpos
      simp at ht1
      omega
    refine forRange_error htp htl (inclusiveScanI_prefix imax v t htp htl.le (by
      have := hmin (t - 1) (by omega)
      rwa [show t - 1 + 1 = t by omega] at this)) ?_
    rintro w ⟨hl, h3, h4⟩
    rw [rd_eq (by omega), ok_bind, rd_eq (by omega), ok_bind, h4 t (Nat.le_refl _) htl, h3 (t - 1) (by omega),
      show t - 1 + 1 = t by omega, add_comm, ← sum_range_succ, ick_ub ht1]
    rfl

theorem iluCountI_ok {imax : Nat} {A : SR V} {m : Nat} (hA : A.Full m) (hS : A.Sorted) (hD : A.HasDiag)
    (hn : A.browptr⟦A.nbrows⟧ < imax) :
    Ok (iluCountI imax A A.browptr⟦A.nbrows⟧) (fun s => s.1.length = A.browptr⟦A.nbrows⟧ ∧
      s.2.length = A.browptr⟦A.nbrows⟧ + 1 ∧ s.2⟦0⟧ = 0 ∧ (∀ q < A.browptr⟦A.nbrows⟧,
        s.1⟦q⟧ = (A.iluPairs q).length ∧ s.2⟦q + 1⟧ = (A.iluPairs q).length)) := by
  set N := A.browptr⟦A.nbrows⟧ with hN
  have hptr := hA.ptr_len
  have hind := hA.ind_len
  have hcnt : ∀ p < N, (A.iluPairs p).length ≤ imax := by
    intro p hp
    obtain ⟨hi, hrow⟩ := hA.rowOf_spec hp
    rw [iluPairs_length hA hS hD hi hrow]
    have h1 := entryProducts_le A (A.rowOf p) A.bcolind⟦p⟧
    have h2 : ∀ i ≤ A.nbrows, i ≤ A.browptr⟦i⟧ := by
      intro i hi
      induction i with
      | zero => omega
      | succ i ih =>
        have := hD.diag_ge i (by omega)
        have := hD.diag_lt i (by omega)
        have := ih (by omega)
        omega
    have := h2 _ (Nat.le_refl A.nbrows)
    omega
  unfold iluCountI
  dsimp only
  rw [ick_eq (by omega), ok_bind, wr_eq (by simp), ok_bind,
    hA.nested_pos (body := fun irow j (s : List Nat × List Nat) => do
      let numpos ← iluScan A irow j (fun _ ipos numpos => do
        if ipos > -1 then
          let v ← rd numpos j
          wr numpos j (v + 1)
        else .ok numpos) s.1
      let v ← rd numpos j
      let v ← ick imax v
      let posptr ← wr s.2 (j + 1) v
      .ok (numpos, posptr)), ← hN]
  refine (forRange_ok (fun p (s : List Nat × List Nat) => s.1.length = N ∧ s.2.length = N + 1 ∧
    s.2⟦0⟧ = 0 ∧ (∀ q < p, s.1⟦q⟧ = (A.iluPairs q).length ∧ s.2⟦q + 1⟧ = (A.iluPairs q).length) ∧
    ∀ q, p ≤ q → q < N → s.1⟦q⟧ = 0) (Nat.zero_le _) ⟨by simp, by simp, by
      rw [get0_set_self (by simp)], by intro q hq; omega, fun q _ hq => get0_replicate _ _⟩ ?_).mono ?_
  · rintro p ⟨np, pp⟩ _ hp ⟨h1, h2, h3, h4, h5⟩
    dsimp only at h1 h2 h3 h4 h5 ⊢
    rw [iluScan_eq hA hS hD hp _ (by intro k s; rfl)]
    rw [forList_congr (body' := fun _ np => do let v ← rd np p; wr np p (v + 1)) (by
      intro e he s
      rw [if_pos (by omega)])]
    rw [incr_ok _ _ _ (by omega), ok_bind, rd_eq (by simp; omega), ok_bind, get0_set_self (by omega),
      h5 p (by omega) hp, Nat.zero_add, ick_eq (hcnt p hp), ok_bind, wr_eq (by omega), ok_bind]
    refine Ok.pure ⟨by simp [h1], by simp [h2], ?_, ?_, ?_⟩
    · dsimp only
      rw [get0_set_ne (by omega)]; exact h3
    · intro q hq
      dsimp only
      by_cases hqp : q = p
      · subst hqp
        rw [get0_set_self (by omega), get0_set_self (by omega)]
        exact ⟨rfl, rfl⟩
      · rw [get0_set_ne (by omega), get0_set_ne (by omega)]
        exact h4 q (by omega)
    · intro q hq1 hq2
      dsimp only
      rw [get0_set_ne (by omega)]
      exact h5 q (by omega) hq2
  · rintro s ⟨h1, h2, h3, h4, _⟩
    exact ⟨h1, h2, h3, h4⟩

theorem iluFillI_ok {imax : Nat} {A : SR V} {m : Nat} (hA : A.Full m) (hS : A.Sorted) (hD : A.HasDiag)
    {np w : List Nat} (h1 : np.length = A.browptr⟦A.nbrows⟧)
    (h4 : ∀ q < A.browptr⟦A.nbrows⟧, np⟦q⟧ = (A.iluPairs q).length)
    (hwl : w.length = A.browptr⟦A.nbrows⟧ + 1)
    (hwo : ∀ t ≤ A.browptr⟦A.nbrows⟧, w⟦t⟧ = offs (fun p => A.iluPairs p) t)
    (hs : offs (fun p => A.iluPairs p) A.browptr⟦A.nbrows⟧ ≤ imax) :
    Ok (iluFillI imax A np w (List.replicate (offs (fun p => A.iluPairs p) A.browptr⟦A.nbrows⟧) 0)
      (List.replicate (offs (fun p => A.iluPairs p) A.browptr⟦A.nbrows⟧) 0)) (fun s =>
        Filled Prod.fst (offs (fun p => A.iluPairs p) A.browptr⟦A.nbrows⟧) s.1
          ((List.range A.browptr⟦A.nbrows⟧).flatMap fun p => A.iluPairs p) ∧
        Filled Prod.snd (offs (fun p => A.iluPairs p) A.browptr⟦A.nbrows⟧) s.2
          ((List.range A.browptr⟦A.nbrows⟧).flatMap fun p => A.iluPairs p)) := by
  set N := A.browptr⟦A.nbrows⟧ with hN
  set S := fun p => A.iluPairs p with hSdef
  unfold iluFillI
  rw [hA.nested_pos (body := fun irow j (s : List Nat × List Nat) => do
    let r ← iluScan A irow j (fun k ipos (r : Nat × List Nat × List Nat) => do
      if ipos ≠ -1 then
        let p ← rd w j
        let at1 ← ick imax (p + r.1)
        let lowerp ← wr r.2.1 at1 k
        let at2 ← ick imax (p + r.1)
        let upperp ← wr r.2.2 at2 ipos.toNat
        let offset ← ick imax (r.1 + 1)
        .ok (offset, lowerp, upperp)
      else .ok r) (0, s.1, s.2)
    let n ← rd np j
    cassert (r.1 = n)
    .ok (r.2.1, r.2.2)), ← hN]
  refine forRange_ok (fun p (s : List Nat × List Nat) =>
    Filled Prod.fst (offs S N) s.1 ((List.range p).flatMap S) ∧
    Filled Prod.snd (offs S N) s.2 ((List.range p).flatMap S)) (Nat.zero_le _)
    ⟨⟨by simp, by simp⟩, ⟨by simp, by simp⟩⟩ ?_
  rintro p ⟨lo, up⟩ _ hp ⟨hlo, hup⟩
  dsimp only at hlo hup ⊢
  rw [iluScan_eq hA hS hD hp _ (by intro k s; rfl)]
  refine (forList_ok (fun (done : List (Nat × Nat)) (r : Nat × List Nat × List Nat) =>
    r.1 = done.length ∧ Filled Prod.fst (offs S N) r.2.1 ((List.range p).flatMap S ++ done) ∧
    Filled Prod.snd (offs S N) r.2.2 ((List.range p).flatMap S ++ done)) ⟨rfl, by simpa using hlo,
      by simpa using hup⟩ ?_).bind ?_
  · rintro done ⟨k, q⟩ rest ⟨o, l, u⟩ hl ⟨ho, hl1, hu1⟩
    dsimp only at ho hl1 hu1 ⊢
    have hWl : ((List.range p).flatMap S ++ done).length = offs S p + done.length := by
      rw [List.length_append, flatMap_length_offs]
    have hlt : offs S p + done.length < offs S N := by
      have h6 : offs S (p + 1) ≤ offs S N := offs_mono S hp
      rw [offs_succ] at h6
      have h7 : (S p).length = done.length + (rest.length + 1) := by
        show (A.iluPairs p).length = _
        rw [hl]; simp
      omega
    rw [if_pos (by omega), rd_eq (by omega), ok_bind, hwo p (by omega), ick_eq (by omega), ok_bind,
      wr_eq (by rw [hl1.1]; omega), ok_bind, ok_bind, wr_eq (by rw [hu1.1]; omega), ok_bind,
      ick_eq (by omega), ok_bind]
    refine Ok.pure ⟨by simp [ho], ?_, ?_⟩
    · have := hl1.push (k, q) (by omega)
      rw [hWl] at this
      rw [← List.append_assoc, ho]
      exact this
    · have := hu1.push (k, q) (by omega)
      rw [hWl] at this
      rw [← List.append_assoc, ho]
      exact this
  · rintro ⟨o, l, u⟩ ⟨ho, hl1, hu1⟩
    dsimp only at ho hl1 hu1 ⊢
    rw [rd_eq (by omega), ok_bind, h4 p hp, ho, cassert_true (by simp), ok_bind]
    refine Ok.pure ?_
    rw [List.range_succ, List.flatMap_append, List.flatMap_singleton]
    exact ⟨hl1, hu1⟩

theorem Filled.unique {α : Type} {f : α → Nat} {a b : List Nat} {W : List α} (ha : Filled f W.length a W)
    (hb : Filled f W.length b W) : a = b :=
  ext_get0 (ha.1.trans hb.1.symm) fun i hi => by rw [ha.2 i (by rw [← ha.1]; exact hi), hb.2 i (by rw [← ha.1]; exact hi)]

/-- **C67**, position lists: for a well-formed matrix whose number of stored entries is less than `imax`,
`compute_ILU_positions_CSR_CSR` with bounded indices returns the right lists if the number of products of the
factorization is at most `imax`, and overflows if it is larger. -/
theorem ilu_positions_int_partial {imax : Nat} (A : SR V) {m : Nat} (hA : A.Full m) (hS : A.Sorted) (hD : A.HasDiag)
    (hn : A.browptr⟦A.nbrows⟧ < imax) :
    (iluProducts A ≤ imax → ∃ pos, computeILUPositionsI imax A = .ok pos ∧ computeILUPositions A = .ok pos ∧
      ILUPosOk A pos) ∧
    (imax < iluProducts A → computeILUPositionsI imax A = .error .ub) := by
  have htot := iluProducts_eq hA hS hD
  have hptr := hA.ptr_len
  obtain ⟨⟨np, pp⟩, ec, h1, h2, h3, h4⟩ := iluCountI_ok (imax := imax) hA hS hD hn
  dsimp only at h1 h2 h3 h4
  have hnp : np.sum = iluProducts A := by
    rw [← htot, ← sum_range_get0, offs, h1]
    exact sum_congr rfl fun q hq => (h4 q (mem_range.mp hq)).1
  have hpp : pp.sum = iluProducts A := by
    rw [← htot, ← sum_range_get0, offs, h2, sum_range_succ', h3, Nat.add_zero]
    exact sum_congr rfl fun q hq => (h4 q (mem_range.mp hq)).2
  have hle : ∀ i < pp.length, pp⟦i⟧ ≤ imax := by
    intro i hi
    rcases i with _ | q
    · omega
    · have hq : q < A.browptr⟦A.nbrows⟧ := by omega
      rw [(h4 q hq).2]
      obtain ⟨hr, hrow⟩ := hA.rowOf_spec hq
      rw [iluPairs_length hA hS hD hr hrow]
      have := entryProducts_le A (A.rowOf q) A.bcolind⟦q⟧
      have h5 : ∀ i ≤ A.nbrows, i ≤ A.browptr⟦i⟧ := by
        intro i hi
        induction i with
        | zero => omega
        | succ i ih =>
          have := hD.diag_ge i (by omega)
          have := hD.diag_lt i (by omega)
          have := ih (by omega)
          omega
      have := h5 _ (Nat.le_refl A.nbrows)
      omega
  obtain ⟨hscan, hscanub⟩ := inclusive_scan_int imax pp hle
  unfold computeILUPositionsI
  rw [rd_eq (by omega), ok_bind, ec, ok_bind]
  dsimp only
  constructor
  · intro hs
    obtain ⟨w, ew, _, hwl, hw⟩ := hscan (by omega)
    have hwo : ∀ t ≤ A.browptr⟦A.nbrows⟧, w⟦t⟧ = offs (fun p => A.iluPairs p) t := by
      intro t ht
      rw [hw t (by omega), sum_range_succ', h3, Nat.add_zero, offs]
      exact sum_congr rfl fun s hs => (h4 s (by rw [mem_range] at hs; omega)).2
    rw [ew, ok_bind, rd_eq (by omega), ok_bind, hwo _ (Nat.le_refl _), accumulateI_eq (by omega), hnp, htot,
      cassert_true (by simp), ok_bind]
    have hres : resizeI ((iluProducts A : Nat) : Int) =
        .ok (List.replicate (offs (fun p => A.iluPairs p) A.browptr⟦A.nbrows⟧) 0) := by
      unfold resizeI
      rw [if_neg (by omega), Int.toNat_natCast, htot]
    rw [hres, ok_bind, ok_bind]
    obtain ⟨⟨lo, up⟩, ef, hlo, hup⟩ := iluFillI_ok (imax := imax) hA hS hD h1 (fun q hq => (h4 q hq).1) (by omega) hwo
      (by rw [htot]; exact hs)
    rw [ef, ok_bind]
    dsimp only at hlo hup ⊢
    have hfill : IluFilled A ⟨lo, up, w⟩ := ⟨by simp only; omega, hwo, hlo, hup⟩
    obtain ⟨⟨lo', up', w'⟩, e', hf'⟩ := computeILUPositions_filled A hA hS hD
    refine ⟨_, rfl, ?_, hfill.posOk hA hS hD⟩
    rw [e']
    obtain ⟨g1, g2, g3, g4⟩ := hf'
    have hlen := flatMap_length_offs (fun p => A.iluPairs p) A.browptr⟦A.nbrows⟧
    dsimp only at g1 g2 g3 g4
    rw [← hlen] at g3 g4 hlo hup
    congr 2
    · exact g3.unique hlo
    · exact g4.unique hup
    · exact ext_get0 (by omega) fun i hi => by rw [g2 i (by omega), hwo i (by omega)]
  · intro hs
    rw [hscanub (by omega)]
    rfl

/-! ### Dense matrices -/

/-- A matrix of order `n` that stores all its entries. -/
def denseSR (n : Nat) (f : Nat → Nat → V) : SR V :=
  { browptr := (List.range (n + 1)).map (· * n), bcolind := (List.range (n * n)).map (· % n),
    vals := (List.range (n * n)).map fun p => f (p / n) (p % n), diagind := (List.range n).map fun i => i * n + i,
    browendptr := (List.range n).map fun i => (i + 1) * n, nbrows := n, nnzb := n * n, nbstored := n * n }

theorem denseSR_ptr (n : Nat) (f : Nat → Nat → V) {i : Nat} (hi : i ≤ n) : (denseSR n f).browptr⟦i⟧ = i * n :=
  get0_map_range (fun i => i * n) (by omega)

theorem denseSR_nnz (n : Nat) (f : Nat → Nat → V) : (denseSR n f).browptr⟦(denseSR n f).nbrows⟧ = n * n :=
  denseSR_ptr n f (Nat.le_refl n)

theorem denseSR_col (n : Nat) (f : Nat → Nat → V) {p : Nat} (hp : p < n * n) : (denseSR n f).bcolind⟦p⟧ = p % n :=
  get0_map_range (fun p => p % n) hp

theorem denseSR_pos_lt {n i j : Nat} (hi : i < n) (hj : j < n) : i * n + j < n * n := by
  have : (i + 1) * n ≤ n * n := Nat.mul_le_mul_right n hi
  rw [Nat.add_mul] at this
  omega

theorem denseSR_full (n : Nat) (f : Nat → Nat → V) : (denseSR n f).Full where
  ptr_len := by simp [denseSR]
  ptr_zero := by rw [denseSR_ptr n f (Nat.zero_le n), Nat.zero_mul]
  ptr_mono := by
    intro i (hi : i < n)
    rw [denseSR_ptr n f (by omega), denseSR_ptr n f (by omega)]
    exact Nat.mul_le_mul_right n (by omega)
  end_len := by simp [denseSR]
  end_eq := by
    intro i (hi : i < n)
    rw [denseSR_ptr n f (by omega)]
    exact get0_map_range (fun i => (i + 1) * n) hi
  ind_len := by rw [denseSR_nnz]; simp [denseSR]
  val_len := by rw [denseSR_nnz]; simp [denseSR]
  col_lt := by
    intro p hp
    rw [denseSR_nnz] at hp
    rw [denseSR_col n f hp]
    refine Nat.mod_lt _ ?_
    rcases Nat.eq_zero_or_pos n with h | h
    · subst h; omega
    · exact h

theorem denseSR_inRow (n : Nat) (f : Nat → Nat → V) {i p : Nat} (hi : i < n) :
    (denseSR n f).InRow i p ↔ ∃ j < n, p = i * n + j := by
  unfold SR.InRow
  rw [denseSR_ptr n f hi.le, denseSR_ptr n f hi, Nat.succ_mul]
  constructor
  · rintro ⟨h1, h2⟩; exact ⟨p - i * n, by omega, by omega⟩
  · rintro ⟨j, hj, rfl⟩; omega

theorem denseSR_col_at (n : Nat) (f : Nat → Nat → V) {i j : Nat} (hi : i < n) (hj : j < n) :
    (denseSR n f).bcolind⟦i * n + j⟧ = j := by
  rw [denseSR_col n f (denseSR_pos_lt hi hj), Nat.mul_comm, Nat.mul_add_mod, Nat.mod_eq_of_lt hj]

theorem denseSR_sorted (n : Nat) (f : Nat → Nat → V) : (denseSR n f).Sorted := by
  intro i (hi : i < n) k l h1 h2 h3
  obtain ⟨j, hj, rfl⟩ := (denseSR_inRow n f hi).mp ⟨h1, by omega⟩
  obtain ⟨j', hj', rfl⟩ := (denseSR_inRow n f hi).mp ⟨by omega, h3⟩
  rw [denseSR_col_at n f hi hj, denseSR_col_at n f hi hj']
  omega

theorem denseSR_diag (n : Nat) (f : Nat → Nat → V) : (denseSR n f).HasDiag := by
  have hd : ∀ i < n, (denseSR n f).diagind⟦i⟧ = i * n + i := fun i hi => get0_map_range (fun i => i * n + i) hi
  constructor
  · simp [denseSR]
  · intro i (hi : i < n)
    rw [hd i hi]; exact ((denseSR_inRow n f hi).mpr ⟨i, hi, rfl⟩).1
  · intro i (hi : i < n)
    rw [hd i hi]; exact ((denseSR_inRow n f hi).mpr ⟨i, hi, rfl⟩).2
  · intro i (hi : i < n)
    rw [hd i hi]; exact denseSR_col_at n f hi hi

theorem denseSR_nbr (n : Nat) (f : Nat → Nat → V) {i j : Nat} (hi : i < n) (hj : j < n) : Nbr (denseSR n f) i j :=
  ⟨i * n + j, (denseSR_inRow n f hi).mpr ⟨j, hj, rfl⟩, denseSR_col_at n f hi hj⟩

/-- The factorization of a dense matrix of order `n` has `n (n-1) (2n-1) / 6` products. -/
theorem denseSR_products (n : Nat) (f : Nat → Nat → V) : 6 * iluProducts (denseSR n f) = n * (n - 1) * (2 * n - 1) := by
  classical
  have h1 : iluProducts (denseSR n f) = ∑ i ∈ range n, ∑ j ∈ range n, min i j := by
    unfold iluProducts
    refine sum_congr rfl fun i hi => sum_congr rfl fun j hj => ?_
    rw [mem_range] at hi hj
    rw [if_pos (denseSR_nbr n f hi hj), entryProducts, filter_true_of_mem, card_range]
    intro k hk
    rw [mem_range] at hk
    exact ⟨denseSR_nbr n f hi (by omega), denseSR_nbr n f (by omega) hj⟩
  have h2 : ∀ n, 2 * ∑ i ∈ range n, i = n * (n - 1) := by
    intro n
    rw [mul_comm, sum_range_id_mul_two]
  rw [h1]
  clear h1
  induction n with
  | zero => simp
  | succ n ih =>
    have e : ∑ i ∈ range (n + 1), ∑ j ∈ range (n + 1), min i j =
        ∑ i ∈ range n, ∑ j ∈ range n, min i j + 2 * ∑ i ∈ range n, i + n := by
      rw [sum_range_succ]
      simp only [sum_range_succ, sum_add_distrib, min_self]
      have e1 : ∑ i ∈ range n, min i n = ∑ i ∈ range n, i :=
        sum_congr rfl fun i hi => min_eq_left (by rw [mem_range] at hi; omega)
      have e2 : ∑ i ∈ range n, min n i = ∑ i ∈ range n, i :=
        sum_congr rfl fun i hi => min_eq_right (by rw [mem_range] at hi; omega)
      rw [e1, e2]; ring
    rw [e, h2, mul_add, mul_add, ih]
    rcases n with _ | k
    · rfl
    · simp only [Nat.add_sub_cancel]
      rw [show 2 * (k + 1) - 1 = 2 * k + 1 by omega, show 2 * (k + 1 + 1) - 1 = 2 * k + 3 by omega]
      ring

/-- **C67** is false with `int` indices when the number of products is not bounded, and C17 is false of the code as
compiled: for a dense matrix of order 1862 (3 467 044 stored entries) the prefix sums of
`compute_ILU_positions_CSR_CSR` overflow, for every content of the matrix. With one row less they do not. -/
theorem ilu_positions_overflow (f : Nat → Nat → V) :
    (denseSR 1862 f).Full ∧ (denseSR 1862 f).Sorted ∧ (denseSR 1862 f).HasDiag ∧
    (denseSR 1862 f).browptr⟦(denseSR 1862 f).nbrows⟧ = 3467044 ∧
    computeILUPositionsI maxInt (denseSR 1862 f) = .error .ub ∧
    ∃ pos, computeILUPositionsI maxInt (denseSR 1861 f) = .ok pos ∧ ILUPosOk (denseSR 1861 f) pos := by
  refine ⟨denseSR_full _ f, denseSR_sorted _ f, denseSR_diag _ f, denseSR_nnz _ f, ?_, ?_⟩
  · refine (ilu_positions_int_partial _ (denseSR_full _ f) (denseSR_sorted _ f) (denseSR_diag _ f) ?_).2 ?_
    · rw [denseSR_nnz]; decide
    · have := denseSR_products 1862 f
      unfold maxInt
      omega
  · obtain ⟨pos, h, _, h'⟩ := (ilu_positions_int_partial (imax := maxInt) _ (denseSR_full 1861 f) (denseSR_sorted _ f)
      (denseSR_diag _ f) (by rw [denseSR_nnz]; decide)).1 (by
        have := denseSR_products 1861 f
        unfold maxInt
        omega)
    exact ⟨pos, h, h'⟩

/-- A small index type shows both outcomes by evaluation. -/
example : computeILUPositionsI 14 exILU = computeILUPositions exILU ∧
    computeILUPositionsI 29 (denseSR 5 fun _ _ => (1 : Int)) = .error .ub := by
  constructor <;> decide +kernel

end Blasted
