import Verif.Container.AssemblyLemmas
import Mathlib.Tactic.NormNum

/-!
# C46: assembling a matrix by submitting and updating blocks
-/

namespace Blasted

open Finset

variable {K : Type} [CommRing K]

/-! ### Block class -/

section bsr
variable {A : SR K} {bs : Nat}

theorem bsrUpdateBlock_stored (hA : A.Full (bs * bs)) (hS : A.Sorted) {si sj k : Nat}
    (hi : si / bs < A.nbrows) (hk : A.InRow (si / bs) k) (hc : A.bcolind⟦k⟧ = sj / bs) {buffer : List K}
    (hb : bs * bs ≤ buffer.length) (vals : List K) :
    bsrUpdateBlock bs A si sj buffer vals =
      (forList (blockAdds (bs * bs) k buffer) atomicAdd vals >>= fun v => .ok (v, true)) := by
  have hl := hA.ptr_len
  unfold bsrUpdateBlock
  dsimp only
  rw [rd_eq (show si / bs < A.browptr.length by omega), ok_bind,
    rd_eq (show si / bs + 1 < A.browptr.length by omega), ok_bind]
  have e : ∀ j, A.browptr⟦si / bs⟧ ≤ j → j < A.browptr⟦si / bs + 1⟧ → rd A.bcolind j = .ok A.bcolind⟦j⟧ :=
    fun j _ h2 => by rw [rd_eq (by rw [hA.ind_len]; exact hA.lt_nnz hi h2)]
  rw [forRange_congr (body' := fun j (s : List K × Bool) => if A.bcolind⟦j⟧ = sj / bs then do
      let v ← forList (blockAdds (bs * bs) j buffer) atomicAdd s.1
      .ok (v, true) else .ok s)]
  · exact forRange_find (fun j => A.bcolind⟦j⟧) (sj / bs)
      (fun j v => forList (blockAdds (bs * bs) j buffer) atomicAdd v) vals hk.1 hk.2 hc
      (fun l h1 h2 h3 => hS.inj hi ⟨h1, h2⟩ hk (by rw [h3, hc]))
  · intro j h1 h2 s
    rw [e j h1 h2, ok_bind, blockAdds, ← forRange_adds]
    rw [forRange_congr (body' := fun k vals => atomicAdd (j * (bs * bs) + k, buffer⟦k⟧) vals)]
    intro t _ ht v
    rw [rd_eq (by omega), ok_bind]

theorem bsrUpdateBlock_unstored (hA : A.Full (bs * bs)) {si sj : Nat}
    (hi : si / bs < A.nbrows) (hc : ¬ A.Stores (si / bs) (sj / bs)) (buffer vals : List K) :
    bsrUpdateBlock bs A si sj buffer vals = .ok (vals, false) := by
  have hl := hA.ptr_len
  unfold bsrUpdateBlock
  dsimp only
  rw [rd_eq (show si / bs < A.browptr.length by omega), ok_bind,
    rd_eq (show si / bs + 1 < A.browptr.length by omega), ok_bind]
  refine forRange_id fun j h1 h2 => ?_
  rw [rd_eq (by rw [hA.ind_len]; exact hA.lt_nnz hi h2), ok_bind, if_neg]
  exact fun h => hc ⟨j, ⟨h1, h2⟩, h⟩

theorem bsrUpdateDiagBlock_adds (hD : A.HasDiag) {si : Nat}
    (hi : si / bs < A.nbrows) {buffer : List K}
    (hb : bs * bs ≤ buffer.length) (vals : List K) :
    bsrUpdateDiagBlock bs A si buffer vals =
      forList (blockAdds (bs * bs) A.diagind⟦si / bs⟧ buffer) atomicAdd vals := by
  unfold bsrUpdateDiagBlock
  rw [rd_eq (by rw [hD.diag_len]; exact hi), ok_bind, blockAdds, ← forRange_adds]
  refine forRange_congr fun k _ hk s => ?_
  rw [rd_eq (by omega), ok_bind]

omit [CommRing K] in
theorem SR.Full.block_lt {m : Nat} (hA : A.Full m) {i k c : Nat} (hi : i < A.nbrows) (hk : A.InRow i k)
    (hc : c < m) : k * m + c < A.vals.length := by
  rw [hA.val_len]
  exact blk_lt (hA.lt_nnz hi hk.2) hc

omit [CommRing K] in
theorem SR.Full.in_one_row {m : Nat} (hA : A.Full m) {i i' k : Nat} (hi : i < A.nbrows) (hi' : i' < A.nbrows)
    (h : A.InRow i k) (h' : A.InRow i' k) : i = i' := by
  by_contra hne
  rcases Nat.lt_or_gt_of_ne hne with hlt | hlt
  · have := hA.ptr_le (show i + 1 ≤ i' by omega) (by omega)
    have := h.2; have := h'.1; omega
  · have := hA.ptr_le (show i' + 1 ≤ i by omega) (by omega)
    have := h'.2; have := h.1; omega

/-- Adding a buffer at the stored block `(i0, j0)`. -/
theorem blockAdds_values {m : Nat} (hA : A.Full m) (hS : A.Sorted) {i0 k : Nat}
    (hi : i0 < A.nbrows) (hk : A.InRow i0 k) (buffer : List K) :
    Ok (forList (blockAdds m k buffer) atomicAdd A.vals) (fun v => A.ValuesAre m v (fun i j c =>
      A.cell m i j c + if i = i0 ∧ j = A.bcolind⟦k⟧ then buffer⟦c⟧ else 0)) := by
  refine (atomicAdds_ok _ _ ?_).mono ?_
  · intro e he
    simp only [blockAdds, List.mem_map, List.mem_range] at he
    obtain ⟨c, hc, rfl⟩ := he
    exact hA.block_lt hi hk hc
  · rintro v ⟨hl, hv⟩
    refine hA.valuesAre hS hl fun i hi' l hl' c hc => ?_
    rw [hv _ (hA.block_lt hi' hl' hc), addsAt_block hc, hA.cell_stored hS hi' hl']
    congr 1
    by_cases h : k = l
    · subst h
      rw [if_pos rfl, if_pos ⟨hA.in_one_row hi' hi hl' hk, rfl⟩]
    · rw [if_neg h, if_neg]
      rintro ⟨rfl, h2⟩
      exact h (hS.inj hi hk hl' h2.symm)

/-- **C46** (block class, `updateBlock`). The buffer is added to exactly the addressed block if that block is
stored, and the call reports it as found; otherwise nothing changes and it reports that it was not found. -/
theorem bsr_update_block (hA : A.Full (bs * bs)) (hS : A.Sorted) {si sj : Nat}
    (hi : si / bs < A.nbrows) {buffer : List K} (hb : bs * bs ≤ buffer.length) :
    Ok (bsrUpdateBlock bs A si sj buffer A.vals) (fun s =>
      (s.2 = true ↔ A.Stores (si / bs) (sj / bs)) ∧
      A.ValuesAre (bs * bs) s.1 (fun i j c =>
        A.cell (bs * bs) i j c + if i = si / bs ∧ j = sj / bs then buffer⟦c⟧ else 0)) := by
  by_cases h : A.Stores (si / bs) (sj / bs)
  · obtain ⟨k, hk, hc⟩ := h
    rw [bsrUpdateBlock_stored hA hS hi hk hc hb]
    refine (blockAdds_values hA hS hi hk buffer).bind fun v hv => Ok.pure ⟨?_, ?_⟩
    · exact ⟨fun _ => ⟨k, hk, hc⟩, fun _ => rfl⟩
    · rw [hc] at hv; exact hv
  · rw [bsrUpdateBlock_unstored hA hi h]
    refine Ok.pure ⟨?_, ?_⟩
    · exact ⟨fun h => absurd h (by simp), fun hs => absurd hs h⟩
    · refine hA.valuesAre hS rfl fun i hi' k hk c hc => ?_
      rw [if_neg, add_zero, hA.cell_stored hS hi' hk]
      rintro ⟨rfl, h2⟩
      exact h ⟨k, hk, h2⟩

/-- **C46** (block class, `updateDiagBlock`). The buffer is added to exactly the diagonal block. -/
theorem bsr_update_diag_block (hA : A.Full (bs * bs)) (hS : A.Sorted) (hD : A.HasDiag) {si : Nat}
    (hi : si / bs < A.nbrows) {buffer : List K} (hb : bs * bs ≤ buffer.length) :
    Ok (bsrUpdateDiagBlock bs A si buffer A.vals) (fun v =>
      A.ValuesAre (bs * bs) v (fun i j c =>
        A.cell (bs * bs) i j c + if i = si / bs ∧ j = si / bs then buffer⟦c⟧ else 0)) := by
  rw [bsrUpdateDiagBlock_adds hD hi hb]
  have := blockAdds_values hA hS hi (hD.inRow hi) buffer
  rw [hD.diag_col _ hi] at this
  exact this

/-- **C46** (block class, `submitBlock`). The addressed block is overwritten by the buffer if it is stored,
and the call reports it as found; every other block keeps its value; otherwise nothing changes. -/
theorem bsr_submit_block (hA : A.Full (bs * bs)) (hS : A.Sorted) {si sj : Nat}
    (hi : si / bs < A.nbrows) {buffer : List K} (hb : bs * bs ≤ buffer.length) :
    Ok (bsrSubmitBlock bs A si sj buffer) (fun s =>
      (s.2 = true ↔ A.Stores (si / bs) (sj / bs)) ∧
      A.ValuesAre (bs * bs) s.1 (fun i j c =>
        if i = si / bs ∧ j = sj / bs then buffer⟦c⟧ else A.cell (bs * bs) i j c)) := by
  have hl := hA.ptr_len
  have he := hA.end_len
  unfold bsrSubmitBlock
  dsimp only
  rw [rd_eq (show si / bs < A.browptr.length by omega), ok_bind,
    rd_eq (show si / bs < A.browendptr.length by omega), ok_bind, hA.end_eq _ hi]
  have e : ∀ j, A.browptr⟦si / bs⟧ ≤ j → j < A.browptr⟦si / bs + 1⟧ → rd A.bcolind j = .ok A.bcolind⟦j⟧ :=
    fun j _ h2 => by rw [rd_eq (by rw [hA.ind_len]; exact hA.lt_nnz hi h2)]
  rw [forRange_congr (body' := fun j (s : List K × Bool) => if A.bcolind⟦j⟧ = sj / bs then do
      let v ← forRange 0 (bs * bs) (fun k vals => do
        let b ← rd buffer k
        wr vals (j * (bs * bs) + k) b) s.1
      .ok (v, true) else .ok s) (fun j h1 h2 s => by rw [e j h1 h2, ok_bind])]
  by_cases h : A.Stores (si / bs) (sj / bs)
  · obtain ⟨k, hk, hc⟩ := h
    rw [forRange_find (fun j => A.bcolind⟦j⟧) (sj / bs)
      (fun j v => forRange 0 (bs * bs) (fun k vals => do
        let b ← rd buffer k
        wr vals (j * (bs * bs) + k) b) v) A.vals hk.1 hk.2 hc
      (fun l h1 h2 h3 => hS.inj hi ⟨h1, h2⟩ hk (by rw [h3, hc]))]
    refine Ok.bind (P := fun v => v.length = A.vals.length ∧ ∀ l c, c < bs * bs →
      v⟦l * (bs * bs) + c⟧ = if l = k then buffer⟦c⟧ else A.vals⟦l * (bs * bs) + c⟧) ?_ ?_
    · refine (forRange_ok (fun t (v : List K) => v.length = A.vals.length ∧ ∀ l c, c < bs * bs →
        v⟦l * (bs * bs) + c⟧ = if l = k ∧ c < t then buffer⟦c⟧ else A.vals⟦l * (bs * bs) + c⟧)
        (Nat.zero_le _) ?_ ?_).mono ?_
      · exact ⟨rfl, fun l c _ => by simp⟩
      · rintro t v _ ht ⟨hvl, hv⟩
        have hlt := hA.block_lt hi hk ht
        rw [rd_eq (by omega), ok_bind, wr_eq (by omega)]
        refine Ok.pure ⟨by rw [List.length_set]; exact hvl, fun l c hc' => ?_⟩
        by_cases hlc : l = k ∧ c = t
        · obtain ⟨rfl, rfl⟩ := hlc
          rw [get0_set_self (by omega), if_pos ⟨rfl, by omega⟩]
        · rw [get0_set_ne, hv l c hc']
          · by_cases h1 : l = k ∧ c < t
            · rw [if_pos h1, if_pos ⟨h1.1, by omega⟩]
            · rw [if_neg h1, if_neg]
              rintro ⟨h2, h3⟩
              exact hlc ⟨h2, by by_contra h4; exact h1 ⟨h2, by omega⟩⟩
          · intro heq
            obtain ⟨h1, h2⟩ := blk_ne ht hc' heq
            exact hlc ⟨h1.symm, h2.symm⟩
      · rintro v ⟨hvl, hv⟩
        refine ⟨hvl, fun l c hc' => ?_⟩
        rw [hv l c hc']
        by_cases h1 : l = k
        · rw [if_pos ⟨h1, hc'⟩, if_pos h1]
        · rw [if_neg (fun h => h1 h.1), if_neg h1]
    · rintro v ⟨hvl, hv⟩
      refine Ok.pure ⟨⟨fun _ => ⟨k, hk, hc⟩, fun _ => rfl⟩, hA.valuesAre hS hvl fun i hi' l hl' c hc' => ?_⟩
      rw [hv l c hc', hA.cell_stored hS hi' hl']
      by_cases h1 : l = k
      · subst h1
        rw [if_pos rfl, if_pos ⟨hA.in_one_row hi' hi hl' hk, hc⟩]
      · rw [if_neg h1, if_neg]
        rintro ⟨rfl, h2⟩
        exact h1 (hS.inj hi hl' hk (by rw [h2, hc]))
  · rw [forRange_find_none (fun j => A.bcolind⟦j⟧) (sj / bs) _ _ (fun k h1 h2 h3 => h ⟨k, ⟨h1, h2⟩, h3⟩)]
    refine Ok.pure ⟨⟨fun h => absurd h (by simp), fun hs => absurd hs h⟩, ?_⟩
    refine hA.valuesAre hS rfl fun i hi' k hk c hc => ?_
    rw [if_neg, hA.cell_stored hS hi' hk]
    rintro ⟨rfl, h2⟩
    exact h ⟨k, hk, h2⟩

end bsr

/-! ### Concurrent updates -/

/-- The call `run` on a matrix with `N` values is the sequence `adds` of atomic additions. -/
def IsAdds (N : Nat) (run : List K → C (List K)) (adds : List (Nat × K)) : Prop :=
  (∀ e ∈ adds, e.1 < N) ∧ ∀ vals : List K, vals.length = N → run vals = forList adds atomicAdd vals

/-- Calls `us`, each a sequence of atomic additions, run by any number of threads: their additions are executed in
any order. If each call on its own adds `d u`, then together they add the sum. -/
theorem concurrent_adds {U : Type} {A : SR K} {m : Nat} (hA : A.Full m) (hS : A.Sorted)
    (run : U → List K → C (List K)) (d : U → Nat → Nat → Nat → K) (us : List U)
    (hseq : ∀ u ∈ us, Ok (run u A.vals) (fun v => A.ValuesAre m v (fun i j c => A.cell m i j c + d u i j c)))
    (adds : U → List (Nat × K)) (hadds : ∀ u ∈ us, IsAdds A.vals.length (run u) (adds u))
    {l : List (Nat × K)} (hl : l.Perm (us.flatMap adds)) :
    Ok (forList l atomicAdd A.vals) (fun v =>
      A.ValuesAre m v (fun i j c => A.cell m i j c + (us.map fun u => d u i j c).sum)) := by
  refine (atomicAdds_ok l A.vals ?_).mono ?_
  · intro e he
    obtain ⟨u, hu, he'⟩ := List.mem_flatMap.mp (hl.mem_iff.mp he)
    exact (hadds u hu).1 e he'
  · rintro v ⟨hvl, hv⟩
    refine hA.valuesAre hS hvl fun i hi k hk c hc => ?_
    rw [hv _ (hA.block_lt hi hk hc), hA.cell_stored hS hi hk, addsAt_perm hl, addsAt_flatMap]
    congr 2
    refine List.map_congr_left fun u hu => ?_
    obtain ⟨w, hw, hwv⟩ := hseq u hu
    obtain ⟨hb, he⟩ := hadds u hu
    rw [he A.vals rfl] at hw
    obtain ⟨w', hw', hl', hv'⟩ := atomicAdds_ok (adds u) A.vals hb
    rw [hw] at hw'
    obtain rfl : w = w' := by injection hw'
    have h1 := hv' _ (hA.block_lt hi hk hc)
    have h2 := (hwv.2 i hi A.bcolind⟦k⟧ c hc).1 ⟨k, hk, rfl⟩
    have h3 := hwv.1.cell_stored (show ({ A with vals := w } : SR K).Sorted from hS) (i := i) (k := k) hi hk m c
    have h4 : w⟦k * m + c⟧ = A.vals⟦k * m + c⟧ + d u i A.bcolind⟦k⟧ c := by
      rw [← hA.cell_stored hS hi hk m c]
      exact h3.symm.trans h2
    rw [h4] at h1
    exact (add_left_cancel h1).symm

/-- An update call of the block class. -/
inductive BsrUpd (K : Type)
  | block (starti startj : Nat) (buffer : List K)
  | diag (starti : Nat) (buffer : List K)

/-- Run an update call on the current values. -/
def BsrUpd.run (bs : Nat) (A : SR K) : BsrUpd K → List K → C (List K)
  | .block si sj b, vals => do
    let s ← bsrUpdateBlock bs A si sj b vals
    .ok s.1
  | .diag si b, vals => bsrUpdateDiagBlock bs A si b vals

/-- The arguments of an update call are in range. -/
def BsrUpd.Valid (bs : Nat) (A : SR K) : BsrUpd K → Prop
  | .block si _ b => si / bs < A.nbrows ∧ bs * bs ≤ b.length
  | .diag si b => si / bs < A.nbrows ∧ bs * bs ≤ b.length

/-- What an update call adds to block `(i, j)`. -/
def BsrUpd.contrib (bs : Nat) : BsrUpd K → Nat → Nat → Nat → K
  | .block si sj b, i, j, c => if i = si / bs ∧ j = sj / bs then b⟦c⟧ else 0
  | .diag si b, i, j, c => if i = si / bs ∧ j = si / bs then b⟦c⟧ else 0

/-- Every update call of the block class is a sequence of atomic additions that does not depend on the values. -/
theorem bsr_update_isAdds {A : SR K} {bs : Nat} (hA : A.Full (bs * bs)) (hS : A.Sorted) (hD : A.HasDiag)
    (u : BsrUpd K) (hu : u.Valid bs A) : ∃ adds, IsAdds A.vals.length (u.run bs A) adds := by
  have hbnd : ∀ {i0 k : Nat} {b : List K}, i0 < A.nbrows → A.InRow i0 k →
      ∀ e ∈ blockAdds (bs * bs) k b, e.1 < A.vals.length := by
    intro i0 k b hi hk e he
    simp only [blockAdds, List.mem_map, List.mem_range] at he
    obtain ⟨c, hc, rfl⟩ := he
    exact hA.block_lt hi hk hc
  cases u with
  | block si sj b =>
    obtain ⟨hi, hb⟩ := hu
    by_cases h : A.Stores (si / bs) (sj / bs)
    · obtain ⟨k, hk, hc⟩ := h
      refine ⟨blockAdds (bs * bs) k b, hbnd hi hk, fun vals _ => ?_⟩
      simp only [BsrUpd.run]
      rw [bsrUpdateBlock_stored hA hS hi hk hc hb]
      cases forList (blockAdds (bs * bs) k b) atomicAdd vals <;> rfl
    · refine ⟨[], by simp, fun vals _ => ?_⟩
      simp only [BsrUpd.run]
      rw [bsrUpdateBlock_unstored hA hi h]
      rfl
  | diag si b =>
    obtain ⟨hi, hb⟩ := hu
    exact ⟨_, hbnd hi (hD.inRow hi), fun vals _ => bsrUpdateDiagBlock_adds hD hi hb vals⟩

/-- **C46** (block class, concurrency). Any number of `updateBlock` and `updateDiagBlock` calls issued
by any threads, whose atomic additions are interleaved in any order, add to every block the sum of the
buffers addressed to it. -/
theorem bsr_updates_concurrent {A : SR K} {bs : Nat} (hA : A.Full (bs * bs)) (hS : A.Sorted) (hD : A.HasDiag)
    (us : List (BsrUpd K)) (hus : ∀ u ∈ us, u.Valid bs A)
    (adds : BsrUpd K → List (Nat × K)) (hadds : ∀ u ∈ us, IsAdds A.vals.length (u.run bs A) (adds u))
    {l : List (Nat × K)} (hl : l.Perm (us.flatMap adds)) :
    Ok (forList l atomicAdd A.vals) (fun v => A.ValuesAre (bs * bs) v (fun i j c =>
      A.cell (bs * bs) i j c + (us.map fun u => u.contrib bs i j c).sum)) := by
  refine concurrent_adds hA hS (BsrUpd.run bs A) (BsrUpd.contrib bs) us ?_ adds hadds hl
  intro u hu
  have hv := hus u hu
  cases u with
  | block si sj b =>
    exact (bsr_update_block hA hS hv.1 hv.2).bind fun s hs => Ok.pure hs.2
  | diag si b => exact bsr_update_diag_block hA hS hD hv.1 hv.2

/-! ### Scalar class -/

section csr
variable {A : SR K}

/-- All entries of the block with first row `si`, first column `sj` and dimensions `bsi × bsj` are
stored. -/
def SR.StoresBlock (A : SR K) (si sj bsi bsj : Nat) : Prop :=
  si + bsi ≤ A.nbrows ∧ ∀ r < bsi, ∀ k < bsj, A.Stores (si + r) (sj + k)

omit [CommRing K] in
theorem SR.Sorted.runs (hS : A.Sorted) {si sj bsi bsj : Nat} (hpos : 0 < bsj)
    (h : A.StoresBlock si sj bsi bsj) : ∃ P : Nat → Nat, ∀ r < bsi, A.Run (si + r) sj bsj (P r) := by
  have : ∀ r, ∃ p, r < bsi → A.Run (si + r) sj bsj p := by
    intro r
    by_cases hr : r < bsi
    · obtain ⟨p, hp⟩ := hS.run (i := si + r) (by have := h.1; omega) hpos (h.2 r hr)
      exact ⟨p, fun _ => hp⟩
    · exact ⟨0, fun h => absurd h hr⟩
  choose P hP using this
  exact ⟨P, hP⟩

/-- The additions of `updateBlock` for buffer index `locrow*stride + k`. -/
def csrAdds (P : Nat → Nat) (bsi bsj stride : Nat) (buffer : List K) : List (Nat × K) :=
  (List.range bsi).flatMap fun r => (List.range bsj).map fun k => (P r + k, buffer⟦r * stride + k⟧)

theorem addsAt_csr (hA : A.Full 1) (hS : A.Sorted) {si sj bsi bsj stride : Nat} {P : Nat → Nat}
    (hin : si + bsi ≤ A.nbrows)
    (hP : ∀ r < bsi, A.Run (si + r) sj bsj (P r)) (buffer : List K) {i q : Nat} (hi : i < A.nbrows)
    (hq : A.InRow i q) :
    addsAt (csrAdds P bsi bsj stride buffer) q =
      if (si ≤ i ∧ i < si + bsi) ∧ sj ≤ A.bcolind⟦q⟧ ∧ A.bcolind⟦q⟧ < sj + bsj then
        buffer⟦(i - si) * stride + (A.bcolind⟦q⟧ - sj)⟧ else 0 := by
  rw [csrAdds, addsAt_flatMap]
  have e : ((List.range bsi).map fun r => addsAt ((List.range bsj).map fun k =>
      (P r + k, buffer⟦r * stride + k⟧)) q).sum =
      ∑ r ∈ range bsi, ∑ k ∈ range bsj, if P r + k = q then buffer⟦r * stride + k⟧ else 0 := by
    show _ = ((List.range bsi).map fun r => ∑ k ∈ range bsj, if P r + k = q then buffer⟦r * stride + k⟧ else 0).sum
    congr 1
    refine List.map_congr_left fun r _ => ?_
    rw [addsAt, List.map_map]
    rfl
  rw [e]
  have hcond : ∀ r < bsi, ∀ k < bsj, P r + k = q ↔ si + r = i ∧ sj + k = A.bcolind⟦q⟧ := by
    intro r hr k hk
    have hR := hP r hr
    constructor
    · rintro rfl
      exact ⟨hA.in_one_row (by omega) hi (hR.inRow k hk) hq, (hR.col k hk).symm⟩
    · rintro ⟨rfl, h2⟩
      exact hS.inj hi (hR.inRow k hk) hq (by rw [hR.col k hk, h2])
  split
  next h =>
    obtain ⟨⟨h1, h2⟩, h3, h4⟩ := h
    rw [Finset.sum_eq_single (i - si), Finset.sum_eq_single (A.bcolind⟦q⟧ - sj)]
    · rw [if_pos ((hcond _ (by omega) _ (by omega)).mpr ⟨by omega, by omega⟩)]
    · intro k hk hne
      rw [if_neg]
      intro hh
      have := (hcond _ (by omega) _ (mem_range.mp hk)).mp hh
      omega
    · intro hn; exact absurd (mem_range.mpr (by omega)) hn
    · intro r hr hne
      refine Finset.sum_eq_zero fun k hk => ?_
      rw [if_neg]
      intro hh
      have := (hcond _ (mem_range.mp hr) _ (mem_range.mp hk)).mp hh
      omega
    · intro hn; exact absurd (mem_range.mpr (by omega)) hn
  next h =>
    refine Finset.sum_eq_zero fun r hr => Finset.sum_eq_zero fun k hk => ?_
    have hr := mem_range.mp hr
    have hk := mem_range.mp hk
    rw [if_neg]
    intro hh
    have := (hcond _ hr _ hk).mp hh
    exact h ⟨⟨by omega, by omega⟩, by omega, by omega⟩

theorem csrAdds_lt (hA : A.Full 1) {si sj bsi bsj stride : Nat} {P : Nat → Nat}
    (hin : si + bsi ≤ A.nbrows)
    (hP : ∀ r < bsi, A.Run (si + r) sj bsj (P r)) (buffer : List K) :
    ∀ e ∈ csrAdds P bsi bsj stride buffer, e.1 < A.vals.length := by
  intro e he
  simp only [csrAdds, List.mem_flatMap, List.mem_map, List.mem_range] at he
  obtain ⟨r, hr, k, hk, rfl⟩ := he
  have := hA.lt_nnz (i := si + r) (by omega) ((hP r hr).inRow k hk).2
  have hv := hA.val_len
  show P r + k < _
  omega

theorem csrAdds_values (hA : A.Full 1) (hS : A.Sorted) {si sj bsi bsj stride : Nat} {P : Nat → Nat}
    (hin : si + bsi ≤ A.nbrows)
    (hP : ∀ r < bsi, A.Run (si + r) sj bsj (P r)) (buffer : List K) :
    Ok (forList (csrAdds P bsi bsj stride buffer) atomicAdd A.vals) (fun v => A.ValuesAre 1 v (fun i j c =>
      A.cell 1 i j c + if (si ≤ i ∧ i < si + bsi) ∧ sj ≤ j ∧ j < sj + bsj then
        buffer⟦(i - si) * stride + (j - sj)⟧ else 0)) := by
  refine (atomicAdds_ok _ _ (csrAdds_lt hA hin hP buffer)).mono ?_
  rintro v ⟨hl, hv⟩
  refine hA.valuesAre hS hl fun i hi q hq c hc => ?_
  obtain rfl : c = 0 := by omega
  have := hA.block_lt hi hq hc
  rw [hv _ this, hA.cell_stored hS hi hq]
  simp only [Nat.mul_one, Nat.add_zero]
  rw [addsAt_csr hA hS hin hP buffer hi hq]

theorem csrUpdateBlock_adds (hA : A.Full 1) (hS : A.Sorted) {si sj bsi bsj : Nat} {P : Nat → Nat}
    (hpos : 0 < bsj) (hin : si + bsi ≤ A.nbrows)
    (hP : ∀ r < bsi, A.Run (si + r) sj bsj (P r)) {buffer : List K}
    (hb : ∀ r < bsi, ∀ k < bsj, r * bsi + k < buffer.length) (vals : List K) :
    csrUpdateBlock A si sj buffer bsi bsj vals = forList (csrAdds P bsi bsj bsi buffer) atomicAdd vals := by
  unfold csrUpdateBlock csrAdds
  rw [forList_flatMap]
  have e : List.range bsi = (List.range' si (si + bsi - si)).map (fun i => i - si) := by
    rw [show si + bsi - si = bsi by omega, List.range_eq_range']
    apply List.ext_getElem
    · simp
    · intro n h1 h2; simp
  rw [e, forList_map]
  refine forList_congr fun i hi s => ?_
  have hi' : si ≤ i ∧ i < si + bsi := by
    simp [List.mem_range'_1] at hi; omega
  have hR := hP (i - si) (by omega)
  rw [show si + (i - si) = i by omega] at hR
  rw [csrBlockRow_run hA hS (by omega) hpos hR, ← forRange_adds,
    forRange_congr (body' := fun k vals => atomicAdd (P (i - si) + k, buffer⟦(i - si) * bsi + k⟧) vals)]
  · cases forRange 0 bsj (fun k vals => atomicAdd (P (i - si) + k, buffer⟦(i - si) * bsi + k⟧) vals) s <;> rfl
  · intro k _ hk v
    rw [rd_eq (hb (i - si) (by omega) k hk), ok_bind]

theorem csrUpdateDiagBlock_adds (hS : A.Sorted) (hD : A.HasDiag) {si bs : Nat} {P : Nat → Nat}
    (hin : si + bs ≤ A.nbrows)
    (hP : ∀ r < bs, A.Run (si + r) si bs (P r)) {buffer : List K}
    (hb : bs * bs ≤ buffer.length) (vals : List K) :
    csrUpdateDiagBlock A si buffer bs vals = forList (csrAdds P bs bs bs buffer) atomicAdd vals := by
  unfold csrUpdateDiagBlock csrAdds
  rw [forList_flatMap]
  have e : List.range bs = (List.range' si (si + bs - si)).map (fun i => i - si) := by
    rw [show si + bs - si = bs by omega, List.range_eq_range']
    apply List.ext_getElem
    · simp
    · intro n h1 h2; simp
  have e' : forList (List.range bs) (fun r s => forList ((List.range bs).map fun k =>
      (P r + k, buffer⟦r * bs + k⟧)) atomicAdd s) vals =
      forList (List.range' si (si + bs - si)) (fun i s => forList ((List.range bs).map fun k =>
      (P (i - si) + k, buffer⟦(i - si) * bs + k⟧)) atomicAdd s) vals := by
    rw [← forList_map (List.range' si (si + bs - si)) (fun i => i - si) (fun r s =>
      forList ((List.range bs).map fun k => (P r + k, buffer⟦r * bs + k⟧)) atomicAdd s), ← e]
  rw [e']
  refine forList_congr fun i hi s => ?_
  have hi' : si ≤ i ∧ i < si + bs := by
    simp [List.mem_range'_1] at hi; omega
  have hR := hP (i - si) (by omega)
  rw [show si + (i - si) = i by omega] at hR
  have hd : A.diagind⟦i⟧ = P (i - si) + (i - si) := by
    refine hS.inj (show i < A.nbrows by omega) (hD.inRow (by omega)) (hR.inRow (i - si) (by omega)) ?_
    rw [hD.diag_col i (by omega), hR.col (i - si) (by omega)]
    omega
  dsimp only
  rw [rd_eq (by rw [hD.diag_len]; omega), ok_bind, hd]
  rw [show P (i - si) + (i - si) - (i - si) = P (i - si) by omega, forList_map]
  have e2 : List.range' (P (i - si)) (P (i - si) + bs - P (i - si)) = (List.range bs).map (fun k => P (i - si) + k) := by
    rw [show P (i - si) + bs - P (i - si) = bs by omega, List.range_eq_range', List.map_add_range']
    rfl
  show forList _ _ s = _
  rw [e2, forList_map]
  refine forList_congr fun k hk v => ?_
  have hk := List.mem_range.mp hk
  rw [show P (i - si) + k + (i - si) - (P (i - si) + (i - si)) = k by omega]
  have : (i - si) * bs + k < bs * bs := blk_lt (by omega) hk
  rw [rd_eq (by omega), ok_bind]

/-- **C46** (scalar class, `updateBlock`), what the code does: entry `(r, k)` of the addressed block receives the
buffer element `r*bsi + k`, provided that this is inside the buffer. -/
theorem csr_update_block_stride (hA : A.Full 1) (hS : A.Sorted) {si sj bsi bsj : Nat} (hpos : 0 < bsj)
    (hst : A.StoresBlock si sj bsi bsj) {buffer : List K}
    (hb : ∀ r < bsi, ∀ k < bsj, r * bsi + k < buffer.length) :
    Ok (csrUpdateBlock A si sj buffer bsi bsj A.vals) (fun v => A.ValuesAre 1 v (fun i j c =>
      A.cell 1 i j c + if (si ≤ i ∧ i < si + bsi) ∧ sj ≤ j ∧ j < sj + bsj then
        buffer⟦(i - si) * bsi + (j - sj)⟧ else 0)) := by
  obtain ⟨P, hP⟩ := hS.runs hpos hst
  rw [csrUpdateBlock_adds hA hS hpos hst.1 hP hb]
  exact csrAdds_values hA hS hst.1 hP buffer

/-- **C46** (scalar class, `updateBlock`), square blocks only: the row-major buffer is added to exactly
the addressed block. For rectangular blocks the claim is false, see `csr_update_block_rect_wrong`. -/
theorem csr_update_block_partial (hA : A.Full 1) (hS : A.Sorted) {si sj bs : Nat} (hpos : 0 < bs)
    (hst : A.StoresBlock si sj bs bs) {buffer : List K} (hb : bs * bs ≤ buffer.length) :
    Ok (csrUpdateBlock A si sj buffer bs bs A.vals) (fun v => A.ValuesAre 1 v (fun i j c =>
      A.cell 1 i j c + if (si ≤ i ∧ i < si + bs) ∧ sj ≤ j ∧ j < sj + bs then
        buffer⟦(i - si) * bs + (j - sj)⟧ else 0)) :=
  csr_update_block_stride hA hS hpos hst fun _ hr _ hk => (blk_lt hr hk).trans_le hb

/-- **C46** (scalar class, `updateDiagBlock`). The row-major buffer is added to exactly the diagonal block. -/
theorem csr_update_diag_block (hA : A.Full 1) (hS : A.Sorted) (hD : A.HasDiag) {si bs : Nat} (hpos : 0 < bs)
    (hst : A.StoresBlock si si bs bs) {buffer : List K} (hb : bs * bs ≤ buffer.length) :
    Ok (csrUpdateDiagBlock A si buffer bs A.vals) (fun v => A.ValuesAre 1 v (fun i j c =>
      A.cell 1 i j c + if (si ≤ i ∧ i < si + bs) ∧ si ≤ j ∧ j < si + bs then
        buffer⟦(i - si) * bs + (j - si)⟧ else 0)) := by
  obtain ⟨P, hP⟩ := hS.runs hpos hst
  rw [csrUpdateDiagBlock_adds hS hD hst.1 hP hb]
  exact csrAdds_values hA hS hst.1 hP buffer

/-- **C46** (scalar class, `submitBlock`). The addressed block, of any dimensions, is overwritten by the row-major
buffer; every other entry keeps its value. -/
theorem csr_submit_block (hA : A.Full 1) (hS : A.Sorted) {si sj bsi bsj : Nat} (hpos : 0 < bsj)
    (hst : A.StoresBlock si sj bsi bsj) {buffer : List K} (hb : bsi * bsj ≤ buffer.length) :
    Ok (csrSubmitBlock A si sj buffer bsi bsj) (fun v => A.ValuesAre 1 v (fun i j c =>
      if (si ≤ i ∧ i < si + bsi) ∧ sj ≤ j ∧ j < sj + bsj then
        buffer⟦(i - si) * bsj + (j - sj)⟧ else A.cell 1 i j c)) := by
  obtain ⟨P, hP⟩ := hS.runs hpos hst
  have hin := hst.1
  unfold csrSubmitBlock
  refine (forRange_ok (fun t (v : List K) => v.length = A.vals.length ∧ ∀ i < A.nbrows, ∀ q, A.InRow i q →
    v⟦q⟧ = if (si ≤ i ∧ i < t) ∧ sj ≤ A.bcolind⟦q⟧ ∧ A.bcolind⟦q⟧ < sj + bsj then
      buffer⟦(i - si) * bsj + (A.bcolind⟦q⟧ - sj)⟧ else A.vals⟦q⟧) (by omega) ?_ ?_).mono ?_
  · refine ⟨rfl, fun i hi q hq => ?_⟩
    rw [if_neg (by omega)]
  · rintro t v h1 h2 ⟨hvl, hv⟩
    have hR := hP (t - si) (by omega)
    rw [show si + (t - si) = t by omega] at hR
    have hpos' : ∀ k < bsj, P (t - si) + k < A.vals.length := fun k hk => by
      have := hA.lt_nnz (i := t) (by omega) (hR.inRow k hk).2
      have := hA.val_len
      omega
    rw [csrBlockRow_run hA hS (by omega) hpos hR]
    refine Ok.bind (P := fun s : Nat × List K => s.2.length = A.vals.length ∧ ∀ i < A.nbrows, ∀ q, A.InRow i q →
      s.2⟦q⟧ = if (si ≤ i ∧ i < t + 1) ∧ sj ≤ A.bcolind⟦q⟧ ∧ A.bcolind⟦q⟧ < sj + bsj then
        buffer⟦(i - si) * bsj + (A.bcolind⟦q⟧ - sj)⟧ else A.vals⟦q⟧) ?_ (fun s hs => Ok.pure hs)
    refine Ok.bind (P := fun w : List K => w.length = A.vals.length ∧ ∀ i < A.nbrows, ∀ q, A.InRow i q →
      w⟦q⟧ = if i = t ∧ sj ≤ A.bcolind⟦q⟧ ∧ A.bcolind⟦q⟧ < sj + bsj then
        buffer⟦(t - si) * bsj + (A.bcolind⟦q⟧ - sj)⟧ else v⟦q⟧) ?_ ?_
    · refine (forRange_ok (fun n (w : List K) => w.length = A.vals.length ∧ ∀ i < A.nbrows, ∀ q, A.InRow i q →
        w⟦q⟧ = if i = t ∧ sj ≤ A.bcolind⟦q⟧ ∧ A.bcolind⟦q⟧ < sj + n then
          buffer⟦(t - si) * bsj + (A.bcolind⟦q⟧ - sj)⟧ else v⟦q⟧) (Nat.zero_le _) ?_ ?_).mono ?_
      · exact ⟨hvl, fun i hi q hq => by rw [if_neg (by omega)]⟩
      · rintro n w _ hn ⟨hwl, hw⟩
        have hlt : (t - si) * bsj + n < buffer.length := (blk_lt (by omega) hn).trans_le hb
        rw [rd_eq hlt, ok_bind, wr_eq (by rw [hwl]; exact hpos' n hn)]
        refine Ok.pure ⟨by rw [List.length_set]; exact hwl, fun i hi q hq => ?_⟩
        by_cases hq' : P (t - si) + n = q
        · subst hq'
          have hit : i = t := hA.in_one_row hi (by omega) hq (hR.inRow n hn)
          have hcol := hR.col n hn
          rw [get0_set_self (by rw [hwl]; exact hpos' n hn), if_pos ⟨hit, by omega, by omega⟩, hcol]
          congr 2; omega
        · rw [get0_set_ne hq', hw i hi q hq]
          have hne : ¬ (i = t ∧ A.bcolind⟦q⟧ = sj + n) := by
            rintro ⟨rfl, h4⟩
            exact hq' (hS.inj hi (hR.inRow n hn) hq (by rw [hR.col n hn, h4]))
          by_cases hc : i = t ∧ sj ≤ A.bcolind⟦q⟧ ∧ A.bcolind⟦q⟧ < sj + n
          · rw [if_pos hc, if_pos ⟨hc.1, hc.2.1, by omega⟩]
          · rw [if_neg hc, if_neg]
            rintro ⟨h3, h4, h5⟩
            exact hc ⟨h3, h4, by by_contra h6; exact hne ⟨h3, by omega⟩⟩
      · exact fun w hw => hw
    · rintro w ⟨hwl, hw⟩
      refine Ok.pure ⟨hwl, fun i hi q hq => ?_⟩
      show w⟦q⟧ = _
      rw [hw i hi q hq]
      by_cases hit : i = t
      · subst hit
        by_cases hc : sj ≤ A.bcolind⟦q⟧ ∧ A.bcolind⟦q⟧ < sj + bsj
        · rw [if_pos ⟨rfl, hc⟩, if_pos ⟨⟨h1, by omega⟩, hc⟩]
        · rw [if_neg (fun h => hc h.2), if_neg (fun h => hc h.2), hv i hi q hq, if_neg (fun h => hc h.2)]
      · rw [if_neg (fun h => hit h.1), hv i hi q hq]
        have : (si ≤ i ∧ i < t) ↔ (si ≤ i ∧ i < t + 1) := by omega
        simp only [this]
  · rintro v ⟨hvl, hv⟩
    refine hA.valuesAre hS hvl fun i hi q hq c hc => ?_
    obtain rfl : c = 0 := by omega
    rw [hA.cell_stored hS hi hq]
    simp only [Nat.mul_one, Nat.add_zero]
    exact hv i hi q hq

end csr

/-- An update call of the scalar class with a square block. -/
inductive CsrUpd (K : Type)
  | block (starti startj bs : Nat) (buffer : List K)
  | diag (starti bs : Nat) (buffer : List K)

/-- Run an update call on the current values. -/
def CsrUpd.run (A : SR K) : CsrUpd K → List K → C (List K)
  | .block si sj bs b, vals => csrUpdateBlock A si sj b bs bs vals
  | .diag si bs b, vals => csrUpdateDiagBlock A si b bs vals

/-- The addressed block is stored and the buffer is large enough. -/
def CsrUpd.Valid (A : SR K) : CsrUpd K → Prop
  | .block si sj bs b => 0 < bs ∧ A.StoresBlock si sj bs bs ∧ bs * bs ≤ b.length
  | .diag si bs b => 0 < bs ∧ A.StoresBlock si si bs bs ∧ bs * bs ≤ b.length

/-- What an update call adds to entry `(i, j)`. -/
def CsrUpd.contrib : CsrUpd K → Nat → Nat → Nat → K
  | .block si sj bs b, i, j, _ =>
    if (si ≤ i ∧ i < si + bs) ∧ sj ≤ j ∧ j < sj + bs then b⟦(i - si) * bs + (j - sj)⟧ else 0
  | .diag si bs b, i, j, _ =>
    if (si ≤ i ∧ i < si + bs) ∧ si ≤ j ∧ j < si + bs then b⟦(i - si) * bs + (j - si)⟧ else 0

/-- Every update call of the scalar class is a sequence of atomic additions that does not depend on the values. -/
theorem csr_update_isAdds {A : SR K} (hA : A.Full 1) (hS : A.Sorted) (hD : A.HasDiag)
    (u : CsrUpd K) (hu : u.Valid A) : ∃ adds, IsAdds A.vals.length (u.run A) adds := by
  cases u with
  | block si sj bs b =>
    obtain ⟨hpos, hst, hb⟩ := hu
    obtain ⟨P, hP⟩ := hS.runs hpos hst
    exact ⟨_, csrAdds_lt hA hst.1 hP b, fun vals _ =>
      csrUpdateBlock_adds hA hS hpos hst.1 hP (fun r hr k hk => (blk_lt hr hk).trans_le hb) vals⟩
  | diag si bs b =>
    obtain ⟨hpos, hst, hb⟩ := hu
    obtain ⟨P, hP⟩ := hS.runs hpos hst
    exact ⟨_, csrAdds_lt hA hst.1 hP b, fun vals _ => csrUpdateDiagBlock_adds hS hD hst.1 hP hb vals⟩

/-- **C46** (scalar class, concurrency). Any number of `updateBlock` (square blocks) and
`updateDiagBlock` calls issued by any threads, whose atomic additions are interleaved in any order, add to every
entry the sum of the buffer elements addressed to it. -/
theorem csr_updates_concurrent {A : SR K} (hA : A.Full 1) (hS : A.Sorted) (hD : A.HasDiag)
    (us : List (CsrUpd K)) (hus : ∀ u ∈ us, u.Valid A)
    (adds : CsrUpd K → List (Nat × K)) (hadds : ∀ u ∈ us, IsAdds A.vals.length (u.run A) (adds u))
    {l : List (Nat × K)} (hl : l.Perm (us.flatMap adds)) :
    Ok (forList l atomicAdd A.vals) (fun v => A.ValuesAre 1 v (fun i j c =>
      A.cell 1 i j c + (us.map fun u => u.contrib i j c).sum)) := by
  refine concurrent_adds hA hS (CsrUpd.run A) CsrUpd.contrib us ?_ adds hadds hl
  intro u hu
  have hv := hus u hu
  cases u with
  | block si sj bs b => exact csr_update_block_partial hA hS hv.1 hv.2.1 hv.2.2
  | diag si bs b => exact csr_update_diag_block hA hS hD hv.1 hv.2.1 hv.2.2

/-! ### Zeroing and scaling -/

/-- A race-free parallel loop over the values, position by position. -/
theorem parRange_cells {A : SR K} {sched : List Nat → List Nat} (hs : IsSched sched) {N : Nat}
    (body : Nat → List K → C (List K)) (g : K → K) (hN : N = A.vals.length)
    (hbody : ∀ i < N, ∀ v : List K, v.length = N → body i v = .ok (v.set i (g v⟦i⟧))) :
    Ok (parRange sched N body A.vals) (fun v => v.length = A.vals.length ∧ ∀ p < N, v⟦p⟧ = g A.vals⟦p⟧) := by
  have hperm := hs (List.range N)
  have hnd : (sched (List.range N)).Nodup := hperm.nodup_iff.mpr List.nodup_range
  unfold parRange
  refine (forList_ok (fun done (v : List K) => v.length = A.vals.length ∧ ∀ p < N,
    v⟦p⟧ = if p ∈ done then g A.vals⟦p⟧ else A.vals⟦p⟧) ⟨rfl, fun p _ => by simp⟩ ?_).mono ?_
  · rintro done i rest v hsp ⟨hvl, hv⟩
    have hi : i < N := List.mem_range.mp (hperm.mem_iff.mp (by rw [hsp]; simp))
    have hnotin : i ∉ done := by
      rw [hsp] at hnd
      have := List.nodup_append.mp hnd
      intro h
      exact this.2.2 i h i (by simp) rfl
    rw [hbody i hi v (by omega)]
    refine Ok.pure ⟨by rw [List.length_set]; exact hvl, fun p hp => ?_⟩
    by_cases hpi : i = p
    · subst hpi
      rw [get0_set_self (by omega), hv i hi, if_neg hnotin, if_pos (by simp)]
    · rw [get0_set_ne hpi, hv p hp]
      have : p ∈ done ++ [i] ↔ p ∈ done := by simp [Ne.symm hpi]
      simp only [this]
  · rintro v ⟨hvl, hv⟩
    refine ⟨hvl, fun p hp => ?_⟩
    rw [hv p hp, if_pos (hperm.mem_iff.mpr (List.mem_range.mpr hp))]

/-- `setAllZero` sets every stored block to zero, for every schedule (block class). -/
theorem bsr_set_all_zero {A : SR K} {bs : Nat} (hA : A.Full (bs * bs)) (hS : A.Sorted)
    (hn : A.nnzb = A.browptr⟦A.nbrows⟧) {sched : List Nat → List Nat} (hs : IsSched sched) :
    Ok (bsrSetAllZero bs sched A) (fun v => A.ValuesAre (bs * bs) v (fun _ _ _ => 0)) := by
  unfold bsrSetAllZero
  have hlen : A.nnzb * bs * bs = A.vals.length := by rw [hA.val_len, hn]; ring
  refine (parRange_cells hs _ (fun _ => 0) hlen ?_).mono ?_
  · intro i hi v hv
    rw [wr_eq (by omega)]
  · rintro v ⟨hvl, hv⟩
    exact hA.valuesAre hS hvl fun i hi k hk c hc => hv _ (by rw [hlen]; exact hA.block_lt hi hk hc)

/-- `setAllZero` sets every stored entry to zero, for every schedule (scalar class). -/
theorem csr_set_all_zero {A : SR K} (hA : A.Full 1) (hS : A.Sorted)
    {sched : List Nat → List Nat} (hs : IsSched sched) :
    Ok (csrSetAllZero sched A) (fun v => A.ValuesAre 1 v (fun _ _ _ => 0)) := by
  unfold csrSetAllZero
  have hl := hA.ptr_len
  rw [rd_eq (by omega), ok_bind]
  have hlen : A.browptr⟦A.nbrows⟧ = A.vals.length := by rw [hA.val_len]; ring
  refine (parRange_cells hs _ (fun _ => 0) hlen ?_).mono ?_
  · intro i hi v hv
    rw [wr_eq (by omega)]
  · rintro v ⟨hvl, hv⟩
    exact hA.valuesAre hS hvl fun i hi k hk c hc => hv _ (by rw [hlen]; exact hA.block_lt hi hk hc)

/-- `scaleAll` multiplies every stored entry by the factor, for every schedule (scalar class). -/
theorem csr_scale_all {A : SR K} (hA : A.Full 1) (hS : A.Sorted) (factor : K)
    {sched : List Nat → List Nat} (hs : IsSched sched) :
    Ok (csrScaleAll sched factor A) (fun v => A.ValuesAre 1 v (fun i j c => A.cell 1 i j c * factor)) := by
  unfold csrScaleAll
  have hl := hA.ptr_len
  rw [rd_eq (by omega), ok_bind]
  have hlen : A.browptr⟦A.nbrows⟧ = A.vals.length := by rw [hA.val_len]; ring
  refine (parRange_cells hs _ (fun x => x * factor) hlen ?_).mono ?_
  · intro i hi v hv
    rw [rd_eq (by omega), ok_bind, wr_eq (by omega)]
  · rintro v ⟨hvl, hv⟩
    refine hA.valuesAre hS hvl fun i hi k hk c hc => ?_
    rw [hv _ (by rw [hlen]; exact hA.block_lt hi hk hc), hA.cell_stored hS hi hk]

/-- `setDiagZero` sets exactly the diagonal entries to zero, for every schedule (scalar class). -/
theorem csr_set_diag_zero {A : SR K} (hA : A.Full 1) (hS : A.Sorted) (hD : A.HasDiag)
    {sched : List Nat → List Nat} (hs : IsSched sched) :
    Ok (csrSetDiagZero sched A) (fun v => A.ValuesAre 1 v (fun i j c =>
      if i = j then 0 else A.cell 1 i j c)) := by
  have hperm := hs (List.range A.nbrows)
  unfold csrSetDiagZero parRange
  refine (forList_ok (fun done (v : List K) => v.length = A.vals.length ∧ ∀ i < A.nbrows, ∀ q, A.InRow i q →
    v⟦q⟧ = if i ∈ done ∧ A.bcolind⟦q⟧ = i then 0 else A.vals⟦q⟧) ⟨rfl, fun i _ q _ => by simp⟩ ?_).mono ?_
  · rintro done r rest v hsp ⟨hvl, hv⟩
    have hr : r < A.nbrows := List.mem_range.mp (hperm.mem_iff.mp (by rw [hsp]; simp))
    have hd := hD.inRow hr
    have hlt : A.diagind⟦r⟧ < v.length := by
      have := hA.lt_nnz hr hd.2; have := hA.val_len; omega
    rw [rd_eq (by rw [hD.diag_len]; exact hr), ok_bind, wr_eq hlt]
    refine Ok.pure ⟨by rw [List.length_set]; exact hvl, fun i hi q hq => ?_⟩
    by_cases hqd : A.diagind⟦r⟧ = q
    · subst hqd
      have : i = r := hA.in_one_row hi hr hq hd
      subst this
      rw [get0_set_self hlt, if_pos ⟨by simp, hD.diag_col i hi⟩]
    · rw [get0_set_ne hqd, hv i hi q hq]
      have : (i ∈ done ∧ A.bcolind⟦q⟧ = i) ↔ (i ∈ done ++ [r] ∧ A.bcolind⟦q⟧ = i) := by
        constructor
        · rintro ⟨h1, h2⟩; exact ⟨by simp [h1], h2⟩
        · rintro ⟨h1, h2⟩
          refine ⟨?_, h2⟩
          rw [List.mem_append, List.mem_singleton] at h1
          rcases h1 with h1 | rfl
          · exact h1
          · exact absurd (hS.inj hi hd hq (by rw [hD.diag_col i hi, h2])) hqd
      simp only [this]
  · rintro v ⟨hvl, hv⟩
    refine hA.valuesAre hS hvl fun i hi k hk c hc => ?_
    obtain rfl : c = 0 := by omega
    rw [hA.cell_stored hS hi hk]
    simp only [Nat.mul_one, Nat.add_zero]
    rw [hv i hi k hk]
    have hm : i ∈ sched (List.range A.nbrows) := hperm.mem_iff.mpr (List.mem_range.mpr hi)
    by_cases h : i = A.bcolind⟦k⟧
    · rw [if_pos ⟨hm, h.symm⟩, if_pos h]
    · rw [if_neg (fun hh => h hh.2.symm), if_neg h]

/-- Applying `g` to every value of block `b`. -/
theorem blockMap_ok {m : Nat} (b : Nat) (g : K → K) (body : Nat → List K → C (List K)) (v : List K)
    (hlen : ∀ c < m, b * m + c < v.length)
    (hbody : ∀ c < m, ∀ w : List K, w.length = v.length → body c w = .ok (w.set (b * m + c) (g w⟦b * m + c⟧))) :
    Ok (forRange 0 m body v) (fun w => w.length = v.length ∧ ∀ l c, c < m →
      w⟦l * m + c⟧ = if l = b then g v⟦l * m + c⟧ else v⟦l * m + c⟧) := by
  refine (forRange_ok (fun t (w : List K) => w.length = v.length ∧ ∀ l c, c < m →
      w⟦l * m + c⟧ = if l = b ∧ c < t then g v⟦l * m + c⟧ else v⟦l * m + c⟧) (Nat.zero_le _)
      ⟨rfl, fun l c _ => by simp⟩ ?_).mono ?_
  · rintro t w _ ht ⟨hwl, hw⟩
    rw [hbody t ht w hwl]
    have := hlen t ht
    refine Ok.pure ⟨by rw [List.length_set]; exact hwl, fun l c hc => ?_⟩
    by_cases hlc : l = b ∧ c = t
    · obtain ⟨rfl, rfl⟩ := hlc
      rw [get0_set_self (by omega), if_pos ⟨rfl, by omega⟩, hw l c hc, if_neg (by omega)]
    · rw [get0_set_ne, hw l c hc]
      · by_cases h1 : l = b ∧ c < t
        · rw [if_pos h1, if_pos ⟨h1.1, by omega⟩]
        · rw [if_neg h1, if_neg]
          rintro ⟨h2, h3⟩
          exact hlc ⟨h2, by by_contra h4; exact h1 ⟨h2, by omega⟩⟩
      · intro heq
        obtain ⟨h1, h2⟩ := blk_ne ht hc heq
        exact hlc ⟨h1.symm, h2.symm⟩
  · rintro w ⟨hwl, hw⟩
    refine ⟨hwl, fun l c hc => ?_⟩
    rw [hw l c hc]
    by_cases h1 : l = b
    · rw [if_pos ⟨h1, hc⟩, if_pos h1]
    · rw [if_neg (fun h => h1 h.1), if_neg h1]

/-- A parallel loop whose iteration `i` applies `g` to the values of block `f i`. -/
theorem parRange_blocks {A : SR K} {sched : List Nat → List Nat} (hs : IsSched sched) {N m : Nat}
    (body : Nat → List K → C (List K)) (g : K → K) (f : Nat → Nat)
    (hf : ∀ i < N, ∀ j < N, f i = f j → i = j)
    (hbody : ∀ i < N, ∀ v : List K, v.length = A.vals.length → Ok (body i v) (fun w => w.length = v.length ∧
      ∀ l c, c < m → w⟦l * m + c⟧ = if l = f i then g v⟦l * m + c⟧ else v⟦l * m + c⟧)) :
    Ok (parRange sched N body A.vals) (fun v => v.length = A.vals.length ∧ ∀ l c, c < m →
      ((∃ i < N, l = f i) → v⟦l * m + c⟧ = g A.vals⟦l * m + c⟧) ∧
      (¬ (∃ i < N, l = f i) → v⟦l * m + c⟧ = A.vals⟦l * m + c⟧)) := by
  have hperm := hs (List.range N)
  have hnd : (sched (List.range N)).Nodup := hperm.nodup_iff.mpr List.nodup_range
  have hlt : ∀ i ∈ sched (List.range N), i < N := fun i hi => List.mem_range.mp (hperm.mem_iff.mp hi)
  unfold parRange
  refine (forList_ok (fun done (v : List K) => v.length = A.vals.length ∧ ∀ l c, c < m →
      ((∃ i ∈ done, l = f i) → v⟦l * m + c⟧ = g A.vals⟦l * m + c⟧) ∧
      (¬ (∃ i ∈ done, l = f i) → v⟦l * m + c⟧ = A.vals⟦l * m + c⟧)) ⟨rfl, fun l c _ => by simp⟩ ?_).mono ?_
  · rintro done i rest v hsp ⟨hvl, hv⟩
    have hi : i < N := hlt i (by rw [hsp]; simp)
    have hnotin : i ∉ done := by
      rw [hsp] at hnd
      intro h
      exact (List.nodup_append.mp hnd).2.2 i h i (by simp) rfl
    have hdone : ∀ j ∈ done, j < N := fun j hj => hlt j (by rw [hsp]; simp [hj])
    refine (hbody i hi v hvl).mono ?_
    rintro w ⟨hwl, hw⟩
    refine ⟨hwl.trans hvl, fun l c hc => ?_⟩
    rw [hw l c hc]
    by_cases hl : l = f i
    · have hno : ¬ ∃ j ∈ done, l = f j := by
        rintro ⟨j, hj, hj'⟩
        exact hnotin (hf j (hdone j hj) i hi (by rw [← hj', hl]) ▸ hj)
      rw [if_pos hl, (hv l c hc).2 hno]
      exact ⟨fun _ => rfl, fun h => absurd ⟨i, by simp, hl⟩ h⟩
    · rw [if_neg hl]
      have : (∃ j ∈ done ++ [i], l = f j) ↔ ∃ j ∈ done, l = f j := by
        simp [or_and_right, exists_or, hl]
      rw [this]
      exact hv l c hc
  · rintro v ⟨hvl, hv⟩
    refine ⟨hvl, fun l c hc => ?_⟩
    have : (∃ i < N, l = f i) ↔ ∃ i ∈ sched (List.range N), l = f i := by
      constructor
      · rintro ⟨i, h1, h2⟩; exact ⟨i, hperm.mem_iff.mpr (List.mem_range.mpr h1), h2⟩
      · rintro ⟨i, h1, h2⟩; exact ⟨i, hlt i h1, h2⟩
    rw [this]
    exact hv l c hc

/-- `scaleAll` multiplies every stored block by the factor, for every schedule (block class). -/
theorem bsr_scale_all {A : SR K} {bs : Nat} (hA : A.Full (bs * bs)) (hS : A.Sorted)
    (hn : A.nnzb = A.browptr⟦A.nbrows⟧) (factor : K) {sched : List Nat → List Nat} (hs : IsSched sched) :
    Ok (bsrScaleAll bs sched factor A) (fun v =>
      A.ValuesAre (bs * bs) v (fun i j c => A.cell (bs * bs) i j c * factor)) := by
  unfold bsrScaleAll
  refine (parRange_blocks (m := bs * bs) hs _ (fun x => x * factor) (fun i => i) (fun _ _ _ _ h => h) ?_).mono ?_
  · intro b hb v hv
    have hlen : ∀ c < bs * bs, b * (bs * bs) + c < v.length := fun c hc => by
      rw [hv, hA.val_len]; exact blk_lt (by omega) hc
    refine blockMap_ok b (fun x => x * factor) _ v hlen fun c hc w hw => ?_
    rw [Nat.mul_assoc, rd_eq (by rw [hw]; exact hlen c hc), ok_bind, wr_eq (by rw [hw]; exact hlen c hc)]
  · rintro v ⟨hvl, hv⟩
    refine hA.valuesAre hS hvl fun i hi k hk c hc => ?_
    rw [(hv k c hc).1 ⟨k, by rw [hn]; exact hA.lt_nnz hi hk.2, rfl⟩, hA.cell_stored hS hi hk]

/-- `setDiagZero` sets exactly the diagonal blocks to zero, for every schedule (block class). -/
theorem bsr_set_diag_zero {A : SR K} {bs : Nat} (hA : A.Full (bs * bs)) (hS : A.Sorted) (hD : A.HasDiag)
    {sched : List Nat → List Nat} (hs : IsSched sched) :
    Ok (bsrSetDiagZero bs sched A) (fun v => A.ValuesAre (bs * bs) v (fun i j c =>
      if i = j then 0 else A.cell (bs * bs) i j c)) := by
  unfold bsrSetDiagZero
  refine (parRange_blocks (m := bs * bs) hs _ (fun _ => 0) (fun i => A.diagind⟦i⟧) ?_ ?_).mono ?_
  · intro i hi j hj h
    refine hA.in_one_row hi hj (hD.inRow hi) ?_
    have := hD.inRow hj
    rw [← show A.diagind⟦i⟧ = A.diagind⟦j⟧ from h] at this
    exact this
  · intro r hr v hv
    rw [rd_eq (by rw [hD.diag_len]; exact hr), ok_bind]
    have hlen : ∀ c < bs * bs, A.diagind⟦r⟧ * (bs * bs) + c < v.length := fun c hc => by
      rw [hv]; exact hA.block_lt hr (hD.inRow hr) hc
    have e : ∀ w : List K, forRange (A.diagind⟦r⟧ * (bs * bs)) ((A.diagind⟦r⟧ + 1) * (bs * bs)) (fun jj v => wr v jj 0) w =
        forRange 0 (bs * bs) (fun c v => wr v (A.diagind⟦r⟧ * (bs * bs) + c) 0) w := by
      intro w
      rw [Nat.add_mul, Nat.one_mul]
      generalize A.diagind⟦r⟧ * (bs * bs) = a
      show forList (List.range' a (a + bs * bs - a)) _ w = _
      rw [forRange_zero_eq, show a + bs * bs - a = bs * bs by omega,
        show List.range' a (bs * bs) = (List.range (bs * bs)).map (fun c => a + c) by
          rw [List.range_eq_range', List.map_add_range']; rfl, forList_map]
    rw [e]
    refine blockMap_ok _ (fun _ => 0) _ v hlen fun c hc w hw => ?_
    rw [wr_eq (by rw [hw]; exact hlen c hc)]
  · rintro v ⟨hvl, hv⟩
    refine hA.valuesAre hS hvl fun i hi k hk c hc => ?_
    rw [hA.cell_stored hS hi hk]
    by_cases h : i = A.bcolind⟦k⟧
    · rw [if_pos h, (hv k c hc).1 ⟨i, hi, hS.inj hi hk (hD.inRow hi) (by rw [hD.diag_col i hi, ← h])⟩]
    · rw [if_neg h, (hv k c hc).2]
      rintro ⟨r, hr, hkr⟩
      have hkr : k = A.diagind⟦r⟧ := hkr
      have hin := hD.inRow hr
      rw [← hkr] at hin
      have := hA.in_one_row hi hr hk hin
      subst this
      exact h (by rw [hkr, hD.diag_col i hi])

/-! ### Concrete cases and the rectangular update -/

/-- A dense 2 × 2 block matrix, stored as blocks of dimension 2 of a matrix with integer entries. -/
def exAsm : SR Int where
  browptr := [0, 2, 3]
  bcolind := [0, 1, 1]
  vals := [1, 2, 3, 4, 5, 6, 7, 8, 9, 10, 11, 12]
  diagind := [0, 2]
  browendptr := [2, 3]
  nbrows := 2
  nnzb := 3
  nbstored := 3

/-- A dense 3 × 3 matrix with integer entries. -/
def exAsm1 : SR Int where
  browptr := [0, 3, 6, 9]
  bcolind := [0, 1, 2, 0, 1, 2, 0, 1, 2]
  vals := [0, 0, 0, 0, 0, 0, 0, 0, 0]
  diagind := [0, 4, 8]
  browendptr := [3, 6, 9]
  nbrows := 3
  nnzb := 9
  nbstored := 9

theorem exAsm_full : exAsm.Full (2 * 2) :=
  { ptr_len := rfl, ptr_zero := rfl, ptr_mono := by decide, end_len := rfl, end_eq := by decide
    ind_len := rfl, val_len := rfl, col_lt := by decide }

theorem exAsm_sorted : exAsm.Sorted := SR.sorted_of_check (by decide)

theorem exAsm_diag : exAsm.HasDiag :=
  { diag_len := rfl, diag_ge := by decide, diag_lt := by decide, diag_col := by decide }

theorem exAsm1_full : exAsm1.Full 1 :=
  { ptr_len := rfl, ptr_zero := rfl, ptr_mono := by decide, end_len := rfl, end_eq := by decide
    ind_len := rfl, val_len := rfl, col_lt := by decide }

theorem exAsm1_sorted : exAsm1.Sorted := SR.sorted_of_check (by decide)

theorem exAsm1_diag : exAsm1.HasDiag :=
  { diag_len := rfl, diag_ge := by decide, diag_lt := by decide, diag_col := by decide }

theorem exAsm1_stores (i j : Nat) (hi : i < 3) (hj : j < 3) : exAsm1.Stores i j := by
  refine ⟨3 * i + j, ?_⟩
  unfold SR.InRow
  revert j
  revert i
  decide

theorem exAsm1_block {si sj bsi bsj : Nat} (h1 : si + bsi ≤ 3) (h2 : sj + bsj ≤ 3) :
    exAsm1.StoresBlock si sj bsi bsj :=
  ⟨h1, fun _ hr _ hk => exAsm1_stores _ _ (by omega) (by omega)⟩

/-- The hypotheses of the block class theorems hold for a stored block, a missing block and the diagonal. -/
example : ((BsrUpd.block 1 2 [1, 1, 1, 1] : BsrUpd Int).Valid 2 exAsm) ∧ exAsm.Stores (1 / 2) (2 / 2) ∧
    ¬ exAsm.Stores (2 / 2) (1 / 2) ∧ ((BsrUpd.diag 3 [1, 2, 3, 4] : BsrUpd Int).Valid 2 exAsm) := by
  refine ⟨by unfold BsrUpd.Valid; decide, ⟨1, by unfold SR.InRow; decide, rfl⟩, ?_,
    by unfold BsrUpd.Valid; decide⟩
  rintro ⟨k, ⟨h1, h2⟩, h3⟩
  have h1 : 2 ≤ k := h1
  have h2 : k < 3 := h2
  obtain rfl : k = 2 := by omega
  exact absurd h3 (by decide)

example : bsrUpdateBlock 2 exAsm 1 2 [1, 1, 1, 1] exAsm.vals =
    .ok ([1, 2, 3, 4, 6, 7, 8, 9, 9, 10, 11, 12], true) := by decide

/-- The hypotheses of the scalar class theorems hold for overlapping square blocks of a dense matrix. -/
example : ((CsrUpd.block 0 1 2 [1, 2, 3, 4] : CsrUpd Int).Valid exAsm1) ∧
    ((CsrUpd.diag 1 2 [5, 6, 7, 8] : CsrUpd Int).Valid exAsm1) :=
  ⟨⟨by decide, exAsm1_block (by decide) (by decide), by decide⟩,
    by decide, exAsm1_block (by decide) (by decide), by decide⟩

example : csrUpdateDiagBlock exAsm1 1 [5, 6, 7, 8] 2 exAsm1.vals = .ok [0, 0, 0, 0, 5, 6, 0, 7, 8] := by decide

/-- **C46**, rectangular blocks: the same 2 × 3 buffer is laid out differently by `submitBlock` and `updateBlock`, so
that adding it to a zero block is not the same as submitting it. -/
theorem csr_update_block_rect_wrong :
    exAsm1.StoresBlock 0 0 2 3 ∧
    csrSubmitBlock exAsm1 0 0 [1, 2, 3, 4, 5, 6] 2 3 = .ok [1, 2, 3, 4, 5, 6, 0, 0, 0] ∧
    csrUpdateBlock exAsm1 0 0 [1, 2, 3, 4, 5, 6] 2 3 exAsm1.vals = .ok [1, 2, 3, 3, 4, 5, 0, 0, 0] :=
  ⟨exAsm1_block (by decide) (by decide), by decide, by decide⟩

/-- **C46**, rectangular blocks with more rows than columns: `updateBlock` reads past the end of the buffer. -/
theorem csr_update_block_rect_ub :
    exAsm1.StoresBlock 0 0 3 2 ∧
    csrSubmitBlock exAsm1 0 0 [1, 2, 3, 4, 5, 6] 3 2 = .ok [1, 2, 0, 3, 4, 0, 5, 6, 0] ∧
    csrUpdateBlock exAsm1 0 0 [1, 2, 3, 4, 5, 6] 3 2 exAsm1.vals = .error .ub :=
  ⟨exAsm1_block (by decide) (by decide), by decide, by decide⟩

/-- A schedule that runs the iterations backwards. -/
example : IsSched List.reverse := fun l => List.reverse_perm l

example : bsrScaleAll 2 List.reverse 3 exAsm = .ok [3, 6, 9, 12, 15, 18, 21, 24, 27, 30, 33, 36] ∧
    bsrSetDiagZero 2 List.reverse exAsm = .ok [0, 0, 0, 0, 5, 6, 7, 8, 0, 0, 0, 0] := by decide

end Blasted
