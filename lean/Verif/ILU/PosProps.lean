import Verif.ILU.PosLemmas

/-!
# C17: the ILU(0) position lists
-/

namespace Blasted

open Finset

variable {V : Type}

theorem incr_ok {ι : Type} (l : List ι) (p : Nat) (np : List Nat) (h : p < np.length) :
    forList l (fun _ np => do let v ← rd np p; wr np p (v + 1)) np
      = .ok (np.set p (np⟦p⟧ + l.length)) := by
  induction l generalizing np with
  | nil =>
    rw [forList_nil]
    congr 1
    refine ext_get0 (by simp) fun i hi => ?_
    rw [get0_set]; split
    · rename_i h; rw [h.1]; rfl
    · rfl
  | cons e l ih =>
    rw [forList_cons, rd_eq h, ok_bind, wr_eq h, ok_bind, ih _ (by simpa using h)]
    rw [get0_set_self h, List.set_set, List.length_cons]
    congr 2; omega

theorem sum_map_range_nat (f : Nat → Nat) (n : Nat) :
    ((List.range n).map f).sum = ∑ i ∈ range n, f i := by
  induction n with
  | zero => rfl
  | succ n ih => rw [List.range_succ, List.map_append, List.sum_append, ih, sum_range_succ]; simp

/-- `a` holds the values `f e` for `e` in `W` at its beginning, and has length `T`. -/
def Filled {α : Type} (f : α → Nat) (T : Nat) (a : List Nat) (W : List α) : Prop :=
  a.length = T ∧ ∀ t < W.length, a⟦t⟧ = (W.map f)⟦t⟧

theorem Filled.push {α : Type} {f : α → Nat} {T : Nat} {a : List Nat} {W : List α} (h : Filled f T a W)
    (e : α) (hlt : W.length < T) : Filled f T (a.set W.length (f e)) (W ++ [e]) := by
  refine ⟨by simp [h.1], fun t ht => ?_⟩
  rw [List.length_append, List.length_singleton] at ht
  rw [List.map_append, List.map_singleton, get0_append_singleton, List.length_map, get0_set, h.1]
  by_cases hc : t = W.length
  · rw [if_pos hc, if_pos ⟨hc.symm, hlt⟩]
  · rw [if_neg hc, if_neg (by omega)]
    exact h.2 t (by omega)

/-- What the position lists contain: the pairs of all entries, one after another. -/
def IluFilled (A : SR V) (pos : ILUPos) : Prop :=
  pos.posptr.length = A.browptr⟦A.nbrows⟧ + 1 ∧
  (∀ p ≤ A.browptr⟦A.nbrows⟧, pos.posptr⟦p⟧ = offs (fun p => A.iluPairs p) p) ∧
  Filled Prod.fst (offs (fun p => A.iluPairs p) A.browptr⟦A.nbrows⟧) pos.lowerp
    ((List.range A.browptr⟦A.nbrows⟧).flatMap fun p => A.iluPairs p) ∧
  Filled Prod.snd (offs (fun p => A.iluPairs p) A.browptr⟦A.nbrows⟧) pos.upperp
    ((List.range A.browptr⟦A.nbrows⟧).flatMap fun p => A.iluPairs p)

theorem computeILUPositions_filled (A : SR V) {m : Nat} (hA : A.Full m) (hS : A.Sorted)
    (hD : A.HasDiag) : Ok (computeILUPositions A) (IluFilled A) := by
  set N := A.browptr⟦A.nbrows⟧ with hN
  set S := fun p => A.iluPairs p with hSdef
  have hptr := hA.ptr_len
  have hind := hA.ind_len
  show Ok (computeILUPositions A) (fun pos =>
      pos.posptr.length = N + 1 ∧ (∀ p ≤ N, pos.posptr⟦p⟧ = offs S p) ∧
      Filled Prod.fst (offs S N) pos.lowerp ((List.range N).flatMap S) ∧
      Filled Prod.snd (offs S N) pos.upperp ((List.range N).flatMap S))
  unfold computeILUPositions
  rw [rd_eq (by omega), ok_bind, ← hN]
  dsimp only
  rw [wr_eq (by simp), ok_bind, hA.nested_pos (body := fun irow j (s : List Nat × List Nat) => do
    let numpos ← iluScan A irow j (fun _ ipos numpos => do
      if ipos > -1 then
        let v ← rd numpos j
        wr numpos j (v + 1)
      else .ok numpos) s.1
    let v ← rd numpos j
    let posptr ← wr s.2 (j + 1) v
    .ok (numpos, posptr)), ← hN]
  refine (forRange_ok (fun p (s : List Nat × List Nat) => s.1.length = N ∧ s.2.length = N + 1 ∧
    s.2⟦0⟧ = 0 ∧ (∀ q < p, s.1⟦q⟧ = (S q).length ∧ s.2⟦q + 1⟧ = (S q).length) ∧
    ∀ q, p ≤ q → q < N → s.1⟦q⟧ = 0) (Nat.zero_le _) ⟨by simp, by simp, by
      rw [get0_set_self (by simp)], by intro q hq; omega, fun q _ hq => get0_replicate _ _⟩ ?_).bind ?_
  · rintro p ⟨np, pp⟩ _ hp ⟨h1, h2, h3, h4, h5⟩
    dsimp only at h1 h2 h3 h4 h5 ⊢
    rw [iluScan_eq hA hS hD hp _ (by intro k s; rfl)]
    rw [forList_congr (body' := fun _ np => do let v ← rd np p; wr np p (v + 1)) (by
      intro e he s
      rw [if_pos (by omega)])]
    rw [incr_ok _ _ _ (by omega), ok_bind, rd_eq (by simp; omega), ok_bind, wr_eq (by omega), ok_bind]
    refine Ok.pure ⟨by simp [h1], by simp [h2], ?_, ?_, ?_⟩
    · dsimp only
      rw [get0_set_ne (by omega)]; exact h3
    · intro q hq
      dsimp only
      rw [get0_set_self (by omega), h5 p (by omega) hp]
      by_cases hqp : q = p
      · subst hqp
        rw [get0_set_self (by omega), get0_set_self (by omega)]
        simp [hSdef]
      · rw [get0_set_ne (by omega), get0_set_ne (by omega)]
        exact h4 q (by omega)
    · intro q hq1 hq2
      dsimp only
      rw [get0_set_ne (by omega)]
      exact h5 q (by omega) hq2
  · rintro ⟨np, pp⟩ ⟨h1, h2, h3, h4, _⟩
    dsimp only at h1 h2 h3 h4 ⊢
    obtain ⟨w, ew, _, hwl, hw⟩ := inclusive_scan_correct pp
    have hwo : ∀ t ≤ N, w⟦t⟧ = offs S t := by
      intro t ht
      rw [hw t (by omega), sum_range_succ', h3, Nat.add_zero, offs]
      exact sum_congr rfl fun s hs => (h4 s (by rw [mem_range] at hs; omega)).2
    have hsum : np.sum = offs S N := by
      have : np = (List.range N).map fun q => (S q).length := by
        refine ext_get0 (by simp [h1]) fun i hi => ?_
        rw [(h4 i (by omega)).1, get0_map_range _ (by omega)]
      rw [this, offs, sum_map_range_nat]
    rw [ew, ok_bind, rd_eq (by omega), ok_bind, hwo N (Nat.le_refl _), hsum]
    rw [cassert_true (by simp), ok_bind]
    rw [hA.nested_pos (body := fun irow j (s : List Nat × List Nat) => do
      let r ← iluScan A irow j (fun k ipos (r : Nat × List Nat × List Nat) => do
        if ipos ≠ -1 then
          let p ← rd w j
          let lowerp ← wr r.2.1 (p + r.1) k
          let upperp ← wr r.2.2 (p + r.1) ipos.toNat
          .ok (r.1 + 1, lowerp, upperp)
        else .ok r) (0, s.1, s.2)
      let n ← rd np j
      cassert (r.1 = n)
      .ok (r.2.1, r.2.2)), ← hN]
    refine (forRange_ok (fun p (s : List Nat × List Nat) =>
      Filled Prod.fst (offs S N) s.1 ((List.range p).flatMap S) ∧
      Filled Prod.snd (offs S N) s.2 ((List.range p).flatMap S)) (Nat.zero_le _)
      ⟨⟨by simp, by simp⟩, ⟨by simp, by simp⟩⟩ ?_).bind ?_
    · rintro p ⟨lo, up⟩ _ hp ⟨hlo, hup⟩
      dsimp only at hlo hup ⊢
      rw [iluScan_eq hA hS hD hp _ (by intro k s; rfl)]
      refine (forList_ok (fun (done : List (Nat × Nat)) (r : Nat × List Nat × List Nat) =>
        r.1 = done.length ∧ Filled Prod.fst (offs S N) r.2.1 ((List.range p).flatMap S ++ done) ∧
        Filled Prod.snd (offs S N) r.2.2 ((List.range p).flatMap S ++ done)) ⟨rfl, by simpa using hlo,
          by simpa using hup⟩ ?_).bind ?_
      · rintro done ⟨k, q⟩ rest ⟨o, l, u⟩ hl ⟨ho, hl1, hu1⟩
        dsimp only at ho hl1 hu1 ⊢
        have hWl : ((List.range p).flatMap S ++ done).length = offs S p + done.length := by
          rw [List.length_append, flatMap_length_offs]
        have hlt : offs S p + done.length < offs S N := by
          have h6 : offs S (p + 1) ≤ offs S N := offs_mono S hp
          rw [offs_succ] at h6
          have h7 : (S p).length = done.length + (rest.length + 1) := by
            show (A.iluPairs p).length = _
            rw [hl]; simp
          omega
        rw [if_pos (by omega), rd_eq (by omega), ok_bind, hwo p (by omega),
          wr_eq (by rw [hl1.1]; omega), ok_bind, wr_eq (by rw [hu1.1]; omega), ok_bind]
        refine Ok.pure ⟨by simp [ho], ?_, ?_⟩
        · have := hl1.push (k, q) (by omega)
          rw [hWl] at this
          rw [← List.append_assoc, ho]
          exact this
        · have := hu1.push (k, q) (by omega)
          rw [hWl] at this
          rw [← List.append_assoc, ho]
          exact this
      · rintro ⟨o, l, u⟩ ⟨ho, hl1, hu1⟩
        dsimp only at ho hl1 hu1 ⊢
        rw [rd_eq (by omega), ok_bind, (h4 p hp).1, ho, cassert_true (by simp [hSdef]), ok_bind]
        refine Ok.pure ?_
        rw [List.range_succ, List.flatMap_append, List.flatMap_singleton]
        exact ⟨hl1, hu1⟩
    · rintro ⟨lo, up⟩ ⟨hlo, hup⟩
      exact Ok.pure ⟨by simp only; omega, hwo, hlo, hup⟩

theorem IluFilled.posOk {A : SR V} {m : Nat} (hA : A.Full m) (hS : A.Sorted) (hD : A.HasDiag) {pos : ILUPos}
    (h : IluFilled A pos) : ILUPosOk A pos := by
  set N := A.browptr⟦A.nbrows⟧ with hN
  set S := fun p => A.iluPairs p with hSdef
  have h' : pos.posptr.length = N + 1 ∧ (∀ p ≤ N, pos.posptr⟦p⟧ = offs S p) ∧
      Filled Prod.fst (offs S N) pos.lowerp ((List.range N).flatMap S) ∧
      Filled Prod.snd (offs S N) pos.upperp ((List.range N).flatMap S) := h
  obtain ⟨hpl, hpp, hl, hu⟩ := h'
  -- the entry of the lists for pair number `t` of entry `p`
  have hget : ∀ p < N, ∀ t < (S p).length, ∀ e, (S p)[t]? = some e →
      pos.lowerp⟦offs S p + t⟧ = e.1 ∧ pos.upperp⟦offs S p + t⟧ = e.2 := by
    intro p hp t ht e he
    have h1 := get_flatMap S hp ht
    rw [he] at h1
    have h2 : offs S p + t < ((List.range N).flatMap S).length := by
      rw [flatMap_length_offs]
      have : offs S (p + 1) ≤ offs S N := offs_mono S hp
      rw [offs_succ] at this
      omega
    constructor
    · rw [hl.2 _ h2]
      unfold get0
      rw [List.getD_eq_getElem?_getD, List.getElem?_map, h1]; rfl
    · rw [hu.2 _ h2]
      unfold get0
      rw [List.getD_eq_getElem?_getD, List.getElem?_map, h1]; rfl
  -- an index between two pointers is the number of a pair
  have hidx : ∀ p < N, ∀ t, pos.posptr⟦p⟧ ≤ t → t < pos.posptr⟦p + 1⟧ →
      ∃ u e, t = offs S p + u ∧ u < (S p).length ∧ (S p)[u]? = some e ∧ e ∈ S p ∧
        pos.lowerp⟦t⟧ = e.1 ∧ pos.upperp⟦t⟧ = e.2 := by
    intro p hp t h1 h2
    rw [hpp p (by omega)] at h1
    rw [hpp (p + 1) (by omega), offs_succ] at h2
    have h3 : t - offs S p < (S p).length := by omega
    have h4 : (S p)[t - offs S p]? = some (S p)[t - offs S p] := List.getElem?_eq_getElem h3
    have h5 := hget p hp _ h3 _ h4
    rw [show offs S p + (t - offs S p) = t by omega] at h5
    exact ⟨t - offs S p, _, by omega, h3, h4, List.mem_of_getElem? h4, h5⟩
  have hpN : ∀ i < A.nbrows, ∀ p, A.InRow i p → p < N := fun i hi p hp => hA.lt_nnz hi hp.2
  refine ⟨hpl, ?_, ?_, ?_, ?_, ?_, ?_, ?_⟩
  · rw [hpp 0 (Nat.zero_le _)]; rfl
  · intro p hp
    rw [hpp p (by omega), hpp (p + 1) (by omega)]
    exact offs_mono S (Nat.le_succ p)
  · rw [← hN, hpp N (Nat.le_refl _)]; exact hl.1
  · rw [← hN, hpp N (Nat.le_refl _)]; exact hu.1
  · intro i hi p hp t h1 h2
    obtain ⟨u, ⟨a, b⟩, _, _, _, hmem, ha, hb⟩ := hidx p (hpN i hi p hp) t h1 h2
    obtain ⟨h3, h4, h5, h6⟩ := (mem_iluPairs hA hS hD hi hp).mp hmem
    dsimp only at ha hb
    rw [ha, hb]
    exact ⟨A.bcolind⟦a⟧, h4, h3, rfl, h5, h6⟩
  · intro i hi p hp t t' h1 htt h2
    obtain ⟨u, ⟨a, b⟩, hu, hul, hus, hmem, ha, _⟩ := hidx p (hpN i hi p hp) t h1 (by omega)
    obtain ⟨u', ⟨a', b'⟩, hu', hul', hus', hmem', ha', _⟩ := hidx p (hpN i hi p hp) t' (by omega) h2
    dsimp only at ha ha'
    rw [ha, ha']
    have h3 := ((mem_iluPairs hA hS hD hi hp).mp hmem).1
    have h4 := ((mem_iluPairs hA hS hD hi hp).mp hmem').1
    rw [hS.lt_iff hi h3 h4]
    have h5 := List.pairwise_iff_getElem.mp (iluPairs_sorted (A := A) p) u u' hul hul' (by omega)
    have e1 : (A.iluPairs p)[u] = (a, b) := by
      have := List.getElem?_eq_getElem hul
      rw [this] at hus; simpa using hus
    have e2 : (A.iluPairs p)[u'] = (a', b') := by
      have := List.getElem?_eq_getElem hul'
      rw [this] at hus'; simpa using hus'
    rw [e1, e2] at h5
    exact h5
  · intro i hi p hp k hk a b ha hak hb hbc
    subst hak
    have hmem : (a, b) ∈ S p := (mem_iluPairs hA hS hD hi hp).mpr ⟨ha, hk, hb, hbc⟩
    obtain ⟨u, hul, hus⟩ := List.mem_iff_getElem.mp hmem
    have hp' := hpN i hi p hp
    have := hget p hp' u hul (a, b) (by rw [List.getElem?_eq_getElem hul, hus])
    refine ⟨offs S p + u, ?_, ?_, this.1, this.2⟩
    · rw [hpp p (by omega)]; omega
    · rw [hpp (p + 1) (by omega), offs_succ]; omega

/-- **C17** For every well-formed matrix with sorted rows and stored diagonal,
`compute_ILU_positions_CSR_CSR` returns normally (in particular it accesses no array out of
bounds and its assertions hold) and its result lists, for every stored entry `(i,j)`, exactly the pairs
of locations of stored entries `(i,k)`, `(k,j)` with `k < min i j`, each once and in increasing `k`
(see `ILUPosOk`). -/
theorem compute_ILU_positions_correct (A : SR V) {m : Nat} (hA : A.Full m) (hS : A.Sorted)
    (hD : A.HasDiag) : ∃ pos, computeILUPositions A = .ok pos ∧ ILUPosOk A pos := by
  obtain ⟨pos, e, h⟩ := computeILUPositions_filled A hA hS hD
  exact ⟨pos, e, h.posOk hA hS hD⟩

/-- A matrix with fill-in, used as a non-vacuity witness:
pattern `[x x . x; x x x .; . x x x; x . x x]`. -/
def exILU : SR Int :=
  { browptr := [0, 3, 6, 9, 12], bcolind := [0, 1, 3, 0, 1, 2, 1, 2, 3, 0, 2, 3],
    vals := [2, 1, 1, 4, 3, 1, 2, 5, 1, 6, 3, 9], diagind := [0, 4, 7, 11],
    browendptr := [3, 6, 9, 12], nbrows := 4, nnzb := 12, nbstored := 12 }

theorem exILU_full : exILU.Full := by
  constructor <;> decide

theorem exILU_sorted : exILU.Sorted := SR.sorted_of_check (by decide)

theorem exILU_diag : exILU.HasDiag := by
  constructor <;> decide

/-- The hypotheses of `compute_ILU_positions_correct` are satisfiable, with a non-trivial result. -/
example : computeILUPositions exILU = .ok
    { lowerp := [3, 6, 9, 10], upperp := [1, 5, 2, 8],
      posptr := [0, 0, 0, 0, 0, 1, 1, 1, 2, 2, 2, 2, 4] } := by
  decide

end Blasted
