import Verif.Solve.Model
import Verif.ILU.BlockProps
import Mathlib.Algebra.Module.BigOperators

/-!
# Row-wise updates

`RowUpd upd N D f`: the row kernel `upd` evaluates the pure function `f`, whose value in row `i` depends only
on the rows `j` with `D i j`.
-/

namespace Blasted

open Finset

variable {V R M K : Type}

/-- What is used of a row kernel. -/
structure RowUpd (upd : Nat → (Nat → C M) → C M) (N : Nat) (D : Nat → Nat → Prop)
    (f : Nat → (Nat → M) → M) : Prop where
  eval : ∀ i < N, ∀ (r : Nat → C M) (x : Nat → M), (∀ j < N, r j = .ok (x j)) → upd i r = .ok (f i x)
  dep : ∀ i < N, ∀ g h : Nat → M, (∀ j < N, D i j → g j = h j) → f i g = f i h

section rowupd
variable [Zero M] {upd : Nat → (Nat → C M) → C M} {N : Nat} {D : Nat → Nat → Prop} {f : Nat → (Nat → M) → M}

theorem RowUpd.evalList (h : RowUpd upd N D f) {i : Nat} (hi : i < N) {x : List M} (hx : x.length = N) :
    updRow upd i x = .ok (x.set i (f i (get0 x))) := by
  unfold updRow
  rw [h.eval i hi _ (get0 x) (fun j hj => rd_eq (by omega)), ok_bind, wr_eq (by omega)]

/-- A pass over all rows in an order in which every row comes after those it depends on. -/
theorem RowUpd.pass (h : RowUpd upd N D f) {l : List Nat} (hl : l.Perm (List.range N))
    (hord : ∀ done p rest, l = done ++ p :: rest → ∀ q < N, D p q → q ∈ done) {x : List M} (hx : x.length = N) :
    Ok (forList l (updRow upd) x) (fun y => y.length = N ∧ ∀ i < N, y⟦i⟧ = f i (get0 y)) := by
  have hmem : ∀ i, i ∈ l ↔ i < N := fun i => by rw [hl.mem_iff, List.mem_range]
  have hnd : l.Nodup := hl.nodup_iff.mpr List.nodup_range
  refine (forList_ok (fun done y => y.length = N ∧ ∀ i ∈ done, y⟦i⟧ = f i (get0 y)) ⟨hx, by simp⟩ ?_).mono
    fun y hy => ⟨hy.1, fun i hi => hy.2 i ((hmem i).mpr hi)⟩
  rintro done i rest y hsp ⟨hlen, hI⟩
  have hiN : i < N := (hmem i).mp (by rw [hsp]; simp)
  have hnd' := hnd
  rw [hsp, List.nodup_append] at hnd'
  have hi' : i ∉ done := fun hc => hnd'.2.2 i hc i (by simp) rfl
  rw [h.evalList hiN hlen]
  refine Ok.pure ⟨by simp [hlen], fun p hp => ?_⟩
  have key : ∀ p < N, (∀ q < N, D p q → q ∈ done) → f p (get0 (y.set i (f i (get0 y)))) = f p (get0 y) := by
    intro p hp hq
    refine h.dep p hp _ _ fun q hqN hD => ?_
    rw [get0_set_ne]
    rintro rfl
    exact hi' (hq _ hqN hD)
  rcases List.mem_append.mp hp with hp | hp
  · have hpN : p < N := (hmem p).mp (by rw [hsp]; simp [hp])
    have hpi : i ≠ p := by rintro rfl; exact hi' hp
    obtain ⟨d1, d2, rfl⟩ := List.append_of_mem hp
    rw [get0_set_ne hpi, key p hpN, hI p hp]
    intro q hqN hD
    have := hord d1 p (d2 ++ i :: rest) (by rw [hsp]; simp) q hqN hD
    simp [this]
  · rw [List.mem_singleton] at hp
    subst hp
    rw [get0_set_self (by omega), key p hiN (hord done p rest hsp)]

/-- At least one pass, in any number of passes. -/
theorem RowUpd.passes (h : RowUpd upd N D f) {l : List Nat} (hl : l.Perm (List.range N))
    (hord : ∀ done p rest, l = done ++ p :: rest → ∀ q < N, D p q → q ∈ done) {k : Nat} (hk : 1 ≤ k)
    {x : List M} (hx : x.length = N) :
    Ok (forRange 0 k (fun _ x => forList l (updRow upd) x) x)
      (fun y => y.length = N ∧ ∀ i < N, y⟦i⟧ = f i (get0 y)) := by
  refine (forRange_ok (fun t y => y.length = N ∧ (1 ≤ t → ∀ i < N, y⟦i⟧ = f i (get0 y))) (Nat.zero_le k)
    ⟨hx, fun h => by omega⟩ ?_).mono fun y hy => ⟨hy.1, hy.2 hk⟩
  rintro t y _ _ ⟨hlen, _⟩
  exact (h.pass hl hord hlen).mono fun y hy => ⟨hy.1, fun _ => hy.2⟩

theorem RowUpd.fwd (h : RowUpd upd N D f) (hD : ∀ i j, D i j → j < i) {k : Nat} (hk : 1 ≤ k)
    {x : List M} (hx : x.length = N) :
    Ok (fwdSweeps upd N k x) (fun y => y.length = N ∧ ∀ i < N, y⟦i⟧ = f i (get0 y)) := by
  unfold fwdSweeps forRange
  refine h.passes (l := List.range' 0 (N - 0)) ?_ ?_ hk hx
  · rw [Nat.sub_zero, ← List.range_eq_range']
  · intro done p rest hsp q hq hd
    have hqp := hD p q hd
    rw [Nat.sub_zero, ← List.range_eq_range'] at hsp
    have hlen : done.length < (List.range N).length := by rw [hsp]; simp
    have hp : (List.range N)[done.length]? = some p := by rw [hsp]; simp
    have hp' : done.length = p := by
      rw [List.length_range] at hlen
      rw [List.getElem?_range hlen] at hp
      simpa using hp
    have hq' : (List.range N)[q]? = some q := by rw [List.getElem?_range hq]
    rw [hsp, List.getElem?_append_left (by omega)] at hq'
    exact List.mem_of_getElem? hq'

theorem RowUpd.bwd (h : RowUpd upd N D f) (hD : ∀ i j, D i j → i < j) {k : Nat} (hk : 1 ≤ k)
    {x : List M} (hx : x.length = N) :
    Ok (bwdSweeps upd N k x) (fun y => y.length = N ∧ ∀ i < N, y⟦i⟧ = f i (get0 y)) := by
  unfold bwdSweeps forDown
  refine h.passes (l := (List.range' 0 (N - 0)).reverse) ?_ ?_ hk hx
  · rw [Nat.sub_zero, ← List.range_eq_range']
    exact List.reverse_perm _
  · intro done p rest hsp q hq hd
    have hqp := hD p q hd
    rw [Nat.sub_zero, ← List.range_eq_range'] at hsp
    have hsp' : List.range N = rest.reverse ++ p :: done.reverse := by
      rw [← List.reverse_reverse (List.range N), hsp]; simp
    have hlen : rest.reverse.length < (List.range N).length := by rw [hsp']; simp
    have hp : (List.range N)[rest.reverse.length]? = some p := by
      rw [hsp']
      rw [List.getElem?_append_right (Nat.le_refl _)]
      simp
    have hp' : rest.reverse.length = p := by
      rw [List.length_range] at hlen
      rw [List.getElem?_range hlen] at hp
      simpa using hp
    have hq' : (List.range N)[q]? = some q := by rw [List.getElem?_range hq]
    rw [hsp', List.getElem?_append_right (by omega), hp'] at hq'
    obtain ⟨t, ht⟩ : ∃ t, q - p = t + 1 := ⟨q - p - 1, by omega⟩
    rw [ht, List.getElem?_cons_succ] at hq'
    simpa using List.mem_of_getElem? hq'

omit [Zero M] in
/-- At most one solution if the dependencies are well-founded. -/
theorem RowUpd.unique (h : RowUpd upd N D f) {rank : Nat → Nat} (hr : ∀ i < N, ∀ j < N, D i j → rank j < rank i)
    {e e' : Nat → M} (he : ∀ i < N, e i = f i e) (he' : ∀ i < N, e' i = f i e') : ∀ i < N, e i = e' i := by
  suffices H : ∀ m i, rank i = m → i < N → e i = e' i from fun i hi => H _ i rfl hi
  intro m
  induction m using Nat.strong_induction_on with
  | _ m ih =>
    rintro i rfl hi
    rw [he i hi, he' i hi]
    exact h.dep i hi _ _ fun j hj hD => ih _ (hr i hi j hj hD) j rfl hj

omit [Zero M] in
theorem RowUpd.yields (h : RowUpd upd N D f) {i : Nat} (hi : i < N) {view : Nat → M} {v : M}
    (hv : Yields (upd i (readView N view)) v) : v = f i view := by
  refine hv.eq (h.eval i hi _ view fun j hj => ?_)
  unfold readView
  rw [if_pos hj]

/-- Asynchronous sweeps reach the solution once there are as many as there are ranks. -/
theorem RowUpd.async (h : RowUpd upd N D f) {mix : Set M → Set M} (hm : MixOk mix) {rank : Nat → Nat}
    (hr : ∀ i < N, ∀ j < N, D i j → rank j < rank i) {k : Nat} (hk : ∀ i < N, rank i < k) {e : Nat → M}
    (he : ∀ i < N, e i = f i e) {x x' : List M} (hx : x.length = N) (hs : ASweeps upd mix k x x') :
    x'.length = N ∧ ∀ i < N, x'⟦i⟧ = e i := by
  have hl := hs.length
  refine ⟨by omega, fun i hi => ?_⟩
  have := hs.exact hm (e := e) (rank := rank) (by
    intro i hi view hview v hv
    rw [hx] at hi hview hv
    rw [h.yields hi hv, he i hi]
    exact h.dep i hi _ _ fun j hj hD => hview j hj (hr i hi j hj hD)) (i, x'⟦i⟧)
    (memOf_get0 (by omega)) (by simp only; omega) (hk i hi)
  exact this

/-- The same for overlapping sweeps, in rounds. -/
theorem RowUpd.rounds (h : RowUpd upd N D f) {mix : Set M → Set M} (hm : MixOk mix) {rank : Nat → Nat}
    (hr : ∀ i < N, ∀ j < N, D i j → rank j < rank i) {k : Nat} (hk : ∀ i < N, rank i < k) {e : Nat → M}
    (he : ∀ i < N, e i = f i e) {x : List M} (hx : x.length = N) {log last : List (Nat × M)}
    (hs : ARounds upd mix x k log last) :
    (applyLog x log).length = N ∧ ∀ i < N, (applyLog x log)⟦i⟧ = e i := by
  refine ⟨by simpa using hx, fun i hi => ?_⟩
  exact hs.exact hm (e := e) (rank := rank) (by
    intro i hi view hview v hv
    rw [hx] at hi hview hv
    rw [h.yields hi hv, he i hi]
    exact h.dep i hi _ _ fun j hj hD => hview j hj (hr i hi j hj hD)) (i, (applyLog x log)⟦i⟧)
    (hs.mem_last (memOf_get0 (by simpa [hx] using hi))) (hk i hi)

/-- A solution is a fixed point of every asynchronous execution. -/
theorem RowUpd.fixed (h : RowUpd upd N D f) {mix : Set M → Set M} (hm : MixOk mix) {x : List M}
    (he : ∀ i < N, x⟦i⟧ = f i (get0 x)) {log : List (Nat × M)}
    (hs : ALog upd mix N (memOf x) log) : applyLog x log = x := by
  have hw := hs.exact_of_exact hm (e := get0 x) (by
    intro i hi view hview v hv
    rw [h.yields hi hv, he i hi]
    exact h.dep i hi _ _ fun j hj _ => hview j hj) (fun w hw _ => memOf_eq hw)
  refine ext_get0 (by simp) fun i hi => ?_
  have hi' : i < x.length := by simpa using hi
  rcases mem_applyLog (memOf_get0 hi) with h1 | ⟨h1, _⟩
  · exact hw _ h1
  · exact memOf_eq h1

end rowupd

/-! ### The kernels as row updates -/

section kernels
variable [Ring R] [AddCommGroup M] [Module R M]

theorem rowSum_eq {colind : List Nat} {vals : List R} {lo hi n : Nat} (hle : lo ≤ hi)
    (h1 : hi ≤ colind.length) (h2 : hi ≤ vals.length) (hc : ∀ p, lo ≤ p → p < hi → colind⟦p⟧ < n)
    {r : Nat → C M} {x : Nat → M} (hr : ∀ j < n, r j = .ok (x j)) (s : M) :
    rowSum colind vals lo hi r s = .ok (s + ∑ p ∈ Ico lo hi, vals⟦p⟧ • x colind⟦p⟧) := by
  refine forRange_sum hle fun p hp1 hp2 => ?_
  rw [rd_eq (by omega), ok_bind, rd_eq (by omega), ok_bind, hr _ (hc p hp1 hp2), ok_bind]

/-- The sum over the entries left of the diagonal. -/
def lowSum (A : SR V) (vals : List R) (i : Nat) (x : Nat → M) : M :=
  ∑ p ∈ Ico A.browptr⟦i⟧ A.diagind⟦i⟧, vals⟦p⟧ • x A.bcolind⟦p⟧

/-- The sum over the entries right of the diagonal. -/
def upSum (A : SR V) (vals : List R) (i : Nat) (x : Nat → M) : M :=
  ∑ p ∈ Ico (A.diagind⟦i⟧ + 1) A.browptr⟦i + 1⟧, vals⟦p⟧ • x A.bcolind⟦p⟧

/-- Row `i` has a stored entry in column `j`. -/
def Nbr (A : SR V) (i j : Nat) : Prop := ∃ p, A.InRow i p ∧ A.bcolind⟦p⟧ = j

/-- Row `i` has a stored entry left of the diagonal in column `j`. -/
def LowDep (A : SR V) (i j : Nat) : Prop := Nbr A i j ∧ j < i

/-- Row `i` has a stored entry right of the diagonal in column `j`. -/
def UpDep (A : SR V) (i j : Nat) : Prop := Nbr A i j ∧ i < j

variable {A : SR V} {m : Nat}

omit [Ring R] [AddCommGroup M] [Module R M] in
theorem low_dep (hS : A.Sorted) (hD : A.HasDiag) {i : Nat} (hi : i < A.nbrows) {p : Nat}
    (h1 : A.browptr⟦i⟧ ≤ p) (h2 : p < A.diagind⟦i⟧) : LowDep A i A.bcolind⟦p⟧ := by
  have hd := hD.inRow hi
  have hp : A.InRow i p := ⟨h1, by have := hd.2; omega⟩
  refine ⟨⟨p, hp, rfl⟩, ?_⟩
  have := (hS.lt_iff hi hp hd).mpr h2
  rwa [hD.diag_col i hi] at this

omit [Ring R] [AddCommGroup M] [Module R M] in
theorem up_dep (hS : A.Sorted) (hD : A.HasDiag) {i : Nat} (hi : i < A.nbrows) {p : Nat}
    (h1 : A.diagind⟦i⟧ + 1 ≤ p) (h2 : p < A.browptr⟦i + 1⟧) : UpDep A i A.bcolind⟦p⟧ := by
  have hd := hD.inRow hi
  have hp : A.InRow i p := ⟨by have := hd.1; omega, h2⟩
  refine ⟨⟨p, hp, rfl⟩, ?_⟩
  have := (hS.lt_iff hi hd hp).mpr (by omega)
  rwa [hD.diag_col i hi] at this

theorem lowSum_congr (hS : A.Sorted) (hD : A.HasDiag) {vals : List R} {i : Nat}
    (hi : i < A.nbrows) {g h : Nat → M} (hgh : ∀ j < A.nbrows, LowDep A i j → g j = h j) :
    lowSum A vals i g = lowSum A vals i h := by
  refine sum_congr rfl fun p hp => ?_
  rw [mem_Ico] at hp
  have hd := low_dep hS hD hi hp.1 hp.2
  rw [hgh _ (by have := hd.2; omega) hd]

theorem upSum_congr (hA : A.Full m) (hS : A.Sorted) (hD : A.HasDiag) {vals : List R} {i : Nat}
    (hi : i < A.nbrows) {g h : Nat → M} (hgh : ∀ j < A.nbrows, UpDep A i j → g j = h j) :
    upSum A vals i g = upSum A vals i h := by
  refine sum_congr rfl fun p hp => ?_
  rw [mem_Ico] at hp
  rw [hgh _ (hA.col_lt p (hA.lt_nnz hi hp.2)) (up_dep hS hD hi hp.1 hp.2)]

theorem lowSum_eval (hA : A.Full m) (hD : A.HasDiag) {vals : List R}
    (hl : vals.length = A.browptr⟦A.nbrows⟧) {i : Nat} (hi : i < A.nbrows) {r : Nat → C M} {x : Nat → M}
    (hr : ∀ j < A.nbrows, r j = .ok (x j)) (s : M) :
    rowSum A.bcolind vals A.browptr⟦i⟧ A.diagind⟦i⟧ r s = .ok (s + lowSum A vals i x) := by
  have h1 := hA.lt_nnz hi (hD.diag_lt i hi)
  have h2 := hA.ind_len
  refine rowSum_eq (n := A.nbrows) (hD.diag_ge i hi) (by omega) (by omega) (fun p _ hp => ?_) hr s
  exact hA.col_lt p (by omega)

theorem upSum_eval (hA : A.Full m) (hD : A.HasDiag) {vals : List R}
    (hl : vals.length = A.browptr⟦A.nbrows⟧) {i : Nat} (hi : i < A.nbrows) {r : Nat → C M} {x : Nat → M}
    (hr : ∀ j < A.nbrows, r j = .ok (x j)) (s : M) :
    rowSum A.bcolind vals (A.diagind⟦i⟧ + 1) A.browptr⟦i + 1⟧ r s = .ok (s + upSum A vals i x) := by
  have h1 := hD.diag_lt i hi
  have h2 := hA.ind_len
  have h3 := hA.ptr_le (i := i + 1) (j := A.nbrows) hi (Nat.le_refl _)
  refine rowSum_eq (n := A.nbrows) h1 (by omega) (by omega) (fun p _ hp => ?_) hr s
  exact hA.col_lt p (by omega)

theorem rowUpd_unitLower (hA : A.Full m) (hS : A.Sorted) (hD : A.HasDiag) {ilu : List R}
    (hl : ilu.length = A.browptr⟦A.nbrows⟧) {rhs : List M} (hr : rhs.length = A.nbrows) :
    RowUpd (unitLowerRow A ilu rhs) A.nbrows (LowDep A) (fun i x => rhs⟦i⟧ - lowSum A ilu i x) where
  eval i hi r x hx := by
    have h1 := hA.ptr_len
    have h2 := hD.diag_len
    unfold unitLowerRow
    rw [rd_eq (by omega), ok_bind, rd_eq (by omega), ok_bind, rd_eq (by omega), ok_bind,
      lowSum_eval hA hD hl hi hx, ok_bind, zero_add]
  dep i hi g h hgh := by rw [lowSum_congr hS hD hi hgh]

theorem rowUpd_upper [PInv R] (hA : A.Full m) (hS : A.Sorted) (hD : A.HasDiag) {ilu dinv : List R}
    (hl : ilu.length = A.browptr⟦A.nbrows⟧) (hd : ∀ i < A.nbrows, pinv ilu⟦A.diagind⟦i⟧⟧ = .ok dinv⟦i⟧)
    {rhs : List M} (hr : rhs.length = A.nbrows) :
    RowUpd (upperRow A ilu rhs) A.nbrows (UpDep A) (fun i x => dinv⟦i⟧ • (rhs⟦i⟧ - upSum A ilu i x)) where
  eval i hi r x hx := by
    have h1 := hA.ptr_len
    have h2 := hD.diag_len
    have h3 := hA.lt_nnz hi (hD.diag_lt i hi)
    unfold upperRow
    rw [rd_eq (by omega), ok_bind, rd_eq (by omega), ok_bind, rd_eq (by omega), ok_bind, hd i hi, ok_bind,
      rd_eq (by omega), ok_bind, upSum_eval hA hD hl hi hx, ok_bind, zero_add]
  dep i hi g h hgh := by rw [upSum_congr hA hS hD hi hgh]

theorem rowUpd_blockUpper (hA : A.Full m) (hS : A.Sorted) (hD : A.HasDiag) {ilu : List R}
    (hl : ilu.length = A.browptr⟦A.nbrows⟧)
    {rhs : List M} (hr : rhs.length = A.nbrows) :
    RowUpd (blockUpperRow A ilu rhs) A.nbrows (UpDep A)
      (fun i x => ilu⟦A.diagind⟦i⟧⟧ • (rhs⟦i⟧ - upSum A ilu i x)) where
  eval i hi r x hx := by
    have h1 := hA.ptr_len
    have h2 := hD.diag_len
    have h3 := hA.lt_nnz hi (hD.diag_lt i hi)
    unfold blockUpperRow
    rw [rd_eq (by omega), ok_bind, rd_eq (by omega), ok_bind,
      rd_eq (by omega), ok_bind, upSum_eval hA hD hl hi hx, ok_bind, zero_add, rd_eq (by omega), ok_bind]
  dep i hi g h hgh := by rw [upSum_congr hA hS hD hi hgh]

theorem rowUpd_fgs {A : SR R} (hA : A.Full) (hS : A.Sorted) (hD : A.HasDiag) {dinv : List R}
    (hd : dinv.length = A.nbrows) {rhs : List M} (hr : rhs.length = A.nbrows) :
    RowUpd (fgsRow A dinv rhs) A.nbrows (LowDep A) (fun i x => dinv⟦i⟧ • (rhs⟦i⟧ - lowSum A A.vals i x)) where
  eval i hi r x hx := by
    have h1 := hA.ptr_len
    have h2 := hD.diag_len
    have h3 := hA.val_len
    unfold fgsRow
    rw [rd_eq (by omega), ok_bind, rd_eq (by omega), ok_bind, rd_eq (by omega), ok_bind,
      rd_eq (by omega), ok_bind, lowSum_eval hA hD (by omega) hi hx, ok_bind, zero_add]
  dep i hi g h hgh := by rw [lowSum_congr hS hD hi hgh]

theorem rowUpd_bgs {A : SR R} (hA : A.Full) (hS : A.Sorted) (hD : A.HasDiag) {dinv : List R}
    (hd : dinv.length = A.nbrows) {rhs : List M} (hr : rhs.length = A.nbrows) :
    RowUpd (bgsRow A dinv rhs) A.nbrows (UpDep A) (fun i x => rhs⟦i⟧ - dinv⟦i⟧ • upSum A A.vals i x) where
  eval i hi r x hx := by
    have h1 := hA.ptr_len
    have h2 := hD.diag_len
    have h3 := hA.val_len
    unfold bgsRow
    rw [rd_eq (by omega), ok_bind, rd_eq (by omega), ok_bind, rd_eq (by omega), ok_bind,
      rd_eq (by omega), ok_bind, upSum_eval hA hD (by omega) hi hx, ok_bind, zero_add]
  dep i hi g h hgh := by rw [upSum_congr hA hS hD hi hgh]

theorem rowUpd_relax {A : SR R} (hA : A.Full) (hS : A.Sorted) (hD : A.HasDiag) {dinv : List R}
    (hd : dinv.length = A.nbrows) {rhs : List M} (hr : rhs.length = A.nbrows) :
    RowUpd (relaxRow A dinv rhs) A.nbrows (fun i j => Nbr A i j ∧ j ≠ i)
      (fun i x => dinv⟦i⟧ • (rhs⟦i⟧ - (lowSum A A.vals i x + upSum A A.vals i x))) where
  eval i hi r x hx := by
    have h1 := hA.ptr_len
    have h2 := hD.diag_len
    have h3 := hA.val_len
    unfold relaxRow
    rw [rd_eq (by omega), ok_bind, rd_eq (by omega), ok_bind, rd_eq (by omega), ok_bind, rd_eq (by omega), ok_bind,
      rd_eq (by omega), ok_bind, lowSum_eval hA hD (by omega) hi hx, ok_bind, zero_add,
      upSum_eval hA hD (by omega) hi hx, ok_bind]
  dep i hi g h hgh := by
    rw [lowSum_congr hS hD hi (fun j hj hd => hgh j hj ⟨hd.1, by have := hd.2; omega⟩),
      upSum_congr hA hS hD hi (fun j hj hd => hgh j hj ⟨hd.1, by have := hd.2; omega⟩)]

/-! ### Rows of the factors -/

/-- Row `i` of the part of the matrix selected by `P` times a vector. -/
theorem part_sum (hA : A.Full m) {vals : List R} (hl : vals.length = A.browptr⟦A.nbrows⟧) {i : Nat}
    (hi : i < A.nbrows) (P : Nat → Prop) [DecidablePred P] (x : Nat → M) :
    ∑ j ∈ range A.nbrows, (if P j then facEntry A vals i j else 0) • x j =
      ∑ p ∈ Ico A.browptr⟦i⟧ A.browptr⟦i + 1⟧, if P A.bcolind⟦p⟧ then vals⟦p⟧ • x A.bcolind⟦p⟧ else 0 := by
  have := (hA.withVals hl).sum_row (A := { A with vals := vals }) hi
    (fun v j => (if P j then v else 0) • x j) (by simp) (by
      intro u v j
      by_cases h : P j <;> simp [h, add_smul])
  simp only at this
  unfold facEntry
  rw [← this]
  refine sum_congr rfl fun p _ => ?_
  by_cases h : P A.bcolind⟦p⟧ <;> simp [h]

theorem low_mul (hA : A.Full m) (hS : A.Sorted) (hD : A.HasDiag) {vals : List R}
    (hl : vals.length = A.browptr⟦A.nbrows⟧) {i : Nat} (hi : i < A.nbrows) (x : Nat → M) :
    ∑ j ∈ range A.nbrows, (if j < i then facEntry A vals i j else 0) • x j = lowSum A vals i x := by
  rw [part_sum hA hl hi, ← sum_filter]
  unfold lowSum
  refine sum_congr (Finset.ext fun p => ?_) fun _ _ => rfl
  rw [mem_filter, mem_Ico, mem_Ico]
  have hd := hD.inRow hi
  have hd2 := hd.2
  constructor
  · rintro ⟨hp, hlt⟩
    rw [← hD.diag_col i hi, hS.lt_iff hi hp hd] at hlt
    exact ⟨hp.1, hlt⟩
  · rintro ⟨h1, h2⟩
    exact ⟨⟨h1, by omega⟩, (low_dep hS hD hi h1 h2).2⟩

theorem up_mul (hA : A.Full m) (hS : A.Sorted) (hD : A.HasDiag) {vals : List R}
    (hl : vals.length = A.browptr⟦A.nbrows⟧) {i : Nat} (hi : i < A.nbrows) (x : Nat → M) :
    ∑ j ∈ range A.nbrows, (if i < j then facEntry A vals i j else 0) • x j = upSum A vals i x := by
  rw [part_sum hA hl hi, ← sum_filter]
  unfold upSum
  refine sum_congr (Finset.ext fun p => ?_) fun _ _ => rfl
  rw [mem_filter, mem_Ico, mem_Ico]
  have hd := hD.inRow hi
  have hd1 := hd.1
  constructor
  · rintro ⟨hp, hlt⟩
    have hlt' := hlt
    rw [← hD.diag_col i hi, hS.lt_iff hi hd hp] at hlt'
    exact ⟨hlt', hp.2⟩
  · rintro ⟨h1, h2⟩
    exact ⟨⟨by omega, h2⟩, (up_dep hS hD hi h1 h2).2⟩

omit [AddCommGroup M] [Module R M] in
theorem facEntry_diag (hA : A.Full m) (hS : A.Sorted) (hD : A.HasDiag) {vals : List R}
    (hl : vals.length = A.browptr⟦A.nbrows⟧) {i : Nat} (hi : i < A.nbrows) :
    facEntry A vals i i = vals⟦A.diagind⟦i⟧⟧ := by
  have := facEntry_stored hA hS hl hi (hD.inRow hi)
  rwa [hD.diag_col i hi] at this

/-- Row `i` of `L y`. -/
theorem lowerFactor_mul (hA : A.Full m) (hS : A.Sorted) (hD : A.HasDiag) {vals : List R}
    (hl : vals.length = A.browptr⟦A.nbrows⟧) {i : Nat} (hi : i < A.nbrows) (x : Nat → M) :
    ∑ j ∈ range A.nbrows, lowerFactor A vals i j • x j = lowSum A vals i x + x i := by
  have e : ∀ j, lowerFactor A vals i j • x j =
      (if j < i then facEntry A vals i j else 0) • x j + (if j = i then x j else 0) := by
    intro j
    unfold lowerFactor
    by_cases h1 : j < i
    · rw [if_pos h1, if_pos h1, if_neg (by omega), add_zero]
    · rw [if_neg h1, if_neg h1]
      by_cases h2 : j = i <;> simp [h2]
  rw [sum_congr rfl fun j _ => e j, sum_add_distrib, low_mul hA hS hD hl hi, sum_ite_eq' (range A.nbrows) i,
    if_pos (mem_range.mpr hi)]

/-- Row `i` of `U z`. -/
theorem upperFactor_mul (hA : A.Full m) (hS : A.Sorted) (hD : A.HasDiag) {vals : List R}
    (hl : vals.length = A.browptr⟦A.nbrows⟧) {i : Nat} (hi : i < A.nbrows) (x : Nat → M) :
    ∑ j ∈ range A.nbrows, upperFactor A vals i j • x j = vals⟦A.diagind⟦i⟧⟧ • x i + upSum A vals i x := by
  have e : ∀ j, upperFactor A vals i j • x j =
      (if j = i then facEntry A vals i i • x i else 0) + (if i < j then facEntry A vals i j else 0) • x j := by
    intro j
    unfold upperFactor
    rcases Nat.lt_trichotomy i j with h | h | h
    · rw [if_pos (by omega), if_neg (by omega), if_pos h, zero_add]
    · subst h; simp
    · rw [if_neg (by omega), if_neg (by omega), if_neg (by omega)]; simp
  rw [sum_congr rfl fun j _ => e j, sum_add_distrib, up_mul hA hS hD hl hi, sum_ite_eq' (range A.nbrows) i,
    if_pos (mem_range.mpr hi), facEntry_diag hA hS hD hl hi]

/-- `(L U) w = L (U w)`. -/
theorem luProd_mul {ilu : List R} (x : Nat → M) (i : Nat) :
    ∑ j ∈ range A.nbrows, luProd A ilu i j • x j =
      ∑ k ∈ range A.nbrows, lowerFactor A ilu i k • ∑ j ∈ range A.nbrows, upperFactor A ilu k j • x j := by
  unfold luProd
  simp only [sum_smul, smul_sum, mul_smul]
  exact sum_comm

/-- Row `i` of `A x`, split at the diagonal. -/
theorem row_mul {A : SR R} (hA : A.Full) (hS : A.Sorted) (hD : A.HasDiag) {i : Nat} (hi : i < A.nbrows)
    (x : Nat → M) : ∑ j ∈ range A.nbrows, A.entry i j • x j =
      lowSum A A.vals i x + A.entry i i • x i + upSum A A.vals i x := by
  have hl : A.vals.length = A.browptr⟦A.nbrows⟧ := by have := hA.val_len; omega
  rw [← low_mul hA hS hD hl hi, ← up_mul hA hS hD hl hi]
  have e : ∀ j, A.entry i j • x j = (if j < i then facEntry A A.vals i j else 0) • x j +
      (if j = i then A.entry i i • x i else 0) + (if i < j then facEntry A A.vals i j else 0) • x j := by
    intro j
    have : facEntry A A.vals i j = A.entry i j := rfl
    rw [this]
    rcases Nat.lt_trichotomy i j with h | h | h
    · rw [if_neg (by omega), if_neg (by omega), if_pos h]; simp
    · subst h; simp
    · rw [if_pos h, if_neg (by omega), if_neg (by omega)]; simp
  rw [sum_congr rfl fun j _ => e j, sum_add_distrib, sum_add_distrib, sum_ite_eq' (range A.nbrows) i,
    if_pos (mem_range.mpr hi)]

end kernels

end Blasted
