import Verif.Solve.Phases

/-!
# The row kernels in an arbitrary arithmetic

Nothing is assumed of the operations `+`, `-`, `*`, `•`, in particular not that they are associative: they may round. The sums are then what the code computes, the terms added one
after another.
-/

namespace Blasted

variable {V R M : Type}

/-- `s + f lo + f (lo+1) + ... + f (hi-1)`, added from left to right. -/
def addUp [Add M] (f : Nat → M) (lo hi : Nat) (s : M) : M := (List.range' lo (hi - lo)).foldl (fun s p => s + f p) s

/-- `s - f lo - f (lo+1) - ... - f (hi-1)`, subtracted from left to right. -/
def subUp [Sub M] (f : Nat → M) (lo hi : Nat) (s : M) : M := (List.range' lo (hi - lo)).foldl (fun s p => s - f p) s

theorem addUp_congr [Add M] {f g : Nat → M} {lo hi : Nat} (h : ∀ p, lo ≤ p → p < hi → f p = g p) (s : M) : addUp f lo hi s = addUp g lo hi s := by
  unfold addUp
  have h' : ∀ p ∈ List.range' lo (hi - lo), f p = g p := fun p hp => by rw [List.mem_range'_1] at hp; exact h p (by omega) (by omega)
  generalize List.range' lo (hi - lo) = l at h'
  induction l generalizing s with
  | nil => rfl
  | cons a l ih =>
    rw [List.foldl_cons, List.foldl_cons, h' a (by simp)]
    exact ih _ fun p hp => h' p (by simp [hp])

theorem subUp_congr [Sub M] {f g : Nat → M} {lo hi : Nat} (h : ∀ p, lo ≤ p → p < hi → f p = g p) (s : M) : subUp f lo hi s = subUp g lo hi s := by
  unfold subUp
  have h' : ∀ p ∈ List.range' lo (hi - lo), f p = g p := fun p hp => by rw [List.mem_range'_1] at hp; exact h p (by omega) (by omega)
  generalize List.range' lo (hi - lo) = l at h'
  induction l generalizing s with
  | nil => rfl
  | cons a l ih =>
    rw [List.foldl_cons, List.foldl_cons, h' a (by simp)]
    exact ih _ fun p hp => h' p (by simp [hp])

/-- A loop whose body succeeds with a pure function of the state. -/
theorem forRange_foldl {σ : Type} {lo hi : Nat} {body : Nat → σ → C σ} {g : σ → Nat → σ} (h : ∀ p, lo ≤ p → p < hi → ∀ s, body p s = .ok (g s p)) (s : σ) :
    forRange lo hi body s = .ok ((List.range' lo (hi - lo)).foldl g s) := by
  unfold forRange
  have h' : ∀ p ∈ List.range' lo (hi - lo), ∀ s, body p s = .ok (g s p) := fun p hp => by rw [List.mem_range'_1] at hp; exact h p (by omega) (by omega)
  generalize List.range' lo (hi - lo) = l at h'
  induction l generalizing s with
  | nil => rfl
  | cons a l ih =>
    rw [forList_cons, h' a (by simp), ok_bind, List.foldl_cons]
    exact ih _ fun p hp => h' p (by simp [hp])

section kernels
variable [Zero R] [Zero M] [Add M] [Sub M] [SMul R M]

omit [Zero M] [Sub M] in
theorem rowSum_any {colind : List Nat} {vals : List R} {lo hi n : Nat} (h1 : hi ≤ colind.length) (h2 : hi ≤ vals.length)
    (hc : ∀ p, lo ≤ p → p < hi → colind⟦p⟧ < n) {r : Nat → C M} {x : Nat → M} (hr : ∀ j < n, r j = .ok (x j)) (s : M) :
    rowSum colind vals lo hi r s = .ok (addUp (fun p => vals⟦p⟧ • x colind⟦p⟧) lo hi s) := by
  refine forRange_foldl (fun p hp1 hp2 s => ?_) s
  rw [rd_eq (by omega), ok_bind, rd_eq (by omega), ok_bind, hr _ (hc p hp1 hp2), ok_bind, ok_bind]

/-- What the code computes for the sum over the entries left of the diagonal. -/
def lowAdd (A : SR V) (vals : List R) (i : Nat) (x : Nat → M) : M :=
  addUp (fun p => vals⟦p⟧ • x A.bcolind⟦p⟧) A.browptr⟦i⟧ A.diagind⟦i⟧ 0

/-- What the code computes for the sum over the entries right of the diagonal. -/
def upAdd (A : SR V) (vals : List R) (i : Nat) (x : Nat → M) : M :=
  addUp (fun p => vals⟦p⟧ • x A.bcolind⟦p⟧) (A.diagind⟦i⟧ + 1) A.browptr⟦i + 1⟧ 0

variable {A : SR V} {m : Nat}

omit [Sub M] in
theorem lowAdd_congr (hS : A.Sorted) (hD : A.HasDiag) {vals : List R} {i : Nat}
    (hi : i < A.nbrows) {g h : Nat → M} (hgh : ∀ j < A.nbrows, LowDep A i j → g j = h j) :
    lowAdd A vals i g = lowAdd A vals i h :=
  addUp_congr (fun p h1 h2 => by
    have hd := low_dep hS hD hi h1 h2
    rw [hgh _ (by have := hd.2; omega) hd]) 0

omit [Sub M] in
theorem upAdd_congr (hA : A.Full m) (hS : A.Sorted) (hD : A.HasDiag) {vals : List R} {i : Nat}
    (hi : i < A.nbrows) {g h : Nat → M} (hgh : ∀ j < A.nbrows, UpDep A i j → g j = h j) :
    upAdd A vals i g = upAdd A vals i h :=
  addUp_congr (fun p h1 h2 => by rw [hgh _ (hA.col_lt p (hA.lt_nnz hi h2)) (up_dep hS hD hi h1 h2)]) 0

omit [Sub M] in
theorem lowAdd_eval (hA : A.Full m) (hD : A.HasDiag) {vals : List R}
    (hl : vals.length = A.browptr⟦A.nbrows⟧) {i : Nat} (hi : i < A.nbrows) {r : Nat → C M} {x : Nat → M}
    (hr : ∀ j < A.nbrows, r j = .ok (x j)) :
    rowSum A.bcolind vals A.browptr⟦i⟧ A.diagind⟦i⟧ r 0 = .ok (lowAdd A vals i x) := by
  have h1 := hA.lt_nnz hi (hD.diag_lt i hi)
  have h2 := hA.ind_len
  exact rowSum_any (n := A.nbrows) (by omega) (by omega) (fun p _ hp => hA.col_lt p (by omega)) hr 0

omit [Sub M] in
theorem upAdd_eval (hA : A.Full m) {vals : List R}
    (hl : vals.length = A.browptr⟦A.nbrows⟧) {i : Nat} (hi : i < A.nbrows) {r : Nat → C M} {x : Nat → M}
    (hr : ∀ j < A.nbrows, r j = .ok (x j)) :
    rowSum A.bcolind vals (A.diagind⟦i⟧ + 1) A.browptr⟦i + 1⟧ r 0 = .ok (upAdd A vals i x) := by
  have h2 := hA.ind_len
  have h3 := hA.ptr_le (i := i + 1) (j := A.nbrows) hi (Nat.le_refl _)
  exact rowSum_any (n := A.nbrows) (by omega) (by omega) (fun p _ hp => hA.col_lt p (by omega)) hr 0

/-- The unit lower triangular kernel. -/
theorem triAny_unitLower (hA : A.Full m) (hS : A.Sorted) (hD : A.HasDiag) {ilu : List R} (hl : ilu.length = A.browptr⟦A.nbrows⟧) :
    TriUpd (M := M) (unitLowerRow A ilu) A.nbrows (LowDep A) (fun b i x => b i - lowAdd A ilu i x) where
  upd rhs hr := {
    eval := fun i hi r x hx => by
      have h1 := hA.ptr_len
      have h2 := hD.diag_len
      unfold unitLowerRow
      rw [rd_eq (by omega), ok_bind, rd_eq (by omega), ok_bind, rd_eq (by omega), ok_bind, lowAdd_eval hA hD hl hi hx, ok_bind]
    dep := fun i hi g h hgh => by rw [lowAdd_congr hS hD hi hgh] }
  local_ b b' i x h := by rw [h]

/-- The upper triangular kernel of the scalar code. -/
theorem triAny_upper [PInvOp R] (hA : A.Full m) (hS : A.Sorted) (hD : A.HasDiag) {ilu dinv : List R}
    (hl : ilu.length = A.browptr⟦A.nbrows⟧) (hd : ∀ i < A.nbrows, pinv ilu⟦A.diagind⟦i⟧⟧ = .ok dinv⟦i⟧) :
    TriUpd (M := M) (upperRow A ilu) A.nbrows (UpDep A) (fun b i x => dinv⟦i⟧ • (b i - upAdd A ilu i x)) where
  upd rhs hr := {
    eval := fun i hi r x hx => by
      have h1 := hA.ptr_len
      have h2 := hD.diag_len
      have h3 := hA.lt_nnz hi (hD.diag_lt i hi)
      unfold upperRow
      rw [rd_eq (by omega), ok_bind, rd_eq (by omega), ok_bind, rd_eq (by omega), ok_bind, hd i hi, ok_bind,
        rd_eq (by omega), ok_bind, upAdd_eval hA hl hi hx, ok_bind]
    dep := fun i hi g h hgh => by rw [upAdd_congr hA hS hD hi hgh] }
  local_ b b' i x h := by rw [h]

/-- The upper triangular kernel of the block code. -/
theorem triAny_blockUpper (hA : A.Full m) (hS : A.Sorted) (hD : A.HasDiag) {ilu : List R} (hl : ilu.length = A.browptr⟦A.nbrows⟧) :
    TriUpd (M := M) (blockUpperRow A ilu) A.nbrows (UpDep A) (fun b i x => ilu⟦A.diagind⟦i⟧⟧ • (b i - upAdd A ilu i x)) where
  upd rhs hr := {
    eval := fun i hi r x hx => by
      have h1 := hA.ptr_len
      have h2 := hD.diag_len
      have h3 := hA.lt_nnz hi (hD.diag_lt i hi)
      unfold blockUpperRow
      rw [rd_eq (by omega), ok_bind, rd_eq (by omega), ok_bind,
        rd_eq (by omega), ok_bind, upAdd_eval hA hl hi hx, ok_bind, rd_eq (by omega), ok_bind]
    dep := fun i hi g h hgh => by rw [upAdd_congr hA hS hD hi hgh] }
  local_ b b' i x h := by rw [h]

/-- The forward Gauss-Seidel kernel. -/
theorem triAny_fgs {A : SR R} (hA : A.Full) (hS : A.Sorted) (hD : A.HasDiag) {dinv : List R} (hd : dinv.length = A.nbrows) :
    TriUpd (M := M) (fgsRow A dinv) A.nbrows (LowDep A) (fun b i x => dinv⟦i⟧ • (b i - lowAdd A A.vals i x)) where
  upd rhs hr := {
    eval := fun i hi r x hx => by
      have h1 := hA.ptr_len
      have h2 := hD.diag_len
      have h3 := hA.val_len
      unfold fgsRow
      rw [rd_eq (by omega), ok_bind, rd_eq (by omega), ok_bind, rd_eq (by omega), ok_bind,
        rd_eq (by omega), ok_bind, lowAdd_eval hA hD (by omega) hi hx, ok_bind]
    dep := fun i hi g h hgh => by rw [lowAdd_congr hS hD hi hgh] }
  local_ b b' i x h := by rw [h]

/-- The backward Gauss-Seidel kernel. -/
theorem triAny_bgs {A : SR R} (hA : A.Full) (hS : A.Sorted) (hD : A.HasDiag) {dinv : List R} (hd : dinv.length = A.nbrows) :
    TriUpd (M := M) (bgsRow A dinv) A.nbrows (UpDep A) (fun b i x => b i - dinv⟦i⟧ • upAdd A A.vals i x) where
  upd rhs hr := {
    eval := fun i hi r x hx => by
      have h1 := hA.ptr_len
      have h2 := hD.diag_len
      have h3 := hA.val_len
      unfold bgsRow
      rw [rd_eq (by omega), ok_bind, rd_eq (by omega), ok_bind, rd_eq (by omega), ok_bind,
        rd_eq (by omega), ok_bind, upAdd_eval hA (by omega) hi hx, ok_bind]
    dep := fun i hi g h hgh => by rw [upAdd_congr hA hS hD hi hgh] }
  local_ b b' i x h := by rw [h]

end kernels

/-- A solution of the equations of a triangular solve is determined by them. -/
theorem fwd_unique {n : Nat} {D : Nat → Nat → Prop} {f : Nat → (Nat → M) → M} (hD : ∀ i j, D i j → j < i)
    (dep : ∀ i < n, ∀ g h : Nat → M, (∀ j < n, D i j → g j = h j) → f i g = f i h) {y y' : Nat → M} (h : ∀ i < n, y i = f i y) (h' : ∀ i < n, y' i = f i y') :
    ∀ i < n, y i = y' i := by
  intro i
  induction i using Nat.strong_induction_on with
  | _ i ih =>
    intro hi
    rw [h i hi, h' i hi]
    exact dep i hi _ _ fun j hj hd => ih j (hD i j hd) hj

theorem bwd_unique {n : Nat} {D : Nat → Nat → Prop} {f : Nat → (Nat → M) → M} (hD : ∀ i j, D i j → i < j)
    (dep : ∀ i < n, ∀ g h : Nat → M, (∀ j < n, D i j → g j = h j) → f i g = f i h) {y y' : Nat → M} (h : ∀ i < n, y i = f i y) (h' : ∀ i < n, y' i = f i y') :
    ∀ i < n, y i = y' i := by
  have : ∀ d i, n - i = d → i < n → y i = y' i := by
    intro d
    induction d using Nat.strong_induction_on with
    | _ d ih =>
      intro i hd hi
      rw [h i hi, h' i hi]
      exact dep i hi _ _ fun j hj hdep => ih (n - j) (by have := hD i j hdep; omega) j rfl hj
  exact fun i hi => this _ i rfl hi

/-- The result of a triangular solve with a kernel and right-hand sides that agree. -/
theorem IluSolved.unique_any [Zero M] {n : Nat} {lower upper : List M → Nat → (Nat → C M) → C M} {DL DU : Nat → Nat → Prop} {f g : (Nat → M) → Nat → (Nat → M) → M}
    (hl : TriUpd lower n DL f) (hu : TriUpd upper n DU g) (hDL : ∀ i j, DL i j → j < i) (hDU : ∀ i j, DU i j → i < j) {S : Nat → M → M} {r z z' : List M}
    (h : IluSolved f g S n r z) (h' : IluSolved f g S n r z') : z = z' := by
  obtain ⟨h0, y, w, h1, h2, h3⟩ := h
  obtain ⟨g0, y', w', g1, g2, g3⟩ := h'
  have key : ∀ b : Nat → M, ∃ rhs : List M, rhs.length = n ∧ ∀ i < n, rhs⟦i⟧ = b i := fun b =>
    ⟨(List.range n).map b, by simp, fun i hi => get0_map_range _ hi⟩
  have e1 : ∀ i < n, y i = y' i := by
    obtain ⟨rhs, k1, k2⟩ := key fun i => S i r⟦i⟧
    refine fwd_unique (f := f (get0 rhs)) hDL (hl.upd rhs k1).dep (fun i hi => ?_) (fun i hi => ?_)
    · rw [h1 i hi]; exact hl.local_ _ _ i _ (k2 i hi).symm
    · rw [g1 i hi]; exact hl.local_ _ _ i _ (k2 i hi).symm
  have e2 : ∀ i < n, w i = w' i := by
    obtain ⟨rhs, k1, k2⟩ := key y
    refine bwd_unique (f := g (get0 rhs)) hDU (hu.upd rhs k1).dep (fun i hi => ?_) (fun i hi => ?_)
    · rw [h2 i hi]; exact hu.local_ _ _ i _ (k2 i hi).symm
    · rw [g2 i hi]; exact hu.local_ _ _ i _ (by rw [k2 i hi, e1 i hi])
  refine ext_get0 (by omega) fun i hi => ?_
  rw [h3 i (by omega), g3 i (by omega), e2 i (by omega)]

end Blasted
