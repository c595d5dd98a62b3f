import Verif.Race.TornLemmas
import Verif.Arith.RowLemmas
import Verif.Arith.FacProps

/-!
# The block kernels coefficient by coefficient

If the cells that a kernel loads have only one possible value each, it computes what the kernel of the sequential code computes from these values.
-/

namespace Blasted

open Prog

variable {K V R M α β σ ι : Type} {w : Nat} {n : Nat}

/-- Whatever component `i` is computed from, if it loads from the components `j` with `D i j` nothing but the values `view j`, it is the value that `upd` computes from `view`. -/
def TornKernel (e : M ≃ (Fin w → K)) (n : Nat) (D : Nat → Nat → Prop) (p : Nat → Prog K (Fin w → K)) (upd : Nat → (Nat → C M) → C M) : Prop :=
  ∀ i < n, ∀ (S : Nat → Set K) (J : Prop) (view : Nat → M), (∀ j < n, D i j → ∀ a : Fin w, S (j * w + a) ⊆ {e (view j) a}) →
    Tracks S J (p i) (do let v ← upd i (readView n view); .ok (e v))

section exact
variable {e : M ≃ (Fin w → K)} {D : Nat → Nat → Prop} {p : Nat → Prog K (Fin w → K)} {upd : Nat → (Nat → C M) → C M} {G : Nat → Nat → Prop} {N : Nat}

theorem all_true (S : Nat → Set K) {J : Prop} (hJ : J) {P : α → Prop} (hP : ∀ a, P a) (m : Prog K α) : m.All S J P := by
  induction m with
  | ret a => exact hP a
  | fail e => exact fun _ => hJ
  | load c k ih => exact fun v _ => ih v
  | store _ _ _ => trivial

theorem tcell_inj {l : Nat} {a a' : Fin w} (h : l * w + a = l * w + a') : a = a' := Fin.ext (by omega)

/-- Chains of dependences end: after as many rounds as the longest of them is long, every component has the value that the sequential code computes. -/
theorem TornExec.exact [Zero K] [Zero M] (hk : TornKernel e n D p upd) {ex : List M} (hex : ex.length = n)
    (hfix : ∀ i < n, upd i (readView n (get0 ex)) = .ok ex⟦i⟧) {rank : Nat → Nat} (hrank : ∀ i < n, ∀ j < n, D i j → rank j < rank i)
    {L k s : Nat} (hL : 1 ≤ L) (hkr : ∀ i < n, rank i < k) (hs : n ≠ 0 → (k - 1) * (2 * L - 1) + L ≤ s) {x : List M} (hx : x.length = n) {m : List K}
    (h : TornExec (Lag n L) n (s * n) w p (flat e x) m) : m = flat e ex := by
  have hm : (flat e x).length = n * w := by rw [flat_length, hx]
  rcases Nat.eq_zero_or_pos n with hn | hn
  · obtain ⟨-, log, st, -, -, rfl⟩ := h
    refine flat_ext (by rw [applyLog_cells_length, hm, hex]) fun l hl => by omega
  have hk1 : 1 ≤ k := by have := hkr 0 hn; omega
  have key := h.rounds (Q := fun r c => {v | rank (c / w) < r → ∀ a : Fin w, c = c / w * w + a → v = e ex⟦c / w⟧ a}) hL hk1 (hs (by omega)) hm ?_ ?_ ?_
  · refine flat_ext (by rw [key.1, hex]) fun l hl a => ?_
    have := key.2 (l * w + a) (tcell_lt (by omega) a)
    simp only [tcell_div, Set.mem_ofPred_eq] at this
    exact this (hkr l (by omega)) a rfl
  · intro r r' c _ hr v hv hlt
    exact hv (by omega)
  · intro c _ h0
    omega
  · intro r i hi
    by_cases hri : rank i ≤ r
    · have := hk i hi (fun c => {v | rank (c / w) < r → ∀ a : Fin w, c = c / w * w + a → v = e ex⟦c / w⟧ a})
        (∀ (v : Fin w → K) (a : Fin w), v a ∈ {v | rank ((i * w + a) / w) < r + 1 → ∀ a' : Fin w, i * w + a = (i * w + a) / w * w + a' → v = e ex⟦(i * w + a) / w⟧ a'})
        (get0 ex) ?_ (e ex⟦i⟧) (by rw [hfix i hi]; rfl)
      · refine this.imp fun v hv a => ?_
        simp only [tcell_div, Set.mem_ofPred_eq]
        intro _ a' haa
        rw [hv, tcell_inj haa]
      · intro j hj hD a v hv
        simp only [tcell_div, Set.mem_ofPred_eq] at hv
        exact hv (by have := hrank i hi j hj hD; omega) a rfl
    · refine all_true _ ?_ ?_ _
      · intro v a
        simp only [tcell_div, Set.mem_ofPred_eq]
        omega
      · intro v a
        simp only [tcell_div, Set.mem_ofPred_eq]
        omega

/-- What one update of any component leaves unchanged, every execution leaves unchanged. -/
theorem TornExec.fixed [Zero K] [Zero M] (hk : TornKernel e n D p upd) {ex : List M} (hex : ex.length = n)
    (hfix : ∀ i < n, upd i (readView n (get0 ex)) = .ok ex⟦i⟧) {m : List K} (h : TornExec G n N w p (flat e ex) m) : m = flat e ex := by
  have hm : (flat e ex).length = n * w := by rw [flat_length, hex]
  have key := h.preserves (P := fun c => {v | v = (flat e ex)⟦c⟧}) hm (fun c _ => rfl) ?_
  · exact ext_get0 (by rw [key.1, hm]) fun c hc => key.2 c (by rw [← key.1]; exact hc)
  · intro r i hi
    refine (hk i hi _ _ (get0 ex) ?_ (e ex⟦i⟧) (by rw [hfix i hi]; rfl)).imp fun v hv a => ?_
    · intro j hj _ a v hv
      rw [Set.mem_ofPred_eq, flat_get e ex (by omega)] at hv
      exact hv
    · rw [Set.mem_ofPred_eq, flat_get e ex (by omega), hv]

end exact

/-! ### Rows -/

section rows
variable [Zero M] [Add M] [Sub M] [SMul R M] {S : Nat → Set K} {J : Prop}

omit [Zero M] [Sub M] in
theorem tracks_rowSumT (e : M ≃ (Fin w → K)) {colind : List Nat} {vals : List R} {lo hi : Nat} {r : Nat → C M}
    (h : ∀ jj, lo ≤ jj → jj < hi → ∀ v, r colind⟦jj⟧ = .ok v → ∀ a : Fin w, S (colind⟦jj⟧ * w + a) ⊆ {e v a}) (s : M) :
    Tracks S J (rowSumT e colind vals lo hi s) (rowSum colind vals lo hi r s) := by
  unfold rowSumT rowSum
  simp only [bind_assoc_C, ok_bind]
  refine tracks_forRange (fun jj h1 h2 s => (tracks_lift _).bind fun v _ => (tracks_lift _).bind fun c hc => ?_) s
  refine Tracks.coefP (Tracks.bind ?_ fun x _ => tracks_pure _)
  rw [rd_val hc]
  intro v hv
  exact tracks_loadP (h jj h1 h2 v hv) (fun v' hv' => by rw [hv] at hv'; injection hv' with hv'; exact hv'.symm) v hv

omit [Zero M] [Add M] [Sub M] in
theorem readView_eq {n : Nat} {view : Nat → M} {j : Nat} {v : M} (h : readView n view j = .ok v) : j < n ∧ v = view j := by
  unfold readView at h
  split at h
  · injection h with h; exact ⟨by assumption, h.symm⟩
  · cases h

omit [Zero M] [Add M] [Sub M] [SMul R M] in
theorem fits_of {e : M ≃ (Fin w → K)} {D : Nat → Prop} {view : Nat → M} (h : ∀ j < n, D j → ∀ a : Fin w, S (j * w + a) ⊆ {e (view j) a}) {j : Nat} (hD : j < n → D j) :
    ∀ v, readView n view j = .ok v → ∀ a : Fin w, S (j * w + a) ⊆ {e v a} := by
  intro v hv a
  obtain ⟨h1, rfl⟩ := readView_eq hv
  exact h j h1 (hD h1) a

theorem tornKernel_unitLower (e : M ≃ (Fin w → K)) {A : SR V} (hS : A.Sorted) (hD : A.HasDiag) (ilu : List R) (rhs : List M) :
    TornKernel e A.nbrows (LowDep A) (unitLowerT e A ilu rhs) (unitLowerRow A ilu rhs) := by
  intro i hi S J view hv
  unfold unitLowerT unitLowerRow
  simp only [bind_assoc_C, ok_bind]
  refine (tracks_lift _).bind fun lo h1 => (tracks_lift _).bind fun d h2 => (tracks_lift _).bind fun b _ => (tracks_rowSumT e ?_ _).bind fun s _ => tracks_pure _
  rw [rd_val h1, rd_val h2]
  exact fun jj g1 g2 => fits_of hv fun _ => low_dep hS hD hi g1 g2

theorem tornKernel_blockUpper (e : M ≃ (Fin w → K)) {A : SR V} (hS : A.Sorted) (hD : A.HasDiag) (ilu : List R) (rhs : List M) :
    TornKernel e A.nbrows (UpDep A) (blockUpperT e A ilu rhs) (blockUpperRow A ilu rhs) := by
  intro i hi S J view hv
  unfold blockUpperT blockUpperRow
  simp only [bind_assoc_C, ok_bind]
  refine (tracks_lift _).bind fun d h1 => (tracks_lift _).bind fun hi' h2 => (tracks_lift _).bind fun b _ => (tracks_rowSumT e ?_ _).bind fun s _ =>
    (tracks_lift _).bind fun v _ => tracks_pure _
  rw [rd_val h1, rd_val h2]
  exact fun jj g1 g2 => fits_of hv fun _ => up_dep hS hD hi g1 g2

theorem tornKernel_bgs (e : M ≃ (Fin w → K)) {A : SR R} (hS : A.Sorted) (hD : A.HasDiag) (dinv : List R) (rhs : List M) :
    TornKernel e A.nbrows (UpDep A) (bgsT e A dinv rhs) (bgsRow A dinv rhs) := by
  intro i hi S J view hv
  unfold bgsT bgsRow
  simp only [bind_assoc_C, ok_bind]
  refine (tracks_lift _).bind fun d h1 => (tracks_lift _).bind fun hi' h2 => (tracks_lift _).bind fun di _ => (tracks_lift _).bind fun b _ =>
    (tracks_rowSumT e ?_ _).bind fun s _ => tracks_pure _
  rw [rd_val h1, rd_val h2]
  exact fun jj g1 g2 => fits_of hv fun _ => up_dep hS hD hi g1 g2

theorem tornKernel_relax (e : M ≃ (Fin w → K)) (A : SR R) (dinv : List R) (rhs : List M) :
    TornKernel e A.nbrows (fun _ _ => True) (relaxT e A dinv rhs) (relaxRow A dinv rhs) := by
  intro i hi S J view hv
  unfold relaxT relaxRow
  simp only [bind_assoc_C, ok_bind]
  exact (tracks_lift _).bind fun lo _ => (tracks_lift _).bind fun d _ => (tracks_lift _).bind fun hi' _ => (tracks_lift _).bind fun di _ => (tracks_lift _).bind fun b _ =>
    (tracks_rowSumT e (fun jj _ _ => fits_of hv fun _ => trivial) _).bind fun s _ => (tracks_rowSumT e (fun jj _ _ => fits_of hv fun _ => trivial) _).bind fun s _ => tracks_pure _

end rows

/-! ### The factorization -/

section ilu
variable [Zero R] [Sub R] [Mul R] [PInvOp R] {A : SR R} {pos : ILUPos}

/-- The entries that are loaded for entry `p` of the factors. -/
def FacDep (A : SR R) (pos : ILUPos) (p q : Nat) : Prop :=
  (∃ t, pos.posptr⟦p⟧ ≤ t ∧ t < pos.posptr⟦p + 1⟧ ∧ (q = pos.lowerp⟦t⟧ ∨ q = pos.upperp⟦t⟧)) ∨ (A.bcolind⟦p⟧ < A.rowOf p ∧ q = A.diagind⟦A.bcolind⟦p⟧⟧)

theorem tornKernel_ilu (e : R ≃ (Fin w → K)) (scal : Nat → Nat → R → C R) (N : Nat) :
    TornKernel e N (FacDep A pos) (iluCompT e A scal pos) (iluComp A scal pos) := by
  intro p hp S J view hv
  have hload : ∀ q, FacDep A pos p q → Tracks S J (loadP e q) (readView N view q) := fun q hq v hv' =>
    tracks_loadP (fits_of hv (fun _ => hq) v hv') (fun v' h' => by rw [hv'] at h'; injection h' with h'; exact h'.symm) v hv'
  unfold iluCompT iluComp iluUpd
  simp only [bind_assoc_C]
  refine (tracks_lift _).bind fun column h1 => (tracks_lift _).bind fun v _ => (tracks_lift _).bind fun sum _ => (tracks_lift _).bind fun lo h2 =>
    (tracks_lift _).bind fun hi h3 => ?_
  refine Tracks.bind ?_ fun sum _ => Tracks.bind ?_ fun x _ => tracks_pure _
  · refine tracks_forRange (fun t g1 g2 s => (tracks_lift _).bind fun l hl => (tracks_lift _).bind fun u hu => ?_) _
    rw [rd_val h2] at g1
    rw [rd_val h3] at g2
    rw [rd_val hl, rd_val hu]
    exact Tracks.coefP ((hload _ (.inl ⟨t, g1, g2, .inl rfl⟩)).bind fun a _ => (hload _ (.inl ⟨t, g1, g2, .inr rfl⟩)).bind fun b _ => tracks_pure _)
  · unfold iluLastT
    split
    · rename_i hlt
      refine (tracks_lift _).bind fun d hd => ?_
      rw [rd_val hd, rd_val h1]
      rw [rd_val h1] at hlt
      exact Tracks.coefP ((hload _ (.inr ⟨hlt, rfl⟩)).bind fun u _ => tracks_lift _)
    · exact tracks_pure _

omit [Zero R] [Sub R] [Mul R] [PInvOp R] in
/-- The entries that are loaded have shorter chains. -/
theorem facDep_rank (hA : A.Full) (hD : A.HasDiag) (hpos : ILUPosOk A pos) {p q : Nat} (hp : p < A.browptr⟦A.nbrows⟧) (h : FacDep A pos p q) :
    iluRank A q < iluRank A p := by
  obtain ⟨hi, hrow⟩ := hA.rowOf_spec hp
  rcases h with ⟨t, ht1, ht2, h⟩ | ⟨hlow, rfl⟩
  · obtain ⟨k, hk, g3, g4, g5, g6⟩ := hpos.sound _ hi p hrow t ht1 ht2
    have hki : k < A.rowOf p := lt_of_lt_of_le hk (min_le_left _ _)
    have hkj : k < A.bcolind⟦p⟧ := lt_of_lt_of_le hk (min_le_right _ _)
    have hkn : k < A.nbrows := by omega
    rcases h with rfl | rfl
    · unfold iluRank
      rw [hA.rowOf_eq hi g3, g4, if_pos hki]
      split <;> omega
    · unfold iluRank
      rw [hA.rowOf_eq hkn g5, g6, if_neg (by omega)]
      split <;> omega
  · have hc := hA.col_lt p hp
    unfold iluRank
    rw [hA.rowOf_eq hc (hD.inRow hc), hD.diag_col _ hc, if_neg (by omega), if_pos hlow]
    omega

end ilu

end Blasted
