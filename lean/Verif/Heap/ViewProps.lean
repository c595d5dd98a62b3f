import Verif.Heap.MatProps
import Verif.Container.ViewProps

/-!
# Triangular views in memory (C34)

`lowerView` and `upperView` (`Container/ViewModel.lean`) give the matrix a triangular view denotes. Here: what the
functions do to the memory, and that a view and its destruction leave everything else as it was.
-/

namespace Blasted

variable {K β : Type}

/-! ## Specification -/

/-- The arrays of a raw triangular view as a matrix object that owns nothing: both row pointer arrays have one element for each row. -/
def RawMat.tri (L : RawMat) (nind nval : Nat) : MatObj where
  browptr := ⟨L.browptr, L.nbrows, false⟩
  bcolind := ⟨L.bcolind, nind, false⟩
  vals := ⟨L.vals, nval, false⟩
  diagind := ⟨L.diagind, L.nbrows, false⟩
  browendptr := ⟨L.browendptr, L.nbrows, false⟩
  nbrows := L.nbrows
  nnzb := L.nnzb
  nbstored := L.nbstored

/-! ## Lemmas -/

theorem get0_map_range' {n i : Nat} {a : Nat → Nat} (h : i < n) : ((List.range n).map a)⟦i⟧ = a i := by
  simp [get0, h]

theorem viewLoop_ok {B : List (List Nat)} {F : List Nat} {n : Nat} {body : Nat → Heap Nat × Nat → C (Heap Nat × Nat)} (a b c : Nat → Nat)
    (hbody : ∀ i < n, ∀ (p e : List Nat) (k : Nat), p.length = n → e.length = n →
      body i (⟨B ++ [p, e], F⟩, k) = .ok (⟨B ++ [p.set i (a i), e.set i (b i)], F⟩, k + c i))
    {p0 e0 : List Nat} (hp : p0.length = n) (he : e0.length = n) :
    forRange 0 n body (⟨B ++ [p0, e0], F⟩, 0) =
      .ok (⟨B ++ [(List.range n).map a, (List.range n).map b], F⟩, ∑ i ∈ Finset.range n, c i) := by
  obtain ⟨s, e, p, q, rfl, h1, h2, h3, h4⟩ := forRange_ok (lo := 0) (hi := n) (body := body) (s := (⟨B ++ [p0, e0], F⟩, 0))
    (fun t s => ∃ p q : List Nat, s = (⟨B ++ [p, q], F⟩, ∑ i ∈ Finset.range t, c i) ∧ p.length = n ∧ q.length = n ∧
      (∀ i < t, p⟦i⟧ = a i) ∧ ∀ i < t, q⟦i⟧ = b i) (Nat.zero_le _) ⟨p0, e0, by simp, hp, he, by simp, by simp⟩
    (by
      rintro t _ _ ht ⟨p, q, rfl, h1, h2, h3, h4⟩
      refine ⟨_, hbody t ht p q _ h1 h2, _, _, by rw [Finset.sum_range_succ], by simpa using h1, by simpa using h2, fun i hi => ?_, fun i hi => ?_⟩
      · by_cases e : i = t
        · subst e; rw [get0_set_self (by omega)]
        · rw [get0_set_ne (fun h => e h.symm)]; exact h3 i (by omega)
      · by_cases e : i = t
        · subst e; rw [get0_set_self (by omega)]
        · rw [get0_set_ne (fun h => e h.symm)]; exact h4 i (by omega))
  rw [e]
  have e1 : p = (List.range n).map a := ext_get0 (by simpa using h1) fun i hi => by rw [h3 i (by omega), get0_map_range' (by omega)]
  have e2 : q = (List.range n).map b := ext_get0 (by simpa using h2) fun i hi => by rw [h4 i (by omega), get0_map_range' (by omega)]
  rw [e1, e2]

theorem AV.load_of_read {v : AV} {h : Heap Nat} {l : List Nat} (e : v.read h = .ok l) {i : Nat} (hi : i < l.length) :
    h.load v.data i = .ok l⟦i⟧ := by
  obtain ⟨-, h2⟩ := AV.get_of_read e
  rw [(AV.get_load (h2 i hi)).2, get0_eq_getElem hi]

/-- The two blocks allocated for a view. -/
theorem alloc_two (B : List (List Nat)) (F : List Nat) (n : Nat) (gi : Nat → Nat → Nat) :
    (Heap.alloc (Heap.alloc ⟨B, F⟩ n (gi 0)).2 n (gi 1)) =
      (some (B.length + 1, 0), ⟨B ++ [(List.range n).map (gi 0), (List.range n).map (gi 1)], F⟩) := by
  simp [Heap.alloc]

theorem store_two {B : List (List Nat)} {F : List Nat} (hF : ∀ b ∈ F, b < B.length) {p e : List Nat} {i x : Nat} :
    (i < p.length → Heap.store ⟨B ++ [p, e], F⟩ (some (B.length, 0)) i x = .ok ⟨B ++ [p.set i x, e], F⟩) ∧
    (i < e.length → Heap.store ⟨B ++ [p, e], F⟩ (some (B.length + 1, 0)) i x = .ok ⟨B ++ [p, e.set i x], F⟩) := by
  have hF' : ∀ k, B.length + k ∉ F := fun k h => absurd (hF _ h) (by omega)
  exact ⟨fun h => store_new (k := 0) rfl (hF' 0) h, fun h => store_new (k := 1) rfl (hF' 1) h⟩

theorem read_two {B : List (List Nat)} {F : List Nat} (hF : ∀ b ∈ F, b < B.length) {p e : List Nat} {n : Nat} {own : Bool} (hp : p.length = n)
    (he : e.length = n) :
    AV.read ⟨some (B.length, 0), n, own⟩ ⟨B ++ [p, e], F⟩ = .ok p ∧ AV.read ⟨some (B.length + 1, 0), n, own⟩ ⟨B ++ [p, e], F⟩ = .ok e := by
  have hF' : ∀ k, B.length + k ∉ F := fun k h => absurd (hF _ h) (by omega)
  constructor
  · have := AV.read_new (B := B) (ls := [p, e]) (F := F) (v := ⟨some (B.length, 0), n, own⟩) (k := 0) (o := 0) rfl (hF' 0) rfl (by simp [hp])
    rw [this]
    simp [← hp]
  · have := AV.read_new (B := B) (ls := [p, e]) (F := F) (v := ⟨some (B.length + 1, 0), n, own⟩) (k := 1) (o := 0) rfl (hF' 1) rfl (by simp [he])
    rw [this]
    simp [← he]

theorem free_two {B : List (List Nat)} {F : List Nat} (hF : ∀ b ∈ F, b < B.length) {p e : List Nat} :
    (do
      let h ← Heap.free ⟨B ++ [p, e], F⟩ (some (B.length, 0))
      h.free (some (B.length + 1, 0))) = (.ok ⟨B ++ [p, e], F ++ [B.length] ++ [B.length + 1]⟩ : C (Heap Nat)) := by
  have h0 : B.length ∉ F := fun h => absurd (hF _ h) (by omega)
  have h1 : B.length + 1 ∉ F := fun h => absurd (hF _ h) (by omega)
  simp [Heap.free, h0, h1]

theorem released_two {B : List (List Nat)} {V : List (List K)} {F G : List Nat} (hG : ∀ b ∈ G, b < V.length) {p e : List Nat} {F' : List Nat} (hp : F'.Perm (F ++ [B.length] ++ [B.length + 1])) :
    Released [] [] (⟨⟨B, F⟩, ⟨V, G⟩⟩ : Mem K) ⟨⟨B ++ [p, e], F'⟩, ⟨V, G⟩⟩ := by
  constructor
  · intro x
    simp only [hp.mem_iff, List.mem_append, List.mem_singleton, List.length_append, List.length_cons, List.length_nil, List.not_mem_nil, false_or, or_assoc]
    refine or_congr_right ?_
    omega
  · intro x
    have := hG x
    simp only [List.not_mem_nil, false_or]
    constructor
    · exact Or.inl
    · rintro (h | h)
      · exact h
      · omega
  · intro b hb
    exact List.getElem?_append_left hb
  · intro b _
    rfl

/-- The matrix of a lower view, given the pointers. -/
theorem lowerView_eq {A : SR K} (h : A.ViewOk) {gp ge : List Nat} (hgp : gp.length = A.nbrows) (hge : ge.length = A.nbrows) :
    lowerView A gp ge = .ok { A with
      browptr := (List.range A.nbrows).map fun i => A.browptr⟦i⟧
      browendptr := (List.range A.nbrows).map fun i => A.diagind⟦i⟧ + 1
      nnzb := ∑ i ∈ Finset.range A.nbrows, (A.diagind⟦i⟧ - A.browptr⟦i⟧ + 1) } := by
  obtain ⟨_, e, p, q, n, rfl, h1, h2, h3, h4, h5⟩ := lowerView_ok h hgp hge
  rw [e]
  have e1 : p = (List.range A.nbrows).map fun i => A.browptr⟦i⟧ :=
    ext_get0 (by simpa using h1) fun i hi => by rw [h3 i (by omega), get0_map_range' (by omega)]
  have e2 : q = (List.range A.nbrows).map fun i => A.diagind⟦i⟧ + 1 :=
    ext_get0 (by simpa using h2) fun i hi => by rw [h4 i (by omega), get0_map_range' (by omega)]
  rw [e1, e2, h5]

/-- What the reading of a raw matrix gives, array by array. -/
theorem rawReads {bs : Nat} {R : RawMat} {μ : Mem K} {A : SR K} (hR : (R.view bs).read μ = .ok A) (hA : A.ViewOk) :
    R.nbrows = A.nbrows ∧ R.nbstored = A.nbstored ∧ A.diagind.length = A.nbrows ∧
      (∀ i < A.nbrows, μ.ih.load R.browptr i = .ok A.browptr⟦i⟧) ∧ (∀ i < A.nbrows, μ.ih.load R.diagind i = .ok A.diagind⟦i⟧) ∧
      (∀ i < A.nbrows, μ.ih.load R.browendptr i = .ok A.browendptr⟦i⟧) ∧ (∀ i < A.bcolind.length, μ.ih.load R.bcolind i = .ok A.bcolind⟦i⟧) ∧
      AV.read ⟨R.bcolind, A.bcolind.length, false⟩ μ.ih = .ok A.bcolind ∧ AV.read ⟨R.vals, A.vals.length, false⟩ μ.vh = .ok A.vals ∧
      AV.read ⟨R.diagind, A.nbrows, false⟩ μ.ih = .ok A.diagind := by
  obtain ⟨r1, r2, r3, r4, r5, r6, r7, r8⟩ := MatObj.read_inv hR
  have hpl := hA.ptr_len
  have hdl := hA.diag_len
  have hel := hA.end_len
  have h2 := (AV.get_of_read r2).1
  have h3 := (AV.get_of_read r3).1
  have h4 : A.diagind.length = R.nbrows := (AV.get_of_read r4).1
  have hn : R.nbrows = A.nbrows := r6
  refine ⟨hn, r8, by omega, fun i hi => AV.load_of_read r1 (by omega), fun i hi => AV.load_of_read r4 (by omega), fun i hi => AV.load_of_read r5 (by omega),
    fun i hi => AV.load_of_read r2 hi, ?_, ?_, ?_⟩
  · rw [h2]; exact r2
  · rw [h3]; exact r3
  · rw [← hn]; exact r4

/-- A raw view over two new arrays. -/
theorem tri_memory {bs : Nat} {R : RawMat} {A : SR K} {B : List (List Nat)} {F : List Nat} {V : List (List K)} {G : List Nat}
    (hμ : (⟨⟨B, F⟩, ⟨V, G⟩⟩ : Mem K).Wf) (hR : (R.view bs).read ⟨⟨B, F⟩, ⟨V, G⟩⟩ = .ok A) (hA : A.ViewOk) {p e : List Nat} {k : Nat}
    (hp : p.length = A.nbrows) (he : e.length = A.nbrows) {L : RawMat}
    (hL : L = { R with browptr := some (B.length, 0), browendptr := some (B.length + 1, 0), nnzb := k }) :
    (L.tri A.bcolind.length A.vals.length).read ⟨⟨B ++ [p, e], F⟩, ⟨V, G⟩⟩ = .ok { A with browptr := p, browendptr := e, nnzb := k } ∧
      (R.view bs).read ⟨⟨B ++ [p, e], F⟩, ⟨V, G⟩⟩ = .ok A ∧
      ∃ μ'', destroyRawView L ⟨⟨B ++ [p, e], F⟩, ⟨V, G⟩⟩ = .ok μ'' ∧ Released [] [] (⟨⟨B, F⟩, ⟨V, G⟩⟩ : Mem K) μ'' := by
  obtain ⟨hn, hs, -, -, -, -, -, q2, q3, q4⟩ := rawReads hR hA
  obtain ⟨r1, r2, r3, r4, r5, r6, r7, r8⟩ := MatObj.read_inv hR
  have hF := hμ.ifreed
  obtain ⟨t1, t2⟩ := read_two (own := false) hF hp he
  refine ⟨?_, ?_, ⟨⟨B ++ [p, e], F ++ [B.length] ++ [B.length + 1]⟩, ⟨V, G⟩⟩, ?_, released_two hμ.vfreed (List.Perm.refl _)⟩
  · subst hL
    unfold MatObj.read RawMat.tri
    dsimp only at q2 q3 q4 t1 t2 ⊢
    rw [hn, hs, t1, ok_bind, AV.read_old q2, ok_bind, q3, ok_bind, AV.read_old q4, ok_bind, t2, ok_bind]
  · dsimp only at r1 r2 r3 r4 r5
    unfold MatObj.read
    dsimp only
    rw [AV.read_old r1, ok_bind, AV.read_old r2, ok_bind, r3, ok_bind, AV.read_old r4, ok_bind, AV.read_old r5, ok_bind, r6, r7, r8]
  · subst hL
    have h0 : B.length ∉ F := fun h => absurd (hF _ h) (by simp)
    have h1 : B.length + 1 ∉ F := fun h => absurd (hF _ h) (by simp)
    simp [destroyRawView, Heap.free, h0, h1]

/-- The matrix of an upper view, given the pointers, and the checks that were passed. -/
theorem upperView_eq {A : SR K} (h : A.ViewOk) (hn : 0 < A.nbrows) {gp ge : List Nat} (hgp : gp.length = A.nbrows) (hge : ge.length = A.nbrows) :
    upperView A gp ge = .ok { A with
      browptr := (List.range A.nbrows).map fun i => A.diagind⟦i⟧
      browendptr := (List.range A.nbrows).map fun i => A.browendptr⟦i⟧
      nnzb := ∑ i ∈ Finset.range A.nbrows, (A.browendptr⟦i⟧ - A.diagind⟦i⟧) } := by
  obtain ⟨U, hU, -⟩ := upper_view_correct h hn hgp hge
  obtain ⟨⟨p, q, n⟩, e, h1, h2, h3, h4, h5⟩ := upperLoop_ok h hgp hge
  simp only at h1 h2 h3 h4 h5
  rw [hU]
  unfold upperView at hU
  cases ha : lastRowAssert A with
  | error x => rw [ha, error_bind] at hU; cases hU
  | ok u =>
    rw [ha, ok_bind, e, ok_bind] at hU
    dsimp only at hU
    cases hb : lastRowAssert { A with browptr := p, browendptr := q, nnzb := n } with
    | error x => rw [hb, error_bind] at hU; cases hU
    | ok u =>
      rw [hb, ok_bind] at hU
      cases hc : upperDebug { A with browptr := p, browendptr := q, nnzb := n } with
      | error x => rw [hc, error_bind] at hU; cases hU
      | ok u =>
        rw [hc, ok_bind] at hU
        rw [← hU]
        have e1 : p = (List.range A.nbrows).map fun i => A.diagind⟦i⟧ :=
          ext_get0 (by simpa using h1) fun i hi => by rw [h3 i (by omega), get0_map_range' (by omega)]
        have e2 : q = (List.range A.nbrows).map fun i => A.browendptr⟦i⟧ :=
          ext_get0 (by simpa using h2) fun i hi => by rw [h4 i (by omega), get0_map_range' (by omega)]
        rw [e1, e2, h5]

/-! ## Theorems -/

/-- **C34** In memory, lower triangle of a raw matrix: the view holds exactly the matrix `lowerView` gives. It shares the column indices, the values and the diagonal positions with the
original, which is unchanged; destroying the view gives back what was allocated for it and nothing else. -/
theorem lower_raw_view_memory (bs : Nat) (gi : Nat → Nat → Nat) {R : RawMat} {μ : Mem K} {A : SR K} (hμ : μ.Wf)
    (hR : (R.view bs).read μ = .ok A) (hA : A.ViewOk) {gp ge : List Nat} (hgp : gp.length = A.nbrows) (hge : ge.length = A.nbrows) :
    ∃ L μ' W, lowerRaw gi R μ = .ok (L, μ') ∧ lowerView A gp ge = .ok W ∧ (L.tri A.bcolind.length A.vals.length).read μ' = .ok W ∧
      (L.bcolind = R.bcolind ∧ L.vals = R.vals ∧ L.diagind = R.diagind) ∧ (R.view bs).read μ' = .ok A ∧
      ∃ μ'', destroyRawView L μ' = .ok μ'' ∧ Released [] [] μ μ'' := by
  obtain ⟨⟨B, F⟩, V, G⟩ := μ
  obtain ⟨hn, hs, -, l1, l2, -⟩ := rawReads hR hA
  have hF := hμ.ifreed
  have hloop := viewLoop_ok (B := B) (F := F) (n := A.nbrows)
    (body := lowerRawStep R { R with browptr := some (B.length, 0), browendptr := some (B.length + 1, 0) })
    (fun i => A.browptr⟦i⟧) (fun i => A.diagind⟦i⟧ + 1) (fun i => A.diagind⟦i⟧ - A.browptr⟦i⟧ + 1)
    (by
      intro i hi p e k hp he
      unfold lowerRawStep
      dsimp only
      rw [load_old (l1 i hi), ok_bind, (store_two hF).1 (by omega), ok_bind, load_old (l2 i hi), ok_bind, (store_two hF).2 (by omega), ok_bind])
    (p0 := (List.range A.nbrows).map (gi 0)) (e0 := (List.range A.nbrows).map (gi 1)) (by simp) (by simp)
  have e1 : lowerRaw gi R ⟨⟨B, F⟩, ⟨V, G⟩⟩ = .ok
      ({ R with browptr := some (B.length, 0), browendptr := some (B.length + 1, 0), nnzb := ∑ i ∈ Finset.range A.nbrows, (A.diagind⟦i⟧ - A.browptr⟦i⟧ + 1) },
       ⟨⟨B ++ [(List.range A.nbrows).map (fun i => A.browptr⟦i⟧), (List.range A.nbrows).map fun i => A.diagind⟦i⟧ + 1], F⟩, ⟨V, G⟩⟩) := by
    simp only [hn] at hloop
    unfold lowerRaw
    simp only [alloc_two, hn]
    rw [show (Heap.alloc ⟨B, F⟩ A.nbrows (gi 0)).1 = some (B.length, 0) from rfl, hloop, ok_bind]
  obtain ⟨t1, t2, t3⟩ := tri_memory hμ hR hA (p := (List.range A.nbrows).map (fun i => A.browptr⟦i⟧))
    (e := (List.range A.nbrows).map fun i => A.diagind⟦i⟧ + 1) (by simp) (by simp) rfl
  exact ⟨_, _, _, e1, lowerView_eq hA hgp hge, t1, ⟨rfl, rfl, rfl⟩, t2, t3⟩

/-- **C34** The same for the upper triangle; no assertion fires and no debug check fails. -/
theorem upper_raw_view_memory (bs : Nat) (gi : Nat → Nat → Nat) {R : RawMat} {μ : Mem K} {A : SR K} (hμ : μ.Wf)
    (hR : (R.view bs).read μ = .ok A) (hA : A.ViewOk) (hpos : 0 < A.nbrows) {gp ge : List Nat} (hgp : gp.length = A.nbrows) (hge : ge.length = A.nbrows) :
    ∃ U μ' W, upperRaw gi R μ = .ok (U, μ') ∧ upperView A gp ge = .ok W ∧ (U.tri A.bcolind.length A.vals.length).read μ' = .ok W ∧
      (U.bcolind = R.bcolind ∧ U.vals = R.vals ∧ U.diagind = R.diagind) ∧ (R.view bs).read μ' = .ok A ∧
      ∃ μ'', destroyRawView U μ' = .ok μ'' ∧ Released [] [] μ μ'' := by
  obtain ⟨⟨B, F⟩, V, G⟩ := μ
  obtain ⟨hn, hs, -, -, l2, l3, l4, -⟩ := rawReads hR hA
  have hF := hμ.ifreed
  have hF' : ∀ k, B.length + k ∉ F := fun k h => absurd (hF _ h) (by simp)
  have hlast := hA.last_row hpos
  have hloop := viewLoop_ok (B := B) (F := F) (n := A.nbrows)
    (body := upperRawStep R { R with browptr := some (B.length, 0), browendptr := some (B.length + 1, 0) })
    (fun i => A.diagind⟦i⟧) (fun i => A.browendptr⟦i⟧) (fun i => A.browendptr⟦i⟧ - A.diagind⟦i⟧)
    (by
      intro i hi p e k hp he
      unfold upperRawStep
      dsimp only
      rw [load_old (l2 i hi), ok_bind, (store_two hF).1 (by omega), ok_bind, load_old (l3 i hi), ok_bind, (store_two hF).2 (by omega), ok_bind])
    (p0 := (List.range A.nbrows).map (gi 0)) (e0 := (List.range A.nbrows).map (gi 1)) (by simp) (by simp)
  obtain ⟨t1, t2, t3⟩ := tri_memory hμ hR hA (p := (List.range A.nbrows).map (fun i => A.diagind⟦i⟧))
    (e := (List.range A.nbrows).map fun i => A.browendptr⟦i⟧) (k := ∑ i ∈ Finset.range A.nbrows, (A.browendptr⟦i⟧ - A.diagind⟦i⟧)) (by simp) (by simp) rfl
  have hload : ∀ (ls : List (List Nat)), ls = [(List.range A.nbrows).map (fun i => A.diagind⟦i⟧), (List.range A.nbrows).map fun i => A.browendptr⟦i⟧] →
      (∀ i < A.nbrows, Heap.load ⟨B ++ ls, F⟩ (some (B.length, 0)) i = .ok A.diagind⟦i⟧) ∧
      ∀ i < A.nbrows, Heap.load ⟨B ++ ls, F⟩ (some (B.length + 1, 0)) i = .ok A.browendptr⟦i⟧ := by
    rintro ls rfl
    refine ⟨fun i hi => ?_, fun i hi => ?_⟩
    · have := load_new (B := B) (F := F) (k := 0) (o := 0) (i := i)
        (ls := [(List.range A.nbrows).map (fun i => A.diagind⟦i⟧), (List.range A.nbrows).map fun i => A.browendptr⟦i⟧]) rfl (hF' 0)
      rw [Nat.add_zero] at this
      rw [this]
      simp [rd, hi]
    · have := load_new (B := B) (F := F) (k := 1) (o := 0) (i := i)
        (ls := [(List.range A.nbrows).map (fun i => A.diagind⟦i⟧), (List.range A.nbrows).map fun i => A.browendptr⟦i⟧]) rfl (hF' 1)
      rw [this]
      simp [rd, hi]
  obtain ⟨m1, m2⟩ := hload _ rfl
  generalize hls : [(List.range A.nbrows).map (fun i => A.diagind⟦i⟧), (List.range A.nbrows).map fun i => A.browendptr⟦i⟧] = ls at *
  have hlastA : rawLastRowAssert R ⟨B, F⟩ = .ok () := by
    unfold rawLastRowAssert
    rw [hn]
    have a1 := l3 (A.nbrows - 1) (by omega)
    have a2 := l2 (A.nbrows - 1) (by omega)
    simp only at a1 a2
    rw [a1, ok_bind, a2, ok_bind, hlast]
    simp [cassert]
  have hlastU : ∀ k, rawLastRowAssert { R with browptr := some (B.length, 0), browendptr := some (B.length + 1, 0), nbrows := A.nbrows, nnzb := k } ⟨B ++ ls, F⟩ = .ok () := by
    intro k
    unfold rawLastRowAssert
    dsimp only
    rw [m2 _ (by omega), ok_bind, load_old (l2 (A.nbrows - 1) (by omega)), ok_bind, hlast]
    simp [cassert]
  have hdebug : ∀ k, rawUpperDebug { R with browptr := some (B.length, 0), browendptr := some (B.length + 1, 0), nbrows := A.nbrows, nnzb := k } ⟨B ++ ls, F⟩ = .ok () := by
    intro k
    unfold rawUpperDebug
    obtain ⟨u, e, -⟩ := forRange_ok (lo := 0) (hi := A.nbrows) (s := ()) (body := fun irow _ => do
      let lo ← Heap.load ⟨B ++ ls, F⟩ (some (B.length, 0)) irow
      let hi ← Heap.load ⟨B ++ ls, F⟩ (some (B.length + 1, 0)) irow
      forRange lo hi (fun jj _ => do
        let c ← Heap.load ⟨B ++ ls, F⟩ R.bcolind jj
        let d ← Heap.load ⟨B ++ ls, F⟩ R.diagind irow
        cassert (decide (c > irow) || d == jj)) ()) (fun _ _ => True) (Nat.zero_le _) trivial (by
      rintro i _ _ hi -
      have hge := hA.diag_ge i hi
      have hlt := hA.diag_lt i hi
      have hle := hA.end_le i hi
      rw [m1 i hi, ok_bind, m2 i hi, ok_bind]
      refine forRange_ok (fun _ _ => True) (by omega) trivial ?_
      rintro j _ hj1 hj2 -
      rw [load_old (l4 j (by omega)), ok_bind, load_old (l2 i hi), ok_bind]
      have hc := (hA.col_ge_iff hi (k := j) (by omega) hj2).2 hj1
      refine ⟨(), ?_, trivial⟩
      unfold cassert
      rw [if_pos]
      by_cases e : A.diagind⟦i⟧ = j
      · simp [e]
      · have := hA.sorted i hi _ j hge (by omega) hj2
        rw [hA.diag_col i hi] at this
        simp [this])
    exact e
  have e1 : upperRaw gi R ⟨⟨B, F⟩, ⟨V, G⟩⟩ = .ok
      ({ R with browptr := some (B.length, 0), browendptr := some (B.length + 1, 0), nnzb := ∑ i ∈ Finset.range A.nbrows, (A.browendptr⟦i⟧ - A.diagind⟦i⟧) },
       ⟨⟨B ++ ls, F⟩, ⟨V, G⟩⟩) := by
    simp only [hn] at hloop
    unfold upperRaw
    dsimp only
    rw [hlastA, ok_bind]
    simp only [alloc_two, hn]
    rw [show (Heap.alloc ⟨B, F⟩ A.nbrows (gi 0)).1 = some (B.length, 0) from rfl, hloop, ok_bind]
    dsimp only
    rw [hlastU, ok_bind, hdebug, ok_bind]
  exact ⟨_, _, _, e1, upperView_eq hA hpos hgp hge, t1, ⟨rfl, rfl, rfl⟩, t2, t3⟩

theorem AV.addr_zero {v : AV} {h : Heap β} {l : List β} (e : v.read h = .ok l) (hl : 0 < l.length) : v.addr 0 = .ok v.data := by
  have h1 := (AV.get_of_read e).1
  obtain ⟨b, o, hv, -⟩ := AV.read_lt e (by omega)
  unfold AV.addr
  rw [show decide (0 < v.len) = true by simp; omega]
  simp [cassert, hv, Ptr.add]

/-- **C34** The lower triangle of a storage object: the view owns its row pointers and nothing else; destroying it gives back what was allocated for it. -/
theorem lower_storage_view_memory (gi : Nat → Nat → Nat) {M : MatObj} {μ : Mem K} {A : SR K} (hμ : μ.Wf)
    (hM : M.read μ = .ok A) (hA : A.ViewOk) (hpos : 0 < A.nbrows) (hv : 0 < A.vals.length) {gp ge : List Nat} (hgp : gp.length = A.nbrows)
    (hge : ge.length = A.nbrows) :
    ∃ L μ' W, lowerStor gi M μ = .ok (L, μ') ∧ lowerView A gp ge = .ok W ∧ L.read μ' = .ok W ∧
      (L.bcolind.data = M.bcolind.data ∧ L.vals.data = M.vals.data ∧ L.diagind.data = M.diagind.data) ∧ M.read μ' = .ok A ∧
      ∃ μ'', L.destroy μ' = .ok μ'' ∧ Released [] [] μ μ'' := by
  obtain ⟨⟨B, F⟩, V, G⟩ := μ
  obtain ⟨r1, r2, r3, r4, r5, r6, r7, r8⟩ := MatObj.read_inv hM
  dsimp only at r1 r2 r3 r4 r5
  have hF := hμ.ifreed
  have hF0 : B.length ∉ F := fun h => absurd (hF _ h) (by simp)
  have hF1 : B.length + 1 ∉ F := fun h => absurd (hF _ h) (by simp)
  have hpl := hA.ptr_len
  have hdl := hA.diag_len
  have hcl : 0 < A.bcolind.length := by
    have := hA.diag_lt 0 hpos
    have := hA.end_le 0 hpos
    omega
  have l1 : ∀ i < A.nbrows, ∀ ls, M.browptr.get i ⟨B ++ ls, F⟩ = .ok A.browptr⟦i⟧ := fun i hi ls => by
    rw [AV.get_eq (by rw [← (AV.get_of_read r1).1]; omega)]
    exact load_old (AV.load_of_read r1 (by omega))
  have l2 : ∀ i < A.nbrows, ∀ ls, M.diagind.get i ⟨B ++ ls, F⟩ = .ok A.diagind⟦i⟧ := fun i hi ls => by
    rw [AV.get_eq (by rw [← (AV.get_of_read r4).1]; omega)]
    exact load_old (AV.load_of_read r4 (by omega))
  have hloop := viewLoop_ok (B := B) (F := F) (n := A.nbrows)
    (body := lowerStorStep M ⟨some (B.length, 0), A.nbrows, true⟩ ⟨some (B.length + 1, 0), A.nbrows, true⟩)
    (fun i => A.browptr⟦i⟧) (fun i => A.diagind⟦i⟧ + 1) (fun i => A.diagind⟦i⟧ - A.browptr⟦i⟧ + 1)
    (by
      intro i hi p e k hp he
      unfold lowerStorStep
      dsimp only
      rw [l1 i hi, ok_bind, AV.set_eq hi, (store_two hF).1 (by omega), ok_bind, l2 i hi, ok_bind, AV.set_eq hi, (store_two hF).2 (by omega), ok_bind])
    (p0 := (List.range A.nbrows).map (gi 0)) (e0 := (List.range A.nbrows).map (gi 1)) (by simp) (by simp)
  obtain ⟨t1, t2⟩ := read_two (own := true) hF (p := (List.range A.nbrows).map (fun i => A.browptr⟦i⟧)) (e := (List.range A.nbrows).map fun i => A.diagind⟦i⟧ + 1)
    (n := A.nbrows) (by simp) (by simp)
  have w2 : AV.read ⟨M.bcolind.data, M.bcolind.len, false⟩ ⟨B, F⟩ = .ok A.bcolind := r2
  have w3 : AV.read ⟨M.vals.data, M.vals.len, false⟩ ⟨V, G⟩ = .ok A.vals := r3
  have w4 : AV.read ⟨M.diagind.data, M.diagind.len, false⟩ ⟨B, F⟩ = .ok A.diagind := r4
  generalize hp : (List.range A.nbrows).map (fun i => A.browptr⟦i⟧) = p at *
  generalize he : (List.range A.nbrows).map (fun i => A.diagind⟦i⟧ + 1) = e at *
  generalize hk : ∑ i ∈ Finset.range A.nbrows, (A.diagind⟦i⟧ - A.browptr⟦i⟧ + 1) = k at *
  have e1 : lowerStor gi M ⟨⟨B, F⟩, ⟨V, G⟩⟩ = .ok
      ({ browptr := ⟨some (B.length, 0), A.nbrows, true⟩, bcolind := ⟨M.bcolind.data, M.bcolind.len, false⟩, vals := ⟨M.vals.data, M.vals.len, false⟩
         diagind := ⟨M.diagind.data, M.diagind.len, false⟩, browendptr := ⟨some (B.length + 1, 0), A.nbrows, true⟩
         nbrows := A.nbrows, nnzb := k, nbstored := A.nbstored }, ⟨⟨B ++ [p, e], F⟩, ⟨V, G⟩⟩) := by
    unfold lowerStor
    simp only [AV.addr_zero r2 hcl, AV.addr_zero r4 (show 0 < A.diagind.length by omega), AV.addr_zero r3 hv, ok_bind, AV.ofSize, alloc_two, r6, r8]
    rw [show (Heap.alloc ⟨B, F⟩ A.nbrows (gi 0)).1 = some (B.length, 0) from rfl, hloop, ok_bind]
    rfl
  refine ⟨_, _, _, e1, (lowerView_eq hA hgp hge).trans (by rw [hp, he, hk]), ?_, ⟨rfl, rfl, rfl⟩, ?_,
    ⟨⟨B ++ [p, e], F ++ [B.length + 1] ++ [B.length]⟩, ⟨V, G⟩⟩, ?_, released_two hμ.vfreed ?_⟩
  · unfold MatObj.read
    dsimp only
    rw [t1, ok_bind, AV.read_old w2, ok_bind, w3, ok_bind, AV.read_old w4, ok_bind, t2, ok_bind]
  · unfold MatObj.read
    dsimp only
    rw [AV.read_old r1, ok_bind, AV.read_old r2, ok_bind, r3, ok_bind, AV.read_old r4, ok_bind, AV.read_old r5, ok_bind, r6, r7, r8]
  · simp [MatObj.destroy, AV.destroy, AV.release, Heap.free, hF0, hF1]
  · rw [List.append_assoc, List.append_assoc]
    exact (List.Perm.swap _ _ []).append_left F

/-- **C34** The same for the upper triangle of a storage object; no assertion fires and no debug check fails. -/
theorem upper_storage_view_memory (gi : Nat → Nat → Nat) {M : MatObj} {μ : Mem K} {A : SR K} (hμ : μ.Wf)
    (hM : M.read μ = .ok A) (hA : A.ViewOk) (hpos : 0 < A.nbrows) (hv : 0 < A.vals.length) {gp ge : List Nat} (hgp : gp.length = A.nbrows)
    (hge : ge.length = A.nbrows) :
    ∃ U μ' W, upperStor gi M μ = .ok (U, μ') ∧ upperView A gp ge = .ok W ∧ U.read μ' = .ok W ∧
      (U.bcolind.data = M.bcolind.data ∧ U.vals.data = M.vals.data ∧ U.diagind.data = M.diagind.data) ∧ M.read μ' = .ok A ∧
      ∃ μ'', U.destroy μ' = .ok μ'' ∧ Released [] [] μ μ'' := by
  obtain ⟨⟨B, F⟩, V, G⟩ := μ
  obtain ⟨r1, r2, r3, r4, r5, r6, r7, r8⟩ := MatObj.read_inv hM
  dsimp only at r1 r2 r3 r4 r5
  have hF := hμ.ifreed
  have hF0 : B.length ∉ F := fun h => absurd (hF _ h) (by simp)
  have hF1 : B.length + 1 ∉ F := fun h => absurd (hF _ h) (by simp)
  have hdl := hA.diag_len
  have hel := hA.end_len
  have hlast := hA.last_row hpos
  have hcl : 0 < A.bcolind.length := by
    have := hA.diag_lt 0 hpos
    have := hA.end_le 0 hpos
    omega
  have l2 : ∀ i < A.nbrows, ∀ ls, M.diagind.get i ⟨B ++ ls, F⟩ = .ok A.diagind⟦i⟧ := fun i hi ls => by
    rw [AV.get_eq (by rw [← (AV.get_of_read r4).1]; omega)]
    exact load_old (AV.load_of_read r4 (by omega))
  have l3 : ∀ i < A.nbrows, ∀ ls, M.browendptr.get i ⟨B ++ ls, F⟩ = .ok A.browendptr⟦i⟧ := fun i hi ls => by
    rw [AV.get_eq (by rw [← (AV.get_of_read r5).1]; omega)]
    exact load_old (AV.load_of_read r5 (by omega))
  have l4 : ∀ j < A.bcolind.length, ∀ ls, M.bcolind.get j ⟨B ++ ls, F⟩ = .ok A.bcolind⟦j⟧ := fun j hj ls => by
    rw [AV.get_eq (by rw [← (AV.get_of_read r2).1]; omega)]
    exact load_old (AV.load_of_read r2 (by omega))
  have hloop := viewLoop_ok (B := B) (F := F) (n := A.nbrows)
    (body := upperStorStep M ⟨some (B.length, 0), A.nbrows, true⟩ ⟨some (B.length + 1, 0), A.nbrows, true⟩)
    (fun i => A.diagind⟦i⟧) (fun i => A.browendptr⟦i⟧) (fun i => A.browendptr⟦i⟧ - A.diagind⟦i⟧)
    (by
      intro i hi p e k hp he
      unfold upperStorStep
      dsimp only
      rw [l2 i hi, ok_bind, AV.set_eq hi, (store_two hF).1 (by omega), ok_bind, l3 i hi, ok_bind, AV.set_eq hi, (store_two hF).2 (by omega), ok_bind])
    (p0 := (List.range A.nbrows).map (gi 0)) (e0 := (List.range A.nbrows).map (gi 1)) (by simp) (by simp)
  obtain ⟨t1, t2⟩ := read_two (own := true) hF (p := (List.range A.nbrows).map (fun i => A.diagind⟦i⟧)) (e := (List.range A.nbrows).map fun i => A.browendptr⟦i⟧)
    (n := A.nbrows) (by simp) (by simp)
  have m1 : ∀ i < A.nbrows, AV.get ⟨some (B.length, 0), A.nbrows, true⟩ i
      ⟨B ++ [(List.range A.nbrows).map (fun i => A.diagind⟦i⟧), (List.range A.nbrows).map fun i => A.browendptr⟦i⟧], F⟩ = .ok A.diagind⟦i⟧ := fun i hi => by
    rw [(AV.get_of_read t1).2 i (by simpa using hi)]
    simp
  have m2 : ∀ i < A.nbrows, AV.get ⟨some (B.length + 1, 0), A.nbrows, true⟩ i
      ⟨B ++ [(List.range A.nbrows).map (fun i => A.diagind⟦i⟧), (List.range A.nbrows).map fun i => A.browendptr⟦i⟧], F⟩ = .ok A.browendptr⟦i⟧ := fun i hi => by
    rw [(AV.get_of_read t2).2 i (by simpa using hi)]
    simp
  have w2 : AV.read ⟨M.bcolind.data, M.bcolind.len, false⟩ ⟨B, F⟩ = .ok A.bcolind := r2
  have w3 : AV.read ⟨M.vals.data, M.vals.len, false⟩ ⟨V, G⟩ = .ok A.vals := r3
  have w4 : AV.read ⟨M.diagind.data, M.diagind.len, false⟩ ⟨B, F⟩ = .ok A.diagind := r4
  generalize hp : (List.range A.nbrows).map (fun i => A.diagind⟦i⟧) = p at *
  generalize he : (List.range A.nbrows).map (fun i => A.browendptr⟦i⟧) = e at *
  generalize hk : ∑ i ∈ Finset.range A.nbrows, (A.browendptr⟦i⟧ - A.diagind⟦i⟧) = k at *
  let U : MatObj :=
    { browptr := ⟨some (B.length, 0), A.nbrows, true⟩, bcolind := ⟨M.bcolind.data, M.bcolind.len, false⟩, vals := ⟨M.vals.data, M.vals.len, false⟩
      diagind := ⟨M.diagind.data, M.diagind.len, false⟩, browendptr := ⟨some (B.length + 1, 0), A.nbrows, true⟩
      nbrows := A.nbrows, nnzb := k, nbstored := A.nbstored }
  have hlastA : storLastRowAssert M ⟨B, F⟩ = .ok () := by
    unfold storLastRowAssert
    have a1 := l3 (A.nbrows - 1) (by omega) []
    have a2 := l2 (A.nbrows - 1) (by omega) []
    rw [List.append_nil] at a1 a2
    rw [r6, a1, ok_bind, a2, ok_bind, hlast]
    simp [cassert]
  have hlastU : storLastRowAssert U ⟨B ++ [p, e], F⟩ = .ok () := by
    unfold storLastRowAssert
    rw [show U.browendptr.get (U.nbrows - 1) ⟨B ++ [p, e], F⟩ = .ok A.browendptr⟦A.nbrows - 1⟧ from m2 (A.nbrows - 1) (by omega), ok_bind,
      show U.diagind.get (U.nbrows - 1) ⟨B ++ [p, e], F⟩ = .ok A.diagind⟦A.nbrows - 1⟧ from l2 (A.nbrows - 1) (by omega) _, ok_bind, hlast]
    simp [cassert]
  have hdebug : storUpperDebug U ⟨B ++ [p, e], F⟩ = .ok () := by
    unfold storUpperDebug
    obtain ⟨u, h, -⟩ := forRange_ok (lo := 0) (hi := A.nbrows) (s := ()) (body := fun irow _ => do
      let lo ← U.browptr.get irow ⟨B ++ [p, e], F⟩
      let hi ← U.browendptr.get irow ⟨B ++ [p, e], F⟩
      forRange lo hi (fun jj _ => do
        let c ← U.bcolind.get jj ⟨B ++ [p, e], F⟩
        let d ← U.diagind.get irow ⟨B ++ [p, e], F⟩
        cassert (decide (c > irow) || d == jj)) ()) (fun _ _ => True) (Nat.zero_le _) trivial (by
      rintro i _ _ hi -
      have hge := hA.diag_ge i hi
      have hlt := hA.diag_lt i hi
      have hle := hA.end_le i hi
      rw [show U.browptr.get i ⟨B ++ [p, e], F⟩ = .ok A.diagind⟦i⟧ from m1 i hi, ok_bind,
        show U.browendptr.get i ⟨B ++ [p, e], F⟩ = .ok A.browendptr⟦i⟧ from m2 i hi, ok_bind]
      refine forRange_ok (fun _ _ => True) (by omega) trivial ?_
      rintro j _ hj1 hj2 -
      rw [show U.bcolind.get j ⟨B ++ [p, e], F⟩ = .ok A.bcolind⟦j⟧ from l4 j (by omega) _, ok_bind,
        show U.diagind.get i ⟨B ++ [p, e], F⟩ = .ok A.diagind⟦i⟧ from l2 i hi _, ok_bind]
      refine ⟨(), ?_, trivial⟩
      unfold cassert
      rw [if_pos]
      by_cases e : A.diagind⟦i⟧ = j
      · simp [e]
      · have := hA.sorted i hi _ j hge (by omega) hj2
        rw [hA.diag_col i hi] at this
        simp [this])
    exact h
  have e1 : upperStor gi M ⟨⟨B, F⟩, ⟨V, G⟩⟩ = .ok (U, ⟨⟨B ++ [p, e], F⟩, ⟨V, G⟩⟩) := by
    unfold upperStor
    simp only [AV.addr_zero r2 hcl, AV.addr_zero r4 (show 0 < A.diagind.length by omega), AV.addr_zero r3 hv, ok_bind, AV.ofSize, alloc_two, hlastA]
    rw [show (Heap.alloc ⟨B, F⟩ M.nbrows (gi 0)).1 = some (B.length, 0) from rfl, r6, hloop, ok_bind]
    show (storLastRowAssert { U with nbrows := A.nbrows, nbstored := M.nbstored } _ >>= _) = _
    rw [r8]
    show (storLastRowAssert U _ >>= fun _ => storUpperDebug U _ >>= _) = _
    rw [hlastU, ok_bind, hdebug, ok_bind]
    rfl
  refine ⟨_, _, _, e1, (upperView_eq hA hpos hgp hge).trans (by rw [hp, he, hk]), ?_, ⟨rfl, rfl, rfl⟩, ?_,
    ⟨⟨B ++ [p, e], F ++ [B.length + 1] ++ [B.length]⟩, ⟨V, G⟩⟩, ?_, released_two hμ.vfreed ?_⟩
  · unfold MatObj.read
    dsimp only [U]
    rw [t1, ok_bind, AV.read_old w2, ok_bind, w3, ok_bind, AV.read_old w4, ok_bind, t2, ok_bind]
  · unfold MatObj.read
    dsimp only
    rw [AV.read_old r1, ok_bind, AV.read_old r2, ok_bind, r3, ok_bind, AV.read_old r4, ok_bind, AV.read_old r5, ok_bind, r6, r7, r8]
  · simp [U, MatObj.destroy, AV.destroy, AV.release, Heap.free, hF0, hF1]
  · rw [List.append_assoc, List.append_assoc]
    exact (List.Perm.swap _ _ []).append_left F

/-- **C51** The raw view of a storage object with at least one entry: its pointers, with the lengths that go with them, hold the same matrix. The memory is only read. -/
theorem create_raw_view_correct (bs : Nat) {M : MatObj} {μ : Mem K} {A : SR K} (h : M.read μ = .ok A) (hbs : 0 < bs)
    (hp : A.browptr.length = A.nbrows + 1) (hc : A.bcolind.length = A.nbstored)
    (hv : A.vals.length = A.nbstored * bs * bs) (hd : A.diagind.length = A.nbrows) (he : A.browendptr.length = A.nbrows)
    (hn : 0 < A.nbrows) (hs : 0 < A.nbstored) :
    ∃ R, createRawView M = .ok R ∧ (R.view bs).read μ = .ok A := by
  obtain ⟨r1, r2, r3, r4, r5, r6, r7, r8⟩ := MatObj.read_inv h
  have hvpos : 0 < A.nbstored * bs * bs := Nat.mul_pos (Nat.mul_pos hs hbs) hbs
  refine ⟨⟨M.browptr.data, M.bcolind.data, M.vals.data, M.diagind.data, M.browendptr.data, M.nbrows, M.nnzb, M.nbstored⟩, ?_, ?_⟩
  · unfold createRawView
    rw [AV.addr_zero r1 (by omega), ok_bind, AV.addr_zero r5 (by omega), ok_bind, AV.addr_zero r2 (by omega), ok_bind, AV.addr_zero r4 (by omega), ok_bind,
      AV.addr_zero r3 (by omega), ok_bind]
  · obtain ⟨N, h1, h2, -⟩ := share_with_const_correct bs h hbs hp hc hv hd he hn hs
    unfold MatObj.shareWithConst at h1
    rw [AV.addr_zero r1 (by omega), ok_bind, AV.addr_zero r2 (by omega), ok_bind, AV.addr_zero r3 (by omega), ok_bind, AV.addr_zero r4 (by omega), ok_bind,
      AV.addr_zero r5 (by omega), ok_bind] at h1
    injection h1 with h1
    rw [← h2, ← h1]
    rfl

/-- **C51** For a matrix without entries the call aborts in the bounds check. -/
theorem create_raw_view_empty_aborts {M : MatObj} {b o b' o' : Nat} (h0 : 0 < M.browptr.len) (hb : M.browptr.data = some (b, o))
    (h1 : 0 < M.browendptr.len) (hb' : M.browendptr.data = some (b', o')) (hc : M.bcolind.len = 0) : createRawView M = .error .abort := by
  simp [createRawView, AV.addr, cassert, h0, hb, h1, hb', hc, Ptr.add]

/-! ## Concrete cases -/

theorem exMat_viewOk : exMat.ViewOk :=
  exMat_full.viewOk (SR.sorted_of_check (by decide)) ⟨by decide, by decide, by decide, by decide⟩

/-- Both views of a matrix with two rows, made and destroyed. -/
example (gi : Nat → Nat → Nat) : ∃ L μ' μ'', lowerRaw gi exRaw exMem = .ok (L, μ') ∧ destroyRawView L μ' = .ok μ'' ∧ Released [] [] exMem μ'' := by
  obtain ⟨L, μ', W, h1, -, -, -, -, μ'', h2, h3⟩ := lower_raw_view_memory 1 gi exMem_wf exRaw_read exMat_viewOk (gp := [7, 7]) (ge := [8, 8]) rfl rfl
  exact ⟨L, μ', μ'', h1, h2, h3⟩

example (gi : Nat → Nat → Nat) : ∃ L μ' μ'', upperRaw gi exRaw exMem = .ok (L, μ') ∧ destroyRawView L μ' = .ok μ'' ∧ Released [] [] exMem μ'' := by
  obtain ⟨L, μ', W, h1, -, -, -, -, μ'', h2, h3⟩ := upper_raw_view_memory 1 gi exMem_wf exRaw_read exMat_viewOk (by decide) (gp := [7, 7]) (ge := [8, 8]) rfl rfl
  exact ⟨L, μ', μ'', h1, h2, h3⟩

example (gi : Nat → Nat → Nat) : ∃ L μ' μ'', lowerStor gi (exRaw.view 1) exMem = .ok (L, μ') ∧ L.destroy μ' = .ok μ'' ∧ Released [] [] exMem μ'' := by
  obtain ⟨L, μ', W, h1, -, -, -, -, μ'', h2, h3⟩ := lower_storage_view_memory gi exMem_wf exRaw_read exMat_viewOk (by decide) (by decide) (gp := [7, 7]) (ge := [8, 8]) rfl rfl
  exact ⟨L, μ', μ'', h1, h2, h3⟩

example (gi : Nat → Nat → Nat) : ∃ U μ' μ'', upperStor gi (exRaw.view 1) exMem = .ok (U, μ') ∧ U.destroy μ' = .ok μ'' ∧ Released [] [] exMem μ'' := by
  obtain ⟨U, μ', W, h1, -, -, -, -, μ'', h2, h3⟩ := upper_storage_view_memory gi exMem_wf exRaw_read exMat_viewOk (by decide) (by decide) (gp := [7, 7]) (ge := [8, 8]) rfl rfl
  exact ⟨U, μ', μ'', h1, h2, h3⟩

example : ∃ R, createRawView (exRaw.view 1) = .ok R ∧ (R.view 1).read exMem = .ok exMat :=
  create_raw_view_correct 1 exRaw_read (by decide) rfl rfl rfl rfl rfl (by decide) (by decide)

end Blasted
