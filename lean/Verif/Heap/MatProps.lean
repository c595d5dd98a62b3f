import Verif.Heap.MatLemmas

/-!
# C50, C51: matrix objects — constructors, copies, destruction

Specification vocabulary: `MatObj.read` (the matrix an object holds, read element by element through its five
views with their bounds checks), `HasStructure` (what "the matrix has that structure" means), `Writes` (any sequence of
writes through given views), `Released` (exactly the given blocks have been given back).
-/

namespace Blasted

variable {K : Type}

/-! ## Specification -/

/-- `A` is a matrix of `n` (block-)rows with row pointers `p` and column indices `c` (only the relevant parts
of the caller's arrays), `m` scalars per entry, located row ends, and located diagonal entries. -/
structure HasStructure (n m : Nat) (p c : List Nat) (A : SR K) : Prop where
  nbrows : A.nbrows = n
  nnzb : A.nnzb = p⟦n⟧
  nbstored : A.nbstored = p⟦n⟧
  browptr : A.browptr = p.take (n + 1)
  browendptr : A.browendptr = (p.take (n + 1)).tail
  bcolind : A.bcolind = c.take p⟦n⟧
  vals : A.vals.length = p⟦n⟧ * m
  diag_len : A.diagind.length = n
  diag : ∀ i < n, ∀ j, p⟦i⟧ ≤ j → j < p⟦i + 1⟧ → c⟦j⟧ = i → (∀ k, p⟦i⟧ ≤ k → k < j → c⟦k⟧ ≠ i) →
    A.diagind⟦i⟧ = j

/-- Any number of writes `v[i] = x` through index views `iv` and value views `vv`, in any order. -/
inductive Writes (iv vv : List AV) (μ : Mem K) : Mem K → Prop
  | refl : Writes iv vv μ μ
  | index {μ' v i x h} : Writes iv vv μ μ' → v ∈ iv → v.set i x μ'.ih = .ok h → Writes iv vv μ { μ' with ih := h }
  | value {μ' v i x h} : Writes iv vv μ μ' → v ∈ vv → v.set i x μ'.vh = .ok h → Writes iv vv μ { μ' with vh := h }

/-- The views of an object through which its arrays can be written. -/
def MatObj.indexViews (M : MatObj) : List AV := [M.browptr, M.bcolind, M.diagind, M.browendptr]

/-- The blocks freed between `μ` and `μ'` are those allocated between `μ` and `μ'` together with `is`, `vs`; the contents
of all other blocks are unchanged. -/
structure Released (is vs : List Nat) (μ μ' : Mem K) : Prop where
  index : ∀ b, b ∈ μ'.ih.freed ↔ b ∈ μ.ih.freed ∨ b ∈ is ∨ μ.ih.blocks.length ≤ b ∧ b < μ'.ih.blocks.length
  value : ∀ b, b ∈ μ'.vh.freed ↔ b ∈ μ.vh.freed ∨ b ∈ vs ∨ μ.vh.blocks.length ≤ b ∧ b < μ'.vh.blocks.length
  ikeep : ∀ b < μ.ih.blocks.length, μ'.ih.blocks[b]? = μ.ih.blocks[b]?
  vkeep : ∀ b < μ.vh.blocks.length, μ'.vh.blocks[b]? = μ.vh.blocks[b]?

/-! ## Lemmas -/

/-- An object over new blocks. -/
structure OverNew (M : MatObj) (n a b : Nat) (p c d : List Nat) (w : List K) (own : Bool := true) : Prop where
  h0 : M.browptr = ⟨some (a, 0), n + 1, own⟩
  h1 : M.bcolind = ⟨some (a + 1, 0), c.length, own⟩
  h2 : M.diagind = ⟨some (a + 2, 0), n, own⟩
  h3 : M.vals = ⟨some (b, 0), w.length, own⟩
  h4 : M.browendptr.len = n
  h5 : 0 < n → M.browendptr.data = some (a, 1)
  h6 : M.browendptr.owner = false
  hp : p.length = n + 1
  hd : d.length = n

theorem OverNew.read {M : MatObj} {n : Nat} {B : List (List Nat)} {V : List (List K)} {F G : List Nat} {p c d : List Nat}
    {w : List K} {own : Bool} (h : OverNew M n B.length V.length p c d w own) (hF : ∀ b ∈ F, b < B.length) (hG : ∀ b ∈ G, b < V.length) :
    M.read ⟨⟨B ++ [p, c, d], F⟩, ⟨V ++ [w], G⟩⟩ = .ok ⟨p, c, w, d, p.tail, M.nbrows, M.nnzb, M.nbstored⟩ := by
  have hF' : ∀ k, B.length + k ∉ F := fun k h => absurd (hF _ h) (by omega)
  have hG' : ∀ k, V.length + k ∉ G := fun k h => absurd (hG _ h) (by omega)
  have hp := h.hp
  have hd := h.hd
  refine MatObj.read_intro ?_ ?_ ?_ ?_ ?_
  · have := AV.read_new (B := B) (ls := [p, c, d]) (F := F) (v := M.browptr) (k := 0) (o := 0) (blk := p) rfl (hF' 0)
      (by rw [h.h0]; rfl) (by rw [h.h0]; show 0 + (n + 1) ≤ _; omega)
    rw [this, h.h0]
    simp [← hp]
  · have := AV.read_new (B := B) (ls := [p, c, d]) (F := F) (v := M.bcolind) (k := 1) (o := 0) (blk := c) rfl (hF' 1)
      (by rw [h.h1]) (by rw [h.h1]; simp)
    rw [this, h.h1]
    simp
  · have := AV.read_new (B := V) (ls := [w]) (F := G) (v := M.vals) (k := 0) (o := 0) (blk := w) rfl (hG' 0)
      (by rw [h.h3]; rfl) (by rw [h.h3]; simp)
    rw [this, h.h3]
    simp
  · have := AV.read_new (B := B) (ls := [p, c, d]) (F := F) (v := M.diagind) (k := 2) (o := 0) (blk := d) rfl (hF' 2)
      (by rw [h.h2]) (by rw [h.h2]; show 0 + n ≤ _; omega)
    rw [this, h.h2]
    simp [← hd]
  · rcases Nat.eq_zero_or_pos n with h0 | h0
    · have hl : p.tail = [] := List.eq_nil_of_length_eq_zero (by simp; omega)
      rw [hl]
      simp [AV.read, h.h4, h0, forRange_self]
    · have := AV.read_new (B := B) (ls := [p, c, d]) (F := F) (v := M.browendptr) (k := 0) (o := 1) (blk := p) rfl (hF' 0)
        (by rw [h.h5 h0]; rfl) (by rw [h.h4]; omega)
      rw [this, h.h4, List.drop_one, List.take_of_length_le (by simp; omega)]

theorem OverNew.sound {M : MatObj} {n : Nat} {B : List (List Nat)} {V : List (List K)} {F G : List Nat} {p c d : List Nat}
    {w : List K} (h : OverNew M n B.length V.length p c d w) (hF : ∀ b ∈ F, b < B.length) (hG : ∀ b ∈ G, b < V.length) :
    M.Sound ⟨⟨B ++ [p, c, d], F⟩, ⟨V ++ [w], G⟩⟩ := by
  have hF' : ∀ k, B.length + k ∉ F := fun k h => absurd (hF _ h) (by omega)
  have hG' : ∀ k, V.length + k ∉ G := fun k h => absurd (hG _ h) (by omega)
  refine ⟨?_, ?_, ?_, ?_, ?_, h.h6, fun b hb => ?_, fun b hb => ?_⟩
  · rw [h.h0]
    intro _ b o e
    simp at e
    obtain ⟨rfl, rfl⟩ := e
    exact ⟨rfl, by simp, hF' 0⟩
  · rw [h.h1]
    intro _ b o e
    simp at e
    obtain ⟨rfl, rfl⟩ := e
    exact ⟨rfl, by simp, hF' 1⟩
  · rw [h.h2]
    intro _ b o e
    simp at e
    obtain ⟨rfl, rfl⟩ := e
    exact ⟨rfl, by simp, hF' 2⟩
  · rw [h.h3]
    intro _ b o e
    simp at e
    obtain ⟨rfl, rfl⟩ := e
    exact ⟨rfl, by simp, hG' 0⟩
  · rw [h.h0, h.h1, h.h2]
    simp [AV.owned]
  · have := hF b hb
    simp; omega
  · have := hG b hb
    simp; omega

theorem OverNew.destroy {M : MatObj} {n : Nat} {B : List (List Nat)} {V : List (List K)} {F G : List Nat} {p c d : List Nat}
    {w : List K} (h : OverNew M n B.length V.length p c d w) (hF : ∀ b ∈ F, b < B.length) (hG : ∀ b ∈ G, b < V.length) :
    M.destroy ⟨⟨B ++ [p, c, d], F⟩, ⟨V ++ [w], G⟩⟩ =
      .ok ⟨⟨B ++ [p, c, d], F ++ [B.length + 2] ++ [B.length + 1] ++ [B.length]⟩, ⟨V ++ [w], G ++ [V.length]⟩⟩ := by
  have hF' : ∀ k, B.length + k ∉ F := fun k h => absurd (hF _ h) (by omega)
  have hG' : ∀ k, V.length + k ∉ G := fun k h => absurd (hG _ h) (by omega)
  have hF0 := hF' 0
  have hG0 := hG' 0
  simp only [Nat.add_zero] at hF0 hG0
  simp [MatObj.destroy, AV.destroy, AV.release, h.h0, h.h1, h.h2, h.h3, h.h6, Heap.free, hF0, hF' 1, hF' 2, hG0]

theorem AV.owned_mem_freed {F : List Nat} {B : List (List Nat)} (hF : ∀ b ∈ F, b < B.length) :
    (∀ x, x ∈ F ++ [B.length + 2] ++ [B.length + 1] ++ [B.length] ↔
      x ∈ F ∨ B.length ≤ x ∧ x < B.length + 3) := by
  intro x
  have := hF x
  simp only [List.mem_append, List.mem_singleton]
  constructor
  · rintro (((h | h) | h) | h)
    · exact Or.inl h
    all_goals right; omega
  · rintro (h | ⟨h1, h2⟩)
    · exact Or.inl (Or.inl (Or.inl h))
    · rcases Nat.lt_or_ge x (B.length + 1) with h | h
      · exact Or.inr (by omega)
      · rcases Nat.lt_or_ge x (B.length + 2) with h' | h'
        · exact Or.inl (Or.inr (by omega))
        · exact Or.inl (Or.inl (Or.inr (by omega)))

theorem take_succ_tail_length {p : List Nat} {n : Nat} (h : n < p.length) : (p.take (n + 1)).length = n + 1 := by
  simp; omega

/-- The object and memory after `fillStructure`, as an object over new blocks. -/
theorem fillStructure_over {M : MatObj} {μ : Mem K} (hM : M.Sound μ) (m n : Nat) {c p : List Nat}
    (gi : Nat → Nat → Nat) (gv : Nat → K) (hp : n < p.length) (hmono : ∀ i < n, p⟦i⟧ ≤ p⟦i + 1⟧) (hc : p⟦n⟧ ≤ c.length)
    (hn : 0 < n ∨ M.browendptr.len = 0) :
    ∃ (M' : MatObj) (d F G : List Nat), d.length = n ∧ (∀ i < n, ∀ j, FirstDiag p c i j → d⟦i⟧ = j) ∧
      (∀ i < n, (∀ j, p⟦i⟧ ≤ j → j < p⟦i + 1⟧ → c⟦j⟧ ≠ i) → d⟦i⟧ = gi 2 i) ∧
      fillStructure m n c p gi gv M μ = .ok (M', ⟨⟨μ.ih.blocks ++ [p.take (n + 1), c.take p⟦n⟧, d], F⟩,
        ⟨μ.vh.blocks ++ [(List.range (p⟦n⟧ * m)).map gv], G⟩⟩) ∧
      OverNew M' n μ.ih.blocks.length μ.vh.blocks.length (p.take (n + 1)) (c.take p⟦n⟧) d
        ((List.range (p⟦n⟧ * m)).map gv) ∧
      F = μ.ih.freed ++ (M.browptr.owned ++ M.bcolind.owned ++ M.diagind.owned) ∧ G = μ.vh.freed ++ M.vals.owned ∧
      (∀ b ∈ F, b < μ.ih.blocks.length) ∧ (∀ b ∈ G, b < μ.vh.blocks.length) ∧
      M'.nbrows = M.nbrows ∧ M'.nnzb = M.nnzb ∧ M'.nbstored = M.nbstored := by
  obtain ⟨d, hd, h1, h2, e⟩ := fillStructure_ok hM m n gi gv hp hmono hc
  refine ⟨_, d, _, _, hd, h1, h2, e, ⟨rfl, ?_, rfl, ?_, ?_, ?_, ?_, by simp; omega, hd⟩, rfl, rfl, ?_, ?_, rfl, rfl, rfl⟩
  · simp; omega
  · simp
  · show (if n > 0 then (⟨some (μ.ih.blocks.length, 1), n, false⟩ : AV) else M.browendptr).len = n
    by_cases h : n > 0
    · rw [if_pos h]
    · rw [if_neg h]; omega
  · intro h
    show (if n > 0 then (⟨some (μ.ih.blocks.length, 1), n, false⟩ : AV) else M.browendptr).data = _
    rw [if_pos h]
  · show (if n > 0 then (⟨some (μ.ih.blocks.length, 1), n, false⟩ : AV) else M.browendptr).owner = false
    by_cases h : n > 0
    · rw [if_pos h]
    · rw [if_neg h]; exact hM.ends
  · intro b hb
    simp only [List.mem_append] at hb
    rcases hb with hb | (hb | hb) | hb
    · exact hM.ifreed b hb
    · exact hM.browptr.owned_lt b hb
    · exact hM.bcolind.owned_lt b hb
    · exact hM.diagind.owned_lt b hb
  · intro b hb
    rcases List.mem_append.1 hb with hb | hb
    · exact hM.vfreed b hb
    · exact hM.vals.owned_lt b hb

theorem MatObj.Sound.congr {M M' : MatObj} {μ : Mem K} (h : M.Sound μ) (h0 : M'.browptr = M.browptr)
    (h1 : M'.bcolind = M.bcolind) (h2 : M'.diagind = M.diagind) (h3 : M'.vals = M.vals)
    (h4 : M'.browendptr = M.browendptr) : M'.Sound μ := by
  refine ⟨?_, ?_, ?_, ?_, ?_, ?_, h.ifreed, h.vfreed⟩
  · rw [h0]; exact h.browptr
  · rw [h1]; exact h.bcolind
  · rw [h2]; exact h.diagind
  · rw [h3]; exact h.vals
  · rw [h0, h1, h2]; exact h.sep
  · rw [h4]; exact h.ends

/-- Writes on one side of a separation do not change what is read on the other side. -/
theorem Writes.read {iv vv : List AV} {μ μ' : Mem K} (h : Writes iv vv μ μ') {M : MatObj} {A : SR K} {N Nv : Nat}
    (hi : (∀ v ∈ iv, v.Below N) ∧ (∀ u ∈ M.indexViews, u.Above N) ∨ (∀ v ∈ iv, v.Above N) ∧ ∀ u ∈ M.indexViews, u.Below N)
    (hv : (∀ v ∈ vv, v.Below Nv) ∧ M.vals.Above Nv ∨ (∀ v ∈ vv, v.Above Nv) ∧ M.vals.Below Nv)
    (hr : M.read μ = .ok A) : M.read μ' = .ok A := by
  induction h with
  | refl => exact hr
  | @index μ' v i x h' hw hm he ih =>
    obtain ⟨a1, a2, a3, a4, a5, a6, a7, a8⟩ := MatObj.read_inv ih
    have key : ∀ u ∈ M.indexViews, ∀ l, u.read μ'.ih = .ok l → u.read h' = .ok l := fun u hu l hl =>
      AV.set_read he (hi.imp (fun h => ⟨h.1 _ hm, h.2 u hu⟩) (fun h => ⟨h.1 _ hm, h.2 u hu⟩)) hl
    simp only [MatObj.indexViews, List.mem_cons, List.not_mem_nil, or_false, forall_eq_or_imp, forall_eq] at key
    obtain ⟨k1, k2, k3, k4⟩ := key
    rw [MatObj.read_intro (μ := { μ' with ih := h' }) (k1 _ a1) (k2 _ a2) a3 (k3 _ a4) (k4 _ a5), a6, a7, a8]
  | @value μ' v i x h' hw hm he ih =>
    obtain ⟨a1, a2, a3, a4, a5, a6, a7, a8⟩ := MatObj.read_inv ih
    have := AV.set_read he (hv.imp (fun h => ⟨h.1 _ hm, h.2⟩) (fun h => ⟨h.1 _ hm, h.2⟩)) a3
    rw [MatObj.read_intro (μ := { μ' with vh := h' }) a1 a2 this a4 a5, a6, a7, a8]

theorem MatObj.read_below {M : MatObj} {μ : Mem K} {A : SR K} (h : M.read μ = .ok A) :
    (∀ u ∈ M.indexViews, u.Below μ.ih.blocks.length) ∧ M.vals.Below μ.vh.blocks.length := by
  obtain ⟨a1, a2, a3, a4, a5, _⟩ := MatObj.read_inv h
  refine ⟨?_, AV.read_lt a3⟩
  simp only [MatObj.indexViews, List.mem_cons, List.not_mem_nil, or_false, forall_eq_or_imp, forall_eq]
  exact ⟨AV.read_lt a1, AV.read_lt a2, AV.read_lt a4, AV.read_lt a5⟩

theorem OverNew.above {M : MatObj} {n a b : Nat} {p c d : List Nat} {w : List K} {own : Bool} (h : OverNew M n a b p c d w own) :
    (∀ u ∈ M.indexViews, u.Above a) ∧ M.vals.Above b := by
  refine ⟨?_, fun _ => ⟨b, 0, by rw [h.h3], Nat.le_refl _⟩⟩
  simp only [MatObj.indexViews, List.mem_cons, List.not_mem_nil, or_false, forall_eq_or_imp, forall_eq]
  refine ⟨fun _ => ⟨a, 0, by rw [h.h0], Nat.le_refl _⟩, fun _ => ⟨a + 1, 0, by rw [h.h1], by omega⟩,
    fun _ => ⟨a + 2, 0, by rw [h.h2], by omega⟩, fun hl => ⟨a, 1, h.h5 ?_, Nat.le_refl _⟩⟩
  rw [h.h4] at hl
  exact hl

theorem MatObj.read_old {M : MatObj} {A : SR K} {B ls : List (List Nat)} {V vs : List (List K)} {F G : List Nat}
    (h : M.read ⟨⟨B, F⟩, ⟨V, G⟩⟩ = .ok A) : M.read ⟨⟨B ++ ls, F⟩, ⟨V ++ vs, G⟩⟩ = .ok A := by
  obtain ⟨a1, a2, a3, a4, a5, a6, a7, a8⟩ := MatObj.read_inv h
  rw [MatObj.read_intro (μ := ⟨⟨B ++ ls, F⟩, ⟨V ++ vs, G⟩⟩) (AV.read_old (ls := ls) a1) (AV.read_old (ls := ls) a2)
    (AV.read_old (ls := vs) a3) (AV.read_old (ls := ls) a4) (AV.read_old (ls := ls) a5), a6, a7, a8]

theorem OverNew.released {M : MatObj} {n : Nat} {B : List (List Nat)} {V : List (List K)} {F G is vs : List Nat}
    {p c d : List Nat} {w : List K} (h : OverNew M n B.length V.length p c d w)
    (hF : ∀ b ∈ F ++ is, b < B.length) (hG : ∀ b ∈ G ++ vs, b < V.length) :
    ∃ μ', M.destroy ⟨⟨B ++ [p, c, d], F ++ is⟩, ⟨V ++ [w], G ++ vs⟩⟩ = .ok μ' ∧
      Released is vs ⟨⟨B, F⟩, ⟨V, G⟩⟩ μ' := by
  refine ⟨_, h.destroy hF hG, ?_⟩
  constructor
  · intro x
    show x ∈ F ++ is ++ [B.length + 2] ++ [B.length + 1] ++ [B.length] ↔ _
    rw [AV.owned_mem_freed hF x]
    simp [or_assoc]
  · intro x
    show x ∈ G ++ vs ++ [V.length] ↔ x ∈ G ∨ x ∈ vs ∨ V.length ≤ x ∧ x < (V ++ [w]).length
    simp only [List.mem_append, List.mem_singleton, List.length_append, List.length_singleton]
    have : x = V.length ↔ V.length ≤ x ∧ x < V.length + 1 := by omega
    rw [this, or_assoc]
  · intro b hb
    exact List.getElem?_append_left hb
  · intro b hb
    exact List.getElem?_append_left hb

/-! ## C51: constructors -/

theorem hasStructure_intro {n m : Nat} {p c d : List Nat} (w : List K) (hd : d.length = n) (hw : w.length = p⟦n⟧ * m)
    (hf : ∀ i < n, ∀ j, FirstDiag p c i j → d⟦i⟧ = j) :
    HasStructure n m p c (⟨p.take (n + 1), c.take p⟦n⟧, w, d, (p.take (n + 1)).tail, n, p⟦n⟧, p⟦n⟧⟩ : SR K) :=
  ⟨rfl, rfl, rfl, rfl, rfl, rfl, hw, hd, fun i hi j h1 h2 h3 h4 => hf i hi j ⟨h1, h2, h3, h4⟩⟩

/-- `setStructure`, of the block class (`m = bs*bs`) and of the scalar class (`m = 1`), on any matrix object: the
object then holds a matrix with the given structure, its previous arrays are given back, no other memory is touched, and
destroying it afterwards gives back all it allocated. For `n = 0` this requires that the object had no row-end
view before. -/
theorem set_structure_correct (m n : Nat) (p c : List Nat) (gi : Nat → Nat → Nat) (gv : Nat → K) {M : MatObj} {μ : Mem K}
    (hM : M.Sound μ) (hp : n < p.length) (hmono : ∀ i < n, p⟦i⟧ ≤ p⟦i + 1⟧) (hc : p⟦n⟧ ≤ c.length)
    (hn : 0 < n ∨ M.browendptr.len = 0) :
    ∃ M' μ' A, setStructure m n c p gi gv M μ = .ok (M', μ') ∧ M'.read μ' = .ok A ∧ HasStructure n m p c A ∧ M'.Sound μ' ∧
      ∃ μ'', M'.destroy μ' = .ok μ'' ∧
        Released (M.browptr.owned ++ M.bcolind.owned ++ M.diagind.owned) M.vals.owned μ μ'' := by
  have hM' : MatObj.Sound { M with nbrows := n, nbstored := p⟦n⟧, nnzb := p⟦n⟧ } μ :=
    hM.congr rfl rfl rfl rfl rfl
  obtain ⟨M', d, F, G, hd, hf, -, e, ho, rfl, rfl, hF, hG, n1, n2, n3⟩ := fillStructure_over hM' m n gi gv hp hmono hc hn
  refine ⟨M', _, _, ?_, ho.read hF hG, ?_, ho.sound hF hG, ho.released hF hG⟩
  · rw [setStructure, rd_eq hp, ok_bind, e]
  · rw [n1, n2, n3]
    exact hasStructure_intro _ hd (by simp) hf

/-- The constructor of the scalar class from a structure. -/
theorem csr_of_structure_correct (n : Nat) (p c : List Nat) (gi : Nat → Nat → Nat) (gv : Nat → K) {μ : Mem K} (hμ : μ.Wf)
    (hp : n < p.length) (hmono : ∀ i < n, p⟦i⟧ ≤ p⟦i + 1⟧) (hc : p⟦n⟧ ≤ c.length) :
    ∃ M' μ' A, csrOfStructure n c p gi gv μ = .ok (M', μ') ∧ M'.read μ' = .ok A ∧ HasStructure n 1 p c A ∧ M'.Sound μ' ∧
      ∃ μ'', M'.destroy μ' = .ok μ'' ∧ Released [] [] μ μ'' := by
  obtain ⟨M', d, F, G, hd, hf, -, e, ho, rfl, rfl, hF, hG, n1, n2, n3⟩ :=
    fillStructure_over (MatObj.Sound.default hμ n 0 0) 1 n gi gv hp hmono hc (Or.inr rfl)
  have ho' : OverNew { M' with nbstored := p⟦n⟧, nnzb := p⟦n⟧ } n μ.ih.blocks.length μ.vh.blocks.length (p.take (n + 1))
      (c.take p⟦n⟧) d ((List.range (p⟦n⟧ * 1)).map gv) := ⟨ho.h0, ho.h1, ho.h2, ho.h3, ho.h4, ho.h5, ho.h6, ho.hp, ho.hd⟩
  refine ⟨{ M' with nbstored := p⟦n⟧, nnzb := p⟦n⟧ }, _, _, ?_, ho'.read hF hG, ?_, ho'.sound hF hG, ho'.released hF hG⟩
  · simp only [csrOfStructure, e, ok_bind, rd_eq hp]
  · have n1' : M'.nbrows = n := n1
    simp only [n1']
    exact hasStructure_intro _ hd (by simp) hf

/-- A matrix with a proper structure has arrays of the right lengths, so that the container operations stay in bounds. -/
theorem HasStructure.full {n m : Nat} {p c : List Nat} {A : SR K} (h : HasStructure n m p c A) (hp : n < p.length)
    (hp0 : p⟦0⟧ = 0) (hmono : ∀ i < n, p⟦i⟧ ≤ p⟦i + 1⟧) (hc : p⟦n⟧ ≤ c.length) (hcol : ∀ k < p⟦n⟧, c⟦k⟧ < n) : A.Full m := by
  have tp : ∀ i ≤ n, A.browptr⟦i⟧ = p⟦i⟧ := fun i hi => by rw [h.browptr]; exact get0_take (by omega) (by omega)
  have tn : A.browptr⟦A.nbrows⟧ = p⟦n⟧ := by rw [h.nbrows]; exact tp n (Nat.le_refl _)
  refine ⟨by rw [h.browptr, h.nbrows]; simp; omega, by rw [tp 0 (by omega)]; exact hp0, fun i hi => ?_, ?_,
    fun i hi => ?_, ?_, ?_, fun k hk => ?_⟩
  · rw [h.nbrows] at hi
    rw [tp i (by omega), tp (i + 1) (by omega)]
    exact hmono i hi
  · rw [h.browendptr, h.nbrows]; simp; omega
  · rw [h.browendptr, h.browptr]
    rw [h.nbrows] at hi
    rw [get0_eq_getElem (by simp; omega), get0_eq_getElem (by simp; omega)]
    simp
  · rw [tn, h.bcolind]; simp; omega
  · rw [tn, h.vals]
  · rw [tn] at hk
    rw [h.bcolind, get0_take hc hk, h.nbrows]
    exact hcol k hk

/-- With an entry on the diagonal of every row, all of them are located. -/
theorem HasStructure.hasDiag {n m : Nat} {p c : List Nat} {A : SR K} (h : HasStructure n m p c A) (hp : n < p.length)
    (hmono : ∀ i < n, p⟦i⟧ ≤ p⟦i + 1⟧) (hc : p⟦n⟧ ≤ c.length)
    (hdiag : ∀ i < n, ∃ j, p⟦i⟧ ≤ j ∧ j < p⟦i + 1⟧ ∧ c⟦j⟧ = i) : A.HasDiag := by
  have tp : ∀ i ≤ n, A.browptr⟦i⟧ = p⟦i⟧ := fun i hi => by rw [h.browptr]; exact get0_take (by omega) (by omega)
  have hple : ∀ i ≤ n, p⟦i⟧ ≤ p⟦n⟧ := by
    intro i hi
    have : ∀ k, i + k ≤ n → p⟦i⟧ ≤ p⟦i + k⟧ := by
      intro k
      induction k with
      | zero => intro _; exact Nat.le_refl _
      | succ k ih => intro hk; exact Nat.le_trans (ih (by omega)) (hmono (i + k) (by omega))
    have := this (n - i) (by omega)
    rwa [show i + (n - i) = n by omega] at this
  have key : ∀ i < n, p⟦i⟧ ≤ A.diagind⟦i⟧ ∧ A.diagind⟦i⟧ < p⟦i + 1⟧ ∧ c⟦A.diagind⟦i⟧⟧ = i := by
    intro i hi
    classical
    have hs := Nat.find_spec (hdiag i hi)
    rw [h.diag i hi (Nat.find (hdiag i hi)) hs.1 hs.2.1 hs.2.2
      (fun k k1 k2 k3 => Nat.find_min (hdiag i hi) k2 ⟨k1, by omega, k3⟩)]
    exact hs
  refine ⟨by rw [h.diag_len, h.nbrows], fun i hi => ?_, fun i hi => ?_, fun i hi => ?_⟩
  all_goals rw [h.nbrows] at hi; obtain ⟨k1, k2, k3⟩ := key i hi
  · rw [tp i (by omega)]; exact k1
  · rw [tp _ (by omega)]; exact k2
  · have := hple (i + 1) (by omega)
    rw [h.bcolind, get0_take hc (by omega)]; exact k3

/-- In a row without diagonal entry, the diagonal location is left as the allocation returned it: indeterminate. -/
theorem set_structure_diag_uninitialised (m n : Nat) (p c : List Nat) (gi : Nat → Nat → Nat) (gv : Nat → K) {M : MatObj}
    {μ : Mem K} (hM : M.Sound μ) (hp : n < p.length) (hmono : ∀ i < n, p⟦i⟧ ≤ p⟦i + 1⟧) (hc : p⟦n⟧ ≤ c.length)
    {i : Nat} (hi : i < n) (hno : ∀ j, p⟦i⟧ ≤ j → j < p⟦i + 1⟧ → c⟦j⟧ ≠ i) :
    ∃ M' μ' A, setStructure m n c p gi gv M μ = .ok (M', μ') ∧ M'.read μ' = .ok A ∧ A.diagind⟦i⟧ = gi 2 i := by
  have hM' : MatObj.Sound { M with nbrows := n, nbstored := p⟦n⟧, nnzb := p⟦n⟧ } μ :=
    hM.congr rfl rfl rfl rfl rfl
  obtain ⟨M', d, F, G, hd, -, hf, e, ho, rfl, rfl, hF, hG, n1, n2, n3⟩ :=
    fillStructure_over hM' m n gi gv hp hmono hc (Or.inl (by omega))
  refine ⟨M', _, _, ?_, ho.read hF hG, hf i hi hno⟩
  rw [setStructure, rd_eq hp, ok_bind, e]

/-- The constructor of the block class from a structure never uses the number of rows it is given: whatever the
structure, the object has no rows and no entries. -/
theorem bsr_of_structure_empty (m n : Nat) (p c : List Nat) (gi : Nat → Nat → Nat) (gv : Nat → K) {μ : Mem K} (hμ : μ.Wf)
    (hp : 0 < p.length) (hc : p⟦0⟧ ≤ c.length) :
    ∃ M' μ' A, bsrOfStructure m n c p gi gv μ = .ok (M', μ') ∧ M'.read μ' = .ok A ∧ A.nbrows = 0 ∧ A.nnzb = 0 ∧
      A.browptr.length = 1 := by
  obtain ⟨M', d, F, G, hd, hf, -, e, ho, rfl, rfl, hF, hG, n1, n2, n3⟩ :=
    fillStructure_over (MatObj.Sound.default hμ 0 0 0) m 0 gi gv hp (fun i hi => by omega) hc (Or.inr rfl)
  refine ⟨M', _, _, e, ho.read hF hG, n1, n2, ?_⟩
  simp; omega

/-- Hence it does not construct the matrix it is asked for (C51 fails for this constructor). -/
theorem bsr_of_structure_wrong (m n : Nat) (p c : List Nat) (gi : Nat → Nat → Nat) (gv : Nat → K) {μ : Mem K} (hμ : μ.Wf)
    (hn : 0 < n) (hp : 0 < p.length) (hc : p⟦0⟧ ≤ c.length) :
    ¬ ∃ M' μ' A, bsrOfStructure m n c p gi gv μ = .ok (M', μ') ∧ M'.read μ' = .ok A ∧ HasStructure n m p c A := by
  rintro ⟨M', μ', A, e, hr, hs⟩
  obtain ⟨M'', μ'', A', e', hr', h0, -, -⟩ := bsr_of_structure_empty m n p c gi gv hμ hp hc
  rw [e] at e'
  injection e' with e'
  injection e' with e1 e2
  subst e1 e2
  rw [hr] at hr'
  injection hr' with hr'
  subst hr'
  have := hs.nbrows
  omega

/-- The wrapping constructor of the block class: the object holds the matrix stored in the caller's arrays, and
destroying it gives nothing back. -/
theorem bsr_of_arrays_correct (bs n : Nat) (brptrs bcinds values diaginds : Ptr) {μ : Mem K} {p c d : List Nat} {v : List K}
    (hp : (AV.ofWrap brptrs (n + 1)).read μ.ih = .ok p) (hc : (AV.ofWrap bcinds p⟦n⟧).read μ.ih = .ok c)
    (hv : (AV.ofWrap values (p⟦n⟧ * bs * bs)).read μ.vh = .ok v) (hd : (AV.ofWrap diaginds n).read μ.ih = .ok d) :
    ∃ M, bsrOfArrays bs n brptrs bcinds values diaginds μ = .ok M ∧
      M.read μ = .ok ⟨p, c, v, d, p.tail, n, p⟦n⟧, p⟦n⟧⟩ ∧ M.destroy μ = .ok μ := by
  obtain ⟨hpl, hpg⟩ := AV.get_of_read hp
  have hpl' : p.length = n + 1 := hpl
  have hload : μ.ih.load brptrs n = .ok p⟦n⟧ := by
    rw [get0_eq_getElem (by omega)]
    exact (AV.get_load (hpg n (by omega))).2
  obtain ⟨b, o, hb⟩ : ∃ b o, brptrs = some (b, o) := by
    cases brptrs with
    | none => simp [Heap.load] at hload
    | some q => exact ⟨q.1, q.2, rfl⟩
  subst hb
  refine ⟨MatObj.ofPtrs (some (b, o)) bcinds values diaginds (if n > 0 then some (b, o + 1) else none) n p⟦n⟧ p⟦n⟧ bs, ?_,
    ?_, ?_⟩
  · by_cases hn : n > 0
    · simp only [bsrOfArrays, hn, if_true, Ptr.add, ok_bind, hload]
    · simp only [bsrOfArrays, hn, if_false, ok_bind, hload]
  · refine MatObj.read_intro hp hc hv hd ?_
    refine AV.read_of_get ?_ (fun i hi => ?_)
    · simp [MatObj.ofPtrs, AV.ofWrap, hpl']
    · have hi' : i < n := by simp at hi; omega
      have := (AV.get_load (hpg (i + 1) (by omega))).2
      rw [AV.get_eq (by exact hi')]
      simp only [MatObj.ofPtrs, AV.ofWrap, show n > 0 by omega, if_true, List.getElem_tail] at this ⊢
      rw [← this]
      simp only [Heap.load, show o + 1 + i = o + (i + 1) by omega]
  · simp [MatObj.destroy, MatObj.ofPtrs, AV.ofWrap, AV.destroy, AV.release]

/-- The wrapping constructor of the scalar class reads one element past the end of a row-pointer array of
the documented length `n+1`: undefined behaviour, whatever the matrix (C51 fails for this constructor). -/
theorem csr_of_arrays_ub (n : Nat) (b : Nat) (bcinds values diaginds : Ptr) {μ : Mem K} {p : List Nat}
    (hb : μ.ih.blocks[b]? = some p) (hp : p.length = n + 1) :
    csrOfArrays n (some (b, 0)) bcinds values diaginds μ = .error .ub := by
  have : μ.ih.load (some (b, 0)) (n + 1) = .error .ub := by
    simp only [Heap.load]
    by_cases h : b ∈ μ.ih.freed
    · simp [h]
    · simp [h, rd, hb, hp]
  simp only [csrOfArrays, this, error_bind]

/-- If the caller's row-pointer array has one more element, that element becomes the number of non-zeros. -/
theorem csr_of_arrays_nnz (n : Nat) (brptrs bcinds values diaginds : Ptr) {μ : Mem K} {q : Nat}
    (hq : μ.ih.load brptrs (n + 1) = .ok q) :
    ∃ M, csrOfArrays n brptrs bcinds values diaginds μ = .ok (M, μ) ∧ M.nbrows = n ∧ M.nnzb = q ∧ M.bcolind.len = q ∧
      M.vals.len = q := by
  cases brptrs with
  | none => simp [Heap.load] at hq
  | some p =>
    obtain ⟨b, o⟩ := p
    refine ⟨⟨⟨some (b, o), n + 1, false⟩, ⟨bcinds, q, false⟩, ⟨values, q, false⟩, ⟨diaginds, n, false⟩,
      ⟨some (b, o + 1), n, false⟩, n, q, q⟩, ?_, rfl, rfl, rfl, rfl⟩
    simp [csrOfArrays, hq, AV.wrap, AV.release, Ptr.add]

/-- Taking over a raw matrix in the block class: the row-pointer view of the object is one element short. All other
arrays are those of the raw matrix; the raw matrix is emptied; destroying the object gives back exactly the four
arrays. -/
theorem bsr_of_raw_partial (bs : Nat) (R : RawMat) {μ : Mem K} {a b d w : Nat}
    (ha : R.browptr = some (a, 0)) (hb : R.bcolind = some (b, 0)) (hd : R.diagind = some (d, 0)) (hw : R.vals = some (w, 0))
    (hnd : [a, b, d].Nodup) (hi : ∀ x ∈ [a, b, d], x < μ.ih.blocks.length ∧ x ∉ μ.ih.freed)
    (hv : w < μ.vh.blocks.length ∧ w ∉ μ.vh.freed) {A : SR K}
    (he : 0 < R.nbrows → R.browendptr = some (a, 1)) (hR : (R.view bs).read μ = .ok A) :
    ∃ M, bsrOfRaw bs R μ = .ok (M, {}, μ) ∧ M.read μ = .ok { A with browptr := A.browptr.take A.nbrows } ∧
      ∃ μ', M.destroy μ = .ok μ' ∧ Released [a, b, d] [w] μ μ' := by
  obtain ⟨e1, e2, e3, e4, e5, e6, e7, e8⟩ := MatObj.read_inv hR
  have r6 : R.nbrows = A.nbrows := e6
  refine ⟨{ browptr := ⟨some (a, 0), R.nbrows, true⟩, bcolind := ⟨some (b, 0), R.nbstored, true⟩
            vals := ⟨some (w, 0), R.nbstored * bs * bs, true⟩, diagind := ⟨some (d, 0), R.nbrows, true⟩
            browendptr := if R.nbrows > 0 then ⟨some (a, 1), R.nbrows, false⟩ else {}
            nbrows := R.nbrows, nnzb := R.nnzb, nbstored := R.nbstored }, ?_, ?_, ?_⟩
  · by_cases hn : R.nbrows > 0
    · simp [bsrOfRaw, AV.takeControl, AV.wrap, AV.release, Ptr.add, hn, ha, hb, hd, hw]
    · simp [bsrOfRaw, AV.takeControl, AV.release, hn, ha, hb, hd, hw]
  · obtain ⟨hpl, hpg⟩ := AV.get_of_read e1
    have hpl' : A.browptr.length = A.nbrows + 1 := by rw [hpl, ← r6]; rfl
    have k1 : (⟨some (a, 0), R.nbrows, true⟩ : AV).read μ.ih = .ok (A.browptr.take A.nbrows) := by
      refine AV.read_of_get (by simp [r6, hpl']) (fun i hi => ?_)
      have hi' : i < A.nbrows := by simp at hi; omega
      have := (AV.get_load (hpg i (by omega))).2
      rw [AV.get_eq (by rw [r6]; exact hi'), List.getElem_take]
      rw [← ha]
      exact this
    have tr : ∀ (p : Ptr) (n : Nat) (l : List Nat), (⟨p, n, false⟩ : AV).read μ.ih = .ok l →
        (⟨p, n, true⟩ : AV).read μ.ih = .ok l := fun p n l h => h
    have k2 := tr _ _ _ e2
    have k4 := tr _ _ _ e4
    have k3 : (⟨R.vals, R.nbstored * bs * bs, true⟩ : AV).read μ.vh = .ok A.vals := e3
    have k5 : (if R.nbrows > 0 then (⟨some (a, 1), R.nbrows, false⟩ : AV) else {}).read μ.ih = .ok A.browendptr := by
      by_cases hn : R.nbrows > 0
      · rw [if_pos hn, ← he hn]; exact e5
      · rw [if_neg hn]
        have := (AV.get_of_read e5).1
        have h0 : A.browendptr.length = 0 := by rw [this]; show R.nbrows = 0; omega
        rw [List.eq_nil_of_length_eq_zero h0]
        rfl
    rw [hb] at k2
    rw [hd] at k4
    rw [hw] at k3
    have e7' : R.nnzb = A.nnzb := e7
    have e8' : R.nbstored = A.nbstored := e8
    rw [MatObj.read_intro (μ := μ) k1 k2 k3 k4 k5]
    simp only [r6, e7', e8']
  · simp only [List.mem_cons, List.not_mem_nil, or_false, forall_eq_or_imp, forall_eq] at hi
    obtain ⟨⟨ia, ja⟩, ⟨ib, jb⟩, ⟨id, jd⟩⟩ := hi
    simp only [List.nodup_cons, List.mem_cons, List.not_mem_nil, or_false, not_or] at hnd
    obtain ⟨⟨n1, n2⟩, n3, -⟩ := hnd
    have hown : (if R.nbrows > 0 then (⟨some (a, 1), R.nbrows, false⟩ : AV) else {}).owner = false := by
      split <;> rfl
    refine ⟨⟨⟨μ.ih.blocks, μ.ih.freed ++ [d] ++ [b] ++ [a]⟩, ⟨μ.vh.blocks, μ.vh.freed ++ [w]⟩⟩, ?_, ?_⟩
    · simp [MatObj.destroy, AV.destroy, AV.release, hown, Heap.free, ia, ja, ib, jb, id, jd, hv.1, hv.2, n1, n2, n3]
    · constructor
      · intro x
        simp only [List.mem_append, List.mem_cons, List.not_mem_nil, or_false]
        have : ¬ (μ.ih.blocks.length ≤ x ∧ x < μ.ih.blocks.length) := by omega
        simp only [this, or_false, or_assoc]
        refine or_congr_right ⟨?_, ?_⟩ <;> (rintro (h | h | h) <;> simp [h])
      · intro x
        simp only [List.mem_append, List.mem_cons, List.not_mem_nil, or_false]
        have : ¬ (μ.vh.blocks.length ≤ x ∧ x < μ.vh.blocks.length) := by omega
        simp only [this, or_false]
      · intro x _; rfl
      · intro x _; rfl

/-- Hence reading the last row pointer of the object aborts: `browptr[nbrows]` is out of its range. -/
theorem bsr_of_raw_last_pointer_aborts (bs : Nat) (R : RawMat) {μ μ' : Mem K} {R' : RawMat} {M : MatObj}
    (h : bsrOfRaw bs R μ = .ok (M, R', μ')) : M.browptr.get M.nbrows μ'.ih = .error .abort := by
  have key : M.browptr.len = M.nbrows := by
    by_cases hn : R.nbrows > 0
    · cases hb : R.browptr with
      | none => simp [bsrOfRaw, AV.takeControl, AV.release, Ptr.add, hn, hb] at h
      | some q =>
        simp [bsrOfRaw, AV.takeControl, AV.wrap, AV.release, Ptr.add, hn, hb] at h
        rw [← h.1]
    · simp [bsrOfRaw, AV.takeControl, AV.release, hn] at h
      rw [← h.1]
  simp [AV.get, cassert, key]

/-- Taking over a raw matrix in the scalar class: the object holds the matrix, but it owns none of the arrays, while
the raw matrix, the only other reference, is emptied: destroying both gives nothing back. -/
theorem csr_of_raw_leaks (R : RawMat) {μ : Mem K} {A : SR K} {a : Nat} (ha : R.browptr = some (a, 0))
    (he : R.browendptr = some (a, 1)) (hR : (R.view 1).read μ = .ok A) (hn : R.nnzb = R.nbstored) :
    ∃ M, csrOfRaw R μ = .ok (M, {}) ∧ M.read μ = .ok A ∧ M.destroy μ = .ok μ ∧ destroyRaw {} μ = .ok μ := by
  refine ⟨R.view 1, ?_, hR, ?_, ?_⟩
  · simp [csrOfRaw, RawMat.view, cassert, hn, ha, he, Ptr.add]
  · simp [MatObj.destroy, RawMat.view, MatObj.ofPtrs, AV.ofWrap, AV.destroy, AV.release]
  · simp [destroyRaw, Heap.free]

/-- A raw matrix with stored entries that belong to no row is rejected by the scalar class: the constructor aborts before it touches the raw matrix. -/
theorem csr_of_raw_gaps_abort (R : RawMat) (μ : Mem K) (hn : R.nnzb ≠ R.nbstored) : csrOfRaw R μ = .error .abort := by
  simp [csrOfRaw, cassert, hn]

example : csrOfRaw { nnzb := 2, nbstored := 3 } (⟨{}, {}⟩ : Mem Int) = .error .abort := csr_of_raw_gaps_abort _ _ (by decide)

/-- Moving a matrix object: the new object holds the matrix and owns what the old one owned; the old one owns
nothing and its destruction has no effect. -/
theorem matrix_move_correct (M : MatObj) (μ : Mem K) :
    M.move.1.read μ = M.read μ ∧ M.move.1.destroy μ = M.destroy μ ∧ M.move.2.destroy μ = .ok μ :=
  ⟨rfl, rfl, rfl⟩

/-- The same for the conversion to the constant type, after which the old object holds the empty matrix. -/
theorem matrix_move_to_const_correct (M : MatObj) (μ : Mem K) :
    M.moveToConst.1.read μ = M.read μ ∧ M.moveToConst.1.destroy μ = M.destroy μ ∧ M.moveToConst.2.destroy μ = .ok μ ∧
      M.moveToConst.2.read μ = .ok ⟨[], [], [], [], [], 0, 0, 0⟩ :=
  ⟨rfl, rfl, rfl, rfl⟩

/-- Sharing with the constant type, for a matrix with at least one entry: the new object holds the same matrix, and
owns nothing. -/
theorem share_with_const_correct (bs : Nat) {M : MatObj} {μ : Mem K} {A : SR K} (h : M.read μ = .ok A) (hbs : 0 < bs)
    (hp : A.browptr.length = A.nbrows + 1) (hc : A.bcolind.length = A.nbstored)
    (hv : A.vals.length = A.nbstored * bs * bs) (hd : A.diagind.length = A.nbrows) (he : A.browendptr.length = A.nbrows)
    (hn : 0 < A.nbrows) (hs : 0 < A.nbstored) :
    ∃ N, M.shareWithConst bs = .ok N ∧ N.read μ = .ok A ∧ N.destroy μ = .ok μ := by
  obtain ⟨e1, e2, e3, e4, e5, e6, e7, e8⟩ := MatObj.read_inv h
  have l1 := (AV.get_of_read e1).1
  have l2 := (AV.get_of_read e2).1
  have l3 := (AV.get_of_read e3).1
  have l4 := (AV.get_of_read e4).1
  have l5 := (AV.get_of_read e5).1
  have hvpos : 0 < A.nbstored * bs * bs := Nat.mul_pos (Nat.mul_pos hs hbs) hbs
  have addr : ∀ {β : Type} (v : AV) (h : Heap β) (l : List β), v.read h = .ok l → 0 < v.len → v.addr 0 = .ok v.data := by
    intro β v h l hr hl
    obtain ⟨b, o, hb, -⟩ := AV.read_lt hr hl
    simp [AV.addr, cassert, hl, hb, Ptr.add]
  refine ⟨MatObj.ofPtrs M.browptr.data M.bcolind.data M.vals.data M.diagind.data M.browendptr.data M.nbrows M.nnzb
    M.nbstored bs, ?_, ?_, ?_⟩
  · rw [MatObj.shareWithConst, addr _ _ _ e1 (by omega), ok_bind, addr _ _ _ e2 (by omega), ok_bind,
      addr _ _ _ e3 (by omega), ok_bind, addr _ _ _ e4 (by omega), ok_bind, addr _ _ _ e5 (by omega), ok_bind]
  · have tr : ∀ {β : Type} (v : AV) (h : Heap β) (l : List β) (n : Nat), v.read h = .ok l → v.len = n →
        (AV.ofWrap v.data n).read h = .ok l := by
      intro β v h l n hr hl
      subst hl
      exact hr
    have := MatObj.read_intro (M := MatObj.ofPtrs M.browptr.data M.bcolind.data M.vals.data M.diagind.data
        M.browendptr.data M.nbrows M.nnzb M.nbstored bs) (μ := μ) (tr _ _ _ _ e1 (by omega)) (tr _ _ _ _ e2 (by omega))
      (tr _ _ _ _ e3 (by rw [← l3, hv, e8])) (tr _ _ _ _ e4 (by omega)) (tr _ _ _ _ e5 (by omega))
    rw [this]
    simp only [MatObj.ofPtrs, e6, e7, e8]
  · simp [MatObj.destroy, MatObj.ofPtrs, AV.ofWrap, AV.destroy, AV.release]

/-- For a matrix without entries the call aborts in the bounds check. -/
theorem share_with_const_empty_aborts (bs : Nat) {M : MatObj} {b o : Nat} (h0 : 0 < M.browptr.len)
    (hb : M.browptr.data = some (b, o)) (hc : M.bcolind.len = 0) : M.shareWithConst bs = .error .abort := by
  simp [MatObj.shareWithConst, AV.addr, cassert, h0, hb, hc, Ptr.add]

/-! ## C50: copies -/

/-- The conclusion of C50 for an original `O` and a copy `M` made in memory `μ` (afterwards `μ'`): both hold the matrix;
writes through either leave the other one as it is. -/
structure IndependentCopy (O M : MatObj) (A : SR K) (μ' : Mem K) : Prop where
  orig : O.read μ' = .ok A
  copy : M.read μ' = .ok A
  orig_writes : ∀ μ'', Writes O.indexViews [O.vals] μ' μ'' → M.read μ'' = .ok A
  copy_writes : ∀ μ'', Writes M.indexViews [M.vals] μ' μ'' → O.read μ'' = .ok A

theorem independent_intro {O M : MatObj} {A : SR K} {B : List (List Nat)} {V : List (List K)} {F G : List Nat} {n : Nat}
    {p c d : List Nat} {w : List K} {own : Bool}
    (hO : O.read ⟨⟨B, F⟩, ⟨V, G⟩⟩ = .ok A) (hF : ∀ b ∈ F, b < B.length) (hG : ∀ b ∈ G, b < V.length)
    (hM : OverNew M n B.length V.length p c d w own)
    (hA : A = ⟨p, c, w, d, p.tail, M.nbrows, M.nnzb, M.nbstored⟩) :
    IndependentCopy O M A ⟨⟨B ++ [p, c, d], F⟩, ⟨V ++ [w], G⟩⟩ := by
  have hr := hM.read hF hG
  rw [← hA] at hr
  have hO' := MatObj.read_old (ls := [p, c, d]) (vs := [w]) hO
  obtain ⟨b1, b2⟩ := MatObj.read_below hO
  obtain ⟨a1, a2⟩ := hM.above
  simp only at b1 b2
  refine ⟨hO', hr, fun μ'' h => h.read (N := B.length) (Nv := V.length) (Or.inl ⟨b1, a1⟩) (Or.inl ⟨?_, a2⟩) hr,
    fun μ'' h => h.read (N := B.length) (Nv := V.length) (Or.inr ⟨a1, b1⟩) (Or.inr ⟨?_, b2⟩) hO'⟩
  · intro v hv
    rw [List.mem_singleton.1 hv]
    exact b2
  · intro v hv
    rw [List.mem_singleton.1 hv]
    exact a2

theorem full_tail {A : SR K} {m : Nat} (hA : A.Full m) : A.browptr.tail = A.browendptr := by
  apply List.ext_getElem (by simp [hA.ptr_len, hA.end_len])
  intro i h1 h2
  have := hA.end_eq i (by rw [← hA.end_len]; exact h2)
  rw [get0_eq_getElem h2, get0_eq_getElem (by rw [hA.ptr_len, ← hA.end_len]; omega)] at this
  simp [this]

/-- The copy constructor of the block class (`m = bs*bs`). -/
theorem bsr_copy_correct (m : Nat) (gi : Nat → Nat → Nat) (gv : Nat → K) {O : MatObj} {μ : Mem K} {A : SR K} (hμ : μ.Wf)
    (hO : O.read μ = .ok A) (hA : A.Full m) (hd : A.diagind.length = A.nbrows) :
    ∃ M μ', bsrCopy m gi gv O μ = .ok (M, μ') ∧ IndependentCopy O M A μ' ∧ M.Sound μ' ∧
      ∃ μ'', M.destroy μ' = .ok μ'' ∧ Released [] [] μ μ'' := by
  obtain ⟨⟨B, F⟩, V, G⟩ := μ
  obtain ⟨e1, e2, e3, e4, e5, e6, e7, e8⟩ := MatObj.read_inv hO
  have hget : O.browptr.get O.nbrows ⟨B, F⟩ = .ok A.browptr⟦A.nbrows⟧ := by
    rw [e6, get0_eq_getElem (by rw [hA.ptr_len]; omega)]
    exact (AV.get_of_read e1).2 _ (by rw [hA.ptr_len]; omega)
  have halloc := allocArrays_eq (MatObj.Sound.default hμ A.nbrows 0 0) m A.nbrows A.browptr⟦A.nbrows⟧ gi gv
  simp only [AV.owned, Bool.false_eq_true, if_false, List.append_nil] at halloc
  obtain ⟨M, hM⟩ : ∃ M : MatObj, M =
      { browptr := ⟨some (B.length, 0), A.nbrows + 1, true⟩
        bcolind := ⟨some (B.length + 1, 0), A.browptr⟦A.nbrows⟧, true⟩
        diagind := ⟨some (B.length + 2, 0), A.nbrows, true⟩
        vals := ⟨some (V.length, 0), A.browptr⟦A.nbrows⟧ * m, true⟩
        browendptr := if A.nbrows > 0 then ⟨some (B.length, 1), A.nbrows, false⟩ else {}
        nbrows := A.nbrows, nnzb := A.nnzb, nbstored := A.nbstored } := ⟨_, rfl⟩
  have ho : OverNew M A.nbrows B.length V.length A.browptr A.bcolind A.diagind A.vals := by
    rw [hM]
    refine ⟨rfl, by rw [hA.ind_len], rfl, by rw [hA.val_len], ?_, ?_, ?_, hA.ptr_len, hd⟩
    · by_cases hn : A.nbrows > 0
      · simp [hn]
      · simp [hn]; omega
    · intro hn; simp [hn]
    · by_cases hn : A.nbrows > 0 <;> simp [hn]
  have hloops := copyLoops_ok (O := O)
    (M := { browptr := ⟨some (B.length, 0), A.nbrows + 1, true⟩
            bcolind := ⟨some (B.length + 1, 0), A.browptr⟦A.nbrows⟧, true⟩
            diagind := ⟨some (B.length + 2, 0), A.nbrows, true⟩
            vals := ⟨some (V.length, 0), A.browptr⟦A.nbrows⟧ * m, true⟩, nbrows := A.nbrows }) (m := m)
    (a := (List.range (A.nbrows + 1)).map (gi 0)) (b := (List.range A.browptr⟦A.nbrows⟧).map (gi 1))
    (d := (List.range A.nbrows).map (gi 2)) (w := (List.range (A.browptr⟦A.nbrows⟧ * m)).map gv) gv hO hμ.ifreed hμ.vfreed
    hA.ptr_len hA.ind_len hA.val_len hd rfl rfl rfl rfl (by simp) (by simp) (by simp) (by simp)
  refine ⟨M, _, ?_, independent_intro hO hμ.ifreed hμ.vfreed ho ?_, ho.sound hμ.ifreed hμ.vfreed, ?_⟩
  · rw [e6] at hget
    simp only [bsrCopy, hget, ok_bind, e6, halloc, hloops, wrapEnds, AV.addr]
    by_cases hn : A.nbrows > 0
    · simp only [hn, if_true, cassert, show decide (1 < A.nbrows + 1) = true by simp; omega, ok_bind, Ptr.add, AV.wrap,
        AV.release, Bool.false_eq_true, if_false, Nat.zero_add, hM, e7, e8]
    · simp only [hn, if_false, ok_bind, hM, e7, e8]
  · rw [hM, full_tail hA]
  · have := ho.released (F := F) (G := G) (is := []) (vs := []) (by simpa using hμ.ifreed) (by simpa using hμ.vfreed)
    simpa using this

/-- The copy constructor of the scalar class. -/
theorem csr_copy_correct (gi : Nat → Nat → Nat) (gv : Nat → K) {O : MatObj} {μ : Mem K} {A : SR K} (hμ : μ.Wf)
    (hO : O.read μ = .ok A) (hA : A.Full) (hd : A.diagind.length = A.nbrows) :
    ∃ M μ', csrCopy gi gv O μ = .ok (M, μ') ∧ IndependentCopy O M A μ' ∧ M.Sound μ' ∧
      ∃ μ'', M.destroy μ' = .ok μ'' ∧ Released [] [] μ μ'' := by
  obtain ⟨M, μ', h, rest⟩ := bsr_copy_correct 1 gi gv hμ hO hA hd
  refine ⟨M, μ', ?_, rest⟩
  rw [← h]
  obtain ⟨e1, e2, e3, e4, e5, e6, e7, e8⟩ := MatObj.read_inv hO
  have l1 := (AV.get_of_read e1).1
  have l2 := (AV.get_of_read e2).1
  have l3 := (AV.get_of_read e3).1
  have l5 := (AV.get_of_read e5).1
  rw [hA.ptr_len] at l1
  rw [hA.ind_len] at l2
  rw [hA.val_len] at l3
  rw [hA.end_len] at l5
  have hget : O.browptr.get O.nbrows μ.ih = .ok A.browptr⟦A.nbrows⟧ := by
    rw [e6, get0_eq_getElem (by rw [hA.ptr_len]; omega)]
    exact (AV.get_of_read e1).2 _ (by rw [hA.ptr_len]; omega)
  have halloc : csrCopyAlloc gi gv O μ = allocArrays 1 O.nbrows A.browptr⟦A.nbrows⟧ gi gv { nbrows := O.nbrows } μ := by
    simp only [csrCopyAlloc, allocArrays, ← l1, ← l2, ← l3, e6]
  rw [e6] at hget halloc
  simp only [csrCopy, bsrCopy, hget, ok_bind, halloc, ← l5, e6]

/-- `copyRawBSRMatrix`, for every order in which its three parallel loops may run. -/
theorem copy_raw_correct (bs : Nat) (gi : Nat → Nat → Nat) (gv : Nat → K) {ord1 ord2 ord3 : List Nat} {R : RawMat}
    {μ : Mem K} {A : SR K} (hμ : μ.Wf) (hR : (R.view bs).read μ = .ok A) (hA : A.Full (bs * bs))
    (hn : A.nbstored = A.browptr⟦A.nbrows⟧) (he : R.browendptr ≠ none) (h1 : ord1.Perm (List.range A.nbstored))
    (h2 : ord2.Perm (List.range (A.nbrows + 1))) (h3 : ord3.Perm (List.range A.nbrows)) :
    ∃ N μ', copyRaw bs gi gv ord1 ord2 ord3 R μ = .ok (N, μ') ∧ IndependentCopy (R.view bs) (N.view bs) A μ' := by
  obtain ⟨⟨B, F⟩, V, G⟩ := μ
  refine ⟨_, _, copyRaw_ok gi gv hR hμ.ifreed hμ.vfreed hn h1 h2 h3 he, ?_⟩
  have hd : A.diagind.length = A.nbrows := by
    obtain ⟨-, -, -, e4, -, e6, -⟩ := MatObj.read_inv hR
    rw [(AV.get_of_read e4).1, ← e6]; rfl
  refine independent_intro (n := A.nbrows) (own := false) hR hμ.ifreed hμ.vfreed
    ⟨rfl, ?_, rfl, ?_, rfl, fun h => ?_, rfl, hA.ptr_len, hd⟩ ?_
  · simp [RawMat.view, MatObj.ofPtrs, AV.ofWrap, hA.ind_len, hn]
  · simp [RawMat.view, MatObj.ofPtrs, AV.ofWrap, hA.val_len, hn, Nat.mul_assoc]
  · simp [RawMat.view, MatObj.ofPtrs, AV.ofWrap, h]
  · rw [full_tail hA]
    rfl

/-- Destroying a copy made by `copyRawBSRMatrix` gives back everything the copy allocated, if the matrix
stores no more blocks than it has. -/
theorem copy_raw_destroy (bs : Nat) (gi : Nat → Nat → Nat) (gv : Nat → K) {ord1 ord2 ord3 : List Nat} {R N : RawMat}
    {μ μ' : Mem K} {A : SR K} (hμ : μ.Wf) (hR : (R.view bs).read μ = .ok A)
    (hn : A.nbstored = A.browptr⟦A.nbrows⟧) (he : R.browendptr ≠ none) (h1 : ord1.Perm (List.range A.nbstored))
    (h2 : ord2.Perm (List.range (A.nbrows + 1))) (h3 : ord3.Perm (List.range A.nbrows))
    (hc : copyRaw bs gi gv ord1 ord2 ord3 R μ = .ok (N, μ')) (hst : A.nnzb = A.nbstored) :
    ∃ μ'', destroyRaw N μ' = .ok μ'' ∧ Released [] [] μ μ'' := by
  obtain ⟨⟨B, F⟩, V, G⟩ := μ
  rw [copyRaw_ok gi gv hR hμ.ifreed hμ.vfreed hn h1 h2 h3 he] at hc
  injection hc with hc
  injection hc with hc1 hc2
  subst hc1 hc2
  have hF' : ∀ k, B.length + k ∉ F := fun k h => absurd (hμ.ifreed _ h) (by simp)
  have hG' : V.length ∉ G := fun h => absurd (hμ.vfreed _ h) (by simp)
  have hF0 := hF' 0
  simp only [Nat.add_zero] at hF0
  refine ⟨⟨⟨B ++ [A.browptr, A.bcolind, A.diagind], F ++ [B.length] ++ [B.length + 1] ++ [B.length + 2]⟩,
    ⟨V ++ [A.vals], G ++ [V.length]⟩⟩, ?_, ?_⟩
  · simp [destroyRaw, Heap.free, hF0, hF' 1, hF' 2, hG', hst]
  · constructor
    · intro x
      have := AV.owned_mem_freed hμ.ifreed x
      simp only [List.mem_append, List.mem_singleton, List.length_append, List.length_cons, List.length_nil] at this ⊢
      simp only [Nat.zero_add, Nat.reduceAdd, List.not_mem_nil, false_or]
      rw [← this]
      simp only [or_assoc]
      refine or_congr_right ⟨?_, ?_⟩ <;> (rintro (h | h | h) <;> simp [h])
    · intro x
      simp only [List.mem_append, List.mem_singleton, List.length_append, List.length_singleton, List.not_mem_nil, false_or]
      refine or_congr_right ?_
      omega
    · intro b hb
      exact List.getElem?_append_left hb
    · intro b hb
      exact List.getElem?_append_left hb

/-- Otherwise the destruction passes the interior pointer `browptr + 1` to `aligned_free`: undefined behaviour (the copy
of a matrix with unused storage cannot be destroyed). -/
theorem copy_raw_destroy_ub (bs : Nat) (gi : Nat → Nat → Nat) (gv : Nat → K) {ord1 ord2 ord3 : List Nat} {R N : RawMat}
    {μ μ' : Mem K} {A : SR K} (hμ : μ.Wf) (hR : (R.view bs).read μ = .ok A)
    (hn : A.nbstored = A.browptr⟦A.nbrows⟧) (he : R.browendptr ≠ none) (h1 : ord1.Perm (List.range A.nbstored))
    (h2 : ord2.Perm (List.range (A.nbrows + 1))) (h3 : ord3.Perm (List.range A.nbrows))
    (hc : copyRaw bs gi gv ord1 ord2 ord3 R μ = .ok (N, μ')) (hst : A.nnzb ≠ A.nbstored) (hpos : 0 < A.nbrows) :
    destroyRaw N μ' = .error .ub := by
  obtain ⟨⟨B, F⟩, V, G⟩ := μ
  rw [copyRaw_ok gi gv hR hμ.ifreed hμ.vfreed hn h1 h2 h3 he] at hc
  injection hc with hc
  injection hc with hc1 hc2
  subst hc1 hc2
  have hF' : ∀ k, B.length + k ∉ F := fun k h => absurd (hμ.ifreed _ h) (by simp)
  have hG' : V.length ∉ G := fun h => absurd (hμ.vfreed _ h) (by simp)
  have hF0 := hF' 0
  simp only [Nat.add_zero] at hF0
  simp [destroyRaw, Heap.free, hF0, hF' 1, hF' 2, hG', hst, hpos]

/-! ## Concrete cases -/

section Examples

/-- Two rows, three entries. -/
def exMem : Mem Int := ⟨⟨[[0, 2, 3], [0, 1, 1], [0, 2]], []⟩, ⟨[[5, 6, 7]], []⟩⟩
def exRaw : RawMat where
  browptr := some (0, 0)
  bcolind := some (1, 0)
  vals := some (0, 0)
  diagind := some (2, 0)
  browendptr := some (0, 1)
  nbrows := 2
  nnzb := 3
  nbstored := 3
def exMat : SR Int := ⟨[0, 2, 3], [0, 1, 1], [5, 6, 7], [0, 2], [2, 3], 2, 3, 3⟩

theorem exMem_wf : exMem.Wf := ⟨by simp [exMem], by simp [exMem]⟩
theorem exRaw_read : (exRaw.view 1).read exMem = .ok exMat := rfl
theorem exMat_full : exMat.Full := ⟨rfl, rfl, by decide, rfl, by decide, rfl, rfl, by decide⟩

/-- A structure is set on an object that already holds a matrix. -/
example (gi : Nat → Nat → Nat) (gv : Nat → Int) : ∃ M μ, csrOfStructure 2 [0, 1, 1] [0, 2, 3] gi gv exMem = .ok (M, μ) ∧
    ∃ M' μ' A, setStructure 1 3 [2, 0, 1, 2] [0, 1, 1, 4] gi gv M μ = .ok (M', μ') ∧ M'.read μ' = .ok A ∧
      HasStructure 3 1 [0, 1, 1, 4] [2, 0, 1, 2] A := by
  obtain ⟨M, μ, A, e, -, -, hs, -⟩ := csr_of_structure_correct 2 [0, 2, 3] [0, 1, 1] gi gv exMem_wf (by decide) (by decide)
    (by decide)
  obtain ⟨M', μ', A', e', hr, h, -⟩ := set_structure_correct 1 3 [0, 1, 1, 4] [2, 0, 1, 2] gi gv hs (by decide) (by decide)
    (by decide) (Or.inl (by decide))
  exact ⟨M, μ, e, M', μ', A', e', hr, h⟩

example (gi : Nat → Nat → Nat) (gv : Nat → Int) : ¬ ∃ M' μ' A, bsrOfStructure 4 2 [0, 1, 1] [0, 2, 3] gi gv exMem =
    .ok (M', μ') ∧ M'.read μ' = .ok A ∧ HasStructure 2 4 [0, 2, 3] [0, 1, 1] A :=
  bsr_of_structure_wrong 4 2 [0, 2, 3] [0, 1, 1] gi gv exMem_wf (by decide) (by decide) (by decide)

example : ∃ M, bsrOfArrays 1 2 (some (0, 0)) (some (1, 0)) (some (0, 0)) (some (2, 0)) exMem = .ok M ∧
    M.read exMem = .ok exMat ∧ M.destroy exMem = .ok exMem :=
  bsr_of_arrays_correct 1 2 _ _ _ _ (p := [0, 2, 3]) (c := [0, 1, 1]) (v := [5, 6, 7]) (d := [0, 2]) rfl rfl rfl rfl

example : csrOfArrays 2 (some (0, 0)) (some (1, 0)) (some (0, 0)) (some (2, 0)) exMem = .error .ub :=
  csr_of_arrays_ub 2 0 _ _ _ rfl rfl

example : ∃ M, bsrOfRaw 1 exRaw exMem = .ok (M, {}, exMem) ∧
    M.read exMem = .ok { exMat with browptr := [0, 2] } ∧
      ∃ μ', M.destroy exMem = .ok μ' ∧ Released [0, 1, 2] [0] exMem μ' :=
  bsr_of_raw_partial 1 exRaw rfl rfl rfl rfl (by decide) (by decide) (by decide) (fun _ => rfl) exRaw_read

example : ∃ M, csrOfRaw exRaw exMem = .ok (M, {}) ∧ M.read exMem = .ok exMat ∧ M.destroy exMem = .ok exMem ∧
    destroyRaw {} exMem = .ok exMem :=
  csr_of_raw_leaks exRaw rfl rfl exRaw_read rfl

example : ∃ N, (exRaw.view 1).shareWithConst 1 = .ok N ∧ N.read exMem = .ok exMat ∧ N.destroy exMem = .ok exMem :=
  share_with_const_correct 1 exRaw_read (by decide) rfl rfl rfl rfl rfl (by decide) (by decide)

example (gi : Nat → Nat → Nat) (gv : Nat → Int) : ∃ M μ', bsrCopy 1 gi gv (exRaw.view 1) exMem = .ok (M, μ') ∧
    IndependentCopy (exRaw.view 1) M exMat μ' := by
  obtain ⟨M, μ', e, h, -⟩ := bsr_copy_correct 1 gi gv exMem_wf exRaw_read exMat_full rfl
  exact ⟨M, μ', e, h⟩

/-- A write through the original that happens: the first value becomes 9. -/
example : Writes (exRaw.view 1).indexViews [(exRaw.view 1).vals] exMem { exMem with vh := ⟨[[9, 6, 7]], []⟩ } :=
  .value (i := 0) (x := 9) .refl (List.mem_singleton.2 rfl) rfl

example (gi : Nat → Nat → Nat) (gv : Nat → Int) : ∃ N μ', copyRaw 1 gi gv [1, 0, 2] [2, 0, 1] [0, 1] exRaw exMem =
    .ok (N, μ') ∧ IndependentCopy (exRaw.view 1) (N.view 1) exMat μ' :=
  copy_raw_correct 1 gi gv exMem_wf exRaw_read exMat_full rfl (by simp [exRaw]) (by decide) (by decide) (by decide)

end Examples

end Blasted
