import Verif.Heap.MatModel
import Verif.Base.Sweep

/-!
# Lemmas on matrix objects in memory
-/

namespace Blasted

variable {K β : Type}

/-! ### Memory that has grown by some blocks -/

theorem load_new {B ls : List (List β)} {F : List Nat} {k o i : Nat} {blk : List β} (hk : ls[k]? = some blk)
    (hF : B.length + k ∉ F) : Heap.load ⟨B ++ ls, F⟩ (some (B.length + k, o)) i = rd blk (o + i) := by
  simp [Heap.load, hF, rd, List.getElem?_append, hk]

theorem store_new {B ls : List (List β)} {F : List Nat} {k i : Nat} {v : β} {blk : List β} (hk : ls[k]? = some blk)
    (hF : B.length + k ∉ F) (hi : i < blk.length) :
    Heap.store ⟨B ++ ls, F⟩ (some (B.length + k, 0)) i v = .ok ⟨B ++ ls.set k (blk.set i v), F⟩ := by
  obtain ⟨hk', rfl⟩ := List.getElem?_eq_some_iff.1 hk
  simp [Heap.store, hF, rd, wr, hi, hk']

theorem load_old {B ls : List (List β)} {F : List Nat} {p : Ptr} {i : Nat} {x : β}
    (h : Heap.load ⟨B, F⟩ p i = .ok x) : Heap.load ⟨B ++ ls, F⟩ p i = .ok x := by
  cases p with
  | none => simp [Heap.load] at h
  | some p =>
    obtain ⟨b, o⟩ := p
    simp only [Heap.load] at h ⊢
    split
    · rename_i hb; rw [if_pos hb] at h; simp at h
    · rename_i hb
      rw [if_neg hb] at h
      have hlt : b < B.length := by
        by_contra hn
        rw [rd_ub (by omega)] at h
        simp at h
      have : rd (B ++ ls) b = rd B b := by simp [rd, List.getElem?_append_left hlt]
      rw [this]
      exact h

theorem getElem?_set_eq' {α : Type} {l : List α} {k : Nat} {x y : α} (hk : l[k]? = some y) :
    (l.set k x)[k]? = some x := by
  have := (List.getElem?_eq_some_iff.1 hk).1
  simp [this]

theorem set_self {α : Type} {l : List α} {k : Nat} {x : α} (hk : l[k]? = some x) : l.set k x = l := by
  obtain ⟨h, rfl⟩ := List.getElem?_eq_some_iff.1 hk
  exact List.set_getElem_self h

/-- A loop, sequential or parallel, that sets every element of a new block. -/
theorem fill_ok {B ls : List (List β)} {F : List Nat} {k cnt : Nat} {blk : List β} {ord : List Nat}
    {body : Nat → Heap β → C (Heap β)} (src : Nat → β) (hk : ls[k]? = some blk) (hlen : blk.length = cnt)
    (hord : ord.Perm (List.range cnt))
    (hbody : ∀ i < cnt, ∀ l' : List β, l'.length = cnt →
      body i ⟨B ++ ls.set k l', F⟩ = .ok ⟨B ++ ls.set k (l'.set i (src i)), F⟩) :
    forList ord body ⟨B ++ ls, F⟩ = .ok ⟨B ++ ls.set k ((List.range cnt).map src), F⟩ := by
  have key := forList_ok (l := ord) (body := body) (s := ⟨B ++ ls, F⟩)
    (fun done h => ∃ l' : List β, l'.length = cnt ∧ h = ⟨B ++ ls.set k l', F⟩ ∧
      ∀ i ∈ done, l'[i]? = some (src i))
    ⟨blk, hlen, by rw [set_self hk], by simp⟩ ?_
  · obtain ⟨h', e, l', hl', rfl, hall⟩ := key
    rw [e]
    congr 5
    apply List.ext_getElem?
    intro i
    by_cases hi : i < cnt
    · rw [hall i (hord.mem_iff.2 (List.mem_range.2 hi))]
      simp [hi]
    · rw [List.getElem?_eq_none (by omega), List.getElem?_eq_none (by simp; omega)]
  · rintro done i rest _ hsp ⟨l', hl', rfl, hall⟩
    have hi : i < cnt := List.mem_range.1 (hord.mem_iff.1 (by rw [hsp]; simp))
    refine ⟨_, hbody i hi l' hl', l'.set i (src i), by simpa using hl', rfl, fun j hj => ?_⟩
    rw [List.getElem?_set]
    by_cases hij : i = j
    · subst hij; simp [hl', hi]
    · rw [if_neg hij]
      rcases List.mem_append.1 hj with h | h
      · exact hall j h
      · simp at h; exact absurd h.symm hij

theorem fill_range {B ls : List (List β)} {F : List Nat} {k cnt : Nat} {blk : List β}
    {body : Nat → Heap β → C (Heap β)} (src : Nat → β) (hk : ls[k]? = some blk) (hlen : blk.length = cnt)
    (hbody : ∀ i < cnt, ∀ l' : List β, l'.length = cnt →
      body i ⟨B ++ ls.set k l', F⟩ = .ok ⟨B ++ ls.set k (l'.set i (src i)), F⟩) :
    forRange 0 cnt body ⟨B ++ ls, F⟩ = .ok ⟨B ++ ls.set k ((List.range cnt).map src), F⟩ := by
  refine fill_ok src hk hlen ?_ hbody
  rw [Nat.sub_zero, ← List.range_eq_range']

/-- The part of a block filled by the inner loop over the scalars of entry `i`. -/
theorem fill_part {V vs : List (List β)} {G : List Nat} {k m i : Nat} {w : List β}
    {body : Nat → Heap β → C (Heap β)} (src : Nat → β) (hk : vs[k]? = some w)
    (hbody : ∀ j < m, ∀ w' : List β, w'.length = w.length →
      body j ⟨V ++ vs.set k w', G⟩ = .ok ⟨V ++ vs.set k (w'.set (i * m + j) (src (i * m + j))), G⟩)
    (hfit : (i + 1) * m ≤ w.length) :
    ∃ w' : List β, forRange 0 m body ⟨V ++ vs, G⟩ = .ok ⟨V ++ vs.set k w', G⟩ ∧ w'.length = w.length ∧
      ∀ p, w'[p]? = if i * m ≤ p ∧ p < (i + 1) * m then some (src p) else w[p]? := by
  have hm : (i + 1) * m = i * m + m := by rw [Nat.add_mul, Nat.one_mul]
  obtain ⟨h, e, w', hw, rfl, hp⟩ := forRange_ok (lo := 0) (hi := m) (body := body) (s := ⟨V ++ vs, G⟩)
    (fun t h => ∃ w' : List β, w'.length = w.length ∧ h = ⟨V ++ vs.set k w', G⟩ ∧
      ∀ p, w'[p]? = if i * m ≤ p ∧ p < i * m + t then some (src p) else w[p]?) (Nat.zero_le _)
    ⟨w, rfl, by rw [set_self hk], fun p => by rw [if_neg (by omega)]⟩
    (by
      rintro j _ _ hj ⟨w', hw, rfl, hp⟩
      refine ⟨_, hbody j hj w' hw, _, by simpa using hw, rfl, fun p => ?_⟩
      rw [List.getElem?_set]
      by_cases h : i * m + j = p
      · subst h
        rw [if_pos rfl, if_pos (by rw [hw]; omega), if_pos (by omega)]
      · rw [if_neg h, hp p]
        by_cases h2 : i * m ≤ p ∧ p < i * m + j
        · rw [if_pos h2, if_pos (by omega)]
        · rw [if_neg h2, if_neg (by omega)])
  exact ⟨w', e, hw, by simpa only [hm] using hp⟩

/-- A loop, sequential or parallel, over the entries, that sets an index and `m` scalars for each. -/
theorem fill_entries {B ls : List (List Nat)} {F : List Nat} {V vs : List (List K)} {G : List Nat}
    {k kv cnt m : Nat} {blk : List Nat} {w : List K} {ord : List Nat} {body : Nat → Mem K → C (Mem K)}
    (c : Nat → Nat) (v : Nat → K) (hk : ls[k]? = some blk) (hlen : blk.length = cnt) (hkv : vs[kv]? = some w)
    (hwlen : w.length = cnt * m) (hord : ord.Perm (List.range cnt))
    (hbody : ∀ i < cnt, ∀ (l' : List Nat) (w' : List K), l'.length = cnt → w'.length = cnt * m →
      ∃ w'' : List K, body i ⟨⟨B ++ ls.set k l', F⟩, ⟨V ++ vs.set kv w', G⟩⟩ =
          .ok ⟨⟨B ++ ls.set k (l'.set i (c i)), F⟩, ⟨V ++ vs.set kv w'', G⟩⟩ ∧ w''.length = cnt * m ∧
        ∀ p, w''[p]? = if i * m ≤ p ∧ p < (i + 1) * m then some (v p) else w'[p]?) :
    forList ord body ⟨⟨B ++ ls, F⟩, ⟨V ++ vs, G⟩⟩ =
      .ok ⟨⟨B ++ ls.set k ((List.range cnt).map c), F⟩, ⟨V ++ vs.set kv ((List.range (cnt * m)).map v), G⟩⟩ := by
  have key := forList_ok (l := ord) (body := body) (s := (⟨⟨B ++ ls, F⟩, ⟨V ++ vs, G⟩⟩ : Mem K))
    (fun done (h : Mem K) => ∃ (l' : List Nat) (w' : List K), l'.length = cnt ∧ w'.length = cnt * m ∧
      h = ⟨⟨B ++ ls.set k l', F⟩, ⟨V ++ vs.set kv w', G⟩⟩ ∧ (∀ i ∈ done, l'[i]? = some (c i)) ∧
      ∀ i ∈ done, ∀ p, i * m ≤ p → p < (i + 1) * m → w'[p]? = some (v p))
    ⟨blk, w, hlen, hwlen, by rw [set_self hk, set_self hkv], by simp, by simp⟩ ?_
  · obtain ⟨h', e, l', w', hl', hw', rfl, hall, hallw⟩ := key
    rw [e]
    have e1 : l' = (List.range cnt).map c := by
      apply List.ext_getElem?
      intro i
      by_cases hi : i < cnt
      · rw [hall i (hord.mem_iff.2 (List.mem_range.2 hi))]
        simp [hi]
      · rw [List.getElem?_eq_none (by omega), List.getElem?_eq_none (by simp; omega)]
    have e2 : w' = (List.range (cnt * m)).map v := by
      apply List.ext_getElem?
      intro p
      by_cases hp : p < cnt * m
      · have hm : 0 < m := by
          rcases Nat.eq_zero_or_pos m with h | h
          · subst h; simp at hp
          · exact h
        have hi : p / m < cnt := Nat.div_lt_of_lt_mul (by rw [Nat.mul_comm]; exact hp)
        rw [hallw (p / m) (hord.mem_iff.2 (List.mem_range.2 hi)) p (Nat.div_mul_le_self p m)
          (by rw [Nat.add_mul, Nat.one_mul]; exact Nat.lt_div_mul_add hm)]
        simp [hp]
      · rw [List.getElem?_eq_none (by omega), List.getElem?_eq_none (by simp; omega)]
    rw [e1, e2]
  · rintro done i rest _ hsp ⟨l', w', hl', hw', rfl, hall, hallw⟩
    have hi : i < cnt := List.mem_range.1 (hord.mem_iff.1 (by rw [hsp]; simp))
    obtain ⟨w'', e, hw'', hp⟩ := hbody i hi l' w' hl' hw'
    refine ⟨_, e, l'.set i (c i), w'', by simpa using hl', hw'', rfl, fun j hj => ?_, fun j hj p h1 h2 => ?_⟩
    · rw [List.getElem?_set]
      by_cases hij : i = j
      · subst hij; simp [hl', hi]
      · rw [if_neg hij]
        rcases List.mem_append.1 hj with h | h
        · exact hall j h
        · simp at h; exact absurd h.symm hij
    · rw [hp p]
      by_cases hin : i * m ≤ p ∧ p < (i + 1) * m
      · rw [if_pos hin]
      · rw [if_neg hin]
        rcases List.mem_append.1 hj with h | h
        · exact hallw j h p h1 h2
        · simp at h; subst h; exact absurd ⟨h1, h2⟩ hin

/-! ### Releasing views -/

/-- A view that is an owner points to the start of a block that is allocated and not freed. -/
def AV.Live (v : AV) (h : Heap β) : Prop :=
  v.owner = true → ∀ b o, v.data = some (b, o) → o = 0 ∧ b < h.blocks.length ∧ b ∉ h.freed

/-- The block a view owns. -/
def AV.owned (a : AV) : List Nat :=
  if a.owner then (match a.data with | some (b, _) => [b] | none => []) else []

theorem AV.Live.release {v : AV} {h : Heap β} (hv : v.Live h) :
    v.release h = .ok ⟨h.blocks, h.freed ++ v.owned⟩ := by
  rcases v with ⟨d, l, o⟩
  cases o with
  | false => simp [AV.release, AV.owned]
  | true =>
    cases d with
    | none => simp [AV.release, AV.owned, Heap.free]
    | some p =>
      obtain ⟨b, o⟩ := p
      obtain ⟨rfl, h2, h3⟩ := hv rfl b o rfl
      simp [AV.release, AV.owned, Heap.free, h2, h3]

theorem AV.Live.grow {v : AV} {B ls : List (List β)} {F F' : List Nat} (hv : v.Live ⟨B, F⟩)
    (hd : ∀ b ∈ v.owned, b ∉ F') : v.Live ⟨B ++ ls, F ++ F'⟩ := by
  intro ho b o hb
  obtain ⟨h1, h2, h3⟩ := hv ho b o hb
  simp only at h2 h3
  refine ⟨h1, by simp; omega, ?_⟩
  simp only [List.mem_append, not_or]
  exact ⟨h3, hd b (by simp [AV.owned, ho, hb])⟩

/-- The arrays of a matrix object are separate live blocks (or nothing), the row-end view owns nothing, and
only blocks that were allocated have been freed. -/
structure MatObj.Sound (M : MatObj) (μ : Mem K) : Prop where
  browptr : M.browptr.Live μ.ih
  bcolind : M.bcolind.Live μ.ih
  diagind : M.diagind.Live μ.ih
  vals : M.vals.Live μ.vh
  sep : (M.browptr.owned ++ M.bcolind.owned ++ M.diagind.owned).Nodup
  ends : M.browendptr.owner = false
  ifreed : ∀ b ∈ μ.ih.freed, b < μ.ih.blocks.length
  vfreed : ∀ b ∈ μ.vh.freed, b < μ.vh.blocks.length

/-- Only blocks that were allocated have been freed. -/
structure Mem.Wf (μ : Mem K) : Prop where
  ifreed : ∀ b ∈ μ.ih.freed, b < μ.ih.blocks.length
  vfreed : ∀ b ∈ μ.vh.freed, b < μ.vh.blocks.length

theorem MatObj.Sound.default {μ : Mem K} (h : μ.Wf) (n a b : Nat) :
    MatObj.Sound { nbrows := n, nnzb := a, nbstored := b } μ := by
  refine ⟨?_, ?_, ?_, ?_, ?_, rfl, h.ifreed, h.vfreed⟩
  all_goals first | (intro h; simp at h) | simp [AV.owned]

theorem AV.Live.owned_lt {v : AV} {h : Heap β} (hv : v.Live h) : ∀ b ∈ v.owned, b < h.blocks.length := by
  rcases v with ⟨d, l, o⟩
  cases o with
  | false => simp [AV.owned]
  | true =>
    cases d with
    | none => simp [AV.owned]
    | some p =>
      obtain ⟨b, o⟩ := p
      obtain ⟨rfl, h2, h3⟩ := hv rfl b o rfl
      simp [AV.owned, h2]

theorem allocArrays_eq {M : MatObj} {μ : Mem K} (h : M.Sound μ) (m n nnz : Nat) (gi : Nat → Nat → Nat) (gv : Nat → K) :
    allocArrays m n nnz gi gv M μ = .ok
      ({ M with browptr := ⟨some (μ.ih.blocks.length, 0), n + 1, true⟩
                bcolind := ⟨some (μ.ih.blocks.length + 1, 0), nnz, true⟩
                diagind := ⟨some (μ.ih.blocks.length + 2, 0), n, true⟩
                vals := ⟨some (μ.vh.blocks.length, 0), nnz * m, true⟩ },
       ⟨⟨μ.ih.blocks ++ [(List.range (n + 1)).map (gi 0), (List.range nnz).map (gi 1), (List.range n).map (gi 2)],
          μ.ih.freed ++ (M.browptr.owned ++ M.bcolind.owned ++ M.diagind.owned)⟩,
        ⟨μ.vh.blocks ++ [(List.range (nnz * m)).map gv], μ.vh.freed ++ M.vals.owned⟩⟩) := by
  obtain ⟨⟨B, F⟩, V, G⟩ := μ
  have hs := h.sep
  rw [List.append_assoc, List.nodup_append] at hs
  obtain ⟨s1, s2, s3⟩ := hs
  rw [List.nodup_append] at s2
  obtain ⟨s4, s5, s6⟩ := s2
  have e1 := h.browptr.release
  have e2 := (h.bcolind.grow (ls := [(List.range (n + 1)).map (gi 0)]) (F' := M.browptr.owned)
    (fun b hb hb' => s3 b hb' b (List.mem_append_left _ hb) rfl)).release
  have e3 := (h.diagind.grow (ls := [(List.range (n + 1)).map (gi 0), (List.range nnz).map (gi 1)])
    (F' := M.browptr.owned ++ M.bcolind.owned) (fun b hb hb' => by
      rcases List.mem_append.1 hb' with h1 | h1
      · exact s3 b h1 b (List.mem_append_right _ hb) rfl
      · exact s6 b h1 b hb rfl)).release
  have e4 := h.vals.release
  simp only at e1 e2 e3 e4
  simp only [allocArrays, AV.resize, Heap.alloc, e1, ok_bind, e2, e4, List.append_assoc, List.cons_append,
    List.nil_append, List.length_append, List.length_singleton] at e3 ⊢
  rw [e3]
  simp

theorem AV.get_eq {v : AV} {h : Heap β} {i : Nat} (hi : i < v.len) : v.get i h = h.load v.data i := by
  simp [AV.get, cassert, hi]

theorem AV.set_eq {v : AV} {h : Heap β} {i : Nat} {x : β} (hi : i < v.len) : v.set i x h = h.store v.data i x := by
  simp [AV.set, cassert, hi]

theorem AV.get_load {v : AV} {h : Heap β} {i : Nat} {x : β} (e : v.get i h = .ok x) :
    i < v.len ∧ h.load v.data i = .ok x := by
  by_cases hi : i < v.len
  · exact ⟨hi, by rw [← AV.get_eq hi]; exact e⟩
  · simp [AV.get, cassert, hi] at e

/-! ### The diagonal positions -/

/-- `j` is the first position of row `i` whose column is `i`. -/
def FirstDiag (p c : List Nat) (i j : Nat) : Prop :=
  p⟦i⟧ ≤ j ∧ j < p⟦i + 1⟧ ∧ c⟦j⟧ = i ∧ ∀ k, p⟦i⟧ ≤ k → k < j → c⟦k⟧ ≠ i

theorem findDiagRow_ok {M : MatObj} {B : List (List Nat)} {F : List Nat} {n nnz irow : Nat} {p c d : List Nat}
    (h0 : M.browptr = ⟨some (B.length, 0), n + 1, true⟩) (h1 : M.bcolind = ⟨some (B.length + 1, 0), nnz, true⟩)
    (h2 : M.diagind = ⟨some (B.length + 2, 0), n, true⟩) (hF : ∀ b ∈ F, b < B.length) (hp : p.length = n + 1)
    (hc : c.length = nnz) (hd : d.length = n) (hi : irow < n) (hhi : p⟦irow + 1⟧ ≤ nnz) (hmono : p⟦irow⟧ ≤ p⟦irow + 1⟧) :
    ∃ d', findDiagRow M irow ⟨B ++ [p, c, d], F⟩ = .ok ⟨B ++ [p, c, d'], F⟩ ∧ d'.length = n ∧
      (∀ j, FirstDiag p c irow j → d' = d.set irow j) ∧
      ((∀ j, p⟦irow⟧ ≤ j → j < p⟦irow + 1⟧ → c⟦j⟧ ≠ irow) → d' = d) := by
  have hF0 : B.length ∉ F := fun h => absurd (hF _ h) (by omega)
  have hF1 : B.length + 1 ∉ F := fun h => absurd (hF _ h) (by omega)
  have hF2 : B.length + 2 ∉ F := fun h => absurd (hF _ h) (by omega)
  have g0 : ∀ d : List Nat, ∀ i < n + 1, M.browptr.get i ⟨B ++ [p, c, d], F⟩ = .ok p⟦i⟧ := by
    intro d i hi
    rw [AV.get_eq (by rw [h0]; exact hi), h0]
    have := load_new (B := B) (ls := [p, c, d]) (F := F) (k := 0) (o := 0) (i := i) (blk := p) rfl hF0
    simp only [Nat.add_zero, Nat.zero_add] at this
    rw [this, rd_eq (by omega)]
  have g1 : ∀ d : List Nat, ∀ i < nnz, M.bcolind.get i ⟨B ++ [p, c, d], F⟩ = .ok c⟦i⟧ := by
    intro d i hi
    rw [AV.get_eq (by rw [h1]; exact hi), h1]
    have := load_new (B := B) (ls := [p, c, d]) (F := F) (k := 1) (o := 0) (i := i) (blk := c) rfl hF1
    simp only [Nat.zero_add] at this
    rw [this, rd_eq (by omega)]
  have g2 : ∀ d : List Nat, d.length = n → ∀ x, M.diagind.set irow x ⟨B ++ [p, c, d], F⟩ =
      .ok ⟨B ++ [p, c, d.set irow x], F⟩ := by
    intro d hd x
    rw [AV.set_eq (by rw [h2]; exact hi), h2]
    exact store_new (B := B) (ls := [p, c, d]) (F := F) (k := 2) (blk := d) rfl hF2 (by omega)
  obtain ⟨r, e, hr⟩ := forRange_ok (lo := p⟦irow⟧) (hi := p⟦irow + 1⟧)
    (body := fun j (s : Bool × Heap Nat) =>
      if s.1 then .ok s else do
        let c ← M.bcolind.get j s.2
        if c = irow then do
          let h ← M.diagind.set irow j s.2
          .ok (true, h)
        else .ok s) (s := (false, ⟨B ++ [p, c, d], F⟩))
    (fun t (s : Bool × Heap Nat) => (s = (false, ⟨B ++ [p, c, d], F⟩) ∧ ∀ k, p⟦irow⟧ ≤ k → k < t → c⟦k⟧ ≠ irow) ∨
      ∃ j, j < t ∧ FirstDiag p c irow j ∧ s = (true, ⟨B ++ [p, c, d.set irow j], F⟩))
    hmono (Or.inl ⟨rfl, fun k h1 h2 => by omega⟩)
    (by
      rintro t s hlo hhi' (⟨rfl, hn⟩ | ⟨j, hj, hfd, rfl⟩)
      · simp only [Bool.false_eq_true, if_false]
        rw [g1 d t (by omega), ok_bind]
        by_cases hct : c⟦t⟧ = irow
        · rw [if_pos hct, g2 d hd, ok_bind]
          exact Ok.pure (Or.inr ⟨t, by omega, ⟨hlo, hhi', hct, hn⟩, rfl⟩)
        · rw [if_neg hct]
          refine Ok.pure (Or.inl ⟨rfl, fun k h1 h2 => ?_⟩)
          by_cases hkt : k = t
          · subst hkt; exact hct
          · exact hn k h1 (by omega)
      · simp only [if_true]
        exact Ok.pure (Or.inr ⟨j, by omega, hfd, rfl⟩))
  have huniq : ∀ j j', FirstDiag p c irow j → FirstDiag p c irow j' → j = j' := by
    rintro j j' ⟨a1, a2, a3, a4⟩ ⟨b1, b2, b3, b4⟩
    rcases Nat.lt_trichotomy j j' with h | h | h
    · exact absurd a3 (b4 j a1 h)
    · exact h
    · exact absurd b3 (a4 j' b1 h)
  rcases hr with ⟨rfl, hn⟩ | ⟨j, hj, hfd, rfl⟩
  · refine ⟨d, ?_, hd, fun j hj => absurd hj.2.2.1 (hn j hj.1 hj.2.1), fun _ => rfl⟩
    simp only [findDiagRow, g0 d irow (by omega), g0 d (irow + 1) (by omega), ok_bind, e]
  · refine ⟨d.set irow j, ?_, by simpa using hd, fun j' hj' => by rw [huniq j j' hfd hj'], fun hn => ?_⟩
    · simp only [findDiagRow, g0 d irow (by omega), g0 d (irow + 1) (by omega), ok_bind, e]
    · exact absurd hfd.2.2.1 (hn j hfd.1 hfd.2.1)

/-! ### Reading -/

/-- The contents of a view, element by element through `operator[]`. -/
def AV.read (v : AV) (h : Heap β) : C (List β) :=
  forRange 0 v.len (fun i l => do
    let x ← v.get i h
    .ok (l ++ [x])) []

/-- The matrix an object holds, read through its five views. -/
def MatObj.read (M : MatObj) (μ : Mem K) : C (SR K) := do
  let p ← M.browptr.read μ.ih
  let c ← M.bcolind.read μ.ih
  let v ← M.vals.read μ.vh
  let d ← M.diagind.read μ.ih
  let e ← M.browendptr.read μ.ih
  .ok ⟨p, c, v, d, e, M.nbrows, M.nnzb, M.nbstored⟩

theorem AV.read_of_get {v : AV} {h : Heap β} {l : List β} (hl : l.length = v.len)
    (hg : ∀ i (hi : i < l.length), v.get i h = .ok l[i]) : v.read h = .ok l := by
  have key := forRange_ok (lo := 0) (hi := v.len) (s := ([] : List β))
    (body := fun i l => do
      let x ← v.get i h
      .ok (l ++ [x])) (fun t (r : List β) => r = l.take t) (Nat.zero_le _) (by simp)
    (by
      rintro t r _ ht rfl
      rw [hg t (by omega), ok_bind]
      refine Ok.pure ?_
      rw [List.take_add_one, List.getElem?_eq_getElem (by omega)]
      rfl)
  obtain ⟨r, e, hr⟩ := key
  rw [AV.read, e, hr, ← hl, List.take_length]

theorem AV.get_of_read {v : AV} {h : Heap β} {l : List β} (e : v.read h = .ok l) :
    l.length = v.len ∧ ∀ i (hi : i < l.length), v.get i h = .ok l[i] := by
  have gen : ∀ (n : Nat) (r : List β), forRange 0 n (fun i l => do
      let x ← v.get i h
      .ok (l ++ [x])) [] = .ok r → r.length = n ∧ ∀ i (hi : i < r.length), v.get i h = .ok r[i] := by
    intro n
    induction n with
    | zero =>
      intro r hr
      rw [forRange_self] at hr
      injection hr with hr
      subst hr
      exact ⟨rfl, fun i hi => by simp at hi⟩
    | succ n ih =>
      intro r hr
      rw [forRange_succ_right (Nat.zero_le _)] at hr
      cases hq : forRange 0 n (fun i l => do
        let x ← v.get i h
        .ok (l ++ [x])) [] with
      | error e => rw [hq, error_bind] at hr; simp at hr
      | ok q =>
        rw [hq, ok_bind] at hr
        obtain ⟨h1, h2⟩ := ih q hq
        cases hx : v.get n h with
        | error e => rw [hx, error_bind] at hr; simp at hr
        | ok x =>
          rw [hx, ok_bind] at hr
          injection hr with hr
          subst hr
          refine ⟨by simp [h1], fun i hi => ?_⟩
          by_cases hin : i < q.length
          · rw [List.getElem_append_left hin]; exact h2 i hin
          · have : i = n := by simp at hi; omega
            subst this
            rw [hx]
            simp [h1]
  exact gen v.len l e

theorem AV.read_new {B ls : List (List β)} {F : List Nat} {v : AV} {k o : Nat} {blk : List β} (hk : ls[k]? = some blk)
    (hF : B.length + k ∉ F) (hv : v.data = some (B.length + k, o)) (hlen : o + v.len ≤ blk.length) :
    v.read ⟨B ++ ls, F⟩ = .ok ((blk.drop o).take v.len) := by
  refine AV.read_of_get (by simp; omega) (fun i hi => ?_)
  have hi' : i < v.len := by simp at hi; omega
  rw [AV.get_eq hi', hv, load_new hk hF]
  simp only [List.getElem_take, List.getElem_drop]
  simp [rd, show o + i < blk.length by omega]

theorem AV.read_old {B ls : List (List β)} {F : List Nat} {v : AV} {l : List β} (e : v.read ⟨B, F⟩ = .ok l) :
    v.read ⟨B ++ ls, F⟩ = .ok l := by
  obtain ⟨h1, h2⟩ := AV.get_of_read e
  refine AV.read_of_get h1 (fun i hi => ?_)
  obtain ⟨h3, h4⟩ := AV.get_load (h2 i hi)
  rw [AV.get_eq h3, load_old h4]

theorem MatObj.read_inv {M : MatObj} {μ : Mem K} {A : SR K} (h : M.read μ = .ok A) :
    M.browptr.read μ.ih = .ok A.browptr ∧ M.bcolind.read μ.ih = .ok A.bcolind ∧ M.vals.read μ.vh = .ok A.vals ∧
      M.diagind.read μ.ih = .ok A.diagind ∧ M.browendptr.read μ.ih = .ok A.browendptr ∧ M.nbrows = A.nbrows ∧
      M.nnzb = A.nnzb ∧ M.nbstored = A.nbstored := by
  unfold MatObj.read at h
  cases h1 : M.browptr.read μ.ih with
  | error e => rw [h1, error_bind] at h; simp at h
  | ok p =>
    rw [h1, ok_bind] at h
    cases h2 : M.bcolind.read μ.ih with
    | error e => rw [h2, error_bind] at h; simp at h
    | ok c =>
      rw [h2, ok_bind] at h
      cases h3 : M.vals.read μ.vh with
      | error e => rw [h3, error_bind] at h; simp at h
      | ok v =>
        rw [h3, ok_bind] at h
        cases h4 : M.diagind.read μ.ih with
        | error e => rw [h4, error_bind] at h; simp at h
        | ok d =>
          rw [h4, ok_bind] at h
          cases h5 : M.browendptr.read μ.ih with
          | error e => rw [h5, error_bind] at h; simp at h
          | ok e =>
            rw [h5, ok_bind] at h
            injection h with h
            subst h
            exact ⟨rfl, rfl, rfl, rfl, rfl, rfl, rfl, rfl⟩

theorem MatObj.read_intro {M : MatObj} {μ : Mem K} {p c d e : List Nat} {v : List K}
    (h1 : M.browptr.read μ.ih = .ok p) (h2 : M.bcolind.read μ.ih = .ok c) (h3 : M.vals.read μ.vh = .ok v)
    (h4 : M.diagind.read μ.ih = .ok d) (h5 : M.browendptr.read μ.ih = .ok e) :
    M.read μ = .ok ⟨p, c, v, d, e, M.nbrows, M.nnzb, M.nbstored⟩ := by
  simp only [MatObj.read, h1, h2, h3, h4, h5, ok_bind]

/-! ### The structure constructors -/

theorem take_eq_map_get0 {l : List Nat} {n : Nat} (h : n ≤ l.length) :
    (List.range n).map (fun i => l⟦i⟧) = l.take n := by
  apply List.ext_getElem (by simp; omega)
  intro i h1 h2
  simp at h1
  simp [get0_eq_getElem (show i < l.length by omega)]

theorem get0_take {l : List Nat} {n i : Nat} (h : n ≤ l.length) (hi : i < n) : (l.take n)⟦i⟧ = l⟦i⟧ := by
  rw [get0_eq_getElem (by simp; omega), get0_eq_getElem (by omega)]
  simp

/-- The memory and the object after `fillStructure`. -/
theorem fillStructure_ok {M : MatObj} {μ : Mem K} (hM : M.Sound μ) (m n : Nat) {c p : List Nat} (gi : Nat → Nat → Nat)
    (gv : Nat → K) (hp : n < p.length) (hmono : ∀ i < n, p⟦i⟧ ≤ p⟦i + 1⟧) (hc : p⟦n⟧ ≤ c.length) :
    ∃ d : List Nat, d.length = n ∧ (∀ i < n, ∀ j, FirstDiag p c i j → d⟦i⟧ = j) ∧
      (∀ i < n, (∀ j, p⟦i⟧ ≤ j → j < p⟦i + 1⟧ → c⟦j⟧ ≠ i) → d⟦i⟧ = gi 2 i) ∧
      fillStructure m n c p gi gv M μ = .ok
        ({ M with browptr := ⟨some (μ.ih.blocks.length, 0), n + 1, true⟩
                  bcolind := ⟨some (μ.ih.blocks.length + 1, 0), p⟦n⟧, true⟩
                  diagind := ⟨some (μ.ih.blocks.length + 2, 0), n, true⟩
                  vals := ⟨some (μ.vh.blocks.length, 0), p⟦n⟧ * m, true⟩
                  browendptr := if n > 0 then ⟨some (μ.ih.blocks.length, 1), n, false⟩ else M.browendptr },
         ⟨⟨μ.ih.blocks ++ [p.take (n + 1), c.take p⟦n⟧, d],
            μ.ih.freed ++ (M.browptr.owned ++ M.bcolind.owned ++ M.diagind.owned)⟩,
          ⟨μ.vh.blocks ++ [(List.range (p⟦n⟧ * m)).map gv], μ.vh.freed ++ M.vals.owned⟩⟩) := by
  have hfr : ∀ b ∈ μ.ih.freed ++ (M.browptr.owned ++ M.bcolind.owned ++ M.diagind.owned), b < μ.ih.blocks.length := by
    intro b hb
    simp only [List.mem_append] at hb
    rcases hb with hb | (hb | hb) | hb
    · exact hM.ifreed b hb
    · exact hM.browptr.owned_lt b hb
    · exact hM.bcolind.owned_lt b hb
    · exact hM.diagind.owned_lt b hb
  have halloc := allocArrays_eq hM m n p⟦n⟧ gi gv
  generalize μ.ih.freed ++ (M.browptr.owned ++ M.bcolind.owned ++ M.diagind.owned) = F at hfr halloc ⊢
  generalize μ.vh.freed ++ M.vals.owned = G at halloc ⊢
  generalize μ.ih.blocks = B at hfr halloc ⊢
  generalize μ.vh.blocks = V at halloc ⊢
  have hF0 : B.length + 0 ∉ F := fun h => absurd (hfr _ h) (by omega)
  have hF1 : B.length + 1 ∉ F := fun h => absurd (hfr _ h) (by omega)
  have hple : ∀ i ≤ n, p⟦i⟧ ≤ p⟦n⟧ := by
    intro i hi
    have : ∀ k, i + k ≤ n → p⟦i⟧ ≤ p⟦i + k⟧ := by
      intro k
      induction k with
      | zero => intro _; exact Nat.le_refl _
      | succ k ih => intro hk; exact Nat.le_trans (ih (by omega)) (hmono (i + k) (by omega))
    have := this (n - i) (by omega)
    rwa [show i + (n - i) = n by omega] at this
  -- row pointers
  have s1 : ∀ l1 l2 : List Nat, forRange 0 (n + 1) (fun i ih => do
      let v ← rd p i
      (⟨some (B.length, 0), n + 1, true⟩ : AV).set i v ih) ⟨B ++ [(List.range (n + 1)).map (gi 0), l1, l2], F⟩ =
      .ok ⟨B ++ [p.take (n + 1), l1, l2], F⟩ := by
    intro l1 l2
    rw [fill_range (k := 0) (fun i => p⟦i⟧) (blk := (List.range (n + 1)).map (gi 0)) rfl (by simp)
      (fun i hi l' hl' => by
        rw [rd_eq (by omega), ok_bind, AV.set_eq hi]
        have := store_new (B := B) (ls := [l', l1, l2]) (F := F) (k := 0) (i := i) (v := p⟦i⟧) (blk := l') rfl hF0
          (by omega)
        simpa using this), take_eq_map_get0 (by omega)]
    rfl
  have s2 : ∀ l0 l2 : List Nat, forRange 0 p⟦n⟧ (fun i ih => do
      let v ← rd c i
      (⟨some (B.length + 1, 0), p⟦n⟧, true⟩ : AV).set i v ih) ⟨B ++ [l0, (List.range p⟦n⟧).map (gi 1), l2], F⟩ =
      .ok ⟨B ++ [l0, c.take p⟦n⟧, l2], F⟩ := by
    intro l0 l2
    rw [fill_range (k := 1) (fun i => c⟦i⟧) (blk := (List.range p⟦n⟧).map (gi 1)) rfl (by simp)
      (fun i hi l' hl' => by
        rw [rd_eq (by omega), ok_bind, AV.set_eq hi]
        have := store_new (B := B) (ls := [l0, l', l2]) (F := F) (k := 1) (i := i) (v := c⟦i⟧) (blk := l') rfl hF1
          (by omega)
        simpa using this), take_eq_map_get0 (by omega)]
    rfl
  have tp : ∀ i ≤ n, (p.take (n + 1))⟦i⟧ = p⟦i⟧ := by
    exact fun i hi => get0_take (by omega) (by omega)
  have tc : ∀ i < p⟦n⟧, (c.take p⟦n⟧)⟦i⟧ = c⟦i⟧ := by
    exact fun i hi => get0_take hc hi
  obtain ⟨h, e, d, rfl, hd, hdv, hdn⟩ := forRange_ok (lo := 0) (hi := n)
    (body := findDiagRow { M with browptr := ⟨some (B.length, 0), n + 1, true⟩
                                  bcolind := ⟨some (B.length + 1, 0), p⟦n⟧, true⟩
                                  diagind := ⟨some (B.length + 2, 0), n, true⟩
                                  vals := ⟨some (V.length, 0), p⟦n⟧ * m, true⟩ })
    (s := ⟨B ++ [p.take (n + 1), c.take p⟦n⟧, (List.range n).map (gi 2)], F⟩)
    (fun t h => ∃ d : List Nat, h = ⟨B ++ [p.take (n + 1), c.take p⟦n⟧, d], F⟩ ∧ d.length = n ∧
      (∀ i < t, ∀ j, FirstDiag p c i j → d⟦i⟧ = j) ∧
      (∀ i < n, (t ≤ i ∨ ∀ j, p⟦i⟧ ≤ j → j < p⟦i + 1⟧ → c⟦j⟧ ≠ i) → d⟦i⟧ = gi 2 i)) (Nat.zero_le _)
    ⟨_, rfl, by simp, fun i hi => by omega, fun i hi _ => by rw [get0_map_range _ hi]⟩
    (by
      rintro t _ _ ht ⟨d, rfl, hd, hdv, hdn⟩
      obtain ⟨d', e, hd', h1, h2⟩ := findDiagRow_ok (irow := t)
        (M := { M with browptr := ⟨some (B.length, 0), n + 1, true⟩
                       bcolind := ⟨some (B.length + 1, 0), p⟦n⟧, true⟩
                       diagind := ⟨some (B.length + 2, 0), n, true⟩
                       vals := ⟨some (V.length, 0), p⟦n⟧ * m, true⟩ })
        (p := p.take (n + 1)) (c := c.take p⟦n⟧) (d := d) rfl rfl rfl hfr (by simp; omega) (by simp; omega) hd ht
        (by rw [tp _ (by omega)]; exact hple _ (by omega))
        (by rw [tp _ (by omega), tp _ (by omega)]; exact hmono t ht)
      refine ⟨_, e, d', rfl, hd', ?_, ?_⟩
      · have hfd : ∀ j, FirstDiag p c t j → FirstDiag (p.take (n + 1)) (c.take p⟦n⟧) t j := by
          rintro j ⟨a1, a2, a3, a4⟩
          have := hple (t + 1) (by omega)
          refine ⟨by rw [tp _ (by omega)]; exact a1, by rw [tp _ (by omega)]; exact a2, by rw [tc _ (by omega)]; exact a3,
            fun k b1 b2 => ?_⟩
          rw [tp _ (by omega)] at b1
          rw [tc _ (by omega)]
          exact a4 k b1 b2
        have hno : (¬ ∃ j, FirstDiag p c t j) → d' = d := by
          intro hn
          refine h2 (fun j b1 b2 b3 => hn ?_)
          rw [tp _ (by omega)] at b1 b2
          have := hple (t + 1) (by omega)
          rw [tc _ (by omega)] at b3
          -- the first such position
          have hex : ∃ j, p⟦t⟧ ≤ j ∧ j < p⟦t + 1⟧ ∧ c⟦j⟧ = t := ⟨j, b1, b2, b3⟩
          classical
          refine ⟨Nat.find hex, (Nat.find_spec hex).1, (Nat.find_spec hex).2.1, (Nat.find_spec hex).2.2,
            fun k k1 k2 k3 => Nat.find_min hex k2 ⟨k1, ?_, k3⟩⟩
          have := (Nat.find_spec hex).2.1
          omega
        intro i hi j hj
        by_cases hit : i = t
        · subst hit
          rw [h1 j (hfd j hj), get0_set_self (by omega)]
        · by_cases hex : ∃ j, FirstDiag p c t j
          · obtain ⟨j', hj'⟩ := hex
            rw [h1 j' (hfd j' hj'), get0_set_ne (Ne.symm hit)]
            exact hdv i (by omega) j hj
          · rw [hno hex]
            exact hdv i (by omega) j hj
      · intro i hi hcase
        by_cases hex : ∀ j, p⟦t⟧ ≤ j → j < p⟦t + 1⟧ → c⟦j⟧ ≠ t
        · rw [h2 (fun j b1 b2 => by
            rw [tp _ (by omega)] at b1 b2
            have := hple (t + 1) (by omega)
            rw [tc _ (by omega)]
            exact hex j b1 b2)]
          refine hdn i hi ?_
          rcases hcase with h | h
          · exact Or.inl (by omega)
          · exact Or.inr h
        · have hex' : ∃ j, p⟦t⟧ ≤ j ∧ j < p⟦t + 1⟧ ∧ c⟦j⟧ = t := by
            push Not at hex
            exact hex
          have hit : i ≠ t := by
            rintro rfl
            rcases hcase with h | h
            · omega
            · exact hex h
          classical
          have hfd : FirstDiag (p.take (n + 1)) (c.take p⟦n⟧) t (Nat.find hex') := by
            have hs := Nat.find_spec hex'
            have := hple (t + 1) (by omega)
            refine ⟨by rw [tp _ (by omega)]; exact hs.1, by rw [tp _ (by omega)]; exact hs.2.1,
              by rw [tc _ (by omega)]; exact hs.2.2, fun k b1 b2 b3 => ?_⟩
            rw [tp _ (by omega)] at b1
            rw [tc _ (by omega)] at b3
            exact Nat.find_min hex' b2 ⟨b1, by omega, b3⟩
          rw [h1 _ hfd, get0_set_ne (Ne.symm hit)]
          refine hdn i hi ?_
          rcases hcase with h | h
          · exact Or.inl (by omega)
          · exact Or.inr h)
  refine ⟨d, hd, hdv, fun i hi h => hdn i hi (Or.inr h), ?_⟩
  simp only [fillStructure, rd_eq hp, ok_bind, halloc, s1, s2, e, wrapEnds, AV.addr]
  by_cases hn : n > 0
  · simp only [hn, if_true, cassert, show (decide (1 < n + 1)) = true by simp; omega, ok_bind, Ptr.add, AV.wrap, AV.release,
      hM.ends, Bool.false_eq_true, if_false, Nat.zero_add]
  · simp only [hn, if_false]

/-! ### Copies -/

theorem AV.get_old {B ls : List (List β)} {F : List Nat} {v : AV} {l : List β} (e : v.read ⟨B, F⟩ = .ok l) {i : Nat}
    (hi : i < l.length) : v.get i ⟨B ++ ls, F⟩ = .ok l[i] :=
  (AV.get_of_read (AV.read_old (ls := ls) e)).2 i hi

theorem map_range_getElem? {α : Type} {l : List α} {f : Nat → α} {n : Nat} (hn : l.length = n)
    (hf : ∀ i (hi : i < l.length), f i = l[i]) : (List.range n).map f = l := by
  apply List.ext_getElem (by simp [hn])
  intro i h1 h2
  simp [hf i h2]

theorem copyLoops_ok {O M : MatObj} {A : SR K} {B : List (List Nat)} {V : List (List K)} {F G : List Nat} {m : Nat}
    {a b d : List Nat} {w : List K} (gv : Nat → K)
    (hO : O.read ⟨⟨B, F⟩, ⟨V, G⟩⟩ = .ok A) (hF : ∀ b ∈ F, b < B.length) (hG : ∀ b ∈ G, b < V.length)
    (hp : A.browptr.length = A.nbrows + 1) (hc : A.bcolind.length = A.browptr⟦A.nbrows⟧)
    (hv : A.vals.length = A.browptr⟦A.nbrows⟧ * m) (hd : A.diagind.length = A.nbrows)
    (h0 : M.browptr = ⟨some (B.length, 0), A.nbrows + 1, true⟩)
    (h1 : M.bcolind = ⟨some (B.length + 1, 0), A.browptr⟦A.nbrows⟧, true⟩)
    (h2 : M.diagind = ⟨some (B.length + 2, 0), A.nbrows, true⟩)
    (h3 : M.vals = ⟨some (V.length, 0), A.browptr⟦A.nbrows⟧ * m, true⟩)
    (ha : a.length = A.nbrows + 1) (hb : b.length = A.browptr⟦A.nbrows⟧) (hdd : d.length = A.nbrows)
    (hw : w.length = A.browptr⟦A.nbrows⟧ * m) :
    copyLoops m O M ⟨⟨B ++ [a, b, d], F⟩, ⟨V ++ [w], G⟩⟩ =
      .ok ⟨⟨B ++ [A.browptr, A.bcolind, A.diagind], F⟩, ⟨V ++ [A.vals], G⟩⟩ := by
  obtain ⟨e1, e2, e3, e4, e5, e6, e7, e8⟩ := MatObj.read_inv hO
  have hF0 : B.length + 0 ∉ F := fun h => absurd (hF _ h) (by omega)
  have hF1 : B.length + 1 ∉ F := fun h => absurd (hF _ h) (by omega)
  have hF2 : B.length + 2 ∉ F := fun h => absurd (hF _ h) (by omega)
  have hG0 : V.length + 0 ∉ G := fun h => absurd (hG _ h) (by omega)
  have mapid : ∀ l : List Nat, (List.range l.length).map (fun i => l⟦i⟧) = l := fun l =>
    map_range_getElem? rfl (fun i hi => get0_eq_getElem hi)
  have s1 : forRange 0 (A.nbrows + 1) (fun i ih => do
      let v ← O.browptr.get i ih
      M.browptr.set i v ih) ⟨B ++ [a, b, d], F⟩ = .ok ⟨B ++ [A.browptr, b, d], F⟩ := by
    rw [fill_range (k := 0) (fun i => A.browptr⟦i⟧) (blk := a) rfl ha (fun i hi l' hl' => by
        rw [AV.get_old e1 (by omega), ok_bind, AV.set_eq (by rw [h0]; exact hi), h0, ← get0_eq_getElem (by omega)]
        have := store_new (B := B) (ls := [l', b, d]) (F := F) (k := 0) (i := i) (v := A.browptr⟦i⟧) (blk := l') rfl hF0
          (by omega)
        simpa using this)]
    rw [← hp, mapid]
    rfl
  have s2 : M.browptr.get A.nbrows ⟨B ++ [A.browptr, b, d], F⟩ = .ok A.browptr⟦A.nbrows⟧ := by
    rw [AV.get_eq (by rw [h0]; simp), h0]
    have := load_new (B := B) (ls := [A.browptr, b, d]) (F := F) (k := 0) (o := 0) (i := A.nbrows) (blk := A.browptr) rfl hF0
    simp only [Nat.add_zero, Nat.zero_add] at this
    rw [this, rd_eq (by omega)]
  have s3 : forRange 0 A.browptr⟦A.nbrows⟧ (fun i (μ : Mem K) => do
      let c ← O.bcolind.get i μ.ih
      let ih ← M.bcolind.set i c μ.ih
      let vh ← forRange 0 m (fun k vh => do
        let v ← O.vals.get (i * m + k) vh
        M.vals.set (i * m + k) v vh) μ.vh
      .ok ⟨ih, vh⟩) ⟨⟨B ++ [A.browptr, b, d], F⟩, ⟨V ++ [w], G⟩⟩ =
        .ok ⟨⟨B ++ [A.browptr, A.bcolind, d], F⟩, ⟨V ++ [A.vals], G⟩⟩ := by
    have key := fill_entries (B := B) (ls := [A.browptr, b, d]) (F := F) (V := V) (vs := [w]) (G := G) (k := 1) (kv := 0)
      (cnt := A.browptr⟦A.nbrows⟧) (m := m) (ord := List.range' 0 (A.browptr⟦A.nbrows⟧ - 0))
      (body := fun i (μ : Mem K) => do
        let c ← O.bcolind.get i μ.ih
        let ih ← M.bcolind.set i c μ.ih
        let vh ← forRange 0 m (fun k vh => do
          let v ← O.vals.get (i * m + k) vh
          M.vals.set (i * m + k) v vh) μ.vh
        .ok ⟨ih, vh⟩) (fun i => A.bcolind⟦i⟧) (fun p => if h : p < A.vals.length then A.vals[p] else gv 0) rfl hb rfl hw
      (by rw [Nat.sub_zero, ← List.range_eq_range']) (fun i hi l' w' hl' hw' => ?_)
    · rw [forRange, key, ← hv, ← hc, mapid, map_range_getElem? rfl (fun i hi => by rw [dif_pos hi])]
      rfl
    · have hle : (i + 1) * m ≤ A.browptr⟦A.nbrows⟧ * m := Nat.mul_le_mul_right m hi
      have hm : (i + 1) * m = i * m + m := by rw [Nat.add_mul, Nat.one_mul]
      obtain ⟨w'', ew, hw'', hpw⟩ := fill_part (V := V) (vs := [w']) (G := G) (k := 0) (m := m) (i := i) (w := w')
        (body := fun k vh => do
          let v ← O.vals.get (i * m + k) vh
          M.vals.set (i * m + k) v vh) (fun p => if h : p < A.vals.length then A.vals[p] else gv 0) rfl
        (fun j hj u hu => by
          rw [AV.get_old e3 (by omega), ok_bind, AV.set_eq (by rw [h3]; show _ < A.browptr⟦A.nbrows⟧ * m; omega), h3, dif_pos (by omega)]
          have := store_new (B := V) (ls := [u]) (F := G) (k := 0) (i := i * m + j)
            (v := A.vals[i * m + j]'(by omega)) (blk := u) rfl hG0 (by omega)
          simpa using this) (by omega)
      refine ⟨w'', ?_, by omega, hpw⟩
      dsimp only
      rw [AV.get_old e2 (by omega), ok_bind, AV.set_eq (by rw [h1]; exact hi), h1, ← get0_eq_getElem (by omega)]
      have := store_new (B := B) (ls := [A.browptr, l', d]) (F := F) (k := 1) (i := i) (v := A.bcolind⟦i⟧) (blk := l') rfl
        hF1 (by omega)
      simp only [List.set_cons_succ, List.set_cons_zero] at this ew ⊢
      rw [this, ok_bind, ew, ok_bind]
  have s4 : forRange 0 A.nbrows (fun i ih => do
      let v ← O.diagind.get i ih
      M.diagind.set i v ih) ⟨B ++ [A.browptr, A.bcolind, d], F⟩ = .ok ⟨B ++ [A.browptr, A.bcolind, A.diagind], F⟩ := by
    rw [fill_range (k := 2) (fun i => A.diagind⟦i⟧) (blk := d) rfl hdd (fun i hi l' hl' => by
        rw [AV.get_old e4 (by omega), ok_bind, AV.set_eq (by rw [h2]; exact hi), h2, ← get0_eq_getElem (by omega)]
        have := store_new (B := B) (ls := [A.browptr, A.bcolind, l']) (F := F) (k := 2) (i := i) (v := A.diagind⟦i⟧)
          (blk := l') rfl hF2 (by omega)
        simpa using this)]
    nth_rewrite 1 [← hd]
    rw [mapid]
    rfl
  simp only [copyLoops, e6, s1, ok_bind, s2, s3, s4]

/-- The storage object over the arrays of a raw matrix. -/
def RawMat.view (bs : Nat) (R : RawMat) : MatObj :=
  MatObj.ofPtrs R.browptr R.bcolind R.vals R.diagind R.browendptr R.nbrows R.nnzb R.nbstored bs

theorem copyRaw_ok {R : RawMat} {A : SR K} {B : List (List Nat)} {V : List (List K)} {F G : List Nat} {bs : Nat}
    (gi : Nat → Nat → Nat) (gv : Nat → K) {ord1 ord2 ord3 : List Nat}
    (hO : (R.view bs).read ⟨⟨B, F⟩, ⟨V, G⟩⟩ = .ok A) (hF : ∀ b ∈ F, b < B.length) (hG : ∀ b ∈ G, b < V.length)
    (hn : A.nbstored = A.browptr⟦A.nbrows⟧)
    (h1 : ord1.Perm (List.range A.nbstored)) (h2 : ord2.Perm (List.range (A.nbrows + 1)))
    (h3 : ord3.Perm (List.range A.nbrows)) (he : R.browendptr ≠ none) :
    copyRaw bs gi gv ord1 ord2 ord3 R ⟨⟨B, F⟩, ⟨V, G⟩⟩ = .ok
      ({ browptr := some (B.length, 0), bcolind := some (B.length + 1, 0), diagind := some (B.length + 2, 0)
         vals := some (V.length, 0), browendptr := if A.nbrows > 0 then some (B.length, 1) else none
         nbrows := A.nbrows, nnzb := A.nnzb, nbstored := A.nbstored },
       ⟨⟨B ++ [A.browptr, A.bcolind, A.diagind], F⟩, ⟨V ++ [A.vals], G⟩⟩) := by
  obtain ⟨e1, e2, e3, e4, e5, e6, e7, e8⟩ := MatObj.read_inv hO
  have hF0 : B.length + 0 ∉ F := fun h => absurd (hF _ h) (by omega)
  have hF1 : B.length + 1 ∉ F := fun h => absurd (hF _ h) (by omega)
  have hF2 : B.length + 2 ∉ F := fun h => absurd (hF _ h) (by omega)
  have hG0 : V.length + 0 ∉ G := fun h => absurd (hG _ h) (by omega)
  have mapid : ∀ l : List Nat, (List.range l.length).map (fun i => l⟦i⟧) = l := fun l =>
    map_range_getElem? rfl (fun i hi => get0_eq_getElem hi)
  have r6 : R.nbrows = A.nbrows := e6
  have r7 : R.nnzb = A.nnzb := e7
  have r8 : R.nbstored = A.nbstored := e8
  have hp : A.browptr.length = A.nbrows + 1 := by
    rw [(AV.get_of_read e1).1, ← r6]; rfl
  have hc : A.bcolind.length = A.nbstored := by
    rw [(AV.get_of_read e2).1, ← r8]; rfl
  have hv : A.vals.length = A.nbstored * (bs * bs) := by
    rw [(AV.get_of_read e3).1, ← r8, ← Nat.mul_assoc]; rfl
  have hd : A.diagind.length = A.nbrows := by
    rw [(AV.get_of_read e4).1, ← r6]; rfl
  have l1 : ∀ ls : List (List Nat), ∀ i (hi : i < A.nbrows + 1),
      (⟨B ++ ls, F⟩ : Heap Nat).load R.browptr i = .ok A.browptr⟦i⟧ := by
    intro ls i hi
    have := (AV.get_load (AV.get_old (ls := ls) e1 (i := i) (by omega))).2
    rw [get0_eq_getElem (by omega)]
    exact this
  have l2 : ∀ ls : List (List Nat), ∀ i (hi : i < A.nbstored),
      (⟨B ++ ls, F⟩ : Heap Nat).load R.bcolind i = .ok A.bcolind⟦i⟧ := by
    intro ls i hi
    have := (AV.get_load (AV.get_old (ls := ls) e2 (i := i) (by omega))).2
    rw [get0_eq_getElem (by omega)]
    exact this
  have l4 : ∀ ls : List (List Nat), ∀ i (hi : i < A.nbrows),
      (⟨B ++ ls, F⟩ : Heap Nat).load R.diagind i = .ok A.diagind⟦i⟧ := by
    intro ls i hi
    have := (AV.get_load (AV.get_old (ls := ls) e4 (i := i) (by omega))).2
    rw [get0_eq_getElem (by omega)]
    exact this
  have l3 : ∀ vs : List (List K), ∀ i (hi : i < A.vals.length),
      (⟨V ++ vs, G⟩ : Heap K).load R.vals i = .ok A.vals[i] := by
    intro vs i hi
    exact (AV.get_load (AV.get_old (ls := vs) e3 hi)).2
  have hload := l1 [] A.nbrows (by omega)
  rw [List.append_nil] at hload
  -- the new raw matrix before the row ends are set
  obtain ⟨N, hN⟩ : ∃ N : RawMat, N = { browptr := some (B.length, 0), bcolind := some (B.length + 1, 0)
                                       diagind := some (B.length + 2, 0), vals := some (V.length, 0), nbrows := A.nbrows
                                       nnzb := A.nnzb, nbstored := A.nbstored } := ⟨_, rfl⟩
  have s1 : ∀ a d : List Nat, forList ord1 (copyEntry (bs * bs) R N)
      ⟨⟨B ++ [a, (List.range A.nbstored).map (gi 1), d], F⟩, ⟨V ++ [(List.range (A.nbstored * (bs * bs))).map gv], G⟩⟩ =
      .ok ⟨⟨B ++ [a, A.bcolind, d], F⟩, ⟨V ++ [A.vals], G⟩⟩ := by
    intro a d
    rw [fill_entries (B := B) (V := V) (F := F) (G := G) (k := 1) (kv := 0) (cnt := A.nbstored) (m := bs * bs)
      (fun i => A.bcolind⟦i⟧) (fun p => if h : p < A.vals.length then A.vals[p] else gv 0) rfl (by simp) rfl (by simp) h1
      (fun i hi l' w' hl' hw' => ?_)]
    · rw [map_range_getElem? (l := A.bcolind) hc (fun i hi => get0_eq_getElem hi), map_range_getElem? (l := A.vals) (f := fun p => if h : p < A.vals.length then A.vals[p] else gv 0) hv (fun i hi => by rw [dif_pos hi])]
      rfl
    · generalize bs * bs = m at *
      have hle : (i + 1) * m ≤ A.nbstored * m := Nat.mul_le_mul_right m hi
      have hm : (i + 1) * m = i * m + m := by rw [Nat.add_mul, Nat.one_mul]
      obtain ⟨w'', ew, hw'', hpw⟩ := fill_part (V := V) (vs := [w']) (G := G) (k := 0) (m := m) (i := i) (w := w')
        (body := fun j vh => do
          let v ← vh.load R.vals (i * m + j)
          vh.store N.vals (i * m + j) v) (fun p => if h : p < A.vals.length then A.vals[p] else gv 0) rfl
        (fun j hj u hu => by
          rw [l3 _ _ (by omega), ok_bind, dif_pos (by omega)]
          have := store_new (B := V) (ls := [u]) (F := G) (k := 0) (i := i * m + j)
            (v := A.vals[i * m + j]'(by omega)) (blk := u) rfl hG0 (by omega)
          simpa [hN] using this) (by omega)
      refine ⟨w'', ?_, by omega, hpw⟩
      have := store_new (B := B) (ls := [a, l', d]) (F := F) (k := 1) (i := i) (v := A.bcolind⟦i⟧) (blk := l') rfl
        hF1 (by omega)
      simp only [List.set_cons_succ, List.set_cons_zero] at this ew ⊢
      have hb : N.bcolind = some (B.length + 1, 0) := by rw [hN]
      simp only [copyEntry, l2 _ i hi, ok_bind, hb, this, ew]
  have s2 : ∀ b d : List Nat, forList ord2 (fun i (ih : Heap Nat) => do
      let x ← ih.load R.browptr i
      ih.store N.browptr i x) ⟨B ++ [(List.range (A.nbrows + 1)).map (gi 0), b, d], F⟩ =
      .ok ⟨B ++ [A.browptr, b, d], F⟩ := by
    intro b d
    rw [fill_ok (k := 0) (fun i => A.browptr⟦i⟧) rfl (by simp) h2 (fun i hi l' hl' => by
        rw [l1 _ i hi, ok_bind]
        have := store_new (B := B) (ls := [l', b, d]) (F := F) (k := 0) (i := i) (v := A.browptr⟦i⟧) (blk := l') rfl hF0
          (by omega)
        simpa [hN] using this)]
    rw [← hp, mapid]
    rfl
  have s3 : ∀ a b : List Nat, forList ord3 (fun i (ih : Heap Nat) => do
      let x ← ih.load R.diagind i
      ih.store N.diagind i x) ⟨B ++ [a, b, (List.range A.nbrows).map (gi 2)], F⟩ =
      .ok ⟨B ++ [a, b, A.diagind], F⟩ := by
    intro a b
    rw [fill_ok (k := 2) (fun i => A.diagind⟦i⟧) rfl (by simp) h3 (fun i hi l' hl' => by
        rw [l4 _ i hi, ok_bind]
        have := store_new (B := B) (ls := [a, b, l']) (F := F) (k := 2) (i := i) (v := A.diagind⟦i⟧) (blk := l') rfl hF2
          (by omega)
        simpa [hN] using this)]
    rw [map_range_getElem? (l := A.diagind) hd (fun i hi => get0_eq_getElem hi)]
    rfl
  simp only [copyRaw, r6, r7, r8, hload, ok_bind, Heap.alloc, List.append_assoc, List.cons_append, List.nil_append,
    List.length_append, List.length_cons, List.length_nil, ← hn, Nat.mul_assoc, Nat.zero_add, Nat.reduceAdd]
  have n0 : N.browptr = some (B.length, 0) := by rw [hN]
  have n2 : N.diagind = some (B.length + 2, 0) := by rw [hN]
  rw [n0] at s2
  rw [n2] at s3
  rw [parFor_eq h1, ← hN, s1, ok_bind, parFor_eq h2, s2, ok_bind, parFor_eq h3, s3, ok_bind]
  obtain ⟨q, hq⟩ := Option.ne_none_iff_exists'.1 he
  by_cases hpos : A.nbrows > 0
  · simp only [copyRawEnds, hq, r6, hpos, if_true, hN, Ptr.add, ok_bind, Nat.zero_add]
  · simp only [copyRawEnds, hq, r6, hpos, if_false, hN, ok_bind]

/-! ### Writes and separation -/

theorem store_frame {h h' : Heap β} {b o i : Nat} {x : β} (e : h.store (some (b, o)) i x = .ok h') :
    h'.freed = h.freed ∧ h'.blocks.length = h.blocks.length ∧ b < h.blocks.length ∧
      ∀ b' ≠ b, h'.blocks[b']? = h.blocks[b']? := by
  simp only [Heap.store] at e
  by_cases hb : b ∈ h.freed
  · simp [hb] at e
  · simp only [hb, if_false] at e
    by_cases hlt : b < h.blocks.length
    · simp only [rd, wr, hlt, List.getElem?_eq_getElem] at e
      by_cases hi : o + i < h.blocks[b].length
      · simp [hi] at e
        subst e
        refine ⟨rfl, by simp, hlt, fun b' hb' => by simp [Ne.symm hb']⟩
      · simp [hi] at e
    · rw [rd_ub (by omega)] at e
      simp at e

theorem AV.get_frame {h h' : Heap β} {v : AV} {b o i : Nat} (hf : h'.freed = h.freed) (hv : v.data = some (b, o))
    (hb : h'.blocks[b]? = h.blocks[b]?) : v.get i h' = v.get i h := by
  simp only [AV.get, Heap.load, hv, hf, rd, hb]

theorem AV.read_lt {v : AV} {h : Heap β} {l : List β} (e : v.read h = .ok l) (hlen : 0 < v.len) :
    ∃ b o, v.data = some (b, o) ∧ b < h.blocks.length := by
  obtain ⟨h1, h2⟩ := AV.get_of_read e
  have := (AV.get_load (h2 0 (by omega))).2
  cases hv : v.data with
  | none => rw [hv] at this; simp [Heap.load] at this
  | some p =>
    obtain ⟨b, o⟩ := p
    refine ⟨b, o, rfl, ?_⟩
    rw [hv] at this
    simp only [Heap.load] at this
    by_contra hn
    by_cases hb : b ∈ h.freed
    · simp [hb] at this
    · simp only [hb, if_false] at this
      rw [rd_ub (by omega)] at this
      simp at this

/-- All elements of `v` (if any) are in blocks with a number below `N`. -/
def AV.Below (v : AV) (N : Nat) : Prop := 0 < v.len → ∃ b o, v.data = some (b, o) ∧ b < N

/-- All elements of `v` (if any) are in blocks with a number not below `N`. -/
def AV.Above (v : AV) (N : Nat) : Prop := 0 < v.len → ∃ b o, v.data = some (b, o) ∧ N ≤ b

/-- A write through a view on the one side does not change what a view on the other side reads. -/
theorem AV.set_read {v u : AV} {h h' : Heap β} {N i : Nat} {x : β} (e : v.set i x h = .ok h')
    (hs : v.Below N ∧ u.Above N ∨ v.Above N ∧ u.Below N) {l : List β} (hr : u.read h = .ok l) : u.read h' = .ok l := by
  obtain ⟨h1, h2⟩ := AV.get_of_read hr
  refine AV.read_of_get h1 (fun j hj => ?_)
  rw [← h2 j hj]
  have hi : i < v.len := by
    by_contra hn
    simp [AV.set, cassert, hn] at e
  rw [AV.set_eq hi] at e
  rcases hs with ⟨a, b⟩ | ⟨a, b⟩
  all_goals
    obtain ⟨bv, ov, hv, hvN⟩ := a (by omega)
    obtain ⟨bu, ou, hu, huN⟩ := b (by omega)
    rw [hv] at e
    obtain ⟨f1, f2, f3, f4⟩ := store_frame e
    exact AV.get_frame f1 hu (f4 bu (by omega))

end Blasted
