import Verif.Sai.PatProps
import Mathlib.Algebra.BigOperators.Ring.Finset
import Mathlib.Algebra.Order.BigOperators.Group.Finset
import Mathlib.Algebra.Order.Ring.Defs

/-!
# Gathering local problems and scattering their solutions
-/

namespace Blasted
open Finset

variable {K : Type _}

/-! ### Dense matrices -/

/-- Entry `(r, c)` of a dense column-major matrix. -/
def LMat.at [Zero K] (m : LMat K) (r c : Nat) : K := m.data⟦c * m.rows + r⟧

/-- A dense matrix that owns all its entries. -/
def LMat.Wf (m : LMat K) : Prop := m.data.length = m.rows * m.cols

theorem LMat.idx_lt {m : LMat K} (h : m.Wf) {r c : Nat} (hr : r < m.rows) (hc : c < m.cols) :
    c * m.rows + r < m.data.length := by
  rw [h, Nat.mul_comm m.rows]; exact blk_lt hc hr

theorem LMat.get_eq [Zero K] {m : LMat K} (h : m.Wf) {r c : Nat} (hr : r < m.rows) (hc : c < m.cols) :
    m.get r c = .ok (m.at r c) := by
  unfold LMat.get
  rw [if_pos ⟨hr, hc⟩, rd_eq (LMat.idx_lt h hr hc)]; rfl

theorem LMat.put_ok [Zero K] {m : LMat K} (h : m.Wf) {r c : Nat} (hr : r < m.rows) (hc : c < m.cols) (v : K) :
    Ok (m.put r c v) (fun m' => m'.rows = m.rows ∧ m'.cols = m.cols ∧ m'.Wf ∧
      ∀ r' < m.rows, ∀ c' < m.cols, m'.at r' c' = if r' = r ∧ c' = c then v else m.at r' c') := by
  unfold LMat.put
  rw [if_pos ⟨hr, hc⟩, wr_eq (LMat.idx_lt h hr hc), ok_bind]
  refine Ok.pure ⟨rfl, rfl, by simpa [LMat.Wf] using h, fun r' hr' c' hc' => ?_⟩
  unfold LMat.at
  simp only
  rw [get0_set]
  by_cases e : r' = r ∧ c' = c
  · rw [if_pos e, if_pos ⟨by rw [e.1, e.2], LMat.idx_lt h hr hc⟩]
  · rw [if_neg e, if_neg]
    rintro ⟨e', -⟩
    have := blk_inj hr hr' e'
    exact e ⟨this.2.symm, this.1.symm⟩

theorem LMat.zero_wf [Zero K] (r c : Nat) : (LMat.zero r c : LMat K).Wf := by simp [LMat.Wf, LMat.zero]

theorem LMat.zero_at [Zero K] (r c i j : Nat) : (LMat.zero r c : LMat K).at i j = 0 := get0_replicate _ _

/-- Writing one block. -/
theorem block_put [Zero K] {bs E : Nat} {m : LMat K} (h : m.Wf) {W : Nat} (hr : m.rows = E * bs) (hc : m.cols = W * bs)
    {e c : Nat} (he : e < E) (hcW : c < W) {rdv : Nat → Nat → C K} {f : Nat → Nat → K}
    (hf : ∀ a < bs, ∀ b < bs, rdv a b = .ok (f a b)) :
    Ok (forRange 0 bs (fun ib m => forRange 0 bs (fun jb m => do
        let v ← rdv ib jb
        m.put (e * bs + ib) (c * bs + jb) v) m) m)
      (fun m' => m'.rows = m.rows ∧ m'.cols = m.cols ∧ m'.Wf ∧
        ∀ e' < E, ∀ c' < W, ∀ a < bs, ∀ b < bs, m'.at (e' * bs + a) (c' * bs + b) =
          if e' = e ∧ c' = c then f a b else m.at (e' * bs + a) (c' * bs + b)) := by
  refine Ok.mono (forRange_ok (fun t (m' : LMat K) => m'.rows = m.rows ∧ m'.cols = m.cols ∧ m'.Wf ∧
    ∀ e' < E, ∀ c' < W, ∀ a < bs, ∀ b < bs, m'.at (e' * bs + a) (c' * bs + b) =
      if (e' = e ∧ c' = c) ∧ a < t then f a b else m.at (e' * bs + a) (c' * bs + b)) (Nat.zero_le _)
    ⟨rfl, rfl, h, fun _ _ _ _ _ _ _ _ => by rw [if_neg (by omega)]⟩ ?_) ?_
  · rintro t m1 - ht ⟨r1, c1, w1, v1⟩
    refine Ok.mono (forRange_ok (fun u (m' : LMat K) => m'.rows = m.rows ∧ m'.cols = m.cols ∧ m'.Wf ∧
      ∀ e' < E, ∀ c' < W, ∀ a < bs, ∀ b < bs, m'.at (e' * bs + a) (c' * bs + b) =
        if (e' = e ∧ c' = c) ∧ (a < t ∨ (a = t ∧ b < u)) then f a b else m.at (e' * bs + a) (c' * bs + b))
      (Nat.zero_le _) ⟨r1, c1, w1, fun e' he' c' hc' a ha b hb => ?_⟩ ?_) ?_
    · rw [v1 e' he' c' hc' a ha b hb]
      by_cases q : (e' = e ∧ c' = c) ∧ a < t
      · rw [if_pos q, if_pos ⟨q.1, Or.inl q.2⟩]
      · rw [if_neg q, if_neg (by rintro ⟨q1, q2 | q2⟩; exacts [q ⟨q1, q2⟩, by omega])]
    · rintro u m2 - hu ⟨r2, c2, w2, v2⟩
      rw [hf t ht u hu, ok_bind]
      refine (LMat.put_ok w2 (by rw [r2, hr]; exact blk_lt he ht) (by rw [c2, hc]; exact blk_lt hcW hu) _).mono ?_
      rintro m3 ⟨r3, c3, w3, v3⟩
      refine ⟨r3.trans r2, c3.trans c2, w3, fun e' he' c' hc' a ha b hb => ?_⟩
      rw [v3 _ (by rw [r2, hr]; exact blk_lt he' ha) _ (by rw [c2, hc]; exact blk_lt hc' hb), v2 e' he' c' hc' a ha b hb]
      by_cases q : (e' = e ∧ c' = c) ∧ a = t ∧ b = u
      · obtain ⟨⟨rfl, rfl⟩, rfl, rfl⟩ := q
        rw [if_pos ⟨rfl, rfl⟩, if_pos ⟨⟨rfl, rfl⟩, Or.inr ⟨rfl, Nat.lt_succ_self _⟩⟩]
      · rw [if_neg]
        · by_cases q2 : (e' = e ∧ c' = c) ∧ (a < t ∨ (a = t ∧ b < u))
          · rw [if_pos q2, if_pos ⟨q2.1, by omega⟩]
          · rw [if_neg q2, if_neg]
            rintro ⟨q3, q4⟩
            by_cases q5 : a = t ∧ b = u
            · exact q ⟨q3, q5⟩
            · exact q2 ⟨q3, by omega⟩
        · rintro ⟨g1, g2⟩
          have g1 := blk_inj ha ht g1
          have g2 := blk_inj hb hu g2
          exact q ⟨⟨g1.1, g2.1⟩, g1.2, g2.2⟩
    · rintro m2 ⟨r2, c2, w2, v2⟩
      refine ⟨r2, c2, w2, fun e' he' c' hc' a ha b hb => ?_⟩
      rw [v2 e' he' c' hc' a ha b hb]
      by_cases q : (e' = e ∧ c' = c) ∧ a < t + 1
      · rw [if_pos q, if_pos ⟨q.1, by omega⟩]
      · rw [if_neg q, if_neg]
        rintro ⟨q1, q2⟩
        exact q ⟨q1, by omega⟩
  · rintro m1 ⟨r1, c1, w1, v1⟩
    refine ⟨r1, c1, w1, fun e' he' c' hc' a ha b hb => ?_⟩
    rw [v1 e' he' c' hc' a ha b hb]
    by_cases q : e' = e ∧ c' = c
    · rw [if_pos q, if_pos ⟨q, ha⟩]
    · rw [if_neg q, if_neg (fun x => q x.1)]

/-! ### Gathering -/

section gather
variable [AddCommMonoid K] {A : SR K} {sp : SaiPattern} {i : Nat} {cs : List Nat}

omit [AddCommMonoid K] in
/-- The pattern lists each equation at most once per unknown. -/
theorem SaiPattern.Local.eqn_inj (hl : sp.Local A i cs) (h : A.ViewOk) (hi : i < A.nbrows) {c : Nat}
    (hc : c < A.rowLen i) : (sp.column i c).Pairwise fun p q => p.2 ≠ q.2 := by
  refine List.Pairwise.imp_of_mem ?_ (hl.once c hc)
  rintro ⟨k, e⟩ ⟨k', e'⟩ hp hq hlt he
  simp only at hlt he
  subst he
  obtain ⟨g1, -, g2⟩ := (hl.listed c hc k e).mp hp
  obtain ⟨g3, -, g4⟩ := (hl.listed c hc k' e).mp hq
  have := h.inj (h.col_lt' hi (has_slot hc)) g1 g3 (Option.some.inj (g2.symm.trans g4))
  omega

/-- Summing over what is listed for one equation is summing over the entries of the row in that column. -/
theorem SaiPattern.Local.sum_column (hl : sp.Local A i cs) {c e : Nat}
    (hc : c < A.rowLen i) (he : e < cs.length) (f : Nat → K) :
    ((sp.column i c).map fun p => if p.2 = (e : Int) then f p.1 else 0).sum =
      ∑ k ∈ Ico A.browptr⟦A.bcolind⟦A.browptr⟦i⟧ + c⟧⟧ A.browendptr⟦A.bcolind⟦A.browptr⟦i⟧ + c⟧⟧,
        if A.bcolind⟦k⟧ = cs[e] then f k else 0 := by
  have hnd : (sp.column i c).Nodup := (hl.once c hc).imp (fun {a b} h e => by rw [e] at h; exact lt_irrefl _ h)
  rw [← List.sum_toFinset _ hnd, ← sum_filter, ← sum_filter]
  refine sum_nbij' Prod.fst (fun k => (k, (e : Int))) ?_ ?_ ?_ ?_ ?_
  · rintro ⟨k, e'⟩ hp
    rw [mem_filter, List.mem_toFinset] at hp
    obtain ⟨hp, he'⟩ := hp
    simp only at he'
    subst he'
    obtain ⟨g1, -, g2⟩ := (hl.listed c hc k _).mp hp
    rw [Int.toNat_natCast, List.getElem?_eq_getElem he] at g2
    rw [mem_filter, mem_Ico]
    exact ⟨g1, (Option.some.inj g2).symm⟩
  · intro k hk
    rw [mem_filter, mem_Ico] at hk
    rw [mem_filter, List.mem_toFinset]
    refine ⟨(hl.listed c hc k e).mpr ⟨hk.1, by omega, ?_⟩, rfl⟩
    rw [Int.toNat_natCast, List.getElem?_eq_getElem he, hk.2]
  · rintro ⟨k, e'⟩ hp
    rw [mem_filter] at hp
    rw [← hp.2]
  · intro k _; rfl
  · intro p _; rfl

theorem bentry_blk (A : SR K) (stor : Stor) {bs r b j a : Nat} (hb : b < bs) (ha : a < bs) :
    A.bentry stor bs (r * bs + b) (j * bs + a) =
      ∑ k ∈ Ico A.browptr⟦r⟧ A.browendptr⟦r⟧, if A.bcolind⟦k⟧ = j then A.vals⟦k * (bs * bs) + stor.off bs b a⟧ else 0 := by
  have h0 : 0 < bs := by omega
  unfold SR.bentry
  have d : ∀ x y : Nat, y < bs → (x * bs + y) / bs = x ∧ (x * bs + y) % bs = y := by
    intro x y hy
    rw [Nat.add_comm, Nat.add_mul_div_right _ _ h0, Nat.div_eq_of_lt hy, Nat.zero_add, Nat.add_mul_mod_self_right,
      Nat.mod_eq_of_lt hy]
    exact ⟨rfl, rfl⟩
  rw [(d r b hb).1, (d r b hb).2, (d j a ha).1, (d j a ha).2]

theorem SaiPattern.Sized.ptr_le {n : Nat} (hs : sp.Sized n) {i j : Nat} (hij : i ≤ j) (hj : j ≤ n) :
    sp.sairowptr⟦i⟧ ≤ sp.sairowptr⟦j⟧ := by
  induction j, hij using Nat.le_induction with
  | base => exact le_rfl
  | succ j _ ih => rw [hs.ptr_succ j (by omega)]; have := ih (by omega); omega

theorem SaiPattern.Sized.slot_lt {n : Nat} (hs : sp.Sized n) {i c : Nat} (hi : i < n) (hc : c < sp.nVars⟦i⟧) :
    sp.sairowptr⟦i⟧ + c < sp.sairowptr⟦n⟧ := by
  have := hs.ptr_le (i := i + 1) (j := n) hi le_rfl
  rw [hs.ptr_succ i hi] at this; omega

theorem SaiPattern.Sized.col_le {n : Nat} (hs : sp.Sized n) {q r : Nat} (hij : q ≤ r) (hj : r ≤ sp.sairowptr⟦n⟧) :
    sp.bcolptr⟦q⟧ ≤ sp.bcolptr⟦r⟧ := by
  induction r, hij using Nat.le_induction with
  | base => exact le_rfl
  | succ j _ ih => exact (ih (by omega)).trans (hs.col_mono j (by omega))

/-- A pattern in which every unknown occurs in every equation of its row. -/
def SaiPattern.Dense (sp : SaiPattern) (i : Nat) : Prop :=
  ∀ c < sp.nVars⟦i⟧, (sp.column i c).length = sp.nEqns⟦i⟧

/-- The first `t` block-columns of the local matrix of row `i` have been gathered. -/
def GatheredTo (A : SR K) (bs : Nat) (stor : Stor) (i : Nat) (cs : List Nat) (t : Nat) (L : LMat K) : Prop :=
  L.rows = cs.length * bs ∧ L.cols = A.rowLen i * bs ∧ L.Wf ∧
    ∀ e (he : e < cs.length), ∀ c < A.rowLen i, ∀ a < bs, ∀ b < bs, L.at (e * bs + a) (c * bs + b) =
      if c < t then A.bentry stor bs (A.bcolind⟦A.browptr⟦i⟧ + c⟧ * bs + b) (cs[e] * bs + a) else 0

theorem gatherCol_ok (h : A.ViewOk) {asserts : Bool} {bs : Nat} {stor : Stor}
    (hv : A.bcolind.length * (bs * bs) ≤ A.vals.length) (hs : sp.Sized A.nbrows) (hi : i < A.nbrows)
    (hl : sp.Local A i cs) {c : Nat} (hc : c < A.rowLen i)
    (hass : asserts = true → (sp.column i c).length = sp.nEqns⟦i⟧) {L : LMat K} (hL : GatheredTo A bs stor i cs c L) :
    Ok (gatherCol asserts bs stor A sp i c L) (GatheredTo A bs stor i cs (c + 1)) := by
  have e1 := hs.eqns_len
  have e2 := hs.vars_len
  have e3 := hs.ptr_len
  have e4 := hs.col_len
  obtain ⟨r1, c1, w1, v1⟩ := hL
  unfold gatherCol
  have hslot := hs.slot_lt hi (c := c) (by rw [hl.vars]; exact hc)
  have hmono := hs.col_mono _ hslot
  have hle := hs.col_le (q := sp.sairowptr⟦i⟧ + c + 1) hslot le_rfl
  have hpl := hs.pos_len
  have hrl := hs.row_len
  have hr := h.col_lt' hi (has_slot hc)
  have hlen : (sp.column i c).length = sp.bcolptr⟦sp.sairowptr⟦i⟧ + c + 1⟧ - sp.bcolptr⟦sp.sairowptr⟦i⟧ + c⟧ := by
    simp [SaiPattern.column]
  rw [rd_eq (by omega), ok_bind, rd_eq (by omega), ok_bind, rd_eq (by omega), ok_bind, rd_eq (by omega), ok_bind,
    cassert_true (by
      cases asserts with
      | false => rfl
      | true =>
        have := hass rfl
        rw [← hlen, this]; simp [hl.eqns]), ok_bind]
  refine Ok.mono (forRange_ok (fun ii (L : LMat K) => L.rows = cs.length * bs ∧ L.cols = A.rowLen i * bs ∧ L.Wf ∧
    ∀ e (he : e < cs.length), ∀ c' < A.rowLen i, ∀ a < bs, ∀ b < bs, L.at (e * bs + a) (c' * bs + b) =
      if c' < c then A.bentry stor bs (A.bcolind⟦A.browptr⟦i⟧ + c'⟧ * bs + b) (cs[e] * bs + a)
      else if c' = c then (((sp.column i c).take (ii - sp.bcolptr⟦sp.sairowptr⟦i⟧ + c⟧)).map fun p =>
        if p.2 = (e : Int) then A.vals⟦p.1 * (bs * bs) + stor.off bs b a⟧ else 0).sum else 0) hmono
    ⟨r1, c1, w1, fun e he c' hc' a ha b hb => ?_⟩ ?_) ?_
  · rw [v1 e he c' hc' a ha b hb]
    by_cases q : c' < c
    · rw [if_pos q, if_pos q]
    · rw [if_neg q, if_neg q]; simp
  · rintro ii L hlo hhi ⟨r2, c2, w2, v2⟩
    have hu : ii - sp.bcolptr⟦sp.sairowptr⟦i⟧ + c⟧ < (sp.column i c).length := by omega
    have hget : (sp.column i c)[ii - sp.bcolptr⟦sp.sairowptr⟦i⟧ + c⟧] = (sp.bpos⟦ii⟧, sp.browind⟦ii⟧) := by
      have : sp.bcolptr⟦sp.sairowptr⟦i⟧ + c⟧ + (ii - sp.bcolptr⟦sp.sairowptr⟦i⟧ + c⟧) = ii := by omega
      simp [SaiPattern.column, this]
    have hmem : (sp.bpos⟦ii⟧, sp.browind⟦ii⟧) ∈ sp.column i c := by rw [← hget]; exact List.getElem_mem hu
    obtain ⟨g1, g2, g3⟩ := (hl.listed c hc _ _).mp hmem
    obtain ⟨he0, hcs⟩ := List.getElem?_eq_some_iff.mp g3
    rw [rd_eq (by omega), ok_bind, natIdx, if_pos g2, ok_bind, rd_eq (by omega), ok_bind]
    refine (block_put (E := cs.length) (W := A.rowLen i) w2 r2 c2 he0 hc
      (f := fun a b => A.vals⟦sp.bpos⟦ii⟧ * (bs * bs) + stor.off bs b a⟧) ?_).mono ?_
    · intro a ha b hb
      refine rd_eq ?_
      have h1 := h.end_le _ hr
      have h2 := g1.2
      have := blk_lt (n := A.bcolind.length) (k := sp.bpos⟦ii⟧) (by omega) (stor.off_lt hb ha)
      omega
    · rintro L3 ⟨r3, c3, w3, v3⟩
      refine ⟨r3.trans r2, c3.trans c2, w3, fun e he c' hc' a ha b hb => ?_⟩
      rw [v3 e he c' hc' a ha b hb, v2 e he c' hc' a ha b hb]
      by_cases q1 : c' < c
      · rw [if_neg (by omega), if_pos q1, if_pos q1]
      · rw [if_neg q1, if_neg q1]
        by_cases q2 : c' = c
        · rw [if_pos q2, if_pos q2,
            show ii + 1 - sp.bcolptr⟦sp.sairowptr⟦i⟧ + c⟧ = ii - sp.bcolptr⟦sp.sairowptr⟦i⟧ + c⟧ + 1 by omega,
            List.take_add_one, List.getElem?_eq_getElem hu, hget, List.map_append, List.sum_append]
          simp only [Option.toList, List.map_cons, List.map_nil, List.sum_cons, List.sum_nil, add_zero]
          by_cases q3 : e = sp.browind⟦ii⟧.toNat
          · have q4 : sp.browind⟦ii⟧ = (e : Int) := by omega
            rw [if_pos ⟨q3, q2⟩, if_pos q4]
            have hz : (((sp.column i c).take (ii - sp.bcolptr⟦sp.sairowptr⟦i⟧ + c⟧)).map fun p =>
                if p.2 = (e : Int) then A.vals⟦p.1 * (bs * bs) + stor.off bs b a⟧ else 0).sum = 0 := by
              refine List.sum_eq_zero fun x hx => ?_
              obtain ⟨p, hp, rfl⟩ := List.mem_map.mp hx
              obtain ⟨t, ht, rfl⟩ := List.getElem_of_mem hp
              rw [List.getElem_take]
              rw [List.length_take] at ht
              have := List.pairwise_iff_getElem.mp (hl.eqn_inj h hi hc) t
                (ii - sp.bcolptr⟦sp.sairowptr⟦i⟧ + c⟧) (by omega) hu (by omega)
              rw [hget] at this
              rw [if_neg (by rw [← q4]; exact this)]
            rw [hz, zero_add]
          · rw [if_neg (fun x => q3 x.1), if_neg (by omega), add_zero]
        · rw [if_neg q2, if_neg q2, if_neg (fun x => q2 x.2)]
  · rintro L2 ⟨r2, c2, w2, v2⟩
    refine ⟨r2, c2, w2, fun e he c' hc' a ha b hb => ?_⟩
    rw [v2 e he c' hc' a ha b hb]
    by_cases q1 : c' < c
    · rw [if_pos q1, if_pos (by omega)]
    · rw [if_neg q1]
      by_cases q2 : c' = c
      · subst q2
        rw [if_pos rfl, if_pos (Nat.lt_succ_self _), List.take_of_length_le (by omega),
          hl.sum_column hc he (fun k => A.vals⟦k * (bs * bs) + stor.off bs b a⟧), bentry_blk A stor hb ha]
      · rw [if_neg q2, if_neg (by omega)]

theorem gatheredTo_zero (A : SR K) (bs : Nat) (stor : Stor) (i : Nat) (cs : List Nat) :
    GatheredTo A bs stor i cs 0 (LMat.zero (cs.length * bs) (A.rowLen i * bs)) :=
  ⟨rfl, rfl, LMat.zero_wf _ _, fun e he c hc a ha b hb => by rw [if_neg (by omega)]; exact LMat.zero_at _ _ _ _⟩

theorem gather_ok (h : A.ViewOk) {asserts : Bool} {bs : Nat} {stor : Stor}
    (hv : A.bcolind.length * (bs * bs) ≤ A.vals.length) (hs : sp.Sized A.nbrows) (hi : i < A.nbrows)
    (hl : sp.Local A i cs) (ha : asserts = true → sp.Dense i) :
    Ok (gatherLhs asserts bs stor A sp i) (fun L => L.rows = cs.length * bs ∧ L.cols = A.rowLen i * bs ∧ L.Wf ∧
      ∀ e (he : e < cs.length), ∀ c < A.rowLen i, ∀ a < bs, ∀ b < bs, L.at (e * bs + a) (c * bs + b) =
        A.bentry stor bs (A.bcolind⟦A.browptr⟦i⟧ + c⟧ * bs + b) (cs[e] * bs + a)) := by
  have e1 := hs.eqns_len
  have e2 := hs.vars_len
  unfold gatherLhs
  rw [rd_eq (by omega), ok_bind, rd_eq (by omega), ok_bind, hl.vars, hl.eqns]
  refine Ok.mono (forRange_ok (GatheredTo A bs stor i cs) (Nat.zero_le _) (gatheredTo_zero _ _ _ _ _)
    (fun c L _ hc hL => gatherCol_ok h hv hs hi hl hc (fun e => ha e c (by rw [hl.vars]; exact hc)) hL)) ?_
  rintro L ⟨r1, c1, w1, v1⟩
  refine ⟨r1, c1, w1, fun e he c hc a ha b hb => ?_⟩
  rw [v1 e he c hc a ha b hb, if_pos hc]

/-- With assertions compiled in, an unknown that does not occur in every equation of its row stops the program. -/
theorem gather_abort (h : A.ViewOk) {bs : Nat} {stor : Stor}
    (hv : A.bcolind.length * (bs * bs) ≤ A.vals.length) (hs : sp.Sized A.nbrows) (hi : i < A.nbrows)
    (hl : sp.Local A i cs) (ha : ¬ sp.Dense i) : gatherLhs true bs stor A sp i = .error .abort := by
  have e1 := hs.eqns_len
  have e2 := hs.vars_len
  have e3 := hs.ptr_len
  have e4 := hs.col_len
  classical
  have hex : ∃ c, c < A.rowLen i ∧ (sp.column i c).length ≠ sp.nEqns⟦i⟧ := by
    unfold SaiPattern.Dense at ha
    rw [hl.vars] at ha
    simpa using ha
  obtain ⟨hc, hne⟩ := Nat.find_spec hex
  have hmin := fun c hc => Nat.find_min hex (m := c) hc
  generalize Nat.find hex = c0 at hc hne hmin
  unfold gatherLhs
  rw [rd_eq (by omega), ok_bind, rd_eq (by omega), ok_bind, hl.vars, hl.eqns]
  obtain ⟨L, hL, hg⟩ := forRange_ok (body := gatherCol true bs stor A sp i) (GatheredTo A bs stor i cs)
    (Nat.zero_le c0) (gatheredTo_zero A bs stor i cs) (fun c L _ hcc hL => gatherCol_ok h hv hs hi hl (by omega)
      (fun _ => by
        have := hmin c hcc
        by_contra hne'
        exact this ⟨by omega, hne'⟩) hL)
  rw [forRange_split (Nat.zero_le c0) hc.le, hL, ok_bind, forRange_split (mid := c0 + 1) (by omega) (by omega),
    forRange_succ_right le_rfl, forRange_self, ok_bind]
  have hslot := hs.slot_lt hi (c := c0) (by rw [hl.vars]; exact hc)
  have hlen : (sp.column i c0).length = sp.bcolptr⟦sp.sairowptr⟦i⟧ + c0 + 1⟧ - sp.bcolptr⟦sp.sairowptr⟦i⟧ + c0⟧ := by
    simp [SaiPattern.column]
  have : gatherCol true bs stor A sp i c0 L = .error .abort := by
    unfold gatherCol
    rw [rd_eq (by omega), ok_bind, rd_eq (by omega), ok_bind, rd_eq (by omega), ok_bind, rd_eq (by omega), ok_bind,
      ← hlen, cassert, if_neg (by simpa using hne), error_bind]
  rw [this]; rfl

end gather
end Blasted
