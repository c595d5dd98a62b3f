import Verif.Sai.CompLemmas
import Mathlib.Algebra.Field.Defs
import Mathlib.Tactic.Ring

/-!
# Right-hand sides and scattering of the solutions
-/

namespace Blasted
open Finset

variable {K : Type}

/-! ### Right-hand sides -/

theorem rhs_ok [Zero K] [One K] {bs ne rows lc i : Nat} {lcr : List Int} (hr : rows = ne * bs) (hi : i < lcr.length)
    (h0 : 0 ≤ lcr⟦i⟧) (hlc : lcr⟦i⟧.toNat = lc) (hl : lc < ne) :
    Ok (forRange 0 bs (fun t (rhs : LMat K) => do
      let lc ← rd lcr i
      let lc ← natIdx lc
      rhs.put (lc * bs + t) t 1) (LMat.zero rows bs))
      (fun R => R.rows = ne * bs ∧ R.cols = bs ∧ R.Wf ∧ ∀ e < ne, ∀ a < bs, ∀ q < bs,
        R.at (e * bs + a) q = if e = lc ∧ a = q then 1 else 0) := by
  refine Ok.mono (forRange_ok (fun t (R : LMat K) => R.rows = ne * bs ∧ R.cols = bs ∧ R.Wf ∧
    ∀ e < ne, ∀ a < bs, ∀ q < bs, R.at (e * bs + a) q = if (e = lc ∧ a = q) ∧ q < t then 1 else 0) (Nat.zero_le _)
    ⟨hr, rfl, LMat.zero_wf _ _, fun e he a ha q hq => by rw [if_neg (by omega)]; exact LMat.zero_at _ _ _ _⟩ ?_) ?_
  · rintro t R - ht ⟨r1, c1, w1, v1⟩
    rw [rd_eq hi, ok_bind, natIdx, if_pos h0, ok_bind, hlc]
    refine (LMat.put_ok w1 (by rw [r1]; exact blk_lt hl ht) (by omega) _).mono ?_
    rintro R2 ⟨r2, c2, w2, v2⟩
    refine ⟨r2.trans r1, c2.trans c1, w2, fun e he a ha q hq => ?_⟩
    rw [v2 _ (by rw [r1]; exact blk_lt he ha) q (by omega), v1 e he a ha q hq]
    by_cases g : (e = lc ∧ a = q) ∧ q = t
    · obtain ⟨⟨rfl, rfl⟩, rfl⟩ := g
      rw [if_pos ⟨rfl, rfl⟩, if_pos ⟨⟨rfl, rfl⟩, Nat.lt_succ_self _⟩]
    · rw [if_neg]
      · by_cases g2 : (e = lc ∧ a = q) ∧ q < t
        · rw [if_pos g2, if_pos ⟨g2.1, by omega⟩]
        · rw [if_neg g2, if_neg]
          rintro ⟨g3, g4⟩
          by_cases g5 : q = t
          · exact g ⟨g3, g5⟩
          · exact g2 ⟨g3, by omega⟩
      · rintro ⟨g1, g2⟩
        have := blk_inj ha ht g1
        exact g ⟨⟨this.1, by omega⟩, g2⟩
  · rintro R ⟨r1, c1, w1, v1⟩
    refine ⟨r1, c1, w1, fun e he a ha q hq => ?_⟩
    rw [v1 e he a ha q hq]
    by_cases g : e = lc ∧ a = q
    · rw [if_pos g, if_pos ⟨g, hq⟩]
    · rw [if_neg g, if_neg (fun x => g x.1)]

/-! ### Scattering -/

/-- Inner position of an offset in a block. -/
def Stor.unoff (s : Stor) (bs o : Nat) : Nat × Nat :=
  match s with
  | .rowMajor => (o / bs, o % bs)
  | .colMajor => (o % bs, o / bs)

theorem Stor.unoff_off (s : Stor) {bs a b : Nat} (ha : a < bs) (hb : b < bs) : s.unoff bs (s.off bs a b) = (a, b) := by
  have h0 : 0 < bs := by omega
  have d : ∀ x y : Nat, y < bs → (x * bs + y) / bs = x ∧ (x * bs + y) % bs = y := by
    intro x y hy
    rw [Nat.add_comm, Nat.add_mul_div_right _ _ h0, Nat.div_eq_of_lt hy, Nat.zero_add, Nat.add_mul_mod_self_right,
      Nat.mod_eq_of_lt hy]
    exact ⟨rfl, rfl⟩
  cases s with
  | rowMajor => simp only [Stor.unoff, Stor.off]; rw [(d a b hb).1, (d a b hb).2]
  | colMajor => simp only [Stor.unoff, Stor.off]; rw [(d b a ha).1, (d b a ha).2]

theorem Stor.off_unoff (s : Stor) {bs o : Nat} (ho : o < bs * bs) :
    s.off bs (s.unoff bs o).1 (s.unoff bs o).2 = o ∧ (s.unoff bs o).1 < bs ∧ (s.unoff bs o).2 < bs := by
  have h0 : 0 < bs := by
    rcases Nat.eq_zero_or_pos bs with rfl | h
    · simp at ho
    · exact h
  have h1 : o / bs < bs := Nat.div_lt_of_lt_mul ho
  have h2 : o % bs < bs := Nat.mod_lt _ h0
  have h3 := Nat.div_add_mod o bs
  have h4 := Nat.mul_comm bs (o / bs)
  cases s <;> simp only [Stor.unoff, Stor.off] <;> refine ⟨by omega, by omega, by omega⟩

theorem cell_div {m k o : Nat} (ho : o < m) : (k * m + o) / m = k ∧ (k * m + o) % m = o := by
  have h0 : 0 < m := by omega
  rw [Nat.add_comm, Nat.add_mul_div_right _ _ h0, Nat.div_eq_of_lt ho, Nat.zero_add, Nat.add_mul_mod_self_right,
    Nat.mod_eq_of_lt ho]
  exact ⟨rfl, rfl⟩

/-- Value that the solution `X` of the row starting at `lo` gives to a cell. -/
def scatterVal [Zero K] (stor : Stor) (bs lo : Nat) (X : LMat K) (c : Nat) : K :=
  X.at ((c / (bs * bs) - lo) * bs + (stor.unoff bs (c % (bs * bs))).2) (stor.unoff bs (c % (bs * bs))).1

instance (A : SR K) (i k : Nat) : Decidable (A.Has i k) := by unfold SR.Has; infer_instance

theorem scatter_ok [Zero K] {asserts : Bool} {bs : Nat} (hbs : 0 < bs) {stor : Stor} {X : LMat K} {sp : SaiPattern} {i : Nat}
    {S : SR K} (hS : S.ViewOk) (hi : i < S.nbrows) {vals : List K}
    (hv : S.bcolind.length * (bs * bs) ≤ vals.length) (hnl : i < sp.nVars.length) (hnv : sp.nVars⟦i⟧ = S.rowLen i)
    (hX : X.Wf) (hXr : X.rows = S.rowLen i * bs) (hXc : X.cols = bs) :
    Ok (scatterSolution asserts bs stor X sp i S vals) (fun v => v.length = vals.length ∧
      ∀ c < vals.length, v⟦c⟧ = if S.Has i (c / (bs * bs)) then scatterVal stor bs S.browptr⟦i⟧ X c else vals⟦c⟧) := by
  unfold scatterSolution
  rw [rd_eq hnl, ok_bind, hS.rd_ptr hi, ok_bind, hS.rd_end hi, ok_bind,
    cassert_true (by rw [hnv]; simp [SR.rowLen]), ok_bind]
  have hle := hS.ptr_le hi
  refine Ok.mono (forRange_ok (fun jj (v : List K) => v.length = vals.length ∧
      ∀ c < vals.length, v⟦c⟧ = if S.browptr⟦i⟧ ≤ c / (bs * bs) ∧ c / (bs * bs) < jj
        then scatterVal stor bs S.browptr⟦i⟧ X c else vals⟦c⟧) hle
    ⟨rfl, fun c _ => by rw [if_neg (by omega)]⟩ ?_) ?_
  · rintro jj v1 hlo hhi ⟨l1, g1⟩
    have hend := hS.end_le i hi
    refine Ok.mono (forRange_ok (fun t (v : List K) => v.length = vals.length ∧
      ∀ c < vals.length, v⟦c⟧ = if (S.browptr⟦i⟧ ≤ c / (bs * bs) ∧ c / (bs * bs) < jj) ∨
          (c / (bs * bs) = jj ∧ (stor.unoff bs (c % (bs * bs))).1 < t)
        then scatterVal stor bs S.browptr⟦i⟧ X c else vals⟦c⟧) (Nat.zero_le bs)
      ⟨l1, fun c hc => by
        rw [g1 c hc]
        by_cases q : S.browptr⟦i⟧ ≤ c / (bs * bs) ∧ c / (bs * bs) < jj
        · rw [if_pos q, if_pos (Or.inl q)]
        · rw [if_neg q, if_neg (by rintro (x | x); exacts [q x, by omega])]⟩ ?_) ?_
    · rintro t v2 - ht ⟨l2, g2⟩
      refine Ok.mono (forRange_ok (fun u (v : List K) => v.length = vals.length ∧
        ∀ c < vals.length, v⟦c⟧ = if ((S.browptr⟦i⟧ ≤ c / (bs * bs) ∧ c / (bs * bs) < jj) ∨
            (c / (bs * bs) = jj ∧ (stor.unoff bs (c % (bs * bs))).1 < t)) ∨
            (c / (bs * bs) = jj ∧ (stor.unoff bs (c % (bs * bs))).1 = t ∧ (stor.unoff bs (c % (bs * bs))).2 < u)
          then scatterVal stor bs S.browptr⟦i⟧ X c else vals⟦c⟧) (Nat.zero_le bs)
        ⟨l2, fun c hc => by
          rw [g2 c hc]
          by_cases q : (S.browptr⟦i⟧ ≤ c / (bs * bs) ∧ c / (bs * bs) < jj) ∨
              (c / (bs * bs) = jj ∧ (stor.unoff bs (c % (bs * bs))).1 < t)
          · rw [if_pos q, if_pos (Or.inl q)]
          · rw [if_neg q, if_neg (by rintro (x | x); exacts [q x, by omega])]⟩ ?_) ?_
      · rintro u v3 - hu ⟨l3, g3⟩
        have hoff := stor.off_lt ht hu
        have hcell : jj * (bs * bs) + stor.off bs t u < vals.length :=
          (blk_lt (n := S.bcolind.length) (k := jj) (by omega) hoff).trans_le hv
        obtain ⟨d1, d2⟩ := cell_div (k := jj) hoff
        have d3 := stor.unoff_off ht hu
        rw [LMat.get_eq hX (by rw [hXr]; exact blk_lt (by unfold SR.rowLen; omega) hu) (by omega), ok_bind,
          wr_eq (by omega)]
        refine Ok.pure ⟨by simp [l3], fun c hc => ?_⟩
        rw [get0_set]
        by_cases e : jj * (bs * bs) + stor.off bs t u = c
        · subst e
          rw [if_pos ⟨rfl, by omega⟩, d1, d2, d3]
          rw [if_pos (Or.inr ⟨rfl, rfl, Nat.lt_succ_self u⟩), scatterVal, d1, d2, d3]
        · rw [if_neg (fun x => e x.1), g3 c hc]
          have hno : ¬ (c / (bs * bs) = jj ∧ (stor.unoff bs (c % (bs * bs))).1 = t ∧
              (stor.unoff bs (c % (bs * bs))).2 = u) := by
            rintro ⟨x1, x2, x3⟩
            apply e
            have hpos : 0 < bs * bs := by omega
            have := (stor.off_unoff (Nat.mod_lt c hpos)).1
            rw [x2, x3] at this
            rw [this, ← x1, Nat.mul_comm]
            exact Nat.div_add_mod c (bs * bs)
          by_cases q : ((S.browptr⟦i⟧ ≤ c / (bs * bs) ∧ c / (bs * bs) < jj) ∨
            (c / (bs * bs) = jj ∧ (stor.unoff bs (c % (bs * bs))).1 < t)) ∨
            (c / (bs * bs) = jj ∧ (stor.unoff bs (c % (bs * bs))).1 = t ∧ (stor.unoff bs (c % (bs * bs))).2 < u)
          · rw [if_pos q, if_pos]
            rcases q with q | q
            · exact Or.inl q
            · exact Or.inr ⟨q.1, q.2.1, by omega⟩
          · rw [if_neg q, if_neg]
            rintro (x | ⟨x1, x2, x3⟩)
            · exact q (Or.inl x)
            · exact q (Or.inr ⟨x1, x2, by
                rcases Nat.lt_or_ge (stor.unoff bs (c % (bs * bs))).2 u with y | y
                · exact y
                · exact absurd ⟨x1, x2, by omega⟩ hno⟩)
      · rintro v3 ⟨l3, g3⟩
        refine ⟨l3, fun c hc => ?_⟩
        rw [g3 c hc]
        by_cases q : (S.browptr⟦i⟧ ≤ c / (bs * bs) ∧ c / (bs * bs) < jj) ∨
            (c / (bs * bs) = jj ∧ (stor.unoff bs (c % (bs * bs))).1 < t + 1)
        · rw [if_pos q, if_pos]
          have hpos : 0 < bs * bs := Nat.mul_pos (by omega) (by omega)
          have := (stor.off_unoff (Nat.mod_lt c hpos)).2.2
          omega
        · rw [if_neg q, if_neg (by omega)]
    · rintro v2 ⟨l2, g2⟩
      refine ⟨l2, fun c hc => ?_⟩
      rw [g2 c hc]
      have hpos : 0 < bs * bs := Nat.mul_pos hbs hbs
      have := (stor.off_unoff (Nat.mod_lt c hpos)).2.1
      by_cases q : S.browptr⟦i⟧ ≤ c / (bs * bs) ∧ c / (bs * bs) < jj + 1
      · rw [if_pos q, if_pos (by omega)]
      · rw [if_neg q, if_neg (by omega)]
  · rintro v1 ⟨l1, g1⟩
    exact ⟨l1, fun c hc => g1 c hc⟩

end Blasted
