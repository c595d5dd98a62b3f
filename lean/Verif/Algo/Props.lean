import Verif.Algo.Lemmas
import Mathlib.Analysis.SpecialFunctions.Log.Basic
import Mathlib.Tactic.IntervalCases
import Mathlib.Tactic.Linarith
import Mathlib.Analysis.Complex.ExponentialBounds

/-!
# Properties C08 and C10: sorting a row, parallel prefix sum
-/

namespace Blasted
open Finset

variable {K : Type}

/-- **C08** `sortBlockInnerDimension` called on a row segment returns with the index array of that segment
sorted, the (index, block) pairs permuted as a whole, and nothing outside of the
segment changed. -/
theorem sort_block_inner_correct [Zero K] (m N base : Nat) (colind : List Nat) (vals : List K)
    (hc : base + N ≤ colind.length) (hv : (base + N) * m ≤ vals.length) :
    ∃ colind' vals', sortBlockInner m N base colind vals = .ok (colind', vals') ∧
      colind'.length = colind.length ∧ vals'.length = vals.length ∧
      (∀ p q, p ≤ q → q < N → colind'⟦base + p⟧ ≤ colind'⟦base + q⟧) ∧
      (segEntries m base N colind' vals').Perm (segEntries m base N colind vals) ∧
      (∀ q, q < base ∨ base + N ≤ q → colind'⟦q⟧ = colind⟦q⟧) ∧
      (∀ q, q < base ∨ base + N ≤ q → ∀ k < m, q * m + k < vals.length →
        vals'⟦q * m + k⟧ = vals⟦q * m + k⟧) := by
  obtain ⟨⟨c, v⟩, e, h1, h2, h3, h4, h5, h6⟩ := sortBlockInner_ok (K := K) hc hv
  exact ⟨c, v, e, h1, h2, h6, h5, h3, h4⟩

/-- With distinct column indices the result is strictly increasing. -/
theorem sort_block_inner_strict [Zero K] (m N base : Nat) (colind : List Nat) (vals : List K)
    (hc : base + N ≤ colind.length) (hv : (base + N) * m ≤ vals.length)
    (hd : ∀ p < N, ∀ q < N, colind⟦base + p⟧ = colind⟦base + q⟧ → p = q) :
    ∃ colind' vals', sortBlockInner m N base colind vals = .ok (colind', vals') ∧
      ∀ p q, p < q → q < N → colind'⟦base + p⟧ < colind'⟦base + q⟧ := by
  obtain ⟨c, v, e, h1, h2, h3, h4, -, -⟩ := sort_block_inner_correct m N base colind vals hc hv
  refine ⟨c, v, e, fun p q hpq hq => ?_⟩
  have hp : ((segEntries m base N c v).map Prod.fst).Perm
      ((segEntries m base N colind vals).map Prod.fst) := h4.map _
  have hnd : ((segEntries m base N colind vals).map Prod.fst).Nodup := by
    unfold segEntries
    rw [List.map_map]
    refine List.Nodup.map_on ?_ List.nodup_range
    intro a ha b hb hab
    exact hd a (List.mem_range.mp ha) b (List.mem_range.mp hb) hab
  rw [← hp.nodup_iff] at hnd
  unfold segEntries at hnd
  rw [List.map_map] at hnd
  refine lt_of_le_of_ne (h3 p q (by omega) hq) fun heq => ?_
  have := List.inj_on_of_nodup_map hnd (x := p) (y := q) (List.mem_range.mpr (by omega))
    (List.mem_range.mpr hq) heq
  omega

example : sortBlockInner 2 4 1 [9, 3, 0, 5, 1, 7] [90, 91, 30, 31, 0, 1, 50, 51, 10, 11, 70, 71]
    = .ok ([9, 0, 1, 3, 5, 7], [90, 91, 0, 1, 10, 11, 30, 31, 50, 51, 70, 71]) := by decide

/-- `inner_search` returns the first matching position, or leaves `*pos` alone. -/
theorem inner_search_correct (aind : List Nat) (start stop ind : Nat) (pos : Int) (hle : start ≤ stop)
    (h : stop ≤ aind.length) :
    (∃ p : Nat, innerSearch aind start stop ind pos = .ok (p : Int) ∧
      start ≤ p ∧ p < stop ∧ aind⟦p⟧ = ind ∧ ∀ q, start ≤ q → q < p → aind⟦q⟧ ≠ ind) ∨
    (innerSearch aind start stop ind pos = .ok pos ∧
      ∀ q, start ≤ q → q < stop → aind⟦q⟧ ≠ ind) := by
  have : Ok (innerSearch aind start stop ind pos) (fun p =>
      ((∃ p' : Nat, p = p' ∧ start ≤ p' ∧ p' < stop ∧ aind⟦p'⟧ = ind ∧
          ∀ q, start ≤ q → q < p' → aind⟦q⟧ ≠ ind) ∨
       (p = pos ∧ ∀ q, start ≤ q → q < stop → aind⟦q⟧ ≠ ind))) := by
    unfold innerSearch
    refine (forRange_ok (fun k (s : Bool × Int) =>
      (s.1 = true ∧ ∃ p' : Nat, s.2 = p' ∧ start ≤ p' ∧ p' < k ∧ aind⟦p'⟧ = ind ∧
        ∀ q, start ≤ q → q < p' → aind⟦q⟧ ≠ ind) ∨
      (s.1 = false ∧ s.2 = pos ∧ ∀ q, start ≤ q → q < k → aind⟦q⟧ ≠ ind)) hle
      (Or.inr ⟨rfl, rfl, fun q h1 h2 => by omega⟩) ?_).bind ?_
    · rintro k ⟨b, p⟩ h1 h2 (⟨hb, p', h3, h4, h5, h6, h7⟩ | ⟨hb, h3, h4⟩)
      · simp only at hb h3
        subst hb
        exact Ok.pure (Or.inl ⟨rfl, p', h3, h4, by omega, h6, h7⟩)
      · simp only at hb h3 h4
        subst hb h3
        simp only [Bool.false_eq_true, if_false]
        rw [rd_eq (by omega), ok_bind]
        by_cases ha : aind⟦k⟧ = ind
        · rw [if_pos ha]
          exact Ok.pure (Or.inl ⟨rfl, k, rfl, h1, by omega, ha, h4⟩)
        · rw [if_neg ha]
          refine Ok.pure (Or.inr ⟨rfl, rfl, fun q h5 h6 => ?_⟩)
          by_cases hq : q = k
          · rw [hq]; exact ha
          · exact h4 q h5 (by omega)
    · rintro ⟨b, p⟩ (⟨_, p', h3, h4, h5, h6, h7⟩ | ⟨_, h3, h4⟩)
      · exact Ok.pure (Or.inl ⟨p', h3, h4, h5, h6, h7⟩)
      · exact Ok.pure (Or.inr ⟨h3, h4⟩)
  obtain ⟨p, e, ⟨p', rfl, h⟩ | ⟨rfl, h⟩⟩ := this
  · exact Or.inl ⟨p', e, h⟩
  · exact Or.inr ⟨e, h⟩

example : innerSearch [4, 7, 1, 7] 1 4 7 (-1) = .ok 1 ∧ innerSearch [4, 7, 1, 7] 2 3 7 (-1) = .ok (-1) := by
  decide

/-! ### Prefix sum -/

section prefixsum
variable {α : Type} [AddCommMonoid α]

/-- Sum over the part of `[0,p)` that lies in the same chunk of width `W` as `p-1`. -/
def chunkSum (a : List α) (W p : Nat) : α := ∑ k ∈ Ico (W * ((p - 1) / W)) p, a⟦k⟧

theorem mul_div_le' (W p : Nat) : W * (p / W) ≤ p := Nat.mul_div_le p W

theorem psLocal_ok {T d n : Nat} (hd : 0 < d) (hT : 0 < T) {a y : List α} {sv : List α}
    (hlast : (T - 1) * d < n) (hcov : n ≤ T * d)
    (hla : a.length = n) (hy : y.length = n) (hsl : sv.length = T) {t : Nat} (ht : t < T)
    (hsv : sv⟦t⟧ = a⟦t * d⟧)
    (hown : ∀ c < n, (if c = 0 then T else (c - 1) / d) = t → y⟦c⟧ = a⟦c⟧) :
    Ok (psLocal T d n sv t y) (fun y' => y'.length = n ∧
      ∀ c < n, y'⟦c⟧ = if (if c = 0 then T else (c - 1) / d) = t then chunkSum a d c else y⟦c⟧) := by
  unfold psLocal
  have hown_iff : ∀ c, (if c = 0 then T else (c - 1) / d) = t ↔ t * d < c ∧ c ≤ t * d + d := by
    intro c
    by_cases h0 : c = 0
    · subst h0; simp; omega
    · rw [if_neg h0, Nat.div_eq_iff hd]; omega
  have htd : t * d < n := lt_of_le_of_lt (Nat.mul_le_mul_right d (by omega)) hlast
  have hsucc : (t + 1) * d = t * d + d := by ring
  have hce : ∀ c, t * d < c → c ≤ t * d + d → d * ((c - 1) / d) = t * d := by
    intro c h1 h2
    rw [(Nat.div_eq_iff hd).mpr (⟨by omega, by omega⟩ : t * d ≤ c - 1 ∧ c - 1 ≤ t * d + d - 1), Nat.mul_comm]
  rw [rd_eq (by omega), ok_bind, hsv, hsucc]
  refine (forRange_ok (fun k (s : List α × α) => s.1.length = n ∧ s.2 = ∑ q ∈ Ico (t * d) k, a⟦q⟧ ∧
    ∀ c < n, s.1⟦c⟧ = if t * d < c ∧ c < k then ∑ q ∈ Ico (t * d) c, a⟦q⟧ else y⟦c⟧)
    (by omega) ⟨hy, by simp, fun c _ => by rw [if_neg (by omega)]⟩ ?_).bind ?_
  · rintro i ⟨cs, ps⟩ h1 h2 ⟨h3, h4, h5⟩
    simp only at h3 h4 h5
    dsimp only
    rw [rd_eq (by omega), ok_bind, wr_eq (by omega), ok_bind]
    refine Ok.pure ⟨by simp [h3], ?_, ?_⟩
    · dsimp only
      rw [h5 i (by omega), if_neg (by omega), hown i (by omega) ((hown_iff i).mpr (by omega)),
        sum_Ico_succ_top (by omega), h4]
    · intro c hc
      dsimp only
      rw [get0_set]
      by_cases hic : i = c
      · subst hic
        rw [if_pos ⟨rfl, by omega⟩, if_pos (by omega), h4]
      · rw [if_neg (by tauto), h5 c hc]
        by_cases h6 : t * d < c ∧ c < i
        · rw [if_pos h6, if_pos (by omega)]
        · rw [if_neg h6, if_neg (by omega)]
  · rintro ⟨cs, ps⟩ ⟨h3, h4, h5⟩
    simp only at h3 h4 h5
    dsimp only
    by_cases htl : t = T - 1
    · rw [if_neg (by simp [htl])]
      have hTd : t * d + d = T * d := by
        rw [← hsucc, htl, Nat.sub_add_cancel hT]
      refine Ok.pure ⟨h3, fun c hc => ?_⟩
      rw [h5 c hc]
      by_cases h6 : t * d < c
      · rw [if_pos (by omega), if_pos ((hown_iff c).mpr (by omega)), chunkSum, hce c h6 (by omega)]
      · rw [if_neg (by omega), if_neg (mt (hown_iff c).mp (by omega))]
    · rw [if_pos htl]
      have : (t + 1) * d ≤ (T - 1) * d := Nat.mul_le_mul_right d (by omega)
      have hmin : min n (t * d + d) = t * d + d := by omega
      rw [hmin, wr_eq (by omega)]
      rw [hmin] at h4 h5
      refine Ok.pure ⟨by simp [h3], fun c hc => ?_⟩
      rw [get0_set]
      by_cases hic : t * d + d = c
      · rw [if_pos ⟨hic, by omega⟩, if_pos ((hown_iff c).mpr (by omega)), chunkSum,
          hce c (by omega) (by omega), h4, hic]
      · rw [if_neg (by tauto), h5 c hc]
        by_cases h6 : t * d < c ∧ c < t * d + d
        · rw [if_pos h6, if_pos ((hown_iff c).mpr (by omega)), chunkSum, hce c h6.1 (by omega)]
        · rw [if_neg h6, if_neg (mt (hown_iff c).mp (by omega))]

theorem psTask_ok {W n : Nat} (hW : 0 < W) {a y y0 : List α} (hn : 0 < n)
    (hy : y.length = n) (h0 : ∀ c < n, y0⟦c⟧ = chunkSum a W c) {t : Nat}
    (hown : ∀ c < n, (c - 1) / (2 * W) = t → y⟦c⟧ = y0⟦c⟧) :
    Ok (psTask (2 * W) n t y) (fun y' => y'.length = n ∧
      ∀ c < n, y'⟦c⟧ = if (c - 1) / (2 * W) = t then chunkSum a (2 * W) c else y⟦c⟧) := by
  unfold psTask
  have hh : 2 * W / 2 = W := by omega
  obtain ⟨b, hb⟩ : ∃ b, b = t * (2 * W) := ⟨_, rfl⟩
  have hs1 : (t + 1) * (2 * W) = b + 2 * W := by rw [hb]; ring
  rw [hh, hs1, ← hb]
  have hown_iff : ∀ c, (c - 1) / (2 * W) = t ↔ b ≤ c - 1 ∧ c - 1 < b + 2 * W := by
    intro c
    rw [Nat.div_eq_iff (by omega), ← hb]; omega
  -- chunk sums before and after
  have hc1 : ∀ c, b < c → c ≤ b + W → chunkSum a W c = ∑ q ∈ Ico b c, a⟦q⟧ := by
    intro c h1 h2
    have : (c - 1) / W = 2 * t := by
      rw [Nat.div_eq_iff hW, show 2 * t * W = b by rw [hb]; ring]; omega
    rw [chunkSum, this, show W * (2 * t) = b by rw [hb]; ring]
  have hc2 : ∀ c, b + W < c → c ≤ b + 2 * W → chunkSum a W c = ∑ q ∈ Ico (b + W) c, a⟦q⟧ := by
    intro c h1 h2
    have : (c - 1) / W = 2 * t + 1 := by
      rw [Nat.div_eq_iff hW, show (2 * t + 1) * W = b + W by rw [hb]; ring]; omega
    rw [chunkSum, this, show W * (2 * t + 1) = b + W by rw [hb]; ring]
  have hc3 : ∀ c, b < c → c ≤ b + 2 * W → chunkSum a (2 * W) c = ∑ q ∈ Ico b c, a⟦q⟧ := by
    intro c h1 h2
    have : (c - 1) / (2 * W) = t := (hown_iff c).mpr (by omega)
    rw [chunkSum, this, Nat.mul_comm, ← hb]
  have hz : ∀ V, chunkSum a V 0 = 0 := by intro V; simp [chunkSum]
  dsimp only
  rw [rd_eq (by omega), ok_bind]
  refine (forRange_ok (fun k (s : List α) => s.length = n ∧ ∀ c < n, s⟦c⟧ =
    if b + W < c ∧ c < k then chunkSum a (2 * W) c else y⟦c⟧) (by omega)
    ⟨hy, fun c _ => by rw [if_neg (by omega)]⟩ ?_).mono ?_
  · rintro i s h1 h2 ⟨h3, h4⟩
    rw [rd_eq (by omega), ok_bind, wr_eq (by omega)]
    refine Ok.pure ⟨by simp [h3], fun c hc => ?_⟩
    rw [get0_set]
    by_cases hic : i = c
    · subst hic
      have hst : min n (W + b + 1) - 1 = b + W := by omega
      rw [if_pos ⟨rfl, by omega⟩, if_pos (by omega), hst, h4 i (by omega), if_neg (by omega),
        hown i (by omega) ((hown_iff i).mpr (by omega)),
        hown (b + W) (by omega) ((hown_iff _).mpr (by omega)), h0 i (by omega), h0 (b + W) (by omega),
        hc1 (b + W) (by omega) (by omega), hc2 i (by omega) (by omega), hc3 i (by omega) (by omega),
        add_comm, sum_Ico_consecutive _ (by omega) (by omega)]
    · rw [if_neg (by tauto), h4 c hc]
      by_cases h6 : b + W < c ∧ c < i
      · rw [if_pos h6, if_pos (by omega)]
      · rw [if_neg h6, if_neg (by omega)]
  · rintro s ⟨h3, h4⟩
    refine ⟨h3, fun c hc => ?_⟩
    rw [h4 c hc]
    by_cases h6 : b + W < c ∧ c < min n (b + 2 * W + 1)
    · rw [if_pos h6, if_pos ((hown_iff c).mpr (by omega))]
    · rw [if_neg h6]
      split
      · next hoc =>
        rw [hown c hc hoc, h0 c hc]
        rcases Nat.eq_zero_or_pos c with hc0 | hc0
        · rw [hc0, hz, hz]
        · have := (hown_iff c).mp hoc
          rw [hc1 c (by omega) (by omega), hc3 c (by omega) (by omega)]
      · rfl

/-- What `prefix_sum` computes with `T` threads and `levels` levels, exactly: the sum of the
preceding entries *within the chunk of width `2^levels * d`*. -/
theorem prefix_sum_exact (a : List α) (T levels : Nat) (hT : 0 < T) (h1 : 1 < a.length)
    (hlast : (T - 1) * ((a.length - 1) / T + 1) < a.length)
    (ord0 ord1 : List Nat) (ordL : Nat → List Nat) (ho0 : ord0.Perm (List.range T))
    (ho1 : ord1.Perm (List.range T))
    (hoL : ∀ l, (ordL l).Perm (List.range ((T - 1) / 2 ^ (l + 1) + 1))) :
    ∃ r, prefixSum T levels ord0 ord1 ordL a = .ok r ∧ r.length = a.length ∧
      ∀ p < a.length, r⟦p⟧ = chunkSum a (2 ^ levels * ((a.length - 1) / T + 1)) p := by
  obtain ⟨n, hn⟩ : ∃ n, n = a.length := ⟨_, rfl⟩
  obtain ⟨d, hd⟩ : ∃ d, d = (n - 1) / T + 1 := ⟨_, rfl⟩
  have hcov : n ≤ T * d := by
    have := Nat.lt_mul_div_succ (n - 1) hT
    rw [hd]; omega
  rw [← hn, ← hd] at hlast
  have hd0 : 0 < d := by rw [hd]; exact Nat.succ_pos _
  suffices H : Ok (prefixSum T levels ord0 ord1 ordL a) (fun r => r.length = n ∧
      ∀ p < n, r⟦p⟧ = chunkSum a (2 ^ levels * d) p) by
    rw [← hn, ← hd]; obtain ⟨r, e, h⟩ := H; exact ⟨r, e, h⟩
  unfold prefixSum
  simp only
  rw [← hn, if_neg (by omega), ← hd]
  simp only [parFor_eq ho0, parFor_eq ho1, parFor_eq (hoL _)]
  have hm0 : ∀ t, t ∈ ord0 ↔ t < T := fun t => by rw [ho0.mem_iff, List.mem_range]
  have hm1 : ∀ t, t ∈ ord1 ↔ t < T := fun t => by rw [ho1.mem_iff, List.mem_range]
  have htd : ∀ t < T, t * d < n := fun t ht =>
    lt_of_le_of_lt (Nat.mul_le_mul_right d (by omega)) hlast
  refine (forList_par (fun t => a⟦t * d⟧) (ho0.nodup_iff.mpr List.nodup_range)
    (fun t ht => by simpa using (hm0 t).mp ht) (fun t ht sv hl _ => by
      have ht := (hm0 t).mp ht
      have := htd t ht
      rw [rd_eq (by omega), ok_bind, wr_eq (by rw [hl]; simpa using ht)])).bind ?_
  rintro sv ⟨hsl, hsv⟩
  rw [List.length_replicate] at hsl
  refine (forList_own (body := psLocal T d n sv) (y := a) (fun c => if c = 0 then T else (c - 1) / d)
    (chunkSum a d) (ho1.nodup_iff.mpr List.nodup_range) ?_).bind ?_
  · intro t ht y' hl hown
    have ht := (hm1 t).mp ht
    refine (psLocal_ok (by omega) hT hlast hcov hn.symm (hl.trans hn.symm) hsl ht ?_ ?_).mono ?_
    · rw [hsv t (by simpa using ht), if_pos ((hm0 t).mpr ht)]
    · rw [hn]; exact hown
    · rw [hn]; exact fun y' h => h
  · rintro c1 ⟨hl1, hc1⟩
    rw [wr_eq (by omega), ok_bind]
    refine (forRange_ok (fun l (y : List α) => y.length = n ∧
      ∀ p < n, y⟦p⟧ = chunkSum a (2 ^ l * d) p) (Nat.zero_le _) ⟨by simp; omega, ?_⟩ ?_)
    · intro p hp
      rw [get0_set, Nat.pow_zero, Nat.one_mul]
      by_cases h0 : 0 = p
      · rw [if_pos ⟨h0, by omega⟩, ← h0]; simp [chunkSum]
      · rw [if_neg (by tauto), hc1 p (by omega), if_neg (show ¬ p = 0 by omega), if_pos]
        rw [hm1, Nat.div_lt_iff_lt_mul (by omega)]
        omega
    · rintro l y _ _ ⟨hl, hy⟩
      have hW : 0 < 2 ^ l * d := Nat.mul_pos (Nat.two_pow_pos l) (by omega)
      have e : 2 ^ (l + 1) * d = 2 * (2 ^ l * d) := by rw [Nat.pow_succ]; ring
      rw [e]
      refine (forList_own (body := psTask (2 * (2 ^ l * d)) n) (y := y)
        (fun c => (c - 1) / (2 * (2 ^ l * d))) (chunkSum a (2 * (2 ^ l * d)))
        ((hoL l).nodup_iff.mpr List.nodup_range) ?_).mono ?_
      · intro t _ y' hl' hown
        rw [hl] at hown ⊢
        exact psTask_ok hW (by omega) (hl'.trans hl) hy hown
      · rintro y' ⟨hl', h⟩
        refine ⟨by omega, fun p hp => ?_⟩
        rw [h p (by omega), if_pos]
        rw [(hoL l).mem_iff, List.mem_range, ← e, Nat.mul_comm, ← Nat.div_div_eq_div_mul]
        have : (p - 1) / d ≤ T - 1 := by
          have : (p - 1) / d < T := by rw [Nat.div_lt_iff_lt_mul (by omega)]; omega
          omega
        have := Nat.div_le_div_right (c := 2 ^ (l + 1)) this
        omega

/-- A list of at most one entry is handled without conditions. -/
theorem prefix_sum_small (a : List α) (h : a.length ≤ 1) (T levels : Nat) (ord0 ord1 : List Nat)
    (ordL : Nat → List Nat) :
    ∃ r, prefixSum T levels ord0 ord1 ordL a = .ok r ∧ r.length = a.length ∧
      ∀ p < a.length, r⟦p⟧ = ∑ k ∈ range p, a⟦k⟧ := by
  match a, h with
  | [], _ => exact ⟨[], rfl, rfl, by simp⟩
  | [x], _ => exact ⟨[0], rfl, rfl, fun p hp => by
      have : p = 0 := by simpa using hp
      subst this; simp [get0]⟩

/-- **C10 (partial)** `prefix_sum` computes the exclusive prefix sums, for every order of threads and
tasks, provided (1) every thread has work, `(T-1) d < n`, and (2) `2^levels ≥ T`. Missing: without (1)
the code reads out of bounds (`prefix_sum_ub`), and (2) fails for `levels = ceil(log T)` as computed
by the code unless `T` is 1, 2, 3, 4 or 8 (`prefix_sum_levels_ok`, `prefix_sum_wrong`). -/
theorem prefix_sum_correct_partial (a : List α) (T levels : Nat) (hT : 0 < T)
    (hlast : (T - 1) * ((a.length - 1) / T + 1) < a.length) (hlev : T ≤ 2 ^ levels)
    (ord0 ord1 : List Nat) (ordL : Nat → List Nat) (ho0 : ord0.Perm (List.range T))
    (ho1 : ord1.Perm (List.range T))
    (hoL : ∀ l, (ordL l).Perm (List.range ((T - 1) / 2 ^ (l + 1) + 1))) :
    ∃ r, prefixSum T levels ord0 ord1 ordL a = .ok r ∧ r.length = a.length ∧
      ∀ p < a.length, r⟦p⟧ = ∑ k ∈ range p, a⟦k⟧ := by
  by_cases h1 : 1 < a.length
  · obtain ⟨r, e, hl, h⟩ := prefix_sum_exact a T levels hT h1 hlast ord0 ord1 ordL ho0 ho1 hoL
    refine ⟨r, e, hl, fun p hp => ?_⟩
    rw [h p hp, chunkSum]
    have hcov : a.length ≤ T * ((a.length - 1) / T + 1) := by
      have := Nat.lt_mul_div_succ (a.length - 1) hT
      omega
    have hle := Nat.mul_le_mul_right ((a.length - 1) / T + 1) hlev
    rw [Nat.div_eq_of_lt (show p - 1 < 2 ^ levels * ((a.length - 1) / T + 1) by omega), Nat.mul_zero,
      ← range_eq_Ico]
  · exact prefix_sum_small a (by omega) T levels ord0 ord1 ordL

/-- **C10 fails (1)**: if some thread has no work the code reads outside of the array. -/
theorem prefix_sum_ub (a : List α) (T levels : Nat) (h1 : 1 < a.length)
    (hlast : a.length ≤ (T - 1) * ((a.length - 1) / T + 1))
    (ord0 ord1 : List Nat) (ordL : Nat → List Nat) (ho0 : ord0.Perm (List.range T)) :
    prefixSum T levels ord0 ord1 ordL a = .error .ub := by
  unfold prefixSum
  simp only
  rw [if_neg (by omega)]
  obtain ⟨d, hd⟩ : ∃ d, d = (a.length - 1) / T + 1 := ⟨_, rfl⟩
  rw [← hd] at hlast ⊢
  have hT : 0 < T := by
    rcases Nat.eq_zero_or_pos T with h | h
    · rw [h, Nat.zero_sub, Nat.zero_mul] at hlast; omega
    · exact h
  have hmem : T - 1 ∈ ord0 := by rw [ho0.mem_iff, List.mem_range]; omega
  suffices H : ∀ (l : List Nat) (sv : List α), T - 1 ∈ l → forList l (fun t sv => do
      let v ← rd a (t * d)
      wr sv t v) sv = .error .ub by
    rw [parFor_eq ho0, H ord0 _ hmem]; rfl
  intro l
  induction l with
  | nil => intro sv h; simp at h
  | cons t l ih =>
    intro sv h
    rw [forList_cons]
    by_cases ht : t * d < a.length
    · rw [rd_eq ht, ok_bind]
      have hne : t ≠ T - 1 := by rintro rfl; omega
      by_cases hs : t < sv.length
      · rw [wr_eq hs, ok_bind]
        refine ih _ ?_
        rcases List.mem_cons.mp h with h | h
        · exact absurd h.symm hne
        · exact h
      · rw [wr_ub (by omega)]; rfl
    · rw [rd_ub (by omega)]; rfl

/-- **C10 fails (2)**: with too few levels the result is wrong, e.g. for `2T` entries all equal to 1. -/
theorem prefix_sum_wrong (T levels : Nat) (hT : 0 < T) (hlev : 2 ^ levels < T)
    (ord0 ord1 : List Nat) (ordL : Nat → List Nat) (ho0 : ord0.Perm (List.range T))
    (ho1 : ord1.Perm (List.range T))
    (hoL : ∀ l, (ordL l).Perm (List.range ((T - 1) / 2 ^ (l + 1) + 1))) :
    ∃ r, prefixSum T levels ord0 ord1 ordL (List.replicate (2 * T) (1 : Nat)) = .ok r ∧
      r⟦2 * T - 1⟧ ≠ ∑ k ∈ range (2 * T - 1), (List.replicate (2 * T) (1 : Nat))⟦k⟧ := by
  have hdiv : (2 * T - 1) / T + 1 = 2 := by
    have : (2 * T - 1) / T = 1 := by rw [Nat.div_eq_iff hT]; omega
    omega
  obtain ⟨r, e, hl, h⟩ := prefix_sum_exact (List.replicate (2 * T) (1 : Nat)) T levels hT
    (by simp; omega) (by simp only [List.length_replicate]; rw [hdiv]; omega) ord0 ord1 ordL ho0 ho1 hoL
  refine ⟨r, e, ?_⟩
  simp only [List.length_replicate] at h
  rw [h (2 * T - 1) (by omega), hdiv, chunkSum]
  have hone : ∀ k ∈ range (2 * T - 1), (List.replicate (2 * T) (1 : Nat))⟦k⟧ = 1 := by
    intro k hk
    rw [mem_range] at hk
    exact get0_replicate_of_lt (by omega)
  rw [sum_congr rfl hone]
  have hone' : ∀ k ∈ Ico (2 ^ levels * 2 * ((2 * T - 1 - 1) / (2 ^ levels * 2))) (2 * T - 1),
      (List.replicate (2 * T) (1 : Nat))⟦k⟧ = 1 := by
    intro k hk
    rw [mem_Ico] at hk
    exact get0_replicate_of_lt (by omega)
  rw [sum_congr rfl hone']
  have hp := Nat.two_pow_pos levels
  have hge : 1 ≤ (2 * T - 1 - 1) / (2 ^ levels * 2) := by
    rw [Nat.le_div_iff_mul_le (by omega)]; omega
  have := Nat.mul_le_mul_left (2 ^ levels * 2) hge
  simp only [sum_const, Nat.card_Ico, card_range, smul_eq_mul, Nat.mul_one]
  omega

end prefixsum

/-- The number of levels the code uses (`src/utils/prefix_sum.cpp` line 55) is `ceil(log T)`
with the natural logarithm. It is enough (`2^levels ≥ T`) exactly for 1, 2, 3, 4 and 8 threads. -/
theorem prefix_sum_levels_ok (T : Nat) (hT : 0 < T) :
    T ≤ 2 ^ ⌈Real.log T⌉₊ ↔ T = 1 ∨ T = 2 ∨ T = 3 ∨ T = 4 ∨ T = 8 := by
  have he1 := Real.exp_one_gt_d9
  have he2 := Real.exp_one_lt_d9
  -- ceil(log T) ≤ k iff T ≤ e^k
  have key : ∀ k : Nat, ⌈Real.log T⌉₊ ≤ k ↔ (T : ℝ) ≤ Real.exp 1 ^ k := by
    intro k
    rw [Nat.ceil_le, ← Real.exp_nat_mul, mul_one]
    exact Real.log_le_iff_le_exp (by exact_mod_cast hT)
  constructor
  · intro h
    by_contra hne
    push Not at hne
    obtain ⟨L, hL⟩ : ∃ L, L = ⌈Real.log T⌉₊ := ⟨_, rfl⟩
    rw [← hL] at h key
    rcases L with _ | L
    · simp at h; omega
    · -- e^L < T ≤ 2^(L+1)
      have hgt : Real.exp 1 ^ L < (T : ℝ) := by
        by_contra hc
        have := (key L).mpr (not_lt.mp hc)
        omega
      have hup : (T : ℝ) ≤ 2 ^ (L + 1) := by exact_mod_cast h
      -- L ≤ 2
      have hL2 : L ≤ 2 := by
        by_contra hL3
        have hL3 : 3 ≤ L := by omega
        obtain ⟨M, rfl⟩ := Nat.exists_eq_add_of_le hL3
        have h27 : (2.7 : ℝ) ^ (3 + M) ≤ Real.exp 1 ^ (3 + M) :=
          pow_le_pow_left₀ (by norm_num) (by linarith) _
        have h2 : (2 : ℝ) ^ M ≤ 2.7 ^ M := pow_le_pow_left₀ (by norm_num) (by norm_num) _
        have hpos : (0 : ℝ) < 2 ^ M := by positivity
        have : (2.7 : ℝ) ^ (3 + M) < 2 ^ (3 + M + 1) := by linarith
        rw [show 3 + M + 1 = M + 4 by omega, pow_add, pow_add] at this
        nlinarith
      interval_cases L
      · have : T ≤ 2 := by simpa using h
        omega
      · have h4 : T ≤ 4 := by simpa using h
        omega
      · have h8 : T ≤ 8 := by simpa using h
        have h7 : 7 < T := by
          have : (7 : ℝ) < T := by nlinarith
          exact_mod_cast this
        omega
  · have low : ∀ k : Nat, Real.exp 1 ^ k < (T : ℝ) → k + 1 ≤ ⌈Real.log T⌉₊ := by
      intro k hk
      by_contra hc
      have := (key k).mp (by omega)
      linarith
    have fin : ∀ k : Nat, k ≤ ⌈Real.log T⌉₊ → T ≤ 2 ^ k → T ≤ 2 ^ ⌈Real.log T⌉₊ := fun k h1 h2 =>
      h2.trans (Nat.pow_le_pow_right (by norm_num) h1)
    rintro (rfl | rfl | rfl | rfl | rfl)
    · simp
    · exact fin 1 (low 0 (by norm_num)) (by norm_num)
    · exact fin 2 (low 1 (by push_cast; linarith)) (by norm_num)
    · exact fin 2 (low 1 (by push_cast; linarith)) (by norm_num)
    · exact fin 3 (low 2 (by push_cast; nlinarith)) (by norm_num)

/-- Hypotheses of `prefix_sum_correct_partial` on a concrete run: 3 threads, 8 entries. -/
example : (3 - 1) * (([3, 1, 4, 1, 5, 9, 2, 6].length - 1) / 3 + 1) < [3, 1, 4, 1, 5, 9, 2, 6].length ∧
    3 ≤ 2 ^ 2 ∧ prefixSum 3 2 [2, 0, 1] [1, 2, 0] (fun l => List.range ((3 - 1) / 2 ^ (l + 1) + 1))
      [3, 1, 4, 1, 5, 9, 2, 6] = .ok [0, 3, 4, 8, 9, 14, 23, 25] := by decide

/-- 5 entries and 4 threads: out-of-bounds access. -/
example : prefixSum 4 2 [0, 1, 2, 3] [0, 1, 2, 3] (fun l => List.range ((4 - 1) / 2 ^ (l + 1) + 1))
    [1, 1, 1, 1, 1] = .error .ub := by decide

/-- 10 entries and 5 threads (`ceil(log 5) = 2` levels): wrong result. -/
example : prefixSum 5 2 (List.range 5) (List.range 5)
    (fun l => List.range ((5 - 1) / 2 ^ (l + 1) + 1)) [1, 1, 1, 1, 1, 1, 1, 1, 1, 1] =
    .ok [0, 1, 2, 3, 4, 5, 6, 7, 8, 1] := by decide

end Blasted
