import Verif.Sai.ScatterLemmas
import Mathlib.Algebra.Order.Field.Basic
import Mathlib.Algebra.Field.Rat
import Mathlib.Algebra.Order.Ring.Rat

/-!
# Computed approximate inverses (C43)

The theorems about `compute_SAI`. The two dense solvers it calls are Eigen's; they are parameters of the model,
with the contracts `SolvesExactly` and `SolvesLeastSquares` below.
-/

namespace Blasted
open Finset

variable {K : Type}

/-! ### Specification -/

/-- `S` can hold the approximate inverse of `A`: same rows and same column pattern as `A`, with rows that
occupy different positions, and values for all stored blocks. -/
structure SaiTarget (A S : SR K) (bs : Nat) : Prop where
  view : S.ViewOk
  rows : S.nbrows = A.nbrows
  nnz : S.nnzb = A.nnzb
  cols : ∀ i < A.nbrows, S.rowCols i = A.rowCols i
  apart : ∀ i < A.nbrows, ∀ j < A.nbrows, ∀ k, S.Has i k → S.Has j k → i = j
  len : S.bcolind.length * (bs * bs) ≤ S.vals.length

/-- Contract of a direct solver for square systems: what it returns solves the system for every column of the
right-hand side. Nothing is assumed about when it returns. -/
def SolvesExactly [Field K] (lu : LMat K → LMat K → C (LMat K)) : Prop :=
  ∀ L R X, L.Wf → R.Wf → L.rows = L.cols → R.rows = L.rows → lu L R = .ok X →
    X.Wf ∧ X.rows = L.cols ∧ X.cols = R.cols ∧
    ∀ r < L.rows, ∀ q < R.cols, ∑ c ∈ range L.cols, L.at r c * X.at c q = R.at r q

/-- Contract of a least-squares solver: what it returns minimises the residual for every column of the
right-hand side. -/
def SolvesLeastSquares [Field K] [LinearOrder K] (qr : LMat K → LMat K → C (LMat K)) : Prop :=
  ∀ L R X, L.Wf → R.Wf → R.rows = L.rows → qr L R = .ok X →
    X.Wf ∧ X.rows = L.cols ∧ X.cols = R.cols ∧
    ∀ q < R.cols, ∀ y : Nat → K,
      ∑ r ∈ range L.rows, (∑ c ∈ range L.cols, L.at r c * X.at c q - R.at r q) ^ 2 ≤
      ∑ r ∈ range L.rows, (∑ c ∈ range L.cols, L.at r c * y c - R.at r q) ^ 2

/-- Entry `(I, J)` of the product of two block matrices with as many scalar rows as `A`. -/
def prodEntry [Field K] (stor : Stor) (bs : Nat) (M A : SR K) (I J : Nat) : K :=
  ∑ R ∈ range (A.nbrows * bs), M.bentry stor bs I R * A.bentry stor bs R J

/-! ### One row -/

theorem forList_each_ok {σ : Type _} {body : Nat → σ → C σ} {l : List Nat} {s s' : σ}
    (h : forList l body s = .ok s') : ∀ i ∈ l, ∃ s0 s1, body i s0 = .ok s1 := by
  induction l generalizing s with
  | nil => intro i hi; cases hi
  | cons a l ih =>
    rw [forList_cons] at h
    cases hb : body a s with
    | error e => rw [hb, error_bind] at h; cases h
    | ok s1 =>
      rw [hb, ok_bind] at h
      intro i hi
      rcases List.mem_cons.mp hi with rfl | hi
      · exact ⟨s, s1, hb⟩
      · exact ih h i hi

variable [Field K] {A S : SR K} {bs : Nat} {stor : Stor} {sp : SaiPattern} {asserts fullsai : Bool}
  {qr lu : LMat K → LMat K → C (LMat K)} {cs : List Nat} {i : Nat}

/-- What a successful row solve went through. -/
theorem saiSolve_inv (h : A.ViewOk) (hv : A.bcolind.length * (bs * bs) ≤ A.vals.length) (hs : sp.Sized A.nbrows)
    (hi : i < A.nbrows) (hl : sp.Local A i cs) {X : LMat K}
    (hX : saiSolve asserts bs stor qr lu fullsai A sp i = .ok X) :
    ∃ L R : LMat K, (L.rows = cs.length * bs ∧ L.cols = A.rowLen i * bs ∧ L.Wf ∧
      ∀ e (he : e < cs.length), ∀ c < A.rowLen i, ∀ a < bs, ∀ b < bs, L.at (e * bs + a) (c * bs + b) =
        A.bentry stor bs (A.bcolind⟦A.browptr⟦i⟧ + c⟧ * bs + b) (cs[e] * bs + a)) ∧
      (R.rows = cs.length * bs ∧ R.cols = bs ∧ R.Wf ∧ ∀ e < cs.length, ∀ a < bs, ∀ q < bs,
        R.at (e * bs + a) q = if e = sp.localCentralRow⟦i⟧.toNat ∧ a = q then 1 else 0) ∧
      (if fullsai then qr L R else lu L R) = .ok X := by
  have hd : asserts = true → sp.Dense i := by
    rintro rfl
    by_contra hnd
    unfold saiSolve at hX
    rw [gather_abort h hv hs hi hl hnd, error_bind] at hX
    cases hX
  obtain ⟨L, hL, p1⟩ := gather_ok (stor := stor) h hv hs hi hl hd
  have hlc : sp.localCentralRow⟦i⟧.toNat < cs.length := (List.getElem?_eq_some_iff.mp hl.central.2).1
  obtain ⟨R, hR, p2⟩ := rhs_ok (K := K) (bs := bs) p1.1 (by rw [hs.central_len]; exact hi) hl.central.1 rfl hlc
  refine ⟨L, R, p1, p2, ?_⟩
  unfold saiSolve at hX
  rw [hL, ok_bind, hR, ok_bind] at hX
  exact hX

/-- The rest of a row solve, when the dense solver returns. -/
theorem saiSolve_eq (h : A.ViewOk) (hv : A.bcolind.length * (bs * bs) ≤ A.vals.length) (hs : sp.Sized A.nbrows)
    (hi : i < A.nbrows) (hl : sp.Local A i cs) (hd : asserts = true → sp.Dense i) :
    ∃ L R : LMat K, (L.rows = cs.length * bs ∧ L.cols = A.rowLen i * bs ∧ L.Wf ∧
      ∀ e (he : e < cs.length), ∀ c < A.rowLen i, ∀ a < bs, ∀ b < bs, L.at (e * bs + a) (c * bs + b) =
        A.bentry stor bs (A.bcolind⟦A.browptr⟦i⟧ + c⟧ * bs + b) (cs[e] * bs + a)) ∧
      (R.rows = cs.length * bs ∧ R.cols = bs ∧ R.Wf) ∧
      saiSolve asserts bs stor qr lu fullsai A sp i = if fullsai then qr L R else lu L R := by
  obtain ⟨L, hL, p1⟩ := gather_ok (stor := stor) h hv hs hi hl hd
  have hlc : sp.localCentralRow⟦i⟧.toNat < cs.length := (List.getElem?_eq_some_iff.mp hl.central.2).1
  obtain ⟨R, hR, p2⟩ := rhs_ok (K := K) (bs := bs) p1.1 (by rw [hs.central_len]; exact hi) hl.central.1 rfl hlc
  refine ⟨L, R, p1, ⟨p2.1, p2.2.1, p2.2.2.1⟩, ?_⟩
  unfold saiSolve
  rw [hL, ok_bind, hR, ok_bind]

omit [Field K] in
theorem SR.rowCols_getElem {A : SR K} {i c : Nat} (hc : c < (A.rowCols i).length) :
    (A.rowCols i)[c] = A.bcolind⟦A.browptr⟦i⟧ + c⟧ := by
  simp [SR.rowCols]

omit [Field K] in
theorem SaiTarget.rowLen (t : SaiTarget A S bs) (hi : i < A.nbrows) : S.rowLen i = A.rowLen i := by
  have := congrArg List.length (t.cols i hi)
  rwa [SR.rowCols_length, SR.rowCols_length] at this

omit [Field K] in
theorem SaiTarget.col (t : SaiTarget A S bs) (hi : i < A.nbrows) {c : Nat} (hc : c < A.rowLen i) :
    S.bcolind⟦S.browptr⟦i⟧ + c⟧ = A.bcolind⟦A.browptr⟦i⟧ + c⟧ := by
  have h1 : c < (A.rowCols i).length := by rw [SR.rowCols_length]; exact hc
  have h2 : c < (S.rowCols i).length := by rw [t.cols i hi]; exact h1
  have h3 : (S.rowCols i)[c] = (A.rowCols i)[c] := by simp [t.cols i hi]
  rwa [SR.rowCols_getElem, SR.rowCols_getElem] at h3

/-! ### The loop -/

/-- All rows solved: then in every order the loop succeeds with the same values, given by the row solutions. -/
theorem computeSai_values (hbs : 0 < bs) (t : SaiTarget A S bs) (hs : sp.Sized A.nbrows)
    (hnv : ∀ i < A.nbrows, sp.nVars⟦i⟧ = A.rowLen i)
    (hall : ∀ i < A.nbrows, ∃ X, saiSolve asserts bs stor qr lu fullsai A sp i = .ok X ∧ X.Wf ∧
      X.rows = A.rowLen i * bs ∧ X.cols = bs) :
    ∃ vals : List K, (∀ ord : List Nat, ord.Perm (List.range A.nbrows) →
        computeSai asserts bs stor qr lu fullsai A sp S ord = .ok { S with vals := vals }) ∧
      vals.length = S.vals.length ∧
      (∀ i < A.nbrows, ∀ X, saiSolve asserts bs stor qr lu fullsai A sp i = .ok X →
        ∀ c < A.rowLen i, ∀ a < bs, ∀ b < bs,
        vals⟦(S.browptr⟦i⟧ + c) * (bs * bs) + stor.off bs a b⟧ = X.at (c * bs + b) a) := by
  classical
  have hall' : ∀ i, ∃ X, i < A.nbrows → saiSolve asserts bs stor qr lu fullsai A sp i = .ok X ∧ X.Wf ∧
      X.rows = A.rowLen i * bs ∧ X.cols = bs := by
    intro i
    by_cases hi : i < A.nbrows
    · obtain ⟨X, hX⟩ := hall i hi; exact ⟨X, fun _ => hX⟩
    · exact ⟨LMat.zero 0 0, fun x => absurd x hi⟩
  choose X hX using hall'
  let own : Nat → Nat := fun c => if hh : ∃ i, i < A.nbrows ∧ S.Has i (c / (bs * bs)) then hh.choose else A.nbrows
  have own_iff : ∀ c i, i < A.nbrows → (own c = i ↔ S.Has i (c / (bs * bs))) := by
    intro c i hi
    show (if hh : ∃ i, i < A.nbrows ∧ S.Has i (c / (bs * bs)) then hh.choose else A.nbrows) = i ↔ _
    by_cases hh : ∃ i, i < A.nbrows ∧ S.Has i (c / (bs * bs))
    · rw [dif_pos hh]
      constructor
      · rintro rfl; exact hh.choose_spec.2
      · intro g; exact t.apart _ hh.choose_spec.1 _ hi _ hh.choose_spec.2 g
    · rw [dif_neg hh]
      constructor
      · intro e; omega
      · intro g; exact absurd ⟨i, hi, g⟩ hh
  let f : Nat → K := fun c => scatterVal stor bs S.browptr⟦own c⟧ (X (own c)) c
  let V : List K := (List.range S.vals.length).map fun c => if own c < A.nbrows then f c else S.vals⟦c⟧
  have hVlen : V.length = S.vals.length := by simp [V]
  have hV : ∀ c < S.vals.length, V⟦c⟧ = if own c < A.nbrows then f c else S.vals⟦c⟧ := by
    intro c hc; exact get0_map_range _ hc
  refine ⟨V, ?_, hVlen, ?_⟩
  · intro ord hord
    have hmem : ∀ x, x ∈ ord ↔ x < A.nbrows := fun x => by rw [hord.mem_iff, List.mem_range]
    have hrun : Ok (forList ord (saiRow asserts bs stor qr lu fullsai A sp S) S.vals) (fun y' =>
        y'.length = S.vals.length ∧ ∀ c < S.vals.length, y'⟦c⟧ = if own c ∈ ord then f c else S.vals⟦c⟧) := by
      refine forList_own own f (hord.nodup_iff.mpr List.nodup_range) ?_
      intro i hi y' hy' _
      rw [hmem] at hi
      obtain ⟨x1, x2, x3, x4⟩ := hX i hi
      unfold saiRow
      rw [x1, ok_bind]
      have hlen := t.len
      refine (scatter_ok hbs t.view (by rw [t.rows]; exact hi) (by rw [hy']; exact hlen)
        (by rw [hs.vars_len]; exact hi) (by rw [hnv i hi, t.rowLen hi]) x2 (by rw [x3, t.rowLen hi]) x4).mono ?_
      rintro v ⟨v1, v2⟩
      refine ⟨v1.trans hy', fun c hc => ?_⟩
      rw [v2 c (by omega)]
      by_cases g : own c = i
      · rw [if_pos g, if_pos ((own_iff c i hi).mp g)]
        show _ = scatterVal stor bs S.browptr⟦own c⟧ (X (own c)) c
        rw [g]
      · rw [if_neg g, if_neg (fun x => g ((own_iff c i hi).mpr x))]
    obtain ⟨v, hv, hvl, hvv⟩ := hrun
    have : v = V := by
      refine ext_get0 (by omega) fun c hc => ?_
      rw [hvv c (by omega), hV c (by omega)]
      simp only [hmem]
    unfold computeSai
    rw [cassert_true (by rw [t.rows]; simp), ok_bind, cassert_true (by rw [t.nnz]; simp), ok_bind,
      parFor_eq hord, hv, ok_bind, this]
  · intro i hi Y hY c hc a ha b hb
    obtain ⟨x1, -, -, -⟩ := hX i hi
    have hXY : X i = Y := by rw [x1] at hY; exact Except.ok.inj hY
    have hoff := stor.off_lt ha hb
    obtain ⟨d1, d2⟩ := cell_div (k := S.browptr⟦i⟧ + c) hoff
    have hrl := t.rowLen hi
    have hhas : S.Has i (S.browptr⟦i⟧ + c) := ⟨by omega, by unfold SR.rowLen at *; omega⟩
    have hown : own ((S.browptr⟦i⟧ + c) * (bs * bs) + stor.off bs a b) = i := by
      rw [own_iff _ _ hi, d1]; exact hhas
    have hend := t.view.end_le i (by rw [t.rows]; exact hi)
    rw [hV _ ((blk_lt (n := S.bcolind.length) (by have := hhas.2; omega) hoff).trans_le t.len), if_pos (by omega)]
    show scatterVal stor bs S.browptr⟦own _⟧ (X (own _)) _ = _
    rw [hown, hXY, scatterVal, d1, d2, stor.unoff_off ha hb]
    rw [Nat.add_sub_cancel_left]

/-- A successful run solved every row, whatever the order. -/
theorem computeSai_rows {ord : List Nat} {M : SR K} (hM : computeSai asserts bs stor qr lu fullsai A sp S ord = .ok M) :
    ord.Perm (List.range A.nbrows) ∧
      ∀ i < A.nbrows, ∃ X, saiSolve asserts bs stor qr lu fullsai A sp i = .ok X := by
  unfold computeSai at hM
  by_cases c1 : (!asserts || A.nbrows == S.nbrows) = true
  · by_cases c2 : (!asserts || A.nnzb == S.nnzb) = true
    · rw [cassert_true c1, ok_bind, cassert_true c2, ok_bind] at hM
      by_cases hord : ord.Perm (List.range A.nbrows)
      · refine ⟨hord, fun i hi => ?_⟩
        rw [parFor_eq hord] at hM
        cases hf : forList ord (saiRow asserts bs stor qr lu fullsai A sp S) S.vals with
        | error e => rw [hf, error_bind] at hM; cases hM
        | ok v =>
          obtain ⟨s0, s1, hb⟩ := forList_each_ok hf i (by rw [hord.mem_iff, List.mem_range]; exact hi)
          unfold saiRow at hb
          cases hx : saiSolve asserts bs stor qr lu fullsai A sp i with
          | error e => rw [hx, error_bind] at hb; cases hb
          | ok X => exact ⟨X, rfl⟩
      · unfold parFor at hM
        rw [if_neg hord, error_bind] at hM; cases hM
    · unfold cassert at hM
      rw [if_pos c1, ok_bind, if_neg c2, error_bind] at hM; cases hM
  · unfold cassert at hM
    rw [if_neg c1, error_bind] at hM; cases hM

/-! ### The product with the matrix -/

theorem row_times (M : SR K) (hM : M.ViewOk) {a : Nat} (hi : i < M.nbrows) (ha : a < bs) (g : Nat → K) :
    ∑ R ∈ range (M.nbrows * bs), M.bentry stor bs (i * bs + a) R * g R =
      ∑ c ∈ range (M.rowLen i), ∑ b ∈ range bs,
        M.vals⟦(M.browptr⟦i⟧ + c) * (bs * bs) + stor.off bs a b⟧ * g (M.bcolind⟦M.browptr⟦i⟧ + c⟧ * bs + b) := by
  rw [sum_range_mul_blocks]
  have e1 : ∀ j ∈ range M.nbrows, ∑ b ∈ range bs, M.bentry stor bs (i * bs + a) (j * bs + b) * g (j * bs + b) =
      ∑ c ∈ range (M.rowLen i), if M.bcolind⟦M.browptr⟦i⟧ + c⟧ = j then ∑ b ∈ range bs,
        M.vals⟦(M.browptr⟦i⟧ + c) * (bs * bs) + stor.off bs a b⟧ * g (M.bcolind⟦M.browptr⟦i⟧ + c⟧ * bs + b) else 0 := by
    intro j _
    have e2 : ∀ b ∈ range bs, M.bentry stor bs (i * bs + a) (j * bs + b) * g (j * bs + b) =
        ∑ c ∈ range (M.rowLen i), if M.bcolind⟦M.browptr⟦i⟧ + c⟧ = j then
          M.vals⟦(M.browptr⟦i⟧ + c) * (bs * bs) + stor.off bs a b⟧ * g (M.bcolind⟦M.browptr⟦i⟧ + c⟧ * bs + b)
          else 0 := by
      intro b hb
      rw [mem_range] at hb
      rw [bentry_blk M stor ha hb, sum_Ico_eq_sum_range, sum_mul]
      refine sum_congr rfl fun c _ => ?_
      by_cases q : M.bcolind⟦M.browptr⟦i⟧ + c⟧ = j
      · rw [if_pos q, if_pos q, q]
      · rw [if_neg q, if_neg q, zero_mul]
    rw [sum_congr rfl e2, sum_comm]
    refine sum_congr rfl fun c _ => ?_
    by_cases q : M.bcolind⟦M.browptr⟦i⟧ + c⟧ = j
    · simp [q]
    · simp [q]
  rw [sum_congr rfl e1, sum_comm]
  refine sum_congr rfl fun c hc => ?_
  rw [mem_range] at hc
  have hlt := hM.col_lt' hi (k := M.browptr⟦i⟧ + c) ⟨by omega, by unfold SR.rowLen at hc; omega⟩
  rw [sum_ite_eq, if_pos (mem_range.mpr hlt)]

omit [Field K] in
theorem SR.ViewOk.withVals (h : S.ViewOk) (v : List K) : SR.ViewOk { S with vals := v } :=
  ⟨h.ptr_len, h.end_len, h.diag_len, h.diag_ge, h.diag_lt, h.diag_col, h.end_le, h.sorted, h.col_lt⟩

theorem prodEntry_row (t : SaiTarget A S bs) (v : List K) {a : Nat} (hi : i < A.nbrows) (ha : a < bs) (J : Nat) :
    prodEntry stor bs { S with vals := v } A (i * bs + a) J =
      ∑ c ∈ range (A.rowLen i), ∑ b ∈ range bs, v⟦(S.browptr⟦i⟧ + c) * (bs * bs) + stor.off bs a b⟧ *
        A.bentry stor bs (A.bcolind⟦A.browptr⟦i⟧ + c⟧ * bs + b) J := by
  have hi' : i < S.nbrows := by rw [t.rows]; exact hi
  have := row_times (stor := stor) { S with vals := v } (t.view.withVals v) (i := i) hi' ha
    (fun R => A.bentry stor bs R J)
  unfold prodEntry
  rw [← t.rows]
  refine this.trans ?_
  show ∑ c ∈ range (S.rowLen i), _ = _
  rw [t.rowLen hi]
  refine sum_congr rfl fun c hc => ?_
  rw [mem_range] at hc
  refine sum_congr rfl fun b _ => ?_
  show _ * A.bentry stor bs (S.bcolind⟦S.browptr⟦i⟧ + c⟧ * bs + b) J = _
  rw [t.col hi hc]

/-- The product at the columns of an equation is what the local system computes. -/
theorem prodEntry_local (t : SaiTarget A S bs) {v : List K} {L : LMat K} {a d e : Nat} (hi : i < A.nbrows) (ha : a < bs)
    (hd : d < bs) (he : e < cs.length) (hc : L.cols = A.rowLen i * bs)
    (hL : ∀ e (he : e < cs.length), ∀ c < A.rowLen i, ∀ a < bs, ∀ b < bs, L.at (e * bs + a) (c * bs + b) =
        A.bentry stor bs (A.bcolind⟦A.browptr⟦i⟧ + c⟧ * bs + b) (cs[e] * bs + a)) {y : Nat → K}
    (hy : ∀ c < A.rowLen i, ∀ b < bs, v⟦(S.browptr⟦i⟧ + c) * (bs * bs) + stor.off bs a b⟧ = y (c * bs + b)) :
    prodEntry stor bs { S with vals := v } A (i * bs + a) (cs[e] * bs + d) =
      ∑ c ∈ range L.cols, L.at (e * bs + d) c * y c := by
  rw [prodEntry_row t v hi ha, hc, sum_range_mul_blocks]
  refine sum_congr rfl fun c hc => ?_
  rw [mem_range] at hc
  refine sum_congr rfl fun b hb => ?_
  rw [mem_range] at hb
  rw [hL e he c hc d hd b hb, hy c hc b hb, mul_comm]

theorem central_iff {lc e a d : Nat} (hnd : cs.Nodup) (hlc : cs[lc]? = some i) (he : e < cs.length) (ha : a < bs)
    (hd : d < bs) : (e = lc ∧ d = a) ↔ i * bs + a = cs[e] * bs + d := by
  obtain ⟨h1, h2⟩ := List.getElem?_eq_some_iff.mp hlc
  constructor
  · rintro ⟨rfl, rfl⟩; rw [h2]
  · intro q
    obtain ⟨q1, q2⟩ := blk_inj ha hd q
    refine ⟨?_, q2.symm⟩
    exact (List.Nodup.getElem_inj_iff hnd).mp (by rw [h2, q1])

omit [Field K] in
theorem SR.ViewOk.rowCols_sorted (h : A.ViewOk) (hi : i < A.nbrows) : (A.rowCols i).Pairwise (· < ·) := by
  unfold SR.rowCols
  rw [List.pairwise_map]
  refine List.Pairwise.imp_of_mem ?_ (List.pairwise_lt_range' _ Nat.one_pos)
  intro a b ha hb hab
  simp only [List.mem_range'_1] at ha hb
  exact h.sorted i hi a b ha.1 hab (by unfold SR.rowLen at hb; omega)

theorem nodup_of_lt {l : List Nat} (h : l.Pairwise (· < ·)) : l.Nodup := h.imp (fun x => Nat.ne_of_lt x)

/-! ### Theorems -/

/-- **C43**, `compute_SAI` in incomplete mode: whenever it returns, on the pattern of the approximate inverse `M`
the product `M A` is the identity. This holds for every schedule, block size, storage order, for matrices and
triangular views, and whether or not assertions are compiled in. -/
theorem isai_exact_on_pattern (h : A.ViewOk) (hbs : 0 < bs) (hv : A.bcolind.length * (bs * bs) ≤ A.vals.length)
    (t : SaiTarget A S bs) (hlu : SolvesExactly lu) (hsp : leftIsaiPattern A = .ok sp) {ord : List Nat} {M : SR K}
    (hM : computeSai asserts bs stor qr lu false A sp S ord = .ok M) :
    (∃ v, v.length = S.vals.length ∧ M = { S with vals := v }) ∧
    ∀ i < A.nbrows, ∀ j ∈ A.rowCols i, ∀ a < bs, ∀ d < bs,
      prodEntry stor bs M A (i * bs + a) (j * bs + d) = if i * bs + a = j * bs + d then 1 else 0 := by
  obtain ⟨sp', hsp', hs, hl⟩ := left_incomplete_sai_pattern_correct h
  obtain rfl : sp' = sp := by rw [hsp] at hsp'; exact (Except.ok.inj hsp').symm
  obtain ⟨hord, hrows⟩ := computeSai_rows hM
  have hsol : ∀ i < A.nbrows, ∀ X, saiSolve asserts bs stor qr lu false A sp' i = .ok X →
      X.Wf ∧ X.rows = A.rowLen i * bs ∧ X.cols = bs := by
    intro i hi X hX
    obtain ⟨L, R, ⟨l1, l2, l3, l4⟩, ⟨r1, r2, r3, r4⟩, hq⟩ := saiSolve_inv h hv hs hi (hl i hi) hX
    rw [SR.rowCols_length] at l1 r1
    obtain ⟨x1, x2, x3, -⟩ := hlu L R X l3 r3 (l1.trans l2.symm) (r1.trans l1.symm) hq
    exact ⟨x1, x2.trans l2, x3.trans r2⟩
  obtain ⟨v, hrun, hvl, hvals⟩ := computeSai_values (fullsai := false) (stor := stor) (asserts := asserts) (qr := qr) (lu := lu)
    hbs t hs (fun i hi => (hl i hi).vars)
    (fun i hi => by obtain ⟨X, hX⟩ := hrows i hi; exact ⟨X, hX, hsol i hi X hX⟩)
  rw [hrun ord hord] at hM
  obtain rfl := Except.ok.inj hM
  refine ⟨⟨v, hvl, rfl⟩, ?_⟩
  intro i hi j hj a ha d hd
  obtain ⟨e, he, rfl⟩ := List.getElem_of_mem hj
  obtain ⟨X, hX⟩ := hrows i hi
  obtain ⟨L, R, ⟨l1, l2, l3, l4⟩, ⟨r1, r2, r3, r4⟩, hq⟩ := saiSolve_inv h hv hs hi (hl i hi) hX
  have hlen : (A.rowCols i).length = A.rowLen i := SR.rowCols_length _
  obtain ⟨-, -, -, hx⟩ := hlu L R X l3 r3 (by rw [l1, l2, hlen]) (r1.trans l1.symm) hq
  rw [prodEntry_local t hi ha hd he l2 l4 (y := fun c => X.at c a) (fun c hc b hb => hvals i hi X hX c hc a ha b hb),
    hx _ (by rw [l1]; exact blk_lt he hd) a (by omega), r4 e he d hd a ha]
  have := central_iff (nodup_of_lt (h.rowCols_sorted hi)) (hl i hi).central.2 he ha hd
  simp only [this]

/-- **C43**, every schedule of `compute_SAI` gives the same result: if one order of the rows succeeds, every order
does, with the same values. -/
theorem compute_sai_any_order (h : A.ViewOk) (hbs : 0 < bs) (hv : A.bcolind.length * (bs * bs) ≤ A.vals.length)
    (t : SaiTarget A S bs) (hsolver : ∀ L R X : LMat K, L.Wf → R.Wf → R.rows = L.rows →
      (if fullsai then qr L R else lu L R) = .ok X → X.Wf ∧ X.rows = L.cols ∧ X.cols = R.cols)
    (hst : A.bcolind.length ≤ A.nbstored)
    (hsp : (if fullsai then leftSaiPattern A else leftIsaiPattern A) = .ok sp) {ord ord' : List Nat} {M : SR K}
    (hM : computeSai asserts bs stor qr lu fullsai A sp S ord = .ok M) (hord' : ord'.Perm (List.range A.nbrows)) :
    computeSai asserts bs stor qr lu fullsai A sp S ord' = .ok M := by
  have hpat : sp.Sized A.nbrows ∧ ∀ i < A.nbrows, ∃ cs, sp.Local A i cs := by
    cases fullsai with
    | true =>
      obtain ⟨sp', hsp', hs, hl⟩ := left_sai_pattern_correct h hst
      rw [if_pos rfl] at hsp
      obtain rfl : sp' = sp := by rw [hsp] at hsp'; exact (Except.ok.inj hsp').symm
      exact ⟨hs, fun i hi => by obtain ⟨cs, -, -, g⟩ := hl i hi; exact ⟨cs, g⟩⟩
    | false =>
      obtain ⟨sp', hsp', hs, hl⟩ := left_incomplete_sai_pattern_correct h
      rw [if_neg (by decide)] at hsp
      obtain rfl : sp' = sp := by rw [hsp] at hsp'; exact (Except.ok.inj hsp').symm
      exact ⟨hs, fun i hi => ⟨_, hl i hi⟩⟩
  obtain ⟨hs, hl⟩ := hpat
  obtain ⟨hord, hrows⟩ := computeSai_rows hM
  obtain ⟨v, hrun, -, -⟩ := computeSai_values (fullsai := fullsai) (stor := stor) (asserts := asserts) (qr := qr) (lu := lu)
    hbs t hs (fun i hi => by obtain ⟨cs, g⟩ := hl i hi; exact g.vars)
    (fun i hi => by
      obtain ⟨X, hX⟩ := hrows i hi
      obtain ⟨cs, g⟩ := hl i hi
      obtain ⟨L, R, ⟨l1, l2, l3, l4⟩, ⟨r1, r2, r3, r4⟩, hq⟩ := saiSolve_inv h hv hs hi g hX
      obtain ⟨x1, x2, x3⟩ := hsolver L R X l3 r3 (r1.trans l1.symm) hq
      exact ⟨X, hX, x1, x2.trans l2, x3.trans r2⟩)
  rw [hrun ord hord] at hM
  rw [hrun ord' hord', hM]

/-- A sum that vanishes outside the listed numbers. -/
theorem sum_listed {n : Nat} {cs : List Nat} (hnd : cs.Nodup) (hlt : ∀ j ∈ cs, j < n) {F : Nat → K}
    (h0 : ∀ j < n, j ∉ cs → F j = 0) : ∑ j ∈ range n, F j = ∑ e ∈ range cs.length, F cs⟦e⟧ := by
  have e1 : ∑ j ∈ range n, F j = ∑ j ∈ cs.toFinset, F j := by
    refine (sum_subset (fun j hj => ?_) (fun j hj hn => ?_)).symm
    · exact mem_range.mpr (hlt j (List.mem_toFinset.mp hj))
    · exact h0 j (mem_range.mp hj) (fun x => hn (List.mem_toFinset.mpr x))
  rw [e1]
  refine sum_nbij' (fun j => cs.idxOf j) (fun e => cs⟦e⟧) ?_ ?_ ?_ ?_ ?_
  · intro j hj
    exact mem_range.mpr (List.idxOf_lt_length_of_mem (List.mem_toFinset.mp hj))
  · intro e he
    rw [mem_range] at he
    rw [List.mem_toFinset, get0_eq_getElem he]
    exact List.getElem_mem he
  · intro j hj
    have := List.idxOf_lt_length_of_mem (List.mem_toFinset.mp hj)
    rw [get0_eq_getElem this, List.getElem_idxOf]
  · intro e he
    rw [mem_range] at he
    rw [get0_eq_getElem he, hnd.idxOf_getElem]
  · intro j hj
    have := List.idxOf_lt_length_of_mem (List.mem_toFinset.mp hj)
    rw [get0_eq_getElem this, List.getElem_idxOf]

/-- The residual of a row of the product is the residual of the local system. -/
theorem residual_local (h : A.ViewOk) (t : SaiTarget A S bs) {v : List K} {L R : LMat K} {a lc : Nat} (hi : i < A.nbrows)
    (ha : a < bs) (hsort : cs.Pairwise (· < ·))
    (hcs : ∀ j, j ∈ cs ↔ ∃ k, A.Has i k ∧ ∃ l, A.Has A.bcolind⟦k⟧ l ∧ A.bcolind⟦l⟧ = j)
    (hlc : cs[lc]? = some i) (hLr : L.rows = cs.length * bs)
    (hc : L.cols = A.rowLen i * bs)
    (hL : ∀ e (he : e < cs.length), ∀ c < A.rowLen i, ∀ a < bs, ∀ b < bs, L.at (e * bs + a) (c * bs + b) =
        A.bentry stor bs (A.bcolind⟦A.browptr⟦i⟧ + c⟧ * bs + b) (cs[e] * bs + a))
    (hR : ∀ e < cs.length, ∀ a < bs, ∀ q < bs, R.at (e * bs + a) q = if e = lc ∧ a = q then 1 else 0) {y : Nat → K}
    (hy : ∀ c < A.rowLen i, ∀ b < bs, v⟦(S.browptr⟦i⟧ + c) * (bs * bs) + stor.off bs a b⟧ = y (c * bs + b)) :
    ∑ J ∈ range (A.nbrows * bs), (prodEntry stor bs { S with vals := v } A (i * bs + a) J -
        if i * bs + a = J then 1 else 0) ^ 2 =
      ∑ r ∈ range L.rows, (∑ c ∈ range L.cols, L.at r c * y c - R.at r a) ^ 2 := by
  have hnd := nodup_of_lt hsort
  rw [sum_range_mul_blocks, hLr, sum_range_mul_blocks]
  rw [sum_listed hnd]
  · refine sum_congr rfl fun e he => sum_congr rfl fun d hd => ?_
    rw [mem_range] at he hd
    rw [get0_eq_getElem he, prodEntry_local t hi ha hd he hc hL hy, hR e he d hd a ha]
    have := central_iff hnd hlc he ha hd
    simp only [this]
  · intro j hj
    obtain ⟨k, hk, l, hll, rfl⟩ := (hcs j).mp hj
    exact h.col_lt' (h.col_lt' hi hk) hll
  · intro j hj hn
    refine sum_eq_zero fun d hd => ?_
    rw [mem_range] at hd
    have hne : i * bs + a ≠ j * bs + d := by
      intro q
      have hij := (blk_inj ha hd q).1
      apply hn
      rw [← hij]
      exact List.mem_of_getElem? hlc
    rw [if_neg hne, prodEntry_row t v hi ha, sub_zero]
    have : ∀ c ∈ range (A.rowLen i), ∑ b ∈ range bs, v⟦(S.browptr⟦i⟧ + c) * (bs * bs) + stor.off bs a b⟧ *
        A.bentry stor bs (A.bcolind⟦A.browptr⟦i⟧ + c⟧ * bs + b) (j * bs + d) = 0 := by
      intro c hc
      rw [mem_range] at hc
      refine sum_eq_zero fun b hb => ?_
      rw [mem_range] at hb
      rw [bentry_blk A stor hb hd, sum_eq_zero, mul_zero]
      intro l hl
      rw [mem_Ico] at hl
      rw [if_neg]
      intro q
      exact hn ((hcs j).mpr ⟨A.browptr⟦i⟧ + c, ⟨by omega, by unfold SR.rowLen at hc; omega⟩, l, hl, q⟩)
    rw [sum_eq_zero this]
    exact zero_pow (by decide)

/-- **C43**, `compute_SAI` in full mode: whenever it returns, every row of the approximate inverse `M` minimises the
distance between that row of `M A` and the same row of the identity, among all matrices with the pattern of `M`. -/
theorem sai_row_minimal [LinearOrder K] (h : A.ViewOk) (hbs : 0 < bs)
    (hv : A.bcolind.length * (bs * bs) ≤ A.vals.length) (hst : A.bcolind.length ≤ A.nbstored)
    (t : SaiTarget A S bs) (hqr : SolvesLeastSquares qr) (hsp : leftSaiPattern A = .ok sp) {ord : List Nat} {M : SR K}
    (hM : computeSai asserts bs stor qr lu true A sp S ord = .ok M) :
    (∃ v, v.length = S.vals.length ∧ M = { S with vals := v }) ∧
    ∀ I < A.nbrows * bs, ∀ v' : List K,
      ∑ J ∈ range (A.nbrows * bs), (prodEntry stor bs M A I J - if I = J then 1 else 0) ^ 2 ≤
      ∑ J ∈ range (A.nbrows * bs), (prodEntry stor bs { S with vals := v' } A I J - if I = J then 1 else 0) ^ 2 := by
  obtain ⟨sp', hsp', hs, hl⟩ := left_sai_pattern_correct h hst
  obtain rfl : sp' = sp := by rw [hsp] at hsp'; exact (Except.ok.inj hsp').symm
  obtain ⟨hord, hrows⟩ := computeSai_rows hM
  have hsol : ∀ i < A.nbrows, ∀ X, saiSolve asserts bs stor qr lu true A sp' i = .ok X →
      X.Wf ∧ X.rows = A.rowLen i * bs ∧ X.cols = bs := by
    intro i hi X hX
    obtain ⟨cs, -, -, g⟩ := hl i hi
    obtain ⟨L, R, ⟨l1, l2, l3, l4⟩, ⟨r1, r2, r3, r4⟩, hq⟩ := saiSolve_inv h hv hs hi g hX
    obtain ⟨x1, x2, x3, -⟩ := hqr L R X l3 r3 (r1.trans l1.symm) hq
    exact ⟨x1, x2.trans l2, x3.trans r2⟩
  obtain ⟨v, hrun, hvl, hvals⟩ := computeSai_values (fullsai := true) (stor := stor) (asserts := asserts) (qr := qr) (lu := lu)
    hbs t hs (fun i hi => by obtain ⟨cs, -, -, g⟩ := hl i hi; exact g.vars)
    (fun i hi => by obtain ⟨X, hX⟩ := hrows i hi; exact ⟨X, hX, hsol i hi X hX⟩)
  rw [hrun ord hord] at hM
  obtain rfl := Except.ok.inj hM
  refine ⟨⟨v, hvl, rfl⟩, ?_⟩
  intro I hI v'
  have hi : I / bs < A.nbrows := Nat.div_lt_of_lt_mul (by rw [Nat.mul_comm]; exact hI)
  have ha : I % bs < bs := Nat.mod_lt _ hbs
  have hIe : I = I / bs * bs + I % bs := by rw [Nat.mul_comm]; exact (Nat.div_add_mod I bs).symm
  generalize I / bs = i at hi hIe
  generalize I % bs = a at ha hIe
  subst hIe
  obtain ⟨X, hX⟩ := hrows i hi
  obtain ⟨cs, g1, g2, g⟩ := hl i hi
  obtain ⟨L, R, ⟨l1, l2, l3, l4⟩, ⟨r1, r2, r3, r4⟩, hq⟩ := saiSolve_inv h hv hs hi g hX
  obtain ⟨-, -, -, hx⟩ := hqr L R X l3 r3 (r1.trans l1.symm) hq
  rw [residual_local h t hi ha g1 g2 g.central.2 l1 l2 l4 r4 (y := fun c => X.at c a)
      (fun c hc b hb => hvals i hi X hX c hc a ha b hb),
    residual_local h t hi ha g1 g2 g.central.2 l1 l2 l4 r4
      (y := fun m => v'⟦(S.browptr⟦i⟧ + m / bs) * (bs * bs) + stor.off bs a (m % bs)⟧) (fun c hc b hb => by
        obtain ⟨d1, d2⟩ := cell_div (k := c) hb
        simp only [d1, d2])]
  exact hx a (by omega) _

/-- **C43**, incomplete mode: if no assertions are compiled in and the dense solver returns for every local system,
the call returns. -/
theorem compute_isai_returns (h : A.ViewOk) (hbs : 0 < bs) (hv : A.bcolind.length * (bs * bs) ≤ A.vals.length)
    (t : SaiTarget A S bs) (hlu : SolvesExactly lu) (hsp : leftIsaiPattern A = .ok sp) {ord : List Nat}
    (hord : ord.Perm (List.range A.nbrows))
    (hret : ∀ L R : LMat K, L.Wf → R.Wf → L.rows = L.cols → R.rows = L.rows →
      (∃ i < A.nbrows, L.rows = A.rowLen i * bs ∧ ∀ e < A.rowLen i, ∀ c < A.rowLen i, ∀ a < bs, ∀ b < bs,
        L.at (e * bs + a) (c * bs + b) = A.bentry stor bs (A.bcolind⟦A.browptr⟦i⟧ + c⟧ * bs + b)
          (A.bcolind⟦A.browptr⟦i⟧ + e⟧ * bs + a)) → ∃ X, lu L R = .ok X) :
    ∃ M, computeSai false bs stor qr lu false A sp S ord = .ok M := by
  obtain ⟨sp', hsp', hs, hl⟩ := left_incomplete_sai_pattern_correct h
  obtain rfl : sp' = sp := by rw [hsp] at hsp'; exact (Except.ok.inj hsp').symm
  obtain ⟨v, hrun, -, -⟩ := computeSai_values (fullsai := false) (stor := stor) (asserts := false) (qr := qr) (lu := lu)
    hbs t hs (fun i hi => (hl i hi).vars) (fun i hi => by
      obtain ⟨L, R, ⟨l1, l2, l3, l4⟩, ⟨r1, r2, r3⟩, hq⟩ := saiSolve_eq (stor := stor) (qr := qr) (lu := lu)
        (fullsai := false) (asserts := false) h hv hs hi (hl i hi) (fun x => nomatch x)
      have hlen : (A.rowCols i).length = A.rowLen i := SR.rowCols_length _
      rw [hlen] at l1 r1
      obtain ⟨X, hX⟩ := hret L R l3 r3 (l1.trans l2.symm) (r1.trans l1.symm) ⟨i, hi, l1, fun e he c hc a ha b hb => by
        rw [l4 e (by omega) c hc a ha b hb, SR.rowCols_getElem]⟩
      obtain ⟨x1, x2, x3, -⟩ := hlu L R X l3 r3 (l1.trans l2.symm) (r1.trans l1.symm) hX
      exact ⟨X, by rw [hq, if_neg (by decide)]; exact hX, x1, x2.trans l2, x3.trans r2⟩)
  exact ⟨_, hrun ord hord⟩

/-- **C43**, with assertions compiled in, `compute_SAI` returns only if in every row every unknown takes part in
every equation: the assertion in the gathering of the local systems demands a completely filled local matrix. -/
theorem compute_sai_asserts_dense (h : A.ViewOk) (hv : A.bcolind.length * (bs * bs) ≤ A.vals.length)
    (hst : A.bcolind.length ≤ A.nbstored)
    (hsp : (if fullsai then leftSaiPattern A else leftIsaiPattern A) = .ok sp) {ord : List Nat} {M : SR K}
    (hM : computeSai true bs stor qr lu fullsai A sp S ord = .ok M) : ∀ i < A.nbrows, sp.Dense i := by
  have hpat : sp.Sized A.nbrows ∧ ∀ i < A.nbrows, ∃ cs, sp.Local A i cs := by
    cases fullsai with
    | true =>
      obtain ⟨sp', hsp', hs, hl⟩ := left_sai_pattern_correct h hst
      rw [if_pos rfl] at hsp
      obtain rfl : sp' = sp := by rw [hsp] at hsp'; exact (Except.ok.inj hsp').symm
      exact ⟨hs, fun i hi => by obtain ⟨cs, -, -, g⟩ := hl i hi; exact ⟨cs, g⟩⟩
    | false =>
      obtain ⟨sp', hsp', hs, hl⟩ := left_incomplete_sai_pattern_correct h
      rw [if_neg (by decide)] at hsp
      obtain rfl : sp' = sp := by rw [hsp] at hsp'; exact (Except.ok.inj hsp').symm
      exact ⟨hs, fun i hi => ⟨_, hl i hi⟩⟩
  obtain ⟨-, hrows⟩ := computeSai_rows hM
  intro i hi
  by_contra hnd
  obtain ⟨X, hX⟩ := hrows i hi
  obtain ⟨cs, g⟩ := hpat.2 i hi
  unfold saiSolve at hX
  rw [gather_abort h hv hpat.1 hi g hnd, error_bind] at hX
  cases hX

/-! ### Concrete cases

Solvers that check candidates, so that the contracts hold by construction, and a tridiagonal matrix. -/

/-- Solutions of the normal equations minimise the residual. -/
theorem least_of_normal [LinearOrder K] [IsStrictOrderedRing K] {m n : Nat} {L : Nat → Nat → K} {r x : Nat → K}
    (hn : ∀ c < n, ∑ k ∈ range m, L k c * (∑ d ∈ range n, L k d * x d - r k) = 0) (y : Nat → K) :
    ∑ k ∈ range m, (∑ c ∈ range n, L k c * x c - r k) ^ 2 ≤ ∑ k ∈ range m, (∑ c ∈ range n, L k c * y c - r k) ^ 2 := by
  have e1 : ∀ k, ∑ c ∈ range n, L k c * y c - r k =
      (∑ c ∈ range n, L k c * x c - r k) + ∑ c ∈ range n, L k c * (y c - x c) := by
    intro k
    have : ∑ c ∈ range n, L k c * (y c - x c) = ∑ c ∈ range n, L k c * y c - ∑ c ∈ range n, L k c * x c := by
      rw [← sum_sub_distrib]; exact sum_congr rfl fun c _ => by ring
    rw [this]; ring
  have e2 : ∑ k ∈ range m, (∑ c ∈ range n, L k c * x c - r k) * ∑ c ∈ range n, L k c * (y c - x c) = 0 := by
    have : ∀ k ∈ range m, (∑ c ∈ range n, L k c * x c - r k) * ∑ c ∈ range n, L k c * (y c - x c) =
        ∑ c ∈ range n, (L k c * (∑ d ∈ range n, L k d * x d - r k)) * (y c - x c) := by
      intro k _
      rw [mul_sum]; exact sum_congr rfl fun c _ => by ring
    rw [sum_congr rfl this, sum_comm]
    refine sum_eq_zero fun c hc => ?_
    rw [← sum_mul, hn c (mem_range.mp hc), zero_mul]
  have e3 : ∑ k ∈ range m, (∑ c ∈ range n, L k c * y c - r k) ^ 2 =
      ∑ k ∈ range m, (∑ c ∈ range n, L k c * x c - r k) ^ 2 + ∑ k ∈ range m, (∑ c ∈ range n, L k c * (y c - x c)) ^ 2 +
      2 * ∑ k ∈ range m, (∑ c ∈ range n, L k c * x c - r k) * ∑ c ∈ range n, L k c * (y c - x c) := by
    rw [mul_sum, ← sum_add_distrib, ← sum_add_distrib]
    exact sum_congr rfl fun k _ => by rw [e1 k]; ring
  rw [e3, e2, mul_zero, add_zero]
  exact le_add_of_nonneg_right (sum_nonneg fun k _ => sq_nonneg _)

/-- Candidates of the right size, as single columns. -/
def exSolver (ok : LMat ℚ → LMat ℚ → LMat ℚ → Bool) (cands : List (List ℚ)) (L R : LMat ℚ) : C (LMat ℚ) :=
  match (cands.map fun d => (⟨L.cols, R.cols, d⟩ : LMat ℚ)).find? (fun X => X.data.length == X.rows * X.cols && ok L R X) with
  | some X => .ok X
  | none => .error .divzero

def exCands : List (List ℚ) := [[2/3, 1/3], [1/2, 1, 1/2], [1/3, 2/3],
  [4/7, 3/14], [3/14, 4/7]]

def exExact (L R X : LMat ℚ) : Bool :=
  decide (∀ r < L.rows, ∀ q < R.cols, ∑ c ∈ range L.cols, L.at r c * X.at c q = R.at r q)

def exNormal (L R X : LMat ℚ) : Bool :=
  decide (∀ q < R.cols, ∀ c < L.cols,
    ∑ r ∈ range L.rows, L.at r c * (∑ d ∈ range L.cols, L.at r d * X.at d q - R.at r q) = 0)

def exLu : LMat ℚ → LMat ℚ → C (LMat ℚ) := exSolver exExact exCands
def exQr : LMat ℚ → LMat ℚ → C (LMat ℚ) := exSolver exNormal exCands

theorem exSolver_ok {ok : LMat ℚ → LMat ℚ → LMat ℚ → Bool} {cands L R X} (h : exSolver ok cands L R = .ok X) :
    X.Wf ∧ X.rows = L.cols ∧ X.cols = R.cols ∧ ok L R X = true := by
  unfold exSolver at h
  split at h
  · rename_i Y hY
    obtain rfl := Except.ok.inj h
    have h1 := List.find?_some hY
    have h2 := List.mem_of_find?_eq_some hY
    obtain ⟨d, -, hd⟩ := List.mem_map.mp h2
    simp only [Bool.and_eq_true, beq_iff_eq] at h1
    exact ⟨h1.1, by rw [← hd], by rw [← hd], h1.2⟩
  · cases h

theorem exLu_solves : SolvesExactly exLu := by
  intro L R X _ _ _ _ hX
  obtain ⟨h1, h2, h3, h4⟩ := exSolver_ok hX
  exact ⟨h1, h2, h3, of_decide_eq_true h4⟩

theorem exQr_solves : SolvesLeastSquares exQr := by
  intro L R X _ _ _ hX
  obtain ⟨h1, h2, h3, h4⟩ := exSolver_ok hX
  refine ⟨h1, h2, h3, fun q hq y => ?_⟩
  exact least_of_normal (x := fun c => X.at c q) (r := fun k => R.at k q) (of_decide_eq_true h4 q hq) y

/-- The tridiagonal matrix with rows `2 -1`, `-1 2 -1`, `-1 2`. -/
def exSaiTri : SR ℚ :=
  { browptr := [0, 2, 5, 7], bcolind := [0, 1, 0, 1, 2, 1, 2], vals := [2, -1, -1, 2, -1, -1, 2],
    diagind := [0, 3, 6], browendptr := [2, 5, 7], nbrows := 3, nnzb := 7, nbstored := 7 }

theorem exSaiTri_ok : exSaiTri.ViewOk :=
  SR.Full.viewOk (m := 1) (by constructor <;> decide) (SR.sorted_of_check (by decide)) (by constructor <;> decide)

/-- Storage for the approximate inverse of `exSaiTri`. -/
def exSaiTarget : SR ℚ := { exSaiTri with vals := List.replicate 7 9 }

theorem exSai_target : SaiTarget exSaiTri exSaiTarget 1 where
  view := exSaiTri_ok.withVals _
  rows := rfl
  nnz := rfl
  cols := by intro i _; rfl
  apart := by
    have : ∀ i < 3, ∀ j < 3, ∀ k < 7, exSaiTarget.Has i k → exSaiTarget.Has j k → i = j := by decide
    have h7 : ∀ i < 3, exSaiTarget.browendptr⟦i⟧ ≤ 7 := by decide
    intro i hi j hj k h1 h2
    exact this i hi j hj k (lt_of_lt_of_le h1.2 (h7 i hi)) h1 h2
  len := by decide

/-- The result on `exSaiTri`, with the rows visited in the order 2, 0, 1: the incomplete inverse is exact on its
pattern. -/
example : (leftIsaiPattern exSaiTri).bind (fun sp => computeSai false 1 .rowMajor exQr exLu false exSaiTri sp exSaiTarget [2, 0, 1])
    = .ok { exSaiTri with vals := [2/3, 1/3, 1/2, 1, 1/2, 1/3, 2/3] } := by decide +kernel

example : ∃ sp M, leftIsaiPattern exSaiTri = .ok sp ∧
    computeSai false 1 .rowMajor exQr exLu false exSaiTri sp exSaiTarget [2, 0, 1] = .ok M ∧
    ∀ i < 3, ∀ j ∈ exSaiTri.rowCols i, ∀ a < 1, ∀ d < 1,
      prodEntry .rowMajor 1 M exSaiTri (i * 1 + a) (j * 1 + d) = if i * 1 + a = j * 1 + d then 1 else 0 := by
  have : (leftIsaiPattern exSaiTri).bind (fun sp => computeSai false 1 .rowMajor exQr exLu false exSaiTri sp exSaiTarget [2, 0, 1])
    = .ok { exSaiTri with vals := [2/3, 1/3, 1/2, 1, 1/2, 1/3, 2/3] } := by decide +kernel
  obtain ⟨sp, hsp, -⟩ := left_incomplete_sai_pattern_correct exSaiTri_ok
  rw [hsp] at this
  exact ⟨sp, _, hsp, this, (isai_exact_on_pattern exSaiTri_ok (by decide) (by decide) exSai_target exLu_solves hsp this).2⟩

example : ∃ sp M, leftSaiPattern exSaiTri = .ok sp ∧
    computeSai false 1 .rowMajor exQr exLu true exSaiTri sp exSaiTarget [1, 2, 0] = .ok M ∧
    M.vals = [4/7, 3/14, 1/2, 1, 1/2, 3/14, 4/7] ∧ ∀ I < 3 * 1, ∀ v' : List ℚ,
      ∑ J ∈ range (3 * 1), (prodEntry .rowMajor 1 M exSaiTri I J - if I = J then 1 else 0) ^ 2 ≤
      ∑ J ∈ range (3 * 1), (prodEntry .rowMajor 1 { exSaiTarget with vals := v' } exSaiTri I J -
        if I = J then 1 else 0) ^ 2 := by
  have : (leftSaiPattern exSaiTri).bind (fun sp => computeSai false 1 .rowMajor exQr exLu true exSaiTri sp exSaiTarget [1, 2, 0])
    = .ok { exSaiTri with vals := [4/7, 3/14, 1/2, 1, 1/2, 3/14, 4/7] } := by decide +kernel
  obtain ⟨sp, hsp, -⟩ := left_sai_pattern_correct exSaiTri_ok (by decide)
  rw [hsp] at this
  exact ⟨sp, _, hsp, this, rfl,
    (sai_row_minimal exSaiTri_ok (by decide) (by decide) (by decide) exSai_target exQr_solves hsp this).2⟩

/-- **C43**, finding: with assertions compiled in, both modes abort on a tridiagonal matrix. -/
theorem compute_sai_asserts_abort_tridiagonal :
    (leftIsaiPattern exSaiTri).bind (fun sp => computeSai true 1 .rowMajor exQr exLu false exSaiTri sp exSaiTarget [0, 1, 2])
      = .error .abort ∧
    (leftSaiPattern exSaiTri).bind (fun sp => computeSai true 1 .rowMajor exQr exLu true exSaiTri sp exSaiTarget [0, 1, 2])
      = .error .abort := by decide +kernel

/-- Every order of the rows of `exSaiTri` gives the same approximate inverse. -/
example (ord : List Nat) (hord : ord.Perm [0, 1, 2]) :
    (leftSaiPattern exSaiTri).bind (fun sp => computeSai false 1 .rowMajor exQr exLu true exSaiTri sp exSaiTarget ord)
    = .ok { exSaiTri with vals := [4/7, 3/14, 1/2, 1, 1/2, 3/14, 4/7] } := by
  have : (leftSaiPattern exSaiTri).bind (fun sp => computeSai false 1 .rowMajor exQr exLu true exSaiTri sp exSaiTarget [1, 2, 0])
    = .ok { exSaiTri with vals := [4/7, 3/14, 1/2, 1, 1/2, 3/14, 4/7] } := by decide +kernel
  obtain ⟨sp, hsp, -⟩ := left_sai_pattern_correct exSaiTri_ok (by decide)
  rw [hsp] at this ⊢
  exact compute_sai_any_order (fullsai := true) exSaiTri_ok (by decide) (by decide) exSai_target
    (fun L R X h1 h2 h3 h4 => by
      obtain ⟨q1, q2, q3, -⟩ := exQr_solves L R X h1 h2 h3 h4; exact ⟨q1, q2, q3⟩) (by decide) hsp this hord

/-- A solver for single equations. -/
def exDiv (L R : LMat ℚ) : C (LMat ℚ) :=
  if L.rows = 1 ∧ L.at 0 0 ≠ 0 then .ok ⟨1, R.cols, R.data.map (· / L.at 0 0)⟩ else .error .divzero

theorem exDiv_solves : SolvesExactly exDiv := by
  intro L R X _ hR hsq hrow hX
  unfold exDiv at hX
  by_cases q : L.rows = 1 ∧ L.at 0 0 ≠ 0
  · rw [if_pos q] at hX
    obtain rfl := Except.ok.inj hX
    have hR1 : R.rows = 1 := by omega
    have hlen : R.data.length = R.cols := by rw [hR, hR1, Nat.one_mul]
    refine ⟨by simp [LMat.Wf, hlen], by show 1 = L.cols; omega, rfl, fun r hr qq hq => ?_⟩
    have hr0 : r = 0 := by omega
    have hq' : qq < R.data.length := by omega
    subst hr0
    rw [show L.cols = 1 by omega, sum_range_one]
    have e : ∀ (l : List ℚ) (x : ℚ), qq < l.length → (l.map (· / x))⟦qq⟧ = l⟦qq⟧ / x := by
      intro l x hl
      rw [get0_eq_getElem (by simpa using hl), get0_eq_getElem hl, List.getElem_map]
    have e2 : LMat.at (⟨1, R.cols, R.data.map (· / L.at 0 0)⟩ : LMat ℚ) 0 qq = R.at 0 qq / L.at 0 0 := by
      unfold LMat.at
      rw [hR1]
      simp only [Nat.mul_one, Nat.add_zero]
      exact e _ _ hq'
    rw [e2, mul_div_cancel₀ _ q.2]
  · rw [if_neg q] at hX; cases hX

def exSaiDiag : SR ℚ :=
  { browptr := [0, 1, 2], bcolind := [0, 1], vals := [2, 4], diagind := [0, 1], browendptr := [1, 2],
    nbrows := 2, nnzb := 2, nbstored := 2 }

theorem exSaiDiag_ok : exSaiDiag.ViewOk :=
  SR.Full.viewOk (m := 1) (by constructor <;> decide) (SR.sorted_of_check (by decide)) (by constructor <;> decide)

example : ∃ sp M, leftIsaiPattern exSaiDiag = .ok sp ∧
    computeSai false 1 .rowMajor exQr exDiv false exSaiDiag sp exSaiDiag [1, 0] = .ok M := by
  obtain ⟨sp, hsp, -⟩ := left_incomplete_sai_pattern_correct exSaiDiag_ok
  refine (compute_isai_returns exSaiDiag_ok (by decide) (by decide) (S := exSaiDiag) ⟨exSaiDiag_ok, rfl, rfl, fun i _ => rfl, ?_, by decide⟩
    exDiv_solves hsp (by decide) ?_).elim fun M hM => ⟨sp, M, hsp, hM⟩
  · have : ∀ i < 2, ∀ j < 2, ∀ k < 2, exSaiDiag.Has i k → exSaiDiag.Has j k → i = j := by decide
    have h7 : ∀ i < 2, exSaiDiag.browendptr⟦i⟧ ≤ 2 := by decide
    intro i hi j hj k h1 h2
    exact this i hi j hj k (lt_of_lt_of_le h1.2 (h7 i hi)) h1 h2
  · rintro L R - - - - ⟨i, hi, hr, hL⟩
    have hone : ∀ i < 2, exSaiDiag.rowLen i = 1 := by decide
    have hne : ∀ i < 2, exSaiDiag.bentry .rowMajor 1 (exSaiDiag.bcolind⟦exSaiDiag.browptr⟦i⟧ + 0⟧ * 1 + 0)
        (exSaiDiag.bcolind⟦exSaiDiag.browptr⟦i⟧ + 0⟧ * 1 + 0) ≠ 0 := by decide +kernel
    have h00 := hL 0 (by rw [hone i hi]; decide) 0 (by rw [hone i hi]; decide) 0 (by decide) 0 (by decide)
    exact ⟨_, if_pos ⟨by rw [hr, hone i hi], by rw [show (0 : Nat) = 0 * 1 + 0 from rfl, h00]; exact hne i hi⟩⟩

end Blasted
