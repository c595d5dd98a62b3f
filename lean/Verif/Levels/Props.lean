import Verif.Levels.Model
import Verif.Solve.SgsProps
import Verif.Transpose.Props

/-!
# Level scheduling (C33)
-/

namespace Blasted

open Finset

variable {V R M K : Type}

/-- The pattern is structurally symmetric. -/
def SymPattern (A : SR V) : Prop := ∀ i < A.nbrows, ∀ j < A.nbrows, Nbr A i j → Nbr A j i

/-- The column indices of row `i`. -/
def rowCols (A : SR V) (i : Nat) : List Nat :=
  (List.range' A.browptr⟦i⟧ (A.browptr⟦i + 1⟧ - A.browptr⟦i⟧)).map fun k => A.bcolind⟦k⟧

theorem mem_rowCols {A : SR V} {i j : Nat} : j ∈ rowCols A i ↔ Nbr A i j := by
  rw [nbr_lt_iff]
  simp [rowCols]

theorem rowCols_sorted {A : SR V} (hS : A.Sorted) {i : Nat} (hi : i < A.nbrows) :
    (rowCols A i).Pairwise (· < ·) := by
  unfold rowCols
  rw [List.pairwise_map]
  refine (List.pairwise_lt_range').imp_of_mem fun {a b} ha hb hab => ?_
  rw [List.mem_range'_1] at ha hb
  exact hS i hi a b ha.1 hab (by omega)

/-- The dependencies of row `i` left when the rows before `s` are removed. -/
def depFrom (A : SR V) (s i : Nat) : List Nat := (rowCols A i).filter (fun c => decide (s ≤ c))

theorem mem_depFrom {A : SR V} {s i j : Nat} : j ∈ depFrom A s i ↔ s ≤ j ∧ Nbr A i j := by
  simp [depFrom, mem_rowCols, and_comm]

theorem depFrom_sorted {A : SR V} (hS : A.Sorted) {s i : Nat} (hi : i < A.nbrows) :
    (depFrom A s i).Pairwise (· < ·) := (rowCols_sorted hS hi).filter _

theorem depFrom_erase {A : SR V} (hS : A.Sorted) {s i : Nat} (hi : i < A.nbrows) :
    (depFrom A s i).erase s = depFrom A (s + 1) i := by
  have hnd : (depFrom A s i).Nodup := (depFrom_sorted hS hi).imp fun h => Nat.ne_of_lt h
  rw [hnd.erase_eq_filter]
  unfold depFrom
  rw [List.filter_filter]
  refine List.filter_congr fun c _ => ?_
  by_cases h : c = s
  · subst h; simp
  · by_cases h2 : s ≤ c
    · have : s + 1 ≤ c := by omega
      simp [h, h2, this]
    · have : ¬ s + 1 ≤ c := by omega
      simp [h2, this]

theorem depFrom_succ_of_not_mem {A : SR V} {s i : Nat} (h : ¬ Nbr A i s) : depFrom A s i = depFrom A (s + 1) i := by
  unfold depFrom
  refine List.filter_congr fun c hc => ?_
  rw [mem_rowCols] at hc
  have : c ≠ s := by rintro rfl; exact h hc
  by_cases h2 : s ≤ c
  · have : s + 1 ≤ c := by omega
    simp [h2, this]
  · have : ¬ s + 1 ≤ c := by omega
    simp [h2, this]

theorem buildDepends_ok {A : SR V} {m : Nat} (hA : A.Full m) :
    Ok (buildDepends A) (fun dep => dep.length = A.nbrows ∧ ∀ i < A.nbrows, dep⟦i⟧ = depFrom A 0 i) := by
  unfold buildDepends
  refine (forRange_ok (fun t dep => dep.length = A.nbrows ∧ ∀ i < A.nbrows,
      dep⟦i⟧ = if i < t then rowCols A i else []) (Nat.zero_le _) ⟨by simp, fun i hi => ?_⟩ ?_).mono ?_
  · rw [get0_replicate_of_lt hi, if_neg (by omega)]
  · rintro t dep _ ht ⟨hl, hI⟩
    have h1 := hA.ptr_len
    have h2 := hA.ind_len
    have hmono := hA.ptr_mono t ht
    have hle := hA.ptr_le (i := t + 1) (j := A.nbrows) (by omega) (le_refl _)
    rw [rd_eq (by omega), ok_bind, rd_eq (by omega), ok_bind]
    refine (forRange_ok (fun p dep => dep.length = A.nbrows ∧ ∀ i < A.nbrows,
      dep⟦i⟧ = if i < t then rowCols A i else if i = t then
        (List.range' A.browptr⟦t⟧ (p - A.browptr⟦t⟧)).map (fun k => A.bcolind⟦k⟧) else []) hmono
        ⟨hl, fun i hi => ?_⟩ ?_).mono ?_
    · rw [hI i hi]
      by_cases h : i = t
      · subst h; simp
      · rw [if_neg h]
    · rintro p dep hp1 hp2 ⟨hl, hI⟩
      rw [rd_eq (by omega), ok_bind, rd_eq (by omega), ok_bind, wr_eq (by omega)]
      refine Ok.pure ⟨by simpa using hl, fun i hi => ?_⟩
      rw [get0_set]
      by_cases h : t = i
      · subst h
        rw [if_pos ⟨rfl, by omega⟩, hI t ht, if_neg (by omega), if_pos rfl, if_neg (by omega), if_pos rfl,
          show p + 1 - A.browptr⟦t⟧ = (p - A.browptr⟦t⟧) + 1 by omega, List.range'_concat, List.map_append]
        simp only [List.map_cons, List.map_nil, Nat.one_mul]
        rw [show A.browptr⟦t⟧ + (p - A.browptr⟦t⟧) = p by omega]
      · rw [if_neg (by tauto), hI i hi]
        by_cases h3 : i < t
        · rw [if_pos h3, if_pos h3]
        · rw [if_neg h3, if_neg h3, if_neg (by omega), if_neg (by omega)]
    · rintro dep ⟨hl, hI⟩
      refine ⟨hl, fun i hi => ?_⟩
      rw [hI i hi]
      by_cases h3 : i < t
      · rw [if_pos h3, if_pos (by omega)]
      · rw [if_neg h3]
        by_cases h4 : i = t
        · subst h4; rw [if_pos rfl, if_pos (by omega)]; rfl
        · rw [if_neg h4, if_neg (by omega)]
  · rintro dep ⟨hl, hI⟩
    refine ⟨hl, fun i hi => ?_⟩
    rw [hI i hi, if_pos hi]
    simp [depFrom]

/-- The search for the end of the level stops at the first row that depends on a row from `s` on. -/
theorem findLevelEnd_ok {A : SR V} (hS : A.Sorted) (hD : A.HasDiag) {dep : List (List Nat)}
    {s : Nat} (hl : dep.length = A.nbrows) (hdep : ∀ i < A.nbrows, s ≤ i → dep⟦i⟧ = depFrom A s i) (k i : Nat) :
    i + k = A.nbrows → s ≤ i →
    Ok (findLevelEnd dep k i) (fun e => i ≤ e ∧ e ≤ A.nbrows ∧
      (∀ r, i ≤ r → r < e → ∀ j, s ≤ j → Nbr A r j → r ≤ j) ∧
      (e < A.nbrows → ∃ j, s ≤ j ∧ j < e ∧ Nbr A e j)) := by
  induction k generalizing i with
  | zero =>
    intro hik hsi
    exact Ok.pure ⟨le_refl _, by omega, fun r h1 h2 => by omega, fun h => by omega⟩
  | succ k ih =>
    intro hik hsi
    have hi : i < A.nbrows := by omega
    unfold findLevelEnd
    rw [rd_eq (by omega), ok_bind, hdep i hi hsi]
    have hmem : i ∈ depFrom A s i := mem_depFrom.mpr ⟨hsi, _, hD.inRow hi, hD.diag_col i hi⟩
    have hsort := depFrom_sorted hS (s := s) hi
    have hm : ∀ j, j ∈ depFrom A s i ↔ s ≤ j ∧ Nbr A i j := fun j => mem_depFrom
    cases hc : depFrom A s i with
    | nil => rw [hc] at hmem; simp at hmem
    | cons c l =>
      rw [hc] at hsort hmem hm
      rw [List.pairwise_cons] at hsort
      unfold listFront
      rw [ok_bind]
      by_cases h : i ≤ c
      · rw [if_pos h]
        refine (ih (i + 1) (by omega) (by omega)).mono fun e he => ⟨by omega, he.2.1, fun r h1 h2 j hj hn => ?_, he.2.2.2⟩
        by_cases hr : r = i
        · subst hr
          have := (hm j).mpr ⟨hj, hn⟩
          rcases List.mem_cons.mp this with rfl | h'
          · exact h
          · exact h.trans (hsort.1 j h').le
        · exact he.2.2.1 r (by omega) h2 j hj hn
      · rw [if_neg h]
        obtain ⟨h1, h2⟩ := (hm c).mp (by simp)
        exact Ok.pure ⟨le_refl _, by omega, fun r h1 h2 => by omega, fun _ => ⟨c, h1, by omega, h2⟩⟩

/-- Removing one row of the level. -/
theorem removeNode_ok {A : SR V} {m : Nat} (hA : A.Full m) (hS : A.Sorted) (hsym : SymPattern A)
    {dep : List (List Nat)} {s e t : Nat} (hl : dep.length = A.nbrows) (hst : s ≤ t) (hte : t < e)
    (he : e ≤ A.nbrows)
    (hind : ∀ r, s ≤ r → r < e → ∀ j, s ≤ j → Nbr A r j → r ≤ j)
    (h1 : ∀ i < e, s ≤ i → dep⟦i⟧ = depFrom A s i) (h2 : ∀ i < A.nbrows, e ≤ i → dep⟦i⟧ = depFrom A t i) :
    Ok (removeNode t dep) (fun dep => dep.length = A.nbrows ∧ (∀ i < e, s ≤ i → dep⟦i⟧ = depFrom A s i) ∧
      ∀ i < A.nbrows, e ≤ i → dep⟦i⟧ = depFrom A (t + 1) i) := by
  unfold removeNode
  rw [rd_eq (by omega), ok_bind, h1 t hte hst]
  have hnbr : ∀ j ∈ depFrom A s t, j = t ∨ (e ≤ j ∧ j < A.nbrows ∧ Nbr A j t) := by
    intro j hj
    obtain ⟨hsj, hn⟩ := mem_depFrom.mp hj
    by_cases hjt : j = t
    · exact Or.inl hjt
    · have hjn : j < A.nbrows := by
        obtain ⟨p, hp, rfl⟩ := hn
        exact hA.col_lt p (hA.lt_nnz (by omega) hp.2)
      have hle := hind t hst hte j hsj hn
      have hn' := hsym t (by omega) j hjn hn
      refine Or.inr ⟨?_, hjn, hn'⟩
      by_contra hlt
      have := hind j hsj (by omega) t hst hn'
      omega
  have hnd : (depFrom A s t).Nodup := (depFrom_sorted hS (by omega)).imp fun h => Nat.ne_of_lt h
  refine (forList_ok (fun done dep => dep.length = A.nbrows ∧ (∀ i < e, s ≤ i → dep⟦i⟧ = depFrom A s i) ∧
      ∀ i < A.nbrows, e ≤ i → dep⟦i⟧ = if i ∈ done then depFrom A (t + 1) i else depFrom A t i)
      ⟨hl, h1, fun i hi hei => by rw [h2 i hi hei]; simp⟩ ?_).mono ?_
  · rintro done j rest dep hsp ⟨hl, g1, g2⟩
    have hj : j ∈ depFrom A s t := by rw [hsp]; simp
    have hjd : j ∉ done := by
      intro h
      rw [hsp, List.nodup_append] at hnd
      exact hnd.2.2 j h j (by simp) rfl
    unfold removeDep
    rcases hnbr j hj with rfl | ⟨hej, hjn, hn⟩
    · rw [if_pos rfl]
      refine Ok.pure ⟨hl, g1, fun i hi hei => ?_⟩
      rw [g2 i hi hei]
      have : i ≠ j := by omega
      simp [this]
    · rw [if_neg (by omega), rd_eq (by omega), ok_bind, g2 j hjn hej, if_neg hjd,
        if_pos (mem_depFrom.mpr ⟨le_refl _, hn⟩), wr_eq (by omega), depFrom_erase hS hjn]
      refine Ok.pure ⟨by simpa using hl, fun i hi hsi => ?_, fun i hi hei => ?_⟩
      · rw [get0_set_ne (by omega)]; exact g1 i hi hsi
      · rw [get0_set]
        by_cases h : j = i
        · subst h
          rw [if_pos ⟨rfl, by omega⟩, if_pos (by simp)]
        · rw [if_neg (by tauto), g2 i hi hei]
          have : i ≠ j := fun h' => h h'.symm
          simp [this]
  · rintro dep ⟨hl, g1, g2⟩
    refine ⟨hl, g1, fun i hi hei => ?_⟩
    rw [g2 i hi hei]
    by_cases h : i ∈ depFrom A s t
    · rw [if_pos h]
    · rw [if_neg h]
      refine depFrom_succ_of_not_mem fun hn => h (mem_depFrom.mpr ⟨by omega, hsym i hi t (by omega) hn⟩)

/-- A list of level boundaries up to row `s`: what holds of `levels` during the loop. -/
structure LevelsUpTo (A : SR V) (levels : List Nat) (s : Nat) : Prop where
  pos : 1 ≤ levels.length
  zero : levels⟦0⟧ = 0
  last : levels⟦levels.length - 1⟧ = s
  strict : ∀ t, t + 1 < levels.length → levels⟦t⟧ < levels⟦t + 1⟧
  indep : ∀ t, t + 1 < levels.length → ∀ i j, levels⟦t⟧ ≤ i → i < levels⟦t + 1⟧ → levels⟦t⟧ ≤ j →
    j < levels⟦t + 1⟧ → Nbr A i j → i = j
  maximal : ∀ t, t + 1 < levels.length → levels⟦t + 1⟧ < A.nbrows →
    ∃ j, levels⟦t⟧ ≤ j ∧ j < levels⟦t + 1⟧ ∧ Nbr A levels⟦t + 1⟧ j

theorem levelLoop_ok {A : SR V} {m : Nat} (hA : A.Full m) (hS : A.Sorted) (hD : A.HasDiag) (hsym : SymPattern A)
    (fuel s nl : Nat) (levels : List Nat) (dep : List (List Nat)) (hf : A.nbrows - s < fuel)
    (hs : s ≤ A.nbrows) (hL : LevelsUpTo A levels s) (hnl : nl + 1 = levels.length) (hl : dep.length = A.nbrows)
    (hdep : ∀ i < A.nbrows, s ≤ i → dep⟦i⟧ = depFrom A s i) :
    Ok (levelLoop A.nbrows fuel s nl levels dep) (fun r => r.1 = A.nbrows ∧ r.2.1 + 1 = r.2.2.length ∧
      LevelsUpTo A r.2.2 A.nbrows) := by
  induction fuel generalizing s nl levels dep with
  | zero => omega
  | succ fuel ih =>
    unfold levelLoop
    by_cases hsn : s < A.nbrows
    · rw [if_pos hsn]
      refine (findLevelEnd_ok hS hD hl hdep (A.nbrows - s) s (by omega) (le_refl _)).bind fun e he => ?_
      obtain ⟨hse, hen, hind, hmax⟩ := he
      have hpos := hL.pos
      have hse' : s < e := by
        rcases Nat.eq_or_lt_of_le hse with rfl | h
        · obtain ⟨j, h1, h2, _⟩ := hmax hsn
          omega
        · exact h
      have hget : ∀ t < levels.length, (levels ++ [e])⟦t⟧ = levels⟦t⟧ := by
        intro t ht
        simp [get0, List.getD_eq_getElem?_getD, List.getElem?_append_left ht]
      have hlast : (levels ++ [e])⟦levels.length⟧ = e := by
        simp [get0, List.getD_eq_getElem?_getD]
      have hlen : (levels ++ [e]).length = levels.length + 1 := by simp
      have hst : (levels ++ [e])⟦(levels ++ [e]).length - 2⟧ = s := by
        rw [hlen, show levels.length + 1 - 2 = levels.length - 1 by omega, hget _ (by omega), hL.last]
      dsimp only
      rw [rd_eq (by omega), ok_bind, hst]
      refine (forRange_ok (fun t dep => dep.length = A.nbrows ∧ (∀ i < e, s ≤ i → dep⟦i⟧ = depFrom A s i) ∧
        ∀ i < A.nbrows, e ≤ i → dep⟦i⟧ = depFrom A t i) hse
        ⟨hl, fun i hi hsi => hdep i (by omega) hsi, fun i hi hei => hdep i hi (by omega)⟩
        fun t dep h1 h2 h => removeNode_ok hA hS hsym h.1 h1 h2 hen hind h.2.1 h.2.2).bind fun dep' hdep' => ?_
      refine ih e (nl + 1) (levels ++ [e]) dep' (by omega) hen ?_ (by omega) hdep'.1 hdep'.2.2
      have key : ∀ t, t + 1 < levels.length + 1 → t + 1 < levels.length ∨ t = levels.length - 1 := by
        intro t ht; omega
      refine ⟨by omega, by rw [hget 0 (by omega), hL.zero], by rw [hlen, Nat.add_sub_cancel, hlast], ?_, ?_, ?_⟩
      · intro t ht
        rw [hlen] at ht
        rcases key t ht with h | rfl
        · rw [hget t (by omega), hget (t + 1) h]; exact hL.strict t h
        · rw [hget _ (by omega), show levels.length - 1 + 1 = levels.length by omega, hlast, hL.last]
          exact hse'
      · intro t ht i j
        rw [hlen] at ht
        rcases key t ht with h | rfl
        · rw [hget t (by omega), hget (t + 1) h]; exact hL.indep t h i j
        · rw [hget _ (by omega), show levels.length - 1 + 1 = levels.length by omega, hlast, hL.last]
          intro h1 h2 h3 h4 hn
          have a := hind i h1 h2 j h3 hn
          have b := hind j h3 h4 i h1 (hsym i (by omega) j (by omega) hn)
          omega
      · intro t ht
        rw [hlen] at ht
        rcases key t ht with h | rfl
        · rw [hget t (by omega), hget (t + 1) h]; exact hL.maximal t h
        · rw [show levels.length - 1 + 1 = levels.length by omega, hlast, hget _ (by omega), hL.last]
          exact hmax
    · rw [if_neg hsn]
      have : s = A.nbrows := by omega
      exact Ok.pure ⟨this, hnl, this ▸ hL⟩

/-- **C33**: for a sorted, structurally symmetric pattern with a full diagonal, `computeLevels` terminates and returns
boundaries that start at zero, increase strictly and end at the number of rows; no row of a level depends on another row
of the same level, and no level could be extended by the next row. -/
theorem computeLevels_correct {A : SR V} {m : Nat} (hA : A.Full m) (hS : A.Sorted) (hD : A.HasDiag)
    (hsym : SymPattern A) {fuel : Nat} (hf : A.nbrows < fuel) :
    ∃ levels, computeLevels fuel A = .ok levels ∧ LevelsUpTo A levels A.nbrows := by
  unfold computeLevels
  obtain ⟨dep, e1, hl, hdep⟩ := buildDepends_ok hA
  obtain ⟨r, e2, h1, h2, h3⟩ := levelLoop_ok hA hS hD hsym fuel 0 0 [0] dep (by omega) (Nat.zero_le _)
    ⟨by simp, rfl, rfl, fun t ht => by simp at ht, fun t ht => by simp at ht, fun t ht => by simp at ht⟩ rfl hl
    fun i hi _ => hdep i hi
  have hpos := h3.pos
  refine ⟨r.2.2, ?_, h3⟩
  rw [e1, ok_bind, e2, ok_bind, cassert_true (by simp [h1]), ok_bind, rd_eq (by omega), ok_bind,
    cassert_true (by simp [h3.last]), ok_bind, cassert_true (by simp [h2]), ok_bind]

theorem LevelsUpTo.levelsOk {A : SR V} {levels : List Nat} (h : LevelsUpTo A levels A.nbrows) : LevelsOk A levels where
  pos := h.pos
  zero := h.zero
  last := h.last
  mono t ht := (h.strict t ht).le
  indep := h.indep

/-- Non-vacuity of `computeLevels_correct`. -/
theorem exStar_sym : SymPattern exStar := by
  intro i hi j hj
  have h1 : i < 4 := hi
  have h2 : j < 4 := hj
  interval_cases i <;> interval_cases j <;> decide

example : computeLevels 5 exStar = .ok [0, 3, 4] := by decide +kernel

/-! ### The hypotheses are needed -/

/-- A lower triangular pattern: not symmetric. -/
def exLower : SR ℚ :=
  { browptr := [0, 1, 3], bcolind := [0, 0, 1], vals := [1, 1, 1], diagind := [0, 2],
    browendptr := [1, 3], nbrows := 2, nnzb := 3, nbstored := 3 }

/-- **C33**, finding: for a pattern that is not structurally symmetric the loop need not terminate (here row 1 depends on
row 0 but not conversely): no bound on the number of iterations suffices. -/
theorem computeLevels_nonsymmetric_diverges : exLower.Full ∧ exLower.Sorted ∧ exLower.HasDiag ∧
    ∀ fuel, computeLevels fuel exLower = .error .fuel := by
  refine ⟨by constructor <;> decide, SR.sorted_of_check (by decide), by constructor <;> decide, fun fuel => ?_⟩
  have hb : buildDepends exLower = .ok [[0], [0, 1]] := by decide
  have key : ∀ fuel nl (l : List Nat), levelLoop 2 fuel 1 nl (l ++ [1]) [[0], [0, 1]] = .error .fuel := by
    intro fuel
    induction fuel with
    | zero => intro nl l; rfl
    | succ f ih =>
      intro nl l
      unfold levelLoop
      rw [if_pos (by decide), show findLevelEnd [[0], [0, 1]] (2 - 1) 1 = .ok 1 from by decide, ok_bind]
      dsimp only
      have hlen : (l ++ [1] ++ [1]).length - 2 = l.length := by simp
      rw [hlen, rd_eq (by simp), ok_bind]
      have hg : (l ++ [1] ++ [1])⟦l.length⟧ = 1 := by simp [get0, List.getD_eq_getElem?_getD]
      rw [hg, show forRange 1 1 removeNode [[0], [0, 1]] = .ok [[0], [0, 1]] from by decide, ok_bind]
      exact ih _ _
  unfold computeLevels
  rw [hb, ok_bind]
  cases fuel with
  | zero => rfl
  | succ f =>
    have e : levelLoop exLower.nbrows (f + 1) 0 0 [0] [[0], [0, 1]] = levelLoop 2 f 1 1 ([0] ++ [1]) [[0], [0, 1]] := by
      rfl
    rw [e, key]
    rfl

/-- **C33**, finding: another non-symmetric pattern (row 0 depends on row 1 but not conversely) makes it throw. -/
theorem computeLevels_nonsymmetric_throws :
    let A : SR ℚ := { browptr := [0, 2, 3], bcolind := [0, 1, 1], vals := [1, 1, 1], diagind := [0, 2],
                      browendptr := [2, 3], nbrows := 2, nnzb := 3, nbstored := 3 }
    A.Full ∧ A.Sorted ∧ A.HasDiag ∧
      computeLevels 9 A = .error (.throw "std::runtime_error" "Faulty dependency list!") := by
  refine ⟨by constructor <;> decide, SR.sorted_of_check (by decide), by constructor <;> decide, by decide⟩

/-- **C33**, finding: with unsorted rows, dependent rows can end up in the same level. -/
theorem computeLevels_unsorted_dependent :
    let A : SR ℚ := { browptr := [0, 2, 4], bcolind := [0, 1, 1, 0], vals := [1, 1, 1, 1], diagind := [0, 2],
                      browendptr := [2, 4], nbrows := 2, nnzb := 4, nbstored := 4 }
    A.Full ∧ A.HasDiag ∧ ¬ A.Sorted ∧ Nbr A 1 0 ∧ computeLevels 9 A = .ok [0, 2] := by
  refine ⟨by constructor <;> decide, by constructor <;> decide, fun h => ?_, by decide, by decide⟩
  have := h 1 (by decide) 2 3 (by decide) (by decide) (by decide)
  revert this
  decide

/-! ### Composition with the level-scheduled preconditioners -/

section compose
variable [Ring R] [PInv R] [AddCommGroup M] [Module R M]

/-- `Level_SGS::compute` and `Level_BSGS::compute`, `src/solverops_levels_sgs.cpp` lines 43-51, 148-157: in the first call
the work vector is allocated, with contents `gy`, and the levels are computed. The state is the diagonal, the
work vector and the levels. -/
def levelSgsCompute (fuel : Nat) (A : SR R) (ord : List Nat) (g : List R) (gy : List M)
    (st : Option (List R × List M × List Nat)) : C (List R × List M × List Nat) :=
  match st with
  | none => do
    let levels ← computeLevels fuel A
    let d ← jacobiCompute A ord g none
    .ok (d, gy, levels)
  | some (d, y, levels) => do
    let d ← jacobiCompute A ord g (some d)
    .ok (d, y, levels)

/-- **C30**, end to end: for a sorted, structurally symmetric pattern with invertible diagonal entries (blocks), `compute`
and `apply` of the level-scheduled SGS preconditioners solve with `(D+L) D⁻¹ (D+U)`, for every order of the rows
within the levels. -/
theorem level_sgs_solves {A : SR R} (hA : A.Full) (hS : A.Sorted) (hD : A.HasDiag) (hsym : SymPattern A)
    (hu : ∀ i < A.nbrows, IsUnit (A.entry i i)) {fuel : Nat} (hf : A.nbrows < fuel) {ord : List Nat}
    (hord : ord.Perm (List.range A.nbrows)) {g : List R} (hg : g.length = A.nbrows) {gy : List M}
    (hgy : gy.length = A.nbrows) {sched sched' : Nat → List Nat → List Nat}
    (hsch : ∀ t l, (sched t l).Perm l) (hsch' : ∀ t l, (sched' t l).Perm l)
    {r z : List M} (hr : r.length = A.nbrows) (hz : z.length = A.nbrows) :
    ∃ dinv levels z' y', levelSgsCompute fuel A ord g gy none = .ok (dinv, gy, levels) ∧ DiagInv A dinv ∧
      levelSgsApply A dinv levels sched sched' r z gy = .ok (z', y') ∧ z'.length = A.nbrows ∧
      ∀ i < A.nbrows, ∑ j ∈ range A.nbrows, sgsMat A dinv i j • z'⟦j⟧ = r⟦i⟧ := by
  obtain ⟨levels, e1, hL⟩ := computeLevels_correct hA hS hD hsym hf
  obtain ⟨dinv, e2, hI⟩ := jacobi_setup_correct hA hS hD hord hu hg (d := none) (by simp)
  obtain ⟨z', y', e3, _, h1, h2⟩ := sgs_apply_levels hA hS hD hI hL.levelsOk hsch hsch' hr hz hgy
  refine ⟨dinv, levels, z', y', ?_, hI, e3, h1, h2⟩
  unfold levelSgsCompute
  dsimp only
  rw [e1, ok_bind, e2, ok_bind]

/-- **C30** for later calls: after a `compute` for a matrix with the same pattern and other entries `v`, and any applications in between (which leave some `y` in the work vector),
`compute` for the entries of now and `apply` solve with the matrix of now, with the levels of the first call. -/
theorem level_sgs_recompute_solves {A : SR R} (hA : A.Full) (hS : A.Sorted) (hD : A.HasDiag) (hsym : SymPattern A)
    (hu : ∀ i < A.nbrows, IsUnit (A.entry i i)) {fuel : Nat} (hf : A.nbrows < fuel) {ord ord₀ : List Nat}
    (hord : ord.Perm (List.range A.nbrows)) (hord₀ : ord₀.Perm (List.range A.nbrows)) {g g₀ : List R} (hg : g.length = A.nbrows) (hg₀ : g₀.length = A.nbrows)
    {gy gy₀ y : List M} (hy : y.length = A.nbrows) {v : List R} (hA₀ : ({ A with vals := v } : SR R).Full)
    (hu₀ : ∀ i < A.nbrows, IsUnit (({ A with vals := v } : SR R).entry i i)) {sched sched' : Nat → List Nat → List Nat}
    (hsch : ∀ t l, (sched t l).Perm l) (hsch' : ∀ t l, (sched' t l).Perm l)
    {r z : List M} (hr : r.length = A.nbrows) (hz : z.length = A.nbrows) :
    ∃ dinv₀ dinv levels z' y', levelSgsCompute fuel { A with vals := v } ord₀ g₀ gy₀ none = .ok (dinv₀, gy₀, levels) ∧
      levelSgsCompute fuel A ord g gy (some (dinv₀, y, levels)) = .ok (dinv, y, levels) ∧ DiagInv A dinv ∧
      levelSgsApply A dinv levels sched sched' r z y = .ok (z', y') ∧ z'.length = A.nbrows ∧
      ∀ i < A.nbrows, ∑ j ∈ range A.nbrows, sgsMat A dinv i j • z'⟦j⟧ = r⟦i⟧ := by
  obtain ⟨levels, e1, hL⟩ := computeLevels_correct hA hS hD hsym hf
  have hD₀ : ({ A with vals := v } : SR R).HasDiag := ⟨hD.1, hD.2, hD.3, hD.4⟩
  obtain ⟨dinv₀, e0, hI₀⟩ := jacobi_setup_correct (A := { A with vals := v }) hA₀ hS hD₀ hord₀ hu₀ hg₀ (d := none) (by simp)
  obtain ⟨dinv, e2, hI⟩ := jacobi_setup_correct hA hS hD hord hu hg (d := some dinv₀) (fun l hl => by cases hl; exact hI₀.len)
  obtain ⟨z', y', e3, _, h1, h2⟩ := sgs_apply_levels hA hS hD hI hL.levelsOk hsch hsch' hr hz hy
  refine ⟨dinv₀, dinv, levels, z', y', ?_, ?_, hI, e3, h1, h2⟩
  · have e1' : computeLevels fuel { A with vals := v } = .ok levels := e1
    unfold levelSgsCompute
    dsimp only
    rw [e1', ok_bind, e0, ok_bind]
  · unfold levelSgsCompute
    dsimp only
    rw [e2, ok_bind]

end compose

/-- **C28**, scalar, with the levels the code computes: for a sorted, structurally symmetric pattern the level-scheduled
application returns exactly what the sequential application returns, for every order of the rows within the levels. -/
theorem scalar_level_ilu_eq_sequential [Field K] [DecidableEq K] {A : SR V} {m : Nat} {u : List K}
    {scale : Option (List K)} (hA : A.Full m) (hS : A.Sorted) (hD : A.HasDiag) (hsym : SymPattern A)
    (hl : u.length = A.browptr⟦A.nbrows⟧) (hp : PivotsOk A u) (hs : ScaleLen scale A.nbrows)
    {fuel : Nat} (hf : A.nbrows < fuel) {sched sched' : Nat → List Nat → List Nat}
    (hsch : ∀ t l, (sched t l).Perm l) (hsch' : ∀ t l, (sched' t l).Perm l) {k : Nat} (hk : 1 ≤ k)
    {init : ApplyInit} (hi : init ≠ .none) {ord ord' : Nat → List Nat}
    (hord : ∀ t, (ord t).Perm (List.range A.nbrows)) (hord' : ∀ t, (ord' t).Perm (List.range A.nbrows))
    {r z z' y y' : List K} (hr : r.length = A.nbrows) (hz : z.length = A.nbrows) (hz' : z'.length = A.nbrows)
    (hy : y.length = A.nbrows) (hy' : y'.length = A.nbrows) :
    ∃ levels x v v', computeLevels fuel A = .ok levels ∧
      levelScalarIluApply A u scale levels sched sched' ord r z y = .ok (x, v) ∧
      scalarIluApply A u scale k init ord' r z' y' = .ok (x, v') := by
  obtain ⟨levels, e1, hL⟩ := computeLevels_correct hA hS hD hsym hf
  obtain ⟨x, v, e, _, h1, w, h2⟩ := scalar_ilu_apply_levels hA hS hD hl hp hs hL.levelsOk hsch hsch' hord hr hz hy
  obtain ⟨x', v', e', _, h1', w', h2'⟩ := scalar_ilu_apply_correct hA hS hD hl hp hs hk hi hord' hr hz' hy'
  have := IluApplied.unique hA hS hD hl hp (S := fun i (v : K) => scaleAt scale i * v)
    ⟨h1, w, h2⟩ ⟨h1', w', h2'⟩
  subst this
  exact ⟨levels, x, v, v', e1, e, e'⟩

open scoped Matrix.Module in
/-- **C28**, block, with the levels the code computes. -/
theorem block_level_ilu_eq_sequential [Field K] [DecidableEq K] {bs : Nat} {A : SR V} {m : Nat}
    {u ilu : List (Matrix (Fin bs) (Fin bs) K)}
    {scale : Option (List K)} (hA : A.Full m) (hS : A.Sorted) (hD : A.HasDiag) (hsym : SymPattern A)
    (hu : DiagInverted A u ilu) (hs : ScaleLen scale (A.nbrows * bs))
    {fuel : Nat} (hf : A.nbrows < fuel) {sched sched' : Nat → List Nat → List Nat}
    (hsch : ∀ t l, (sched t l).Perm l) (hsch' : ∀ t l, (sched' t l).Perm l) {k : Nat} (hk : 1 ≤ k)
    {init : ApplyInit} (hi : init ≠ .none) {ord ord' : Nat → List Nat}
    (hord : ∀ t, (ord t).Perm (List.range A.nbrows)) (hord' : ∀ t, (ord' t).Perm (List.range A.nbrows))
    {r z z' y y' : List (Fin bs → K)} (hr : r.length = A.nbrows) (hz : z.length = A.nbrows)
    (hz' : z'.length = A.nbrows) (hy : y.length = A.nbrows) (hy' : y'.length = A.nbrows) :
    ∃ levels x v v', computeLevels fuel A = .ok levels ∧
      levelBlockIluApply A ilu scale levels sched sched' ord r z y = .ok (x, v) ∧
      blockIluApply A ilu scale k init ord' r z' y' = .ok (x, v') := by
  obtain ⟨levels, e1, hL⟩ := computeLevels_correct hA hS hD hsym hf
  obtain ⟨x, v, e, _, h1⟩ := block_ilu_apply_levels hA hS hD hu hs hL.levelsOk hsch hsch' hord hr hz hy
  obtain ⟨x', v', e', _, h1'⟩ := block_ilu_apply_correct hA hS hD hu hs hk hi hord' hr hz' hy'
  have := IluApplied.unique hA hS hD hu.len (hu.pivots hA hS hD) (blockIluSolved_iff.mp h1)
    (blockIluSolved_iff.mp h1')
  subst this
  exact ⟨levels, x, v, v', e1, e, e'⟩

/-- Non-vacuity of `level_sgs_solves`. -/
example : (levelSgsCompute (M := ℚ) 5 exStar [2, 0, 1, 3] [7, 7, 7, 7] [8, 8, 8, 8] none >>= fun s =>
    levelSgsApply exStar s.1 s.2.2 (fun _ l => l.reverse) (fun _ l => l) [3, 4, 5, 12 + 1/2 + 1/3 + 1/4] [7, 7, 7, 7]
      s.2.1).map Prod.fst = .ok ([1, 1, 1, 1] : List ℚ) := by
  decide +kernel

/-- Non-vacuity of `level_sgs_recompute_solves`: a first call with all entries doubled. -/
example : (levelSgsCompute (M := ℚ) 5 { exStar with vals := exStar.vals.map (2 * ·) } [2, 0, 1, 3] [7, 7, 7, 7] [8, 8, 8, 8] none >>= fun s =>
    levelSgsCompute (M := ℚ) 5 exStar [2, 0, 1, 3] [7, 7, 7, 7] [8, 8, 8, 8] (some s) >>= fun s =>
    levelSgsApply exStar s.1 s.2.2 (fun _ l => l.reverse) (fun _ l => l) [3, 4, 5, 12 + 1/2 + 1/3 + 1/4] [7, 7, 7, 7]
      s.2.1).map Prod.fst = .ok ([1, 1, 1, 1] : List ℚ) := by
  decide +kernel

end Blasted
