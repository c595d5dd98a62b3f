import Verif.Poisson.FileModel
import Verif.Coo.MMRowProps
import Verif.Coo.MMBad
import Verif.Base.Mem

/-!
# C107: reading the control file of the Poisson problem
-/

namespace Blasted

variable {K : Type}

/-! ### Specification -/

/-- The word can be read as an `int`. -/
def IsInt32 (w : List Char) (v : Int) : Prop := IntWord w v ∧ -2147483648 ≤ v ∧ v ≤ 2147483647

/-- The word begins neither with a digit nor with a sign. -/
def NotIntWord (w : List Char) : Prop := ∃ c w', w = c :: w' ∧ c ∉ ['0', '1', '2', '3', '4', '5', '6', '7', '8', '9', '+', '-']

/-- As far as the words `L` go, they are a control file: headings and the type of grid are shorter than 50 characters, the numbers of points are `n` and the corners are `a` and `b`. -/
structure ControlWords (num : List Char → Option K) (L : List (List Char)) (n : Nat → Int) (a b : Nat → K) : Prop where
  short : ∀ i ∈ [0, 1, 2, 6, 10], ∀ w, L[i]? = some w → w.length < 50
  points : ∀ i < 3, ∀ w, L[3 + i]? = some w → IsInt32 w (n i)
  first : ∀ i < 3, ∀ w, L[7 + i]? = some w → num w = some (a i)
  last : ∀ i < 3, ∀ w, L[11 + i]? = some w → num w = some (b i)

/-! ### Lemmas -/

theorem fileInputThrow_pos {s : Int} (h : s ≠ 0) : fileInputThrow s = .ok () := if_neg h

theorem takeDrop_word {t r : List Char} (h3 : ∀ c ∈ t, isSp c = false) (h4 : r = [] ∨ ∃ c r', r = c :: r' ∧ isSp c = true) :
    (t ++ r).takeWhile (fun c => !isSp c) = t ∧ (t ++ r).dropWhile (fun c => !isSp c) = r := by
  constructor
  · rw [List.takeWhile_append_of_pos (by simpa using h3)]
    rcases h4 with rfl | ⟨c, r', rfl, hc⟩
    · simp
    · rw [List.takeWhile_cons_of_neg (by simp [hc]), List.append_nil]
  · rw [List.dropWhile_append_of_pos (by simpa using h3)]
    rcases h4 with rfl | ⟨c, r', rfl, hc⟩
    · rfl
    · rw [List.dropWhile_cons_of_neg (by simp [hc])]

/-- What a conversion does with the words of a file that it accepts, also at the end of the file. -/
def Scans {α : Type} (scan : List Char → C (List Char × Int × Option α)) (good : List Char → α → Prop) : Prop :=
  (∀ l, tokens l = [] → scan l = .ok ([], cEOF, none)) ∧
    ∀ l t ts v, tokens l = t :: ts → good t v → ∃ r, scan l = .ok (r, 1, some v) ∧ tokens r = ts

theorem scanWord_scans : Scans scanWord fun t v => t = v ∧ t.length < 50 := by
  refine ⟨fun l h => ?_, fun l t ts v h hv => ?_⟩
  · unfold scanWord
    simp only [dropWhile_of_tokens_nil h, if_true]
  · obtain ⟨r, h1, h2, h3, h4, h5⟩ := tokens_split h
    obtain ⟨rfl, hl⟩ := hv
    obtain ⟨e1, e2⟩ := takeDrop_word h3 h4
    refine ⟨r, ?_, h5⟩
    unfold scanWord
    simp only [h1, e1, e2]
    rw [if_neg (by simp [h2]), if_neg (by omega)]

theorem scanReal_scans (num : List Char → Option K) : Scans (scanReal num) fun t v => num t = some v := by
  refine ⟨fun l h => ?_, fun l t ts v h hv => ?_⟩
  · unfold scanReal
    simp only [dropWhile_of_tokens_nil h, if_true]
  · obtain ⟨r, h1, h2, h3, h4, h5⟩ := tokens_split h
    obtain ⟨e1, e2⟩ := takeDrop_word h3 h4
    refine ⟨r, ?_, h5⟩
    unfold scanReal
    simp only [h1, e1, e2, hv]
    rw [if_neg (by simp [h2])]

theorem scanInt_scans : Scans scanInt IsInt32 := by
  refine ⟨fun l h => ?_, fun l t ts v h hv => ?_⟩
  · unfold scanInt
    simp only [dropWhile_of_tokens_nil h, if_true]
  · obtain ⟨⟨sign, ds, n, rfl, hdec, hv⟩, hlo, hhi⟩ := hv
    have hdec := hdec.isDec
    obtain ⟨r, h1', h2', -, h4, h5⟩ := tokens_split h
    refine ⟨r, ?_, h5⟩
    have hne : sign ++ ds ++ r ≠ [] := List.append_ne_nil_of_left_ne_nil h2' r
    obtain ⟨e1, e2⟩ := takeWhile_digits hdec.2.1 h4
    have hsp : splitSign (sign ++ ds ++ r) = (decide (sign = ['-']), ds ++ r) := by
      rcases hv with ⟨rfl | rfl, -⟩ | ⟨rfl, -⟩
      · rw [List.nil_append, splitSign_digits hdec.1 hdec.2.1]; rfl
      · rfl
      · rfl
    have hval : signedVal (decide (sign = ['-'])) ds = v := by
      unfold signedVal
      rw [hdec.2.2]
      rcases hv with ⟨rfl | rfl, rfl⟩ | ⟨rfl, rfl⟩ <;> simp
    unfold scanInt
    rw [h1', if_neg hne]
    simp only [hsp, e1, e2, if_neg hdec.1, hval]
    rw [if_neg (by unfold intMax; omega), if_neg (by unfold intMin; omega)]

theorem scan_step {α : Type} {scan : List Char → C (List Char × Int × Option α)} {good : List Char → α → Prop} (hs : Scans scan good) {l : List Char} {L : List (List Char)} {v : α}
    (hl : tokens l = L) (hv : ∀ w, L[0]? = some w → good w v) : ∃ r s, scan l = .ok (r, s, L[0]?.map fun _ => v) ∧ fileInputThrow s = .ok () ∧ tokens r = L.drop 1 := by
  cases L with
  | nil => exact ⟨[], cEOF, hs.1 l hl, rfl, rfl⟩
  | cons t ts =>
    obtain ⟨r, h1, h2⟩ := hs.2 l t ts v hl (hv t rfl)
    exact ⟨r, 1, h1, rfl, h2⟩

theorem scanLoop_ok {α : Type} {scan : List Char → C (List Char × Int × Option α)} {good : List Char → α → Prop} (hs : Scans scan good) (n : Nat) {l : List Char} {L : List (List Char)} {v : Nat → α}
    (hl : tokens l = L) (hv : ∀ i < n, ∀ w, L[i]? = some w → good w (v i)) :
    ∃ r, scanLoop scan n l = .ok (r, (List.range n).map fun i => L[i]?.map fun _ => v i) ∧ tokens r = L.drop n := by
  induction n generalizing l L v with
  | zero => exact ⟨l, rfl, hl⟩
  | succ n ih =>
    obtain ⟨r, s, h1, h2, h3⟩ := scan_step hs hl (hv 0 (by omega))
    obtain ⟨r', h4, h5⟩ := ih (v := fun i => v (i + 1)) h3 fun i hi w hw => hv (i + 1) (by omega) w (by rw [List.getElem?_drop, Nat.add_comm] at hw; exact hw)
    refine ⟨r', ?_, by rw [h5, List.drop_drop, Nat.add_comm]⟩
    rw [scanLoop, h1, ok_bind]
    dsimp only
    rw [h2, ok_bind, h4, ok_bind, List.range_succ_eq_map, List.map_cons, List.map_map]
    simp only [List.getElem?_drop, Function.comp_def, Nat.add_comm]

theorem scanLoop_throws {α : Type} {scan : List Char → C (List Char × Int × Option α)} {good : List Char → α → Prop} (hs : Scans scan good) (n : Nat) {l : List Char} {L : List (List Char)} {v : Nat → α} {k : Nat}
    (hk : k < n) (hl : tokens l = L) (hv : ∀ i < k, ∀ w, L[i]? = some w → good w (v i))
    (hbad : ∀ l t ts, tokens l = t :: ts → L[k]? = some t → ∃ r, scan l = .ok (r, 0, none)) (hL : k < L.length) : scanLoop scan n l = fileInputThrow 0 >>= fun _ => .error .ub := by
  induction n generalizing l L v k with
  | zero => omega
  | succ n ih =>
    cases k with
    | zero =>
      cases L with
      | nil => exact absurd hL (by simp)
      | cons t ts =>
        obtain ⟨r, hr⟩ := hbad l t ts hl rfl
        rw [scanLoop, hr, ok_bind]
        rfl
    | succ k =>
      obtain ⟨r, s, h1, h2, h3⟩ := scan_step hs hl (hv 0 (by omega))
      rw [scanLoop, h1, ok_bind]
      dsimp only
      rw [h2, ok_bind, ih (v := fun i => v (i + 1)) (k := k) (by omega) h3
        (fun i hi w hw => hv (i + 1) (by omega) w (by rw [List.getElem?_drop, Nat.add_comm] at hw; exact hw))
        (fun l t ts h h' => hbad l t ts h (by rw [List.getElem?_drop, Nat.add_comm] at h'; exact h')) (by rw [List.length_drop]; omega)]
      rfl

theorem scanInt_bad {l t : List Char} {ts : List (List Char)} (h : tokens l = t :: ts) (hb : NotIntWord t) : ∃ r, scanInt l = .ok (r, 0, none) := by
  obtain ⟨c, w, rfl, hc⟩ := hb
  obtain ⟨r, h1, -, -, -, -⟩ := tokens_split h
  have hsg : splitSign (c :: (w ++ r)) = (false, c :: (w ++ r)) := by
    unfold splitSign
    split
    · rename_i heq; injection heq with h1 _; subst h1; exact absurd (by decide) hc
    · rename_i heq; injection heq with h1 _; subst h1; exact absurd (by decide) hc
    · rfl
  have hd : c.isDigit = false := by
    by_contra hcon
    rw [Bool.not_eq_false] at hcon
    apply hc
    have h2 : 48 ≤ c.toNat ∧ c.toNat ≤ 57 := by
      unfold Char.isDigit at hcon
      simp only [Bool.and_eq_true, decide_eq_true_eq] at hcon
      exact hcon
    have h3 : c = Char.ofNat c.toNat := (Char.ofNat_toNat c).symm
    rw [h3]
    obtain ⟨h4, h5⟩ := h2
    generalize c.toNat = m at h4 h5
    interval_cases m <;> decide
  refine ⟨c :: (w ++ r), ?_⟩
  unfold scanInt
  rw [h1]
  simp only [List.cons_append, hsg, List.takeWhile_cons_of_neg (show ¬ c.isDigit = true by rw [hd]; decide), if_true]
  rw [if_neg (by simp)]

theorem scanReal_bad {num : List Char → Option K} {l t : List Char} {ts : List (List Char)} (h : tokens l = t :: ts) (hb : num t = none) : ∃ r, scanReal num l = .ok (r, 0, none) := by
  obtain ⟨r, h1, h2, h3, h4, h5⟩ := tokens_split h
  obtain ⟨e1, e2⟩ := takeDrop_word h3 h4
  refine ⟨t ++ r, ?_⟩
  unfold scanReal
  simp only [h1, e1, hb]
  rw [if_neg (by simp [h2])]

/-! ### Theorems -/

/-- What is read from a file that is a control file as far as it goes: what the file does not have stays uninitialised, without an exception. -/
theorem readInputFile_words {num : List Char → Option K} {text : List Char} {L : List (List Char)} {n : Nat → Int} {a b : Nat → K} (hw : Words text L) (hc : ControlWords num L n a b) :
    readInputFile num (some text) = .ok ⟨L[1]?, (List.range 3).map fun i => L[3 + i]?.map fun _ => n i, (List.range 3).map fun i => L[7 + i]?.map fun _ => a i,
      (List.range 3).map fun i => L[11 + i]?.map fun _ => b i⟩ := by
  have word : ∀ {l : List Char} {i : Nat}, i ∈ [0, 1, 2, 6, 10] → tokens l = L.drop i → ∃ r s, scanWord l = .ok (r, s, L[i]?) ∧ fileInputThrow s = .ok () ∧ tokens r = L.drop (i + 1) := by
    intro l i hi hl
    obtain ⟨r, s, h1, h2, h3⟩ := scan_step (v := (L[i]?).getD []) scanWord_scans hl (by
      intro w hw
      rw [List.getElem?_drop, Nat.add_zero] at hw
      exact ⟨by rw [hw]; rfl, hc.short i hi w hw⟩)
    refine ⟨r, s, ?_, h2, by rw [h3, List.drop_drop]⟩
    rw [h1, List.getElem?_drop, Nat.add_zero]
    cases L[i]? <;> rfl
  have sub : ∀ {α : Type} {scan : List Char → C (List Char × Int × Option α)} {good : List Char → α → Prop} (_ : Scans scan good) {l : List Char} {v : Nat → α} (j : Nat),
      tokens l = L.drop j → (∀ i < 3, ∀ w, L[j + i]? = some w → good w (v i)) →
      ∃ r, scanLoop scan 3 l = .ok (r, (List.range 3).map fun i => L[j + i]?.map fun _ => v i) ∧ tokens r = L.drop (j + 3) := by
    intro α scan good hs l v j hl hv
    obtain ⟨r, h1, h2⟩ := scanLoop_ok hs 3 hl (v := v) fun i hi w hw => hv i hi w (by rw [List.getElem?_drop] at hw; exact hw)
    refine ⟨r, ?_, by rw [h2, List.drop_drop]⟩
    rw [h1]
    simp only [List.getElem?_drop]
  obtain ⟨r1, s1, x1, y1, z1⟩ := word (i := 0) (by decide) hw.tokens
  obtain ⟨r2, s2, x2, y2, z2⟩ := word (by decide) z1
  obtain ⟨r3, s3, x3, y3, z3⟩ := word (by decide) z2
  obtain ⟨r4, x4, z4⟩ := sub scanInt_scans 3 z3 hc.points
  obtain ⟨r5, s5, x5, y5, z5⟩ := word (by decide) z4
  obtain ⟨r6, x6, z6⟩ := sub (scanReal_scans num) 7 z5 hc.first
  obtain ⟨r7, s7, x7, y7, z7⟩ := word (by decide) z6
  obtain ⟨r8, x8, z8⟩ := sub (scanReal_scans num) 11 z7 hc.last
  rw [readInputFile, x1, ok_bind]
  dsimp only
  rw [y1, ok_bind, x2, ok_bind]
  dsimp only
  rw [y2, ok_bind, x3, ok_bind]
  dsimp only
  rw [y3, ok_bind, x4, ok_bind]
  dsimp only
  rw [x5, ok_bind]
  dsimp only
  rw [y5, ok_bind, x6, ok_bind]
  dsimp only
  rw [x7, ok_bind]
  dsimp only
  rw [y7, ok_bind, x8, ok_bind]

/-- **C107** A complete control file is read as it is meant: type of grid, numbers of points, first and last corner, whatever white space is between the words and whatever words follow. -/
theorem control_file_read {num : List Char → Option K} {text : List Char} {h1 g h2 h3 h4 t0 t1 t2 u0 u1 u2 w0 w1 w2 : List Char} {extra : List (List Char)} {n0 n1 n2 : Int} {a0 a1 a2 b0 b1 b2 : K}
    (hw : Words text ([h1, g, h2, t0, t1, t2, h3, u0, u1, u2, h4, w0, w1, w2] ++ extra)) (hs : ∀ w ∈ [h1, g, h2, h3, h4], w.length < 50)
    (ht : IsInt32 t0 n0 ∧ IsInt32 t1 n1 ∧ IsInt32 t2 n2) (hu : num u0 = some a0 ∧ num u1 = some a1 ∧ num u2 = some a2) (hv : num w0 = some b0 ∧ num w1 = some b1 ∧ num w2 = some b2) :
    readInputFile num (some text) = .ok ⟨some g, [some n0, some n1, some n2], [some a0, some a1, some a2], [some b0, some b1, some b2]⟩ := by
  have three : ∀ {i : Nat}, i < 3 → i = 0 ∨ i = 1 ∨ i = 2 := by intro i hi; omega
  rw [readInputFile_words hw (n := fun i => if i = 0 then n0 else if i = 1 then n1 else n2) (a := fun i => if i = 0 then a0 else if i = 1 then a1 else a2)
    (b := fun i => if i = 0 then b0 else if i = 1 then b1 else b2)]
  · rfl
  · constructor
    · intro i hi w hw
      simp only [List.mem_cons, List.not_mem_nil, or_false] at hi
      rcases hi with rfl | rfl | rfl | rfl | rfl <;> (simp at hw; subst hw; exact hs _ (by simp))
    · intro i hi w hw
      rcases three hi with rfl | rfl | rfl <;> (simp at hw; subst hw; simp [ht])
    · intro i hi w hw
      rcases three hi with rfl | rfl | rfl <;> (simp at hw; subst hw; simp [hu])
    · intro i hi w hw
      rcases three hi with rfl | rfl | rfl <;> (simp at hw; subst hw; simp [hv])

/-- **C107**, negative: a control file that ends too early is accepted: the end of the file gives the status -1, which `file_input_throw` takes for success. Whatever is missing is not initialised. -/
theorem control_file_truncated {num : List Char → Option K} {text : List Char} {L : List (List Char)} {n : Nat → Int} {a b : Nat → K} (hw : Words text L) (hc : ControlWords num L n a b)
    (hshort : L.length < 14) :
    ∃ m, readInputFile num (some text) = .ok m ∧ m.rmax[2]? = some none ∧ (L.length ≤ 1 → m.gridtype = none) ∧ (∀ i < 3, L.length ≤ 3 + i → m.npdim[i]? = some none) ∧
      (∀ i < 3, L.length ≤ 7 + i → m.rmin[i]? = some none) ∧ (∀ i < 3, L.length ≤ 11 + i → m.rmax[i]? = some none) := by
  have hn : ∀ {α : Type} {j i : Nat} {v : Nat → α}, i < 3 → L.length ≤ j + i → ((List.range 3).map fun i => L[j + i]?.map fun _ => v i)[i]? = some none := by
    intro α j i v hi hl
    rw [List.getElem?_map, List.getElem?_range hi, Option.map_some, List.getElem?_eq_none hl]
    rfl
  exact ⟨_, readInputFile_words hw hc, hn (by omega) (by omega), fun h => List.getElem?_eq_none h, fun i hi h => hn hi h, fun i hi h => hn hi h, fun i hi h => hn hi h⟩

/-- **C107** A number of points that is not a number is refused. -/
theorem control_file_bad_points {num : List Char → Option K} {text : List Char} {L : List (List Char)} {n : Nat → Int} {k : Nat} {w : List Char} (hw : Words text L)
    (hs : ∀ i < 3, ∀ w, L[i]? = some w → w.length < 50) (hk : k < 3) (hn : ∀ i < k, ∀ w, L[3 + i]? = some w → IsInt32 w (n i)) (hbad : L[3 + k]? = some w) (hb : NotIntWord w) :
    readInputFile num (some text) = .error (.throw "InputNotGivenError" "Input not given: Error while reading file + 0") := by
  have word : ∀ {l : List Char} {i : Nat}, i < 3 → tokens l = L.drop i → ∃ r s, scanWord l = .ok (r, s, L[i]?) ∧ fileInputThrow s = .ok () ∧ tokens r = L.drop (i + 1) := by
    intro l i hi hl
    obtain ⟨r, s, h1, h2, h3⟩ := scan_step (v := (L[i]?).getD []) scanWord_scans hl (by
      intro w hw
      rw [List.getElem?_drop, Nat.add_zero] at hw
      exact ⟨by rw [hw]; rfl, hs i hi w hw⟩)
    refine ⟨r, s, ?_, h2, by rw [h3, List.drop_drop]⟩
    rw [h1, List.getElem?_drop, Nat.add_zero]
    cases L[i]? <;> rfl
  obtain ⟨r1, s1, x1, y1, z1⟩ := word (i := 0) (by omega) hw.tokens
  obtain ⟨r2, s2, x2, y2, z2⟩ := word (by omega) z1
  obtain ⟨r3, s3, x3, y3, z3⟩ := word (by omega) z2
  have hlen : 3 + k < L.length := by
    by_contra hcon
    rw [List.getElem?_eq_none (by omega)] at hbad
    cases hbad
  have x4 := scanLoop_throws scanInt_scans 3 (v := n) hk z3 (fun i hi w hw => hn i hi w (by rw [List.getElem?_drop] at hw; exact hw))
    (fun l t ts h h' => scanInt_bad h (by rw [List.getElem?_drop, hbad, Option.some.injEq] at h'; rw [← h']; exact hb)) (by rw [List.length_drop]; omega)
  rw [readInputFile, x1, ok_bind]
  dsimp only
  rw [y1, ok_bind, x2, ok_bind]
  dsimp only
  rw [y2, ok_bind, x3, ok_bind]
  dsimp only
  rw [y3, ok_bind, x4]
  rfl

/-- **C107** A word in place of a coordinate of the first corner (`j = 7`) or the last one (`j = 11`) is refused if everything before it is as it should be. -/
theorem control_file_bad_corner {num : List Char → Option K} {text : List Char} {L : List (List Char)} {n : Nat → Int} {a b : Nat → K} {j k : Nat} {w : List Char} (hw : Words text L) (hj : j = 7 ∨ j = 11)
    (hk : k < 3) (hc : ControlWords num (L.take (j + k)) n a b) (hbad : L[j + k]? = some w) (hb : num w = none) :
    readInputFile num (some text) = .error (.throw "InputNotGivenError" "Input not given: Error while reading file + 0") := by
  have ht : ∀ {i : Nat} {w : List Char}, i < j + k → L[i]? = some w → (L.take (j + k))[i]? = some w := by
    intro i w hi h
    rw [List.getElem?_take, if_pos hi]
    exact h
  have word : ∀ {l : List Char} (i : Nat), i ∈ [0, 1, 2, 6, 10] → i < j + k → tokens l = L.drop i → ∃ r s, scanWord l = .ok (r, s, L[i]?) ∧ fileInputThrow s = .ok () ∧ tokens r = L.drop (i + 1) := by
    intro l i hi hij hl
    obtain ⟨r, s, h1, h2, h3⟩ := scan_step (v := (L[i]?).getD []) scanWord_scans hl (by
      intro w hw
      rw [List.getElem?_drop, Nat.add_zero] at hw
      exact ⟨by rw [hw]; rfl, hc.short i hi w (ht hij hw)⟩)
    refine ⟨r, s, ?_, h2, by rw [h3, List.drop_drop]⟩
    rw [h1, List.getElem?_drop, Nat.add_zero]
    cases L[i]? <;> rfl
  have hlen : j + k < L.length := by
    by_contra hcon
    rw [List.getElem?_eq_none (by omega)] at hbad
    cases hbad
  have bad : ∀ {l : List Char} {v : Nat → K}, tokens l = L.drop j → (∀ i < k, ∀ w, L[j + i]? = some w → num w = some (v i)) →
      scanLoop (scanReal num) 3 l = fileInputThrow 0 >>= fun _ => .error .ub := by
    intro l v hl hv
    exact scanLoop_throws (scanReal_scans num) 3 (v := v) hk hl (fun i hi w hw => hv i hi w (by rw [List.getElem?_drop] at hw; exact hw))
      (fun l t ts h h' => scanReal_bad h (by rw [List.getElem?_drop, hbad, Option.some.injEq] at h'; rw [← h']; exact hb)) (by rw [List.length_drop]; omega)
  obtain ⟨r1, s1, x1, y1, z1⟩ := word 0 (by decide) (by omega) hw.tokens
  obtain ⟨r2, s2, x2, y2, z2⟩ := word _ (by decide) (by omega) z1
  obtain ⟨r3, s3, x3, y3, z3⟩ := word _ (by decide) (by omega) z2
  obtain ⟨r4, x4, z4⟩ := scanLoop_ok scanInt_scans 3 z3 (v := n) fun i hi w hw => hc.points i hi w (ht (by omega) (by rw [List.getElem?_drop] at hw; exact hw))
  rw [List.drop_drop] at z4
  obtain ⟨r5, s5, x5, y5, z5⟩ := word 6 (by decide) (by omega) z4
  rw [readInputFile, x1, ok_bind]
  dsimp only
  rw [y1, ok_bind, x2, ok_bind]
  dsimp only
  rw [y2, ok_bind, x3, ok_bind]
  dsimp only
  rw [y3, ok_bind, x4, ok_bind]
  dsimp only
  rw [x5, ok_bind]
  dsimp only
  rw [y5, ok_bind]
  rcases hj with rfl | rfl
  · rw [bad (v := a) z5 fun i hi w hw => hc.first i (by omega) w (ht (by omega) hw)]
    rfl
  · obtain ⟨r6, x6, z6⟩ := scanLoop_ok (scanReal_scans num) 3 z5 (v := a) fun i hi w hw => hc.first i hi w (ht (by omega) (by rw [List.getElem?_drop] at hw; exact hw))
    rw [List.drop_drop] at z6
    obtain ⟨r7, s7, x7, y7, z7⟩ := word 10 (by decide) (by omega) z6
    rw [x6, ok_bind]
    dsimp only
    rw [x7, ok_bind]
    dsimp only
    rw [y7, ok_bind, bad (v := b) z7 fun i hi w hw => hc.last i (by omega) w (ht (by omega) hw)]
    rfl

/-- **C107**, negative: a heading of 50 or more characters is written beyond the end of the buffer. -/
theorem control_file_long_heading {num : List Char → Option K} {text : List Char} {w : List Char} {ws : List (List Char)} (hw : Words text (w :: ws)) (hl : 50 ≤ w.length) :
    readInputFile num (some text) = .error .ub := by
  obtain ⟨r, h1, h2, h3, h4, h5⟩ := tokens_split hw.tokens
  obtain ⟨e1, e2⟩ := takeDrop_word h3 h4
  have hsw : scanWord text = .error .ub := by
    unfold scanWord
    simp only [h1, e1]
    rw [if_neg (by simp [h2]), if_pos (by omega)]
  rw [readInputFile, hsw]
  rfl

/-- **C107**, negative: if the file cannot be opened the behaviour is undefined. -/
theorem control_file_missing {num : List Char → Option K} : readInputFile num none = .error .ub := rfl

/-! ### Examples -/

/-- A control file. -/
def exControl : List Char := "Type-of-grid
chebyshev
Number-of-points
20 20 +5
First -1 -1 -1
Last 1 1 1
Repetitions 1
".toList

/-- Conversion of the numbers of the example. -/
def exControlNum (w : List Char) : Option ℚ := if w = "1".toList then some 1 else if w = "-1".toList then some (-1) else none

example : readInputFile exControlNum (some exControl) = .ok ⟨some "chebyshev".toList, [some 20, some 20, some 5], [some (-1), some (-1), some (-1)], [some 1, some 1, some 1]⟩ := by
  decide +kernel

-- the file ends after two numbers of points
example : readInputFile exControlNum (some (exControl.take 46)) = .ok ⟨some "chebyshev".toList, [some 20, some 20, none], [none, none, none], [none, none, none]⟩ := by
  decide +kernel

-- an empty file
example : readInputFile exControlNum (some []) = .ok ⟨none, [none, none, none], [none, none, none], [none, none, none]⟩ := by
  decide +kernel

-- the hypotheses of `control_file_truncated` hold for the empty file and those of `control_file_bad_points` for a file with a word in place of a number
example : ControlWords exControlNum [] (fun _ => 0) (fun _ => 0) (fun _ => 0) := ⟨by simp, by simp, by simp, by simp⟩

example : readInputFile exControlNum (some "Type uniform Points x 1 1".toList) = .error (.throw "InputNotGivenError" "Input not given: Error while reading file + 0") := by
  refine control_file_bad_points (L := ["Type".toList, "uniform".toList, "Points".toList, "x".toList, "1".toList, "1".toList]) (n := fun _ => 0) (k := 0) (w := "x".toList)
    (.of_tokens (by decide +kernel)) ?_ (by omega) (by omega) rfl ⟨'x', [], rfl, by decide⟩
  intro i hi w hw
  have h3 : i = 0 ∨ i = 1 ∨ i = 2 := by omega
  rcases h3 with rfl | rfl | rfl <;> (simp at hw; subst hw; decide)

-- a word in place of the first coordinate of the first corner
example : readInputFile exControlNum (some "Type uniform Points 1 1 1 First x".toList) = .error (.throw "InputNotGivenError" "Input not given: Error while reading file + 0") := by
  refine control_file_bad_corner (L := ["Type".toList, "uniform".toList, "Points".toList, "1".toList, "1".toList, "1".toList, "First".toList, "x".toList]) (n := fun _ => 1) (a := fun _ => 0)
    (b := fun _ => 0) (j := 7) (k := 0) (w := "x".toList) (.of_tokens (by decide +kernel)) (.inl rfl) (by omega) ?_ rfl (by decide +kernel)
  refine ⟨?_, ?_, ?_, ?_⟩
  · intro i hi w hw
    simp only [List.mem_cons, List.not_mem_nil, or_false] at hi
    rcases hi with rfl | rfl | rfl | rfl | rfl <;> simp at hw <;> (subst hw; decide)
  · intro i hi w hw
    have h3 : i = 0 ∨ i = 1 ∨ i = 2 := by omega
    rcases h3 with rfl | rfl | rfl <;> simp at hw <;> (subst hw; exact ⟨⟨[], ['1'], 1, rfl, .one 1, .inl ⟨.inl rfl, rfl⟩⟩, by decide, by decide⟩)
  · intro i hi w hw
    have h3 : i = 0 ∨ i = 1 ∨ i = 2 := by omega
    rcases h3 with rfl | rfl | rfl <;> simp at hw
  · intro i hi w hw
    have h3 : i = 0 ∨ i = 1 ∨ i = 2 := by omega
    rcases h3 with rfl | rfl | rfl <;> simp at hw

end Blasted
