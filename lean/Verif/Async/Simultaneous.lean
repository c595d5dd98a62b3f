import Verif.Async.Lemmas
import Verif.Base.Mem

/-!
# Executions in which all threads read before any of them writes

In these executions every sweep uses only values of the previous sweep, as the Jacobi iteration does.
-/

namespace Blasted

variable {V : Type}

/-- A round in which every update reads the same view of the array. -/
theorem ALog.simultaneous {upd : Nat → (Nat → C V) → C V} {mix : Set V → Set V} (hsub : ∀ S, S ⊆ mix S) {n : Nat} {B : Set (Nat × V)}
    {view v : Nat → V} (hB : ∀ j < n, (j, view j) ∈ B) (hv : ∀ i < n, Yields (upd i (readView n view)) (v i)) :
    ∀ m ≤ n, ALog upd mix n B ((List.range m).map fun i => (i, v i)) := by
  intro m
  induction m with
  | zero => exact fun _ => .nil
  | succ m ih =>
    intro hm
    rw [List.range_succ, List.map_append]
    exact .write view (ih (by omega)) (fun j hj => hsub _ (Or.inl (hB j hj))) (by omega) (hv m (by omega))

theorem covers_range {n : Nat} (v : Nat → V) : Covers n ((List.range n).map fun i => (i, v i)) := fun i hi =>
  ⟨v i, List.mem_map.mpr ⟨i, List.mem_range.mpr hi, rfl⟩⟩

theorem applyLog_range {n : Nat} {x : List V} (hx : x.length = n) (v : Nat → V) :
    applyLog x ((List.range n).map fun i => (i, v i)) = (List.range n).map v := by
  have key : ∀ m ≤ n, applyLog x ((List.range m).map fun i => (i, v i)) = (List.range m).map v ++ x.drop m := by
    intro m
    induction m with
    | zero => intro _; rfl
    | succ m ih =>
      intro hm
      rw [List.range_succ, List.map_append, applyLog_append, ih (by omega), List.map_append]
      show ((List.range m).map v ++ x.drop m).set m (v m) = _
      rw [List.set_append, if_neg (by simp), List.length_map, List.length_range, Nat.sub_self, List.append_assoc]
      congr 1
      rw [List.drop_eq_getElem_cons (by omega), List.set_cons_zero]
      rfl
  rw [key n le_rfl, List.drop_of_length_le (by omega), List.append_nil]

/-- The iterates of a simultaneous iteration are outcomes of asynchronous sweeps. -/
theorem ARounds.simultaneous {upd : Nat → (Nat → C V) → C V} {mix : Set V → Set V} (hsub : ∀ S, S ⊆ mix S) {x : List V} {X : Nat → Nat → V}
    (h0 : ∀ j (h : j < x.length), X 0 j = x[j]) (hX : ∀ t, ∀ i < x.length, Yields (upd i (readView x.length (X t))) (X (t + 1) i)) :
    ∀ k, ∃ log, ARounds upd mix x (k + 1) log ((List.range x.length).map fun i => (i, X (k + 1) i)) ∧
      applyLog x log = (List.range x.length).map (X (k + 1)) := by
  intro k
  induction k with
  | zero =>
    refine ⟨_, .first (.simultaneous hsub (view := X 0) (fun j hj => ?_) (hX 0) _ le_rfl) (covers_range _), applyLog_range rfl _⟩
    show x[j]? = some (X 0 j)
    rw [h0 j hj, List.getElem?_eq_getElem hj]
  | succ k ih =>
    obtain ⟨log, h1, h2⟩ := ih
    refine ⟨_, .next h1 (.simultaneous hsub (view := X (k + 1)) (fun j hj => ?_) (hX (k + 1)) _ le_rfl) (covers_range _), ?_⟩
    · exact List.mem_map.mpr ⟨j, List.mem_range.mpr hj, rfl⟩
    · rw [applyLog_append, h2]
      exact applyLog_range (by simp) _

end Blasted
