import Verif.Base.Sweep
import Mathlib.Data.Set.Basic

/-!
# Asynchronous (chaotic) executions

The asynchronous loops of BLASTed (`src/async_ilu_factor.cpp` lines 164-176,
`src/async_blockilu_factor.cpp` lines 191-203, `src/solverops_ilu0.cpp` lines 104-113 and 129-141 and
the scalar counterparts, `src/relaxation_chaotic.cpp`, `src/solverops_sgs.cpp`) let several threads
update the components of one shared array without synchronisation. A component update
reads components, computes, and writes one component.

An execution is modelled by the log of its component writes, in the order in which they reach
memory. The update that produces a write may have read, for every component independently,
any value which that component has held so far, be it recent or stale. This covers every
interleaving, every delay in the visibility of writes, and mixtures of old and new values.

A component can be a whole block, written coefficient by coefficient. The parameter `mix`
says which values a read may return when the component has held the values of a set: `mixWhole` returns one
of them, `mixTorn` takes every coefficient from a possibly different one.
-/

namespace Blasted

variable {V : Type}

/-- Reading a component returns one of the values it has held. -/
def mixWhole (S : Set V) : Set V := S

/-- Reading a component that consists of coefficients: every coefficient is taken from one of
the values the component has held. -/
def mixTorn {ι κ K : Type} (S : Set (ι → κ → K)) : Set (ι → κ → K) :=
  {v | ∀ a b, ∃ u ∈ S, v a b = u a b}

/-- Reading a segment of a vector: every coefficient is taken from one of the values the segment has held. -/
def mixTornSeg {ι K : Type} (S : Set (ι → K)) : Set (ι → K) :=
  {v | ∀ a, ∃ u ∈ S, v a = u a}

/-- The models of reading covered by the theorems: more available values allow more reads, and if the only
value a component has held is `v`, the read returns `v`. All of `mixWhole`, `mixTorn`
and `mixTornSeg` are of this kind. -/
structure MixOk (mix : Set V → Set V) : Prop where
  mono : ∀ {S T : Set V}, S ⊆ T → mix S ⊆ mix T
  single : ∀ {S : Set V} {v w : V}, (∀ u ∈ S, u = v) → w ∈ mix S → w = v

/-- The read function that an update with local view `view` of an array of `n` components has. -/
def readView (n : Nat) (view : Nat → V) (j : Nat) : C V :=
  if j < n then .ok (view j) else .error .ub

/-- What an update writes: its result, or, if it divided by zero (or inverted a singular block), any
value at all. In the program it is then an infinity or NaN; reading such a value back is
not modelled specially. -/
def Yields (m : C V) (v : V) : Prop := m = .ok v ∨ m = .error .divzero

/-- `ALog upd mix n B log`: `log` is the list of component writes, in order, of an asynchronous execution
of the update function `upd` on an array of `n` components. `upd i r` computes component `i` reading
the array through `r`. `B` contains the writes already visible when the execution starts. -/
inductive ALog (upd : Nat → (Nat → C V) → C V) (mix : Set V → Set V) (n : Nat) (B : Set (Nat × V)) :
    List (Nat × V) → Prop
  | nil : ALog upd mix n B []
  | write {log : List (Nat × V)} {i : Nat} {v : V} (view : Nat → V) (prev : ALog upd mix n B log)
      (hview : ∀ j < n, view j ∈ mix {w | (j, w) ∈ B ∨ (j, w) ∈ log})
      (hi : i < n) (hupd : Yields (upd i (readView n view)) v) :
      ALog upd mix n B (log ++ [(i, v)])

/-- The memory after the writes of a log. -/
def applyLog (x : List V) (log : List (Nat × V)) : List V :=
  log.foldl (fun x w => x.set w.1 w.2) x

/-- The contents of the array `x` seen as a set of visible writes. -/
def memOf (x : List V) : Set (Nat × V) := {w | x[w.1]? = some w.2}

/-- The log contains a write of every component. -/
def Covers (n : Nat) (log : List (Nat × V)) : Prop := ∀ i < n, ∃ v, (i, v) ∈ log

/-- One asynchronous sweep that has completed: starting from memory `x`, every component is updated at
least once, reads return values present since the sweep began, and `x'` is the memory left. -/
def ASweep (upd : Nat → (Nat → C V) → C V) (mix : Set V → Set V) (x x' : List V) : Prop :=
  ∃ log, ALog upd mix x.length (memOf x) log ∧ Covers x.length log ∧ x' = applyLog x log

/-- `k` sweeps, each completed before the next begins. -/
inductive ASweeps (upd : Nat → (Nat → C V) → C V) (mix : Set V → Set V) :
    Nat → List V → List V → Prop
  | zero (x : List V) : ASweeps upd mix 0 x x
  | succ {k : Nat} {x y z : List V} : ASweeps upd mix k x y → ASweep upd mix y z →
      ASweeps upd mix (k + 1) x z

/-- Overlapping sweeps with bounded lag: the log splits into `k` rounds, every round updates every component,
and the reads of a round return values written in that round or in the one before it (for the
first round: or the initial values). `last` is the last round. With a barrier between the sweeps every sweep
is a round; if no thread begins a sweep before all have finished the sweep `L` before, `2 L - 1` sweeps are a
round (`async_exec_lag`). -/
inductive ARounds (upd : Nat → (Nat → C V) → C V) (mix : Set V → Set V) (x : List V) :
    Nat → List (Nat × V) → List (Nat × V) → Prop
  | first {log : List (Nat × V)} : ALog upd mix x.length (memOf x) log → Covers x.length log →
      ARounds upd mix x 1 log log
  | next {k : Nat} {log last new : List (Nat × V)} : ARounds upd mix x k log last →
      ALog upd mix x.length {w | w ∈ last} new → Covers x.length new →
      ARounds upd mix x (k + 1) (log ++ new) new

/-- `k` sweeps without any barrier and without any bound on how late a thread can be: every component is
updated exactly `k` times, with reads returning any value held since the beginning. -/
def AFree (upd : Nat → (Nat → C V) → C V) (mix : Set V → Set V) (k : Nat) (x x' : List V) : Prop :=
  ∃ log, ALog upd mix x.length (memOf x) log ∧
    (∀ i < x.length, (log.map Prod.fst).count i = k) ∧ x' = applyLog x log

end Blasted
