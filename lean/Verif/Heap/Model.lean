import Verif.Base.Mem

/-!
# Memory blocks, array views and their ownership

`include/arrayview.hpp`. Memory is a list of blocks; a block is the list of its cells. A pointer is null or a
block number with an offset. Blocks are never reused, so that the number of a block identifies one allocation.
Simplifications: an allocation never fails, an allocation of size zero returns a valid pointer, the types
of elements have separate memories, and the two accessors of `ArrayView` are called with indices
that are not negative.
-/

namespace Blasted

variable {β : Type}

/-- Memory for elements of one type: all blocks ever allocated, and the numbers of those passed to
`aligned_free`, in order of the calls. -/
structure Heap (β : Type) where
  blocks : List (List β) := []
  freed : List Nat := []
deriving Repr, DecidableEq

/-- A pointer: null, or block number and offset. -/
abbrev Ptr := Option (Nat × Nat)

/-- `aligned_alloc` of `size` elements; the indeterminate contents of element `i` is `g i`. -/
def Heap.alloc (h : Heap β) (size : Nat) (g : Nat → β) : Ptr × Heap β :=
  (some (h.blocks.length, 0), { h with blocks := h.blocks ++ [(List.range size).map g] })

/-- `aligned_free`: nothing for a null pointer; undefined for a pointer that is not the start of an allocated
block or whose block has been freed before. -/
def Heap.free (h : Heap β) (p : Ptr) : C (Heap β) :=
  match p with
  | none => .ok h
  | some (b, o) =>
    if o = 0 ∧ b < h.blocks.length ∧ b ∉ h.freed then .ok { h with freed := h.freed ++ [b] }
    else .error .ub

/-- `p[i]` as a value. -/
def Heap.load (h : Heap β) (p : Ptr) (i : Nat) : C β :=
  match p with
  | none => .error .ub
  | some (b, o) => do
    if b ∈ h.freed then .error .ub
    let blk ← rd h.blocks b
    rd blk (o + i)

/-- `p[i] = v`. -/
def Heap.store (h : Heap β) (p : Ptr) (i : Nat) (v : β) : C (Heap β) :=
  match p with
  | none => .error .ub
  | some (b, o) => do
    if b ∈ h.freed then .error .ub
    let blk ← rd h.blocks b
    let blk ← wr blk (o + i) v
    let blocks ← wr h.blocks b blk
    .ok { h with blocks := blocks }

/-- `&p[i]`. Simplification: adding to a null pointer is undefined also for `i = 0`. -/
def Ptr.add (p : Ptr) (i : Nat) : C Ptr :=
  match p with
  | none => .error .ub
  | some (b, o) => .ok (some (b, o + i))

/-- The members of `ArrayView`, `include/arrayview.hpp` lines 140-143; the null constructor, line 36, sets
the default values. -/
structure AV where
  data : Ptr := none
  len : Nat := 0
  owner : Bool := false
deriving Repr, DecidableEq

/-- Allocation constructor, `include/arrayview.hpp` lines 40-44. -/
def AV.ofSize (size : Nat) (g : Nat → β) (h : Heap β) : AV × Heap β :=
  let a := h.alloc size g
  (⟨a.1, size, true⟩, a.2)

/-- Wrap constructor, `include/arrayview.hpp` lines 47-50. -/
def AV.ofWrap (p : Ptr) (length : Nat) : AV := ⟨p, length, false⟩

/-- Wrap constructor with optional ownership transfer, `include/arrayview.hpp` lines 53-59. (Setting `arr` to null
changes only the parameter.) -/
def AV.ofOwn (p : Ptr) (length : Nat) (make_owner : Bool) : AV := ⟨p, length, make_owner⟩

/-- Move constructor, `include/arrayview.hpp` lines 62-68: the new object and what is left of the other. -/
def AV.move (other : AV) : AV × AV := (⟨other.data, other.len, other.owner⟩, ⟨none, 0, false⟩)

/-- `if(owner) aligned_free(data)`, `include/arrayview.hpp` lines 92-93, 105-106, 119-120. -/
def AV.release (v : AV) (h : Heap β) : C (Heap β) := if v.owner then h.free v.data else .ok h

/-- Destructor, `include/arrayview.hpp` lines 71-82. -/
def AV.destroy (v : AV) (h : Heap β) : C (Heap β) := v.release h

/-- `resize`, `include/arrayview.hpp` lines 88-98; `g` is the contents of the new block. -/
def AV.resize (v : AV) (size : Nat) (g : Nat → β) (h : Heap β) : C (AV × Heap β) := do
  let h ← v.release h
  let a := h.alloc size g
  .ok (⟨a.1, size, true⟩, a.2)

/-- `wrap`, `include/arrayview.hpp` lines 101-110. -/
def AV.wrap (v : AV) (p : Ptr) (length : Nat) (h : Heap β) : C (AV × Heap β) := do
  let h ← v.release h
  .ok (⟨p, length, false⟩, h)

/-- `take_control`, `include/arrayview.hpp` lines 115-124. -/
def AV.takeControl (v : AV) (p : Ptr) (length : Nat) (h : Heap β) : C (AV × Heap β) := do
  let h ← v.release h
  .ok (⟨p, length, true⟩, h)

/-- `operator[]` used as a value, `include/arrayview.hpp` lines 127-130. -/
def AV.get (v : AV) (i : Nat) (h : Heap β) : C β := do
  cassert (decide (i < v.len))
  h.load v.data i

/-- `operator[]` assigned to, `include/arrayview.hpp` lines 133-136. -/
def AV.set (v : AV) (i : Nat) (x : β) (h : Heap β) : C (Heap β) := do
  cassert (decide (i < v.len))
  h.store v.data i x

/-- `move_to_const`, `include/arrayview.hpp` lines 146-156: the returned object and what is left of the argument. -/
def AV.moveToConst (array : AV) : AV × AV := (AV.ofOwn array.data array.len array.owner, ⟨none, 0, false⟩)

/-! ### Histories -/

/-- The calls a program can make: on views (which are numbered in the order of their construction), and allocations
and deallocations of its own. -/
inductive AVOp (β : Type) where
  | newNull
  | newSize (size : Nat) (g : Nat → β)
  | newWrap (p : Ptr) (length : Nat)
  | newOwn (p : Ptr) (length : Nat) (make_owner : Bool)
  | newMove (v : Nat)
  | newMoveToConst (v : Nat)
  | destroy (v : Nat)
  | resize (v : Nat) (size : Nat) (g : Nat → β)
  | wrap (v : Nat) (p : Ptr) (length : Nat)
  | takeControl (v : Nat) (p : Ptr) (length : Nat)
  | callerAlloc (size : Nat) (g : Nat → β)
  | callerFree (p : Ptr)

/-- Memory and the views constructed so far; `none` is a view that has been destroyed. -/
structure AVState (β : Type) where
  heap : Heap β := {}
  views : List (Option AV) := []

/-- The object with number `v`; using a destroyed object is undefined. -/
def AVState.view (s : AVState β) (v : Nat) : C AV := do
  let o ← rd s.views v
  match o with
  | some a => .ok a
  | none => .error .ub

/-- One call. -/
def AVState.step (s : AVState β) : AVOp β → C (AVState β)
  | .newNull => .ok { s with views := s.views ++ [some {}] }
  | .newSize n g =>
    let a := AV.ofSize n g s.heap
    .ok { heap := a.2, views := s.views ++ [some a.1] }
  | .newWrap p l => .ok { s with views := s.views ++ [some (AV.ofWrap p l)] }
  | .newOwn p l o => .ok { s with views := s.views ++ [some (AV.ofOwn p l o)] }
  | .newMove v => do
    let a ← s.view v
    let m := a.move
    .ok { s with views := s.views.set v (some m.2) ++ [some m.1] }
  | .newMoveToConst v => do
    let a ← s.view v
    let m := a.moveToConst
    .ok { s with views := s.views.set v (some m.2) ++ [some m.1] }
  | .destroy v => do
    let a ← s.view v
    let h ← a.destroy s.heap
    .ok { heap := h, views := s.views.set v none }
  | .resize v n g => do
    let a ← s.view v
    let r ← a.resize n g s.heap
    .ok { heap := r.2, views := s.views.set v (some r.1) }
  | .wrap v p l => do
    let a ← s.view v
    let r ← a.wrap p l s.heap
    .ok { heap := r.2, views := s.views.set v (some r.1) }
  | .takeControl v p l => do
    let a ← s.view v
    let r ← a.takeControl p l s.heap
    .ok { heap := r.2, views := s.views.set v (some r.1) }
  | .callerAlloc n g => .ok { s with heap := (s.heap.alloc n g).2 }
  | .callerFree p => do
    let h ← s.heap.free p
    .ok { s with heap := h }

/-- A sequence of calls. -/
def AVState.run (s : AVState β) (ops : List (AVOp β)) : C (AVState β) := forList ops (fun op s => s.step op) s

end Blasted
