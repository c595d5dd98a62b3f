import Verif.Transpose.Model

/-!
# Sorting of a row's entries, parallel prefix sum, inner search

Transcription of `sortBlockInnerDimension` (`src/helper_algorithms.cpp`), `inner_search`
(`src/helper_algorithms.hpp`) and `prefix_sum` (`src/utils/prefix_sum.cpp`).
-/

namespace Blasted

variable {K : Type}

/-- `std::max_element(a+lo, a+hi)` for a non-empty range: position of the first maximum
(used in `src/helper_algorithms.cpp` line 36). -/
def maxElement (a : List Nat) (lo hi : Nat) : C Nat :=
  forRange (lo + 1) hi (fun k best => do
    let b ← rd a best
    let v ← rd a k
    .ok (if b < v then k else best)) lo

/-- `sortBlockInnerDimension`, `src/helper_algorithms.cpp` lines 31-54, called with the pointers
`colind + base` and `vals + base*m`, where `m = bs*bs`. -/
def sortBlockInner (m N base : Nat) (colind : List Nat) (vals : List K) : C (List Nat × List K) :=
  forRange 0 (N - 1) (fun i (s : List Nat × List K) => do
    let (colind, vals) := s
    let last := base + (N - 1 - i)
    let it ← maxElement colind base (base + (N - i))
    let tempi ← rd colind last
    let v ← rd colind it
    let colind ← wr colind last v
    let colind ← wr colind it tempi
    let tempv ← readBlock m vals last
    let vals ← forRange 0 m (fun k vals => do
      let v ← rd vals (it * m + k)
      let vals ← wr vals (last * m + k) v
      let t ← rd tempv k
      wr vals (it * m + k) t) vals
    .ok (colind, vals)) (colind, vals)

/-- `inner_search`, `src/helper_algorithms.hpp` lines 38-49: `*pos` is `pos`, the result is its new
value. `pos` is an integer because callers initialise it with `-1`. -/
def innerSearch (aind : List Nat) (start stop indtofind : Nat) (pos : Int) : C Int := do
  let r ← forRange start stop (fun j (s : Bool × Int) => do
    if s.1 then .ok s
    else
      let a ← rd aind j
      if a = indtofind then .ok (true, (j : Int)) else .ok s) (false, pos)
  .ok r.2

section prefixsum
variable {α : Type} [AddCommMonoid α]

/-- What thread `t` does between the barrier and the end of the parallel region,
`src/utils/prefix_sum.cpp` lines 43-51. -/
def psLocal (T d n : Nat) (startval : List α) (t : Nat) (counts : List α) : C (List α) := do
  let startidx := t * d
  let endidx := min n ((t + 1) * d)
  let sv ← rd startval t
  let r ← forRange (startidx + 1) endidx (fun i (s : List α × α) => do
    let nnz ← rd s.1 i
    let counts ← wr s.1 i s.2
    .ok (counts, s.2 + nnz)) (counts, sv)
  if t ≠ T - 1 then wr r.1 endidx r.2 else .ok r.1

/-- One task of one level, `src/utils/prefix_sum.cpp` lines 63-71. `w` is `lvl_num_witems`. -/
def psTask (w n itask : Nat) (counts : List α) : C (List α) := do
  let startidx := min n (w / 2 + itask * w + 1)
  let endidx := min n ((itask + 1) * w + 1)
  let baseval ← rd counts (startidx - 1)
  forRange startidx endidx (fun i counts => do
    let v ← rd counts i
    wr counts i (v + baseval)) counts

/-- `prefix_sum`, `src/utils/prefix_sum.cpp` lines 20-73, run by `T` threads. `levels` is the value of
`ceil(log(T))` (line 55). `ord0`, `ord1`, `ordL` are the orders in which threads
and tasks execute in the phases between barriers. Simplification: the team has the
`omp_get_max_threads()` threads, and the steps of different threads inside one phase
do not interleave (they touch disjoint cells). -/
def prefixSum (T levels : Nat) (ord0 ord1 : List Nat) (ordL : Nat → List Nat) (counts : List α) :
    C (List α) := do
  let n := counts.length
  if n ≤ 1 then
    if n > 0 then wr counts 0 0 else .ok counts
  else
    let d := (n - 1) / T + 1
    let startval ← parFor T ord0 (fun t sv => do
      let v ← rd counts (t * d)
      wr sv t v) (List.replicate T 0)
    let counts ← parFor T ord1 (psLocal T d n startval) counts
    let counts ← wr counts 0 0
    forRange 0 levels (fun ilvl counts =>
      parFor ((T - 1) / 2 ^ (ilvl + 1) + 1) (ordL ilvl) (psTask (2 ^ (ilvl + 1) * d) n) counts) counts

end prefixsum

end Blasted
