import Verif.Base.SR
import Mathlib.Algebra.Order.Ring.Abs
import Mathlib.Algebra.Order.Field.Basic

/-!
# Norms and diagonal dominance computed by parallel reductions

`src/blas/blas1.cpp` lines 12-24 and `src/matrix_properties.cpp` lines 11-77.

An OpenMP reduction splits the iterations among threads in any way; each thread starts from a private
copy initialised with the identity of the operation, and the private results are combined with the initial
value in any order. `parts` maps the list of all iterations to the lists executed by the threads, in the order in
which the threads' results are combined. Simplification: arithmetic is exact, in an ordered field.
-/

namespace Blasted

variable {K : Type} [Field K] [LinearOrder K]

/-- A division of the iterations among threads: every iteration is executed once. -/
def IsParts (parts : List Nat → List (List Nat)) : Prop := ∀ l, (parts l).flatten.Perm l

/-- `maxnorm`, `src/blas/blas1.cpp` lines 12-24. `tiny` is `std::numeric_limits<scalar>::min()` and `lowest` the
value the threads' private copies start from (the least representable number). -/
def maxnorm (tiny lowest : K) (parts : List Nat → List (List Nat)) (vec : List K) : C K :=
  forList (parts (List.range vec.length)) (fun chunk smax => do
    let mine ← forList chunk (fun i s => do
      let v ← rd vec i
      .ok (if s < |v| then |v| else s)) lowest
    .ok (max smax mine)) tiny

/-- The four reduction variables of `diagonal_dominance`. -/
structure DDom (K : Type) where
  lavg : K
  lmin : K
  uavg : K
  umin : K
deriving Repr, DecidableEq

/-- `for i, j: row[i] += |block(i,j)|` except for the skipped pairs, `src/matrix_properties.cpp` lines 32-36, 41-43
and 49-51. -/
def addAbsBlock (stor : Stor) (bs : Nat) (vals : List K) (k : Nat) (skip : Nat → Nat → Bool) (row : List K) :
    C (List K) :=
  forRange 0 bs (fun i row => forRange 0 bs (fun j row =>
    if skip i j then .ok row else do
      let x ← rd row i
      let v ← rd vals (k * (bs * bs) + stor.off bs i j)
      wr row i (x + |v|)) row) row

/-- Division of floating-point numbers. Simplification: division by zero is a distinct outcome. -/
def fdiv (a b : K) : C K := if b = 0 then .error .divzero else .ok (a / b)

/-- The body of the row loop of `diagonal_dominance` up to the combination with the reduction variables,
`src/matrix_properties.cpp` lines 22-66. `inf` is the number `1e30`. -/
def ddRow (inf : K) (stor : Stor) (bs : Nat) (A : SR K) (irow : Nat) : C (DDom K) := do
  let diagp ← rd A.diagind irow
  let u ← addAbsBlock stor bs A.vals diagp (fun i j => i == j) (List.replicate bs 0)
  let e ← rd A.browendptr irow
  let u ← forRange (diagp + 1) e (fun jj u => addAbsBlock stor bs A.vals jj (fun _ _ => false) u) u
  let b ← rd A.browptr irow
  let l ← forRange b diagp (fun jj l => addAbsBlock stor bs A.vals jj (fun _ _ => false) l) (List.replicate bs 0)
  forRange 0 bs (fun i s => do
    let x ← rd l i
    let y ← rd u i
    let dg ← rd A.vals (diagp * (bs * bs) + stor.off bs i i)
    let q ← fdiv y |dg|
    let rl := 1 - x
    let ru := 1 - q
    .ok { lavg := s.lavg + rl, lmin := if s.lmin > rl then rl else s.lmin
          uavg := s.uavg + ru, umin := if s.umin > ru then ru else s.umin }) ⟨0, inf, 0, inf⟩

/-- Combining the values of a row with the reduction variables, `src/matrix_properties.cpp` lines 68-73. -/
def ddCombine (s r : DDom K) : DDom K :=
  { lavg := s.lavg + r.lavg, lmin := if s.lmin > r.lmin then r.lmin else s.lmin
    uavg := s.uavg + r.uavg, umin := if s.umin > r.umin then r.umin else s.umin }

/-- `diagonal_dominance`, `src/matrix_properties.cpp` lines 11-77. `inf` is `1e30` and `big` the value from which the
private copies of the minima start (the greatest representable number). -/
def diagonalDominance (inf big : K) (parts : List Nat → List (List Nat)) (stor : Stor) (bs : Nat) (A : SR K) :
    C (DDom K) := do
  let s ← forList (parts (List.range A.nbrows)) (fun chunk acc => do
    let mine ← forList chunk (fun irow s => do
      let r ← ddRow inf stor bs A irow
      .ok (ddCombine s r)) ⟨0, big, 0, big⟩
    .ok { lavg := acc.lavg + mine.lavg, lmin := min acc.lmin mine.lmin
          uavg := acc.uavg + mine.uavg, umin := min acc.umin mine.umin }) (⟨0, inf, 0, inf⟩ : DDom K)
  let la ← fdiv s.lavg ((A.nbrows * bs : Nat) : K)
  let ua ← fdiv s.uavg ((A.nbrows * bs : Nat) : K)
  .ok { s with lavg := la, uavg := ua }

end Blasted
