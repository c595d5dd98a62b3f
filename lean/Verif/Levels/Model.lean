import Verif.Solve.Model

/-!
# Level scheduling

Transcription of `src/levelschedule.cpp`.
-/

namespace Blasted

variable {V : Type}

/-- Lines 17-22 of `src/levelschedule.cpp`: the list of column indices of every row. -/
def buildDepends (A : SR V) : C (List (List Nat)) :=
  forRange 0 A.nbrows (fun irow dep => do
    let lo ← rd A.browptr irow
    let hi ← rd A.browptr (irow + 1)
    forRange lo hi (fun jj dep => do
      let c ← rd A.bcolind jj
      let l ← rd dep irow
      wr dep irow (l ++ [c])) dep) (List.replicate A.nbrows [])

/-- `std::list::front`; undefined for an empty list. -/
def listFront (l : List Nat) : C Nat :=
  match l with
  | [] => .error .ub
  | c :: _ => .ok c

/-- The loop of lines 32-34, from row `inode` with `k` rows left: the first row whose dependency list
starts with an earlier row. -/
def findLevelEnd (dep : List (List Nat)) : (k inode : Nat) → C Nat
  | 0, inode => .ok inode
  | k + 1, inode => do
    let l ← rd dep inode
    let c ← listFront l
    if inode ≤ c then findLevelEnd dep k (inode + 1) else .ok inode

/-- Lines 46-60 for one neighbour: remove `jnode` from the dependencies of `jnbr`. -/
def removeDep (jnode jnbr : Nat) (dep : List (List Nat)) : C (List (List Nat)) :=
  if jnbr = jnode then .ok dep else do
    let l ← rd dep jnbr
    if jnode ∈ l then wr dep jnbr (l.erase jnode)
    else .error (.throw "std::runtime_error" "Faulty dependency list!")

/-- Lines 44-61 for one row of the new level. The list that is traversed is not changed by the removals, which are
from the lists of other rows. -/
def removeNode (jnode : Nat) (dep : List (List Nat)) : C (List (List Nat)) := do
  let l ← rd dep jnode
  forList l (removeDep jnode) dep

/-- The loop of lines 28-62. `fuel` bounds the number of iterations. -/
def levelLoop (n : Nat) : (fuel inode nlevels : Nat) → List Nat → List (List Nat) → C (Nat × Nat × List Nat)
  | 0, _, _, _, _ => .error .fuel
  | fuel + 1, inode, nlevels, levels, dep =>
    if inode < n then do
      let inode ← findLevelEnd dep (n - inode) inode
      let levels := levels ++ [inode]
      let start ← rd levels (levels.length - 2)
      let dep ← forRange start inode removeNode dep
      levelLoop n fuel inode (nlevels + 1) levels dep
    else .ok (inode, nlevels, levels)

/-- `computeLevels`, `src/levelschedule.cpp` lines 12-71. -/
def computeLevels (fuel : Nat) (A : SR V) : C (List Nat) := do
  let dep ← buildDepends A
  let r ← levelLoop A.nbrows fuel 0 0 [0] dep
  cassert (r.1 == A.nbrows)
  let back ← rd r.2.2 (r.2.2.length - 1)
  cassert (A.nbrows == back)
  cassert (r.2.1 + 1 == r.2.2.length)
  .ok r.2.2

end Blasted
