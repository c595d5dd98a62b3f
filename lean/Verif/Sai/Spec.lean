import Verif.Sai.Model
import Verif.Container.ViewProps

/-!
# What an assembly pattern of a sparse approximate inverse has to list

For row `i` of the matrix, the unknowns are the entries of row `i` of the approximate inverse, which has the same
sparsity as the matrix: one unknown per stored entry of row `i`. The equations are given by a list `cs` of
columns. The coefficient of the unknown for column `r` in the equation for column `j` is the entry `(r, j)`
of the matrix.
-/

namespace Blasted

variable {V : Type _}

/-- Position `k` is stored in row `i`. -/
def SR.Has (A : SR V) (i k : Nat) : Prop := A.browptr⟦i⟧ ≤ k ∧ k < A.browendptr⟦i⟧

/-- Number of entries of row `i`. -/
def SR.rowLen (A : SR V) (i : Nat) : Nat := A.browendptr⟦i⟧ - A.browptr⟦i⟧

/-- Columns of the entries of row `i`, in storage order. -/
def SR.rowCols (A : SR V) (i : Nat) : List Nat :=
  (List.range' A.browptr⟦i⟧ (A.rowLen i)).map fun k => A.bcolind⟦k⟧

/-- What the pattern lists for unknown number `c` of row `i`: pairs of a position in the arrays of the matrix and
the number of an equation. -/
def SaiPattern.column (sp : SaiPattern) (i c : Nat) : List (Nat × Int) :=
  (List.range' sp.bcolptr⟦sp.sairowptr⟦i⟧ + c⟧
    (sp.bcolptr⟦sp.sairowptr⟦i⟧ + c + 1⟧ - sp.bcolptr⟦sp.sairowptr⟦i⟧ + c⟧)).map
    fun t => (sp.bpos⟦t⟧, sp.browind⟦t⟧)

/-- The arrays of the pattern have the lengths and the nesting its users rely on. -/
structure SaiPattern.Sized (sp : SaiPattern) (n : Nat) : Prop where
  vars_len : sp.nVars.length = n
  eqns_len : sp.nEqns.length = n
  central_len : sp.localCentralRow.length = n
  ptr_len : sp.sairowptr.length = n + 1
  ptr_zero : sp.sairowptr⟦0⟧ = 0
  ptr_succ : ∀ i < n, sp.sairowptr⟦i + 1⟧ = sp.sairowptr⟦i⟧ + sp.nVars⟦i⟧
  col_len : sp.bcolptr.length = sp.sairowptr⟦n⟧ + 1
  col_zero : sp.bcolptr⟦0⟧ = 0
  col_mono : ∀ q < sp.sairowptr⟦n⟧, sp.bcolptr⟦q⟧ ≤ sp.bcolptr⟦q + 1⟧
  pos_len : sp.bpos.length = sp.bcolptr⟦sp.sairowptr⟦n⟧⟧
  row_len : sp.browind.length = sp.bcolptr⟦sp.sairowptr⟦n⟧⟧

/-- The local problem of row `i` has one unknown per stored entry of the row and the equations of the
columns `cs`; the recorded central equation is that of column `i`; and for every unknown, the pattern lists
exactly the entries of the corresponding row of the matrix that lie in these columns, each once,
with the number of its equation. -/
structure SaiPattern.Local (A : SR V) (sp : SaiPattern) (i : Nat) (cs : List Nat) : Prop where
  vars : sp.nVars⟦i⟧ = A.rowLen i
  eqns : sp.nEqns⟦i⟧ = cs.length
  central : 0 ≤ sp.localCentralRow⟦i⟧ ∧ cs[sp.localCentralRow⟦i⟧.toNat]? = some i
  once : ∀ c < A.rowLen i, (sp.column i c).Pairwise fun p q => p.1 < q.1
  listed : ∀ c < A.rowLen i, ∀ k e, (k, e) ∈ sp.column i c ↔
    A.Has A.bcolind⟦A.browptr⟦i⟧ + c⟧ k ∧ 0 ≤ e ∧ cs[e.toNat]? = some A.bcolind⟦k⟧

end Blasted
