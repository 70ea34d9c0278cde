import Verif.Common.Std
import Mathlib.Algebra.Field.Basic
import Mathlib.Algebra.Order.Ring.Defs
import Mathlib.Algebra.BigOperators.Group.List.Basic

/-!
# Model of algebraic Dirichlet conditions and of solution normalisation

Sources: `/repo/include/l3ster/bcs/DirichletBC.hpp` lines 29-157, `/repo/include/l3ster/bcs/GetDirichletDofs.hpp` lines
22-51, `/repo/include/l3ster/bcs/LocalDirichletBC.hpp` lines 36-72 and 111-113.

The matrix is seen as a whole: a list of rows, each a list of (column, value) in the order of the sparsity graph; rows and
columns carry global numbers.  Its distribution by rows does not matter to the row-wise algorithm.
-/
namespace Verif.Dirichlet
open Verif

variable {K : Type} [Field K]

/-- A row of a CRS matrix. (a row of the Tpetra matrix, DirichletBC.hpp 54-56, 134) -/
abbrev Row (K : Type) := List (Nat × K)

/-- `getSubgraph` with the predicates of lines 44-45 (TrilinosUtils.hpp 110-154): columns of row `r` kept in
`m_dirichlet_col_mat`.  `fillComplete` may store them in another order. -/
def subCols (bc : Nat → Bool) (r : Nat) (row : Row K) : List Nat := if bc r then [] else (row.map (·.1)).filter bc

/-- The positions pushed to `m_bc_local_col_inds` for a row whose stored constrained columns are `cols`, lines 57-69. -/
def rowInds (cols : List Nat) (row : Row K) : List Nat := cols.map fun c => row.findIdx fun e => decide (e.1 = c)

/-- Members of `DirichletBCAlgebraic` after construction, 32-80: owned constrained rows, positions, offsets. -/
structure Data where
  owned : List Nat
  inds : List Nat
  offsets : List Nat

/-- Loop of the constructor, 73-80; `sub r` are the stored columns of row `r` of `m_dirichlet_col_mat`. -/
def construct (bc : Nat → Bool) (sub : Nat → List Nat) (rows : List (Row K)) : Data :=
  rows.zipIdx.foldl (fun d q =>
    if bc q.2 then ⟨d.owned ++ [q.2], d.inds, d.offsets ++ [d.offsets.getLastD 0]⟩
    else ⟨d.owned, d.inds ++ rowInds (sub q.2) q.1, d.offsets ++ [d.offsets.getLastD 0 + (sub q.2).length]⟩) ⟨[], [], [0]⟩

/-- `getLocalColInds`, 153-157. -/
def Data.colInds (d : Data) (r : Nat) : List Nat := (d.inds.take (d.offsets.getD (r + 1) 0)).drop (d.offsets.getD r 0)

/-- `process_dbc_row`, 101-114: `none` when the diagonal is not in the row. -/
def dbcRow (r : Nat) (row : Row K) : Option (Row K) :=
  if row.findIdx (fun e => decide (e.1 = r)) < row.length then
    some (row.zipIdx.map fun e => (e.1.1, if e.2 = row.findIdx (fun e => decide (e.1 = r)) then 1 else 0))
  else none

/-- `fill_subgraph_row`, 115-122: the row of `m_dirichlet_col_mat`. -/
def subRow (cols inds : List Nat) (row : Row K) : Row K := cols.zip (inds.map fun i => ((row[i]?).map (·.2)).getD 0)

/-- `zero_dirichlet_cols`, 123-131: `replaceLocalValues` for the columns at the given positions. -/
def zeroCols (inds : List Nat) (row : Row K) : Row K :=
  (inds.map fun i => ((row[i]?).map (·.1)).getD 0).foldl (fun row c => row.map fun e => if e.1 = c then (e.1, 0) else e) row

/-- Body of the loop over rows, 139-146: the new row, the row of the auxiliary matrix, and the right-hand side of the row. -/
def processRow (sub : Nat → List Nat) (d : Data) (g : Nat → Nat → K) (rhs : Nat → K) (r : Nat) (row : Row K) : Option (Row K × Row K × (Nat → K)) :=
  if Std.binarySearch d.owned r then (dbcRow r row).map fun row' => (row', [], g r)
  else some (zeroCols (d.colInds r) row, subRow (sub r) (d.colInds r) row, rhs)

/-- Product of a row with a vector. (the product of a row with the boundary values, DirichletBC.hpp 132-148) -/
def dot (row : Row K) (x : Nat → K) : K := (row.map fun e => e.2 * x e.1).sum

/-- `apply`, 82-150: new rows and right-hand sides (row, then column).  The final line is `rhs -= D * bc_vals`. -/
def apply (bc : Nat → Bool) (sub : Nat → List Nat) (g : Nat → Nat → K) (rows : List (Row K)) (rhs : Nat → Nat → K) : Option (List (Row K × (Nat → K))) :=
  let d := construct bc sub rows
  rows.zipIdx.mapM fun q => (processRow sub d g (rhs q.2) q.2 q.1).map fun p => (p.1, fun k => p.2.2 k - dot p.2.1 fun c => g c k)

/-! ### Normalisation -/

/-- One table entry against the running minimum (invalid entries are skipped). (GetDirichletDofs.hpp 30-42) -/
def minStep (cur : Option Nat) : Option Nat → Option Nat
  | none => cur
  | some e => match cur with
    | none => some e
    | some m => some (min m e)

/-- Loop over the table with the running minimum, GetDirichletDofs.hpp 33-43, LocalDirichletBC.hpp 50-59: `rows` are the dof
arrays examined, `c` the component. -/
def runMin (c : Nat) (rows : List (List (Option Nat))) : Option Nat := rows.foldl (fun cur row => minStep cur (row[c]?).join) none

/-- `numeric_limits<global_dof_t>::max()`. (GetDirichletDofs.hpp 42) -/
def maxDof : Nat := 2 ^ 63 - 1

/-- `get_normalization_dofs` for component `c` on rank `r`, 44-51; `tabs` are the tables of owned nodes of all ranks. -/
def normGlobal (tabs : List (List (List (Option Nat)))) (c r : Nat) : Option Nat :=
  let mine := tabs.map fun t => (runMin c t).getD maxDof
  let glob := mine.foldl min maxDof
  if (mine[r]?).getD maxDof = glob then some glob else none

/-- `getNormalizationDofs` for component `c` (LocalDirichletBC.hpp 36-72): for every rank the dof it pushes, if any; the whole
result is `none` if the assertion (66) fails.  `tabs`: per rank the number of rows looked at and all rows of its table. -/
def normLocal (tabs : List (Nat × List (List (Option Nat)))) (c : Nat) : Option (List (Option Nat)) :=
  let mine := tabs.map fun t => runMin c (t.2.take t.1)
  let minRank := mine.findIdx fun m => m.isSome
  if minRank < tabs.length then some (mine.zipIdx.map fun m => if m.2 = minRank then m.1 else none) else none

end Verif.Dirichlet
