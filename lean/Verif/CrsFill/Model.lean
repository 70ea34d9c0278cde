import Verif.Sparsity.Model
import Verif.Own.Model
import Verif.Algo.Model

/-!
# Model of what is handed to Tpetra for the sparsity graph

Source: `/repo/include/l3ster/algsys/SparsityGraph.hpp` lines 214-325; local graphs and the exchange of shared rows are those of
`Verif/Sparsity/Model.lean`, ownership is that of `Verif/Own/Model.lean`, the index map that of `Verif/Algo/Model.lean`.

`rows g` is the row of the local graph of a local dof `g`, `extra g` what neighbours sent for it, `keys` the rows they sent in the order
in which the hash map is iterated.  Of Tpetra, only the capacities of rows and the bounds of column indices are modelled
(`insertLocalIndices` throws if either is exceeded); the exchange by `endAssembly` is not.
-/
namespace Verif.CrsFill

open Verif Own Sparsity

/-- Ownership and elements of all ranks as the exchange of shared rows sees them (`makeDofToOwnerMap`, SparsityGraph.hpp 214-219; 307-313). -/
def exchange (w : Own.World) (own : Nat → SegOwn) (elems : Nat → List (List Nat)) : Sparsity.World :=
  ⟨w.counts.length, elems, getOwner (ownDist w.counts), fun r => (own r).shared⟩

/-- `makeColumnOwnership`, SparsityGraph.hpp 221-233. -/
def colOwn (own : SegOwn) (extra : Extra) (keys : List Nat) : Option SegOwn :=
  SegOwn.make (if own.cnt ≠ 0 then own.first else 0) own.cnt
    (Std.sortUniq (own.shared ++ (keys.flatMap extra).filter fun e => !own.isOwned e))

/-- `makeTpetraMapOwned`, SparsityGraph.hpp 235-240: Tpetra numbers the given counts contiguously by rank. -/
def mapOwned (counts : List Nat) (r : Nat) : List Nat := List.range' (counts.take r).sum ((counts[r]?).getD 0)

/-- `makeTpetraMapOwnedPlusShared`, SparsityGraph.hpp 242-252: global indices by local index. -/
def mapAll (o : SegOwn) : List Nat := List.range' o.first o.cnt ++ o.shared

/-- `col_g2l`, SparsityGraph.hpp 262-266; `none`: the index map throws. -/
def colLocal (col : SegOwn) (g : Nat) : Option Nat :=
  if col.isOwned g then some (col.getLocal g) else (Algo.indexMapAt col.shared g).map (· + col.cnt)

/-- Adding to the size of a row, SparsityGraph.hpp 291-292; `none`: outside of the view. -/
def addSize (own : SegOwn) (extra : Extra) (sizes : List Nat) (g : Nat) : Option (List Nat) :=
  (sizes[own.getLocal g]?).map fun s => sizes.set (own.getLocal g) (s + (extra g).length)

/-- `makeRowSizes`, SparsityGraph.hpp 280-295. -/
def rowSizes (own : SegOwn) (rows : Nat → List Nat) (extra : Extra) (keys : List Nat) : Option (List Nat) :=
  ((List.range own.localSize).mapM fun lid => (own.getGlobal lid).map fun g => (rows g).length).bind fun s => keys.foldlM (addSize own extra) s

/-- The indices inserted in one row, SparsityGraph.hpp 270-275. -/
def rowLids (own col : SegOwn) (rows : Nat → List Nat) (extra : Extra) (lid : Nat) : Option (List Nat) :=
  (own.getGlobal lid).bind fun g => ((rows g ++ extra g).mapM (colLocal col)).map Std.sort

/-- `insertLocalIndices`, SparsityGraph.hpp 276, for a graph with given capacities of rows (320): what the row then contains; `none`: Tpetra throws. -/
def insertRow (cap nCols : Nat) (lids : List Nat) : Option (List Nat) :=
  if lids.length ≤ cap ∧ lids.all (fun c => decide (c < nCols)) then some lids else none

/-- `makeSparsityGraph`, SparsityGraph.hpp 298-325 (from 314): the rows of the local part of the graph by local index. -/
def makeGraph (own : SegOwn) (rows : Nat → List Nat) (extra : Extra) (keys keys' : List Nat) : Option (SegOwn × List (List Nat)) :=
  (colOwn own extra keys).bind fun col => (rowSizes own rows extra keys').bind fun sizes =>
    ((List.range own.localSize).mapM fun lid =>
      (sizes[lid]?).bind fun cap => (rowLids own col rows extra lid).bind (insertRow cap col.localSize)).map fun g => (col, g)

end Verif.CrsFill
