import Verif.Own.Props

/-!
# Model of the reassignment of mesh parts to ranks

Source: `/repo/include/l3ster/comm/DistributeMesh.hpp` lines 55-134 and 206-227 (`sendRecvMesh`, `establishNewNodeIds`,
`permuteMesh`, `getOldNodeIds`, `optimizeMeshDistribution`), `/repo/include/l3ster/mesh/MeshPartition.hpp` 168-182
(`reindexNodes`).

`w : World` describes the parts before reassignment (part `p` lives on rank `p`); `src` lists, for every rank, the part it
receives.  Messages are replaced by their contents; the import of new ids (90-97) delivers to every ghost the value of
its owner.
-/
namespace Verif.Permute
open Verif Verif.Own

/-- Owned node counts in the new order. (DistributeMesh.hpp 79-82) -/
def newCounts (w : World) (src : List Nat) : List Nat := src.map fun p => (w.counts[p]?).getD 0

/-- `dest_rank` of part `p`. (`invertPermutation`, DistributeMesh.hpp 22-52, 211, 223) -/
def dest (src : List Nat) (p : Nat) : Nat := src.idxOf p

/-- `new_begin` on the rank which receives part `p`: exclusive scan (80-82), handed back to the part's old rank
as `new_begin_of_old_nodes` (83-86). -/
def newBegin (w : World) (src : List Nat) (p : Nat) : Nat := ((newCounts w src).take (dest src p)).sum

/-- New id of a node: its owner numbers its nodes from `new_begin_of_old_nodes` on (94), ghosts import the owner's value. -/
def newId (w : World) (src : List Nat) (g : Nat) : Nat :=
  let o := getOwner (ownDist w.counts) g
  newBegin w src o + (g - w.begin o)

/-- `new_ids_of_old_nodes | drop(old_num_owned)`, in the order of the old ghost list (sorted by old id), 99-103. -/
def newShared (w : World) (src : List Nat) (p : Nat) : List Nat := (Std.sort ((w.shared[p]?).getD [])).map (newId w src)

/-- `new_own` for part `p`, line 104. -/
def newOwn (w : World) (src : List Nat) (p : Nat) : Option SegOwn :=
  SegOwn.make (newBegin w src p) ((w.counts[p]?).getD 0) (newShared w src p)

/-- `old2new` of `permuteMesh`, 114-117, applied by `reindexNodes` to the nodes of the elements of part `p`. -/
def old2new (w : World) (src : List Nat) (p g : Nat) : Option Nat :=
  (w.own p).bind fun old => (newOwn w src p).bind fun new => new.getGlobal (old.getLocal g)

/-- Ownership of the reindexed part: `reindexNodes`, MeshPartition.hpp 168-176. -/
def reindexedOwn (w : World) (src : List Nat) (p : Nat) : Option SegOwn :=
  (w.own p).bind fun old =>
    ((List.range old.cnt).mapM fun i => old2new w src p (old.first + i)).bind fun owned =>
      (old.shared.mapM (old2new w src p)).bind fun sh =>
        SegOwn.make (owned.min?.getD 0) old.cnt sh

/-- `getOldNodeIds`, 122-134: owned nodes, then ghosts; `none` = `at` throws. -/
def oldNodeIds (o : SegOwn) (newToOld : List (Nat × Nat)) : Option (List Nat) :=
  ((List.range o.cnt).map (o.first + ·) ++ o.shared).mapM fun g => newToOld.lookup g

end Verif.Permute
