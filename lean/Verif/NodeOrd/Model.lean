import Verif.Mesh.Model
import Verif.Bitset.Model

/-!
# Model of node ordering and node weights

Sources: `/repo/include/l3ster/mesh/LocalMeshView.hpp` 425-458 (`computeNodeOrder`),
`/repo/include/l3ster/mesh/PartitionMesh.hpp` 24-58 (`computeNodeWeights`),
`/repo/include/l3ster/mesh/MeshPartition.hpp` 196-202 (`getMaxDim`), `Element.hpp` 34-39
(`getInternalNodes`), `/repo/include/l3ster/common/ProblemDefinition.hpp` 91-116,
`/repo/include/l3ster/util/Meta.hpp` 92-98.

Meshes are those of `Verif.Mesh`, ownership that of `Verif.Own`, the bitset that of `Verif.Bitset` (64-bit
words).  `none` is an exception or an access outside the bitset.  Sizes are unbounded naturals.
-/
namespace Verif.NodeOrd
open Verif Verif.Mesh Verif.Own

/-- `SegmentedOwnership::owned`. (SegmentedOwnership.hpp 30) -/
def owned (o : SegOwn) : List Nat := List.range' o.first o.cnt

/-- `Domain::dim`; 255 is `uninitialized_dim` (`dim_t` is `uint8_t`), Domain.hpp 29, 38. -/
def dimOf (d : Domain) : Nat := d.dim.getD 255

/-- `getMaxDim`, MeshPartition.hpp 196-202. -/
def maxDim (m : DomMap) : Nat := if m = [] then 255 else (m.map fun p => dimOf p.2).foldl max 0

/-- `getInternalNodes`, Element.hpp 34-39. -/
def internalNodes (e : Element) : List Nat := (Elem.internalInds e.ty e.n).map fun i => e.nodes.getD i 0

/-- Body of the loop of `mark_internal_nodes`, 430-436: set and vector always hold the same nodes. -/
def mark (v : List Nat) (x : Nat) : Option (List Nat) := if x ∈ v then none else some (v ++ [x])

/-- The elements visited in 438-444. -/
def topElems (m : DomMap) : List Element :=
  m.flatMap fun p => if dimOf p.2 = maxDim m then p.2.elems else []

/-- `internal_node_vec` after 444. -/
def internalVec (m : DomMap) : Option (List Nat) := ((topElems m).flatMap internalNodes).foldlM mark []

/-- `computeNodeOrder` after the loop, 445-457. -/
def assemble (o : SegOwn) (v : List Nat) : Option (List Nat) :=
  if (owned o).countP (fun x => !decide (x ∈ v)) + v.length + o.shared.length = o.localSize then
    some ((owned o).filter (fun x => !decide (x ∈ v)) ++ v ++ o.shared)
  else none

/-- `computeNodeOrder`, 425-458. -/
def computeNodeOrder (m : DomMap) (o : SegOwn) : Option (List Nat) := (internalVec m).bind (assemble o)

/-- `ProblemDefinition::DomainDefinition`; the bitset is the list of its bits. (ProblemDefinition.hpp 99-104) -/
structure DomDef where
  domains : List Nat
  dofs : List Bool
  deriving Repr, DecidableEq

/-- `getTrueInds`, Meta.hpp 92-98. -/
def trueInds (b : List Bool) : List Nat := (List.range b.length).filter fun i => b.getD i false

/-- `ProblemDefinition::define`, ProblemDefinition.hpp 107-116; `none` = the assertion throws. -/
def define (nd : Nat) (defs : List DomDef) (domains inds : List Nat) : Option (List DomDef) :=
  if inds.all (fun i => decide (i < nd)) then
    some (defs ++ [⟨domains, inds.foldl (fun b i => b.set i true) (List.replicate nd false)⟩])
  else none

/-- The bit operations of the loop 32-47, in order. -/
def weightOps (nd : Nat) (m : DomMap) (defs : List DomDef) : List Bitset.Op :=
  defs.flatMap fun d => (visitIds m d.domains).flatMap fun e => e.nodes.flatMap fun x =>
    (trueInds d.dofs).map fun k => .set (k + x * nd)

/-- `computeNodeWeights`, 24-58. -/
def computeNodeWeights (nd : Nat) (m : DomMap) (o : SegOwn) (defs : List DomDef) : Option (List Nat) :=
  if defs = [] then some [] else
    ((Bitset.Bits.new (nd * o.localSize)).run (weightOps nd m defs)).bind fun b =>
      (owned o ++ o.shared).mapM fun x => b.subCount (x * nd) ((x + 1) * nd)

end Verif.NodeOrd
