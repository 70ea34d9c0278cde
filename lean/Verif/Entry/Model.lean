import Verif.Partition.Model
import Verif.NodeOrd.Model

/-!
# Model of the entry points of mesh partitioning

Source: `/repo/include/l3ster/mesh/PartitionMesh.hpp` 468-518, `/repo/include/l3ster/mesh/MeshPartition.hpp` 261-268.
-/
namespace Verif.Entry
open Verif Verif.Elem Verif.Mesh Verif.Split

/-- What a call may do: an assertion on its arguments throws, something else goes wrong (another exception, or undefined behaviour), or it returns. (`throwingAssert`, PartitionMesh.hpp 472-475, 487, 510) -/
inductive Out (α : Type) where
  | refused
  | fails
  | ret (a : α)
  deriving Repr, DecidableEq

/-- Statements one after the other. (auxiliary; e.g. PartitionMesh.hpp 486-498) -/
def Out.bind {α β : Type} : Out α → (α → Out β) → Out β
  | .refused, _ => .refused
  | .fails, _ => .fails
  | .ret a, f => f a

/-- A call modelled elsewhere, for which `none` is any failure. (auxiliary; the calls in PartitionMesh.hpp 492, 497-498, 514-515) -/
def Out.ofOption {α : Type} : Option α → Out α
  | none => .fails
  | some a => .ret a

/-- `assertUnpartitionedMesh`: `and` looks at the last owned node only if there are no ghosts; `back` of an empty range is undefined. (PartitionMesh.hpp 468-476) -/
def check (o : Own.SegOwn) : Out Unit :=
  if o.shared ≠ [] then .refused else if o.cnt = 0 then .fails else if o.first + o.cnt - 1 = o.cnt - 1 then .ret () else .refused

/-- `copy` of a mesh. (MeshPartition.hpp 261-268; constructor 287-302) -/
def copy (p : Part) (ord : Nat → List Element → List Element) : Option Part :=
  (initViews p.doms (p.bnds.map (·.1)) ord).bind fun v =>
    (ownershipRange p.doms (if p.own.cnt = 0 then 0 else p.own.first) p.own.cnt).map fun o => ⟨p.doms, o, v⟩

/-- What is decided outside: the partitioner's answer, the sorting permutation of the element ids, and the orders of parallel loops, as for `Partition.partitionImpl`. (PartitionMesh.hpp 456-464) -/
structure Answer where
  epart : List Nat
  npart : List Nat
  perm : List Nat
  shuffle : List (Nat × Nat × Element) → List (Nat × Nat × Element)
  ord : Nat → Nat → List Element → List Element

/-- The last lines of both overloads; the weights only go to the partitioner, whose answer is arbitrary. (PartitionMesh.hpp 496-498, 513-515) -/
def impl (kinds : List (ElType × Nat)) (nd : Nat) (defs : List NodeOrd.DomDef) (p : Part) (nParts : Int) (a : Answer) : Out (List Part × Algo.AMap Nat Nat) :=
  (Out.ofOption (NodeOrd.computeNodeWeights nd p.doms p.own defs)).bind fun _ =>
    Out.ofOption (Partition.partitionImpl kinds p.doms (p.bnds.map (·.1)) nParts.toNat a.epart a.npart a.perm a.shuffle a.ord)

/-- `partitionMesh(mesh, n_parts, part_weights, problem_def)`; `n_parts` is signed. (PartitionMesh.hpp 479-499) -/
def partitionMesh (kinds : List (ElType × Nat)) (nd : Nat) (defs : List NodeOrd.DomDef) (p : Part) (nParts : Int) (a : Answer) : Out (List Part) :=
  (check p.own).bind fun _ =>
    if nParts < 1 then .refused
    else if nParts = 1 then Out.ofOption ((copy p (a.ord 0)).map fun q => [q])
    else (impl kinds nd defs p nParts a).bind fun r => .ret r.1

/-- `partitionMesh(mesh, n_parts, node_map_out, part_weights, problem_def)`: parts and node map. (PartitionMesh.hpp 501-518) -/
def partitionMeshMap (kinds : List (ElType × Nat)) (nd : Nat) (defs : List NodeOrd.DomDef) (p : Part) (nParts : Int) (a : Answer) : Out (List Part × Algo.AMap Nat Nat) :=
  (check p.own).bind fun _ => if nParts ≤ 1 then .refused else impl kinds nd defs p nParts a

end Verif.Entry
