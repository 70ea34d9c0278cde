import Verif.Partition.Cond
import Verif.Pipeline.Model

/-!
# Distribution of a mesh from what METIS returns

`partitionCondensedMesh` gives METIS the mesh without the nodes inside elements and expands the labels it returns to all nodes; the rest of
`partitionMeshImpl` is modelled in Partition.
-/
namespace Verif.MfGen
open Verif Verif.Elem Verif.Mesh Verif.Partition Verif.Pipeline

/-- Labels of all nodes: `partitionCondensedMesh`, `/repo/include/l3ster/mesh/PartitionMesh.hpp` 207-225, with what METIS returned (`epart`, `npartCond`);
`init` is the uninitialised result array (191). -/
def nodeLabels (m : DomMap) (bnds : List Nat) (N : Nat) (init epart npartCond : List Nat) : List Nat :=
  uncondense init epart npartCond (condMaps m N).2 (visitIds m (domainIds m bnds))

/-- What METIS returns, for a mesh of `N` nodes: one label below `nParts` for each element of a domain and for each node of the condensed mesh
(`/repo/include/l3ster/mesh/PartitionMesh.hpp` 142-181; contract of `METIS_PartMeshDual`, assumed).  `perm` sorts the elements by id (sortedIds of
`assignBoundaryElements`, as in C29). -/
structure MetisOut (m : DomMap) (bnds : List Nat) (N nParts : Nat) (init epart npartCond perm : List Nat) : Prop where
  els : epart.length = (visitIds m (domainIds m bnds)).length
  elsLt : ∀ p ∈ epart, p < nParts
  cond : npartCond.length = (condMaps m N).2.length
  condLt : ∀ p ∈ npartCond, p < nParts
  size : init.length = N
  sorts : Sorts ((visitIds m (domainIds m bnds)).map (·.id)) perm

/-- Runs of `distributeMesh` (`/repo/include/l3ster/comm/DistributeMesh.hpp` 229-248) on a mesh of `N` nodes: as `Pipeline.Outcome`, with the parts made from labels
METIS returned. -/
inductive Run (Q : List Split.Part → List Nat → Prop) (kinds : List (ElType × Nat)) (m : DomMap) (bnds : List Nat) (N : Nat) :
    Nat → List Split.Part → (Nat → Nat) → Prop
  | whole (views : List (Nat × List (Element × Nat))) : Run Q kinds m bnds N 1 [⟨m, ⟨0, N, []⟩, views⟩] id
  | parts (nParts : Nat) (init epart npartCond perm : List Nat) (hl : MetisOut m bnds N nParts init epart npartCond perm)
      (shuffle : List (Nat × Nat × Element) → List (Nat × Nat × Element)) (ord : Nat → Nat → List Element → List Element)
      (hshuf : ∀ l, (shuffle l).Perm l) (hord : ∀ i k l, (ord i k l).Perm l) (parts : List Split.Part) (φ : Algo.AMap Nat Nat)
      (h : partitionImpl kinds m bnds nParts epart (nodeLabels m bnds N init epart npartCond) perm shuffle ord = some (parts, φ)) :
      Run Q kinds m bnds N nParts parts fun x => (φ.find x).getD 0
  | reordered (nParts : Nat) (parts : List Split.Part) (f : Nat → Nat) (h : Run Q kinds m bnds N nParts parts f) (src : List Nat)
      (hsrc : src.Perm (List.range nParts)) (hQ : Q parts src) (parts' : List Split.Part) (h' : reorder parts src = some parts') :
      Run Q kinds m bnds N nParts parts' fun x => Permute.newId (world parts) src (f x)

end Verif.MfGen
