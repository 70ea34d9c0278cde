import Verif.Mesh.Push

/-!
# Model of `splitMeshPartition`

Source: `/repo/include/l3ster/mesh/SplitMesh.hpp`.
-/
namespace Verif.Split
open Verif Verif.Elem Verif.Mesh

/-- A `MeshPartition`: domains, node ownership, boundary views by boundary id. (MeshPartition.hpp 163-165) -/
structure Part where
  doms : DomMap
  own : Own.SegOwn
  bnds : List (Nat × List (Element × Nat))
  deriving Repr

/-- `BoundaryManager::initBoundaryViews`, MeshPartition.hpp 184-194; `ord` is the order in which the
boundary elements of each id are processed (in parallel). -/
def initViews (m : DomMap) (bnds : List Nat) (ord : Nat → List Element → List Element) :
    Option (List (Nat × List (Element × Nat))) :=
  bnds.mapM fun b => (boundaryViews m b (ord b)).map fun v => (b, v)

/-- Elements of the given domains with their domain id, in visiting order. (SplitMesh.hpp 18-56, 68-79) -/
def tagged (m : DomMap) (ids : List Nat) : List (Nat × Element) :=
  ids.flatMap fun k => (visitIds m [k]).map fun e => (k, e)

/-- Sorted nodes of side `s` of `e` (lines 41-42). -/
def sortedSide (v : Element × Nat) : List Nat :=
  Std.sort (((sideNodeInds v.1.ty v.1.n v.2).getD []).map fun i => v.1.nodes.getD i 0)

/-- `non_boundary_ids`, 63-64 (both ranges are sorted). -/
def nonBoundary (mesh : Part) : List Nat := (mesh.doms.map (·.1)).filter fun k => k ∉ mesh.bnds.map (·.1)

/-- `makeDomainMaps` 60-83: elements of the domains, by predicate. -/
def domainEls (mesh : Part) (q : Element → Bool) : List (Nat × Element) :=
  (tagged mesh.doms (nonBoundary mesh)).filter fun ev => q ev.2

/-- `true_boundary_el_nodes_set`, 28-46. -/
def trueSides (mesh : Part) (p : Element → Bool) : List (List Nat) :=
  ((mesh.bnds.flatMap (·.2)).filter fun v => decide (v.1.id ∈ (domainEls mesh p).map (·.2.id))).map sortedSide

/-- `push_elem` of `assignBoundaryElements`, 47-57. -/
def boundaryEls (mesh : Part) (p : Element → Bool) (side : Bool) : List (Nat × Element) :=
  (tagged mesh.doms (mesh.bnds.map (·.1))).filter fun ev => decide (Std.sort ev.2.nodes ∈ trueSides mesh p) == side

/-- `makeDomainMaps`: the two maps are filled independently. (SplitMesh.hpp 60-83) -/
def domainMap (kinds : List (ElType × Nat)) (mesh : Part) (p : Element → Bool) (side : Bool) : Option DomMap :=
  pushAll kinds [] (domainEls mesh (fun e => p e == side) ++ boundaryEls mesh p side)

/-- `owned_nodes` of `makeMesh`, 88-96 (a `std::set`). -/
def ownedNodes (own : Own.SegOwn) (doms : DomMap) : List Nat :=
  Std.sortUniq ((doms.flatMap fun d => d.2.elems.flatMap (·.nodes)).filter own.isOwned)

/-- `makeMesh`, 85-101, and the constructor it calls (MeshPartition.hpp 287-302). -/
def makeMesh (mesh : Part) (doms : DomMap) (ord : Nat → List Element → List Element) : Option Part :=
  let owned := ownedNodes mesh.own doms
  (initViews doms (mesh.bnds.map (·.1)) ord).bind fun v =>
  (ownershipRange doms (owned.headD 0) owned.length).map fun o => ⟨doms, o, v⟩

/-- `splitMeshPartition`, 104-112. -/
def split (kinds : List (ElType × Nat)) (mesh : Part) (p : Element → Bool) (ord : Bool → Nat → List Element → List Element) :
    Option (Part × Part) :=
  (domainMap kinds mesh p true).bind fun dt => (domainMap kinds mesh p false).bind fun df =>
  (makeMesh mesh dt (ord true)).bind fun t => (makeMesh mesh df (ord false)).map fun f => (t, f)

end Verif.Split
