import Verif.Elem.Model
import Verif.Own.Model

/-!
# Model of meshes: elements, domains, partitions

Sources: `/repo/include/l3ster/mesh/Element.hpp` 17-46, `Domain.hpp` 24-68, `MeshPartition.hpp`,
`/repo/include/l3ster/util/UniVector.hpp`.

An element carries its type, its number of nodes per edge (`n` = order + 1), id and nodes; vertex
coordinates are left out here.  A `UniVector` is the list of its vectors (one per element type and
order, in declaration order).  A `std::map` of domains is a list sorted by id.
-/
namespace Verif.Mesh
open Verif Verif.Elem

/-- An element, Element.hpp 17-32. -/
structure Element where
  ty : ElType
  n : Nat
  id : Nat
  nodes : List Nat
  deriving DecidableEq, Repr, Inhabited

/-- `Domain` (24-38); `dim = none` is `uninitialized_dim`. -/
structure Domain where
  dim : Option Nat
  vecs : List (List Element)
  deriving DecidableEq, Repr, Inhabited

/-- Sequential traversal of a `UniVector` (UniVector.hpp 91-104): vector by vector. -/
def Domain.elems (d : Domain) : List Element := d.vecs.flatten

/-- `domain_map_t`. (MeshPartition.hpp 49) -/
abbrev DomMap := List (Nat × Domain)

/-- `pushToDomain`/`emplaceInDomain`, Domain.hpp 48-68; `kinds` is the UniVector's type list, `none` the
assertion failing (or a type the container does not have: rejected at compile time). -/
def Domain.push (kinds : List (ElType × Nat)) (d : Domain) (e : Element) : Option Domain :=
  let dim := d.dim.getD e.ty.dim
  if dim ≠ e.ty.dim then none else
  match kinds.findIdx? (· == (e.ty, e.n)) with
  | none => none
  | some i => some ⟨some dim, d.vecs.set i (d.vecs.getD i [] ++ [e])⟩

/-- `filterExistingDomainIds`, MeshPartition.hpp 475-481. -/
def existing (m : DomMap) (ids : List Nat) : List Nat := ids.filter fun i => (m.lookup i).isSome

/-- `visitImpl` with the sequential policy, 457-473: the elements in visiting order. -/
def visitIds (m : DomMap) (ids : List Nat) : List Element :=
  (existing m ids).flatMap fun i => ((m.lookup i).map Domain.elems).getD []

/-- `visit` over all domains. (MeshPartition.hpp 328-340) -/
def visitAll (m : DomMap) : List Element := visitIds m (m.map (·.1))

/-- `UniVector::find`, UniVector.hpp 153-167: first match of the first vector having one. -/
def findVecs (p : Element → Bool) : List (List Element) → Option Element
  | [] => none
  | v :: vs => match v.find? p with
    | some e => some e
    | none => findVecs p vs

/-- `findImpl(predicate)`, 204-219. -/
def findPred (m : DomMap) (ids : List Nat) (p : Element → Bool) : Option Element :=
  (existing m ids).findSome? fun i => (m.lookup i).bind fun d => findVecs p d.vecs

/-- `find_in_vec`, 227-250 (ids are 64-bit; `back - front + 1` wraps). -/
def findInVec (id : Nat) (v : List Element) : Option Element :=
  match v.head?, v.getLast? with
  | some f, some b =>
    if id < f.id ∨ b.id < id then none
    else if (b.id - f.id + 1) % 2 ^ 64 = v.length then v[id - f.id]?
    else match v[(v.map (·.id)).findIdx fun x => !decide (x < id)]? with
      | some e => if e.id = id then some e else none
      | none => none
  | _, _ => none

/-- `findImpl(id)`, 221-259. -/
def findId (m : DomMap) (id : Nat) : Option Element :=
  m.findSome? fun d => d.2.vecs.findSome? (findInVec id)

/-! ## Construction -/

/-- Nodes occurring in the elements (a hash set; `Std.sortUniq` gives its contents). (MeshPartition.hpp 275-280) -/
def nodeSet (m : DomMap) : List Nat := Std.sortUniq ((visitAll m).flatMap (·.nodes))

/-- Node ownership of `MeshPartition(domains, boundary_ids)`, 270-285. -/
def ownershipAll (m : DomMap) : Option Own.SegOwn :=
  let nodes := nodeSet m
  Own.SegOwn.make (nodes.head?.getD 0) nodes.length []

/-- Node ownership of `MeshPartition(domains, begin, count, boundary_ids)`, 287-302. -/
def ownershipRange (m : DomMap) (begin cnt : Nat) : Option Own.SegOwn :=
  Own.SegOwn.make begin cnt ((nodeSet m).filter fun x => decide (x < begin ∨ begin + cnt ≤ x))

/-! ## Boundary views -/

/-- `doesSideMatch`, 505-519. -/
def sideMatches (e : Element) (side : Nat) (sortedNodes : List Nat) : Bool :=
  match sideNodeInds e.ty e.n side with
  | none => false
  | some inds =>
    if inds.length = sortedNodes.length then decide (Std.sort (inds.map fun i => e.nodes.getD i 0) = sortedNodes) else false

/-- Number of sides (`n_sides`). (ElementTraits.hpp 69, 114, 150) -/
def nSides (e : Element) : Nat := (table e.ty e.n).length

/-- `matchBoundaryNodesToElement`, 521-545: the first matching side. -/
def matchSide (e : Element) (sortedNodes : List Nat) : Option Nat :=
  (List.range (nSides e)).find? fun s => sideMatches e s sortedNodes

/-- `makeDimToDomainMap`, 492-503, restricted to one dimension. -/
def domainsOfDim (m : DomMap) (dim : Nat) : List Nat := (m.filter fun d => d.2.dim = some dim).map (·.1)

/-- `put_bnd_el_view`, 571-589: the view pushed for one boundary element. -/
def viewOf (m : DomMap) (b : Element) : Option (Element × Nat) :=
  let sorted := Std.sort b.nodes
  (findPred m (domainsOfDim m (b.ty.dim + 1)) fun e => (matchSide e sorted).isSome).bind fun e =>
    (matchSide e sorted).map fun s => (e, s)

/-- `makeBoundaryElementViews`, 548-594, for one boundary id.  The boundary elements are visited in
parallel: `order` is any permutation of them.  `none` = the assertion throws. -/
def boundaryViews (m : DomMap) (bnd : Nat) (order : List Element → List Element) : Option (List (Element × Nat)) :=
  match m.lookup bnd with
  | none => some []
  | some d =>
    if domainsOfDim m (d.dim.getD 0 + 1) = [] then none
    else (order d.elems).mapM (viewOf m)

end Verif.Mesh
