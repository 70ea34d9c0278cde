import Verif.Partition.Elements
import Mathlib.Data.Nat.Nth

/-! # Merging two meshes: model of `merge` (/repo/include/l3ster/mesh/MeshUtils.hpp)

Vertex coordinates are carried along unchanged by every step except the node matching, so elements are
modelled without them; `matchExisting` is stated for an arbitrary type of points. -/
namespace Verif.Merge
open Verif Verif.Elem Verif.Mesh Verif.Split Verif.Partition

/-- `matchExistingNodes`, 162-182.  `prox` is `SpatialHashTable::proximate` on the existing nodes, `close`
the distance test (lines 167-172), `toMatch` the entries of the map of the incoming mesh in iteration
order (its keys are distinct, so `retval[node] = …` inserts). -/
def matchExisting {P : Type} (prox : P → List (P × Nat)) (close : P → P → Bool) (toMatch : List (Nat × P)) : Algo.AMap Nat Nat :=
  toMatch.filterMap fun q => ((prox q.2).find? fun c => close q.2 c.1).map fun c => (q.1, c.2)

/-- `getFaceSet`, 184-198: the sorted side nodes of all boundary views. -/
def faceSet (mesh : Part) : List (List Nat) := (mesh.bnds.flatMap (·.2)).map sortedSide

/-- `check_face`, 209-224: the pair (existing face, incoming face) to be deleted, if any. -/
def checkFace (existing : List (List Nat)) (φ : Algo.AMap Nat Nat) (face : List Nat) : Option (List Nat × List Nat) :=
  (face.mapM fun x => φ.find x).bind fun g => if Std.sort g ∈ existing then some (Std.sort g, face) else none

/-- `getFacesToDelete`, 201-228. -/
def facesToDelete (existing incoming : List (List Nat)) (φ : Algo.AMap Nat Nat) : List (List Nat) × List (List Nat) :=
  ((incoming.filterMap (checkFace existing φ)).map (·.1), (incoming.filterMap (checkFace existing φ)).map (·.2))

/-- `auto& domain = domains[domain_id]` (lines 245, 253). -/
def touch (kinds : List (ElType × Nat)) (doms : DomMap) (k : Nat) : DomMap := OMap.upd doms k fun o => o.getD (emptyDom kinds)

/-- Body of the loop over domains, 243-247. -/
def copyDomain (kinds : List (ElType × Nat)) (m : DomMap) (proj : Element → Element) (doms : DomMap) (k : Nat) : Option DomMap :=
  pushAll kinds (touch kinds doms k) ((visitIds m [k]).map fun e => (k, proj e))

/-- `is_deleted`, 236-240. -/
def isDeleted (del : List (List Nat)) (e : Element) : Bool := decide (Std.sort e.nodes ∈ del)

/-- `if (domain.elements.empty()) domains.erase(…)`, 263-264. -/
def eraseEmpty (doms : DomMap) (k : Nat) : DomMap :=
  if visitIds doms [k] = [] then doms.filter fun d => d.1 != k else doms

/-- Body of the loop over boundaries, 250-265; the state is (domains, deleted ids). -/
def copyBoundary (kinds : List (ElType × Nat)) (m : DomMap) (del : List (List Nat)) (proj : Element → Element)
    (st : DomMap × List Nat) (k : Nat) : Option (DomMap × List Nat) :=
  (pushAll kinds (touch kinds st.1 k) (((visitIds m [k]).filter fun e => !isDeleted del e).map fun e => (k, proj e))).map fun doms =>
    (eraseEmpty doms k, st.2 ++ ((visitIds m [k]).filter (isDeleted del)).map fun e => (proj e).id)

/-- `copyElements`, 230-268. -/
def copyElements (kinds : List (ElType × Nat)) (doms : DomMap) (mesh : Part) (del : List (List Nat)) (proj : Element → Element) :
    Option (DomMap × List Nat) :=
  ((domainIds mesh.doms (mesh.bnds.map (·.1))).foldlM (copyDomain kinds mesh.doms proj) doms).bind fun doms1 =>
  ((mesh.bnds.map (·.1)).foldlM (copyBoundary kinds mesh.doms del proj) (doms1, [])).map fun st => (st.1, Std.sort st.2)

/-- `get_updated_id`, 272-276. -/
def updatedId (deleted : List Nat) (id : Nat) : Nat := id - Std.lowerBound deleted id

/-- `fixElementIds`, 270-287: new ids, then each vector sorted by id. -/
def fixIds (deleted : List Nat) (doms : DomMap) : DomMap :=
  doms.map fun d => (d.1, ⟨d.2.dim, d.2.vecs.map fun v => (v.map fun e => { e with id := updatedId deleted e.id }).insertionSort fun a b => a.id ≤ b.id⟩)

/-- `new_node_id`, 297-303. -/
def newNodeId (φ : Algo.AMap Nat Nat) (nExisting x : Nat) : Nat :=
  match φ.find x with
  | some y => y
  | none => x + nExisting - Std.lowerBound (Std.sort (φ.map (·.1))) x

/-- `translateElement`, 289-307. -/
def translate (φ : Algo.AMap Nat Nat) (nExistingNodes nExistingEls : Nat) (e : Element) : Element :=
  { e with nodes := e.nodes.map (newNodeId φ nExistingNodes), id := e.id + nExistingEls }

/-- The domains, node count and boundary ids which `merge` (360-382) hands to the mesh constructor; `nNodes1`,
`nNodes2` are `getNNodes()` of the two meshes. -/
def merge (kinds : List (ElType × Nat)) (mesh1 mesh2 : Part) (nNodes1 nNodes2 : Nat) (φ : Algo.AMap Nat Nat) :
    Option (DomMap × Nat × List Nat) :=
  let del := facesToDelete (faceSet mesh1) (faceSet mesh2) φ
  (copyElements kinds [] mesh1 del.1 id).bind fun r1 =>
  (copyElements kinds r1.1 mesh2 del.2 (translate φ nNodes1 (visitAll mesh1.doms).length)).map fun r2 =>
  let doms := fixIds (r1.2 ++ r2.2) r2.1
  let bnds := Std.sortUniq (mesh1.bnds.map (·.1) ++ mesh2.bnds.map (·.1))
  (doms, nNodes1 + nNodes2 - φ.length, bnds.filter fun b => decide (b ∈ doms.map (·.1)))

end Verif.Merge
