import Verif.Merge.Model
import Verif.Spatial.Model
import Verif.Gen.Model
import Mathlib.Analysis.Real.Sqrt

/-! # Merging meshes by the positions of their nodes

`merge` (/repo/include/l3ster/mesh/MeshUtils.hpp 360-382) with the search for common nodes, and sequences of merges as made by the cylinder meshes.  Area Merge models
`merge` for a given matching of nodes; here the matching is computed from positions.  `pos` gives the position of each node; the code takes it from the vertices carried by the
elements (for elements of order 1 the node is the vertex), so all elements having a node are assumed to carry the same vertex.  Exact real arithmetic; `none` = an assertion throws. -/
namespace Verif.MergeGen
open Verif Verif.Elem Verif.Mesh Verif.Split Verif.Partition Verif.Merge Verif.Gen

/-- Coordinates of a point. (`Point< 3 >`, MeshUtils.hpp 99) -/
abbrev Pt := List ℝ

/-- Nodes of the sides in boundary views, in the order of the array `node_lookup`. (`makeBoundaryNodeCoordsMap`, MeshUtils.hpp 98-122) -/
def bndNodes (mesh : Part) : List Nat := Std.sortUniq ((mesh.bnds.flatMap (·.2)).flatMap sortedSide)

/-- `makeBoundaryNodeCoordsMap`, MeshUtils.hpp 98-122. -/
def bndCoords {P : Type} (pos : Nat → P) (mesh : Part) : List (Nat × P) := (bndNodes mesh).map fun x => (x, pos x)

noncomputable section

/-- `minimum_dx`, SpatialHashTable.hpp 19: 256 times the distance from 1 to the next number. -/
def minDx : ℝ := 256 / 2 ^ 52

/-- Smallest and largest value of a coordinate. (`reduce`, `fold_left`, MeshUtils.hpp 128-145; the maximum is the negated minimum of the negated values) -/
def lowest (cs : List Pt) (c : Nat) : ℝ := (cs.tail.map fun p => p.getD c 0).foldl min ((cs.head?.getD []).getD c 0)

/-- See `lowest`. (MeshUtils.hpp 143-144) -/
def highest (cs : List Pt) (c : Nat) : ℝ := -(cs.tail.map fun p => -p.getD c 0).foldl min (-(cs.head?.getD []).getD c 0)

/-- `nodes_1d_est`, MeshUtils.hpp 146-148. -/
def nodesEst (cs : List Pt) : ℝ := if highest cs 2 - lowest cs 2 ≤ 1 / 2 ^ 52 then (cs.length : ℝ) else Real.sqrt cs.length

/-- `grid_step`, MeshUtils.hpp 149. -/
def gridStep (cs : List Pt) : List ℝ := [0, 1, 2].map fun c => 1 / (100 * nodesEst cs) * (highest cs c - lowest cs c)

/-- `origin`, MeshUtils.hpp 150. -/
def origin (cs : List Pt) : List ℝ := [0, 1, 2].map fun c => 1 / 2 * (lowest cs c + highest cs c)

/-- `initSpaceHashTable` and `invertNodeCoordMap`, MeshUtils.hpp 124-160; the entries in the order of iteration over the hash map. -/
def table (coords : List (Nat × Pt)) : Spatial.Table ℝ Nat :=
  (Spatial.Table.new minDx (gridStep (coords.map (·.2))) (origin (coords.map (·.2)))).fill (coords.map fun q => (q.2, q.1))

/-- `match`, MeshUtils.hpp 166-171. -/
def close (p q : Pt) : Bool :=
  open Classical in decide (Real.sqrt (((p.zip q).map fun r => (r.1 - r.2) * (r.1 - r.2)).sum) < 1 / 10 ^ 12)

/-- `match_map`, MeshUtils.hpp 362-367; `ord1`, `ord2` are the orders of iteration over the two hash maps. -/
def matchMap (ord1 ord2 : List (Nat × Pt) → List (Nat × Pt)) (mesh1 mesh2 : Part) (pos1 pos2 : Nat → Pt) : Algo.AMap Nat Nat :=
  matchExisting (table (ord1 (bndCoords pos1 mesh1))).proximate close (ord2 (bndCoords pos2 mesh2))

/-- Position of a node of the merged mesh: elements keep their vertices (MeshUtils.hpp 306), old nodes of the first mesh keep their numbers, the others have been renumbered. -/
def mergedPos {P : Type} (φ : Algo.AMap Nat Nat) (N1 N2 : Nat) (pos1 pos2 : Nat → P) (x : Nat) : P :=
  if x < N1 then pos1 x else pos2 (((List.range N2).find? fun y => (φ.find y).isNone && newNodeId φ N1 y == x).getD 0)

/-- The constructor of `MeshPartition` called by `merge`: boundary views of the given boundaries. (MeshUtils.hpp 381; MeshPartition.hpp 287-302, 184-194) -/
def build (ord : Nat → List Element → List Element) (doms : DomMap) (N : Nat) (bnds : List Nat) : Option Part :=
  (initViews doms bnds ord).map fun v => ⟨doms, ⟨0, N, []⟩, v⟩

/-- A mesh with the positions of its nodes; `size` is `getNNodes()`. (MeshPartition.hpp 163-165) -/
structure LMesh where
  part : Part
  size : Nat
  pos : Nat → Pt

/-- Containers of `MeshPartition< 1 >`. (MeshPartition.hpp 34) -/
def kinds1 : List (ElType × Nat) := [(.hex, 2), (.quad, 2), (.line, 2)]

/-- Orders in which containers are iterated: of the two hash maps, and of boundary elements (in parallel). (MeshUtils.hpp 174, 157; MeshPartition.hpp 184-194) -/
structure Orders where
  first : List (Nat × Pt) → List (Nat × Pt)
  second : List (Nat × Pt) → List (Nat × Pt)
  bnd : Nat → List Element → List Element

/-- `merge`, MeshUtils.hpp 360-382. -/
def mergeMeshes (o : Orders) (A B : LMesh) : Option LMesh :=
  (Merge.merge kinds1 A.part B.part A.size B.size (matchMap o.first o.second A.part B.part A.pos B.pos)).bind fun r =>
  (build o.bnd r.1 r.2.1 r.2.2).map fun p => ⟨p, r.2.1, mergedPos (matchMap o.first o.second A.part B.part A.pos B.pos) A.size B.size A.pos B.pos⟩

/-- A vertex as a point. (`Point< 3 >`, /repo/include/l3ster/mesh/Element.hpp 17-32) -/
def ptOf (p : ℝ × ℝ × ℝ) : Pt := [p.1, p.2.1, p.2.2]

/-- Position of a node, found in the first element having it. (MeshUtils.hpp 98-122) -/
def vertexOf (B : List (Prim.Emit (ℝ × ℝ × ℝ))) (v : Nat) : Pt := (((B.flatMap fun e => e.nodes.zip e.verts).lookup v).map ptOf).getD [0, 0, 0]

/-- Number of different nodes. (MeshPartition.hpp 270-285) -/
def nodeCount (B : List (Prim.Emit (ℝ × ℝ × ℝ))) : Nat := (Std.sortUniq (B.flatMap (·.nodes))).length

/-- A square, possibly deformed: the mesh of the given elements. (`makeSquareMesh`, SquareMesh.hpp 13-76, and `deform`, MeshUtils.hpp 384-393, which changes vertices only) -/
def meshOf (ord : Nat → List Element → List Element) (ids : Prim.SquareIds) (B : List (Prim.Emit (ℝ × ℝ × ℝ))) : Option LMesh :=
  (Prim.build ids.list (Prim.number B)).bind fun m => (build ord m (nodeCount B) (squareBnds ids)).map fun p => ⟨p, nodeCount B, vertexOf B⟩

/-- Meshes merged one after the other. (`cylinder = merge(cylinder, …)`, CylinderInChannel2D.hpp 57, 128-135) -/
def mergeAll (o : Nat → Orders) (A : LMesh) (Bs : List LMesh) : Option LMesh := Bs.zipIdx.foldlM (fun M q => mergeMeshes (o q.2) M q.1) A

end
end Verif.MergeGen
