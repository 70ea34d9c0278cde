import Verif.MergeGen.Model
import Verif.Cyl.Model
import Verif.Extrude.Model

/-! # The cylinder meshes, merged from their blocks

`makeCylinderInChannel2DMesh` (/repo/include/l3ster/mesh/primitives/CylinderInChannel2D.hpp 30-138) and `makeHalfCylinderInChannel2DMesh` (HalfCylinderInChannel2D.hpp
30-132), and `makeCylinderInChannel3DMesh` (CylinderInChannel3D.hpp 9-20).  Area Cyl has the blocks; here each is made a mesh and they are merged one after the other. -/
namespace Verif.MergeGen
open Verif Verif.Elem Verif.Mesh Verif.Prim Verif.Cyl

/-- Boundaries of the blocks, in the order of merging. (CylinderInChannel2D.hpp 48, 64, 82, 84-126) -/
def cylIds (i : Ids) : List SquareIds :=
  [ringIds i, ringIds i, wakeIds i i.right, wakeIds i i.left, wakeIds i i.bottom, wakeIds i i.top,
    cornerIds i i.right i.top, cornerIds i i.top i.left, cornerIds i i.left i.bottom, cornerIds i i.bottom i.right]

/-- Boundaries of the blocks of the half cylinder, in the order of merging. (HalfCylinderInChannel2D.hpp 46-49, 63, 78, 95-123) -/
def halfCylIds (i : HalfIds) : List SquareIds :=
  [halfRingIds i, halfWakeIds i i.right i.bottomRight, halfWakeIds i i.left i.bottomLeft, halfTopIds i,
    halfCornerIds i i.right i.top i.bottomRight, halfCornerIds i i.top i.left i.bottomLeft]

noncomputable section

/-- Meshes of the blocks. (`makeSquareMesh` and `deform`, CylinderInChannel2D.hpp 43-126; `copy`, 55, keeps nodes and elements) -/
def blockMeshes (ord : Nat → Nat → List Element → List Element) (ids : List SquareIds) (Bs : List (List (Emit Cyl.Pt))) : Option (List LMesh) :=
  (ids.zip Bs).zipIdx.mapM fun q => meshOf (ord q.2) q.1.1 q.1.2

/-- The blocks merged. (CylinderInChannel2D.hpp 57, 128-137; HalfCylinderInChannel2D.hpp 124-130) -/
def mergeList (o : Nat → Orders) : List LMesh → Option LMesh
  | [] => none
  | A :: Bs => mergeAll o A Bs

/-- `makeCylinderInChannel2DMesh`, CylinderInChannel2D.hpp 30-138. -/
def cylinderMesh (ord : Nat → Nat → List Element → List Element) (o : Nat → Orders) (g : Geom) (i : Ids) : Option LMesh :=
  (makeCylinder g i).bind fun Bs => (blockMeshes ord (cylIds i) Bs).bind (mergeList o)

/-- `makeHalfCylinderInChannel2DMesh`, HalfCylinderInChannel2D.hpp 30-132. -/
def halfCylinderMesh (ord : Nat → Nat → List Element → List Element) (o : Nat → Orders) (g : Geom) (i : HalfIds) : Option LMesh :=
  (makeHalf g i).bind fun Bs => (blockMeshes ord (halfCylIds i) Bs).bind (mergeList o)

/-- Vertices of an element: the positions of its nodes. (/repo/include/l3ster/mesh/Element.hpp 17-32) -/
def vertsOf (M : LMesh) (e : Element) : List ((ℝ × ℝ) × ℝ) := e.nodes.map fun x => (((M.pos x).getD 0 0, (M.pos x).getD 1 0), (M.pos x).getD 2 0)

/-- `makeCylinderInChannel3DMesh`, CylinderInChannel3D.hpp 9-20: domains and boundaries. -/
def cylinder3DMesh (ord : Nat → Nat → List Element → List Element) (o : Nat → Orders) (zs : List ℝ) (g : Geom) (i : Ids) (back front : Nat) : Option (DomMap × List Nat) :=
  (cylinderMesh ord o g i).bind fun M => Extrude.extrude M.size zs (vertsOf M) back front M.part.doms (M.part.bnds.map (·.1))

end
end Verif.MergeGen
