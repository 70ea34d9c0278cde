import Verif.Prim.Model
import Verif.Grid.Model
import Mathlib.Analysis.SpecialFunctions.Trigonometric.Basic

/-!
# Model of the cylinder-in-channel meshes

Sources: `/repo/include/l3ster/mesh/primitives/CylinderInChannel2D.hpp`, `HalfCylinderInChannel2D.hpp`; `deform` from
`mesh/MeshUtils.hpp` 384-393.

A mesh is put together from blocks, each a deformed `makeSquareMesh` (model `Prim`), which are then merged (model `Merge`).  Modelled here
are the blocks, in the order in which they are merged: element calls with domain, nodes and vertices.  Exact real arithmetic; `none` is a
failed assertion.
-/
namespace Verif.Cyl
open Verif.Prim Verif.Grid

/-- `Point<3>` (CylinderInChannel2D.hpp 38). -/
abbrev Pt := ℝ × ℝ × ℝ

/-- `CylinderInChannel2DMeshIds`, CylinderInChannel2D.hpp 10-13. -/
structure Ids where
  (domain bottom top left right cylinder : Nat)

/-- `CylinderInChannel2DGeometry`, 15-19. -/
structure Geom where
  (rInner rOuter leftOffset rightOffset bottomOffset topOffset : ℝ)
  (nCircumf nRadial nLeft nRight nBottom nTop : Nat)
  (qRadial qLeft qRight qBottom qTop : ℝ)

/-- `CylinderInChannel2DGeometry::correct`, 21-29. -/
def Geom.correct (g : Geom) : Prop :=
  (g.rInner < g.rOuter ∧ min (min g.leftOffset g.rightOffset) (min g.bottomOffset g.topOffset) > g.rOuter) ∧
  (g.nCircumf % 8 = 0 ∧ 0 < g.nCircumf ∧ 0 < g.nRadial ∧ 0 < g.nLeft ∧ 0 < g.nRight ∧ 0 < g.nBottom ∧ 0 < g.nTop) ∧
  min g.qRadial (min (min g.qLeft g.qRight) (min g.qBottom g.qTop)) > 0

/-- `SquareMeshIds`, SquareMesh.hpp 8-11: values of the members a designated initialiser leaves out. -/
def defaultIds : SquareIds := ⟨0, 1, 2, 3, 4⟩

noncomputable section

/-- `deform`, MeshUtils.hpp 384-393: every vertex of every element. -/
def deform (f : Pt → Pt) (l : List (Emit Pt)) : List (Emit Pt) := l.map fun e => { e with verts := e.verts.map f }

/-- `makeSquareMesh` of two point distributions. (CylinderInChannel2D.hpp 48, 64, 75) -/
def square (xs ys : List ℝ) (ids : SquareIds) : List (Emit Pt) :=
  squareEmits xs.length ys.length (fun i => xs.getD i 0) (fun i => ys.getD i 0) ids

/-- `rotate`, 38-42. -/
def rotate (angle : ℝ) (p : Pt) : Pt :=
  (Real.cos angle * p.1 - Real.sin angle * p.2.1, Real.sin angle * p.1 + Real.cos angle * p.2.1, 0)

/-- `deform_half`, 49-53. -/
def ringMap (p : Pt) : Pt := (p.1 * Real.cos (p.2.1 * Real.pi), p.1 * Real.sin (p.2.1 * Real.pi), 0)

/-- Deformation of a wake, 65-69. -/
def wakeMap (rOuter L : ℝ) (p : Pt) : Pt := (p.1 + (1 - p.1 / L) * rOuter * Real.cos p.2.1, rOuter * Real.sin p.2.1, 0)

/-- Distribution of a corner, 75-80. -/
def cornerDist (rOuter L x : ℝ) : ℝ := x + (1 - x / L) * rOuter * (Real.sqrt 2 / 2)

/-- `top_half` in `make_cylinder`, 45-54. -/
def topHalf (g : Geom) (ids : SquareIds) : Option (List (Emit Pt)) :=
  (geomSpaceProg g.rInner g.rOuter (g.nRadial + 1) g.qRadial).bind fun rad =>
    (linspace 0 1 (g.nCircumf / 2 + 1)).map fun cir => deform ringMap (square rad cir ids)

/-- `make_wake`, 61-71, for the angles from `lo` to `hi` with `m` intervals. -/
def wake (g : Geom) (L : ℝ) (n : Nat) (q lo hi : ℝ) (m : Nat) (ids : SquareIds) : Option (List (Emit Pt)) :=
  (geomSpaceProg 0 L (n + 1) q).bind fun xs =>
    (linspace lo hi (m + 1)).map fun ys => deform (wakeMap g.rOuter L) (square xs ys ids)

/-- `make_corner`, 73-82. -/
def corner (g : Geom) (Lx : ℝ) (nx : Nat) (qx Ly : ℝ) (ny : Nat) (qy : ℝ) (ids : SquareIds) : Option (List (Emit Pt)) :=
  (geomSpaceProg 0 Lx (nx + 1) qx).bind fun xs =>
    (geomSpaceProg 0 Ly (ny + 1) qy).map fun ys => square (xs.map (cornerDist g.rOuter Lx)) (ys.map (cornerDist g.rOuter Ly)) ids

/-- Ids of the half ring (49), of a wake (65) and of a corner (84). -/
def ringIds (i : Ids) : SquareIds := { defaultIds with domain := i.domain, left := i.cylinder }
/-- Boundaries of a wake block (CylinderInChannel2D.hpp 64). -/
def wakeIds (i : Ids) (edge : Nat) : SquareIds := { defaultIds with domain := i.domain, right := edge }
/-- Boundaries of a corner block (CylinderInChannel2D.hpp 81). -/
def cornerIds (i : Ids) (rid tid : Nat) : SquareIds := { defaultIds with domain := i.domain, top := tid, right := rid }

/-- The ten blocks of `makeCylinderInChannel2DMesh`, 84-137, in the order in which they are merged: the two halves of the ring (55-57),
right, left, bottom and top wake, the four corners. -/
def blocks (g : Geom) (i : Ids) : Option (List (List (Emit Pt))) := do
  let top ← topHalf g (ringIds i)
  let m := g.nCircumf / 4
  let rw ← wake g g.rightOffset g.nRight g.qRight (-Real.pi / 4) (Real.pi / 4) m (wakeIds i i.right)
  let lw ← wake g g.leftOffset g.nLeft g.qLeft (-Real.pi / 4) (Real.pi / 4) m (wakeIds i i.left)
  let bw ← wake g g.bottomOffset g.nBottom g.qBottom (-Real.pi / 4) (Real.pi / 4) m (wakeIds i i.bottom)
  let tw ← wake g g.topOffset g.nTop g.qTop (-Real.pi / 4) (Real.pi / 4) m (wakeIds i i.top)
  let tr ← corner g g.rightOffset g.nRight g.qRight g.topOffset g.nTop g.qTop (cornerIds i i.right i.top)
  let tl ← corner g g.topOffset g.nTop g.qTop g.leftOffset g.nLeft g.qLeft (cornerIds i i.top i.left)
  let bl ← corner g g.leftOffset g.nLeft g.qLeft g.bottomOffset g.nBottom g.qBottom (cornerIds i i.left i.bottom)
  let br ← corner g g.bottomOffset g.nBottom g.qBottom g.rightOffset g.nRight g.qRight (cornerIds i i.bottom i.right)
  some [top, deform (rotate Real.pi) top, rw, deform (rotate Real.pi) lw, deform (rotate (3 / 2 * Real.pi)) bw,
    deform (rotate (Real.pi / 2)) tw, tr, deform (rotate (Real.pi / 2)) tl, deform (rotate Real.pi) bl, deform (rotate (3 / 2 * Real.pi)) br]

/-- `makeCylinderInChannel2DMesh` up to the merging. -/
def makeCylinder (g : Geom) (i : Ids) : Option (List (List (Emit Pt))) :=
  open Classical in if g.correct then blocks g i else none

/-! ## Half cylinder -/

/-- `HalfCylinderInChannel2DMeshIds`, HalfCylinderInChannel2D.hpp 10-13. -/
structure HalfIds where
  (domain bottomLeft cylinder bottomRight top left right : Nat)

/-- `HalfCylinderInChannel2DGeometry::correct`, 15-28; the members for the bottom are unused. -/
def Geom.halfCorrect (g : Geom) : Prop :=
  (g.rInner < g.rOuter ∧ min (min g.leftOffset g.rightOffset) g.topOffset > g.rOuter) ∧
  (g.nCircumf % 8 = 0 ∧ 0 < g.nCircumf ∧ 0 < g.nRadial ∧ 0 < g.nLeft ∧ 0 < g.nRight ∧ 0 < g.nTop) ∧
  min g.qRadial (min (min g.qLeft g.qRight) g.qTop) > 0

/-- Boundaries of the half ring (HalfCylinderInChannel2D.hpp 46-49). -/
def halfRingIds (i : HalfIds) : SquareIds :=
  { defaultIds with domain := i.domain, bottom := i.bottomRight, top := i.bottomLeft, left := i.cylinder }
/-- Boundaries of a half wake block (HalfCylinderInChannel2D.hpp 78). -/
def halfWakeIds (i : HalfIds) (edge inner : Nat) : SquareIds :=
  { defaultIds with domain := i.domain, bottom := inner, top := inner, right := edge }
/-- Boundaries of the top wake block (HalfCylinderInChannel2D.hpp 63, 102). -/
def halfTopIds (i : HalfIds) : SquareIds := { defaultIds with domain := i.domain, right := i.top }
/-- Boundaries of a corner block (HalfCylinderInChannel2D.hpp 95). -/
def halfCornerIds (i : HalfIds) (rid tid other : Nat) : SquareIds := ⟨i.domain, other, tid, other, rid⟩

/-- The six blocks of `makeHalfCylinderInChannel2DMesh`, 42-132, in the order in which they are merged. -/
def halfBlocks (g : Geom) (i : HalfIds) : Option (List (List (Emit Pt))) := do
  let top ← topHalf g (halfRingIds i)
  let rw ← wake g g.rightOffset g.nRight g.qRight 0 (Real.pi / 4) (g.nCircumf / 8) (halfWakeIds i i.right i.bottomRight)
  let lw ← wake g g.leftOffset g.nLeft g.qLeft (-Real.pi / 4) 0 (g.nCircumf / 8) (halfWakeIds i i.left i.bottomLeft)
  let tw ← wake g g.topOffset g.nTop g.qTop (-Real.pi / 4) (Real.pi / 4) (g.nCircumf / 4) (halfTopIds i)
  let tr ← corner g g.rightOffset g.nRight g.qRight g.topOffset g.nTop g.qTop (halfCornerIds i i.right i.top i.bottomRight)
  let tl ← corner g g.topOffset g.nTop g.qTop g.leftOffset g.nLeft g.qLeft (halfCornerIds i i.top i.left i.bottomLeft)
  some [top, rw, deform (rotate Real.pi) lw, deform (rotate (Real.pi / 2)) tw, tr, deform (rotate (Real.pi / 2)) tl]

/-- `makeHalfCylinderInChannel2DMesh` up to the merging. -/
def makeHalf (g : Geom) (i : HalfIds) : Option (List (List (Emit Pt))) :=
  open Classical in if g.halfCorrect then halfBlocks g i else none

end

end Verif.Cyl
