import Verif.Convert.Model
import Verif.Prim.Model
import Verif.Pipeline.Model

/-!
# Model of generating a mesh and bringing it to the requested order

Source: `/repo/include/l3ster/comm/DistributeMesh.hpp` 13-58, 138-151 (`generateAndDistributeMesh`).

Generators are area Prim (C24), conversion is area Convert (C34), partitioning and distribution are areas Partition,
Permute and Pipeline.  Here: their data put together.
-/
namespace Verif.Gen
open Verif Verif.Elem Verif.Mesh Verif.Convert

variable {D : Type}

/-- Types of elements of a mesh of order `n - 1`, in the order of the vectors of a domain (ElementType.hpp 12-20). -/
def kindsOf (n : Nat) : List (ElType × Nat) := [(.hex, n), (.quad, n), (.line, n)]

/-- An element without its vertex coordinates; `n` nodes per edge. (Element.hpp 17-32) -/
def elemOf (n : Nat) (e : El D) : Element := ⟨e.ty, n, e.id, e.nodes⟩

/-- A mesh without the vertex coordinates. (MeshPartition.hpp 49) -/
def toMesh (n : Nat) (M : DMap D) : DomMap := M.map fun d => (d.1, ⟨d.2.dim, d.2.vecs.map fun v => v.map (elemOf n)⟩)

/-- The elements of a mesh with coordinates `dat` of their vertices (by element id). (`ElementData`, Element.hpp 17-32) -/
def withData (dat : Nat → D) (m : DomMap) : DMap D :=
  m.map fun d => (d.1, ⟨d.2.dim, d.2.vecs.map fun v => v.map fun e => ⟨e.ty, e.id, e.nodes, dat e.id⟩⟩)

/-- Coordinates of the vertices of the elements in the order of the `emplaceInDomain` calls, as passed to them. (SquareMesh.hpp 41-42, CubeMesh.hpp 52-62; `ElementData`, Element.hpp 17-32) -/
def coordsOf {K : Type} [Zero K] (l : List (Prim.Emit (K × K × K))) (id : Nat) : Nat → Nat → K := fun k c =>
  ((l[id]?.bind fun ev => ev.verts[k]?).map fun v => if c = 0 then v.1 else if c = 1 then v.2.1 else v.2.2).getD 0

/-- The mesh of order `n - 1` from the generated one: order 1 is kept, others are converted; the result and its number of nodes.
(`converted_mesh_generator`, DistributeMesh.hpp 291-297) -/
def generate {P D : Type} (n : Nat) (loc : Loc P D) (close : P → P → Bool) (adj : Nat → List Nat) (nOld : Nat) (M : DMap D) : Option (DMap D × Nat) :=
  if n = 2 then some (M, nOld) else convert n loc close adj nOld M

/-- Boundaries of the square. They are the keys of a `std::map`: sorted, each once. (SquareMesh.hpp 75, MeshPartition.hpp 45) -/
def squareBnds (ids : Prim.SquareIds) : List Nat := Std.sortUniq [ids.bottom, ids.top, ids.left, ids.right]

/-- Boundaries of the cube. (CubeMesh.hpp 137, MeshPartition.hpp 45) -/
def cubeBnds (ids : Prim.CubeIds) : List Nat := Std.sortUniq [ids.back, ids.front, ids.bottom, ids.top, ids.left, ids.right]

/-- A line of order `n - 1`. (`makeLineMesh`, LineMesh.hpp 8-26, then DistributeMesh.hpp 291-297) -/
def lineOfOrder {P K : Type} [Zero K] (n : Nat) (loc : Loc P (Nat → Nat → K)) (close : P → P → Bool) (adj : Nat → List Nat) (nx : Nat) (dx : Nat → K) (dom : Nat) :
    Option (DMap (Nat → Nat → K) × Nat) :=
  (Prim.makeLine nx dx dom).bind fun m => generate n loc close adj nx (withData (coordsOf (Prim.lineEmits nx dx dom)) m)

/-- A square of order `n - 1`. (`makeSquareMesh`, SquareMesh.hpp 13-76, then DistributeMesh.hpp 291-297) -/
def squareOfOrder {P K : Type} [Zero K] (n : Nat) (loc : Loc P (Nat → Nat → K)) (close : P → P → Bool) (adj : Nat → List Nat) (nx ny : Nat) (dx dy : Nat → K)
    (ids : Prim.SquareIds) : Option (DMap (Nat → Nat → K) × Nat) :=
  (Prim.makeSquare nx ny dx dy ids).bind fun m => generate n loc close adj (nx * ny) (withData (coordsOf (Prim.squareEmits nx ny dx dy ids)) m)

/-- A cube of order `n - 1`. (`makeCubeMesh`, CubeMesh.hpp 13-138, then DistributeMesh.hpp 291-297) -/
def cubeOfOrder {P K : Type} [Zero K] (n : Nat) (loc : Loc P (Nat → Nat → K)) (close : P → P → Bool) (adj : Nat → List Nat) (nx ny nz : Nat) (dx dy dz : Nat → K)
    (ids : Prim.CubeIds) : Option (DMap (Nat → Nat → K) × Nat) :=
  (Prim.makeCube nx ny nz dx dy dz ids).bind fun m => generate n loc close adj (nx * ny * nz) (withData (coordsOf (Prim.cubeEmits nx ny nz dx dy dz ids)) m)

end Verif.Gen
