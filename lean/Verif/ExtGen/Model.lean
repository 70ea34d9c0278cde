import Verif.Extrude.Props
import Verif.Gen.Props

/-! # Extruded meshes with the coordinates of their vertices, of any order

`extrude` (/repo/include/l3ster/mesh/MeshUtils.hpp 395-461) is modelled in area Extrude.  Here the coordinates which the new elements
carry are put in place, and the mesh is converted to the requested order (`converted_mesh_generator`, DistributeMesh.hpp 291-297). -/
namespace Verif.ExtGen
open Verif Verif.Elem Verif.Mesh Verif.Split Verif.Partition Verif.Merge Verif.Extrude

/-- Vertices of an element of the mesh to be extruded, as `element.data.vertices`; heights are overwritten. (MeshUtils.hpp 417-418, 425-428) -/
def planarVerts {K : Type} (dat : Nat → Nat → Nat → K) (e : Element) : List ((K × K) × K) :=
  (List.range (2 ^ e.ty.dim)).map fun k => ((dat e.id k 0, dat e.id k 1), dat e.id k 2)

/-- Coordinates of the vertices of the new elements, by element id. (`data`, `face.data`, MeshUtils.hpp 417-428, 444-445; `element_id++`, 434, 446) -/
def extCoords {K : Type} [Zero K] (evs : List (Ev (K × K) K)) (id : Nat) : Nat → Nat → K := fun k c =>
  ((evs[id]?.bind fun ev => ev.2.2[k]?).map fun v => if c = 0 then v.1.1 else if c = 1 then v.1.2 else v.2).getD 0

/-- Boundaries of the extruded mesh; keys of a `std::map`. (MeshUtils.hpp 460, MeshPartition.hpp 45) -/
def extBnds (bnds : List Nat) (back front : Nat) : List Nat := Std.sortUniq (bnds ++ [back, front])

/-- `extrude` with coordinates; `dat` are those of the vertices of the mesh, by element id. (MeshUtils.hpp 395-461) -/
def extruded {K : Type} [Zero K] (N : Nat) (zs : List K) (dat : Nat → Nat → Nat → K) (back front : Nat) (m : DomMap) (bnds : List Nat) :
    Option (Convert.DMap (Nat → Nat → K)) :=
  (extrude N zs (planarVerts dat) back front m bnds).map fun r => Gen.withData (extCoords (allEvents N zs (planarVerts dat) back front m)) r.1

/-- The extruded mesh, converted to order `n - 1`. (MeshUtils.hpp 395-461; DistributeMesh.hpp 291-297) -/
def extrudedOfOrder {P K : Type} [Zero K] (n : Nat) (loc : Convert.Loc P (Nat → Nat → K)) (close : P → P → Bool) (adj : Nat → List Nat)
    (N : Nat) (zs : List K) (dat : Nat → Nat → Nat → K) (back front : Nat) (m : DomMap) (bnds : List Nat) : Option (Convert.DMap (Nat → Nat → K) × Nat) :=
  (extruded N zs dat back front m bnds).bind fun M => Gen.generate n loc close adj (N * zs.length) M

end Verif.ExtGen
