import Verif.Extrude.Model
import Mathlib.Algebra.Order.Field.Basic

/-! # Reading Gmsh meshes: model of /repo/include/l3ster/mesh/ReadMesh.hpp

The model starts after tokenisation of the sections (`$Entities`, `$Nodes`, `$Elements`): an entity is (dimension,
tag, physical tag), a node block a list of (tag, coordinates), an element block (dimension, entity tag, element
type, node tags of the elements).  Coordinates are elements of an ordered field (exact arithmetic).  Element blocks are non-empty, as
Gmsh writes them. -/
namespace Verif.Gmsh
open Verif Verif.Elem Verif.Mesh Verif.Split Verif.Partition Verif.Merge Verif.Extrude

/-- `Point< 3 >`. -/
structure Pt (K : Type) where
  x : K
  y : K
  z : K
  deriving DecidableEq, Repr

/-- `std::swap(a[i], a[j])`. (`std::swap`, ReadMesh.hpp 67-68, 87-88, 96-99) -/
def swap {α : Type} (l : List α) (i j : Nat) : List α :=
  match l[i]?, l[j]? with
  | some a, some b => (l.set i b).set j a
  | _, _ => l

section
variable {K : Type} [Field K] [LinearOrder K]

/-- `all_of(coords | drop(1), same_z_as_first)`, 73-77. -/
def planar (eps : K) (coords : List (Pt K)) : Bool :=
  match coords with
  | [] => true
  | c :: cs => cs.all fun p => decide (|p.z - c.z| < eps)

/-- `nz < 0`, 80-87. -/
def upsideDown (coords : List (Pt K)) : Bool :=
  match coords with
  | c0 :: c1 :: c2 :: _ => decide ((c1.x - c0.x) * (c2.y - c0.y) - (c1.y - c0.y) * (c2.x - c0.x) < 0)
  | _ => false

/-- `makeElementFromNodeData`, 53-103: node ids and coordinates in library order (pairs stay together: every swap is done on
both arrays). -/
def arrange (eps : K) (ty : ElType) (info : List (Nat × Pt K)) : List (Nat × Pt K) :=
  match ty with
  | .line => info
  | .quad =>
    let q := swap info 2 3
    if planar eps (q.map (·.2)) && upsideDown (q.map (·.2)) then swap q 1 2 else q
  | .hex => swap (swap info 2 3) 6 7

/-- `parse_nodes`, 248-284: `emplace` keeps the first entry of a tag, the counter always advances. -/
def parseNodes (nodes : List (Nat × Pt K)) : Algo.AMap Nat (Nat × Pt K) :=
  nodes.zipIdx.foldl (fun m p => m.emplace p.1.1 (p.2, p.1.2)) []

/-- `gmsh_elt_lookup_tab`, 38-39, and the `switch`, 329-342; `none` = unsupported type. -/
def elType : Nat → Option ElType
  | 1 => some .line | 3 => some .quad | 5 => some .hex | _ => none

/-- A block of the `$Elements` section. (ReadMesh.hpp 291-350) -/
structure Block where
  dim : Nat
  tag : Nat
  type : Nat
  els : List (List Nat)

/-- The elements of one block (302-327): domain, element (id set later) and vertices. -/
def blockEvents (eps : K) (entities : List ((Nat × Nat) × Nat)) (nodes : Algo.AMap Nat (Nat × Pt K)) (b : Block) :
    Option (List (Nat × Element × List (Pt K))) :=
  (entities.lookup (b.dim, b.tag)).bind fun dom =>
  (elType b.type).bind fun ty =>
  b.els.mapM fun tags => (tags.mapM fun t => nodes.find t).map fun info =>
    (dom, ⟨ty, 2, 0, (arrange eps ty info).map (·.1)⟩, (arrange eps ty info).map (·.2))

/-- `std::ranges::sort(vec, {}, id)`, 347-349. -/
def sortVecs (m : DomMap) : DomMap :=
  m.map fun d => (d.1, ⟨d.2.dim, d.2.vecs.map fun v => v.insertionSort fun a b => a.id ≤ b.id⟩)

/-- All elements in the order they are read. (ReadMesh.hpp 291-350) -/
def readEvents (eps : K) (entities : List ((Nat × Nat) × Nat)) (nodes : List (Nat × Pt K)) (blocks : List Block) :
    Option (List (Nat × Element × List (Pt K))) :=
  (blocks.mapM (blockEvents eps entities (parseNodes nodes))).map List.flatten

/-- `readMesh`: the domains handed to the mesh constructor; `none` = an exception. (ReadMesh.hpp 106-363) -/
def readMesh (eps : K) (entities : List ((Nat × Nat) × Nat)) (nodes : List (Nat × Pt K)) (blocks : List Block) : Option DomMap :=
  (readEvents eps entities nodes blocks).bind fun evs => (pushAll kinds1 [] (number 0 evs)).map sortVecs

end

end Verif.Gmsh
