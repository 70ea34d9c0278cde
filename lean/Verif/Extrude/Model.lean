import Verif.Merge.Copy

/-! # Extruding a mesh: model of `extrude` (/repo/include/l3ster/mesh/MeshUtils.hpp, 395-461)

A vertex is a pair (position in the plane, height); elements have order 1. -/
namespace Verif.Extrude
open Verif Verif.Elem Verif.Mesh Verif.Split Verif.Partition Verif.Merge

/-- Containers of `MeshPartition< 1 >`, in the order of the `ElementType` enumerators. -/
def kinds1 : List (ElType × Nat) := [(.hex, 2), (.quad, 2), (.line, 2)]

/-- `ET_extruded`, 414; 3D elements throw earlier (411). -/
def liftTy : ElType → ElType
  | .line => .quad | .quad => .hex | .hex => .hex

/-- The nodes of the extruded element of a layer, 426-431 (`N` = `nodes_per_layer`). -/
def prismNodes (N : Nat) (e : Element) (layer : Nat) : List Nat :=
  let lower := e.nodes.map fun x => x + layer * N
  lower ++ lower.map fun x => x + N

/-- A pushed element: domain, element (id not yet set) and its vertices. (MeshUtils.hpp 425-432, 446) -/
abbrev Ev (V Z : Type) := Nat × Element × List (V × Z)

variable {V Z : Type}

/-- `extrude_element`, 407-436, for one element of domain `k`: one push per pair of adjacent heights. -/
def prisms (N : Nat) (zs : List Z) (verts : Element → List (V × Z)) (k : Nat) (e : Element) : List (Ev V Z) :=
  ((zs.zip zs.tail).zipIdx).map fun p => (k, ⟨liftTy e.ty, e.n, 0, prismNodes N e p.2⟩,
    (verts e).map (fun v => (v.1, p.1.1)) ++ (verts e).map (fun v => (v.1, p.1.2)))

/-- `make_face`, 440-448. -/
def face (verts : Element → List (V × Z)) (z : Z) (dom offs : Nat) (e : Element) : Ev V Z :=
  (dom, { e with id := 0, nodes := e.nodes.map (· + offs) }, (verts e).map fun v => (v.1, z))

/-- `make_back_front_elems`, 437-452, for one element. -/
def faces (N : Nat) (zs : List Z) (verts : Element → List (V × Z)) (back front : Nat) (e : Element) : List (Ev V Z) :=
  match e.ty, zs.head?, zs.getLast? with
  | .line, _, _ => []
  | _, some zmin, some zmax => [face verts zmin back 0 e, face verts zmax front (N * (zs.length - 1)) e]
  | _, _, _ => []

/-- All pushes made for domain `k` (456-458). -/
def domainEvents (N : Nat) (zs : List Z) (verts : Element → List (V × Z)) (back front : Nat) (m : DomMap) (k : Nat) : List (Ev V Z) :=
  (visitIds m [k]).flatMap (prisms N zs verts k) ++ (visitIds m [k]).flatMap (faces N zs verts back front)

/-- `element_id++`: the pushed elements take the ids `c, c + 1, …`. -/
def number {X : Type} (c : Nat) (evs : List (Nat × Element × X)) : List (Nat × Element) :=
  (evs.zipIdx c).map fun p => (p.1.1, { p.1.2.1 with id := p.2 })

/-- Body of the loop over domains, 454-459; the state is (domains, next element id). -/
def step (evs : Nat → List (Ev V Z)) (st : DomMap × Nat) (k : Nat) : Option (DomMap × Nat) :=
  (pushAll kinds1 (touch kinds1 st.1 k) (number st.2 (evs k))).map fun m => (m, st.2 + (evs k).length)

/-- `extrude`: the domains of the new mesh and its boundary ids; `none` = an assertion throws. (MeshUtils.hpp 395-461) -/
def extrude (N : Nat) (zs : List Z) (verts : Element → List (V × Z)) (back front : Nat) (m : DomMap) (bnds : List Nat) :
    Option (DomMap × List Nat) :=
  if zs.length ≤ 1 ∨ (visitAll m).any (fun e => e.ty == .hex) = true then none
  else ((m.map (·.1)).foldlM (step (domainEvents N zs verts back front m)) ([], 0)).map fun st => (st.1, bnds ++ [back, front])

end Verif.Extrude
