import Verif.Gmsh.Model
import Verif.Gen.Model

/-!
# Reading a Gmsh file into a mesh of any order

Model of `readAndDistributeMesh` up to the distribution: /repo/include/l3ster/comm/DistributeMesh.hpp 301-315 calls `readMesh`
(/repo/include/l3ster/mesh/ReadMesh.hpp 106-363), the result is converted (DistributeMesh.hpp 291-297).
-/
namespace Verif.GmshGen
open Verif Verif.Gmsh Verif.Convert Verif.Gen

variable {K : Type} [Field K] [LinearOrder K]

/-- Coordinates of the vertices of the elements in the order they are read. (`makeElementFromNodeData`, ReadMesh.hpp 53-103, passes them on in the order of the nodes; `ElementData`, Element.hpp 17-32) -/
def vertsOf (evs : List (Nat × Element × List (Gmsh.Pt K))) (id : Nat) : Nat → Nat → K := fun k c =>
  ((evs[id]?.bind fun ev => ev.2.2[k]?).map fun v => if c = 0 then v.x else if c = 1 then v.y else v.z).getD 0

/-- The mesh which is read, with its coordinates. (`readMesh`, ReadMesh.hpp 291-363) -/
def imported (eps : K) (entities : List ((Nat × Nat) × Nat)) (nodes : List (Nat × Gmsh.Pt K)) (blocks : List Block) : Option (DMap (Nat → Nat → K)) :=
  (readEvents eps entities nodes blocks).bind fun evs => (Gmsh.readMesh eps entities nodes blocks).map (withData (vertsOf evs))

/-- The mesh of order `n - 1` and its number of nodes. (`readAndDistributeMesh`, DistributeMesh.hpp 301-315, with the generator of 291-297) -/
def importedOfOrder {P : Type} (n : Nat) (loc : Loc P (Nat → Nat → K)) (close : P → P → Bool) (adj : Nat → List Nat) (eps : K) (entities : List ((Nat × Nat) × Nat))
    (nodes : List (Nat × Gmsh.Pt K)) (blocks : List Block) : Option (DMap (Nat → Nat → K) × Nat) :=
  (imported eps entities nodes blocks).bind (generate n loc close adj nodes.length)

end Verif.GmshGen
