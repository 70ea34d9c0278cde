import Verif.GmshText.Props
import Verif.Gen.Props

/-!
# C141: what is required of a Gmsh file so that its mesh can be distributed

In terms of the file: nodes by their tags, elements by the tags of their nodes in the order of Gmsh.  No model definitions of its own: reading is `Verif.Gmsh`
and `Verif.GmshText` (ReadMesh.hpp 106-363), distribution `Verif.Pipeline` (DistributeMesh.hpp 229-248, `readAndDistributeMesh` 301-315).
-/
namespace Verif.GmshGen
open Verif Verif.Elem Verif.Gmsh Verif.GmshText Verif.Gen

/-- The sides of an element, as places in its list of nodes. (Gmsh reference manual, "Node ordering") -/
def gmshSides : ElType → List (List Nat)
  | .line => [[0], [1]]
  | .quad => [[0, 1], [1, 2], [2, 3], [3, 0]]
  | .hex => [[0, 3, 2, 1], [0, 1, 5, 4], [0, 4, 7, 3], [1, 2, 6, 5], [2, 3, 7, 6], [4, 5, 6, 7]]

/-- The elements of the file, with their blocks. -/
def gels (blocks : List Block) : List (Block × List Nat) := blocks.flatMap fun b => b.els.map fun ts => (b, ts)

/-- Side `j` of the element `g` has the nodes of the element `x`, which is of one dimension less. -/
def Borders (g : Block × List Nat) (j : Nat) (x : Block × List Nat) : Prop :=
  ∃ ty tx l, elType g.1.type = some ty ∧ elType x.1.type = some tx ∧ ty.dim = tx.dim + 1 ∧ (gmshSides ty)[j]? = some l ∧ (l.map fun i => g.2.getD i 0).Perm x.2

/-- The file describes a mesh whose physical groups `bnds` are boundaries of dimension `D`: all nodes are used, and each element of a boundary is one side of one element. -/
structure Conforming {K : Type} [Field K] [LinearOrder K] (entities : List ((Nat × Nat) × Nat)) (nodes : List (Nat × Pt K)) (blocks : List Block) (bnds : List Nat) (D : Nat) : Prop where
  ok : FileOk entities nodes blocks
  used : ∀ p ∈ nodes, ∃ g ∈ gels blocks, p.1 ∈ g.2
  sorted : bnds.Pairwise (· < ·)
  bnd : ∀ b ∈ bnds, ∃ g ∈ gels blocks, entities.lookup (g.1.dim, g.1.tag) = some b ∧ ∃ ty, elType g.1.type = some ty ∧ ty.dim = D
  parent : ∀ b ∈ bnds, ∀ x ∈ gels blocks, entities.lookup (x.1.dim, x.1.tag) = some b →
    ∃! p : Nat × Nat, ∃ g, (gels blocks)[p.1]? = some g ∧ Borders g p.2 x

/-- **C141**: the text of every file which describes a conforming mesh is read as a mesh ready for distribution, on which answers do not depend on the distribution. -/
def C141Statement : Prop :=
  ∀ (K : Type) [Field K] [LinearOrder K] (dec : List Char → Option K) (eps : K) (M : MeshFile K) (file : List Char) (bnds : List Nat) (D : Nat), M.InRange → M.IsText dec file →
    Conforming M.physical M.nodes M.blocks bnds D → ∃ doms, readText eps dec file = .ok doms ∧ Ready 2 doms bnds D M.nodes.length ∧ SameAnswer 2 doms bnds

end Verif.GmshGen
