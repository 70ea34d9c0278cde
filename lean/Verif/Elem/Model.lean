import Verif.Common.Std
import Verif.Common.Tensor

/-!
# Model of the element traits

Sources: `/repo/include/l3ster/mesh/ElementTraits.hpp` (whole file) and
`/repo/include/l3ster/mesh/NodeReferenceLocation.hpp`, lines 11-43.

`n` is `O + 1`.  Table entries are 16-bit (`el_locind_t`); the conversions wrap like the casts.
-/
namespace Verif.Elem
open Verif

/-- ElementType.hpp 11-20 -/
inductive ElType | line | quad | hex
  deriving DecidableEq, Repr, Inhabited

/-- `native_dim`. (`native_dim`, ElementTraits.hpp 68, 113, 149) -/
def ElType.dim : ElType → Nat
  | .line => 1 | .quad => 2 | .hex => 3

/-- Conversion to `el_locind_t`. (`el_locind_t`, the casts of ElementTraits.hpp 88-93, 128-131) -/
def u16 (x : Nat) : Nat := x % 2 ^ 16

/-- `nodes_per_element` (lines 68, 113, 149); initialised by an implicit conversion. -/
def nNodes (t : ElType) (n : Nat) : Nat := u16 (n ^ t.dim)

/-- `BoundaryTable::compute` for hexahedra, lines 75-100: two nested loops and a running index. -/
def hexTable (n : Nat) : List (List Nat) :=
  let perSide := n * n
  let back := perSide * (n - 1)
  let top := n * (n - 1)
  let right := n - 1
  let rows := (Tensor.pairs n n).zipIdx
  [ rows.map fun r => u16 r.2,
    rows.map fun r => u16 (u16 r.2 + back),
    rows.map fun r => u16 (r.1.1 * perSide + r.1.2),
    rows.map fun r => u16 (u16 (r.1.1 * perSide + r.1.2) + top),
    rows.map fun r => u16 (r.1.1 * perSide + r.1.2 * n),
    rows.map fun r => u16 (u16 (r.1.1 * perSide + r.1.2 * n) + right) ]

/-- `BoundaryTable::compute` for quadrilaterals, lines 120-136. -/
def quadTable (n : Nat) : List (List Nat) :=
  let top := n * (n - 1)
  let right := n - 1
  [ (List.range n).map fun i => u16 i,
    (List.range n).map fun i => u16 (u16 i + top),
    (List.range n).map fun i => u16 (i * n),
    (List.range n).map fun i => u16 (u16 (i * n) + right) ]

/-- `BoundaryTable::compute` for lines, line 155. -/
def lineTable (n : Nat) : List (List Nat) := [[0], [n - 1]]

/-- `boundary_table`. (`boundary_table`, ElementTraits.hpp 70-102, 116-138, 152-159) -/
def table (t : ElType) (n : Nat) : List (List Nat) :=
  match t with
  | .line => lineTable n | .quad => quadTable n | .hex => hexTable n

/-- `getBoundaryInds`/`makeBoundaryNodeInds`, lines 22-44: concatenate, sort, drop repetitions. -/
def boundaryInds (t : ElType) (n : Nat) : List Nat := Std.sortUniq (table t n).flatten

/-- `makeInternalNodeInds`, lines 46-59. -/
def internalInds (t : ElType) (n : Nat) : List Nat :=
  (List.range (nNodes t n)).filter fun i => !Std.binarySearch (boundaryInds t n) i

/-- `getSideNodeIndices`, lines 164-171; `none` = `std::out_of_range` from `at`. -/
def sideNodeInds (t : ElType) (n side : Nat) : Option (List Nat) := (table t n)[side]?

/-- `makeLineNodeLocations`, `makeQuadNodeLocations`, `makeHexNodeLocations`. (NodeReferenceLocation.hpp 11-43) -/
def nodeLocs {K : Type} (t : ElType) (absc : List K) : List (List K) :=
  match t with
  | .line => absc.map fun xi => [xi]
  | .quad => absc.flatMap fun eta => absc.map fun xi => [xi, eta]
  | .hex => absc.flatMap fun zeta => absc.flatMap fun eta => absc.map fun xi => [xi, eta, zeta]

end Verif.Elem
