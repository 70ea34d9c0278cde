import Verif.Elem.Model
/-!
# Specification: cells of an unstructured grid

Written from the VTK file format: `offsets[k]` is the end of cell `k` in the connectivity array, the
beginning is the end of the previous cell.  Corner orders of `VTK_LINE` (3), `VTK_QUAD` (9) and
`VTK_HEXAHEDRON` (12).
-/
namespace Verif.Vtk.Spec
open Verif.Elem

/-- Corner order of the VTK cell, as unit offsets per reference direction. -/
def corners : ElType → List (List Nat)
  | .line => [[0], [1]]
  | .quad => [[0, 0], [1, 0], [1, 1], [0, 1]]
  | .hex => [[0, 0, 0], [1, 0, 0], [1, 1, 0], [0, 1, 0], [0, 0, 1], [1, 0, 1], [1, 1, 1], [0, 1, 1]]

/-- VTK cell type code. -/
def code : ElType → Nat
  | .line => 3 | .quad => 9 | .hex => 12

/-- Number of the node at given grid coordinates: the first coordinate runs fastest. -/
def gridIndex (n : Nat) : List Nat → Nat
  | [] => 0
  | x :: xs => x + n * gridIndex n xs

/-- Grid coordinates of the `q`-th cell of an `m × … × m` grid. -/
def cellCoords (m : Nat) : Nat → Nat → List Nat
  | 0, _ => []
  | d + 1, q => q % m :: cellCoords m d (q / m)

/-- The cells of one element with `n` nodes per edge: node positions within the element. -/
def cells (t : ElType) (n : Nat) : List (List Nat) :=
  (List.range ((n - 1) ^ t.dim)).map fun q =>
    (corners t).map fun c => gridIndex n (List.zipWith (· + ·) (cellCoords (n - 1) t.dim q) c)

/-- What a reader of the three arrays sees: type and connectivity of every cell. -/
def readCells (conn : List Nat) : Nat → List Nat → List Nat → List (Nat × List Nat)
  | start, o :: os, t :: ts => (t, (conn.drop start).take (o - start)) :: readCells conn o os ts
  | _, _, _ => []

end Verif.Vtk.Spec
