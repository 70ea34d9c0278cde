import Verif.Common.Tensor
import Verif.Elem.Model
import Verif.Own.Model
import Verif.Base64.Model
/-!
# Model of the topology part of `post/VtkExport.hpp`

An element is given by its type, the number `n` of nodes per edge (order plus one) and its node ids.
-/
namespace Verif.Vtk
open Verif Verif.Elem

/-- An element of the mesh: `mesh::Element<ET, EO>` with `n = EO + 1`. -/
structure El where
  t : ElType
  n : Nat
  nodes : List Nat
deriving Repr

/-- `numSubels`, include/l3ster/post/VtkExport.hpp lines 192-204. -/
def numSubels (t : ElType) (n : Nat) : Nat :=
  match t with
  | .line => n - 1
  | .quad => (n - 1) * (n - 1)
  | .hex => (n - 1) * (n - 1) * (n - 1)

/-- `numSubelNodes`, lines 206-217. -/
def numSubelNodes : ElType → Nat
  | .line => 2 | .quad => 4 | .hex => 8

/-- `subelCellType`, lines 225-236. -/
def subelCellType : ElType → Nat
  | .line => 3 | .quad => 9 | .hex => 12

/-- The positions read by `serializeElementSubtopo`, lines 244-285, in order. -/
def subIdx (t : ElType) (n : Nat) : List Nat :=
  match t with
  | .line => (List.range (n - 1)).flatMap fun i => [i, i + 1]
  | .quad => (List.range (n - 1)).flatMap fun row => (List.range (n - 1)).flatMap fun col =>
      [row * n + col, row * n + col + 1, row * n + col + n + 1, row * n + col + n]
  | .hex => (List.range (n - 1)).flatMap fun layer => (List.range (n - 1)).flatMap fun row =>
      (List.range (n - 1)).flatMap fun col =>
        [layer * (n * n) + row * n + col, layer * (n * n) + row * n + col + 1,
         layer * (n * n) + row * n + col + n + 1, layer * (n * n) + row * n + col + n,
         layer * (n * n) + row * n + col + n * n, layer * (n * n) + row * n + col + 1 + n * n,
         layer * (n * n) + row * n + col + n + 1 + n * n, layer * (n * n) + row * n + col + n + n * n]

/-- `serializeElementSubtopo`, lines 238-289; `none` = read outside the node array. -/
def subtopo (e : El) : Option (List Nat) := (subIdx e.t e.n).mapM fun i => e.nodes[i]?

/-- The arrays built by `serializeTopology` (without their size headers) and the running offset. (VtkExport.hpp 310-340) -/
structure Topo where
  conn : List Nat
  offsets : List Nat
  types : List Nat
  offset : Nat
deriving Repr

/-- The `std::generate_n` call, lines 335-338: `unsigned` arithmetic. -/
def genOffsets (sz : Nat) : Nat → Nat → List Nat × Nat
  | 0, off => ([], off)
  | k + 1, off =>
    let r := genOffsets sz k ((off + sz) % 2 ^ 32)
    ((off + sz) % 2 ^ 32 :: r.1, r.2)

/-- `process_element`, lines 329-339; local indices are stored as `unsigned` (line 331). -/
def processElement (own : Own.SegOwn) (acc : Topo) (e : El) : Option Topo :=
  (subtopo e).map fun s =>
    let g := genOffsets (numSubelNodes e.t) (numSubels e.t e.n) acc.offset
    { conn := acc.conn ++ s.map fun i => own.getLocal i % 2 ^ 32
      offsets := acc.offsets ++ g.1
      types := acc.types ++ List.replicate (numSubels e.t e.n) (subelCellType e.t)
      offset := g.2 }

/-- `mesh.visit(process_element)`, line 340 (sequential). -/
def buildTopo (own : Own.SegOwn) (els : List El) : Option Topo :=
  els.foldlM (processElement own) ⟨[], [], [], 0⟩

/-- `getLocalTopoSize`, lines 291-302: number of cells and number of connectivity entries. -/
def localTopoSize (els : List El) : Nat × Nat :=
  els.foldl (fun a e => (a.1 + numSubels e.t e.n, a.2 + numSubels e.t e.n * numSubelNodes e.t)) (0, 0)

/-- The bytes handed to the encoder for an array of `w`-byte integers with its 8-byte size header,
lines 317-326. -/
def withHeader (w count : Nat) (xs : List Nat) : List Byte :=
  leBytes 8 (count * w) ++ xs.flatMap (leBytes w)

/-- Result of `serializeTopology`: number of cells, sizes of the three sections, encoded text. (VtkExport.hpp 304-362) -/
structure TopoText where
  nCells : Nat
  topoSz : Nat
  offsSz : Nat
  typeSz : Nat
  data : List Byte

/-- `serializeTopology`, lines 304-363.  `toAligned`: alignment of the byte-sized array (see
`Base64.encode`).  The buffer is resized by the announced size (line 350) before the characters are
written into it. -/
def serializeTopology (avx : Bool) (toAligned : Nat) (own : Own.SegOwn) (els : List El) : Option TopoText := do
  let topo ← buildTopo own els
  let sz := localTopoSize els
  let c ← Base64.encode avx false 0 (withHeader 4 sz.2 topo.conn)
  let o ← Base64.encode avx false 0 (withHeader 4 sz.1 topo.offsets)
  let t ← Base64.encode avx true toAligned (withHeader 1 sz.1 topo.types)
  return ⟨sz.1, Base64.encodingSize 4 (2 + topo.conn.length), Base64.encodingSize 4 (2 + topo.offsets.length),
    Base64.encodingSize 1 (8 + topo.types.length), c ++ o ++ t⟩

end Verif.Vtk
