import Verif.Mesh.Model

/-!
# Model of the structured mesh generators

Sources: `/repo/include/l3ster/mesh/primitives/{CubeMesh,SquareMesh,LineMesh}.hpp`.

The generators append elements to domains with a running element counter: modelled as the list of
`emplaceInDomain` calls, in program order, the counter being the position in the list.  Point
distributions are functions from the index (in range by construction); sizes are natural numbers
(no 64-bit overflow; loop counters are 32-bit in the code).
-/
namespace Verif.Prim
open Verif Verif.Elem Verif.Mesh

/-- One `emplaceInDomain` call. (e.g. LineMesh.hpp 22, SquareMesh.hpp 42, CubeMesh.hpp 62) -/
structure Emit (P : Type) where
  dom : Nat
  ty : ElType
  nodes : List Nat
  verts : List P

/-- Types of a `MeshPartition<1>` container, in `element_types` order (ElementType.hpp 12-20). -/
def kinds1 : List (ElType × Nat) := [(.hex, 2), (.quad, 2), (.line, 2)]

/-- `domains[id]` of a new id, LineMesh.hpp 16, SquareMesh.hpp 24-28, CubeMesh.hpp 29-35. -/
def emptyDomain : Domain := ⟨none, [[], [], []]⟩

/-- `emplaceInDomain(domains[dom], ...)`. (LineMesh.hpp 22, SquareMesh.hpp 42, 56-57, 71-72, CubeMesh.hpp 62, 84-85, 108-109, 132-133) -/
def pushTo (m : DomMap) (ev : Nat × Element) : Option DomMap :=
  (((m.lookup ev.1).getD emptyDomain).push kinds1 ev.2).map fun d => OMap.upd m ev.1 fun _ => d

/-- The `reserve` calls create the domains; then the elements are emplaced. (LineMesh.hpp 15-16, SquareMesh.hpp 23-28, CubeMesh.hpp 28-35) -/
def build (reserved : List Nat) (evs : List (Nat × Element)) : Option DomMap :=
  evs.foldlM pushTo (reserved.foldl (fun m k => OMap.upd m k fun d => d.getD emptyDomain) [])

/-- Numbering by the running counter. (`el_ind++`, SquareMesh.hpp 30-72, CubeMesh.hpp 37-133; `id`, LineMesh.hpp 18) -/
def number {P : Type} (l : List (Emit P)) : List (Nat × Element) :=
  l.zipIdx.map fun p => (p.1.dom, ⟨p.1.ty, 2, p.2, p.1.nodes⟩)

/-! ## makeLineMesh (LineMesh.hpp 9-26) -/

/-- The loop, LineMesh.hpp 18-23. -/
def lineEmits {K : Type} [Zero K] (nx : Nat) (dx : Nat → K) (dom : Nat) : List (Emit (K × K × K)) :=
  (List.range (nx - 1)).map fun i => ⟨dom, .line, [i, i + 1], [(dx i, 0, 0), (dx (i + 1), 0, 0)]⟩

/-- `makeLineMesh`, LineMesh.hpp 8-26. -/
def makeLine {K : Type} [Zero K] (nx : Nat) (dx : Nat → K) (dom : Nat) : Option DomMap :=
  build [dom] (number (lineEmits nx dx dom))

/-! ## makeSquareMesh (SquareMesh.hpp 14-76) -/

/-- `SquareMeshIds`, SquareMesh.hpp 8-11. -/
structure SquareIds where
  (domain bottom top left right : Nat)

/-- The ids in the order of the `reserve` calls, SquareMesh.hpp 24-28. -/
def SquareIds.list (i : SquareIds) : List Nat := [i.domain, i.bottom, i.top, i.left, i.right]

/-- 34-46. -/
def squareArea {K : Type} [Zero K] (nx ny : Nat) (dx dy : Nat → K) (ids : SquareIds) : List (Emit (K × K × K)) :=
  (List.range (ny - 1)).flatMap fun iy => (List.range (nx - 1)).map fun ix =>
    ⟨ids.domain, .quad, [nx * iy + ix, nx * iy + ix + 1, nx * (iy + 1) + ix, nx * (iy + 1) + ix + 1],
     [(dx ix, dy iy, 0), (dx (ix + 1), dy iy, 0), (dx ix, dy (iy + 1), 0), (dx (ix + 1), dy (iy + 1), 0)]⟩

/-- 48-61. -/
def squareY {K : Type} [Zero K] (nx ny : Nat) (dx dy : Nat → K) (ids : SquareIds) : List (Emit (K × K × K)) :=
  (List.range (nx - 1)).flatMap fun ix =>
    let nodes1 := [ix, ix + 1]
    let verts1 := [(dx ix, dy 0, (0 : K)), (dx (ix + 1), dy 0, 0)]
    [⟨ids.bottom, .line, nodes1, verts1⟩,
     ⟨ids.top, .line, nodes1.map (· + nx * (ny - 1)), verts1.map fun v => (v.1, dy (ny - 1), 0)⟩]

/-- 63-76. -/
def squareX {K : Type} [Zero K] (nx ny : Nat) (dx dy : Nat → K) (ids : SquareIds) : List (Emit (K × K × K)) :=
  (List.range (ny - 1)).flatMap fun iy =>
    let nodes1 := [iy * nx, (iy + 1) * nx]
    let verts1 := [(dx 0, dy iy, (0 : K)), (dx 0, dy (iy + 1), 0)]
    [⟨ids.left, .line, nodes1, verts1⟩,
     ⟨ids.right, .line, nodes1.map (· + (nx - 1)), verts1.map fun v => (dx (nx - 1), v.2.1, 0)⟩]

/-- All `emplaceInDomain` calls, SquareMesh.hpp 32-73. -/
def squareEmits {K : Type} [Zero K] (nx ny : Nat) (dx dy : Nat → K) (ids : SquareIds) : List (Emit (K × K × K)) :=
  squareArea nx ny dx dy ids ++ squareY nx ny dx dy ids ++ squareX nx ny dx dy ids

/-- `makeSquareMesh`, SquareMesh.hpp 13-76. -/
def makeSquare {K : Type} [Zero K] (nx ny : Nat) (dx dy : Nat → K) (ids : SquareIds) : Option DomMap :=
  build ids.list (number (squareEmits nx ny dx dy ids))

/-! ## makeCubeMesh (CubeMesh.hpp 16-138) -/

/-- `CubeMeshIds`, CubeMesh.hpp 8-11. -/
structure CubeIds where
  (domain back front bottom top left right : Nat)

/-- The ids in the order of the `reserve` calls, CubeMesh.hpp 29-35. -/
def CubeIds.list (i : CubeIds) : List Nat := [i.domain, i.back, i.front, i.bottom, i.top, i.left, i.right]

/-- 38-65. -/
def cubeVol {K : Type} (nx ny nz : Nat) (dx dy dz : Nat → K) (ids : CubeIds) : List (Emit (K × K × K)) :=
  (List.range (nz - 1)).flatMap fun iz => (List.range (ny - 1)).flatMap fun iy => (List.range (nx - 1)).map fun ix =>
    ⟨ids.domain, .hex,
     [nx * ny * iz + nx * iy + ix, nx * ny * iz + nx * iy + ix + 1,
      nx * ny * iz + nx * (iy + 1) + ix, nx * ny * iz + nx * (iy + 1) + ix + 1,
      nx * ny * (iz + 1) + nx * iy + ix, nx * ny * (iz + 1) + nx * iy + ix + 1,
      nx * ny * (iz + 1) + nx * (iy + 1) + ix, nx * ny * (iz + 1) + nx * (iy + 1) + ix + 1],
     [(dx ix, dy iy, dz iz), (dx (ix + 1), dy iy, dz iz), (dx ix, dy (iy + 1), dz iz), (dx (ix + 1), dy (iy + 1), dz iz),
      (dx ix, dy iy, dz (iz + 1)), (dx (ix + 1), dy iy, dz (iz + 1)), (dx ix, dy (iy + 1), dz (iz + 1)),
      (dx (ix + 1), dy (iy + 1), dz (iz + 1))]⟩

/-- 67-87. -/
def cubeZ {K : Type} (nx ny nz : Nat) (dx dy dz : Nat → K) (ids : CubeIds) : List (Emit (K × K × K)) :=
  (List.range (ny - 1)).flatMap fun iy => (List.range (nx - 1)).flatMap fun ix =>
    let nodes1 := [nx * iy + ix, nx * iy + ix + 1, nx * (iy + 1) + ix, nx * (iy + 1) + ix + 1]
    let verts1 := [(dx ix, dy iy, dz 0), (dx (ix + 1), dy iy, dz 0), (dx ix, dy (iy + 1), dz 0), (dx (ix + 1), dy (iy + 1), dz 0)]
    [⟨ids.back, .quad, nodes1, verts1⟩,
     ⟨ids.front, .quad, nodes1.map (· + nx * ny * (nz - 1)), verts1.map fun v => (v.1, v.2.1, dz (nz - 1))⟩]

/-- 89-111. -/
def cubeY {K : Type} (nx ny nz : Nat) (dx dy dz : Nat → K) (ids : CubeIds) : List (Emit (K × K × K)) :=
  (List.range (nz - 1)).flatMap fun iz => (List.range (nx - 1)).flatMap fun ix =>
    let nodes1 := [nx * ny * iz + ix, nx * ny * iz + ix + 1, nx * ny * (iz + 1) + ix, nx * ny * (iz + 1) + ix + 1]
    let verts1 := [(dx ix, dy 0, dz iz), (dx (ix + 1), dy 0, dz iz), (dx ix, dy 0, dz (iz + 1)), (dx (ix + 1), dy 0, dz (iz + 1))]
    [⟨ids.bottom, .quad, nodes1, verts1⟩,
     ⟨ids.top, .quad, nodes1.map (· + nx * (ny - 1)), verts1.map fun v => (v.1, dy (ny - 1), v.2.2)⟩]

/-- 113-135. -/
def cubeX {K : Type} (nx ny nz : Nat) (dx dy dz : Nat → K) (ids : CubeIds) : List (Emit (K × K × K)) :=
  (List.range (nz - 1)).flatMap fun iz => (List.range (ny - 1)).flatMap fun iy =>
    let nodes1 := [nx * ny * iz + nx * iy, nx * ny * iz + nx * (iy + 1), nx * ny * (iz + 1) + nx * iy, nx * ny * (iz + 1) + nx * (iy + 1)]
    let verts1 := [(dx 0, dy iy, dz iz), (dx 0, dy (iy + 1), dz iz), (dx 0, dy iy, dz (iz + 1)), (dx 0, dy (iy + 1), dz (iz + 1))]
    [⟨ids.left, .quad, nodes1, verts1⟩,
     ⟨ids.right, .quad, nodes1.map (· + (nx - 1)), verts1.map fun v => (dx (nx - 1), v.2.1, v.2.2)⟩]

/-- All `emplaceInDomain` calls, CubeMesh.hpp 39-135. -/
def cubeEmits {K : Type} (nx ny nz : Nat) (dx dy dz : Nat → K) (ids : CubeIds) : List (Emit (K × K × K)) :=
  cubeVol nx ny nz dx dy dz ids ++ cubeZ nx ny nz dx dy dz ids ++ cubeY nx ny nz dx dy dz ids ++ cubeX nx ny nz dx dy dz ids

/-- `makeCubeMesh`, CubeMesh.hpp 13-138. -/
def makeCube {K : Type} (nx ny nz : Nat) (dx dy dz : Nat → K) (ids : CubeIds) : Option DomMap :=
  build ids.list (number (cubeEmits nx ny nz dx dy dz ids))

end Verif.Prim
