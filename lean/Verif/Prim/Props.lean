import Verif.Prim.Build
import Mathlib.Tactic.Ring
import Mathlib.Tactic.IntervalCases

/-! # Property C24: structured meshes are conforming -/
namespace Verif.Prim
open Verif Verif.Elem Verif.Mesh Verif.Tensor

/-! ## The grid -/

/-- Number of the grid point `(x, y, z)`. -/
def gridNode (nx ny x y z : Nat) : Nat := x + nx * (y + ny * z)

/-- Nodes of the cell with corner `(ix, iy, iz)`, in tensor order. -/
def cellNodes (nx ny ix iy iz : Nat) : List Nat :=
  (List.range 8).map fun k => gridNode nx ny (ix + k % 2) (iy + k / 2 % 2) (iz + k / 4)

def quadNodes (nx ix iy : Nat) : List Nat := (List.range 4).map fun k => gridNode nx 0 (ix + k % 2) (iy + k / 2) 0

theorem gridNode_coords {nx ny x y z : Nat} (hx : x < nx) (hy : y < ny) :
    gridNode nx ny x y z % nx = x ∧ gridNode nx ny x y z / nx % ny = y ∧ gridNode nx ny x y z / nx / ny = z := by
  obtain ⟨h1, h2⟩ := two_digits (y := y + ny * z) hx
  obtain ⟨h3, h4⟩ := two_digits (y := z) hy
  unfold gridNode
  rw [h1, h2, h3, h4]
  exact ⟨rfl, rfl, rfl⟩

/-- **C24** (numbering): every node id below `nx·ny·nz` is the number of exactly one grid point, so two
elements share a node exactly when they share a grid point. -/
theorem C24_grid_numbering (nx ny nz : Nat) (N : Nat) (h : N < nx * ny * nz) :
    ∃! p : Nat × Nat × Nat, (p.1 < nx ∧ p.2.1 < ny ∧ p.2.2 < nz) ∧ gridNode nx ny p.1 p.2.1 p.2.2 = N := by
  have hx : 0 < nx := by rcases Nat.eq_zero_or_pos nx with rfl | h' <;> simp_all
  have hy : 0 < ny := by rcases Nat.eq_zero_or_pos ny with rfl | h' <;> simp_all
  refine ⟨(N % nx, N / nx % ny, N / nx / ny), ⟨⟨Nat.mod_lt _ hx, Nat.mod_lt _ hy, ?_⟩, ?_⟩, ?_⟩
  · rw [Nat.div_div_eq_div_mul]
    exact Nat.div_lt_of_lt_mul h
  · unfold gridNode
    rw [← eq_digits ny (N / nx), ← eq_digits nx N]
  · rintro ⟨x, y, z⟩ ⟨⟨h1, h2, h3⟩, he⟩
    obtain ⟨a, b, c⟩ := gridNode_coords (z := z) h1 h2
    rw [he] at a b c
    simp [a, b, c]

example : gridNode 3 4 2 1 5 = 65 ∧ 65 < 3 * 4 * 6 := by decide

theorem gridNode_lt {nx ny nz x y z : Nat} (hx : x < nx) (hy : y < ny) (hz : z < nz) : gridNode nx ny x y z < nx * ny * nz := by
  have := lt_mul_of_digits hy hz
  have := lt_mul_of_digits hx this
  rw [Nat.mul_assoc]; exact this

/-- Coordinates of a node. -/
def coord {K : Type} (nx ny : Nat) (dx dy dz : Nat → K) (N : Nat) : K × K × K := (dx (N % nx), dy (N / nx % ny), dz (N / nx / ny))

theorem coord_gridNode {K : Type} {nx ny : Nat} (dx dy dz : Nat → K) {x y z : Nat} (hx : x < nx) (hy : y < ny) :
    coord nx ny dx dy dz (gridNode nx ny x y z) = (dx x, dy y, dz z) := by
  obtain ⟨a, b, c⟩ := gridNode_coords (z := z) hx hy
  simp [coord, a, b, c]

/-! ## Cube -/

section Cube
variable {K : Type} {nx ny nz : Nat} {dx dy dz : Nat → K} {ids : CubeIds}

/-- Number of the boundary with side number `s` of the hex side table. -/
def CubeIds.bnd (i : CubeIds) (s : Nat) : Nat := [i.back, i.front, i.bottom, i.top, i.left, i.right].getD s 0

/-- Cells of an `nx × ny × nz` grid. -/
def InGrid (nx ny nz ix iy iz : Nat) : Prop := ix + 1 < nx ∧ iy + 1 < ny ∧ iz + 1 < nz

/-- The cell touches outer side `s`. -/
def Touches (nx ny nz s ix iy iz : Nat) : Prop :=
  match s with
  | 0 => iz = 0 | 1 => iz + 2 = nz | 2 => iy = 0 | 3 => iy + 2 = ny | 4 => ix = 0 | _ => ix + 2 = nx

def hexCell (nx ny id ix iy iz : Nat) : Element := ⟨.hex, 2, id, cellNodes nx ny ix iy iz⟩

theorem cellNodes_eq (nx ny ix iy iz : Nat) : cellNodes nx ny ix iy iz =
     [nx * ny * iz + nx * iy + ix, nx * ny * iz + nx * iy + ix + 1,
      nx * ny * iz + nx * (iy + 1) + ix, nx * ny * iz + nx * (iy + 1) + ix + 1,
      nx * ny * (iz + 1) + nx * iy + ix, nx * ny * (iz + 1) + nx * iy + ix + 1,
      nx * ny * (iz + 1) + nx * (iy + 1) + ix, nx * ny * (iz + 1) + nx * (iy + 1) + ix + 1] := by
  have : List.range 8 = [0, 1, 2, 3, 4, 5, 6, 7] := rfl
  unfold cellNodes gridNode
  rw [this]
  simp only [List.map_cons, List.map_nil, List.cons.injEq, and_true]
  refine ⟨?_, ?_, ?_, ?_, ?_, ?_, ?_, ?_⟩ <;> norm_num <;> ring

theorem hex_side_nodes (nx ny id ix iy iz s : Nat) (hs : s < 6) :
    ∃ inds, sideNodeInds .hex 2 s = some inds ∧ inds.length = 4 ∧ (∀ i ∈ inds, i < 8) ∧
      sideNodes (hexCell nx ny id ix iy iz) s = some (inds.map fun i => (cellNodes nx ny ix iy iz).getD i 0) := by
  have hlen : ∀ s < 6, ∃ inds, sideNodeInds .hex 2 s = some inds ∧ inds.length = 4 ∧ ∀ i ∈ inds, i < 8 := by
    intro s hs
    interval_cases s
    all_goals exact ⟨_, by rfl, by decide, by decide⟩
  obtain ⟨inds, h1, h2, h3⟩ := hlen s hs
  exact ⟨inds, h1, h2, h3, by simp [sideNodes, hexCell, h1]⟩

theorem mem_vol {ev : Emit (K × K × K)} : ev ∈ cubeVol nx ny nz dx dy dz ids ↔
    ∃ ix iy iz, InGrid nx ny nz ix iy iz ∧ ev.dom = ids.domain ∧ ev.ty = .hex ∧ ev.nodes = cellNodes nx ny ix iy iz ∧
      ev.verts = (cellNodes nx ny ix iy iz).map (coord nx ny dx dy dz) := by
  simp only [cubeVol, List.mem_flatMap, List.mem_map, List.mem_range]
  have hv : ∀ ix iy iz, InGrid nx ny nz ix iy iz → (cellNodes nx ny ix iy iz).map (coord nx ny dx dy dz) =
     [(dx ix, dy iy, dz iz), (dx (ix + 1), dy iy, dz iz), (dx ix, dy (iy + 1), dz iz), (dx (ix + 1), dy (iy + 1), dz iz),
      (dx ix, dy iy, dz (iz + 1)), (dx (ix + 1), dy iy, dz (iz + 1)), (dx ix, dy (iy + 1), dz (iz + 1)),
      (dx (ix + 1), dy (iy + 1), dz (iz + 1))] := by
    rintro ix iy iz ⟨h1, h2, h3⟩
    have : List.range 8 = [0, 1, 2, 3, 4, 5, 6, 7] := rfl
    unfold cellNodes
    rw [this]
    simp only [List.map_cons, List.map_nil]
    norm_num
    refine ⟨?_, ?_, ?_, ?_, ?_, ?_, ?_, ?_⟩ <;> exact coord_gridNode _ _ _ (by omega) (by omega)
  constructor
  · rintro ⟨iz, hz, iy, hy, ix, hx, rfl⟩
    have hg : InGrid nx ny nz ix iy iz := ⟨by omega, by omega, by omega⟩
    exact ⟨ix, iy, iz, hg, rfl, rfl, (cellNodes_eq nx ny ix iy iz).symm, (hv _ _ _ hg).symm⟩
  · rintro ⟨ix, iy, iz, hg, h1, h2, h3, h4⟩
    rw [cellNodes_eq] at h3
    rw [hv _ _ _ hg] at h4
    obtain ⟨d, t, n, v⟩ := ev
    simp only at h1 h2 h3 h4
    subst h1 h2 h3 h4
    exact ⟨iz, by have := hg.2.2; omega, iy, by have := hg.2.1; omega, ix, by have := hg.1; omega, rfl⟩

/-- Face emissions of boundary `s`. -/
def IsFace (nx ny nz : Nat) (dx dy dz : Nat → K) (ids : CubeIds) (s : Nat) (ev : Emit (K × K × K)) : Prop :=
  ∃ ix iy iz, InGrid nx ny nz ix iy iz ∧ Touches nx ny nz s ix iy iz ∧ ev.dom = ids.bnd s ∧ ev.ty = .quad ∧
    sideNodes (hexCell nx ny 0 ix iy iz) s = some ev.nodes ∧ ev.verts = ev.nodes.map (coord nx ny dx dy dz)

theorem hex_sides_concrete : sideNodeInds .hex 2 0 = some [0, 1, 2, 3] ∧ sideNodeInds .hex 2 1 = some [4, 5, 6, 7] ∧
    sideNodeInds .hex 2 2 = some [0, 1, 4, 5] ∧ sideNodeInds .hex 2 3 = some [2, 3, 6, 7] ∧
    sideNodeInds .hex 2 4 = some [0, 2, 4, 6] ∧ sideNodeInds .hex 2 5 = some [1, 3, 5, 7] := by decide

theorem sideNodes_hexCell (nx ny id ix iy iz s : Nat) (inds : List Nat) (h : sideNodeInds .hex 2 s = some inds)
    (hi : ∀ i ∈ inds, i < 8) :
    sideNodes (hexCell nx ny id ix iy iz) s =
      some (inds.map fun k => gridNode nx ny (ix + k % 2) (iy + k / 2 % 2) (iz + k / 4)) := by
  simp only [sideNodes, hexCell, h, Option.map_some, Option.some.injEq]
  apply List.map_congr_left
  intro i hi'
  have := hi i hi'
  rw [cellNodes, List.getD_eq_getElem?_getD, List.getElem?_map, List.getElem?_range this]
  rfl


/-- Explicit form of a face emission. -/
def faceEmit (nx ny : Nat) (dx dy dz : Nat → K) (bnd : Nat) (inds : List Nat) (ix iy iz : Nat) : Emit (K × K × K) :=
  ⟨bnd, .quad, inds.map fun k => gridNode nx ny (ix + k % 2) (iy + k / 2 % 2) (iz + k / 4),
   inds.map fun k => (dx (ix + k % 2), dy (iy + k / 2 % 2), dz (iz + k / 4))⟩

theorem isFace_iff {s : Nat} {inds : List Nat} (h : sideNodeInds .hex 2 s = some inds) (hi : ∀ i ∈ inds, i < 8)
    {ev : Emit (K × K × K)} : IsFace nx ny nz dx dy dz ids s ev ↔
      ∃ ix iy iz, InGrid nx ny nz ix iy iz ∧ Touches nx ny nz s ix iy iz ∧ ev = faceEmit nx ny dx dy dz (ids.bnd s) inds ix iy iz := by
  have hv : ∀ ix iy iz, InGrid nx ny nz ix iy iz →
      (inds.map fun k => gridNode nx ny (ix + k % 2) (iy + k / 2 % 2) (iz + k / 4)).map (coord nx ny dx dy dz) =
      inds.map fun k => (dx (ix + k % 2), dy (iy + k / 2 % 2), dz (iz + k / 4)) := by
    rintro ix iy iz ⟨h1, h2, h3⟩
    rw [List.map_map]
    apply List.map_congr_left
    intro k _
    exact coord_gridNode _ _ _ (by omega) (by omega)
  constructor
  · rintro ⟨ix, iy, iz, hg, ht, h1, h2, h3, h4⟩
    rw [sideNodes_hexCell _ _ _ _ _ _ _ _ h hi, Option.some.injEq] at h3
    refine ⟨ix, iy, iz, hg, ht, ?_⟩
    obtain ⟨d, t, n, v⟩ := ev
    simp only at h1 h2 h3 h4
    subst h1 h2 h3
    rw [hv _ _ _ hg] at h4
    subst h4; rfl
  · rintro ⟨ix, iy, iz, hg, ht, rfl⟩
    refine ⟨ix, iy, iz, hg, ht, rfl, rfl, sideNodes_hexCell _ _ _ _ _ _ _ _ h hi, ?_⟩
    exact (hv _ _ _ hg).symm

theorem pred_eq {a e : Nat} (h : a + 2 = e) : e - 1 = a + 1 := by omega

theorem mem_cubeZ {ev : Emit (K × K × K)} (hn : 2 ≤ nz) : ev ∈ cubeZ nx ny nz dx dy dz ids ↔
    IsFace nx ny nz dx dy dz ids 0 ev ∨ IsFace nx ny nz dx dy dz ids 1 ev := by
  obtain ⟨c0, c1, c2, c3, c4, c5⟩ := hex_sides_concrete
  rw [isFace_iff c0 (by decide), isFace_iff c1 (by decide)]
  simp only [cubeZ, List.mem_flatMap, List.mem_range, List.mem_cons, List.not_mem_nil, or_false]
  have e0 : ∀ ix iy, faceEmit nx ny dx dy dz (ids.bnd 0) [0, 1, 2, 3] ix iy 0 =
      ⟨ids.back, .quad, [nx * iy + ix, nx * iy + ix + 1, nx * (iy + 1) + ix, nx * (iy + 1) + ix + 1], [(dx ix, dy iy, dz 0), (dx (ix + 1), dy iy, dz 0), (dx ix, dy (iy + 1), dz 0), (dx (ix + 1), dy (iy + 1), dz 0)]⟩ := by
    intro ix iy
    simp only [faceEmit, List.map_cons, List.map_nil, gridNode, CubeIds.bnd, Emit.mk.injEq, List.cons.injEq, and_true]
    norm_num
    refine ⟨?_, ?_, ?_, ?_⟩ <;> ring
  have e1 : ∀ ix iy w, w + 2 = nz → faceEmit nx ny dx dy dz (ids.bnd 1) [4, 5, 6, 7] ix iy w =
      ⟨ids.front, .quad, [nx * iy + ix, nx * iy + ix + 1, nx * (iy + 1) + ix, nx * (iy + 1) + ix + 1].map (· + nx * ny * (nz - 1)), [(dx ix, dy iy, dz 0), (dx (ix + 1), dy iy, dz 0), (dx ix, dy (iy + 1), dz 0), (dx (ix + 1), dy (iy + 1), dz 0)].map fun v => (v.1, v.2.1, dz (nz - 1))⟩ := by
    intro ix iy w h
    have h' := pred_eq h
    simp only [faceEmit, List.map_cons, List.map_nil, gridNode, CubeIds.bnd, Emit.mk.injEq, List.cons.injEq, and_true, h']
    norm_num
    refine ⟨?_, ?_, ?_, ?_⟩ <;> ring
  constructor
  · rintro ⟨iy, ho, ix, hi, rfl | rfl⟩
    · exact .inl ⟨ix, iy, 0, ⟨by omega, by omega, by omega⟩, rfl, (e0 ix iy).symm⟩
    · exact .inr ⟨ix, iy, nz - 2, ⟨by omega, by omega, by omega⟩, by simp only [Touches]; omega, (e1 ix iy (nz - 2) (by omega)).symm⟩
  · rintro (⟨ix, iy, iz, ⟨hx, hy, hz⟩, ht, rfl⟩ | ⟨ix, iy, iz, ⟨hx, hy, hz⟩, ht, rfl⟩)
    · simp only [Touches] at ht
      subst ht
      exact ⟨iy, by omega, ix, by omega, .inl (e0 ix iy)⟩
    · simp only [Touches] at ht
      exact ⟨iy, by omega, ix, by omega, .inr (e1 ix iy _ ht)⟩

theorem mem_cubeY {ev : Emit (K × K × K)} (hn : 2 ≤ ny) : ev ∈ cubeY nx ny nz dx dy dz ids ↔
    IsFace nx ny nz dx dy dz ids 2 ev ∨ IsFace nx ny nz dx dy dz ids 3 ev := by
  obtain ⟨c0, c1, c2, c3, c4, c5⟩ := hex_sides_concrete
  rw [isFace_iff c2 (by decide), isFace_iff c3 (by decide)]
  simp only [cubeY, List.mem_flatMap, List.mem_range, List.mem_cons, List.not_mem_nil, or_false]
  have e0 : ∀ ix iz, faceEmit nx ny dx dy dz (ids.bnd 2) [0, 1, 4, 5] ix 0 iz =
      ⟨ids.bottom, .quad, [nx * ny * iz + ix, nx * ny * iz + ix + 1, nx * ny * (iz + 1) + ix, nx * ny * (iz + 1) + ix + 1], [(dx ix, dy 0, dz iz), (dx (ix + 1), dy 0, dz iz), (dx ix, dy 0, dz (iz + 1)), (dx (ix + 1), dy 0, dz (iz + 1))]⟩ := by
    intro ix iz
    simp only [faceEmit, List.map_cons, List.map_nil, gridNode, CubeIds.bnd, Emit.mk.injEq, List.cons.injEq, and_true]
    norm_num
    refine ⟨?_, ?_, ?_, ?_⟩ <;> ring
  have e1 : ∀ ix iz w, w + 2 = ny → faceEmit nx ny dx dy dz (ids.bnd 3) [2, 3, 6, 7] ix w iz =
      ⟨ids.top, .quad, [nx * ny * iz + ix, nx * ny * iz + ix + 1, nx * ny * (iz + 1) + ix, nx * ny * (iz + 1) + ix + 1].map (· + nx * (ny - 1)), [(dx ix, dy 0, dz iz), (dx (ix + 1), dy 0, dz iz), (dx ix, dy 0, dz (iz + 1)), (dx (ix + 1), dy 0, dz (iz + 1))].map fun v => (v.1, dy (ny - 1), v.2.2)⟩ := by
    intro ix iz w h
    have h' := pred_eq h
    simp only [faceEmit, List.map_cons, List.map_nil, gridNode, CubeIds.bnd, Emit.mk.injEq, List.cons.injEq, and_true, h']
    norm_num
    refine ⟨?_, ?_, ?_, ?_⟩ <;> ring
  constructor
  · rintro ⟨iz, ho, ix, hi, rfl | rfl⟩
    · exact .inl ⟨ix, 0, iz, ⟨by omega, by omega, by omega⟩, rfl, (e0 ix iz).symm⟩
    · exact .inr ⟨ix, ny - 2, iz, ⟨by omega, by omega, by omega⟩, by simp only [Touches]; omega, (e1 ix iz (ny - 2) (by omega)).symm⟩
  · rintro (⟨ix, iy, iz, ⟨hx, hy, hz⟩, ht, rfl⟩ | ⟨ix, iy, iz, ⟨hx, hy, hz⟩, ht, rfl⟩)
    · simp only [Touches] at ht
      subst ht
      exact ⟨iz, by omega, ix, by omega, .inl (e0 ix iz)⟩
    · simp only [Touches] at ht
      exact ⟨iz, by omega, ix, by omega, .inr (e1 ix iz _ ht)⟩

theorem mem_cubeX {ev : Emit (K × K × K)} (hn : 2 ≤ nx) : ev ∈ cubeX nx ny nz dx dy dz ids ↔
    IsFace nx ny nz dx dy dz ids 4 ev ∨ IsFace nx ny nz dx dy dz ids 5 ev := by
  obtain ⟨c0, c1, c2, c3, c4, c5⟩ := hex_sides_concrete
  rw [isFace_iff c4 (by decide), isFace_iff c5 (by decide)]
  simp only [cubeX, List.mem_flatMap, List.mem_range, List.mem_cons, List.not_mem_nil, or_false]
  have e0 : ∀ iy iz, faceEmit nx ny dx dy dz (ids.bnd 4) [0, 2, 4, 6] 0 iy iz =
      ⟨ids.left, .quad, [nx * ny * iz + nx * iy, nx * ny * iz + nx * (iy + 1), nx * ny * (iz + 1) + nx * iy, nx * ny * (iz + 1) + nx * (iy + 1)], [(dx 0, dy iy, dz iz), (dx 0, dy (iy + 1), dz iz), (dx 0, dy iy, dz (iz + 1)), (dx 0, dy (iy + 1), dz (iz + 1))]⟩ := by
    intro iy iz
    simp only [faceEmit, List.map_cons, List.map_nil, gridNode, CubeIds.bnd, Emit.mk.injEq, List.cons.injEq, and_true]
    norm_num
    refine ⟨?_, ?_, ?_, ?_⟩ <;> ring
  have e1 : ∀ iy iz w, w + 2 = nx → faceEmit nx ny dx dy dz (ids.bnd 5) [1, 3, 5, 7] w iy iz =
      ⟨ids.right, .quad, [nx * ny * iz + nx * iy, nx * ny * iz + nx * (iy + 1), nx * ny * (iz + 1) + nx * iy, nx * ny * (iz + 1) + nx * (iy + 1)].map (· + (nx - 1)), [(dx 0, dy iy, dz iz), (dx 0, dy (iy + 1), dz iz), (dx 0, dy iy, dz (iz + 1)), (dx 0, dy (iy + 1), dz (iz + 1))].map fun v => (dx (nx - 1), v.2.1, v.2.2)⟩ := by
    intro iy iz w h
    have h' := pred_eq h
    simp only [faceEmit, List.map_cons, List.map_nil, gridNode, CubeIds.bnd, Emit.mk.injEq, List.cons.injEq, and_true, h']
    norm_num
    refine ⟨?_, ?_, ?_, ?_⟩ <;> ring
  constructor
  · rintro ⟨iz, ho, iy, hi, rfl | rfl⟩
    · exact .inl ⟨0, iy, iz, ⟨by omega, by omega, by omega⟩, rfl, (e0 iy iz).symm⟩
    · exact .inr ⟨nx - 2, iy, iz, ⟨by omega, by omega, by omega⟩, by simp only [Touches]; omega, (e1 iy iz (nx - 2) (by omega)).symm⟩
  · rintro (⟨ix, iy, iz, ⟨hx, hy, hz⟩, ht, rfl⟩ | ⟨ix, iy, iz, ⟨hx, hy, hz⟩, ht, rfl⟩)
    · simp only [Touches] at ht
      subst ht
      exact ⟨iz, by omega, iy, by omega, .inl (e0 iy iz)⟩
    · simp only [Touches] at ht
      exact ⟨iz, by omega, iy, by omega, .inr (e1 iy iz _ ht)⟩


theorem mem_cubeEmits (hx : 2 ≤ nx) (hy : 2 ≤ ny) (hz : 2 ≤ nz) {ev : Emit (K × K × K)} : ev ∈ cubeEmits nx ny nz dx dy dz ids ↔
    ev ∈ cubeVol nx ny nz dx dy dz ids ∨ ∃ s < 6, IsFace nx ny nz dx dy dz ids s ev := by
  simp only [cubeEmits, List.mem_append, mem_cubeZ hz, mem_cubeY hy, mem_cubeX hx]
  constructor
  · rintro (((h | h | h) | h | h) | h | h)
    · exact .inl h
    · exact .inr ⟨0, by omega, h⟩
    · exact .inr ⟨1, by omega, h⟩
    · exact .inr ⟨2, by omega, h⟩
    · exact .inr ⟨3, by omega, h⟩
    · exact .inr ⟨4, by omega, h⟩
    · exact .inr ⟨5, by omega, h⟩
  · rintro (h | ⟨s, hs, h⟩)
    · exact .inl (.inl (.inl h))
    · interval_cases s <;> tauto

theorem bnd_mem (ids : CubeIds) {s : Nat} (hs : s < 6) : ids.bnd s ∈ ids.list := by
  interval_cases s <;> simp [CubeIds.bnd, CubeIds.list]

theorem bnd_ne (hd : ids.list.Nodup) {s : Nat} (hs : s < 6) : ids.bnd s ≠ ids.domain := by
  simp only [CubeIds.list, List.nodup_cons, List.mem_cons, List.not_mem_nil, or_false, not_or] at hd
  obtain ⟨⟨h1, h2, h3, h4, h5, h6⟩, -⟩ := hd
  interval_cases s <;> simp only [CubeIds.bnd, List.getD_cons_zero, List.getD_cons_succ] <;> tauto

theorem bnd_inj (hd : ids.list.Nodup) {s t : Nat} (hs : s < 6) (ht : t < 6) (h : ids.bnd s = ids.bnd t) : s = t := by
  have h1 : [ids.back, ids.front, ids.bottom, ids.top, ids.left, ids.right].Nodup := (List.nodup_cons.1 hd).2
  have e : ∀ s < 6, [ids.back, ids.front, ids.bottom, ids.top, ids.left, ids.right][s]? = some (ids.bnd s) := by
    intro s hs; interval_cases s <;> rfl
  have hs' := e s hs
  have ht' := e t ht
  rw [← h, ← hs'] at ht'
  exact (List.getElem?_inj (by simpa using hs) h1).1 ht'.symm

theorem goodEmits_cube (hx : 2 ≤ nx) (hy : 2 ≤ ny) (hz : 2 ≤ nz) (hd : ids.list.Nodup) :
    GoodEmits (cubeEmits nx ny nz dx dy dz ids) := by
  have key : ∀ ev ∈ cubeEmits nx ny nz dx dy dz ids, (ev.dom = ids.domain ∧ ev.ty = .hex) ∨ (ev.dom ≠ ids.domain ∧ ev.ty = .quad) := by
    intro ev h
    rcases (mem_cubeEmits hx hy hz).1 h with h | ⟨s, hs, h⟩
    · obtain ⟨_, _, _, _, h1, h2, _⟩ := mem_vol.1 h; exact .inl ⟨h1, h2⟩
    · obtain ⟨_, _, _, _, _, h1, h2, _⟩ := h; exact .inr ⟨h1 ▸ bnd_ne hd hs, h2⟩
  intro a ha b hb hab
  rcases key a ha with ⟨h1, h2⟩ | ⟨h1, h2⟩ <;> rcases key b hb with ⟨h3, h4⟩ | ⟨h3, h4⟩
  · rw [h2, h4]
  · exact absurd (hab ▸ h1) h3
  · exact absurd (hab ▸ h3) h1
  · rw [h2, h4]

theorem count_flatMap {α β : Type} {p : β → Bool} {f : α → List β} {c : Nat} (l : List α) (h : ∀ a ∈ l, (f a).countP p = c) :
    (l.flatMap f).countP p = l.length * c := by
  induction l with
  | nil => simp
  | cons a l ih =>
    rw [List.flatMap_cons, List.countP_append, h a (by simp), ih fun b hb => h b (by simp [hb]), List.length_cons]
    ring

theorem count_map {α β : Type} {p : β → Bool} {f : α → β} {b : Bool} (l : List α) (h : ∀ a, p (f a) = b) :
    (l.map f).countP p = l.length * (if b then 1 else 0) := by
  induction l with
  | nil => simp
  | cons a l ih =>
    rw [List.map_cons, List.countP_cons, ih, h a, List.length_cons]
    cases b <;> simp

theorem count_vol (p : Emit (K × K × K) → Bool) (b : Bool) (h : ∀ ev, ev.dom = ids.domain → p ev = b) :
    (cubeVol nx ny nz dx dy dz ids).countP p = (nx - 1) * (ny - 1) * (nz - 1) * (if b then 1 else 0) := by
  unfold cubeVol
  rw [count_flatMap (c := (ny - 1) * ((nx - 1) * (if b then 1 else 0)))]
  · rw [List.length_range]; ring
  · intro iz _
    rw [count_flatMap (c := (nx - 1) * (if b then 1 else 0))]
    · simp
    · intro iy _
      rw [count_map (b := b)]
      · simp
      · intro ix; exact h _ rfl

theorem count_pair (p : Emit (K × K × K) → Bool) (na nb lo hi : Nat) (E0 E1 : Nat → Nat → Emit (K × K × K)) (b0 b1 : Bool)
    (h0 : ∀ a b, p (E0 a b) = b0) (h1 : ∀ a b, p (E1 a b) = b1) :
    ((List.range na).flatMap fun a => (List.range nb).flatMap fun b => [E0 a b, E1 a b]).countP p =
      na * nb * ((if b0 then 1 else 0) + (if b1 then 1 else 0)) := by
  rw [count_flatMap (c := nb * ((if b0 then 1 else 0) + (if b1 then 1 else 0)))]
  · simp; ring
  · intro a _
    rw [count_flatMap (c := ((if b0 then 1 else 0) + (if b1 then 1 else 0)))]
    · simp
    · intro b _
      simp only [List.countP_cons, List.countP_nil, h0, h1]
      cases b0 <;> cases b1 <;> rfl

theorem length_cubeEmits : (cubeEmits nx ny nz dx dy dz ids).length =
    (nx - 1) * (ny - 1) * (nz - 1) + 2 * ((nx - 1) * (ny - 1) + (nx - 1) * (nz - 1) + (ny - 1) * (nz - 1)) := by
  have h : ∀ l : List (Emit (K × K × K)), l.length = l.countP fun _ => true := by intro l; simp
  rw [h]
  simp only [cubeEmits, List.countP_append]
  rw [count_vol _ true (fun _ _ => rfl)]
  unfold cubeZ cubeY cubeX
  simp only []
  rw [count_pair _ _ _ 0 0 _ _ true true (fun _ _ => rfl) (fun _ _ => rfl), count_pair _ _ _ 0 0 _ _ true true (fun _ _ => rfl) (fun _ _ => rfl),
    count_pair _ _ _ 0 0 _ _ true true (fun _ _ => rfl) (fun _ _ => rfl)]
  simp only [if_true]
  ring

/-- Number of cells next to outer side `s`. -/
def faceCount (nx ny nz s : Nat) : Nat :=
  if s < 2 then (nx - 1) * (ny - 1) else if s < 4 then (nx - 1) * (nz - 1) else (ny - 1) * (nz - 1)

theorem count_dom (hd : ids.list.Nodup) (k : Nat) : ((cubeEmits nx ny nz dx dy dz ids).filter fun e => e.dom == k).length =
    (nx - 1) * (ny - 1) * (nz - 1) * (if ids.domain = k then 1 else 0) +
    (nx - 1) * (ny - 1) * ((if ids.back = k then 1 else 0) + (if ids.front = k then 1 else 0)) +
    (nx - 1) * (nz - 1) * ((if ids.bottom = k then 1 else 0) + (if ids.top = k then 1 else 0)) +
    (ny - 1) * (nz - 1) * ((if ids.left = k then 1 else 0) + (if ids.right = k then 1 else 0)) := by
  rw [← List.countP_eq_length_filter]
  simp only [cubeEmits, List.countP_append]
  rw [count_vol _ (ids.domain == k) (fun _ h => by rw [h])]
  unfold cubeZ cubeY cubeX
  simp only []
  rw [count_pair _ _ _ 0 0 _ _ (ids.back == k) (ids.front == k) (fun _ _ => rfl) (fun _ _ => rfl),
    count_pair _ _ _ 0 0 _ _ (ids.bottom == k) (ids.top == k) (fun _ _ => rfl) (fun _ _ => rfl),
    count_pair _ _ _ 0 0 _ _ (ids.left == k) (ids.right == k) (fun _ _ => rfl) (fun _ _ => rfl)]
  simp only [beq_iff_eq]
  ring

/-- **C24** (cube, overall): generation succeeds; element ids are `0 … N-1` without repetition, stored in increasing order in
each vector; the nodes used are exactly `0 … nx·ny·nz - 1`, so the declared ownership has no ghosts. -/
theorem C24_cube (hx : 2 ≤ nx) (hy : 2 ≤ ny) (hz : 2 ≤ nz) (hd : ids.list.Nodup) :
    ∃ m, makeCube nx ny nz dx dy dz ids = some m ∧ KeysNodup m ∧
      ((visitAll m).map (·.id)).Perm (List.range ((nx - 1) * (ny - 1) * (nz - 1) +
        2 * ((nx - 1) * (ny - 1) + (nx - 1) * (nz - 1) + (ny - 1) * (nz - 1)))) ∧
      (∀ d ∈ m, ∀ v ∈ d.2.vecs, (v.map (·.id)).Pairwise (· < ·)) ∧
      (∀ N, NodeIn m N ↔ N < nx * ny * nz) ∧
      ownershipRange m 0 (nx * ny * nz) = some ⟨0, nx * ny * nz, []⟩ := by
  have hg := goodEmits_cube (dx := dx) (dy := dy) (dz := dz) hx hy hz hd
  obtain ⟨m, hm, hb⟩ := build_ok ids.list (number (cubeEmits nx ny nz dx dy dz ids)) (good_number hg)
  have hk := keysNodup_of_sorted hb.sorted
  have hcell : ∀ ix iy iz, InGrid nx ny nz ix iy iz → ∀ N ∈ cellNodes nx ny ix iy iz, N < nx * ny * nz := by
    rintro ix iy iz ⟨h1, h2, h3⟩ N hN
    obtain ⟨k, hk, rfl⟩ := List.mem_map.1 hN
    have := List.mem_range.1 hk
    exact gridNode_lt (by omega) (by omega) (by omega)
  have hnode : ∀ N, NodeIn m N ↔ N < nx * ny * nz := by
    intro N
    constructor
    · rintro ⟨e, he, hN⟩
      rw [holds_built (good_number hg) hb] at he
      obtain ⟨x, hx', rfl⟩ := List.mem_map.1 he
      obtain ⟨ev, i, hev, rfl⟩ := mem_number.1 hx'
      simp only at hN
      rcases (mem_cubeEmits hx hy hz).1 (List.mem_of_getElem? hev) with h | ⟨s, hs, h⟩
      · obtain ⟨ix, iy, iz, hgrid, _, _, hn, _⟩ := mem_vol.1 h
        exact hcell _ _ _ hgrid N (hn ▸ hN)
      · obtain ⟨ix, iy, iz, hgrid, _, _, _, hn, _⟩ := h
        obtain ⟨inds, _, _, hi, he⟩ := hex_side_nodes nx ny 0 ix iy iz s hs
        rw [he, Option.some.injEq] at hn
        rw [← hn] at hN
        obtain ⟨i, hi', rfl⟩ := List.mem_map.1 hN
        apply hcell _ _ _ hgrid
        have hl : i < (cellNodes nx ny ix iy iz).length := by simpa [cellNodes] using hi i hi'
        rw [List.getD_eq_getElem?_getD, List.getElem?_eq_getElem hl]
        exact List.getElem_mem _
    · intro hN
      obtain ⟨⟨x, y, z⟩, ⟨⟨h1, h2, h3⟩, he⟩, _⟩ := C24_grid_numbering nx ny nz N hN
      simp only at h1 h2 h3 he
      -- the cell with that corner, or the one before it on the upper boundary
      let ix := if x + 1 < nx then x else x - 1
      let iy := if y + 1 < ny then y else y - 1
      let iz := if z + 1 < nz then z else z - 1
      have bx : ix + 1 < nx ∧ (x = ix ∨ x = ix + 1) := by simp only [ix]; split <;> omega
      have by' : iy + 1 < ny ∧ (y = iy ∨ y = iy + 1) := by simp only [iy]; split <;> omega
      have bz : iz + 1 < nz ∧ (z = iz ∨ z = iz + 1) := by simp only [iz]; split <;> omega
      generalize ix = ix at *
      generalize iy = iy at *
      generalize iz = iz at *
      have hmem : N ∈ cellNodes nx ny ix iy iz := by
        refine List.mem_map.2 ⟨(x - ix) + 2 * (y - iy) + 4 * (z - iz), List.mem_range.2 (by omega), ?_⟩
        rw [← he]
        congr 1 <;> omega
      have hv : (⟨ids.domain, .hex, cellNodes nx ny ix iy iz, (cellNodes nx ny ix iy iz).map (coord nx ny dx dy dz)⟩ : Emit _) ∈
          cubeVol nx ny nz dx dy dz ids := mem_vol.2 ⟨ix, iy, iz, ⟨bx.1, by'.1, bz.1⟩, rfl, rfl, rfl, rfl⟩
      obtain ⟨e, he1, _, _, hn⟩ := exists_sel_of_emit ((mem_cubeEmits hx hy hz).2 (.inl hv))
      refine ⟨e, (holds_built (good_number hg) hb).2 (List.mem_map.2 ⟨_, mem_sel.1 he1, rfl⟩), ?_⟩
      rw [hn]; exact hmem
  refine ⟨m, hm, hk, ?_, built_sorted hb, hnode, ?_⟩
  · rw [← length_cubeEmits]
    exact built_ids hg hb
  · obtain ⟨o, ho, h1, h2, h3⟩ := C22_explicit_range m hk 0 (nx * ny * nz)
    have hs : o.shared = [] := by
      rw [List.eq_nil_iff_forall_not_mem]
      intro x hx'
      have := (h3 x).1 hx'
      rw [hnode] at this
      omega
    rw [ho]
    unfold ownershipRange Own.SegOwn.make at ho
    split at ho
    · simp at ho
    · simp only [Option.some.injEq] at ho
      rw [← ho] at hs ⊢
      simp only at hs
      rw [hs]

/-- **C24** (cube, interior): the volume domain consists of exactly the cells of the grid, each once. -/
theorem C24_cube_volume (hx : 2 ≤ nx) (hy : 2 ≤ ny) (hz : 2 ≤ nz) (hd : ids.list.Nodup) {m : DomMap}
    (hm : makeCube nx ny nz dx dy dz ids = some m) :
    ∃ d, m.lookup ids.domain = some d ∧ d.dim = some 3 ∧ d.elems.length = (nx - 1) * (ny - 1) * (nz - 1) ∧
      (∀ e ∈ d.elems, ∃ ix iy iz, InGrid nx ny nz ix iy iz ∧ e = hexCell nx ny e.id ix iy iz) ∧
      (∀ ix iy iz, InGrid nx ny nz ix iy iz → ∃ e ∈ d.elems, e = hexCell nx ny e.id ix iy iz) := by
  have hg := goodEmits_cube (dx := dx) (dy := dy) (dz := dz) hx hy hz hd
  obtain ⟨m', hm', hb⟩ := build_ok ids.list (number (cubeEmits nx ny nz dx dy dz ids)) (good_number hg)
  have : m' = m := by
    have := hm'.symm.trans hm
    simpa using this
  subst this
  obtain ⟨d, h1, h2, h3⟩ := built_domain hg hb (k := ids.domain) (by simp [CubeIds.list])
  have hex : ∀ ix iy iz, InGrid nx ny nz ix iy iz → ∃ e ∈ d.elems, e = hexCell nx ny e.id ix iy iz := by
    intro ix iy iz hgrid
    have hv : (⟨ids.domain, .hex, cellNodes nx ny ix iy iz, (cellNodes nx ny ix iy iz).map (coord nx ny dx dy dz)⟩ : Emit _) ∈
        cubeVol nx ny nz dx dy dz ids := mem_vol.2 ⟨ix, iy, iz, hgrid, rfl, rfl, rfl, rfl⟩
    obtain ⟨e, he, a, b, c⟩ := exists_sel_of_emit ((mem_cubeEmits hx hy hz).2 (.inl hv))
    refine ⟨e, h2 ▸ he, ?_⟩
    obtain ⟨t, n, i, nd⟩ := e
    simp only at a b c
    subst a b c
    rfl
  have hall : ∀ e ∈ d.elems, ∃ ix iy iz, InGrid nx ny nz ix iy iz ∧ e = hexCell nx ny e.id ix iy iz := by
    intro e he
    rw [h2] at he
    obtain ⟨ev, hev, hdom, a, b, c⟩ := emit_of_sel he
    rcases (mem_cubeEmits hx hy hz).1 hev with h | ⟨s, hs, h⟩
    · obtain ⟨ix, iy, iz, hgrid, _, h2, h3, _⟩ := mem_vol.1 h
      refine ⟨ix, iy, iz, hgrid, ?_⟩
      obtain ⟨t, n, i, nd⟩ := e
      simp only at a b c
      rw [h2] at a; rw [h3] at c
      subst a b c
      rfl
    · obtain ⟨_, _, _, _, _, h1, _⟩ := h
      exact absurd (h1.symm.trans hdom) (bnd_ne hd hs)
  refine ⟨d, h1, ?_, ?_, hall, hex⟩
  · obtain ⟨e, he, hee⟩ := hex 0 0 0 ⟨by omega, by omega, by omega⟩
    cases hh : sel ids.domain (number (cubeEmits nx ny nz dx dy dz ids)) with
    | nil => rw [h2, hh] at he; simp at he
    | cons e' l =>
      rw [h3, hh]
      obtain ⟨_, _, _, _, heq⟩ := hall e' (by rw [h2, hh]; simp)
      rw [heq]; rfl
  · rw [h2, length_sel_number, count_dom hd]
    have hn := hd
    simp only [CubeIds.list, List.nodup_cons, List.mem_cons, List.not_mem_nil, or_false, not_or] at hn
    obtain ⟨⟨a1, a2, a3, a4, a5, a6⟩, -⟩ := hn
    simp [Ne.symm a1, Ne.symm a2, Ne.symm a3, Ne.symm a4, Ne.symm a5, Ne.symm a6]

/-- **C24** (cube, boundaries): boundary `s` (numbered as the element sides) consists of exactly the sides `s` of
the cells touching that side of the cube, node for node in the same order, each once. -/
theorem C24_cube_boundary (hx : 2 ≤ nx) (hy : 2 ≤ ny) (hz : 2 ≤ nz) (hd : ids.list.Nodup) {m : DomMap}
    (hm : makeCube nx ny nz dx dy dz ids = some m) (s : Nat) (hs : s < 6) :
    ∃ d, m.lookup (ids.bnd s) = some d ∧ d.dim = some 2 ∧ d.elems.length = faceCount nx ny nz s ∧
      (∀ b ∈ d.elems, b.ty = .quad ∧ b.n = 2 ∧ ∃ ix iy iz, InGrid nx ny nz ix iy iz ∧ Touches nx ny nz s ix iy iz ∧
        sideNodes (hexCell nx ny 0 ix iy iz) s = some b.nodes) ∧
      (∀ ix iy iz, InGrid nx ny nz ix iy iz → Touches nx ny nz s ix iy iz →
        ∃ b ∈ d.elems, sideNodes (hexCell nx ny 0 ix iy iz) s = some b.nodes) := by
  have hg := goodEmits_cube (dx := dx) (dy := dy) (dz := dz) hx hy hz hd
  obtain ⟨m', hm', hb⟩ := build_ok ids.list (number (cubeEmits nx ny nz dx dy dz ids)) (good_number hg)
  have : m' = m := by
    have := hm'.symm.trans hm
    simpa using this
  subst this
  obtain ⟨d, h1, h2, h3⟩ := built_domain hg hb (k := ids.bnd s) (bnd_mem ids hs)
  have hall : ∀ b ∈ d.elems, b.ty = .quad ∧ b.n = 2 ∧ ∃ ix iy iz, InGrid nx ny nz ix iy iz ∧ Touches nx ny nz s ix iy iz ∧
        sideNodes (hexCell nx ny 0 ix iy iz) s = some b.nodes := by
    intro e he
    rw [h2] at he
    obtain ⟨ev, hev, hdom, a, b, c⟩ := emit_of_sel he
    rcases (mem_cubeEmits hx hy hz).1 hev with h | ⟨t, ht, h⟩
    · obtain ⟨_, _, _, _, h1, _⟩ := mem_vol.1 h
      exact absurd (hdom.symm.trans h1) (bnd_ne hd hs)
    · obtain ⟨ix, iy, iz, hgrid, htouch, k1, k2, k3, _⟩ := h
      have : t = s := bnd_inj hd ht hs (k1.symm.trans hdom)
      subst this
      exact ⟨a.trans k2, b, ix, iy, iz, hgrid, htouch, c ▸ k3⟩
  have hex : ∀ ix iy iz, InGrid nx ny nz ix iy iz → Touches nx ny nz s ix iy iz →
        ∃ b ∈ d.elems, sideNodes (hexCell nx ny 0 ix iy iz) s = some b.nodes := by
    intro ix iy iz hgrid ht
    obtain ⟨inds, c1, _, hi, _⟩ := hex_side_nodes nx ny 0 ix iy iz s hs
    have hf := (isFace_iff (dx := dx) (dy := dy) (dz := dz) (ids := ids) c1 hi).2 ⟨ix, iy, iz, hgrid, ht, rfl⟩
    obtain ⟨e, he, a, b, c⟩ := exists_sel_of_emit ((mem_cubeEmits hx hy hz).2 (.inr ⟨s, hs, hf⟩))
    refine ⟨e, h2 ▸ he, ?_⟩
    rw [c, sideNodes_hexCell _ _ _ _ _ _ _ _ c1 hi]
    rfl
  have hcell : ∃ ix iy iz, InGrid nx ny nz ix iy iz ∧ Touches nx ny nz s ix iy iz := by
    interval_cases s
    · exact ⟨0, 0, 0, ⟨by omega, by omega, by omega⟩, rfl⟩
    · exact ⟨0, 0, nz - 2, ⟨by omega, by omega, by omega⟩, by simp only [Touches]; omega⟩
    · exact ⟨0, 0, 0, ⟨by omega, by omega, by omega⟩, rfl⟩
    · exact ⟨0, ny - 2, 0, ⟨by omega, by omega, by omega⟩, by simp only [Touches]; omega⟩
    · exact ⟨0, 0, 0, ⟨by omega, by omega, by omega⟩, rfl⟩
    · exact ⟨nx - 2, 0, 0, ⟨by omega, by omega, by omega⟩, by simp only [Touches]; omega⟩
  refine ⟨d, h1, ?_, ?_, hall, hex⟩
  · obtain ⟨ix, iy, iz, hgrid, ht⟩ := hcell
    obtain ⟨e, he, hee⟩ := hex ix iy iz hgrid ht
    cases hh : sel (ids.bnd s) (number (cubeEmits nx ny nz dx dy dz ids)) with
    | nil => rw [h2, hh] at he; simp at he
    | cons e' l =>
      rw [h3, hh]
      obtain ⟨hty, _⟩ := hall e' (by rw [h2, hh]; simp)
      simp [hty, ElType.dim]
  · rw [h2, length_sel_number, count_dom hd]
    have hn := hd
    simp only [CubeIds.list, List.nodup_cons, List.mem_cons, List.not_mem_nil, or_false, not_or] at hn
    obtain ⟨⟨a1, a2, a3, a4, a5, a6⟩, ⟨b1, b2, b3, b4, b5⟩, ⟨c1, c2, c3, c4⟩, ⟨d1, d2, d3⟩, ⟨e1, e2⟩, f1, -⟩ := hn
    interval_cases s <;> simp [CubeIds.bnd, faceCount, *, Ne.symm, eq_comm] <;> simp [*, eq_comm]

/-- **C24** (cube): interpolation vertices sit on the mesh nodes they belong to. -/
theorem C24_cube_vertices (hx : 2 ≤ nx) (hy : 2 ≤ ny) (hz : 2 ≤ nz) :
    ∀ ev ∈ cubeEmits nx ny nz dx dy dz ids, ev.verts = ev.nodes.map (coord nx ny dx dy dz) := by
  intro ev hev
  rcases (mem_cubeEmits hx hy hz).1 hev with h | ⟨s, hs, h⟩
  · obtain ⟨_, _, _, _, _, _, h1, h2⟩ := mem_vol.1 h; rw [h1, h2]
  · obtain ⟨_, _, _, _, _, _, _, _, h⟩ := h; exact h

/-- **C24** (cube): cells adjacent in a direction list the same nodes, in the same order, on their common side. -/
theorem C24_cube_conforming (nx ny i j ix iy iz : Nat) :
    sideNodes (hexCell nx ny i ix iy iz) 1 = sideNodes (hexCell nx ny j ix iy (iz + 1)) 0 ∧
    sideNodes (hexCell nx ny i ix iy iz) 3 = sideNodes (hexCell nx ny j ix (iy + 1) iz) 2 ∧
    sideNodes (hexCell nx ny i ix iy iz) 5 = sideNodes (hexCell nx ny j (ix + 1) iy iz) 4 := by
  obtain ⟨c0, c1, c2, c3, c4, c5⟩ := hex_sides_concrete
  rw [sideNodes_hexCell _ _ _ _ _ _ _ _ c0 (by decide), sideNodes_hexCell _ _ _ _ _ _ _ _ c1 (by decide),
    sideNodes_hexCell _ _ _ _ _ _ _ _ c2 (by decide), sideNodes_hexCell _ _ _ _ _ _ _ _ c3 (by decide),
    sideNodes_hexCell _ _ _ _ _ _ _ _ c4 (by decide), sideNodes_hexCell _ _ _ _ _ _ _ _ c5 (by decide)]
  exact ⟨rfl, rfl, rfl⟩

/-- **C24** (cube): the boundary views of the generated mesh can be built, in any visiting order. -/
theorem C24_cube_views (hx : 2 ≤ nx) (hy : 2 ≤ ny) (hz : 2 ≤ nz) (hd : ids.list.Nodup) {m : DomMap}
    (hm : makeCube nx ny nz dx dy dz ids = some m) (s : Nat) (hs : s < 6)
    (order : List Element → List Element) (hord : ∀ l, (order l).Perm l) :
    ∃ views, boundaryViews m (ids.bnd s) order = some views ∧ views.length = faceCount nx ny nz s := by
  obtain ⟨m', hm', hk, -⟩ := C24_cube (dx := dx) (dy := dy) (dz := dz) hx hy hz hd
  have : m' = m := by
    have := hm'.symm.trans hm
    simpa using this
  subst this
  obtain ⟨d, h1, hdim, hlen, hall, hex⟩ := C24_cube_boundary hx hy hz hd hm s hs
  obtain ⟨dv, v1, vdim, _, _, vex⟩ := C24_cube_volume hx hy hz hd hm
  have hne : d.elems ≠ [] := by
    intro h
    rw [h] at hlen
    have p1 : 0 < nx - 1 := by omega
    have p2 : 0 < ny - 1 := by omega
    have p3 : 0 < nz - 1 := by omega
    have := Nat.mul_pos p1 p2
    have := Nat.mul_pos p1 p3
    have := Nat.mul_pos p2 p3
    simp only [List.length_nil, faceCount] at hlen
    split at hlen
    · omega
    · split at hlen <;> omega
  have hC := C23_boundary_views m' hk (ids.bnd s) d h1 (fun b hb => by rw [(hall b hb).1, hdim]; rfl) hne order hord
  cases hv : boundaryViews m' (ids.bnd s) order with
  | none =>
    exfalso
    obtain ⟨b, hb, hno⟩ := hC.2.1 hv
    obtain ⟨hty, _, ix, iy, iz, hgrid, _, hn⟩ := hall b hb
    obtain ⟨e, he, hee⟩ := vex ix iy iz hgrid
    apply hno
    have hsides : sideNodes e s = some b.nodes := by
      rw [hee, ← hn]; rfl
    rw [Domain.elems, List.mem_flatten] at he
    refine ⟨e, s, ⟨(ids.domain, dv), mem_of_lookup v1, by rw [hty, vdim]; rfl, he⟩, _, hsides, List.Perm.refl _⟩
  | some views => exact ⟨views, rfl, by rw [(hC.1 views hv).2, hlen]⟩

example : (⟨0, 1, 2, 3, 4, 5, 6⟩ : CubeIds).list.Nodup := by decide
example : (makeCube (K := Nat) 2 3 2 id id id ⟨0, 1, 2, 3, 4, 5, 6⟩).map (fun m => (visitAll m).length) = some 12 := by decide +kernel

end Cube
end Verif.Prim
