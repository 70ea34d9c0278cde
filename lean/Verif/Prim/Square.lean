import Verif.Prim.Props

/-! # Property C24: square and line meshes -/
namespace Verif.Prim
open Verif Verif.Elem Verif.Mesh Verif.Tensor


theorem ownership_exact {m : DomMap} (hk : KeysNodup m) {c : Nat} (hnode : ∀ N, NodeIn m N ↔ N < c) :
    ownershipRange m 0 c = some ⟨0, c, []⟩ := by
  obtain ⟨o, ho, h1, h2, h3⟩ := C22_explicit_range m hk 0 c
  have hs : o.shared = [] := by
    rw [List.eq_nil_iff_forall_not_mem]
    intro x hx'
    have := (h3 x).1 hx'
    rw [hnode] at this
    omega
  rw [ho]
  unfold ownershipRange Own.SegOwn.make at ho
  split at ho
  · simp at ho
  · simp only [Option.some.injEq] at ho
    rw [← ho] at hs ⊢
    simp only at hs
    rw [hs]

section Square
variable {K : Type} [Zero K] {nx ny : Nat} {dx dy : Nat → K} {ids : SquareIds}

def SquareIds.bnd (i : SquareIds) (s : Nat) : Nat := [i.bottom, i.top, i.left, i.right].getD s 0

def InGrid2 (nx ny ix iy : Nat) : Prop := ix + 1 < nx ∧ iy + 1 < ny

def Touches2 (nx ny s ix iy : Nat) : Prop :=
  match s with
  | 0 => iy = 0 | 1 => iy + 2 = ny | 2 => ix = 0 | _ => ix + 2 = nx

/-- Nodes of a cell of the plane grid, in tensor order. -/
def cell2 (nx ny ix iy : Nat) : List Nat := (List.range 4).map fun k => gridNode nx ny (ix + k % 2) (iy + k / 2) 0

def quadCell (nx ny id ix iy : Nat) : Element := ⟨.quad, 2, id, cell2 nx ny ix iy⟩

theorem cell2_eq (nx ny ix iy : Nat) : cell2 nx ny ix iy =
     [nx * iy + ix, nx * iy + ix + 1, nx * (iy + 1) + ix, nx * (iy + 1) + ix + 1] := by
  have : List.range 4 = [0, 1, 2, 3] := rfl
  unfold cell2 gridNode
  rw [this]
  simp only [List.map_cons, List.map_nil, List.cons.injEq, and_true]
  refine ⟨?_, ?_, ?_, ?_⟩ <;> norm_num <;> ring

theorem quad_side_nodes (s : Nat) (hs : s < 4) : ∃ inds, sideNodeInds .quad 2 s = some inds ∧ inds.length = 2 ∧ ∀ i ∈ inds, i < 4 := by
  interval_cases s
  all_goals exact ⟨_, by rfl, by decide, by decide⟩

abbrev coord2 (nx ny : Nat) (dx dy : Nat → K) : Nat → K × K × K := coord nx ny dx dy (fun _ => 0)

theorem mem_area {ev : Emit (K × K × K)} : ev ∈ squareArea nx ny dx dy ids ↔
    ∃ ix iy, InGrid2 nx ny ix iy ∧ ev.dom = ids.domain ∧ ev.ty = .quad ∧ ev.nodes = cell2 nx ny ix iy ∧
      ev.verts = (cell2 nx ny ix iy).map (coord2 nx ny dx dy) := by
  simp only [squareArea, List.mem_flatMap, List.mem_map, List.mem_range]
  have hv : ∀ ix iy, InGrid2 nx ny ix iy → (cell2 nx ny ix iy).map (coord2 nx ny dx dy) =
     [(dx ix, dy iy, 0), (dx (ix + 1), dy iy, 0), (dx ix, dy (iy + 1), 0), (dx (ix + 1), dy (iy + 1), 0)] := by
    rintro ix iy ⟨h1, h2⟩
    have : List.range 4 = [0, 1, 2, 3] := rfl
    unfold cell2
    rw [this]
    simp only [List.map_cons, List.map_nil]
    norm_num
    refine ⟨?_, ?_, ?_, ?_⟩ <;> exact coord_gridNode _ _ _ (by omega) (by omega)
  constructor
  · rintro ⟨iy, hy, ix, hx, rfl⟩
    have hg : InGrid2 nx ny ix iy := ⟨by omega, by omega⟩
    exact ⟨ix, iy, hg, rfl, rfl, (cell2_eq nx ny ix iy).symm, (hv _ _ hg).symm⟩
  · rintro ⟨ix, iy, hg, h1, h2, h3, h4⟩
    rw [cell2_eq] at h3
    rw [hv _ _ hg] at h4
    obtain ⟨d, t, n, v⟩ := ev
    simp only at h1 h2 h3 h4
    subst h1 h2 h3 h4
    exact ⟨iy, by have := hg.2; omega, ix, by have := hg.1; omega, rfl⟩

/-- Edge emissions of boundary `s`. -/
def IsEdge (nx ny : Nat) (dx dy : Nat → K) (ids : SquareIds) (s : Nat) (ev : Emit (K × K × K)) : Prop :=
  ∃ ix iy, InGrid2 nx ny ix iy ∧ Touches2 nx ny s ix iy ∧ ev.dom = ids.bnd s ∧ ev.ty = .line ∧
    sideNodes (quadCell nx ny 0 ix iy) s = some ev.nodes ∧ ev.verts = ev.nodes.map (coord2 nx ny dx dy)

theorem quad_sides_concrete : sideNodeInds .quad 2 0 = some [0, 1] ∧ sideNodeInds .quad 2 1 = some [2, 3] ∧
    sideNodeInds .quad 2 2 = some [0, 2] ∧ sideNodeInds .quad 2 3 = some [1, 3] := by decide

theorem sideNodes_quadCell (nx ny id ix iy s : Nat) (inds : List Nat) (h : sideNodeInds .quad 2 s = some inds)
    (hi : ∀ i ∈ inds, i < 4) :
    sideNodes (quadCell nx ny id ix iy) s = some (inds.map fun k => gridNode nx ny (ix + k % 2) (iy + k / 2) 0) := by
  simp only [sideNodes, quadCell, h, Option.map_some, Option.some.injEq]
  apply List.map_congr_left
  intro i hi'
  have := hi i hi'
  rw [cell2, List.getD_eq_getElem?_getD, List.getElem?_map, List.getElem?_range this]
  rfl

def edgeEmit (nx ny : Nat) (dx dy : Nat → K) (bnd : Nat) (inds : List Nat) (ix iy : Nat) : Emit (K × K × K) :=
  ⟨bnd, .line, inds.map fun k => gridNode nx ny (ix + k % 2) (iy + k / 2) 0,
   inds.map fun k => (dx (ix + k % 2), dy (iy + k / 2), 0)⟩

theorem isEdge_iff {s : Nat} {inds : List Nat} (h : sideNodeInds .quad 2 s = some inds) (hi : ∀ i ∈ inds, i < 4)
    {ev : Emit (K × K × K)} : IsEdge nx ny dx dy ids s ev ↔
      ∃ ix iy, InGrid2 nx ny ix iy ∧ Touches2 nx ny s ix iy ∧ ev = edgeEmit nx ny dx dy (ids.bnd s) inds ix iy := by
  have hv : ∀ ix iy, InGrid2 nx ny ix iy →
      (inds.map fun k => gridNode nx ny (ix + k % 2) (iy + k / 2) 0).map (coord2 nx ny dx dy) =
      inds.map fun k => (dx (ix + k % 2), dy (iy + k / 2), 0) := by
    rintro ix iy ⟨h1, h2⟩
    rw [List.map_map]
    apply List.map_congr_left
    intro k hk
    have hk4 := hi k hk
    have a1 : ix + k % 2 < nx := by omega
    have a2 : iy + k / 2 < ny := by omega
    exact coord_gridNode dx dy (fun _ => 0) a1 a2
  constructor
  · rintro ⟨ix, iy, hg, ht, h1, h2, h3, h4⟩
    rw [sideNodes_quadCell _ _ _ _ _ _ _ h hi, Option.some.injEq] at h3
    refine ⟨ix, iy, hg, ht, ?_⟩
    obtain ⟨d, t, n, v⟩ := ev
    simp only at h1 h2 h3 h4
    subst h1 h2 h3
    rw [hv _ _ hg] at h4
    subst h4; rfl
  · rintro ⟨ix, iy, hg, ht, rfl⟩
    refine ⟨ix, iy, hg, ht, rfl, rfl, sideNodes_quadCell _ _ _ _ _ _ _ h hi, ?_⟩
    exact (hv _ _ hg).symm

theorem mem_squareY {ev : Emit (K × K × K)} (hn : 2 ≤ ny) : ev ∈ squareY nx ny dx dy ids ↔
    IsEdge nx ny dx dy ids 0 ev ∨ IsEdge nx ny dx dy ids 1 ev := by
  obtain ⟨c0, c1, c2, c3⟩ := quad_sides_concrete
  rw [isEdge_iff c0 (by decide), isEdge_iff c1 (by decide)]
  simp only [squareY, List.mem_flatMap, List.mem_range, List.mem_cons, List.not_mem_nil, or_false]
  have e0 : ∀ ix, edgeEmit nx ny dx dy (ids.bnd 0) [0, 1] ix 0 =
      ⟨ids.bottom, .line, [ix, ix + 1], [(dx ix, dy 0, (0 : K)), (dx (ix + 1), dy 0, 0)]⟩ := by
    intro ix
    simp only [edgeEmit, List.map_cons, List.map_nil, gridNode, SquareIds.bnd, Emit.mk.injEq, List.cons.injEq, and_true]
    norm_num
    try (refine ⟨?_, ?_⟩ <;> ring)
  have e1 : ∀ ix w, w + 2 = ny → edgeEmit nx ny dx dy (ids.bnd 1) [2, 3] ix w =
      ⟨ids.top, .line, [ix, ix + 1].map (· + nx * (ny - 1)), [(dx ix, dy 0, (0 : K)), (dx (ix + 1), dy 0, 0)].map fun v => (v.1, dy (ny - 1), 0)⟩ := by
    intro ix w h
    have h' := pred_eq h
    simp only [edgeEmit, List.map_cons, List.map_nil, gridNode, SquareIds.bnd, Emit.mk.injEq, List.cons.injEq, and_true, h']
    norm_num
    try (refine ⟨?_, ?_⟩ <;> ring)
    try ring
  constructor
  · rintro ⟨ix, hi, rfl | rfl⟩
    · exact .inl ⟨ix, 0, ⟨by omega, by omega⟩, rfl, (e0 ix).symm⟩
    · exact .inr ⟨ix, ny - 2, ⟨by omega, by omega⟩, by simp only [Touches2]; omega, (e1 ix (ny - 2) (by omega)).symm⟩
  · rintro (⟨ix, iy, ⟨hx, hy⟩, ht, rfl⟩ | ⟨ix, iy, ⟨hx, hy⟩, ht, rfl⟩)
    · simp only [Touches2] at ht
      subst ht
      exact ⟨ix, by omega, .inl (e0 ix)⟩
    · simp only [Touches2] at ht
      exact ⟨ix, by omega, .inr (e1 ix _ ht)⟩

theorem mem_squareX {ev : Emit (K × K × K)} (hn : 2 ≤ nx) : ev ∈ squareX nx ny dx dy ids ↔
    IsEdge nx ny dx dy ids 2 ev ∨ IsEdge nx ny dx dy ids 3 ev := by
  obtain ⟨c0, c1, c2, c3⟩ := quad_sides_concrete
  rw [isEdge_iff c2 (by decide), isEdge_iff c3 (by decide)]
  simp only [squareX, List.mem_flatMap, List.mem_range, List.mem_cons, List.not_mem_nil, or_false]
  have e0 : ∀ iy, edgeEmit nx ny dx dy (ids.bnd 2) [0, 2] 0 iy =
      ⟨ids.left, .line, [iy * nx, (iy + 1) * nx], [(dx 0, dy iy, (0 : K)), (dx 0, dy (iy + 1), 0)]⟩ := by
    intro iy
    simp only [edgeEmit, List.map_cons, List.map_nil, gridNode, SquareIds.bnd, Emit.mk.injEq, List.cons.injEq, and_true]
    norm_num
    try (refine ⟨?_, ?_⟩ <;> ring)
  have e1 : ∀ iy w, w + 2 = nx → edgeEmit nx ny dx dy (ids.bnd 3) [1, 3] w iy =
      ⟨ids.right, .line, [iy * nx, (iy + 1) * nx].map (· + (nx - 1)), [(dx 0, dy iy, (0 : K)), (dx 0, dy (iy + 1), 0)].map fun v => (dx (nx - 1), v.2.1, 0)⟩ := by
    intro iy w h
    have h' := pred_eq h
    simp only [edgeEmit, List.map_cons, List.map_nil, gridNode, SquareIds.bnd, Emit.mk.injEq, List.cons.injEq, and_true, h']
    norm_num
    try (refine ⟨?_, ?_⟩ <;> ring)
    try ring
  constructor
  · rintro ⟨iy, hi, rfl | rfl⟩
    · exact .inl ⟨0, iy, ⟨by omega, by omega⟩, rfl, (e0 iy).symm⟩
    · exact .inr ⟨nx - 2, iy, ⟨by omega, by omega⟩, by simp only [Touches2]; omega, (e1 iy (nx - 2) (by omega)).symm⟩
  · rintro (⟨ix, iy, ⟨hx, hy⟩, ht, rfl⟩ | ⟨ix, iy, ⟨hx, hy⟩, ht, rfl⟩)
    · simp only [Touches2] at ht
      subst ht
      exact ⟨iy, by omega, .inl (e0 iy)⟩
    · simp only [Touches2] at ht
      exact ⟨iy, by omega, .inr (e1 iy _ ht)⟩


theorem mem_squareEmits (hx : 2 ≤ nx) (hy : 2 ≤ ny) {ev : Emit (K × K × K)} : ev ∈ squareEmits nx ny dx dy ids ↔
    ev ∈ squareArea nx ny dx dy ids ∨ ∃ s < 4, IsEdge nx ny dx dy ids s ev := by
  simp only [squareEmits, List.mem_append, mem_squareY hy, mem_squareX hx]
  constructor
  · rintro ((h | h | h) | h | h)
    · exact .inl h
    · exact .inr ⟨0, by omega, h⟩
    · exact .inr ⟨1, by omega, h⟩
    · exact .inr ⟨2, by omega, h⟩
    · exact .inr ⟨3, by omega, h⟩
  · rintro (h | ⟨s, hs, h⟩)
    · exact .inl (.inl h)
    · interval_cases s <;> tauto

theorem sq_bnd_mem (ids : SquareIds) {s : Nat} (hs : s < 4) : ids.bnd s ∈ ids.list := by
  interval_cases s <;> simp [SquareIds.bnd, SquareIds.list]

theorem sq_bnd_ne (hd : ids.list.Nodup) {s : Nat} (hs : s < 4) : ids.bnd s ≠ ids.domain := by
  simp only [SquareIds.list, List.nodup_cons, List.mem_cons, List.not_mem_nil, or_false, not_or] at hd
  obtain ⟨⟨h1, h2, h3, h4⟩, -⟩ := hd
  interval_cases s <;> simp only [SquareIds.bnd, List.getD_cons_zero, List.getD_cons_succ] <;> tauto

theorem sq_bnd_inj (hd : ids.list.Nodup) {s t : Nat} (hs : s < 4) (ht : t < 4) (h : ids.bnd s = ids.bnd t) : s = t := by
  have h1 : [ids.bottom, ids.top, ids.left, ids.right].Nodup := (List.nodup_cons.1 hd).2
  have e : ∀ s < 4, [ids.bottom, ids.top, ids.left, ids.right][s]? = some (ids.bnd s) := by
    intro s hs; interval_cases s <;> rfl
  have hs' := e s hs
  have ht' := e t ht
  rw [← h, ← hs'] at ht'
  exact (List.getElem?_inj (by simpa using hs) h1).1 ht'.symm

theorem goodEmits_square (hx : 2 ≤ nx) (hy : 2 ≤ ny) (hd : ids.list.Nodup) : GoodEmits (squareEmits nx ny dx dy ids) := by
  have key : ∀ ev ∈ squareEmits nx ny dx dy ids, (ev.dom = ids.domain ∧ ev.ty = .quad) ∨ (ev.dom ≠ ids.domain ∧ ev.ty = .line) := by
    intro ev h
    rcases (mem_squareEmits hx hy).1 h with h | ⟨s, hs, h⟩
    · obtain ⟨_, _, _, h1, h2, _⟩ := mem_area.1 h; exact .inl ⟨h1, h2⟩
    · obtain ⟨_, _, _, _, h1, h2, _⟩ := h; exact .inr ⟨h1 ▸ sq_bnd_ne hd hs, h2⟩
  intro a ha b hb hab
  rcases key a ha with ⟨h1, h2⟩ | ⟨h1, h2⟩ <;> rcases key b hb with ⟨h3, h4⟩ | ⟨h3, h4⟩
  · rw [h2, h4]
  · exact absurd (hab ▸ h1) h3
  · exact absurd (hab ▸ h3) h1
  · rw [h2, h4]

theorem count_area (p : Emit (K × K × K) → Bool) (b : Bool) (h : ∀ ev, ev.dom = ids.domain → p ev = b) :
    (squareArea nx ny dx dy ids).countP p = (nx - 1) * (ny - 1) * (if b then 1 else 0) := by
  unfold squareArea
  rw [count_flatMap (c := (nx - 1) * (if b then 1 else 0))]
  · rw [List.length_range]; ring
  · intro iy _
    rw [count_map (b := b)]
    · simp
    · intro ix; exact h _ rfl

theorem count_pair1 (p : Emit (K × K × K) → Bool) (na : Nat) (E0 E1 : Nat → Emit (K × K × K)) (b0 b1 : Bool)
    (h0 : ∀ a, p (E0 a) = b0) (h1 : ∀ a, p (E1 a) = b1) :
    ((List.range na).flatMap fun a => [E0 a, E1 a]).countP p = na * ((if b0 then 1 else 0) + (if b1 then 1 else 0)) := by
  rw [count_flatMap (c := ((if b0 then 1 else 0) + (if b1 then 1 else 0)))]
  · simp
  · intro a _
    simp only [List.countP_cons, List.countP_nil, h0, h1]
    cases b0 <;> cases b1 <;> rfl

theorem length_squareEmits : (squareEmits nx ny dx dy ids).length = (nx - 1) * (ny - 1) + 2 * ((nx - 1) + (ny - 1)) := by
  have h : ∀ l : List (Emit (K × K × K)), l.length = l.countP fun _ => true := by intro l; simp
  rw [h]
  simp only [squareEmits, List.countP_append]
  rw [count_area _ true (fun _ _ => rfl)]
  unfold squareY squareX
  simp only []
  rw [count_pair1 _ _ _ _ true true (fun _ => rfl) (fun _ => rfl), count_pair1 _ _ _ _ true true (fun _ => rfl) (fun _ => rfl)]
  simp only [if_true]
  ring

def edgeCount (nx ny s : Nat) : Nat := if s < 2 then nx - 1 else ny - 1

theorem sq_count_dom (k : Nat) : ((squareEmits nx ny dx dy ids).filter fun e => e.dom == k).length =
    (nx - 1) * (ny - 1) * (if ids.domain = k then 1 else 0) +
    (nx - 1) * ((if ids.bottom = k then 1 else 0) + (if ids.top = k then 1 else 0)) +
    (ny - 1) * ((if ids.left = k then 1 else 0) + (if ids.right = k then 1 else 0)) := by
  rw [← List.countP_eq_length_filter]
  simp only [squareEmits, List.countP_append]
  rw [count_area _ (ids.domain == k) (fun _ h => by rw [h])]
  unfold squareY squareX
  simp only []
  rw [count_pair1 _ _ _ _ (ids.bottom == k) (ids.top == k) (fun _ => rfl) (fun _ => rfl),
    count_pair1 _ _ _ _ (ids.left == k) (ids.right == k) (fun _ => rfl) (fun _ => rfl)]
  simp only [beq_iff_eq]

/-- **C24** (square, overall). -/
theorem C24_square (hx : 2 ≤ nx) (hy : 2 ≤ ny) (hd : ids.list.Nodup) :
    ∃ m, makeSquare nx ny dx dy ids = some m ∧ KeysNodup m ∧
      ((visitAll m).map (·.id)).Perm (List.range ((nx - 1) * (ny - 1) + 2 * ((nx - 1) + (ny - 1)))) ∧
      (∀ d ∈ m, ∀ v ∈ d.2.vecs, (v.map (·.id)).Pairwise (· < ·)) ∧
      (∀ N, NodeIn m N ↔ N < nx * ny) ∧
      ownershipRange m 0 (nx * ny) = some ⟨0, nx * ny, []⟩ := by
  have hg := goodEmits_square (dx := dx) (dy := dy) hx hy hd
  obtain ⟨m, hm, hb⟩ := build_ok ids.list (number (squareEmits nx ny dx dy ids)) (good_number hg)
  have hk := keysNodup_of_sorted hb.sorted
  have hcell : ∀ ix iy, InGrid2 nx ny ix iy → ∀ N ∈ cell2 nx ny ix iy, N < nx * ny := by
    rintro ix iy ⟨h1, h2⟩ N hN
    obtain ⟨k, hk, rfl⟩ := List.mem_map.1 hN
    have := List.mem_range.1 hk
    have := gridNode_lt (nx := nx) (ny := ny) (nz := 1) (x := ix + k % 2) (y := iy + k / 2) (z := 0) (by omega) (by omega) (by omega)
    simpa using this
  have hnode : ∀ N, NodeIn m N ↔ N < nx * ny := by
    intro N
    constructor
    · rintro ⟨e, he, hN⟩
      rw [holds_built (good_number hg) hb] at he
      obtain ⟨x, hx', rfl⟩ := List.mem_map.1 he
      obtain ⟨ev, i, hev, rfl⟩ := mem_number.1 hx'
      simp only at hN
      rcases (mem_squareEmits hx hy).1 (List.mem_of_getElem? hev) with h | ⟨s, hs, h⟩
      · obtain ⟨ix, iy, hgrid, _, _, hn, _⟩ := mem_area.1 h
        exact hcell _ _ hgrid N (hn ▸ hN)
      · obtain ⟨ix, iy, hgrid, _, _, _, hn, _⟩ := h
        obtain ⟨inds, hc, _, hi⟩ := quad_side_nodes s hs
        rw [sideNodes_quadCell _ _ _ _ _ _ _ hc hi, Option.some.injEq] at hn
        rw [← hn] at hN
        obtain ⟨i, hi', rfl⟩ := List.mem_map.1 hN
        exact hcell _ _ hgrid _ (List.mem_map.2 ⟨i, List.mem_range.2 (hi i hi'), rfl⟩)
    · intro hN
      obtain ⟨⟨x, y, z⟩, ⟨⟨h1, h2, h3⟩, he⟩, _⟩ := C24_grid_numbering nx ny 1 N (by simpa using hN)
      simp only at h1 h2 h3 he
      have hz : z = 0 := by omega
      subst hz
      let ix := if x + 1 < nx then x else x - 1
      let iy := if y + 1 < ny then y else y - 1
      have bx : ix + 1 < nx ∧ (x = ix ∨ x = ix + 1) := by simp only [ix]; split <;> omega
      have by' : iy + 1 < ny ∧ (y = iy ∨ y = iy + 1) := by simp only [iy]; split <;> omega
      generalize ix = ix at *
      generalize iy = iy at *
      have hmem : N ∈ cell2 nx ny ix iy := by
        refine List.mem_map.2 ⟨(x - ix) + 2 * (y - iy), List.mem_range.2 (by omega), ?_⟩
        rw [← he]
        congr 1 <;> omega
      have hv : (⟨ids.domain, .quad, cell2 nx ny ix iy, (cell2 nx ny ix iy).map (coord2 nx ny dx dy)⟩ : Emit _) ∈
          squareArea nx ny dx dy ids := mem_area.2 ⟨ix, iy, ⟨bx.1, by'.1⟩, rfl, rfl, rfl, rfl⟩
      obtain ⟨e, he1, _, _, hn⟩ := exists_sel_of_emit ((mem_squareEmits hx hy).2 (.inl hv))
      refine ⟨e, (holds_built (good_number hg) hb).2 (List.mem_map.2 ⟨_, mem_sel.1 he1, rfl⟩), ?_⟩
      rw [hn]; exact hmem
  refine ⟨m, hm, hk, ?_, built_sorted hb, hnode, ownership_exact hk hnode⟩
  rw [← length_squareEmits (dx := dx) (dy := dy) (ids := ids)]
  exact built_ids hg hb

/-- **C24** (square, interior). -/
theorem C24_square_area (hx : 2 ≤ nx) (hy : 2 ≤ ny) (hd : ids.list.Nodup) {m : DomMap} (hm : makeSquare nx ny dx dy ids = some m) :
    ∃ d, m.lookup ids.domain = some d ∧ d.dim = some 2 ∧ d.elems.length = (nx - 1) * (ny - 1) ∧
      (∀ e ∈ d.elems, ∃ ix iy, InGrid2 nx ny ix iy ∧ e = quadCell nx ny e.id ix iy) ∧
      (∀ ix iy, InGrid2 nx ny ix iy → ∃ e ∈ d.elems, e = quadCell nx ny e.id ix iy) := by
  have hg := goodEmits_square (dx := dx) (dy := dy) hx hy hd
  obtain ⟨m', hm', hb⟩ := build_ok ids.list (number (squareEmits nx ny dx dy ids)) (good_number hg)
  have : m' = m := by
    have := hm'.symm.trans hm
    simpa using this
  subst this
  obtain ⟨d, h1, h2, h3⟩ := built_domain hg hb (k := ids.domain) (by simp [SquareIds.list])
  have hex : ∀ ix iy, InGrid2 nx ny ix iy → ∃ e ∈ d.elems, e = quadCell nx ny e.id ix iy := by
    intro ix iy hgrid
    have hv : (⟨ids.domain, .quad, cell2 nx ny ix iy, (cell2 nx ny ix iy).map (coord2 nx ny dx dy)⟩ : Emit _) ∈
        squareArea nx ny dx dy ids := mem_area.2 ⟨ix, iy, hgrid, rfl, rfl, rfl, rfl⟩
    obtain ⟨e, he, a, b, c⟩ := exists_sel_of_emit ((mem_squareEmits hx hy).2 (.inl hv))
    refine ⟨e, h2 ▸ he, ?_⟩
    obtain ⟨t, n, i, nd⟩ := e
    simp only at a b c
    subst a b c
    rfl
  have hall : ∀ e ∈ d.elems, ∃ ix iy, InGrid2 nx ny ix iy ∧ e = quadCell nx ny e.id ix iy := by
    intro e he
    rw [h2] at he
    obtain ⟨ev, hev, hdom, a, b, c⟩ := emit_of_sel he
    rcases (mem_squareEmits hx hy).1 hev with h | ⟨s, hs, h⟩
    · obtain ⟨ix, iy, hgrid, _, k2, k3, _⟩ := mem_area.1 h
      refine ⟨ix, iy, hgrid, ?_⟩
      obtain ⟨t, n, i, nd⟩ := e
      simp only at a b c
      rw [k2] at a; rw [k3] at c
      subst a b c
      rfl
    · obtain ⟨_, _, _, _, k1, _⟩ := h
      exact absurd (k1.symm.trans hdom) (sq_bnd_ne hd hs)
  refine ⟨d, h1, ?_, ?_, hall, hex⟩
  · obtain ⟨e, he, hee⟩ := hex 0 0 ⟨by omega, by omega⟩
    cases hh : sel ids.domain (number (squareEmits nx ny dx dy ids)) with
    | nil => rw [h2, hh] at he; simp at he
    | cons e' l =>
      rw [h3, hh]
      obtain ⟨_, _, _, heq⟩ := hall e' (by rw [h2, hh]; simp)
      rw [heq]; rfl
  · rw [h2, length_sel_number, sq_count_dom]
    have hn := hd
    simp only [SquareIds.list, List.nodup_cons, List.mem_cons, List.not_mem_nil, or_false, not_or] at hn
    obtain ⟨⟨a1, a2, a3, a4⟩, -⟩ := hn
    simp [Ne.symm a1, Ne.symm a2, Ne.symm a3, Ne.symm a4]

/-- **C24** (square, boundaries). -/
theorem C24_square_boundary (hx : 2 ≤ nx) (hy : 2 ≤ ny) (hd : ids.list.Nodup) {m : DomMap}
    (hm : makeSquare nx ny dx dy ids = some m) (s : Nat) (hs : s < 4) :
    ∃ d, m.lookup (ids.bnd s) = some d ∧ d.dim = some 1 ∧ d.elems.length = edgeCount nx ny s ∧
      (∀ b ∈ d.elems, b.ty = .line ∧ b.n = 2 ∧ ∃ ix iy, InGrid2 nx ny ix iy ∧ Touches2 nx ny s ix iy ∧
        sideNodes (quadCell nx ny 0 ix iy) s = some b.nodes) ∧
      (∀ ix iy, InGrid2 nx ny ix iy → Touches2 nx ny s ix iy →
        ∃ b ∈ d.elems, sideNodes (quadCell nx ny 0 ix iy) s = some b.nodes) := by
  have hg := goodEmits_square (dx := dx) (dy := dy) hx hy hd
  obtain ⟨m', hm', hb⟩ := build_ok ids.list (number (squareEmits nx ny dx dy ids)) (good_number hg)
  have : m' = m := by
    have := hm'.symm.trans hm
    simpa using this
  subst this
  obtain ⟨d, h1, h2, h3⟩ := built_domain hg hb (k := ids.bnd s) (sq_bnd_mem ids hs)
  have hall : ∀ b ∈ d.elems, b.ty = .line ∧ b.n = 2 ∧ ∃ ix iy, InGrid2 nx ny ix iy ∧ Touches2 nx ny s ix iy ∧
        sideNodes (quadCell nx ny 0 ix iy) s = some b.nodes := by
    intro e he
    rw [h2] at he
    obtain ⟨ev, hev, hdom, a, b, c⟩ := emit_of_sel he
    rcases (mem_squareEmits hx hy).1 hev with h | ⟨t, ht, h⟩
    · obtain ⟨_, _, _, k1, _⟩ := mem_area.1 h
      exact absurd (hdom.symm.trans k1) (sq_bnd_ne hd hs)
    · obtain ⟨ix, iy, hgrid, htouch, k1, k2, k3, _⟩ := h
      have : t = s := sq_bnd_inj hd ht hs (k1.symm.trans hdom)
      subst this
      exact ⟨a.trans k2, b, ix, iy, hgrid, htouch, c ▸ k3⟩
  have hex : ∀ ix iy, InGrid2 nx ny ix iy → Touches2 nx ny s ix iy →
        ∃ b ∈ d.elems, sideNodes (quadCell nx ny 0 ix iy) s = some b.nodes := by
    intro ix iy hgrid ht
    obtain ⟨inds, c1, _, hi⟩ := quad_side_nodes s hs
    have hf := (isEdge_iff (dx := dx) (dy := dy) (ids := ids) c1 hi).2 ⟨ix, iy, hgrid, ht, rfl⟩
    obtain ⟨e, he, a, b, c⟩ := exists_sel_of_emit ((mem_squareEmits hx hy).2 (.inr ⟨s, hs, hf⟩))
    refine ⟨e, h2 ▸ he, ?_⟩
    rw [c, sideNodes_quadCell _ _ _ _ _ _ _ c1 hi]
    rfl
  have hcell : ∃ ix iy, InGrid2 nx ny ix iy ∧ Touches2 nx ny s ix iy := by
    interval_cases s
    · exact ⟨0, 0, ⟨by omega, by omega⟩, rfl⟩
    · exact ⟨0, ny - 2, ⟨by omega, by omega⟩, by simp only [Touches2]; omega⟩
    · exact ⟨0, 0, ⟨by omega, by omega⟩, rfl⟩
    · exact ⟨nx - 2, 0, ⟨by omega, by omega⟩, by simp only [Touches2]; omega⟩
  refine ⟨d, h1, ?_, ?_, hall, hex⟩
  · obtain ⟨ix, iy, hgrid, ht⟩ := hcell
    obtain ⟨e, he, hee⟩ := hex ix iy hgrid ht
    cases hh : sel (ids.bnd s) (number (squareEmits nx ny dx dy ids)) with
    | nil => rw [h2, hh] at he; simp at he
    | cons e' l =>
      rw [h3, hh]
      obtain ⟨hty, _⟩ := hall e' (by rw [h2, hh]; simp)
      simp [hty, ElType.dim]
  · rw [h2, length_sel_number, sq_count_dom]
    have hn := hd
    simp only [SquareIds.list, List.nodup_cons, List.mem_cons, List.not_mem_nil, or_false, not_or] at hn
    obtain ⟨⟨a1, a2, a3, a4⟩, ⟨b1, b2, b3⟩, ⟨c1, c2⟩, d1, -⟩ := hn
    interval_cases s <;> simp [SquareIds.bnd, edgeCount, *, Ne.symm, eq_comm] <;> simp [*, eq_comm]

/-- **C24** (square): vertices sit on their nodes. -/
theorem C24_square_vertices (hx : 2 ≤ nx) (hy : 2 ≤ ny) :
    ∀ ev ∈ squareEmits nx ny dx dy ids, ev.verts = ev.nodes.map (coord2 nx ny dx dy) := by
  intro ev hev
  rcases (mem_squareEmits hx hy).1 hev with h | ⟨s, hs, h⟩
  · obtain ⟨_, _, _, _, _, h1, h2⟩ := mem_area.1 h; rw [h1, h2]
  · obtain ⟨_, _, _, _, _, _, _, h⟩ := h; exact h

omit [Zero K] in
/-- **C24** (square): neighbouring cells share the nodes of their common edge. -/
theorem C24_square_conforming (nx ny i j ix iy : Nat) :
    sideNodes (quadCell nx ny i ix iy) 1 = sideNodes (quadCell nx ny j ix (iy + 1)) 0 ∧
    sideNodes (quadCell nx ny i ix iy) 3 = sideNodes (quadCell nx ny j (ix + 1) iy) 2 := by
  obtain ⟨c0, c1, c2, c3⟩ := quad_sides_concrete
  rw [sideNodes_quadCell _ _ _ _ _ _ _ c0 (by decide), sideNodes_quadCell _ _ _ _ _ _ _ c1 (by decide),
    sideNodes_quadCell _ _ _ _ _ _ _ c2 (by decide), sideNodes_quadCell _ _ _ _ _ _ _ c3 (by decide)]
  exact ⟨rfl, rfl⟩

/-- **C24** (square): the boundary views can be built. -/
theorem C24_square_views (hx : 2 ≤ nx) (hy : 2 ≤ ny) (hd : ids.list.Nodup) {m : DomMap}
    (hm : makeSquare nx ny dx dy ids = some m) (s : Nat) (hs : s < 4)
    (order : List Element → List Element) (hord : ∀ l, (order l).Perm l) :
    ∃ views, boundaryViews m (ids.bnd s) order = some views ∧ views.length = edgeCount nx ny s := by
  obtain ⟨m', hm', hk, -⟩ := C24_square (dx := dx) (dy := dy) hx hy hd
  have : m' = m := by
    have := hm'.symm.trans hm
    simpa using this
  subst this
  obtain ⟨d, h1, hdim, hlen, hall, hex⟩ := C24_square_boundary hx hy hd hm s hs
  obtain ⟨dv, v1, vdim, _, _, vex⟩ := C24_square_area hx hy hd hm
  have hne : d.elems ≠ [] := by
    intro h
    rw [h] at hlen
    simp only [List.length_nil, edgeCount] at hlen
    split at hlen <;> omega
  have hC := C23_boundary_views m' hk (ids.bnd s) d h1 (fun b hb => by rw [(hall b hb).1, hdim]; rfl) hne order hord
  cases hv : boundaryViews m' (ids.bnd s) order with
  | none =>
    exfalso
    obtain ⟨b, hb, hno⟩ := hC.2.1 hv
    obtain ⟨hty, _, ix, iy, hgrid, _, hn⟩ := hall b hb
    obtain ⟨e, he, hee⟩ := vex ix iy hgrid
    apply hno
    have hsides : sideNodes e s = some b.nodes := by
      rw [hee, ← hn]; rfl
    rw [Domain.elems, List.mem_flatten] at he
    refine ⟨e, s, ⟨(ids.domain, dv), mem_of_lookup v1, by rw [hty, vdim]; rfl, he⟩, _, hsides, List.Perm.refl _⟩
  | some views => exact ⟨views, rfl, by rw [(hC.1 views hv).2, hlen]⟩

example : (⟨7, 1, 2, 3, 4⟩ : SquareIds).list.Nodup := by decide
example : (makeSquare (K := Nat) 3 4 id id ⟨7, 1, 2, 3, 4⟩).map (fun m => (visitAll m).length) = some 16 := by decide +kernel

end Square

/-! ## Line -/

/-- **C24** (line): `nx - 1` elements with ids `0 … nx-2`, element `i` joining nodes `i` and `i+1` at the points `i`, `i+1`. -/
theorem C24_line {K : Type} [Zero K] {nx : Nat} {dx : Nat → K} {dom : Nat} (hx : 2 ≤ nx) :
    ∃ m d, makeLine nx dx dom = some m ∧ m.lookup dom = some d ∧ d.dim = some 1 ∧
      d.elems = (List.range (nx - 1)).map (fun i => ⟨.line, 2, i, [i, i + 1]⟩) ∧
      (∀ N, NodeIn m N ↔ N < nx) ∧ ownershipRange m 0 nx = some ⟨0, nx, []⟩ ∧
      ∀ ev ∈ lineEmits nx dx dom, ev.verts = ev.nodes.map fun N => (dx N, 0, 0) := by
  have hmem : ∀ ev, ev ∈ lineEmits nx dx dom → ev.dom = dom ∧ ev.ty = .line := by
    intro ev h
    obtain ⟨i, _, rfl⟩ := List.mem_map.1 h
    exact ⟨rfl, rfl⟩
  have hg : GoodEmits (lineEmits nx dx dom) := fun a ha b hb _ => by rw [(hmem a ha).2, (hmem b hb).2]
  obtain ⟨m, hm, hb⟩ := build_ok [dom] (number (lineEmits nx dx dom)) (good_number hg)
  obtain ⟨d, h1, h2, h3⟩ := built_domain hg hb (k := dom) (by simp)
  have hk := keysNodup_of_sorted hb.sorted
  have hsel : sel dom (number (lineEmits nx dx dom)) = (List.range (nx - 1)).map (fun i => ⟨.line, 2, i, [i, i + 1]⟩) := by
    unfold sel number
    rw [List.filter_eq_self.2]
    · apply List.ext_getElem?
      intro i
      simp only [lineEmits, List.map_map, List.getElem?_map, List.getElem?_zipIdx]
      by_cases hi : i < nx - 1
      · simp [List.getElem?_range hi]
      · have : (List.range (nx - 1))[i]? = none := by rw [List.getElem?_eq_none]; simpa using hi
        simp [this]
    · intro x hx'
      obtain ⟨p, hp, rfl⟩ := List.mem_map.1 hx'
      have := (hmem p.1 (List.fst_mem_of_mem_zipIdx hp)).1
      simpa using this
  have hnode : ∀ N, NodeIn m N ↔ N < nx := by
    intro N
    constructor
    · rintro ⟨e, he, hN⟩
      rw [holds_built (good_number hg) hb] at he
      obtain ⟨x, hx', rfl⟩ := List.mem_map.1 he
      obtain ⟨ev, i, hev, rfl⟩ := mem_number.1 hx'
      simp only at hN
      obtain ⟨j, hj, rfl⟩ := List.mem_map.1 (List.mem_of_getElem? hev)
      have := List.mem_range.1 hj
      simp only [List.mem_cons, List.not_mem_nil, or_false] at hN
      omega
    · intro hN
      have : ∃ i < nx - 1, N = i ∨ N = i + 1 := by
        by_cases h : N < nx - 1
        · exact ⟨N, h, .inl rfl⟩
        · exact ⟨nx - 2, by omega, .inr (by omega)⟩
      obtain ⟨i, hi, hNi⟩ := this
      have hmem' : (⟨.line, 2, i, [i, i + 1]⟩ : Element) ∈ sel dom (number (lineEmits nx dx dom)) := by
        rw [hsel]; exact List.mem_map.2 ⟨i, List.mem_range.2 hi, rfl⟩
      refine ⟨_, (holds_built (good_number hg) hb).2 (List.mem_map.2 ⟨_, mem_sel.1 hmem', rfl⟩), ?_⟩
      simpa using hNi
  refine ⟨m, d, hm, h1, ?_, h2.trans hsel, hnode, ownership_exact hk hnode, ?_⟩
  · rw [h3, hsel]
    obtain ⟨c, rfl⟩ : ∃ c, nx = c + 2 := ⟨nx - 2, by omega⟩
    simp [List.range_succ_eq_map, ElType.dim]
  · intro ev hev
    obtain ⟨i, _, rfl⟩ := List.mem_map.1 hev
    rfl

example : (makeLine (K := Nat) 4 id 2).map (fun m => (visitAll m).map (·.nodes)) = some [[0, 1], [1, 2], [2, 3]] := by decide +kernel

end Verif.Prim
