import Verif.Dual.Props

/-! # Property C143: meshes built by the library, of any order, with their own graph -/
namespace Verif.Dual
open Verif Verif.Elem Verif.Mesh Verif.Convert Verif.Gen Verif.Pipeline Verif.Prim

section
variable {maxId : Nat} {metis : Nat → Int → List Nat → List Nat → Option (List Nat × List Nat)}
variable {n : Fin 3 → Nat} {P : Fin 3 → Nat → ℝ} {W : Fin 3 → Bool} {dom : Nat} {Bs : List (Nat × Box)} {res : List Nat} {m : DomMap}

/-- Built meshes are whole. -/
theorem whole_grid (h : IsGrid n W dom Bs) (hb : Built res (number (Bs.map (emitOf n P))) m) (hmax : maxId < 2 ^ 63) (hels : 8 * Bs.length + 1 ≤ maxId) (hn : n 0 * n 1 * n 2 ≤ maxId) :
    Whole maxId m (n 0 * n 1 * n 2) := by
  have Wf := wf_meshOf h hb
  have hT : toMesh 2 (meshOf n P Bs m) = m := toMesh_withData _ (fun e he => by obtain ⟨i, q, _, rfl⟩ := (holds_grid h hb).1 he; rfl)
  have hids : ((allEls m).map (·.id)).Perm (List.range Bs.length) := by
    have h2 := tagged_toMesh (n := 2) Wf.sorted
    rw [hT] at h2
    have h3 := built_ids h.good hb
    rw [visitAll, Verif.Partition.visitIds_tagged, List.map_map, h2, List.map_map] at h3
    have h4 := allEls_toMesh (meshOf n P Bs m)
    rw [hT] at h4
    rw [h4, List.map_map]
    rw [List.length_map] at h3
    exact h3
  have hlen : (allEls m).length = Bs.length := by simpa using hids.length_eq
  have hel : ∀ e, Has m e → ∃ i q, Bs[i]? = some q ∧ e = elB n i q.2 := fun e he => (holds_grid h hb).1 (has_iff.1 he)
  refine ⟨?_, by rw [hlen]; exact hids, ?_, hmax, by omega, by omega, ?_⟩
  · intro d hd v hv
    have hd' : (d.1, (⟨d.2.dim, d.2.vecs.map fun v => v.map fun e => ⟨e.ty, e.id, e.nodes, coordsOf (Bs.map (emitOf n P)) e.id⟩⟩ : Convert.Dom VData)) ∈ meshOf n P Bs m := List.mem_map.2 ⟨d, hd, rfl⟩
    have hl := Wf.len3 _ hd'
    simp only [List.length_map] at hl
    obtain ⟨k, hk, rfl⟩ := List.mem_iff_getElem.1 hv
    obtain ⟨t, ht⟩ : ∃ t : ElType, tyIdx t = k := by
      have hk3 : k < 3 := by omega
      have : ∀ k, k < 3 → ∃ t ∈ [ElType.line, .quad, .hex], tyIdx t = k := by decide
      obtain ⟨t, -, ht⟩ := this k hk3
      exact ⟨t, ht⟩
    have := Wf.asc _ hd' t
    rw [ht, List.getD_eq_getElem?_getD, List.getElem?_map, List.getElem?_eq_getElem hk, Option.map_some, Option.getD_some] at this
    exact List.pairwise_map.2 (by simpa only [List.pairwise_map] using this)
  · intro e he v hv
    obtain ⟨i, q, hi, rfl⟩ := hel e he
    obtain ⟨p, hp, rfl⟩ := Box.mem_nodes.1 hv
    exact node_lt (q.2.has_lt (h.grid q (List.mem_of_getElem? hi)) hp)
  · have : ((allEls m).map fun e => e.nodes.length).sum ≤ (allEls m).length * 8 := by
      have hle : ∀ x ∈ (allEls m).map fun e => e.nodes.length, x ≤ 8 := by
        intro x hx
        obtain ⟨e, he, rfl⟩ := List.mem_map.1 hx
        obtain ⟨i, q, hi, rfl⟩ := hel e he
        have hln : (elB n i q.2).nodes.length = 2 ^ (tyOf q.2.w).dim := q.2.length_nodes n
        rw [hln]
        cases tyOf q.2.w <;> decide
      have := List.sum_le_card_nsmul _ 8 hle
      simpa using this
    omega

/-- The graph of a built mesh. -/
theorem dual_grid (hM : MetisOk maxId metis) (h : IsGrid n W dom Bs) (hb : Built res (number (Bs.map (emitOf n P))) m) (hmax : maxId < 2 ^ 63) (hels : 8 * Bs.length + 1 ≤ maxId)
    (hn : n 0 * n 1 * n 2 ≤ maxId) (hpos : 0 < n 0 * n 1 * n 2) :
    ∃ g, computeDual maxId metis m (List.range (n 0 * n 1 * n 2)) [] = .ok g ∧ DualOf (fun i => (g.adjacent i).getD []) (meshOf n P Bs m) := by
  obtain ⟨g, h1, h2⟩ := C143_dual_partial hM (whole_grid h hb hmax hels hn) hpos hn
  have hT : toMesh 2 (meshOf n P Bs m) = m := toMesh_withData _ (fun e he => by obtain ⟨i, q, _, rfl⟩ := (holds_grid h hb).1 he; rfl)
  refine ⟨g, h1, dualOf ?_ (by rw [hT]; exact h2)⟩
  intro e he
  obtain ⟨⟨k, e'⟩, hq, rfl⟩ := List.mem_map.1 he
  obtain ⟨i, b, hi, rfl⟩ := (mem_meshOf h hb).1 hq
  have hq := List.mem_of_getElem? hi
  exact ⟨b.length_nodes n, b.nodup_nodes (h.ne hq) (h.grid _ hq)⟩

end

variable {maxId : Nat} {metis : Nat → Int → List Nat → List Nat → Option (List Nat × List Nat)} {n : Nat} {roots : List ℂ} {nx ny nz : Nat} {dx dy dz : Nat → ℝ}

/-- **C143** (line). -/
theorem C143_line (hM : MetisOk maxId metis) (hmax : maxId < 2 ^ 63) (ho : OrderOk n roots 1) (hx : AxisOk n roots nx dx) (dom : Nat) (hels : 8 * (lineEmits nx dx dom).length + 1 ≤ maxId) (hn : nx ≤ maxId) :
    ∃ m g, makeLine nx dx dom = some m ∧ computeDual maxId metis m (List.range nx) [] = .ok g ∧
      ∃ M N, lineOfOrder n (physLoc roots) closeTol (fun i => (g.adjacent i).getD []) nx dx dom = some (M, N) ∧ Ready n (toMesh n M) [] 0 N := by
  have hg := line_grid hx.size dom
  have he := lineEmits_eq nx dx dom
  obtain ⟨m, h1, h2⟩ := built_of (P := ![dx, fun _ => 0, fun _ => 0]) hg [dom]
  have hm : makeLine nx dx dom = some m := by rw [makeLine, he]; exact h1
  have hprod : (![nx, 1, 1] : Fin 3 → Nat) 0 * (![nx, 1, 1] : Fin 3 → Nat) 1 * (![nx, 1, 1] : Fin 3 → Nat) 2 = nx := by simp
  have hpos : 0 < nx := by have := hx.size; omega
  obtain ⟨g, h3, h4⟩ := dual_grid hM hg h2 hmax (by rw [he, List.length_map] at hels; exact hels) (by rw [hprod]; exact hn) (by rw [hprod]; exact hpos)
  rw [hprod] at h3
  obtain ⟨M, N, h5, h6, -⟩ := C119_line (adj := fun i => (g.adjacent i).getD []) ho hx dom (fun m' hm' => by
    obtain rfl : m = m' := Option.some.inj (hm.symm.trans hm')
    rw [he]; exact h4)
  exact ⟨m, g, hm, h3, M, N, h5, h6⟩

/-- **C143** (square).  For every square whose size METIS can represent the graph is computed, and with it the square of any order is made, ready for distribution. -/
theorem C143_square (hM : MetisOk maxId metis) (hmax : maxId < 2 ^ 63) (ho : OrderOk n roots 2) (hx : AxisOk n roots nx dx) (hy : AxisOk n roots ny dy) {ids : SquareIds}
    (hd : ids.domain ∉ [ids.bottom, ids.top, ids.left, ids.right]) (hels : 8 * (squareEmits nx ny dx dy ids).length + 1 ≤ maxId) (hn : nx * ny ≤ maxId) :
    ∃ m g, makeSquare nx ny dx dy ids = some m ∧ computeDual maxId metis m (List.range (nx * ny)) [] = .ok g ∧
      ∃ M N, squareOfOrder n (physLoc roots) closeTol (fun i => (g.adjacent i).getD []) nx ny dx dy ids = some (M, N) ∧ Ready n (toMesh n M) (squareBnds ids) 1 N := by
  have hg := square_grid hx.size hy.size hd
  have he := squareEmits_eq nx ny dx dy ids
  obtain ⟨m, h1, h2⟩ := built_of (P := ![dx, dy, fun _ => 0]) hg ids.list
  have hm : makeSquare nx ny dx dy ids = some m := by rw [makeSquare, he]; exact h1
  have hprod : (![nx, ny, 1] : Fin 3 → Nat) 0 * (![nx, ny, 1] : Fin 3 → Nat) 1 * (![nx, ny, 1] : Fin 3 → Nat) 2 = nx * ny := by simp
  have hpos : 0 < nx * ny := Nat.mul_pos (by have := hx.size; omega) (by have := hy.size; omega)
  obtain ⟨g, h3, h4⟩ := dual_grid hM hg h2 hmax (by rw [he, List.length_map] at hels; exact hels) (by rw [hprod]; exact hn) (by rw [hprod]; exact hpos)
  rw [hprod] at h3
  obtain ⟨M, N, h5, h6, -⟩ := C119_square (adj := fun i => (g.adjacent i).getD []) ho hx hy hd (fun m' hm' => by
    obtain rfl : m = m' := Option.some.inj (hm.symm.trans hm')
    rw [he]; exact h4)
  exact ⟨m, g, hm, h3, M, N, h5, h6⟩

/-- **C143** (cube). -/
theorem C143_cube (hM : MetisOk maxId metis) (hmax : maxId < 2 ^ 63) (ho : OrderOk n roots 3) (hx : AxisOk n roots nx dx) (hy : AxisOk n roots ny dy) (hz : AxisOk n roots nz dz) {ids : CubeIds}
    (hd : ids.domain ∉ [ids.back, ids.front, ids.bottom, ids.top, ids.left, ids.right]) (hels : 8 * (cubeEmits nx ny nz dx dy dz ids).length + 1 ≤ maxId) (hn : nx * ny * nz ≤ maxId) :
    ∃ m g, makeCube nx ny nz dx dy dz ids = some m ∧ computeDual maxId metis m (List.range (nx * ny * nz)) [] = .ok g ∧
      ∃ M N, cubeOfOrder n (physLoc roots) closeTol (fun i => (g.adjacent i).getD []) nx ny nz dx dy dz ids = some (M, N) ∧ Ready n (toMesh n M) (cubeBnds ids) 2 N := by
  have hg := cube_grid hx.size hy.size hz.size hd
  have he := cubeEmits_eq nx ny nz dx dy dz ids
  obtain ⟨m, h1, h2⟩ := built_of (P := ![dx, dy, dz]) hg ids.list
  have hm : makeCube nx ny nz dx dy dz ids = some m := by rw [makeCube, he]; exact h1
  have hprod : (![nx, ny, nz] : Fin 3 → Nat) 0 * (![nx, ny, nz] : Fin 3 → Nat) 1 * (![nx, ny, nz] : Fin 3 → Nat) 2 = nx * ny * nz := by simp
  have hpos : 0 < nx * ny * nz := Nat.mul_pos (Nat.mul_pos (by have := hx.size; omega) (by have := hy.size; omega)) (by have := hz.size; omega)
  obtain ⟨g, h3, h4⟩ := dual_grid hM hg h2 hmax (by rw [he, List.length_map] at hels; exact hels) (by rw [hprod]; exact hn) (by rw [hprod]; exact hpos)
  rw [hprod] at h3
  obtain ⟨M, N, h5, h6, -⟩ := C119_cube (adj := fun i => (g.adjacent i).getD []) ho hx hy hz hd (fun m' hm' => by
    obtain rfl : m = m' := Option.some.inj (hm.symm.trans hm')
    rw [he]; exact h4)
  exact ⟨m, g, hm, h3, M, N, h5, h6⟩

/-- A line of 4 elements of the second order. -/
example : ∃ m g, makeLine 5 (fun i => (i : ℝ)) 7 = some m ∧ computeDual (2 ^ 31 - 1) exMetis m (List.range 5) [] = .ok g ∧
    ∃ M N, lineOfOrder 3 (physLoc []) closeTol (fun i => (g.adjacent i).getD []) 5 (fun i => (i : ℝ)) 7 = some (M, N) ∧ Ready 3 (toMesh 3 M) [] 0 N :=
  C143_line (exMetis_ok _) (by norm_num) ⟨by decide, by decide, fun h => absurd h (by decide)⟩ (ex_axis (k := 5) (by decide)) 7
    (by rw [lineEmits_eq, List.length_map]; decide) (by norm_num)

/-- A square of 3 by 2 quadratic elements, with 32-bit METIS. -/
example : ∃ m g, makeSquare 4 3 (fun i => (i : ℝ)) (fun i => (i : ℝ)) ⟨0, 1, 2, 3, 4⟩ = some m ∧ computeDual (2 ^ 31 - 1) exMetis m (List.range (4 * 3)) [] = .ok g ∧
    ∃ M N, squareOfOrder 3 (physLoc []) closeTol (fun i => (g.adjacent i).getD []) 4 3 (fun i => (i : ℝ)) (fun i => (i : ℝ)) ⟨0, 1, 2, 3, 4⟩ = some (M, N) ∧
      Ready 3 (toMesh 3 M) (squareBnds ⟨0, 1, 2, 3, 4⟩) 1 N :=
  C143_square (exMetis_ok _) (by norm_num) ⟨by decide, by decide, fun h => absurd h (by decide)⟩ (ex_axis (k := 4) (by decide)) (ex_axis (k := 3) (by decide)) (by decide)
    (by rw [squareEmits_eq, List.length_map]; decide) (by norm_num)

example : ∃ m g, makeCube 3 2 2 (fun i => (i : ℝ)) (fun i => (i : ℝ)) (fun i => (i : ℝ)) ⟨7, 1, 1, 3, 4, 5, 6⟩ = some m ∧ computeDual (2 ^ 31 - 1) exMetis m (List.range (3 * 2 * 2)) [] = .ok g ∧
    ∃ M N, cubeOfOrder 3 (physLoc []) closeTol (fun i => (g.adjacent i).getD []) 3 2 2 (fun i => (i : ℝ)) (fun i => (i : ℝ)) (fun i => (i : ℝ)) ⟨7, 1, 1, 3, 4, 5, 6⟩ = some (M, N) ∧
      Ready 3 (toMesh 3 M) (cubeBnds ⟨7, 1, 1, 3, 4, 5, 6⟩) 2 N :=
  C143_cube (exMetis_ok _) (by norm_num) ⟨by decide, by decide, fun h => absurd h (by decide)⟩ (ex_axis (k := 3) (by decide)) (ex_axis (k := 2) (by decide)) (ex_axis (k := 2) (by decide)) (by decide)
    (by rw [cubeEmits_eq, List.length_map]; decide) (by norm_num)

end Verif.Dual
