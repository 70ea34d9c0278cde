import Verif.ExtGen.Conv
import Verif.MfGen.Props

/-!
# C127: extruded meshes are ready for distribution

What C113 and C116-C126 assume of a mesh - `Ready` - holds for what `extrude` makes of any two-dimensional mesh for which it holds; at any order, if the two-dimensional
mesh is valid and conforming.
-/
namespace Verif.ExtGen
open Verif Verif.Elem Verif.Mesh Verif.Convert Verif.Extrude Verif.Gen Verif.Split Verif.Partition Verif.Merge Verif.Basis Verif.Poly Verif.Prim Verif.MfGen Verif.Pipeline Verif.LocView

noncomputable section

variable {m : DomMap} {bnds : List Nat} {N : Nat} {back front : Nat} {zs : List ℝ} {dat : Nat → VData} {n : Nat} {roots : List ℂ} {adj adjP : Nat → List Nat} {X : Nat → Nat → ℝ}

theorem key_of_ne {k : Nat} (h : els m k ≠ []) : k ∈ m.map (·.1) := by
  obtain ⟨e, he⟩ := List.exists_mem_of_ne_nil _ h
  exact els_key he

/-- **C127** (order 1).  Extruding a two-dimensional mesh which is ready for distribution, over any list of at least two heights, gives a mesh ready for distribution.
The ids of the faces may be new, equal to each other, or ids of boundaries of the mesh. -/
theorem C127_ready {V : Type} (h : Planar m bnds N) (hz : 2 ≤ zs.length) (verts : Element → List (V × ℝ))
    (hb : els m back ≠ [] → back ∈ bnds) (hf : els m front ≠ [] → front ∈ bnds) :
    ∃ doms, extrude N zs verts back front m bnds = some (doms, bnds ++ [back, front]) ∧ Ready 2 doms (extBnds bnds back front) 2 (N * zs.length) ∧
      SameAnswer 2 doms (extBnds bnds back front) := by
  obtain ⟨doms, h1, hx⟩ := ext_of h hz verts hb hf
  have R := ready_ext h hz hx hb hf
  exact ⟨doms, h1, R, R.answer⟩

/-- A valid conforming mesh of areas in the plane, ready for distribution: what can be extruded and then converted to `n` nodes per edge. -/
structure Plane (n : Nat) (roots : List ℂ) (adjP : Nat → List Nat) (N : Nat) (X : Nat → Nat → ℝ) (dat : Nat → VData) (m : DomMap) (bnds : List Nat) : Prop where
  ready : Ready 2 m bnds 1 N
  flat : ∀ e, Holds m e → e.ty ≠ .hex
  area : ∃ e, Holds m e ∧ e.ty = .quad
  geo : GeoMesh n roots adjP N X ((visit (withData dat m)).map (·.2))
  zero : ∀ v, v < N → X v 2 = 0

theorem Plane.flat' (h : Plane n roots adjP N X dat m bnds) : Flat n roots adjP N X dat m := ⟨h.geo, h.zero⟩

theorem Plane.planar (h : Plane n roots adjP N X dat m bnds) : Planar m bnds N := by
  refine ⟨h.ready, h.flat, ?_, h.area⟩
  intro e e' he he' hq hq' hp
  have wf : Mesh.WfMesh Extrude.kinds1 m := h.ready.ok.wf
  obtain ⟨k, hk⟩ := (holds_iff_inDom wf).1 he
  obtain ⟨k', hk'⟩ := (holds_iff_inDom wf).1 he'
  refine h.flat'.distinct wf.sorted hk hk' (fun hh => ?_) hq hq' hp
  have hids : ((visitAll m).map (·.id)).Nodup := by
    have := h.ready.ok.ids
    rw [visitAll, visitIds_tagged, List.map_map]
    exact this
  exact List.inj_on_of_nodup_map hids (Extrude.mem_visitAll.2 ⟨k, els_key (mem_els.2 hk), mem_els.2 hk⟩) (Extrude.mem_visitAll.2 ⟨k', els_key (mem_els.2 hk'), mem_els.2 hk'⟩) hh

/-- The steps before the conversion. -/
theorem extruded_ok (h : Plane n roots adjP N X dat m bnds) (hz : AxisOk n roots zs.length fun i => zs.getD i 0) (bound : n ^ 3 < 2 ^ 16)
    (hb : els m back ≠ [] → back ∈ bnds) (hf : els m front ≠ [] → front ∈ bnds)
    (hadj : ∀ M, extruded N zs dat back front m bnds = some M → DualOf adj M) :
    ∃ doms, Ext m N zs.length back front doms ∧ extruded N zs dat back front m bnds = some (mesh3 N zs dat back front m doms) ∧ Convert.WfMesh (mesh3 N zs dat back front m doms) ∧
      GeoMesh n roots adj (N * zs.length) (X3 N zs X) ((visit (mesh3 N zs dat back front m doms)).map (·.2)) ∧
      Ready 2 (toMesh 2 (mesh3 N zs dat back front m doms)) (extBnds bnds back front) 2 (N * zs.length) := by
  obtain ⟨doms, h1, hx⟩ := ext_of h.planar hz.size (planarVerts dat) hb hf
  have he : extruded N zs dat back front m bnds = some (mesh3 N zs dat back front m doms) := by unfold extruded; rw [h1]; rfl
  refine ⟨doms, hx, he, wf_mesh3 hx, geo_ext h.planar h.flat' hz bound hx (hadj _ he) hb hf, ?_⟩
  rw [toMesh_withData _ (fun e he => by
    obtain ⟨k, hk⟩ := (holds_iff_inDom hx.wf).1 he
    obtain ⟨i, s, _, _, rfl⟩ := hx.mem.1 hk
    rfl)]
  exact ready_ext h.planar hz.size hx hb hf

/-- **C127** (any order).  Extruding a valid conforming mesh of the plane over increasing heights and converting it to any order gives a mesh ready for distribution; the
answer of a problem set up on it does not depend on the distribution. -/
theorem C127_any_order (h : Plane n roots adjP N X dat m bnds) (hz : AxisOk n roots zs.length fun i => zs.getD i 0) (bound : n ^ 3 < 2 ^ 16)
    (hb : els m back ≠ [] → back ∈ bnds) (hf : els m front ≠ [] → front ∈ bnds)
    (hadj : ∀ M, extruded N zs dat back front m bnds = some M → DualOf adj M) :
    ∃ M N', extrudedOfOrder n (physLoc roots) closeTol adj N zs dat back front m bnds = some (M, N') ∧ Ready n (toMesh n M) (extBnds bnds back front) 2 N' ∧
      SameAnswer n (toMesh n M) (extBnds bnds back front) := by
  obtain ⟨doms, _, he, W, G, R⟩ := extruded_ok h hz bound hb hf hadj
  obtain ⟨M, N', h3, h4⟩ := C119_conversion W G R
  exact ⟨M, N', by rw [extrudedOfOrder, he]; exact h3, h4, h4.answer⟩

/-- **C127** (matrix-free).  If only boundaries of the plane mesh have edges, the extruded mesh of any order can be used matrix-free on any number of ranks, with the same
answer as assembled systems. -/
theorem C127_matrix_free (h : Plane n roots adjP N X dat m bnds) (hz : AxisOk n roots zs.length fun i => zs.getD i 0) (bound : n ^ 3 < 2 ^ 16)
    (hb : els m back ≠ [] → back ∈ bnds) (hf : els m front ≠ [] → front ∈ bnds)
    (hadj : ∀ M, extruded N zs dat back front m bnds = some M → DualOf adj M) (hareas : ∀ k e, InDom m k e → k ∉ bnds → e.ty = .quad)
    (hv : ∀ b ∈ extBnds bnds back front, b < invalidDom) :
    ∃ M N', extrudedOfOrder n (physLoc roots) closeTol adj N zs dat back front m bnds = some (M, N') ∧ Ready n (toMesh n M) (extBnds bnds back front) 2 N' ∧
      (Small (toMesh n M) N' → Usable n (toMesh n M) (extBnds bnds back front) N' ∧ MfAnswer n (toMesh n M) (extBnds bnds back front) N') := by
  obtain ⟨doms, hx, he, W, G, R⟩ := extruded_ok h hz bound hb hf hadj
  have htop : ∀ q ∈ visit (mesh3 N zs dat back front m doms), q.1 ∉ extBnds bnds back front → ∀ q' ∈ visit (mesh3 N zs dat back front m doms), q'.2.ty.dim ≤ q.2.ty.dim := by
    intro q hq hqb q' _
    obtain ⟨k, y⟩ := q
    obtain ⟨i, s, hi, rfl, rfl⟩ := (mem_mesh3 hx).1 hq
    have hnb : s.1 ∉ bnds ∧ s.1 ≠ back ∧ s.1 ≠ front := by
      refine ⟨fun h1 => hqb (Std.mem_sortUniq.2 (by simp [h1])), fun h1 => hqb (Std.mem_sortUniq.2 (by simp [h1])), fun h1 => hqb (Std.mem_sortUniq.2 (by simp [h1]))⟩
    refine le_trans (dim_le_three _) ?_
    rcases mem_sources.1 (List.mem_of_getElem? hi) with ⟨k, e, he, l, hl, rfl⟩ | ⟨k, e, he, hne, rfl | rfl⟩
    · have := hareas k e (mem_els.1 he) hnb.1
      simp [Cell.lift, this, liftTy, ElType.dim]
    · exact absurd rfl hnb.2.1
    · exact absurd rfl hnb.2.2
  obtain ⟨M, N', h3, h4, _, h5⟩ := C122_conversion W G R htop hv
  exact ⟨M, N', by rw [extrudedOfOrder, he]; exact h3, h4, h5⟩

/-! ## Extruded squares -/

variable {nx ny : Nat} {dx dy : Nat → ℝ}

/-- The square is a mesh of the plane. -/
theorem square_plane (ho : OrderOk n roots 3) (hx : AxisOk n roots nx dx) (hy : AxisOk n roots ny dy) {ids : SquareIds}
    (hd : ids.domain ∉ [ids.bottom, ids.top, ids.left, ids.right]) :
    ∃ m, makeSquare nx ny dx dy ids = some m ∧ Plane n roots (fun _ => List.range (squareBoxes nx ny ids).length) (nx * ny)
      (fun v c => if hc : c < 3 then ![dx, dy, fun _ => 0] ⟨c, hc⟩ (coordOf ![nx, ny, 1] v ⟨c, hc⟩) else 0) (coordsOf (squareEmits nx ny dx dy ids)) m (squareBnds ids) ∧
      (∀ k, k ∈ m.map (·.1) → k = ids.domain ∨ k ∈ squareBnds ids) ∧ ∀ k e, InDom m k e → k ∉ squareBnds ids → e.ty = .quad := by
  have hg := square_grid hx.size hy.size hd
  have he := squareEmits_eq nx ny dx dy ids
  obtain ⟨m, h1, h2⟩ := built_of (P := ![dx, dy, fun _ => 0]) hg ids.list
  have hm : makeSquare nx ny dx dy ids = some m := by rw [makeSquare, he]; exact h1
  have hbn : ∀ b, b ∈ squareBnds ids ↔ b ∈ [ids.bottom, ids.top, ids.left, ids.right] := fun b => Std.mem_sortUniq
  have hbox : ∀ q ∈ squareBoxes nx ny ids, q.1 = ids.domain ∨ q.1 ∈ squareBnds ids := by
    intro q hq
    rcases (mem_squareBoxes q).1 hq with ⟨ix, iy, _, _, rfl⟩ | ⟨ix, _, rfl | rfl⟩ | ⟨iy, _, rfl | rfl⟩
    · exact .inl rfl
    all_goals right; rw [hbn]; simp
  have hty : ∀ q ∈ squareBoxes nx ny ids, tyOf q.2.w ≠ .hex ∧ (q.1 = ids.domain → tyOf q.2.w = .quad) := by
    intro q hq
    have h3 := hg.dim hq
    have hl : (axes wxy).length = 2 := by decide
    rw [hl] at h3
    by_cases h4 : q.1 = ids.domain
    · rw [if_pos h4] at h3
      cases ht : tyOf q.2.w <;> rw [ht] at h3 <;> simp [ElType.dim] at h3 ⊢
    · rw [if_neg h4] at h3
      cases ht : tyOf q.2.w <;> rw [ht] at h3 <;> simp [ElType.dim, h4] at h3 ⊢
  have hnn : (![nx, ny, 1] : Fin 3 → Nat) 0 * (![nx, ny, 1] : Fin 3 → Nat) 1 * (![nx, ny, 1] : Fin 3 → Nat) 2 = nx * ny := by simp
  have s1 := hx.size
  have s2 := hy.size
  have R : Ready 2 m (squareBnds ids) 1 (nx * ny) := by
    rw [← hnn]
    refine ready_grid hg h2 (Std.sortUniq_strict _) ?_
    intro b hb
    have hb := (hbn b).1 hb
    refine ⟨fun h => hd (h ▸ hb), ?_⟩
    simp only [List.mem_cons, List.not_mem_nil, or_false] at hb
    rcases hb with rfl | rfl | rfl | rfl
    · exact ⟨_, (mem_squareBoxes _).2 (.inr (.inl ⟨0, by omega, .inl rfl⟩))⟩
    · exact ⟨_, (mem_squareBoxes _).2 (.inr (.inl ⟨0, by omega, .inr rfl⟩))⟩
    · exact ⟨_, (mem_squareBoxes _).2 (.inr (.inr ⟨0, by omega, .inl rfl⟩))⟩
    · exact ⟨_, (mem_squareBoxes _).2 (.inr (.inr ⟨0, by omega, .inr rfl⟩))⟩
  have hinc : Increasing ![nx, ny, 1] ![dx, dy, fun _ => 0] := by
    intro c i hi
    fin_cases c
    · exact hx.inc i hi
    · exact hy.inc i hi
    · exact absurd hi (by simp)
  have hsep : Separated n roots ![nx, ny, 1] ![dx, dy, fun _ => 0] := by
    intro c
    fin_cases c
    · exact hx.sep
    · exact hy.sep
    · exact zero_sep n roots
  have hbound : n ^ (axes wxy).length < 2 ^ 16 := by
    rw [show (axes wxy).length = 2 by decide]
    exact lt_of_le_of_lt (Nat.pow_le_pow_right (by have := ho.two; omega) (by norm_num)) ho.bound
  have G := geo_grid (N := n) (roots := roots) (adj := fun _ => List.range (squareBoxes nx ny ids).length) hg h2 hinc ho.two hbound ho.eig hsep (ex_dual hg h1)
  rw [hnn] at G
  refine ⟨m, hm, ⟨R, ?_, ?_, ?_, ?_⟩, ?_, ?_⟩
  · intro e hh
    obtain ⟨i, q, hi, rfl⟩ := (holds_grid hg h2).1 hh
    exact (hty q (List.mem_of_getElem? hi)).1
  · obtain ⟨i, hi⟩ := List.mem_iff_getElem?.1 ((mem_squareBoxes (nx := nx) (ny := ny) (ids := ids) _).2 (.inl ⟨0, 0, by omega, by omega, rfl⟩))
    exact ⟨_, (holds_grid hg h2).2 ⟨i, _, hi, rfl⟩, (hty _ (List.mem_of_getElem? hi)).2 rfl⟩
  · rw [he]
    exact G
  · intro v _
    simp
  · intro k hk
    obtain ⟨d, hd', rfl⟩ := List.mem_map.1 hk
    have := (mem_lookup h2.sorted).2 hd'
    rw [h2.look] at this
    split at this
    · rename_i hor
      rcases hor with h3 | h3
      · simp only [SquareIds.list, List.mem_cons, List.not_mem_nil, or_false] at h3
        rw [hbn]
        simp only [List.mem_cons, List.not_mem_nil, or_false]
        exact h3
      · obtain ⟨q, hq, h4⟩ := List.mem_map.1 h3
        obtain ⟨ev, i, hi, rfl⟩ := mem_number.1 hq
        rw [List.getElem?_map, Option.map_eq_some_iff] at hi
        obtain ⟨b, hb, rfl⟩ := hi
        rw [← h4]
        exact hbox b (List.mem_of_getElem? hb)
    · cases this
  · intro k e hh hk
    obtain ⟨i, b, hi, rfl⟩ := (inDom_grid hg h2).1 hh
    have hq := List.mem_of_getElem? hi
    exact (hty _ hq).2 ((hbox _ hq).resolve_right hk)

/-- **C127** (squares).  Every square, extruded over any increasing heights and converted to any order, is ready for distribution, and the answer does not depend on it. -/
theorem C127_square (ho : OrderOk n roots 3) (hx : AxisOk n roots nx dx) (hy : AxisOk n roots ny dy) (hz : AxisOk n roots zs.length fun i => zs.getD i 0) {ids : SquareIds}
    (hd : ids.domain ∉ [ids.bottom, ids.top, ids.left, ids.right]) (hb : back ≠ ids.domain) (hf : front ≠ ids.domain)
    (hadj : ∀ m M, makeSquare nx ny dx dy ids = some m → extruded (nx * ny) zs (coordsOf (squareEmits nx ny dx dy ids)) back front m (squareBnds ids) = some M → DualOf adj M) :
    ∃ m M N', makeSquare nx ny dx dy ids = some m ∧
      extrudedOfOrder n (physLoc roots) closeTol adj (nx * ny) zs (coordsOf (squareEmits nx ny dx dy ids)) back front m (squareBnds ids) = some (M, N') ∧
      Ready n (toMesh n M) (extBnds (squareBnds ids) back front) 2 N' ∧ SameAnswer n (toMesh n M) (extBnds (squareBnds ids) back front) := by
  obtain ⟨m, hm, hP, hk, _⟩ := square_plane ho hx hy hd
  obtain ⟨M, N', h1, h2, h3⟩ := C127_any_order hP hz ho.bound (fun h => (hk _ (key_of_ne h)).resolve_left hb) (fun h => (hk _ (key_of_ne h)).resolve_left hf) (fun M hM => hadj m M hm hM)
  exact ⟨m, M, N', hm, h1, h2, h3⟩

/-! ## Examples -/

theorem axis_congr {k : Nat} {d d' : Nat → ℝ} (h : ∀ i, i < k → d i = d' i) (hd : AxisOk n roots k d) : AxisOk n roots k d' := by
  have hs : ∀ x ∈ axisNodes n roots k d', x ∈ axisNodes n roots k d := by
    rintro x (⟨i, hi, rfl⟩ | ⟨i, j, hi, hj, rfl⟩)
    · exact .inl ⟨i, hi, (h i hi).symm⟩
    · exact .inr ⟨i, j, hi, hj, by rw [h i (by omega), h (i + 1) hi]⟩
  exact ⟨hd.size, fun i hi => by rw [← h i (by omega), ← h (i + 1) hi]; exact hd.inc i hi, fun x hx y hy => hd.sep x (hs x hx) y (hs y hy)⟩

theorem ex_heights {k : Nat} (hk : 2 ≤ k) : AxisOk 3 [] ((List.range k).map fun i : Nat => (i : ℝ)).length fun i => ((List.range k).map fun i : Nat => (i : ℝ)).getD i 0 := by
  rw [List.length_map, List.length_range]
  refine axis_congr (fun i hi => ?_) (ex_axis hk)
  rw [List.getD_eq_getElem?_getD, List.getElem?_map, List.getElem?_range hi]; rfl

/-- A graph of all pairs of elements. -/
theorem ex_dual3 (h : Planar m bnds N) (hz : 2 ≤ zs.length) (hb : els m back ≠ [] → back ∈ bnds) (hf : els m front ≠ [] → front ∈ bnds) {M : DMap VData}
    (hM : extruded N zs dat back front m bnds = some M) : DualOf (fun _ => List.range (sources zs.length back front m).length) M := by
  obtain ⟨doms, h1, hx⟩ := ext_of h hz (planarVerts dat) hb hf
  unfold extruded at hM
  rw [h1] at hM
  obtain rfl : mesh3 N zs dat back front m doms = M := by simpa using hM
  intro e _ e' he' _ _
  obtain ⟨⟨k, e''⟩, hq, rfl⟩ := List.mem_map.1 he'
  obtain ⟨i, s, hi, _, rfl⟩ := (mem_mesh3 hx).1 hq
  obtain ⟨hi, _⟩ := List.getElem?_eq_some_iff.1 hi
  exact List.mem_range.2 hi

/-- A square of 3 by 2 elements extruded over the heights 0, 1, 2, 3: the front is a new boundary, the back belongs to the bottom of the square; quadratic elements. -/
example : ∃ adj m M N', makeSquare 4 3 (fun i => (i : ℝ)) (fun i => (i : ℝ)) ⟨0, 1, 2, 3, 4⟩ = some m ∧
    extrudedOfOrder 3 (physLoc []) closeTol adj (4 * 3) ((List.range 4).map fun i : Nat => (i : ℝ)) (coordsOf (squareEmits 4 3 (fun i => (i : ℝ)) (fun i => (i : ℝ)) ⟨0, 1, 2, 3, 4⟩)) 1 6 m
      (squareBnds ⟨0, 1, 2, 3, 4⟩) = some (M, N') ∧
    Ready 3 (toMesh 3 M) (extBnds (squareBnds ⟨0, 1, 2, 3, 4⟩) 1 6) 2 N' ∧ SameAnswer 3 (toMesh 3 M) (extBnds (squareBnds ⟨0, 1, 2, 3, 4⟩) 1 6) := by
  have ho : OrderOk 3 [] 3 := ⟨by decide, by decide, fun h => absurd h (by decide)⟩
  obtain ⟨m, hm, hP, hk, _⟩ := square_plane (ids := ⟨0, 1, 2, 3, 4⟩) ho (ex_axis (k := 4) (by decide)) (ex_axis (k := 3) (by decide)) (by decide)
  refine ⟨_, C127_square (adj := fun _ => List.range (sources ((List.range 4).map fun i : Nat => (i : ℝ)).length 1 6 m).length) ho (ex_axis (k := 4) (by decide)) (ex_axis (k := 3) (by decide))
    (ex_heights (k := 4) (by decide)) (by decide) (by decide) (by decide) ?_⟩
  intro m' M hm' hM
  rw [hm, Option.some.injEq] at hm'
  subst hm'
  exact ex_dual3 hP.planar (by simp) (fun h => (hk _ (key_of_ne h)).resolve_left (by decide)) (fun h => (hk _ (key_of_ne h)).resolve_left (by decide)) hM

/-- The same mesh used matrix-free, and extruded at order 1. -/
example : ∃ adj m M N' doms, makeSquare 4 3 (fun i => (i : ℝ)) (fun i => (i : ℝ)) ⟨0, 1, 2, 3, 4⟩ = some m ∧
    extrudedOfOrder 3 (physLoc []) closeTol adj (4 * 3) ((List.range 4).map fun i : Nat => (i : ℝ)) (coordsOf (squareEmits 4 3 (fun i => (i : ℝ)) (fun i => (i : ℝ)) ⟨0, 1, 2, 3, 4⟩)) 5 6 m
      (squareBnds ⟨0, 1, 2, 3, 4⟩) = some (M, N') ∧
    (Small (toMesh 3 M) N' → Usable 3 (toMesh 3 M) (extBnds (squareBnds ⟨0, 1, 2, 3, 4⟩) 5 6) N') ∧
    extrude (V := Unit) 12 ((List.range 4).map fun i : Nat => (i : ℝ)) (fun _ => []) 5 6 m (squareBnds ⟨0, 1, 2, 3, 4⟩) = some (doms, squareBnds ⟨0, 1, 2, 3, 4⟩ ++ [5, 6]) ∧
    Ready 2 doms (extBnds (squareBnds ⟨0, 1, 2, 3, 4⟩) 5 6) 2 (12 * 4) := by
  have ho : OrderOk 3 [] 3 := ⟨by decide, by decide, fun h => absurd h (by decide)⟩
  obtain ⟨m, hm, hP, hk, ha⟩ := square_plane (ids := ⟨0, 1, 2, 3, 4⟩) ho (ex_axis (k := 4) (by decide)) (ex_axis (k := 3) (by decide)) (by decide)
  have hb : els m 5 ≠ [] → 5 ∈ squareBnds ⟨0, 1, 2, 3, 4⟩ := fun h => (hk _ (key_of_ne h)).resolve_left (by decide)
  have hf : els m 6 ≠ [] → 6 ∈ squareBnds ⟨0, 1, 2, 3, 4⟩ := fun h => (hk _ (key_of_ne h)).resolve_left (by decide)
  obtain ⟨M, N', h1, _, h2⟩ := C127_matrix_free hP (ex_heights (k := 4) (by decide)) ho.bound hb hf (fun M hM => ex_dual3 hP.planar (by simp) hb hf hM) ha (by decide +kernel)
  obtain ⟨doms, h3, h4, _⟩ := C127_ready (V := Unit) (zs := (List.range 4).map fun i : Nat => (i : ℝ)) hP.planar (by simp) (fun _ => []) hb hf
  refine ⟨_, m, M, N', doms, hm, h1, fun hs => (h2 hs).1, h3, ?_⟩
  simpa using h4

end
end Verif.ExtGen
