import Verif.MergeGen.Many
import Verif.Gen.Boxes
import Verif.Cyl.Props

/-! # Deformed squares as meshes to be merged -/
namespace Verif.MergeGen
open Verif Verif.Elem Verif.Mesh Verif.Split Verif.Partition Verif.Merge Verif.Gen Verif.Pipeline Verif.Prim Verif.Cyl

theorem ptOf_inj {p q : ℝ × ℝ × ℝ} (h : ptOf p = ptOf q) : p = q := by
  obtain ⟨a, b, c⟩ := p
  obtain ⟨a', b', c'⟩ := q
  simpa [ptOf] using h

theorem number_deform (F : Cyl.Pt → Cyl.Pt) (l : List (Emit Cyl.Pt)) : number (deform F l) = number l := by
  unfold number deform
  rw [List.zipIdx_map, List.map_map]
  rfl

theorem nodes_deform (F : Cyl.Pt → Cyl.Pt) (l : List (Emit Cyl.Pt)) : (deform F l).flatMap (·.nodes) = l.flatMap (·.nodes) := by
  unfold deform
  rw [List.flatMap_map]

/-- Vertex of a node of the square. -/
noncomputable def nodeAt (F : Cyl.Pt → Cyl.Pt) (xs ys : List ℝ) (v : Nat) : Cyl.Pt := v0 F xs ys (v % xs.length) (v / xs.length)

theorem nodeAt_eq {F : Cyl.Pt → Cyl.Pt} {xs ys : List ℝ} {v i j : Nat} (hi : i < xs.length) (h : v = xs.length * j + i) : nodeAt F xs ys v = v0 F xs ys i j := by
  subst h
  unfold nodeAt
  rw [Nat.mul_add_mod, Nat.mod_eq_of_lt hi, Nat.mul_add_div (by omega), Nat.div_eq_of_lt hi, Nat.add_zero]

theorem verts_eq {F : Cyl.Pt → Cyl.Pt} {xs ys : List ℝ} {ids : SquareIds} {e : Emit Cyl.Pt} (hx : 0 < xs.length) (he : e ∈ deform F (square xs ys ids)) : e.verts = e.nodes.map (nodeAt F xs ys) := by
  obtain ⟨e0, h0, _, _, h3, h4⟩ := mem_deform he
  rw [h3, h4]
  unfold square squareEmits at h0
  rcases List.mem_append.1 h0 with h0 | h0
  · rcases List.mem_append.1 h0 with h0 | h0
    · simp only [squareArea, List.mem_flatMap, List.mem_map, List.mem_range] at h0
      obtain ⟨iy, hy, ix, hx, rfl⟩ := h0
      simp only [List.map_cons, List.map_nil]
      rw [nodeAt_eq (i := ix) (j := iy) (by omega) rfl, nodeAt_eq (i := ix + 1) (j := iy) (by omega) (by omega), nodeAt_eq (i := ix) (j := iy + 1) (by omega) rfl,
        nodeAt_eq (i := ix + 1) (j := iy + 1) (by omega) (by omega)]
      rfl
    · simp only [squareY, List.mem_flatMap, List.mem_range] at h0
      obtain ⟨ix, hi, h0⟩ := h0
      simp only [List.mem_cons, List.not_mem_nil, or_false] at h0
      rcases h0 with rfl | rfl
      · simp only [List.map_cons, List.map_nil]
        rw [nodeAt_eq (i := ix) (j := 0) (by omega) (by simp), nodeAt_eq (i := ix + 1) (j := 0) (by omega) (by simp)]
        rfl
      · simp only [List.map_cons, List.map_nil]
        rw [nodeAt_eq (i := ix) (j := ys.length - 1) (by omega) (by omega), nodeAt_eq (i := ix + 1) (j := ys.length - 1) (by omega) (by omega)]
        rfl
  · simp only [squareX, List.mem_flatMap, List.mem_range] at h0
    obtain ⟨iy, hi, h0⟩ := h0
    simp only [List.mem_cons, List.not_mem_nil, or_false] at h0
    rcases h0 with rfl | rfl
    · simp only [List.map_cons, List.map_nil]
      rw [nodeAt_eq (i := 0) (j := iy) (by omega) (by rw [Nat.mul_comm]; rfl), nodeAt_eq (i := 0) (j := iy + 1) (by omega) (by rw [Nat.mul_comm]; rfl)]
      rfl
    · simp only [List.map_cons, List.map_nil]
      rw [nodeAt_eq (i := xs.length - 1) (j := iy) (by omega) (by rw [Nat.mul_comm]), nodeAt_eq (i := xs.length - 1) (j := iy + 1) (by omega) (by rw [Nat.mul_comm])]
      rfl

theorem lookup_consistent {g : Nat → Cyl.Pt} {l : List (Nat × Cyl.Pt)} (h : ∀ q ∈ l, q.2 = g q.1) {v : Nat} (hv : v ∈ l.map (·.1)) : l.lookup v = some (g v) := by
  induction l with
  | nil => simp at hv
  | cons q l ih =>
    obtain ⟨a, p⟩ := q
    rw [List.lookup_cons]
    by_cases hva : v = a
    · subst hva
      simp only [beq_self_eq_true]
      exact congrArg some (h (v, p) (by simp))
    · rw [beq_eq_false_iff_ne.2 hva]
      simp only [List.map_cons, List.mem_cons, hva, false_or] at hv
      exact ih (fun q hq => h q (by simp [hq])) hv

variable {F : Cyl.Pt → Cyl.Pt} {xs ys : List ℝ} {ids : SquareIds}

theorem vertexOf_eq (hx : 0 < xs.length) {e : Emit Cyl.Pt} (he : e ∈ deform F (square xs ys ids)) {v : Nat} (hv : v ∈ e.nodes) :
    vertexOf (deform F (square xs ys ids)) v = ptOf (nodeAt F xs ys v) := by
  unfold vertexOf
  rw [lookup_consistent (g := nodeAt F xs ys)]
  · rfl
  · intro q hq
    obtain ⟨e', he', hq⟩ := List.mem_flatMap.1 hq
    rw [verts_eq hx he', List.zip_map_right, List.mem_map] at hq
    obtain ⟨⟨a, b⟩, hab, rfl⟩ := hq
    have : a = b := by
      obtain ⟨i, hi⟩ := List.mem_iff_getElem?.1 hab
      rw [List.getElem?_zip_eq_some] at hi
      exact Option.some.inj (hi.1.symm.trans hi.2)
    subst this
    rfl
  · rw [List.map_flatMap, List.mem_flatMap]
    refine ⟨e, he, ?_⟩
    rw [List.map_fst_zip (by rw [verts_eq hx he, List.length_map])]
    exact hv

theorem map_vertexOf (hx : 0 < xs.length) {e : Emit Cyl.Pt} (he : e ∈ deform F (square xs ys ids)) :
    e.nodes.map (vertexOf (deform F (square xs ys ids))) = e.verts.map ptOf := by
  rw [verts_eq hx he, List.map_map]
  exact List.map_congr_left fun v hv => vertexOf_eq hx he hv

/-- What the mesh of a deformed square is. -/
structure Quad (F : Cyl.Pt → Cyl.Pt) (xs ys : List ℝ) (ids : SquareIds) (M : LMesh) : Prop where
  located : Located 1 M
  bnds : bids M.part = squareBnds ids
  keys : ∀ k ∈ M.part.doms.map (·.1), k ∈ ids.list
  cells : ∀ k ty ps, Cell M.part M.pos k ty ps ↔ ∃ e ∈ deform F (square xs ys ids), e.dom = k ∧ e.ty = ty ∧ e.verts.map ptOf = ps

theorem ready_square {n m : Nat} {dx dy : Nat → ℝ} (hn : 2 ≤ n) (hm : 2 ≤ m) (hd : ids.domain ∉ [ids.bottom, ids.top, ids.left, ids.right]) :
    ∃ D, makeSquare n m dx dy ids = some D ∧ Built ids.list (number (squareEmits n m dx dy ids)) D ∧ GoodEmits (squareEmits n m dx dy ids) ∧ Ready 2 D (squareBnds ids) 1 (n * m) := by
  have hg := square_grid hn hm hd
  have he := squareEmits_eq n m dx dy ids
  obtain ⟨D, h1, h2⟩ := built_of (P := ![dx, dy, fun _ => 0]) hg ids.list
  have hnn : (![n, m, 1] : Fin 3 → Nat) 0 * (![n, m, 1] : Fin 3 → Nat) 1 * (![n, m, 1] : Fin 3 → Nat) 2 = n * m := by simp
  refine ⟨D, by rw [makeSquare, he]; exact h1, by rw [he]; exact h2, by rw [he]; exact hg.good, ?_⟩
  rw [← hnn]
  refine ready_grid hg h2 (Std.sortUniq_strict _) ?_
  intro b hb
  have hb : b ∈ [ids.bottom, ids.top, ids.left, ids.right] := Std.mem_sortUniq.1 hb
  refine ⟨fun h => hd (h ▸ hb), ?_⟩
  simp only [List.mem_cons, List.not_mem_nil, or_false] at hb
  rcases hb with rfl | rfl | rfl | rfl
  · exact ⟨_, (mem_squareBoxes _).2 (.inr (.inl ⟨0, by omega, .inl rfl⟩))⟩
  · exact ⟨_, (mem_squareBoxes _).2 (.inr (.inl ⟨0, by omega, .inr rfl⟩))⟩
  · exact ⟨_, (mem_squareBoxes _).2 (.inr (.inr ⟨0, by omega, .inl rfl⟩))⟩
  · exact ⟨_, (mem_squareBoxes _).2 (.inr (.inr ⟨0, by omega, .inr rfl⟩))⟩

theorem squareArea_nodup (n m : Nat) (dx dy : Nat → ℝ) : ((squareArea n m dx dy ids).map fun e => e.nodes.headD 0).Nodup := by
  unfold squareArea
  rw [List.map_flatMap, List.nodup_flatMap]
  refine ⟨fun iy _ => ?_, ?_⟩
  · rw [List.map_map]
    refine List.Nodup.map_on ?_ List.nodup_range
    intro a _ b _ hab
    simp only [Function.comp, List.headD_cons] at hab
    omega
  · refine List.Pairwise.imp_of_mem ?_ (List.nodup_range (n := m - 1))
    intro a b _ _ hab x h1 h2
    simp only [List.map_map, List.mem_map, List.mem_range, Function.comp, List.headD_cons] at h1 h2
    obtain ⟨i, hi, rfl⟩ := h1
    obtain ⟨j, hj, h⟩ := h2
    refine hab ?_
    have h3 : (n * a + i) / n = a := by rw [Nat.mul_add_div (by omega), Nat.div_eq_of_lt (by omega)]; omega
    have h4 : (n * b + j) / n = b := by rw [Nat.mul_add_div (by omega), Nat.div_eq_of_lt (by omega)]; omega
    rw [← h3, ← h, h4]

/-- Quadrilaterals with the same nodes are the same. -/
theorem area_index (hx : 2 ≤ xs.length) {i i' : Nat} {e e' : Emit Cyl.Pt} (hi : (deform F (square xs ys ids))[i]? = some e) (hi' : (deform F (square xs ys ids))[i']? = some e')
    (hd : e.ty.dim = 2) (hd' : e'.ty.dim = 2) (hp : e.nodes.Perm e'.nodes) : i = i' := by
  have key : ∀ {i : Nat} {e : Emit Cyl.Pt}, (deform F (square xs ys ids))[i]? = some e → e.ty.dim = 2 →
      ∃ e0 a, (squareArea xs.length ys.length (fun i => xs.getD i 0) (fun i => ys.getD i 0) ids)[i]? = some e0 ∧ e.nodes = [a, a + 1, a + xs.length, a + xs.length + 1] ∧ e0.nodes.headD 0 = a := by
    intro i e hi hd
    unfold deform at hi
    rw [List.getElem?_map, Option.map_eq_some_iff] at hi
    obtain ⟨e0, h0, rfl⟩ := hi
    unfold square squareEmits at h0
    rw [List.append_assoc] at h0
    rcases Nat.lt_or_ge i (squareArea xs.length ys.length (fun i => xs.getD i 0) (fun i => ys.getD i 0) ids).length with c | c
    · rw [List.getElem?_append_left c] at h0
      obtain ⟨iy, _, h1⟩ := List.mem_flatMap.1 (List.mem_of_getElem? h0)
      obtain ⟨ix, _, rfl⟩ := List.mem_map.1 h1
      refine ⟨_, xs.length * iy + ix, h0, ?_, rfl⟩
      simp only [List.cons.injEq, and_true, true_and]
      constructor <;> ring
    · rw [List.getElem?_append_right c] at h0
      have h1 := List.mem_of_getElem? h0
      exfalso
      rcases List.mem_append.1 h1 with h1 | h1
      · simp only [squareY, List.mem_flatMap, List.mem_range] at h1
        obtain ⟨ix, _, h1⟩ := h1
        simp only [List.mem_cons, List.not_mem_nil, or_false] at h1
        rcases h1 with rfl | rfl <;> simp [ElType.dim] at hd
      · simp only [squareX, List.mem_flatMap, List.mem_range] at h1
        obtain ⟨ix, _, h1⟩ := h1
        simp only [List.mem_cons, List.not_mem_nil, or_false] at h1
        rcases h1 with rfl | rfl <;> simp [ElType.dim] at hd
  obtain ⟨e0, a, h1, h2, h3⟩ := key hi hd
  obtain ⟨e0', a', h1', h2', h3'⟩ := key hi' hd'
  rw [h2, h2'] at hp
  have m1 : a ∈ [a', a' + 1, a' + xs.length, a' + xs.length + 1] := hp.mem_iff.1 (by simp)
  have m2 : a' ∈ [a, a + 1, a + xs.length, a + xs.length + 1] := hp.mem_iff.2 (by simp)
  simp only [List.mem_cons, List.not_mem_nil, or_false] at m1 m2
  have haa : a = a' := by omega
  have hnd := squareArea_nodup (ids := ids) xs.length ys.length (fun i => xs.getD i 0) (fun i => ys.getD i 0)
  obtain ⟨l1, rfl⟩ := List.getElem?_eq_some_iff.1 h1
  obtain ⟨l2, rfl⟩ := List.getElem?_eq_some_iff.1 h1'
  refine (List.Nodup.getElem_inj_iff hnd (hi := by simpa using l1) (hj := by simpa using l2)).1 ?_
  rw [List.getElem_map, List.getElem_map, h3, h3', haa]

theorem quad_ok (hn : 2 ≤ xs.length) (hm : 2 ≤ ys.length) (hd : ids.domain ∉ [ids.bottom, ids.top, ids.left, ids.right])
    (hinj : ∀ i j i' j', i < xs.length → j < ys.length → i' < xs.length → j' < ys.length → v0 F xs ys i j = v0 F xs ys i' j' → i = i' ∧ j = j')
    {ord : Nat → List Element → List Element} (ho : ∀ k l, (ord k l).Perm l) :
    ∃ M, meshOf ord ids (deform F (square xs ys ids)) = some M ∧ Quad F xs ys ids M := by
  obtain ⟨D, h1, h2, hg, R⟩ := ready_square (dx := fun i => xs.getD i 0) (dy := fun i => ys.getD i 0) hn hm hd
  have hx : 0 < xs.length := by omega
  obtain ⟨B, hB⟩ : ∃ B, B = deform F (square xs ys ids) := ⟨_, rfl⟩
  have hnum : number B = number (square xs ys ids) := by rw [hB, number_deform]
  have hin : ∀ k e, e ∈ els D k ↔ ∃ ev i, B[i]? = some ev ∧ ev.dom = k ∧ e = ⟨ev.ty, 2, i, ev.nodes⟩ := by
    intro k e
    have : e ∈ els D k ↔ e ∈ Prim.sel k (number B) := by
      rw [mem_els, hnum]
      constructor
      · rintro ⟨d, hd, he⟩
        rw [h2.look] at hd
        split at hd
        · simp only [Option.some.injEq] at hd
          rw [← hd, elems_domOf (good_number hg)] at he
          exact he
        · cases hd
      · intro he
        refine ⟨domOf k (number (square xs ys ids)), ?_, (by
          have := elems_domOf (good_number hg) k
          exact this ▸ he : e ∈ (domOf k (number (squareEmits xs.length ys.length (fun i => xs.getD i 0) (fun i => ys.getD i 0) ids))).elems)⟩
        rw [h2.look, if_pos (.inr (List.mem_map.2 ⟨_, Prim.mem_sel.1 he, rfl⟩))]
        rfl
    rw [this, Prim.mem_sel, mem_number]
    constructor
    · rintro ⟨ev, i, hi, he⟩
      simp only [Prod.mk.injEq] at he
      exact ⟨ev, i, hi, he.1.symm, he.2⟩
    · rintro ⟨ev, i, hi, rfl, rfl⟩
      exact ⟨ev, i, hi, rfl⟩
  have hnode : ∀ v, v ∈ B.flatMap (·.nodes) ↔ v < xs.length * ys.length := by
    intro v
    rw [← R.nodes v, List.mem_flatMap]
    constructor
    · rintro ⟨e, he, hv⟩
      obtain ⟨i, hi⟩ := List.mem_iff_getElem?.1 he
      exact ⟨⟨e.ty, 2, i, e.nodes⟩, (holds_iff_inDom R.ok.wf).2 ⟨e.dom, mem_els.1 ((hin _ _).2 ⟨e, i, hi, rfl, rfl⟩)⟩, hv⟩
    · rintro ⟨e, he, hv⟩
      obtain ⟨k, hk⟩ := (holds_iff_inDom R.ok.wf).1 he
      obtain ⟨ev, i, hi, _, rfl⟩ := (hin k e).1 (mem_els.2 hk)
      exact ⟨ev, List.mem_of_getElem? hi, hv⟩
  have hcount : nodeCount B = xs.length * ys.length := by
    have hp : (Std.sortUniq (B.flatMap (·.nodes))).Perm (List.range (xs.length * ys.length)) := by
      refine (List.perm_ext_iff_of_nodup (Std.sortUniq_nodup _) List.nodup_range).2 fun v => ?_
      rw [Std.mem_sortUniq, hnode, List.mem_range]
    rw [nodeCount, hp.length_eq, List.length_range]
  obtain ⟨vs, h7, h8⟩ := initViews_ok (wf_keys R.ok.wf) (bnds := squareBnds ids) (by
    intro b hb d hd
    obtain ⟨d', hd', hdim, hne⟩ := R.ok.bnd b hb
    rw [hd, Option.some.injEq] at hd'
    subst hd'
    exact ⟨hne, fun x hx => ((R.ok.wf.dom b d hd).dim x hx).symm, R.ok.parent b hb d hd⟩) ord ho
  have hb : bids ⟨D, ⟨0, nodeCount B, []⟩, vs⟩ = squareBnds ids := h8
  have hlen : (visitAll D).length = B.length := by
    have := (built_ids hg h2).length_eq
    rw [List.length_map, List.length_range] at this
    rw [this, hB, deform, List.length_map]
    rfl
  have hpos : ∀ v, v < nodeCount B → vertexOf B v = ptOf (nodeAt F xs ys v) := by
    intro v hv
    rw [hcount] at hv
    obtain ⟨e, he, hv⟩ := List.mem_flatMap.1 ((hnode v).2 hv)
    rw [hB] at he ⊢
    exact vertexOf_eq hx he hv
  rw [← hB]
  refine ⟨⟨⟨D, ⟨0, nodeCount B, []⟩, vs⟩, nodeCount B, vertexOf B⟩, ?_, ⟨⟨?_, ⟨ord, ho, ?_⟩, ?_, ?_, ?_⟩, ?_⟩, hb, ?_, ?_⟩
  · have : Prim.build ids.list (number B) = some D := by rw [hnum]; exact h1
    simp only [meshOf, this, Option.bind_some, build, h7, Option.map_some]
  · rw [hb, hcount]; exact R
  · rw [hb]; exact h7
  · intro k e he
    obtain ⟨ev, i, hi, _, rfl⟩ := (hin k e).1 he
    rw [hlen]
    exact (List.getElem?_eq_some_iff.1 hi).1
  · intro x y hx' hy' hxy
    replace hxy : vertexOf B x = vertexOf B y := hxy
    rw [hpos x hx', hpos y hy'] at hxy
    rw [hcount] at hx' hy'
    have h3 := hinj _ _ _ _ (Nat.mod_lt x hx) (Nat.div_lt_of_lt_mul hx') (Nat.mod_lt y hx) (Nat.div_lt_of_lt_mul hy') (ptOf_inj hxy)
    rw [← Nat.mod_add_div x xs.length, ← Nat.mod_add_div y xs.length, h3.1, h3.2]
  · intro k k' e he e' he' hd hd' hp
    obtain ⟨ev, i, hi, _, rfl⟩ := (hin k e).1 he
    obtain ⟨ev', i', hi', _, rfl⟩ := (hin k' e').1 he'
    replace hd : ev.ty.dim = 2 := hd
    replace hd' : ev'.ty.dim = 2 := hd'
    replace hp : ev.nodes.Perm ev'.nodes := hp
    rw [hB] at hi hi'
    obtain rfl := area_index (by omega) hi hi' hd hd' hp
    rw [hi, Option.some.injEq] at hi'
    rw [hi']
  · intro x
    simp only [vertexOf]
    cases (B.flatMap fun e => e.nodes.zip e.verts).lookup x <;> rfl
  · intro k hk
    obtain ⟨d, hd', rfl⟩ := List.mem_map.1 hk
    have := (mem_lookup h2.sorted).2 hd'
    rw [h2.look] at this
    split at this
    · rename_i hor
      rcases hor with h3 | h3
      · exact h3
      · obtain ⟨q, hq, h4⟩ := List.mem_map.1 h3
        obtain ⟨ev, i, hi, rfl⟩ := mem_number.1 hq
        rw [← h4]
        rw [squareEmits_eq, List.getElem?_map, Option.map_eq_some_iff] at hi
        obtain ⟨b, hb, rfl⟩ := hi
        simp only [SquareIds.list, List.mem_cons, List.not_mem_nil, or_false]
        rcases (mem_squareBoxes b).1 (List.mem_of_getElem? hb) with ⟨ix, iy, _, _, rfl⟩ | ⟨ix, _, rfl | rfl⟩ | ⟨iy, _, rfl | rfl⟩ <;> simp [emitOf]
    · cases this
  · intro k ty ps
    constructor
    · rintro ⟨e, he, rfl, rfl⟩
      obtain ⟨ev, i, hi, rfl, rfl⟩ := (hin k e).1 he
      have hev := List.mem_of_getElem? hi
      refine ⟨ev, hB ▸ hev, rfl, rfl, ?_⟩
      rw [hB] at hev
      rw [← map_vertexOf hx hev, hB]
    · rintro ⟨ev, hev, rfl, rfl, rfl⟩
      obtain ⟨i, hi⟩ := List.mem_iff_getElem?.1 hev
      refine ⟨_, (hin _ _).2 ⟨ev, i, by rw [hB]; exact hi, rfl, rfl⟩, rfl, ?_⟩
      rw [← map_vertexOf hx hev, ← hB]

end Verif.MergeGen
