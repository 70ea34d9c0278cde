import Verif.GmshGen.Model
import Verif.GmshGen.Props

/-! # Property C141: Gmsh files read into meshes of any order -/
namespace Verif.GmshGen
open Verif Verif.Elem Verif.Mesh Verif.Gmsh Verif.GmshText Verif.Partition Verif.Merge Verif.Extrude Verif.Split Verif.Gen Verif.Pipeline Verif.Convert Verif.Basis Verif.Poly

noncomputable section

/-- The geometry of a mesh is valid, and it can be converted: what C34 requires, without what follows from reading a file (numbering of nodes and elements, one position per node).
(`convertMeshToOrder`, ConvertMeshToOrder.hpp) -/
structure Valid (n : Nat) (roots : List ℂ) (adj : Nat → List Nat) (M : DMap VData) : Prop where
  two : 2 ≤ n
  bound : ∀ e ∈ (visit M).map (·.2), n ^ e.ty.dim < 2 ^ 16
  eig : 4 ≤ n → LobattoRoots n roots
  inj : ∀ e ∈ (visit M).map (·.2), ∀ ξ ξ', InCell e.ty ξ → InCell e.ty ξ' → image e.ty e.data ξ = image e.ty e.data ξ' → ∀ a, a < e.ty.dim → ξ a = ξ' a
  meets : ∀ e ∈ (visit M).map (·.2), ∀ e' ∈ (visit M).map (·.2), e.id ≠ e'.id → Meets e e'
  adj : DualOf adj M
  sep : ∀ e ∈ (visit M).map (·.2), ∀ e' ∈ (visit M).map (·.2), ∀ p ∈ physLoc roots e.ty n e.data, ∀ q ∈ physLoc roots e'.ty n e'.data, closeTol p q = true → p = q

theorem wf_withData {doms : DomMap} {dat : Nat → VData} (wf : Mesh.WfMesh Extrude.kinds1 doms) (hasc : ∀ k d, doms.lookup k = some d → ∀ v ∈ d.vecs, (v.map (·.id)).Pairwise (· < ·)) :
    Convert.WfMesh (withData dat doms) := by
  have hsd : OMap.Sorted doms := wf.sorted
  have hmem : ∀ d ∈ doms, doms.lookup d.1 = some d.2 := fun d hd => (mem_lookup hsd).2 hd
  have hg : ∀ (v : List (List Element)) (f : Element → El VData) t, (v.map fun v => v.map f).getD (tyIdx t) [] = (v.getD (tyIdx t) []).map f := by
    intro v f t
    rw [List.getD_eq_getElem?_getD, List.getD_eq_getElem?_getD, List.getElem?_map]
    cases v[tyIdx t]? <;> rfl
  refine ⟨sorted_withData hsd, ?_, ?_, ?_, ?_⟩
  · intro d hd
    obtain ⟨d', hd', rfl⟩ := List.mem_map.1 hd
    simpa [Extrude.kinds1] using (wf.dom _ _ (hmem d' hd')).len
  · intro d hd t e he
    obtain ⟨d', hd', rfl⟩ := List.mem_map.1 hd
    rw [hg] at he
    obtain ⟨y, hy, rfl⟩ := List.mem_map.1 he
    have hlen := (wf.dom _ _ (hmem d' hd')).len
    have hlt : tyIdx t < d'.2.vecs.length := by rw [hlen]; cases t <;> decide
    rw [List.getD_eq_getElem?_getD, List.getElem?_eq_getElem hlt] at hy
    have := (wf.dom _ _ (hmem d' hd')).kind _ hlt y hy
    have ht : ∀ t, (Extrude.kinds1[tyIdx t]?).map (·.1) = some t := by intro t; cases t <;> rfl
    have ht' := ht t
    rw [List.getElem?_eq_getElem (by rw [← hlen]; exact hlt), ← this] at ht'
    exact Option.some.inj ht'
  · intro d hd t
    obtain ⟨d', hd', rfl⟩ := List.mem_map.1 hd
    rw [hg]
    refine List.pairwise_map.2 ?_
    by_cases hlt : tyIdx t < d'.2.vecs.length
    · rw [List.getD_eq_getElem?_getD, List.getElem?_eq_getElem hlt]
      exact List.pairwise_map.1 (hasc d'.1 d'.2 (hmem d' hd') _ (List.getElem_mem hlt))
    · rw [List.getD_eq_getElem?_getD, List.getElem?_eq_none (by omega)]
      exact List.Pairwise.nil
  · intro d hd e he
    obtain ⟨d', hd', rfl⟩ := List.mem_map.1 hd
    simp only [← List.map_flatten] at he
    obtain ⟨y, hy, rfl⟩ := List.mem_map.1 he
    exact (wf.dom _ _ (hmem d' hd')).dim y hy

/-- Position of node `v` in the file. -/
def fileX (nodes : List (Nat × Gmsh.Pt ℝ)) (v c : Nat) : ℝ := ((nodes[v]?).map fun p => if c = 0 then p.2.x else if c = 1 then p.2.y else p.2.z).getD 0

variable {entities : List ((Nat × Nat) × Nat)} {nodes : List (Nat × Gmsh.Pt ℝ)} {blocks : List Block} {bnds : List Nat} {D : Nat}

/-- **C141** (any order).  A file with a conforming mesh whose geometry is valid is read and converted to any order, and the result is ready for distribution. -/
theorem C141_any_order {n : Nat} {roots : List ℂ} {adj : Nat → List Nat} (eps : ℝ) (h : Conforming entities nodes blocks bnds D) (hnd : ∀ g ∈ gels blocks, g.2.Nodup)
    (hv : ∀ M, imported eps entities nodes blocks = some M → Valid n roots adj M) :
    ∃ M N, importedOfOrder n (physLoc roots) closeTol adj eps entities nodes blocks = some (M, N) ∧ Ready n (toMesh n M) bnds D N ∧ SameAnswer n (toMesh n M) bnds := by
  obtain ⟨doms', hr', R, -⟩ := C141_mesh eps h
  obtain ⟨doms, evs, hr, hevs, W, hF, hels, hids, hasc⟩ := C33_read eps h.ok
  obtain rfl : doms' = doms := Option.some.inj (hr'.symm.trans hr)
  change List.Forall₂ _ (gels blocks) evs at hF
  have hM : imported eps entities nodes blocks = some (withData (vertsOf evs) doms') := by
    unfold imported; rw [hevs, Option.bind_some, hr]; rfl
  have V := hv _ hM
  have hlen : (gels blocks).length = evs.length := hF.length_eq
  -- every element with its vertices
  have key : ∀ e ∈ (visit (withData (vertsOf evs) doms')).map (·.2), ∃ y : Element, (∃ k, InDom doms' k y) ∧ e = ⟨y.ty, y.id, y.nodes, vertsOf evs y.id⟩ ∧
      ∃ info : List (Nat × Gmsh.Pt ℝ), ∃ g ∈ gels blocks, List.Forall₂ (fun t i => nodes[i.1]? = some (t, i.2)) g.2 info ∧ (arrange eps y.ty info).Perm info ∧ info.length = 2 ^ y.ty.dim ∧
        y.n = 2 ∧ y.nodes = (arrange eps y.ty info).map (·.1) ∧ (evs[y.id]?).map (·.2.2) = some ((arrange eps y.ty info).map (·.2)) := by
    intro e he
    obtain ⟨⟨k, e'⟩, hq, rfl⟩ := List.mem_map.1 he
    obtain ⟨y, hy, rfl⟩ := (mem_visit_withData W.sorted).1 hq
    refine ⟨y, ⟨k, hy⟩, rfl, ?_⟩
    rw [← mem_els, (hels k).mem_iff, List.mem_map] at hy
    obtain ⟨⟨ev, i⟩, hm, rfl⟩ := hy
    have hi : evs[i]? = some ev := List.mem_zipIdx_iff_getElem?.1 (List.mem_filter.1 hm).1
    obtain ⟨hlt, rfl⟩ := List.getElem?_eq_some_iff.1 hi
    have hlt' : i < (gels blocks).length := by rw [hlen]; exact hlt
    have I : Imports eps entities nodes (gels blocks)[i] evs[i] := (List.forall₂_iff_get.1 hF).2 i hlt' hlt
    obtain ⟨info', hE⟩ := elt_of h.ok (List.getElem_mem hlt') I i
    obtain ⟨-, -, h2, info, h3, h4, h5⟩ := I
    refine ⟨info, _, List.getElem_mem hlt', h3, arrange_perm _ _ _, ?_, h2, h4, ?_⟩
    · have a := hE.len
      have b : (gels blocks)[i].2.length = info'.length := by conv_lhs => rw [hE.tags]
                                                              simp
      rw [← h3.length_eq, b]; exact a
    · change (evs[i]?).map _ = _
      rw [hi, Option.map_some, h5]
  have hn2 : ∀ y, Holds doms' y → y.n = 2 := by
    intro y hy
    obtain ⟨k, hk⟩ := (holds_iff_inDom W).1 hy
    rw [← mem_els, (hels k).mem_iff, List.mem_map] at hk
    obtain ⟨⟨ev, i⟩, hm, rfl⟩ := hk
    have hi : evs[i]? = some ev := List.mem_zipIdx_iff_getElem?.1 (List.mem_filter.1 hm).1
    obtain ⟨hlt, rfl⟩ := List.getElem?_eq_some_iff.1 hi
    have hlt' : i < (gels blocks).length := by rw [hlen]; exact hlt
    exact ((List.forall₂_iff_get.1 hF).2 i hlt' hlt).2.2.1
  have W' : Convert.WfMesh (withData (vertsOf evs) doms') := wf_withData W hasc
  have hT : toMesh 2 (withData (vertsOf evs) doms') = doms' := toMesh_withData _ hn2
  have G : GeoMesh n roots adj nodes.length (fileX nodes) ((visit (withData (vertsOf evs) doms')).map (·.2)) := by
    refine ⟨V.two, V.bound, V.eig, ?_, ?_, ?_, ?_, V.inj, V.meets, V.adj, V.sep⟩
    · intro e he
      obtain ⟨y, -, rfl, info, g, hg, h3, hp, hl, -, h4, -⟩ := key e he
      refine ⟨?_, ?_⟩
      · change y.nodes.length = _
        rw [h4, List.length_map, hp.length_eq, hl]
      · change y.nodes.Nodup
        rw [h4, (hp.map _).nodup_iff]
        have := hnd g hg
        rw [(info_tags h.ok.tags h3).1] at this
        exact this.of_map
    · intro e he v hv
      obtain ⟨y, -, rfl, info, g, hg, h3, hp, hl, -, h4, -⟩ := key e he
      have hv : v ∈ y.nodes := hv
      rw [h4, (hp.map _).mem_iff] at hv
      exact (info_tags h.ok.tags h3).2.2 v hv
    · have h2 := tagged_toMesh (n := 2) W'.sorted
      rw [hT] at h2
      have h3 := hids.nodup_iff.2 List.nodup_range
      rw [visitAll, visitIds_tagged, List.map_map, h2, List.map_map] at h3
      rw [List.map_map]
      exact h3
    · intro e he k hk c hc
      obtain ⟨y, -, rfl, info, g, hg, h3, hp, hl, -, h4, h5⟩ := key e he
      have hk' : k < (arrange eps y.ty info).length := by rw [hp.length_eq, hl]; exact hk
      obtain ⟨t, -, ht⟩ : ∃ t, t ∈ g.2 ∧ nodes[((arrange eps y.ty info)[k]).1]? = some (t, ((arrange eps y.ty info)[k]).2) := by
        have hm : (arrange eps y.ty info)[k] ∈ info := hp.mem_iff.1 (List.getElem_mem hk')
        obtain ⟨j, hj, hje⟩ := List.mem_iff_getElem.1 hm
        have hj' : j < g.2.length := by rw [h3.length_eq]; exact hj
        refine ⟨g.2[j], List.getElem_mem hj', ?_⟩
        rw [← hje]
        exact (List.forall₂_iff_get.1 h3).2 j hj' hj
      change vertsOf evs y.id k c = fileX nodes (y.nodes.getD k 0) c
      obtain ⟨ev, hev, hev2⟩ := Option.map_eq_some_iff.1 h5
      unfold vertsOf fileX
      rw [hev, Option.bind_some, hev2, h4]
      simp only [List.getD_eq_getElem?_getD, List.getElem?_map, List.getElem?_eq_getElem hk', Option.map_some, Option.getD_some, ht]
  obtain ⟨M', N, h1, h2⟩ := C119_conversion W' G (by rw [hT]; exact R)
  refine ⟨M', N, ?_, h2, h2.answer⟩
  unfold importedOfOrder
  rw [hM, Option.bind_some]
  exact h1

/-! ## Example: the unit square with its four sides, quadratic -/

def sqEntities : List ((Nat × Nat) × Nat) := [((2, 1), 0), ((1, 1), 1), ((1, 2), 2), ((1, 3), 3), ((1, 4), 4)]
def sqNodes : List (Nat × Gmsh.Pt ℝ) := [(10, ⟨0, 0, 0⟩), (20, ⟨1, 0, 0⟩), (30, ⟨0, 1, 0⟩), (40, ⟨1, 1, 0⟩)]
def sqBlocks : List Block := [⟨2, 1, 3, [[10, 20, 40, 30]]⟩, ⟨1, 1, 1, [[10, 20]]⟩, ⟨1, 2, 1, [[30, 40]]⟩, ⟨1, 3, 1, [[10, 30]]⟩, ⟨1, 4, 1, [[20, 40]]⟩]

def sqEvents : List (Nat × Element × List (Gmsh.Pt ℝ)) :=
  [(0, ⟨.quad, 2, 0, [0, 1, 2, 3]⟩, [⟨0, 0, 0⟩, ⟨1, 0, 0⟩, ⟨0, 1, 0⟩, ⟨1, 1, 0⟩]), (1, ⟨.line, 2, 0, [0, 1]⟩, [⟨0, 0, 0⟩, ⟨1, 0, 0⟩]),
   (2, ⟨.line, 2, 0, [2, 3]⟩, [⟨0, 1, 0⟩, ⟨1, 1, 0⟩]), (3, ⟨.line, 2, 0, [0, 2]⟩, [⟨0, 0, 0⟩, ⟨0, 1, 0⟩]), (4, ⟨.line, 2, 0, [1, 3]⟩, [⟨1, 0, 0⟩, ⟨1, 1, 0⟩])]

theorem sq_arrange (eps : ℝ) : arrange eps .quad [(0, (⟨0, 0, 0⟩ : Gmsh.Pt ℝ)), (1, ⟨1, 0, 0⟩), (3, ⟨1, 1, 0⟩), (2, ⟨0, 1, 0⟩)] = [(0, ⟨0, 0, 0⟩), (1, ⟨1, 0, 0⟩), (2, ⟨0, 1, 0⟩), (3, ⟨1, 1, 0⟩)] := by
  have : upsideDown [(⟨0, 0, 0⟩ : Gmsh.Pt ℝ), ⟨1, 0, 0⟩, ⟨0, 1, 0⟩, ⟨1, 1, 0⟩] = false := by unfold upsideDown; norm_num
  unfold arrange
  dsimp only [swap, List.getElem?_cons_succ, List.getElem?_cons_zero, List.set, List.map]
  exact if_neg (by rw [this, Bool.and_false]; decide)

theorem sq_events (eps : ℝ) : readEvents eps sqEntities sqNodes sqBlocks = some sqEvents := by
  have h : blockEvents eps sqEntities (parseNodes sqNodes) ⟨2, 1, 3, [[10, 20, 40, 30]]⟩ =
      some [(0, ⟨.quad, 2, 0, (arrange eps .quad [(0, (⟨0, 0, 0⟩ : Gmsh.Pt ℝ)), (1, ⟨1, 0, 0⟩), (3, ⟨1, 1, 0⟩), (2, ⟨0, 1, 0⟩)]).map (·.1)⟩,
        (arrange eps .quad [(0, (⟨0, 0, 0⟩ : Gmsh.Pt ℝ)), (1, ⟨1, 0, 0⟩), (3, ⟨1, 1, 0⟩), (2, ⟨0, 1, 0⟩)]).map (·.2))] := rfl
  rw [sq_arrange] at h
  unfold readEvents sqBlocks
  rw [List.mapM_cons, h]
  rfl

abbrev sqIds : Prim.SquareIds := ⟨0, 1, 2, 3, 4⟩

theorem sq_mesh (eps : ℝ) : Gmsh.readMesh eps sqEntities sqNodes sqBlocks = Prim.makeSquare 2 2 (fun i => (i : ℝ)) (fun i => (i : ℝ)) sqIds := by
  unfold Gmsh.readMesh
  rw [sq_events]
  rfl

theorem sq_verts : vertsOf sqEvents = coordsOf (Prim.squareEmits 2 2 (fun i => (i : ℝ)) (fun i => (i : ℝ)) sqIds) := by
  have he : Prim.squareEmits 2 2 (fun i => (i : ℝ)) (fun i => (i : ℝ)) sqIds = sqEvents.map fun ev => ⟨ev.1, ev.2.1.ty, ev.2.1.nodes, ev.2.2.map fun p => (p.x, p.y, p.z)⟩ := by
    simp [Prim.squareEmits, Prim.squareArea, Prim.squareX, Prim.squareY, sqEvents, sqIds, List.range_succ]
  rw [he]
  funext id k c
  unfold vertsOf coordsOf
  rw [List.getElem?_map]
  cases sqEvents[id]? with
  | none => rfl
  | some ev =>
    simp only [Option.map_some, Option.bind_some, List.getElem?_map]
    cases ev.2.2[k]? <;> rfl

theorem sq_conforming : Conforming sqEntities sqNodes sqBlocks [1, 2, 3, 4] 1 := by
  have hG : gels sqBlocks = [(⟨2, 1, 3, [[10, 20, 40, 30]]⟩, [10, 20, 40, 30]), (⟨1, 1, 1, [[10, 20]]⟩, [10, 20]), (⟨1, 2, 1, [[30, 40]]⟩, [30, 40]), (⟨1, 3, 1, [[10, 30]]⟩, [10, 30]),
    (⟨1, 4, 1, [[20, 40]]⟩, [20, 40])] := rfl
  have only : ∀ (x : Block × List Nat) (j : Nat), elType x.1.type = some .line → (∀ j', j' < 4 → ((((gmshSides .quad).getD j' []).map fun i => [10, 20, 40, 30].getD i 0).Perm x.2 ↔ j' = j)) → j < 4 →
      ∃! p : Nat × Nat, ∃ g, (gels sqBlocks)[p.1]? = some g ∧ Borders g p.2 x := by
    intro x j hx hj hlt
    have hs : ∀ j', j' < 4 → (gmshSides .quad)[j']? = some ((gmshSides .quad).getD j' []) := by
      intro j' h'
      rw [List.getD_eq_getElem?_getD, List.getElem?_eq_getElem (show j' < (gmshSides .quad).length from h')]; rfl
    refine ⟨(0, j), ⟨_, rfl, .quad, .line, _, rfl, hx, rfl, hs j hlt, (hj j hlt).2 rfl⟩, ?_⟩
    rintro ⟨i, j'⟩ ⟨g, hg, ty, tx, l, h1, h2, h3, h4, h5⟩
    obtain rfl : tx = .line := (Option.some.inj (h2.symm.trans hx))
    have hq : i = 0 := by
      rw [hG] at hg
      obtain ⟨hi, rfl⟩ := List.getElem?_eq_some_iff.1 hg
      have hi5 : i < 5 := hi
      rcases i with _ | _ | _ | _ | _ | i
      · rfl
      all_goals first | omega | (obtain rfl : ty = .line := (Option.some.inj h1).symm; exact absurd h3 (by decide))
    subst hq
    obtain rfl := Option.some.inj hg
    obtain rfl : ty = .quad := (Option.some.inj h1).symm
    have h4' : j' < 4 := (List.getElem?_eq_some_iff.1 h4).1
    obtain rfl := Option.some.inj ((hs j' h4').symm.trans h4)
    rw [(hj j' h4').1 h5]
  refine ⟨⟨?_, ?_, ?_⟩, ?_, by decide, ?_, ?_⟩
  · simp [sqNodes]
  · intro b hb
    simp only [sqBlocks, List.mem_cons, List.not_mem_nil, or_false] at hb
    rcases hb with rfl | rfl | rfl | rfl | rfl
    · exact ⟨0, .quad, rfl, rfl, by simp [sqNodes, ElType.dim]⟩
    · exact ⟨1, .line, rfl, rfl, by simp [sqNodes, ElType.dim]⟩
    · exact ⟨2, .line, rfl, rfl, by simp [sqNodes, ElType.dim]⟩
    · exact ⟨3, .line, rfl, rfl, by simp [sqNodes, ElType.dim]⟩
    · exact ⟨4, .line, rfl, rfl, by simp [sqNodes, ElType.dim]⟩
  · intro b hb b' hb' dom ty ty' h1 h2 h3 h4
    have key : ∀ b ∈ sqBlocks, ∀ b' ∈ sqBlocks, sqEntities.lookup (b.dim, b.tag) = sqEntities.lookup (b'.dim, b'.tag) → elType b.type = elType b'.type := by decide
    have := key b hb b' hb' (h1.trans h2.symm)
    rw [h3, h4] at this
    rw [Option.some.inj this]
  · intro p hp
    simp only [sqNodes, List.mem_cons, List.not_mem_nil, or_false] at hp
    refine ⟨(⟨2, 1, 3, [[10, 20, 40, 30]]⟩, [10, 20, 40, 30]), by rw [hG]; simp, ?_⟩
    rcases hp with rfl | rfl | rfl | rfl <;> simp
  · intro b hb
    simp only [List.mem_cons, List.not_mem_nil, or_false] at hb
    rcases hb with rfl | rfl | rfl | rfl
    · exact ⟨(⟨1, 1, 1, [[10, 20]]⟩, [10, 20]), by rw [hG]; simp, rfl, .line, rfl, rfl⟩
    · exact ⟨(⟨1, 2, 1, [[30, 40]]⟩, [30, 40]), by rw [hG]; simp, rfl, .line, rfl, rfl⟩
    · exact ⟨(⟨1, 3, 1, [[10, 30]]⟩, [10, 30]), by rw [hG]; simp, rfl, .line, rfl, rfl⟩
    · exact ⟨(⟨1, 4, 1, [[20, 40]]⟩, [20, 40]), by rw [hG]; simp, rfl, .line, rfl, rfl⟩
  · intro b hb x hx hdom
    rw [hG] at hx
    simp only [List.mem_cons, List.not_mem_nil, or_false] at hx
    rcases hx with rfl | rfl | rfl | rfl | rfl
    · obtain rfl : 0 = b := Option.some.inj hdom
      exact absurd hb (by decide)
    · exact only _ 0 rfl (by decide) (by decide)
    · exact only _ 2 rfl (by decide) (by decide)
    · exact only _ 3 rfl (by decide) (by decide)
    · exact only _ 1 rfl (by decide) (by decide)

example : ∃ M N, importedOfOrder 3 (physLoc []) closeTol (fun _ => List.range (squareBoxes 2 2 sqIds).length) (1 / 10 ^ 9 : ℝ) sqEntities sqNodes sqBlocks = some (M, N) ∧
    Ready 3 (toMesh 3 M) [1, 2, 3, 4] 1 N ∧ SameAnswer 3 (toMesh 3 M) [1, 2, 3, 4] := by
  refine C141_any_order _ sq_conforming (by decide) ?_
  intro M hM
  have hg : IsGrid ![2, 2, 1] wxy 0 (squareBoxes 2 2 sqIds) := square_grid (nx := 2) (ny := 2) (ids := sqIds) (by decide) (by decide) (by unfold Gen.SquareIds.Ok; decide)
  obtain ⟨m, h1, h2⟩ := built_of (P := ![fun i => (i : ℝ), fun i => (i : ℝ), fun _ => 0]) hg (Prim.SquareIds.list sqIds)
  have ax := ex_axis (k := 2) (by decide)
  have hm : Prim.makeSquare 2 2 (fun i => (i : ℝ)) (fun i => (i : ℝ)) sqIds = some m := by rw [Prim.makeSquare, squareEmits_eq]; exact h1
  unfold imported at hM
  rw [sq_events, Option.bind_some, sq_mesh, hm, Option.map_some, sq_verts, squareEmits_eq] at hM
  obtain rfl := Option.some.inj hM
  have hinc : Increasing ![2, 2, 1] ![fun i => (i : ℝ), fun i => (i : ℝ), fun _ => 0] := by
    intro c i hi
    fin_cases c
    · exact ax.inc i hi
    · exact ax.inc i hi
    · exact absurd hi (by simp)
  have hsep : Separated 3 [] ![2, 2, 1] ![fun i => (i : ℝ), fun i => (i : ℝ), fun _ => 0] := by
    intro c
    fin_cases c
    · exact ax.sep
    · exact ax.sep
    · exact zero_sep 3 []
  have G := geo_grid (N := 3) (roots := []) (adj := fun _ => List.range (squareBoxes 2 2 sqIds).length) hg h2 hinc (by decide) (by decide) (fun h => absurd h (by decide)) hsep (ex_dual hg h1)
  exact ⟨G.two, G.bound, G.eig, G.inj, G.meets, G.adj, G.sep⟩

end
end Verif.GmshGen
