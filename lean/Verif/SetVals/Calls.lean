import Verif.SetVals.Lemmas

/-! # Lemmas for C124: points of calls -/
namespace Verif.SetVals
open Verif Verif.Elem Verif.Mesh Verif.Dofs Verif.Reach Verif.NodeVals Verif.Pipeline Verif.Partition Verif.MfPipe

noncomputable section
variable {K : Type} {c : Call K}

theorem node_gEl {e : Element} {n : Nat} : (∃ pt ∈ gEl e, pt.node = n) ↔ n ∈ e.nodes := by
  unfold gEl elPts
  constructor
  · rintro ⟨pt, hpt, rfl⟩
    obtain ⟨q, hq, rfl⟩ := List.mem_map.1 hpt
    exact List.mem_of_getElem? (List.mem_zipIdx_iff_getElem?.1 hq)
  · intro hn
    obtain ⟨i, hi, he⟩ := List.mem_iff_getElem.1 hn
    exact ⟨_, List.mem_map.2 ⟨(n, i), by rw [List.mk_mem_zipIdx_iff_getElem?, List.getElem?_eq_getElem hi, he], rfl⟩, rfl⟩

theorem node_gSide {e : Element} (hw : WfElement e) {s : Nat} {pt : Pt} (h : pt ∈ gSide (e, s)) : pt.node ∈ e.nodes := by
  unfold gSide sidePts at h
  obtain ⟨i, hi, rfl⟩ := List.mem_map.1 h
  cases hs : sideNodeInds e.ty e.n s with
  | none => rw [hs] at hi; simp at hi
  | some inds =>
    rw [hs] at hi
    have := Partition.sideInds_lt hw hs i hi
    change e.nodes.getD i 0 ∈ e.nodes
    rw [List.getD_eq_getElem?_getD, List.getElem?_eq_getElem this]
    exact List.getElem_mem this

theorem node_side {m : DomMap} (hk : KeysNodup m) {x e : Element} {s : Nat} (hx : viewOf m x = some (e, s)) (n : Nat) : (∃ pt ∈ gSide (e, s), pt.node = n) ↔ n ∈ x.nodes := by
  obtain ⟨_, l, hl, hpm⟩ := viewOf_some hk hx
  rw [← hpm.mem_iff]
  unfold sideNodes at hl
  obtain ⟨inds, hin, rfl⟩ := Option.map_eq_some_iff.1 hl
  unfold gSide sidePts
  simp only [hin, Option.getD_some, List.mem_map]
  constructor
  · rintro ⟨_, ⟨i, hi, rfl⟩, rfl⟩
    exact ⟨i, hi, rfl⟩
  · rintro ⟨i, hi, rfl⟩
    exact ⟨_, ⟨i, hi, rfl⟩, rfl⟩

theorem view_holds {m : DomMap} (hk : KeysNodup m) {x e : Element} {s : Nat} (hx : viewOf m x = some (e, s)) : Holds m e := by
  obtain ⟨⟨d, hd, _, v, hv, he⟩, _⟩ := viewOf_some hk hx
  exact ⟨d, hd, v, hv, he⟩

theorem pts_dom {m : DomMap} {L : List Pt} (hb : c.boundary = false) (hL : c.pts m = some L) {pt : Pt} (hpt : pt ∈ L) :
    ∃ k ∈ c.ids, ∃ e, InDom m k e ∧ pt.node ∈ e.nodes := by
  unfold Call.pts at hL
  simp only [hb, Bool.false_eq_true, if_false] at hL
  unfold asmDom DimCheck.assemble at hL
  by_cases hx : DimCheck.checkDim m c.ids c.dim = true
  · rw [if_pos hx, Option.map_some] at hL
    obtain rfl := Option.some.inj hL
    obtain ⟨e, he, hpe⟩ := List.mem_flatMap.1 hpt
    obtain ⟨k, hk, hke⟩ := mem_visitIds.1 (List.mem_filter.1 he).1
    exact ⟨k, hk, e, hke, node_gEl.1 ⟨pt, hpe, rfl⟩⟩
  · rw [if_neg hx] at hL; simp at hL

theorem pts_bnd {m : DomMap} {L : List Pt} (hb : c.boundary = true) (hL : c.pts m = some L) {pt : Pt} (hpt : pt ∈ L) :
    ∃ x ∈ visitIds m c.ids, ∃ e s, viewOf m x = some (e, s) ∧ pt ∈ gSide (e, s) := by
  unfold Call.pts at hL
  simp only [hb, if_true] at hL
  unfold asmBnd DimCheck.assembleBnd at hL
  by_cases hx : DimCheck.checkDim m c.ids (c.dim - 1) = true
  · rw [if_pos hx, Option.map_some] at hL
    obtain rfl := Option.some.inj hL
    obtain ⟨v, hv, hpe⟩ := List.mem_flatMap.1 hpt
    obtain ⟨x, hx, hxv⟩ := List.mem_filterMap.1 (List.mem_filter.1 hv).1
    exact ⟨x, hx, v.1, v.2, hxv, hpe⟩
  · rw [if_neg hx] at hL; simp at hL

theorem pts_node {m : DomMap} (hk : KeysNodup m) (hels : ∀ e, Holds m e → WfElement e) {L : List Pt} (hL : c.pts m = some L) {pt : Pt} (hpt : pt ∈ L) : NodeIn m pt.node := by
  cases hb : c.boundary with
  | false =>
    obtain ⟨k, _, e, he, hn⟩ := pts_dom hb hL hpt
    exact ⟨e, inDom_holds he, hn⟩
  | true =>
    obtain ⟨x, _, e, s, hx, hp⟩ := pts_bnd hb hL hpt
    exact ⟨e, view_holds hk hx, node_gSide (hels e (view_holds hk hx)) hp⟩

variable {kinds : List (ElType × Nat)} {m : DomMap} {bnds : List Nat} {D N nParts : Nat} {parts : List Split.Part} {f : Nat → Nat} {maps : List DomMap} {p : Prog}

theorem pts_active (hm : MeshOk kinds m bnds D) (hc : c.Ok p m bnds) {L : List Pt} (hL : c.pts m = some L) {pt : Pt} (hpt : pt ∈ L) {j : Nat} (hj : j ∈ c.inds) :
    p.unknown m (pt.node, j) := by
  cases hb : c.boundary with
  | false =>
    obtain ⟨k, hk, e, he, hn⟩ := pts_dom hb hL hpt
    obtain ⟨d, hd, hkd, hsub⟩ := hc.active hb k hk
    exact ⟨d, hd, hsub hj, e, mem_visitIds.2 ⟨k, hkd, he⟩, hn⟩
  | true =>
    have hkeys := Split.wf_keys hm.wf
    obtain ⟨x, hx, e, s, hxv, hp⟩ := pts_bnd hb hL hpt
    have hh := view_holds hkeys hxv
    obtain ⟨k, hk⟩ := (holds_iff_inDom hm.wf).1 hh
    obtain ⟨d, hd, hkd, hsub⟩ := hc.bactive hb x hx e s hxv k hk
    exact ⟨d, hd, hsub hj, e, mem_visitIds.2 ⟨k, hkd, hk⟩, node_gSide (hm.els e hh) hp⟩

/-- An unknown has a dof, which is at its place among all dofs. -/
theorem unknown_dof (hp : p.Ok m bnds) (R : Result bnds m N nParts parts f maps) {k : Nat × Nat} (hk : p.unknown m k) :
    (p.setup parts).all[p.dof parts (f k.1, k.2)]? = some (f k.1, k.2) := by
  obtain ⟨d, hd, hj, e, he, hn⟩ := hk
  obtain ⟨i, hi, hin⟩ := mem_visitIds.1 he
  obtain ⟨r, ⟨m', hm', hin'⟩, _⟩ := R.uniq i e hin
  have hr : r < nParts := by rw [← R.len]; exact (List.getElem?_eq_some_iff.1 hm').1
  have hs := setup_ok hp R
  have hlen : r < (p.setup parts).counts.length := by rw [setup_length p R]; exact hr
  have hmap : mapAt maps r = m' := by unfold mapAt; rw [hm']; rfl
  have hpart : InDom (part parts r).doms i (mapEl f e) := by
    rw [part_doms R, inDom_mapDoms, hmap]
    exact ⟨e, hin', rfl⟩
  have hn' : f k.1 ∈ (mapEl f e).nodes := List.mem_map.2 ⟨k.1, hn, rfl⟩
  obtain ⟨g, hg⟩ := dof_of_visit hp R hr hd hi hpart hn' hj
  have hkn := nodeIn_knows p R hr ⟨_, inDom_holds hpart, hn'⟩
  rw [dofs_iff hs hlen _ _ (knows_local hkn), rep_eq] at hg
  have hlt : f k.1 < (p.setup parts).counts.sum := local_lt hs hlen (knows_local hkn)
  obtain ⟨o1, o2⟩ := owns_owner hlt
  have h2 : (p.setup parts).dofs ((p.setup parts).owner (f k.1)) (f k.1) k.2 = some g := by
    rw [dofs_iff hs o1 _ _ (Or.inl o2), rep_eq]; exact hg
  unfold Prog.dof
  rw [h2]; exact hg

theorem part_keys (R : Result bnds m N nParts parts f maps) {r : Nat} (hr : r < nParts) : KeysNodup (part parts r).doms := by
  rw [part_doms R]; exact Pipeline.keys_mapDoms (R.wf _ (mapAt_mem R hr))

theorem part_els (R : Result bnds m N nParts parts f maps) {r : Nat} (hr : r < nParts) (hw : ∀ q ∈ parts, WfMesh kinds q.doms) {e : Element} (he : Holds (part parts r).doms e) : WfElement e := by
  obtain ⟨k, hk⟩ := (holds_iff_inDom (hw _ (List.mem_of_getElem? (MfPipe.part_get R hr)))).1 he
  obtain ⟨e0, h1, _, rfl⟩ := inDom_part R hk
  have h := R.els _ (holds_part R (inDom_holds h1))
  exact ⟨h.pos, h.small, by change (e0.nodes.map f).length = _; rw [List.length_map]; exact h.len⟩

/-- The points of the ranks together are those of the mesh. -/
theorem ranks_pts (hm : MeshOk kinds m bnds D) (hu : UniqueParent m bnds) (R : Result bnds m N nParts parts f maps) (hw : ∀ q ∈ parts, WfMesh kinds q.doms)
    (hfill : ∀ q ∈ parts, Filled q.doms) (hc : c.Ok p m bnds) {L : List Pt} (hL : c.pts m = some L) :
    ∃ Ls : Nat → List Pt, (∀ r < nParts, c.pts (part parts r).doms = some (Ls r)) ∧ ((List.range nParts).flatMap Ls).Perm (L.map (Pt.map f)) := by
  have hids := hc.ids
  unfold Call.pts at hL ⊢
  cases hb : c.boundary with
  | false =>
    simp only [hb, Bool.false_eq_true, if_false] at hL ⊢
    exact ranks_domain hm R hw hfill hL
  | true =>
    simp only [hb, if_true] at hL hids ⊢
    exact ranks_boundary hm hu R hw hfill hids.1 hL

theorem ranks_known (hm : MeshOk kinds m bnds D) (hp : p.Ok m bnds) (R : Result bnds m N nParts parts f maps) (hw : ∀ q ∈ parts, WfMesh kinds q.doms)
    (hc : c.Ok p m bnds) {L : List Pt} (hL : c.pts m = some L) {Ls : Nat → List Pt} (h1 : ∀ r < nParts, c.pts (part parts r).doms = some (Ls r))
    (h2 : ((List.range nParts).flatMap Ls).Perm (L.map (Pt.map f))) {r : Nat} (hr : r < nParts) : Known (p.setup parts) r c.inds (Ls r) := by
  intro pt hpt
  have hs := setup_ok hp R
  have hlen : r < (p.setup parts).counts.length := by rw [setup_length p R]; exact hr
  have hkn := nodeIn_knows p R hr (pts_node (part_keys R hr) (fun e he => part_els R hr hw he) (h1 r hr) hpt)
  refine ⟨hkn, fun j hj => ?_⟩
  obtain ⟨pt0, h0, rfl⟩ := List.mem_map.1 (h2.mem_iff.1 (List.mem_flatMap.2 ⟨r, List.mem_range.2 hr, hpt⟩))
  have := unknown_dof hp R (pts_active hm hc hL h0 hj)
  exact ⟨_, (dofs_iff hs hlen j _ (knows_local hkn)).2 this⟩

theorem contribsAt_renamed (hm : MeshOk kinds m bnds D) (R : Result bnds m N nParts parts f maps) {L : List Pt} (hL : c.pts m = some L) {k : Nat × Nat} (hk : k.1 < N) (F : Kern K) :
    ((L.map (Pt.map f)).flatMap fun pt => (c.inds.zipIdx.filter fun q => decide (pt.node = f k.1 ∧ q.1 = k.2)).map fun q => F.at pt q.2) =
      L.flatMap fun pt => (c.inds.zipIdx.filter fun q => decide (pt.node = k.1 ∧ q.1 = k.2)).map fun q => F.at pt q.2 := by
  rw [List.flatMap_map]
  refine List.flatMap_congr fun pt hpt => ?_
  have hn : pt.node < N := (R.nodes _).1 (pts_node (Split.wf_keys hm.wf) hm.els hL hpt)
  have : ∀ j, (f pt.node = f k.1 ∧ j = k.2) ↔ (pt.node = k.1 ∧ j = k.2) := fun j => and_congr_left fun _ => ⟨fun h => R.bij.2.1 hn hk h, fun h => by rw [h]⟩
  have h2 : (c.inds.zipIdx.filter fun q => decide ((Pt.map f pt).node = f k.1 ∧ q.1 = k.2)) = c.inds.zipIdx.filter fun q => decide (pt.node = k.1 ∧ q.1 = k.2) :=
    List.filter_congr fun q _ => decide_eq_decide.2 (this q.1)
  rw [h2]; rfl

/-- The elements zeroed have the nodes of the points. -/
theorem zero_nodes (R : Result bnds m N nParts parts f maps) (hw : ∀ q ∈ parts, WfMesh kinds q.doms) (hc : c.Ok p m bnds) {r : Nat} (hr : r < nParts)
    {L : List Pt} (hL : c.pts (part parts r).doms = some L) (n : Nat) : (∃ pt ∈ asmConst (part parts r).doms c.ids, pt.node = n) ↔ ∃ pt ∈ L, pt.node = n := by
  have hmem : part parts r ∈ parts := List.mem_of_getElem? (MfPipe.part_get R hr)
  have hkeys := part_keys R hr
  have hconst : (∃ pt ∈ asmConst (part parts r).doms c.ids, pt.node = n) ↔ ∃ x ∈ visitIds (part parts r).doms c.ids, n ∈ x.nodes := by
    unfold asmConst
    constructor
    · rintro ⟨pt, hpt, rfl⟩
      obtain ⟨x, hx, hp⟩ := List.mem_flatMap.1 hpt
      exact ⟨x, hx, node_gEl.1 ⟨pt, hp, rfl⟩⟩
    · rintro ⟨x, hx, hn⟩
      obtain ⟨pt, hpt, h⟩ := node_gEl.2 hn
      exact ⟨pt, List.mem_flatMap.2 ⟨x, hx, hpt⟩, h⟩
  have hdim : ∀ {dim : Nat}, DimCheck.checkDim (part parts r).doms c.ids dim = true → ∀ x ∈ visitIds (part parts r).doms c.ids, x.ty.dim = dim := by
    intro dim hx x hxm
    obtain ⟨k, hk, d, hd, he⟩ := mem_visitIds.1 hxm
    have h1 := List.all_eq_true.1 hx k hk
    unfold DimCheck.checkOne at h1
    rw [hd] at h1
    have h2 := ((hw _ hmem).dom _ _ hd).dim x he
    simp only [beq_iff_eq] at h1
    exact Option.some.inj (h2.symm.trans h1)
  rw [hconst]
  have hids := hc.ids
  unfold Call.pts at hL
  cases hb : c.boundary with
  | false =>
    simp only [hb, Bool.false_eq_true, if_false] at hL
    unfold asmDom DimCheck.assemble at hL
    by_cases hx : DimCheck.checkDim (part parts r).doms c.ids c.dim = true
    · rw [if_pos hx, Option.map_some] at hL
      obtain rfl := Option.some.inj hL
      constructor
      · rintro ⟨x, hxm, hn⟩
        obtain ⟨pt, hpt, h⟩ := node_gEl.2 hn
        exact ⟨pt, List.mem_flatMap.2 ⟨x, List.mem_filter.2 ⟨hxm, decide_eq_true (hdim hx x hxm).symm⟩, hpt⟩, h⟩
      · rintro ⟨pt, hpt, rfl⟩
        obtain ⟨x, hxm, hp⟩ := List.mem_flatMap.1 hpt
        exact ⟨x, (List.mem_filter.1 hxm).1, node_gEl.1 ⟨pt, hp, rfl⟩⟩
    · rw [if_neg hx] at hL; simp at hL
  | true =>
    simp only [hb, if_true] at hL hids
    unfold asmBnd DimCheck.assembleBnd at hL
    have hviews : ViewsOk (part parts r).doms bnds := by
      rw [part_doms R]
      exact viewsOk_mapDoms (fun e he => R.els e (holds_part R he)) (R.views _ (mapAt_mem R hr))
    by_cases hx : DimCheck.checkDim (part parts r).doms c.ids (c.dim - 1) = true
    · rw [if_pos hx, Option.map_some] at hL
      obtain rfl := Option.some.inj hL
      constructor
      · rintro ⟨x, hxm, hn⟩
        obtain ⟨b, hbm, d, hd, he⟩ := mem_visitIds.1 hxm
        cases hv : viewOf (part parts r).doms x with
        | none => exact absurd ((hviews b (hids.1 hbm) d hd).2.2 x he) ((viewOf_none hkeys).1 hv)
        | some v =>
          obtain ⟨pt, hpt, h⟩ := (node_side (e := v.1) (s := v.2) hkeys hv n).2 hn
          refine ⟨pt, List.mem_flatMap.2 ⟨v, List.mem_filter.2 ⟨List.mem_filterMap.2 ⟨x, hxm, hv⟩, decide_eq_true ?_⟩, hpt⟩, h⟩
          obtain ⟨⟨d', hd', hdd, u, hu, hev⟩, _⟩ := viewOf_some (e := v.1) (s := v.2) hkeys hv
          have h2 := ((hw _ hmem).dom _ _ (Mesh.lookup_of_mem hkeys hd')).dim v.1 (List.mem_flatten.2 ⟨u, hu, hev⟩)
          have h3 := hdim hx x hxm
          have h4 : v.1.ty.dim = x.ty.dim + 1 := Option.some.inj (h2.symm.trans hdd)
          have := hids.2.2
          omega
      · rintro ⟨pt, hpt, rfl⟩
        obtain ⟨v, hv, hp⟩ := List.mem_flatMap.1 hpt
        obtain ⟨x, hxm, hxv⟩ := List.mem_filterMap.1 (List.mem_filter.1 hv).1
        exact ⟨x, hxm, (node_side (e := v.1) (s := v.2) hkeys hxv pt.node).1 ⟨pt, hp, rfl⟩⟩
    · rw [if_neg hx] at hL; simp at hL

theorem atDof_nil {dofs : Nat → Nat → Option Nat} {inds : List Nat} {F : Kern K} {L : List Pt} {l : Nat} :
    atDof (entriesOf dofs inds F L) l = [] ↔ ∀ n, (∃ pt ∈ L, pt.node = n) → ∀ j ∈ inds, (dofs n j).getD 0 ≠ l := by
  rw [List.eq_nil_iff_forall_not_mem]
  constructor
  · rintro h n ⟨pt, hpt, rfl⟩ j hj he
    obtain ⟨i, hi, hji⟩ := List.mem_iff_getElem.1 hj
    refine h (F.at pt i) (mem_atDof.2 (List.mem_flatMap.2 ⟨pt, hpt, List.mem_map.2 ⟨(j, i), ?_, ?_⟩⟩))
    · rw [List.mk_mem_zipIdx_iff_getElem?, List.getElem?_eq_getElem hi, hji]
    · rw [he]
  · intro h g hg
    obtain ⟨pt, hpt, hq⟩ := List.mem_flatMap.1 (mem_atDof.1 hg)
    obtain ⟨q, hq, he⟩ := List.mem_map.1 hq
    exact h pt.node ⟨pt, hpt, rfl⟩ q.1 (List.mem_of_getElem? (List.mem_zipIdx_iff_getElem?.1 hq)) (congrArg Prod.fst he)

end
end Verif.SetVals
