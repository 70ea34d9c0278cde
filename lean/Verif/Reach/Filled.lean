import Verif.Reach.Lemmas
import Verif.MfPipe.Rank

/-! # Lemmas for C123: no domain of a distributed mesh is empty on any rank -/
namespace Verif.Reach
open Verif Verif.Elem Verif.Mesh Verif.MfPipe Verif.Pipeline Verif.Partition

noncomputable section

/-- Invariant of domains filled by pushing. -/
structure Pushed (kinds : List (ElType × Nat)) (m : DomMap) : Prop where
  sorted : OMap.Sorted m
  dom : ∀ k d, m.lookup k = some d → d.vecs.length = kinds.length ∧ d.elems ≠ []

theorem pushed_pushTo {kinds : List (ElType × Nat)} {m m' : DomMap} {ev : Nat × Element} (h : Pushed kinds m) (hp : pushTo kinds m ev = some m') : Pushed kinds m' := by
  obtain ⟨d, hd, rfl⟩ := Option.map_eq_some_iff.1 hp
  have hlen : ((m.lookup ev.1).getD (emptyDom kinds)).vecs.length = kinds.length := by
    cases hl : m.lookup ev.1 with
    | none => simp [emptyDom]
    | some d0 => exact (h.dom _ _ hl).1
  generalize (m.lookup ev.1).getD (emptyDom kinds) = d0 at hd hlen
  refine ⟨OMap.sorted_upd h.sorted _ _, fun k d' hk => ?_⟩
  rw [OMap.lookup_upd h.sorted] at hk
  by_cases hke : k = ev.1
  · rw [if_pos hke] at hk
    obtain rfl := Option.some.inj hk
    unfold Domain.push at hd
    simp only at hd
    by_cases hc : d0.dim.getD ev.2.ty.dim ≠ ev.2.ty.dim
    · rw [if_pos hc] at hd; simp at hd
    · rw [if_neg hc] at hd
      cases hi : kinds.findIdx? (· == (ev.2.ty, ev.2.n)) with
      | none => rw [hi] at hd; simp at hd
      | some i =>
        rw [hi] at hd
        obtain rfl := Option.some.inj hd
        have hlt : i < d0.vecs.length := by
          rw [hlen]
          exact (List.findIdx?_eq_some_iff_getElem.1 hi).1
        refine ⟨by simpa using hlen, ?_⟩
        refine List.ne_nil_of_mem (a := ev.2) (List.mem_flatten.2 ⟨d0.vecs.getD i [] ++ [ev.2], ?_, by simp⟩)
        exact List.mem_iff_getElem.2 ⟨i, by simpa using hlt, by simp⟩
  · rw [if_neg hke] at hk
    exact h.dom k d' hk

theorem pushed_parts {kinds : List (ElType × Nat)} (evs : List (Nat × Nat × Element)) {maps maps' : List DomMap} (h : ∀ m ∈ maps, Pushed kinds m)
    (hp : pushParts kinds maps evs = some maps') : ∀ m ∈ maps', Pushed kinds m := by
  induction evs generalizing maps with
  | nil =>
    obtain rfl := Option.some.inj hp
    exact h
  | cons ev evs ih =>
    unfold pushParts at hp
    rw [List.foldlM_cons] at hp
    obtain ⟨m1, h1, h2⟩ := Option.bind_eq_some_iff.1 hp
    refine ih (maps := m1) ?_ h2
    unfold pushPart at h1
    obtain ⟨m, hm, h3⟩ := Option.bind_eq_some_iff.1 h1
    obtain ⟨m', hm', rfl⟩ := Option.map_eq_some_iff.1 h3
    intro x hx
    rcases List.mem_or_eq_of_mem_set hx with hx | rfl
    · exact h x hx
    · exact pushed_pushTo (h m (List.mem_of_getElem? hm)) hm'

theorem distribute_pushed {kinds : List (ElType × Nat)} {m : DomMap} {bnds : List Nat} {nParts : Nat} {epart perm : List Nat}
    {shuffle : List (Nat × Nat × Element) → List (Nat × Nat × Element)} {maps : List DomMap} (h : distribute kinds m bnds nParts epart perm shuffle = some maps) :
    ∀ m' ∈ maps, Pushed kinds m' := by
  unfold distribute at h
  simp only [Option.bind_eq_some_iff] at h
  obtain ⟨evs, _, maps1, h1, bevs, _, h2⟩ := h
  refine pushed_parts _ (pushed_parts _ ?_ h1) h2
  intro x hx
  obtain rfl := List.eq_of_mem_replicate hx
  exact ⟨by simp [OMap.Sorted], fun k d hd => by simp at hd⟩

theorem filled_mapDoms {m : DomMap} (g : Nat → Nat) (h : Filled m) : Filled (mapDoms g m) := by
  intro k d hd
  rw [lookup_mapDoms] at hd
  obtain ⟨d0, h0, rfl⟩ := Option.map_eq_some_iff.1 hd
  obtain ⟨e, he⟩ := List.exists_mem_of_ne_nil _ (h k d0 h0)
  obtain ⟨v, hv, hev⟩ := List.mem_flatten.1 he
  exact List.ne_nil_of_mem (List.mem_flatten.2 ⟨v.map (mapEl g), List.mem_map.2 ⟨v, hv, rfl⟩, List.mem_map.2 ⟨e, hev, rfl⟩⟩)

/-- No rank has an empty domain. -/
theorem outcome_filled {kinds : List (ElType × Nat)} {m : DomMap} {bnds : List Nat} {D : Nat} (h : MeshOk kinds m bnds D) (hone : OneSided m bnds) (hfill : Filled m)
    {Q : List Split.Part → List Nat → Prop} {nParts : Nat} {parts : List Split.Part} {f : Nat → Nat} (ho : Outcome Q kinds m bnds nParts parts f) :
    ∀ q ∈ parts, Filled q.doms := by
  induction ho with
  | whole N hN views =>
    intro q hq
    obtain rfl := List.mem_singleton.1 hq
    exact hfill
  | parts nParts epart npart perm hl shuffle ord hshuf hord parts φ hp =>
    intro q hq
    obtain ⟨parts', φ', f, maps, h1, _, R, _, _, _, _, hd⟩ := partition_more h hone hl shuffle ord hshuf hord
    rw [hp] at h1
    obtain ⟨rfl, rfl⟩ := Prod.mk.inj (Option.some.inj h1)
    obtain ⟨i, hi, rfl⟩ := List.mem_iff_getElem.1 hq
    have hm : i < maps.length := by rw [R.len, ← R.plen]; exact hi
    rw [R.doms i _ _ (List.getElem?_eq_getElem hm) (List.getElem?_eq_getElem hi)]
    exact filled_mapDoms _ fun k d hk => ((distribute_pushed hd _ (List.getElem_mem hm)).dom k d hk).2
  | reordered nParts parts f ho src hsrc hQ parts' h' ih =>
    intro q hq
    obtain ⟨i, _, hi⟩ := (mapM_mem h').2 q hq
    unfold reindexed at hi
    obtain ⟨o, _, rfl⟩ := Option.map_eq_some_iff.1 hi
    refine filled_mapDoms _ ?_
    unfold part
    cases hc : parts[i]? with
    | none => exact fun k d hk => by simp at hk
    | some q' => exact ih q' (List.mem_of_getElem? hc)

variable {kinds : List (ElType × Nat)} {m : DomMap} {bnds : List Nat} {D N nParts : Nat} {parts : List Split.Part} {f : Nat → Nat} {maps : List DomMap}

theorem inDom_part (R : Result bnds m N nParts parts f maps) {r k : Nat} {e' : Element} (he : InDom (part parts r).doms k e') :
    ∃ e, InDom (mapAt maps r) k e ∧ InDom m k e ∧ e' = mapEl f e := by
  obtain ⟨d, hd, hed⟩ := he
  rw [part_doms R, lookup_mapDoms] at hd
  obtain ⟨d0, h0, rfl⟩ := Option.map_eq_some_iff.1 hd
  obtain ⟨v, hv, hev⟩ := List.mem_flatten.1 hed
  obtain ⟨v0, hv0, rfl⟩ := List.mem_map.1 hv
  obtain ⟨e, he0, rfl⟩ := List.mem_map.1 hev
  have h1 : InDom (mapAt maps r) k e := ⟨d0, h0, List.mem_flatten.2 ⟨v0, hv0, he0⟩⟩
  exact ⟨e, h1, (inDom_mapAt R h1).2.2, rfl⟩

theorem check_part (hm : MeshOk kinds m bnds D) (R : Result bnds m N nParts parts f maps) (hw : ∀ q ∈ parts, WfMesh kinds q.doms)
    (hfill : ∀ q ∈ parts, Filled q.doms) {ids : List Nat} {dim : Nat} (hc : DimCheck.checkDim m ids dim = true) {r : Nat} (hr : r < nParts) :
    DimCheck.checkDim (part parts r).doms ids dim = true := by
  have hmem : part parts r ∈ parts := List.mem_of_getElem? (MfPipe.part_get R hr)
  unfold DimCheck.checkDim
  rw [List.all_eq_true]
  intro k hk
  unfold DimCheck.checkOne
  cases hd : (part parts r).doms.lookup k with
  | none => rfl
  | some d =>
    obtain ⟨e', he'⟩ := List.exists_mem_of_ne_nil _ (hfill _ hmem k d hd)
    have h1 := ((hw _ hmem).dom _ _ hd).dim e' he'
    obtain ⟨e, _, ⟨d0, h0, he0⟩, rfl⟩ := inDom_part R ⟨d, hd, he'⟩
    have h2 := List.all_eq_true.1 hc k hk
    unfold DimCheck.checkOne at h2
    rw [h0] at h2
    simp only [beq_iff_eq] at h2 ⊢
    rw [(hm.wf.dom _ _ h0).dim e he0] at h2
    rw [h1, ← h2]; rfl

/-- The points of the elements of the ranks together are those of the mesh, renamed. -/
theorem ranks_domain (hm : MeshOk kinds m bnds D) (R : Result bnds m N nParts parts f maps) (hw : ∀ q ∈ parts, WfMesh kinds q.doms)
    (hfill : ∀ q ∈ parts, Filled q.doms) {ids : List Nat} {dim : Nat} {L : List Pt} (hL : asmDom m ids dim = some L) :
    ∃ Ls : Nat → List Pt, (∀ r < nParts, asmDom (part parts r).doms ids dim = some (Ls r)) ∧ ((List.range nParts).flatMap Ls).Perm (L.map (Pt.map f)) := by
  unfold asmDom DimCheck.assemble at hL
  by_cases hx : DimCheck.checkDim m ids dim = true
  · rw [if_pos hx, Option.map_some] at hL
    obtain rfl := Option.some.inj hL
    refine ⟨fun r => (DimCheck.applied (part parts r).doms ids dim).flatMap gEl, fun r hr => by
      unfold asmDom DimCheck.assemble
      rw [if_pos (check_part hm R hw hfill hx hr)]; rfl, ?_⟩
    have key : ∀ r, (DimCheck.applied (part parts r).doms ids dim).flatMap gEl =
        ((visitIds (mapAt maps r) ids).filter fun e => decide (dim = e.ty.dim)).flatMap fun e => (gEl e).map (Pt.map f) := by
      intro r
      unfold DimCheck.applied
      rw [part_doms R, visit_mapDoms, List.filter_map, List.flatMap_map]
      refine List.flatMap_congr fun e _ => ?_
      exact elPts_map f e
    simp only [key]
    have h1 := (visit_perm hm R ids).filter fun e => decide (dim = e.ty.dim)
    rw [List.filter_flatMap] at h1
    have h2 := h1.flatMap_right fun e => (gEl e).map (Pt.map f)
    rw [List.flatMap_assoc] at h2
    rw [List.map_flatMap]
    exact h2
  · rw [if_neg hx] at hL; simp at hL

theorem ranks_boundary (hm : MeshOk kinds m bnds D) (hu : UniqueParent m bnds) (R : Result bnds m N nParts parts f maps) (hw : ∀ q ∈ parts, WfMesh kinds q.doms)
    (hfill : ∀ q ∈ parts, Filled q.doms) {ids : List Nat} (hids : ids ⊆ bnds) {dim : Nat} {L : List Pt} (hL : asmBnd m ids dim = some L) :
    ∃ Ls : Nat → List Pt, (∀ r < nParts, asmBnd (part parts r).doms ids dim = some (Ls r)) ∧ ((List.range nParts).flatMap Ls).Perm (L.map (Pt.map f)) := by
  unfold asmBnd DimCheck.assembleBnd at hL
  by_cases hx : DimCheck.checkDim m ids (dim - 1) = true
  · rw [if_pos hx, Option.map_some] at hL
    obtain rfl := Option.some.inj hL
    refine ⟨fun r => (DimCheck.appliedBnd (part parts r).doms ids dim).flatMap gSide, fun r hr => by
      unfold asmBnd DimCheck.assembleBnd
      rw [if_pos (check_part hm R hw hfill hx hr)]; rfl, ?_⟩
    have hwf : ∀ v ∈ (visitIds m ids).filterMap (viewOf m), WfElement v.1 := by
      intro v hv
      obtain ⟨x, _, hxv⟩ := List.mem_filterMap.1 hv
      obtain ⟨⟨d, hd, _, w, hw, he⟩, _⟩ := viewOf_some (e := v.1) (s := v.2) R.keys hxv
      exact hm.els _ ⟨d, hd, w, hw, he⟩
    have hall := visit_perm hm R ids
    have hv := hall.filterMap (viewOf m)
    rw [List.filterMap_flatMap] at hv
    have key : ∀ r ∈ List.range nParts, (DimCheck.appliedBnd (part parts r).doms ids dim).flatMap gSide =
        (((visitIds (mapAt maps r) ids).filterMap (viewOf m)).filter fun v => decide (dim = v.1.ty.dim)).flatMap fun v => (gSide v).map (Pt.map f) := by
      intro r hr
      unfold DimCheck.appliedBnd
      rw [part_doms R, views_renamed R hu hids, List.filter_map, List.flatMap_map, views_part R hu hids]
      refine List.flatMap_congr fun v hv' => ?_
      have : v ∈ (visitIds m ids).filterMap (viewOf m) := hv.mem_iff.1 (List.mem_flatMap.2 ⟨r, hr, (List.mem_filter.1 hv').1⟩)
      exact sidePts_map f (hwf v this) v.2
    rw [List.flatMap_congr key]
    have h1 := hv.filter fun v => decide (dim = v.1.ty.dim)
    rw [List.filter_flatMap] at h1
    have h2 := h1.flatMap_right fun v => (gSide v).map (Pt.map f)
    rw [List.flatMap_assoc] at h2
    rw [List.map_flatMap]
    exact h2
  · rw [if_neg hx] at hL; simp at hL

end

end Verif.Reach
