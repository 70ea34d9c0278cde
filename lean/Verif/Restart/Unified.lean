import Verif.Restart.OldIds
import Verif.NativeIO.Props

/-! # The mesh read back is the mesh saved, up to node numbers -/
namespace Verif.Restart
open Verif Verif.Elem Verif.Mesh Verif.Split Verif.Partition Verif.Pipeline Verif.Own Verif.NativeIO

/-- Domains of the unified mesh: the elements of the parts, pushed in turn. -/
theorem unify_lookup {kinds : List (ElType × Nat)} (hk : kinds.Nodup) {parts : List SPart} {dms : List DomMap} (h : PartsOk kinds parts dms)
    (hd : SameDims dms) : ∃ m, unify kinds parts = some (m, unifiedBnds parts) ∧ OMap.Sorted m ∧
      ∀ k, m.lookup k = if ∃ dm ∈ dms, (dm.lookup k).isSome then some (grow kinds (emptyDom kinds) (sel k (dms.flatMap partEvents))) else none := by
  have hall : ∀ dm ∈ dms, WfMesh kinds dm := by
    intro dm hdm
    obtain ⟨p, _, hp⟩ := Extrude.forall2_mem_right h hdm
    exact hp.1
  have hmk : (parts.mapM fun p => makeDomains kinds p.1) = some dms := by
    clear hd hall
    unfold PartsOk at h
    induction h with
    | nil => rfl
    | @cons p dm ps ds h1 _ ih => rw [List.mapM_cons, makeDomains_spec h1.1 h1.2.1 h1.2.2, ih]; rfl
  obtain ⟨i1, i2⟩ := init_spec kinds dms.flatten
  set m0 : DomMap := dms.flatten.foldl (fun m d => OMap.upd m d.1 fun o => o.getD (emptyDom kinds)) [] with hm0
  have hev : ∀ ev ∈ dms.flatMap partEvents, ∃ dm ∈ dms, ∃ d, dm.lookup ev.1 = some d ∧ ev.2 ∈ d.elems := by
    intro ev hev
    obtain ⟨dm, hdm, hev⟩ := List.mem_flatMap.1 hev
    exact ⟨dm, hdm, (mem_partEvents (NativeIO.sorted_keys (hall dm hdm).sorted)).1 hev⟩
  have hok : PushOk kinds m0 (dms.flatMap partEvents) := by
    refine ⟨hk, i1, fun k d hl => ?_, fun ev he => ?_, fun a ha b hb hab => ?_, fun ev _ d x hl hx => ?_⟩
    · rw [i2] at hl
      split at hl
      · rw [← Option.some.inj hl]; simp [emptyDom]
      · cases hl
    · obtain ⟨dm, hdm, d, h1, h2⟩ := hev ev he
      exact ((hall dm hdm).dom _ _ h1).mem_kind h2
    · obtain ⟨dm, hdm, d, h1, h2⟩ := hev a ha
      obtain ⟨dm', hdm', d', h1', h2'⟩ := hev b hb
      exact hd dm hdm dm' hdm' a.1 d d' h1 (hab ▸ h1') _ h2 _ h2'
    · rw [i2] at hl
      split at hl
      · rw [← Option.some.inj hl] at hx; simp [emptyDom] at hx
      · cases hl
  obtain ⟨m, p1, p2, p3⟩ := pushAll_spec hok
  have hdef : ∀ k, (m0.lookup k).getD (emptyDom kinds) = emptyDom kinds := by
    intro k; rw [i2]; split <;> rfl
  have hkey : ∀ k, k ∈ dms.flatten.map (·.1) ↔ ∃ dm ∈ dms, (dm.lookup k).isSome := by
    intro k
    constructor
    · intro hkm
      obtain ⟨d, hd', rfl⟩ := List.mem_map.1 hkm
      obtain ⟨dm, hdm, hd'⟩ := List.mem_flatten.1 hd'
      exact ⟨dm, hdm, by rw [Mesh.lookup_of_mem (NativeIO.sorted_keys (hall dm hdm).sorted) hd']; rfl⟩
    · rintro ⟨dm, hdm, hs⟩
      obtain ⟨d, hd'⟩ := Option.isSome_iff_exists.1 hs
      exact List.mem_map.2 ⟨(k, d), List.mem_flatten.2 ⟨dm, hdm, Mesh.mem_of_lookup hd'⟩, rfl⟩
  refine ⟨m, ?_, p2, fun k => ?_⟩
  · unfold unify
    rw [hmk, Option.bind_some, ← List.foldl_flatten, p1]; rfl
  · rw [p3, hdef]
    refine if_congr ?_ rfl rfl
    rw [i2]
    constructor
    · rintro (h1 | h1)
      · obtain ⟨ev, he, rfl⟩ := List.mem_map.1 h1
        obtain ⟨dm, hdm, d, h1, _⟩ := hev ev he
        exact ⟨dm, hdm, by rw [h1]; rfl⟩
      · split at h1
        · rename_i hh; exact (hkey k).1 hh
        · cases h1
    · intro h1
      right
      rw [if_pos ((hkey k).2 h1)]; rfl

/-- Domains as read from a file: no dimension is recorded for domains without elements. -/
def scrubDom (d : Domain) : Domain := ⟨if d.elems.isEmpty then none else d.dim, d.vecs⟩

def scrub (m : DomMap) : DomMap := m.map fun d => (d.1, scrubDom d.2)

theorem scrub_lookup (m : DomMap) (k : Nat) : (scrub m).lookup k = (m.lookup k).map scrubDom := by
  unfold scrub
  induction m with
  | nil => rfl
  | cons a m ih =>
    rw [List.map_cons, List.lookup_cons, List.lookup_cons]
    cases k == a.1 <;> simp [ih]

theorem scrub_wf {kinds : List (ElType × Nat)} {m : DomMap} (h : WfMesh kinds m) : WfMesh kinds (scrub m) := by
  refine ⟨h.nodup, ?_, fun k d hd => ?_⟩
  · have := h.sorted
    unfold OMap.Sorted scrub at *
    rw [List.pairwise_map]; exact this
  · rw [scrub_lookup, Option.map_eq_some_iff] at hd
    obtain ⟨d0, h0, rfl⟩ := hd
    have hw := h.dom k d0 h0
    refine ⟨hw.len, hw.kind, fun e he => ?_⟩
    have he' : e ∈ d0.elems := he
    unfold scrubDom
    rw [if_neg (by simpa using List.ne_nil_of_mem he')]
    exact hw.dim e he'

theorem scrub_clean (m : DomMap) : Clean (scrub m) := by
  intro d hd he
  obtain ⟨d0, _, rfl⟩ := List.mem_map.1 hd
  have he' : d0.2.elems = [] := he
  simp [scrubDom, he']

theorem scrub_visit (m : DomMap) (k : Nat) : visitIds (scrub m) [k] = visitIds m [k] := by
  rw [visitIds_single, visitIds_single, scrub_lookup]
  cases m.lookup k <;> rfl

theorem saved_describes (bytes : Element → List Byte) (bnds : List Nat) (p : Part) : Describes (savedPart bytes bnds p).1 (scrub p.doms) := by
  unfold Describes savedPart scrub
  rw [List.forall₂_map_left_iff, List.forall₂_map_right_iff, List.forall₂_same]
  intro d _
  refine ⟨rfl, ?_⟩
  simp only [scrubDom, List.map_map]
  exact (List.map_congr_left fun v _ => by simp [Function.comp_def]).trans (List.map_id _)

variable {kinds : List (ElType × Nat)} {bnds : List Nat} {m : DomMap} {D N nParts : Nat} {parts : List Part} {f : Nat → Nat} {maps : List DomMap}

theorem parts_range (R : Result bnds m N nParts parts f maps) : parts = (List.range nParts).map (part parts) := by
  apply List.ext_getElem (by simp [R.plen])
  intro i h1 h2
  simp [part, h1]

/-- The mesh unified from the saved parts is the mesh which was distributed, under the node numbers of its distribution. -/
theorem unified (hm : MeshOk kinds m bnds D) (R : Result bnds m N nParts parts f maps) (hwf : ∀ q ∈ parts, WfMesh kinds q.doms) (bytes : Element → List Byte)
    (hpos : 0 < nParts) : ∃ m', unify kinds ((parts.map (savedPart bytes bnds)).map norm) = some (m', bnds) ∧ Renamed kinds f N m m' ∧
      ((∀ q ∈ parts, ∀ k d, q.doms.lookup k = some d → d.elems ≠ []) → ∀ k d, m'.lookup k = some d → d.elems ≠ []) := by
  have hP : PartsOk kinds ((parts.map (savedPart bytes bnds)).map norm) (parts.map fun q => scrub q.doms) := by
    unfold PartsOk
    rw [List.map_map, List.forall₂_map_left_iff, List.forall₂_map_right_iff, List.forall₂_same]
    exact fun q hq => ⟨scrub_wf (hwf q hq), scrub_clean _, saved_describes bytes bnds q⟩
  have hfrom : ∀ q ∈ parts, ∀ k e, e ∈ visitIds q.doms [k] → ∃ e0, InDom m k e0 ∧ mapEl f e0 = e := by
    intro q hq k e he
    rw [parts_range R, List.mem_map] at hq
    obtain ⟨r, _, rfl⟩ := hq
    rw [part_doms R, visit_mapDoms, List.mem_map] at he
    obtain ⟨e0, he0, rfl⟩ := he
    exact ⟨e0, (inDom_mapAt R (mem_visit_single.1 he0)).2.2, rfl⟩
  have hD : SameDims (parts.map fun q => scrub q.doms) := by
    intro a ha b hb k d d' hd hd' e he e' he'
    obtain ⟨q, hq, rfl⟩ := List.mem_map.1 ha
    obtain ⟨q', hq', rfl⟩ := List.mem_map.1 hb
    have h1 : e ∈ visitIds q.doms [k] := by rw [← scrub_visit, visitIds_single, hd]; exact he
    have h2 : e' ∈ visitIds q'.doms [k] := by rw [← scrub_visit, visitIds_single, hd']; exact he'
    obtain ⟨x, ⟨dx, hdx, hx⟩, rfl⟩ := hfrom q hq k e h1
    obtain ⟨y, ⟨dy, hdy, hy⟩, rfl⟩ := hfrom q' hq' k e' h2
    obtain rfl := Option.some.inj (hdx.symm.trans hdy)
    have hw := hm.wf.dom k dx hdx
    exact Option.some.inj ((hw.dim x hx).symm.trans (hw.dim y hy))
  obtain ⟨m', h1, h2, h3⟩ := unify_lookup hm.wf.nodup hP hD
  have hb : unifiedBnds ((parts.map (savedPart bytes bnds)).map norm) = bnds := by
    have hne : parts ≠ [] := by rintro rfl; have := R.plen; simp at this; omega
    obtain ⟨q, qs, rfl⟩ := List.exists_cons_of_ne_nil hne
    unfold unifiedBnds
    by_cases hb : bnds = []
    · subst hb
      rw [List.find?_eq_none.2]
      · rfl
      · intro p hp
        obtain ⟨p1, hp1, rfl⟩ := List.mem_map.1 hp
        obtain ⟨p2, _, rfl⟩ := List.mem_map.1 hp1
        simp [norm, savedPart]
    · rw [List.map_cons, List.map_cons, List.find?_cons_of_pos]
      · rfl
      · simpa [norm, savedPart] using hb
  rw [hb] at h1
  have hsel : ∀ k, sel k ((parts.map fun q => scrub q.doms).flatMap partEvents) = (List.range nParts).flatMap fun r => (visitIds (mapAt maps r) [k]).map (mapEl f) := by
    intro k
    rw [sel_flatMap', List.flatMap_map]
    conv_lhs => rw [parts_range R, List.flatMap_map]
    refine List.flatMap_congr fun r hr => ?_
    have hq : part parts r ∈ parts := by rw [parts_range R]; exact List.mem_map.2 ⟨r, hr, by rw [← parts_range R]⟩
    rw [sel_partEvents (scrub_wf (hwf _ hq)).sorted, ← visitIds_single, scrub_visit, part_doms R, visit_mapDoms]
  have hmem : ∀ k e, e ∈ sel k ((parts.map fun q => scrub q.doms).flatMap partEvents) → ∃ e0, InDom m k e0 ∧ mapEl f e0 = e := by
    intro k e he
    rw [hsel, List.mem_flatMap] at he
    obtain ⟨r, _, he⟩ := he
    obtain ⟨e0, he0, rfl⟩ := List.mem_map.1 he
    exact ⟨e0, (inDom_mapAt R (mem_visit_single.1 he0)).2.2, rfl⟩
  have hren : Renamed kinds f N m m' := by
    refine ⟨hm.wf, ⟨hm.wf.nodup, h2, fun k d hd => ?_⟩, hm.els, R.nodes, R.bij, fun k => ?_⟩
    · rw [h3] at hd
      split at hd
      · rw [← Option.some.inj hd]
        refine wf_grow _ fun a ha b hb => ?_
        obtain ⟨x, ⟨dx, hdx, hx⟩, rfl⟩ := hmem k a ha
        obtain ⟨y, ⟨dy, hdy, hy⟩, rfl⟩ := hmem k b hb
        obtain rfl := Option.some.inj (hdx.symm.trans hdy)
        have hw := hm.wf.dom k dx hdx
        exact Option.some.inj ((hw.dim x hx).symm.trans (hw.dim y hy))
      · cases hd
    · have hdp := (domain_perm hm R k).map (mapEl f)
      rw [List.map_flatMap, ← hsel] at hdp
      refine List.Perm.trans ?_ hdp
      rw [visitIds_single, h3]
      by_cases hh : ∃ dm ∈ parts.map (fun q => scrub q.doms), (dm.lookup k).isSome
      · rw [if_pos hh, Option.map_some, Option.getD_some]
        refine grow_perm hm.wf.nodup _ fun e he => ?_
        obtain ⟨x, ⟨dx, hdx, hx⟩, rfl⟩ := hmem k e he
        exact (show x.kind ∈ kinds from (hm.wf.dom k dx hdx).mem_kind hx)
      · rw [if_neg hh]
        have : sel k ((parts.map fun q => scrub q.doms).flatMap partEvents) = [] := by
          rw [List.eq_nil_iff_forall_not_mem]
          intro e he
          rw [sel_flatMap', List.mem_flatMap] at he
          obtain ⟨dm, hdm, he⟩ := he
          obtain ⟨q, hq, rfl⟩ := List.mem_map.1 hdm
          rw [sel_partEvents (scrub_wf (hwf q hq)).sorted] at he
          refine hh ⟨_, hdm, ?_⟩
          cases hl : (scrub q.doms).lookup k with
          | none => rw [hl] at he; simp at he
          | some d => rfl
        rw [this]; rfl
  refine ⟨m', h1, hren, fun hfill k d hd => ?_⟩
  have hd' := hd
  rw [h3] at hd'
  split at hd'
  · rename_i hh
    obtain ⟨dm, hdm, hs⟩ := hh
    obtain ⟨q, hq, rfl⟩ := List.mem_map.1 hdm
    rw [scrub_lookup, Option.isSome_map] at hs
    obtain ⟨d0, hd0⟩ := Option.isSome_iff_exists.1 hs
    obtain ⟨e, he⟩ := List.exists_mem_of_ne_nil _ (hfill q hq k d0 hd0)
    obtain ⟨e0, he0, rfl⟩ := hfrom q hq k e (by rw [visitIds_single, hd0]; exact he)
    obtain ⟨d1, hd1, he1⟩ := hren.inDom.2 ⟨e0, he0, rfl⟩
    obtain rfl := Option.some.inj (hd1.symm.trans hd)
    exact List.ne_nil_of_mem he1
  · cases hd'

/-- All parts are read back. -/
theorem loadParts_saved {sparts : List SPart} (h : FitsFile kinds sparts) (comment old : List Byte) {ws : List (Nat × List Byte)}
    (hws : ws.Perm (saveMesh kinds comment sparts)) : loadParts kinds (File.run old ws) = some (sparts.map norm) := by
  obtain ⟨rest, hi⟩ := partInfo_run h comment old hws
  unfold loadParts
  rw [hi, Option.bind_some]
  have : sparts.map norm = (List.range sparts.length).map fun r => ((sparts[r]?).map norm).getD ([], 0, 0, []) := by
    apply List.ext_getElem (by simp)
    intro i h1 h2
    simp only [List.length_map] at h1
    simp [h1]
  rw [this, show ((sparts.map (serializeMesh kinds)).map List.length).length = sparts.length by simp]
  refine mapM_map fun r hr => ?_
  have hr' := List.mem_range.1 hr
  rw [partText_eq rest r hr', Option.bind_some, deserialize_serialize (h.fits _ (List.getElem_mem hr')), List.getElem?_eq_getElem hr']
  rfl

end Verif.Restart
