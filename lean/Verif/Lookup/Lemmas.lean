import Verif.Restart.OldIds
import Verif.Mesh.Props

/-! Order of the elements within the vectors of distributed parts. -/

namespace Verif.Lookup

open Verif Verif.Elem Verif.Mesh Verif.Split Verif.Partition Verif.Pipeline

/-- Every vector of every domain satisfying `P` lists elements in the order in which `s` lists those of the domain. -/
def Ordered (P : Nat → Prop) (s : List (Nat × Element)) (m : DomMap) : Prop :=
  OMap.Sorted m ∧ ∀ k d, P k → m.lookup k = some d → ∀ v ∈ d.vecs, v.Sublist (sel k s)

theorem sel_single (k : Nat) (ev : Nat × Element) : sel k [ev] = if ev.1 = k then [ev.2] else [] := by
  unfold sel
  by_cases h : ev.1 = k <;> simp [h]

theorem push_vecs {kinds : List (ElType × Nat)} {d d' : Domain} {e : Element} (h : d.push kinds e = some d') {v : List Element} (hv : v ∈ d'.vecs) :
    v ∈ d.vecs ∨ ∃ w, (w ∈ d.vecs ∨ w = []) ∧ v = w ++ [e] := by
  unfold Domain.push at h
  simp only at h
  split at h
  · simp at h
  · split at h
    · simp at h
    · rename_i i hi
      rw [← Option.some.inj h] at hv
      rcases List.mem_or_eq_of_mem_set hv with h1 | h1
      · exact .inl h1
      · refine .inr ⟨_, ?_, h1⟩
        rw [List.getD_eq_getElem?_getD]
        cases hx : d.vecs[i]? with
        | none => right; rfl
        | some w => left; exact List.mem_of_getElem? hx

theorem pushTo_ordered {P : Nat → Prop} {kinds : List (ElType × Nat)} {s : List (Nat × Element)} {m m' : DomMap} {ev : Nat × Element}
    (ho : Ordered P s m) (h : pushTo kinds m ev = some m') : Ordered P (s ++ [ev]) m' := by
  unfold pushTo at h
  obtain ⟨d', hd', rfl⟩ := Option.map_eq_some_iff.1 h
  refine ⟨OMap.sorted_upd ho.1 _ _, fun k d hk hd v hv => ?_⟩
  rw [OMap.lookup_upd ho.1] at hd
  rw [sel_append, sel_single]
  by_cases hkk : k = ev.1
  · subst hkk
    rw [if_pos rfl] at hd
    rw [← Option.some.inj hd] at hv
    rw [if_pos rfl]
    have hold : ∀ w ∈ ((m.lookup ev.1).getD (emptyDom kinds)).vecs, w.Sublist (sel ev.1 s) := by
      intro w hw
      cases hx : m.lookup ev.1 with
      | none =>
        rw [hx] at hw
        simp only [Option.getD_none, emptyDom, List.mem_map] at hw
        obtain ⟨_, _, rfl⟩ := hw
        exact List.nil_sublist _
      | some d0 =>
        rw [hx] at hw
        exact ho.2 _ d0 hk hx w hw
    rcases push_vecs hd' hv with h1 | ⟨w, h1, rfl⟩
    · exact (hold v h1).trans (List.sublist_append_left _ _)
    · refine List.Sublist.append ?_ (List.Sublist.refl _)
      rcases h1 with h1 | rfl
      · exact hold w h1
      · exact List.nil_sublist _
  · rw [if_neg hkk] at hd
    exact (ho.2 k d hk hd v hv).trans (List.sublist_append_left _ _)

theorem Ordered.mono {P : Nat → Prop} {s t : List (Nat × Element)} {m : DomMap} (h : Ordered P s m) : Ordered P (s ++ t) m :=
  ⟨h.1, fun k d hk hd v hv => (h.2 k d hk hd v hv).trans (by rw [sel_append]; exact List.sublist_append_left _ _)⟩

theorem pushParts_ordered {P : Nat → Prop} {kinds : List (ElType × Nat)} (evs : List (Nat × Nat × Element)) {s : List (Nat × Element)} {maps maps' : List DomMap}
    (ho : ∀ m ∈ maps, Ordered P s m) (h : pushParts kinds maps evs = some maps') : ∀ m ∈ maps', Ordered P (s ++ evs.map (·.2)) m := by
  induction evs generalizing s maps with
  | nil =>
    have : maps = maps' := by simpa [pushParts] using h
    subst this
    simpa using ho
  | cons ev evs ih =>
    unfold pushParts at h
    rw [List.foldlM_cons] at h
    obtain ⟨maps1, h1, h2⟩ := Option.bind_eq_some_iff.1 h
    unfold pushPart at h1
    obtain ⟨m0, hm0, h1⟩ := Option.bind_eq_some_iff.1 h1
    obtain ⟨m1, hm1, rfl⟩ := Option.map_eq_some_iff.1 h1
    have := ih (s := s ++ [ev.2]) (maps := maps.set ev.1 m1) (fun m hm => by
      rcases List.mem_or_eq_of_mem_set hm with h3 | rfl
      · exact (ho m h3).mono
      · exact pushTo_ordered (ho m0 (List.mem_of_getElem? hm0)) hm1) h2
    simpa using this

theorem sel_tagged {m : DomMap} {ids : List Nat} (hn : ids.Nodup) (k : Nat) : (sel k (tagged m ids)).Sublist (((m.lookup k).map Domain.elems).getD []) := by
  unfold sel tagged
  induction ids with
  | nil => exact List.nil_sublist _
  | cons a ids ih =>
    rw [List.flatMap_cons, List.filter_append, List.map_append]
    obtain ⟨ha, hn⟩ := List.nodup_cons.1 hn
    by_cases h : a = k
    · subst h
      have h2 : (List.filter (fun e => e.1 == a) (List.flatMap (fun k => List.map (fun e => (k, e)) (visitIds m [k])) ids)) = [] := by
        rw [List.filter_eq_nil_iff]
        intro x hx
        obtain ⟨k', hk', hx⟩ := List.mem_flatMap.1 hx
        obtain ⟨e, _, rfl⟩ := List.mem_map.1 hx
        simp only [beq_iff_eq]
        rintro rfl
        exact ha hk'
      rw [h2, List.map_nil, List.append_nil, List.filter_eq_self.2 (by simp), List.map_map]
      rw [show ((fun x : Nat × Element => x.2) ∘ fun e => (a, e)) = id from rfl, List.map_id, visitIds_single]
    · have h2 : (List.filter (fun e : Nat × Element => e.1 == k) (List.map (fun e => (a, e)) (visitIds m [a]))) = [] := by
        rw [List.filter_eq_nil_iff]
        intro x hx
        obtain ⟨e, _, rfl⟩ := List.mem_map.1 hx
        simpa using h
      rw [h2, List.map_nil, List.nil_append]
      exact ih hn

theorem mapM_proj {α β γ : Type} {f : α → Option β} {g : β → γ} {h : α → γ} (hf : ∀ a b, f a = some b → g b = h a) :
    ∀ {l : List α} {r : List β}, l.mapM f = some r → r.map g = l.map h := by
  intro l
  induction l with
  | nil => intro r hr; simp at hr; subst hr; rfl
  | cons a l ih =>
    intro r hr
    rw [List.mapM_cons] at hr
    obtain ⟨b, hb, hr⟩ := Option.bind_eq_some_iff.1 hr
    obtain ⟨bs, hbs, hr⟩ := Option.bind_eq_some_iff.1 hr
    rw [← Option.some.inj hr, List.map_cons, List.map_cons, hf a b hb, ih hbs]

theorem mapM_mem' {α β : Type} {f : α → Option β} : ∀ {l : List α} {r : List β}, l.mapM f = some r → ∀ b ∈ r, ∃ a ∈ l, f a = some b := by
  intro l
  induction l with
  | nil => intro r hr; simp at hr; subst hr; simp
  | cons a l ih =>
    intro r hr
    rw [List.mapM_cons] at hr
    obtain ⟨b, hb, hr⟩ := Option.bind_eq_some_iff.1 hr
    obtain ⟨bs, hbs, hr⟩ := Option.bind_eq_some_iff.1 hr
    rw [← Option.some.inj hr]
    intro x hx
    rcases List.mem_cons.1 hx with rfl | hx
    · exact ⟨a, by simp, hb⟩
    · obtain ⟨a', ha', h'⟩ := ih hbs x hx
      exact ⟨a', by simp [ha'], h'⟩

theorem boundaryEvents_doms {m : DomMap} {part : Nat → Option Nat} {bnds : List Nat} {evs : List (Nat × Nat × Element)} (h : boundaryEvents m part bnds = some evs) :
    ∀ ev ∈ evs, ev.2.1 ∈ bnds := by
  unfold boundaryEvents at h
  obtain ⟨all, h1, h2⟩ := Option.bind_eq_some_iff.1 h
  obtain ⟨ls, hls, rfl⟩ := Option.map_eq_some_iff.1 h1
  split at h2
  · rw [← Option.some.inj h2]
    intro ev hev
    obtain ⟨l, hl, hev⟩ := List.mem_flatten.1 hev
    obtain ⟨b, hb, hl⟩ := mapM_mem' hls l hl
    unfold assignBoundary at hl
    obtain ⟨d, _, hl⟩ := Option.bind_eq_some_iff.1 hl
    simp only at hl
    split at hl
    · simp at hl
    · obtain ⟨ls', h3, rfl⟩ := Option.map_eq_some_iff.1 hl
      obtain ⟨l', hl', hev⟩ := List.mem_flatten.1 hev
      obtain ⟨dom, _, h4⟩ := mapM_mem' h3 l' hl'
      unfold assignFrom at h4
      obtain ⟨a, _, ha⟩ := mapM_mem' h4 ev hev
      obtain ⟨t, _, rfl⟩ := Option.map_eq_some_iff.1 ha
      exact hb
  · simp at h2

/-- The vectors of the domains of the parts list elements in the order of the mesh. -/
theorem distribute_order {kinds : List (ElType × Nat)} {m : DomMap} {bnds : List Nat} {nParts : Nat} {epart perm : List Nat} (hk : KeysNodup m)
    {shuffle : List (Nat × Nat × Element) → List (Nat × Nat × Element)} (hshuf : ∀ l, (shuffle l).Perm l) {maps : List DomMap}
    (h : distribute kinds m bnds nParts epart perm shuffle = some maps) :
    ∀ m' ∈ maps, ∀ k d, k ∉ bnds → m'.lookup k = some d → ∀ v ∈ d.vecs, v.Sublist (((m.lookup k).map Domain.elems).getD []) := by
  unfold distribute at h
  simp only at h
  obtain ⟨evs, h1, h⟩ := Option.bind_eq_some_iff.1 h
  obtain ⟨maps1, h2, h⟩ := Option.bind_eq_some_iff.1 h
  obtain ⟨bevs, h3, h⟩ := Option.bind_eq_some_iff.1 h
  have hb := boundaryEvents_doms h3
  have e1 : evs.map (·.2) = tagged m (domainIds m bnds) := by
    unfold domainEvents at h1
    have := mapM_proj (g := fun b : Nat × Nat × Element => b.2) (h := fun a : (Nat × Element) × Nat => a.1) (fun a b hab => by
      obtain ⟨t, _, rfl⟩ := Option.map_eq_some_iff.1 hab
      rfl) h1
    rw [this]
    exact List.zipIdx_map_fst 0 _
  have a1 := pushParts_ordered (P := fun k => k ∉ bnds) evs (s := []) (fun m0 hm0 => by
    have : m0 = [] := List.eq_of_mem_replicate hm0
    subst this
    exact ⟨by simp [OMap.Sorted], by simp⟩) h2
  have a2 := pushParts_ordered (shuffle bevs) a1 h
  intro m' hm' k d hkb hd v hv
  have h5 := (a2 m' hm').2 k d hkb hd v hv
  rw [List.nil_append, e1, sel_append] at h5
  have h6 : sel k ((shuffle bevs).map (·.2)) = [] := by
    unfold sel
    rw [List.map_eq_nil_iff, List.filter_eq_nil_iff]
    intro x hx
    obtain ⟨ev, hev, rfl⟩ := List.mem_map.1 hx
    simp only [beq_iff_eq]
    rintro rfl
    exact hkb (hb ev ((hshuf bevs).mem_iff.1 hev))
  rw [h6, List.append_nil] at h5
  refine h5.trans (sel_tagged ?_ k)
  unfold domainIds
  exact List.Nodup.sublist List.filter_sublist hk

end Verif.Lookup
