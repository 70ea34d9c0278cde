import Verif.Split.Model

/-! # Property C27: splitting a mesh -/
namespace Verif.Split
open Verif Verif.Elem Verif.Mesh

/-- What is assumed about the mesh being split. -/
structure Ok (kinds : List (ElType × Nat)) (mesh : Part) (D : Nat) : Prop where
  wf : WfMesh kinds mesh.doms
  /-- boundary ids are the keys of a `std::map` -/
  bndSorted : (mesh.bnds.map (·.1)).Pairwise (· < ·)
  /-- all boundaries have dimension `D` -/
  bndDim : ∀ b ∈ mesh.bnds.map (·.1), ∀ d, mesh.doms.lookup b = some d → d.dim = some D
  /-- the boundary views are those the constructor computed -/
  views : ∃ ord : Nat → List Element → List Element, (∀ k l, (ord k l).Perm l) ∧
    initViews mesh.doms (mesh.bnds.map (·.1)) ord = some mesh.bnds
  /-- element ids are unique -/
  ids : ((tagged mesh.doms (mesh.doms.map (·.1))).map (·.2.id)).Nodup

/-- The part of domain `d` with the elements satisfying `q`; absent if there are none. -/
def restrict (d : Domain) (q : Element → Bool) : Option Domain :=
  if d.elems.filter q = [] then none else some ⟨d.dim, d.vecs.map (List.filter q)⟩

/-- Whether the element next to boundary element `b` satisfies the predicate. -/
def parentSat (m : DomMap) (p : Element → Bool) (b : Element) : Bool := (viewOf m b).any fun v => p v.1

theorem visitIds_single (m : DomMap) (k : Nat) : visitIds m [k] = ((m.lookup k).map Domain.elems).getD [] := by
  unfold visitIds existing
  cases h : m.lookup k <;> simp [h]

theorem mem_tagged {m : DomMap} {ids : List Nat} {k : Nat} {e : Element} :
    (k, e) ∈ tagged m ids ↔ k ∈ ids ∧ ∃ d, m.lookup k = some d ∧ e ∈ d.elems := by
  unfold tagged
  simp only [List.mem_flatMap, List.mem_map, Prod.mk.injEq, visitIds_single]
  constructor
  · rintro ⟨k', hk, e', he, rfl, rfl⟩
    refine ⟨hk, ?_⟩
    cases h : m.lookup k' with
    | none => rw [h] at he; simp at he
    | some d => rw [h] at he; exact ⟨d, rfl, he⟩
  · rintro ⟨hk, d, hd, he⟩
    exact ⟨k, hk, e, by rw [hd]; exact he, rfl, rfl⟩

theorem sel_tagged (m : DomMap) (ids : List Nat) (hn : ids.Nodup) (q : Element → Bool) (k : Nat) :
    sel k ((tagged m ids).filter fun ev => q ev.2) = if k ∈ ids then (visitIds m [k]).filter q else [] := by
  induction ids with
  | nil => simp [tagged, sel]
  | cons i ids ih =>
    rw [List.nodup_cons] at hn
    rw [tagged, List.flatMap_cons, ← tagged, List.filter_append, sel_append, ih hn.2]
    have h1 : sel k (((visitIds m [i]).map fun e => (i, e)).filter fun ev => q ev.2) = if k = i then (visitIds m [k]).filter q else [] := by
      unfold sel
      rw [List.filter_map, List.filter_map, List.map_map]
      by_cases hk : k = i
      · subst hk
        rw [if_pos rfl]
        simp [Function.comp_def]
      · rw [if_neg hk]
        simp [Function.comp_def, Ne.symm hk]
    rw [h1]
    by_cases hk : k = i
    · subst hk; simp [hn.1]
    · simp [hk]

theorem tagged_dim {kinds : List (ElType × Nat)} {m : DomMap} (h : WfMesh kinds m) {ids : List Nat} {a : Nat × Element}
    (ha : a ∈ tagged m ids) : ∃ d, m.lookup a.1 = some d ∧ d.dim = some a.2.ty.dim ∧ a.2.kind ∈ kinds := by
  obtain ⟨_, d, hd, he⟩ := mem_tagged.1 ha
  exact ⟨d, hd, (h.dom _ _ hd).dim _ he, (h.dom _ _ hd).mem_kind he⟩

/-- The predicate deciding on which side an element of domain `k` ends up. -/
def goes (mesh : Part) (p : Element → Bool) (side : Bool) (k : Nat) (e : Element) : Bool :=
  if k ∈ mesh.bnds.map (·.1) then decide (Std.sort e.nodes ∈ trueSides mesh p) == side else p e == side

theorem sorted_keys {m : DomMap} (h : OMap.Sorted m) : (m.map (·.1)).Pairwise (· < ·) := List.pairwise_map.2 h

theorem domainMap_spec {kinds : List (ElType × Nat)} {mesh : Part} {D : Nat} (h : Ok kinds mesh D) (p : Element → Bool) (side : Bool) :
    ∃ m', domainMap kinds mesh p side = some m' ∧ OMap.Sorted m' ∧
      ∀ k, m'.lookup k = (mesh.doms.lookup k).bind fun d => restrict d (goes mesh p side k) := by
  have hnb : (nonBoundary mesh).Nodup := ((Std.nodup_of_strict (sorted_keys h.wf.sorted)).filter _)
  have hb : (mesh.bnds.map (·.1)).Nodup := Std.nodup_of_strict h.bndSorted
  have hmem : ∀ ev ∈ domainEls mesh (fun e => p e == side) ++ boundaryEls mesh p side,
      ∃ ids, ev ∈ tagged mesh.doms ids := by
    intro ev hev
    rcases List.mem_append.1 hev with h1 | h1
    · exact ⟨_, (List.mem_filter.1 h1).1⟩
    · exact ⟨_, (List.mem_filter.1 h1).1⟩
  have hpo : PushOk kinds [] (domainEls mesh (fun e => p e == side) ++ boundaryEls mesh p side) := by
    refine ⟨h.wf.nodup, List.Pairwise.nil, by simp, fun ev hev => ?_, fun a ha b hb' hab => ?_, by simp⟩
    · obtain ⟨ids, hi⟩ := hmem ev hev
      obtain ⟨d, _, _, hk⟩ := tagged_dim h.wf hi
      exact hk
    · obtain ⟨ids, hi⟩ := hmem a ha
      obtain ⟨ids', hi'⟩ := hmem b hb'
      obtain ⟨d, h1, h2, _⟩ := tagged_dim h.wf hi
      obtain ⟨d', h3, h4, _⟩ := tagged_dim h.wf hi'
      rw [hab, h3] at h1
      simp only [Option.some.injEq] at h1
      subst h1
      rw [h4] at h2
      simpa using h2.symm
  obtain ⟨m', h1, h2, h3⟩ := pushAll_spec hpo
  refine ⟨m', h1, h2, fun k => ?_⟩
  have hsel : sel k (domainEls mesh (fun e => p e == side) ++ boundaryEls mesh p side) =
      (((mesh.doms.lookup k).map Domain.elems).getD []).filter (goes mesh p side k) := by
    rw [sel_append, domainEls, boundaryEls, sel_tagged _ _ hnb (fun e => p e == side),
      sel_tagged _ _ hb fun e => decide (Std.sort e.nodes ∈ trueSides mesh p) == side, visitIds_single]
    by_cases hk : k ∈ mesh.bnds.map (·.1)
    · have : k ∉ nonBoundary mesh := fun hc => by simpa [hk] using (List.mem_filter.1 hc).2
      rw [if_neg this, if_pos hk, List.nil_append]
      exact List.filter_congr fun e _ => by rw [goes, if_pos hk]
    · rw [if_neg hk, List.append_nil]
      cases hl : mesh.doms.lookup k with
      | none => simp
      | some d =>
        have : k ∈ nonBoundary mesh := List.mem_filter.2 ⟨(OMap.lookup_isSome_iff _ _).1 (by simp [hl]), by simpa using hk⟩
        rw [if_pos this]
        exact List.filter_congr fun e _ => by rw [goes, if_neg hk]
  rw [h3]
  have hiff : (k ∈ (domainEls mesh (fun e => p e == side) ++ boundaryEls mesh p side).map (·.1) ∨ (List.lookup k ([] : DomMap)).isSome) ↔
      sel k (domainEls mesh (fun e => p e == side) ++ boundaryEls mesh p side) ≠ [] := by
    simp only [List.lookup_nil, Option.isSome_none, Bool.false_eq_true, or_false]
    constructor
    · intro hk hn
      obtain ⟨ev, hev, rfl⟩ := List.mem_map.1 hk
      have : ev.2 ∈ sel ev.1 (domainEls mesh (fun e => p e == side) ++ boundaryEls mesh p side) := mem_sel.2 hev
      rw [hn] at this; simp at this
    · intro hn
      obtain ⟨e, he⟩ := List.exists_mem_of_ne_nil _ hn
      exact List.mem_map.2 ⟨_, mem_sel.1 he, rfl⟩
  rw [hsel] at hiff ⊢
  cases hl : mesh.doms.lookup k with
  | none =>
    rw [hl] at hiff
    rw [if_neg (fun hc => (hiff.1 hc) (by simp))]; rfl
  | some d =>
    rw [hl] at hiff
    simp only [Option.map_some, Option.getD_some, Option.bind_some] at hiff ⊢
    unfold restrict
    by_cases hne : d.elems.filter (goes mesh p side k) = []
    · rw [if_pos hne, if_neg (fun hc => hiff.1 hc hne)]
    · rw [if_neg hne, if_pos (hiff.2 hne)]
      congr 1
      exact grow_filter h.wf.nodup (h.wf.dom k d hl) _ hne

/-! ### Boundary elements follow their parents -/

theorem wf_keys {kinds : List (ElType × Nat)} {m : DomMap} (h : WfMesh kinds m) : KeysNodup m :=
  (sorted_keys h.sorted).imp fun h => Nat.ne_of_lt h

theorem mapM_mem {α β : Type} {f : α → Option β} {l : List α} {r : List β} (h : l.mapM f = some r) {b : β} :
    b ∈ r ↔ ∃ a ∈ l, f a = some b := by
  have hf := mapM_forall₂ f l r h
  constructor
  · intro hb
    obtain ⟨i, hi, rfl⟩ := List.mem_iff_getElem.1 hb
    have hl : i < l.length := by rw [hf.length_eq]; exact hi
    exact ⟨l[i], List.getElem_mem hl, (List.forall₂_iff_get.1 hf).2 i hl hi⟩
  · rintro ⟨a, ha, e⟩
    obtain ⟨i, hi, rfl⟩ := List.mem_iff_getElem.1 ha
    have hl : i < r.length := by rw [← hf.length_eq]; exact hi
    have := (List.forall₂_iff_get.1 hf).2 i hi hl
    simp only [List.get_eq_getElem] at this
    rw [e] at this
    simp only [Option.some.injEq] at this
    rw [this]; exact List.getElem_mem hl

theorem mem_views {kinds : List (ElType × Nat)} {mesh : Part} {D : Nat} (h : Ok kinds mesh D) {v : Element × Nat} :
    v ∈ mesh.bnds.flatMap (·.2) ↔ ∃ k ∈ mesh.bnds.map (·.1), ∃ d, mesh.doms.lookup k = some d ∧ ∃ b ∈ d.elems, viewOf mesh.doms b = some v := by
  obtain ⟨ord, hord, hv⟩ := h.views
  unfold initViews at hv
  rw [List.mem_flatMap]
  constructor
  · rintro ⟨bv, hbv, hvm⟩
    obtain ⟨k, hk, e⟩ := (mapM_mem hv).1 hbv
    rw [Option.map_eq_some_iff] at e
    obtain ⟨l, hl, rfl⟩ := e
    refine ⟨k, hk, ?_⟩
    unfold boundaryViews at hl
    split at hl
    · simp only [Option.some.injEq] at hl; subst hl; simp at hvm
    · rename_i d hd
      split at hl
      · simp at hl
      · obtain ⟨b, hb, e⟩ := (mapM_mem hl).1 hvm
        exact ⟨d, hd, b, (hord k _).mem_iff.1 hb, e⟩
  · rintro ⟨k, hk, d, hd, b, hb, e⟩
    have hf := mapM_forall₂ _ _ _ hv
    obtain ⟨i, hi, rfl⟩ := List.mem_iff_getElem.1 hk
    have hi' : i < mesh.bnds.length := by rw [← hf.length_eq]; exact hi
    have := (List.forall₂_iff_get.1 hf).2 i hi hi'
    simp only [List.get_eq_getElem, Option.map_eq_some_iff] at this
    obtain ⟨l, hl, hle⟩ := this
    refine ⟨mesh.bnds[i], List.getElem_mem hi', ?_⟩
    rw [← hle]
    unfold boundaryViews at hl
    rw [hd] at hl
    simp only at hl
    split at hl
    · simp at hl
    · exact (mapM_mem hl).2 ⟨b, (hord _ _).mem_iff.2 hb, e⟩

theorem sortedSide_eq {kinds : List (ElType × Nat)} {m : DomMap} (h : WfMesh kinds m) {b : Element} {v : Element × Nat}
    (hv : viewOf m b = some v) : sortedSide v = Std.sort b.nodes := by
  obtain ⟨_, l, hl, hp⟩ := viewOf_some (wf_keys h) (show viewOf m b = some (v.1, v.2) from hv)
  unfold sideNodes at hl
  unfold sortedSide
  rw [Option.map_eq_some_iff] at hl
  obtain ⟨inds, hi, rfl⟩ := hl
  rw [hi]
  exact Std.sort_congr hp

/-- The view of a boundary element depends on its set of nodes and its dimension only. -/
theorem viewOf_congr {m : DomMap} {b b' : Element} (hd : b.ty.dim = b'.ty.dim) (hn : Std.sort b.nodes = Std.sort b'.nodes) :
    viewOf m b = viewOf m b' := by
  unfold viewOf; simp only [hd, hn]

theorem holds_lookup {m : DomMap} (hk : KeysNodup m) {d : Nat × Domain} (hd : d ∈ m) : m.lookup d.1 = some d.2 := lookup_of_mem hk hd

theorem isParent_domain {kinds : List (ElType × Nat)} {mesh : Part} {D : Nat} (h : Ok kinds mesh D) {b e : Element} {s : Nat}
    (hb : b.ty.dim = D) (hp : IsParent mesh.doms b e s) :
    ∃ k d, k ∉ mesh.bnds.map (·.1) ∧ mesh.doms.lookup k = some d ∧ d.dim = some (D + 1) ∧ e ∈ d.elems := by
  obtain ⟨⟨d, hd, hdim, v, hv, he⟩, _⟩ := hp
  have hl := lookup_of_mem (wf_keys h.wf) hd
  rw [hb] at hdim
  refine ⟨d.1, d.2, fun hc => ?_, hl, hdim, List.mem_flatten.2 ⟨v, hv, he⟩⟩
  have := h.bndDim d.1 hc d.2 hl
  rw [hdim] at this
  simp only [Option.some.injEq] at this
  omega

theorem id_inj {kinds : List (ElType × Nat)} {mesh : Part} {D : Nat} (h : Ok kinds mesh D) {k k' : Nat} {d d' : Domain} {e e' : Element}
    (hd : mesh.doms.lookup k = some d) (he : e ∈ d.elems) (hd' : mesh.doms.lookup k' = some d') (he' : e' ∈ d'.elems)
    (hid : e.id = e'.id) : e = e' := by
  have hk : ∀ {k d}, mesh.doms.lookup k = some d → k ∈ mesh.doms.map (·.1) := fun hh => (OMap.lookup_isSome_iff _ _).1 (by simp [hh])
  have h1 : (k, e) ∈ tagged mesh.doms (mesh.doms.map (·.1)) := mem_tagged.2 ⟨hk hd, d, hd, he⟩
  have h2 : (k', e') ∈ tagged mesh.doms (mesh.doms.map (·.1)) := mem_tagged.2 ⟨hk hd', d', hd', he'⟩
  have := List.inj_on_of_nodup_map h.ids h1 h2 hid
  exact (Prod.mk.injEq .. ▸ this).2

/-- A boundary element is sent to the true part exactly if the element it bounds satisfies the predicate. -/
theorem boundary_goes {kinds : List (ElType × Nat)} {mesh : Part} {D : Nat} (h : Ok kinds mesh D) (p : Element → Bool) {k : Nat} {d : Domain}
    (hk : k ∈ mesh.bnds.map (·.1)) (hd : mesh.doms.lookup k = some d) {b : Element} (hb : b ∈ d.elems) :
    (∃ v, viewOf mesh.doms b = some v) ∧ (Std.sort b.nodes ∈ trueSides mesh p ↔ parentSat mesh.doms p b = true) := by
  have hdimof : ∀ {k d b}, k ∈ mesh.bnds.map (·.1) → mesh.doms.lookup k = some d → b ∈ d.elems → b.ty.dim = D := by
    intro k d b hk hd hb
    have h1 := h.bndDim k hk d hd
    rw [(h.wf.dom k d hd).dim b hb] at h1
    simpa using h1
  have hview : ∃ v, viewOf mesh.doms b = some v := by
    obtain ⟨ord, hord, hv⟩ := h.views
    cases hvb : viewOf mesh.doms b with
    | some v => exact ⟨v, rfl⟩
    | none =>
      exfalso
      have hf := mapM_forall₂ _ _ _ hv
      obtain ⟨i, hi, rfl⟩ := List.mem_iff_getElem.1 hk
      have hi' : i < mesh.bnds.length := by rw [← hf.length_eq]; exact hi
      have := (List.forall₂_iff_get.1 hf).2 i hi hi'
      simp only [List.get_eq_getElem, Option.map_eq_some_iff] at this
      obtain ⟨l, hl, _⟩ := this
      unfold boundaryViews at hl
      rw [hd] at hl
      simp only at hl
      split at hl
      · simp at hl
      · have hf2 := mapM_forall₂ _ _ _ hl
        obtain ⟨j, hj, hje⟩ := List.mem_iff_getElem.1 ((hord _ _).mem_iff.2 hb : b ∈ ord _ d.elems)
        have := (List.forall₂_iff_get.1 hf2).2 j hj (by rw [← hf2.length_eq]; exact hj)
        simp only [List.get_eq_getElem, hje, hvb] at this
        simp at this
  refine ⟨hview, ?_⟩
  obtain ⟨v, hv⟩ := hview
  have htrue : ∀ w : Element × Nat, ∀ {k' d' b'}, k' ∈ mesh.bnds.map (·.1) → mesh.doms.lookup k' = some d' → b' ∈ d'.elems →
      viewOf mesh.doms b' = some w → (w.1.id ∈ (domainEls mesh p).map (·.2.id) ↔ p w.1 = true) := by
    intro w k' d' b' hk' hd' hb' hw
    obtain ⟨kk, dd, hkn, hdd, _, he⟩ := isParent_domain h (hdimof hk' hd' hb') (viewOf_some (wf_keys h.wf) (show viewOf mesh.doms b' = some (w.1, w.2) from hw))
    constructor
    · intro hm
      obtain ⟨⟨k2, e2⟩, hev, hid⟩ := List.mem_map.1 hm
      obtain ⟨h1, h2⟩ := List.mem_filter.1 hev
      obtain ⟨_, d2, hd2, he2⟩ := mem_tagged.1 h1
      have := id_inj h hd2 he2 hdd he hid
      subst this; exact h2
    · intro hp
      refine List.mem_map.2 ⟨(kk, w.1), List.mem_filter.2 ⟨mem_tagged.2 ⟨List.mem_filter.2 ⟨(OMap.lookup_isSome_iff _ _).1 (by simp [hdd]), by simpa using hkn⟩, dd, hdd, he⟩, hp⟩, rfl⟩
  unfold parentSat
  rw [hv, Option.any_some]
  unfold trueSides
  rw [List.mem_map]
  constructor
  · rintro ⟨w, hw, hs⟩
    obtain ⟨hw1, hw2⟩ := List.mem_filter.1 hw
    obtain ⟨k', hk', d', hd', b', hb', hvb'⟩ := (mem_views h).1 hw1
    rw [sortedSide_eq h.wf hvb'] at hs
    have hsame := viewOf_congr (m := mesh.doms) ((hdimof hk' hd' hb').trans (hdimof hk hd hb).symm) hs
    rw [hvb', hv] at hsame
    simp only [Option.some.injEq] at hsame
    subst hsame
    exact (htrue w hk' hd' hb' hvb').1 (by simpa using hw2)
  · intro hp
    exact ⟨v, List.mem_filter.2 ⟨(mem_views h).2 ⟨k, hk, d, hd, b, hb, hv⟩, by simpa using (htrue v hk hd hb hv).2 hp⟩, sortedSide_eq h.wf hv⟩

/-- Which elements of domain `k` belong to a part, in terms of the original mesh. -/
def belongs (mesh : Part) (p : Element → Bool) (side : Bool) (k : Nat) (e : Element) : Bool :=
  if k ∈ mesh.bnds.map (·.1) then parentSat mesh.doms p e == side else p e == side

theorem restrict_congr {d : Domain} {q q' : Element → Bool} (h : ∀ e ∈ d.elems, q e = q' e) : restrict d q = restrict d q' := by
  unfold restrict
  have h1 : d.elems.filter q = d.elems.filter q' := List.filter_congr h
  have h2 : d.vecs.map (List.filter q) = d.vecs.map (List.filter q') :=
    List.map_congr_left fun v hv => List.filter_congr fun e he => h e (List.mem_flatten.2 ⟨v, hv, he⟩)
  rw [h1, h2]

theorem domainMap_belongs {kinds : List (ElType × Nat)} {mesh : Part} {D : Nat} (h : Ok kinds mesh D) (p : Element → Bool) (side : Bool) :
    ∃ m', domainMap kinds mesh p side = some m' ∧ OMap.Sorted m' ∧
      ∀ k, m'.lookup k = (mesh.doms.lookup k).bind fun d => restrict d (belongs mesh p side k) := by
  obtain ⟨m', h1, h2, h3⟩ := domainMap_spec h p side
  refine ⟨m', h1, h2, fun k => ?_⟩
  rw [h3]
  cases hl : mesh.doms.lookup k with
  | none => rfl
  | some d =>
    simp only [Option.bind_some]
    refine restrict_congr fun e he => ?_
    unfold goes belongs
    by_cases hk : k ∈ mesh.bnds.map (·.1)
    · rw [if_pos hk, if_pos hk]
      have := (boundary_goes h p hk hl he).2
      congr 1
      rw [Bool.eq_iff_iff, decide_eq_true_eq]; exact this
    · rw [if_neg hk, if_neg hk]

theorem restrict_some {d d' : Domain} {q : Element → Bool} (h : restrict d q = some d') :
    d'.dim = d.dim ∧ d'.vecs = d.vecs.map (List.filter q) ∧ d'.elems = d.elems.filter q ∧ d'.elems ≠ [] := by
  unfold restrict at h
  split at h
  · simp at h
  · rename_i hne
    simp only [Option.some.injEq] at h
    subst h
    have : Domain.elems ⟨d.dim, d.vecs.map (List.filter q)⟩ = d.elems.filter q := by
      unfold Domain.elems; rw [List.filter_flatten]
    exact ⟨rfl, rfl, this, by rw [this]; exact hne⟩

/-- The constructor called by `makeMesh` does not throw. -/
theorem makeMesh_ok {kinds : List (ElType × Nat)} {mesh : Part} {D : Nat} (h : Ok kinds mesh D) (p : Element → Bool) (side : Bool)
    {m' : DomMap} (hs : OMap.Sorted m') (hl : ∀ k, m'.lookup k = (mesh.doms.lookup k).bind fun d => restrict d (belongs mesh p side k))
    (ord : Nat → List Element → List Element) (hord : ∀ k l, (ord k l).Perm l) :
    ∃ part, makeMesh mesh m' ord = some part ∧ part.doms = m' ∧
      ownershipRange m' ((ownedNodes mesh.own m').headD 0) (ownedNodes mesh.own m').length = some part.own ∧
      part.bnds.map (·.1) = mesh.bnds.map (·.1) := by
  have hkn : KeysNodup m' := (sorted_keys hs).imp fun h => Nat.ne_of_lt h
  have hviews : ∀ b ∈ mesh.bnds.map (·.1), ∃ l, boundaryViews m' b (ord b) = some l := by
    intro b hb
    cases hm : m'.lookup b with
    | none => exact ⟨[], by unfold boundaryViews; rw [hm]⟩
    | some d' =>
      have hh := hl b
      rw [hm] at hh
      obtain ⟨d, hd, hr⟩ := Option.bind_eq_some_iff.1 hh.symm
      obtain ⟨r1, r2, r3, r4⟩ := restrict_some hr
      have hdim' : ∀ e ∈ d'.elems, some e.ty.dim = d'.dim := fun e he => by
        rw [r1, (h.wf.dom b d hd).dim e (by rw [r3] at he; exact (List.mem_filter.1 he).1)]
      cases hbv : boundaryViews m' b (ord b) with
      | some l => exact ⟨l, rfl⟩
      | none =>
        exfalso
        obtain ⟨e, he, hno⟩ := (C23_boundary_views m' hkn b d' hm hdim' r4 (ord b) (hord b)).2.1 hbv
        apply hno
        rw [r3] at he
        obtain ⟨he1, he2⟩ := List.mem_filter.1 he
        obtain ⟨⟨v, hv⟩, _⟩ := boundary_goes h p hb hd he1
        have hpar := viewOf_some (wf_keys h.wf) (show viewOf mesh.doms e = some (v.1, v.2) from hv)
        have hD : e.ty.dim = D := by
          have h1 := h.bndDim b hb d hd
          rw [(h.wf.dom b d hd).dim e he1] at h1
          simpa using h1
        obtain ⟨kk, dd, hkk, hdd, hddim, hve⟩ := isParent_domain h hD hpar
        rw [belongs, if_pos hb, parentSat, hv, Option.any_some] at he2
        have hbel : belongs mesh p side kk v.1 = true := by rw [belongs, if_neg hkk]; exact he2
        have hne : dd.elems.filter (belongs mesh p side kk) ≠ [] := List.ne_nil_of_mem (List.mem_filter.2 ⟨hve, hbel⟩)
        have hlk : m'.lookup kk = some ⟨dd.dim, dd.vecs.map (List.filter (belongs mesh p side kk))⟩ := by
          rw [hl, hdd, Option.bind_some, restrict, if_neg hne]
        obtain ⟨w, hw, hew⟩ := List.mem_flatten.1 hve
        exact ⟨v.1, v.2, ⟨(kk, _), mem_of_lookup hlk, by rw [hD]; exact hddim,
          w.filter (belongs mesh p side kk), List.mem_map.2 ⟨w, hw, rfl⟩, List.mem_filter.2 ⟨hew, hbel⟩⟩, hpar.2⟩
  have hiv : ∃ vs, initViews m' (mesh.bnds.map (·.1)) ord = some vs ∧ vs.map (·.1) = mesh.bnds.map (·.1) := by
    unfold initViews
    revert hviews
    generalize mesh.bnds.map (·.1) = ids
    intro hviews
    induction ids with
    | nil => exact ⟨[], rfl, rfl⟩
    | cons b ids ih =>
      obtain ⟨l, hl'⟩ := hviews b (by simp)
      obtain ⟨vs, h1, h2⟩ := ih fun b' hb' => hviews b' (by simp [hb'])
      exact ⟨(b, l) :: vs, by rw [List.mapM_cons, hl', h1]; rfl, by simp [h2]⟩
  obtain ⟨vs, h1, h2⟩ := hiv
  obtain ⟨o, ho⟩ : ∃ o, ownershipRange m' ((ownedNodes mesh.own m').headD 0) (ownedNodes mesh.own m').length = some o := by
    unfold ownershipRange Own.SegOwn.make
    rw [if_neg]
    · exact ⟨_, rfl⟩
    · rw [List.any_eq_true]
      rintro ⟨x, hx, hc⟩
      have := (List.mem_filter.1 hx).2
      simp only [decide_eq_true_eq, Own.SegOwn.isOwned] at this hc
      omega
  exact ⟨⟨m', o, vs⟩, by unfold makeMesh; simp only; rw [h1, Option.bind_some, ho]; rfl, rfl, ho, h2⟩

/-- **C27** (elements): the split succeeds; each part contains, for each domain, exactly the elements
satisfying (not satisfying) the predicate, vector by vector and in the original order, and for each
boundary exactly the boundary elements whose parent satisfies (does not satisfy) it; both parts know
all boundaries of the original. -/
theorem C27_elements (kinds : List (ElType × Nat)) (mesh : Part) (D : Nat) (h : Ok kinds mesh D) (p : Element → Bool)
    (ord : Bool → Nat → List Element → List Element) (hord : ∀ s k l, (ord s k l).Perm l) :
    ∃ t f, split kinds mesh p ord = some (t, f) ∧
      (∀ k, k ∉ mesh.bnds.map (·.1) →
        t.doms.lookup k = (mesh.doms.lookup k).bind (fun d => restrict d p) ∧
        f.doms.lookup k = (mesh.doms.lookup k).bind (fun d => restrict d fun e => !p e)) ∧
      (∀ k ∈ mesh.bnds.map (·.1),
        t.doms.lookup k = (mesh.doms.lookup k).bind (fun d => restrict d (parentSat mesh.doms p)) ∧
        f.doms.lookup k = (mesh.doms.lookup k).bind (fun d => restrict d fun b => !parentSat mesh.doms p b)) ∧
      t.bnds.map (·.1) = mesh.bnds.map (·.1) ∧ f.bnds.map (·.1) = mesh.bnds.map (·.1) := by
  obtain ⟨dt, a1, a2, a3⟩ := domainMap_belongs h p true
  obtain ⟨df, b1, b2, b3⟩ := domainMap_belongs h p false
  obtain ⟨t, t1, t2, t3, t4⟩ := makeMesh_ok h p true a2 a3 (ord true) (hord true)
  obtain ⟨f, f1, f2, f3, f4⟩ := makeMesh_ok h p false b2 b3 (ord false) (hord false)
  refine ⟨t, f, by unfold split; rw [a1, Option.bind_some, b1, Option.bind_some, t1, Option.bind_some, f1]; rfl, fun k hk => ?_, fun k hk => ?_, t4, f4⟩
  · rw [t2, f2, a3, b3]
    constructor <;> congr 1 <;> funext d <;> refine restrict_congr fun e _ => ?_ <;> rw [belongs, if_neg hk] <;> simp
  · rw [t2, f2, a3, b3]
    constructor <;> congr 1 <;> funext d <;> refine restrict_congr fun e _ => ?_ <;> rw [belongs, if_pos hk] <;> simp

/-! ### Ownership -/

/-- Nodes of a part which the original mesh owned. -/
def OwnedIn (mesh part : Part) (x : Nat) : Prop := NodeIn part.doms x ∧ mesh.own.isOwned x = true

/-- C27 (ownership) as one would like it. -/
def C27OwnershipStatement : Prop :=
  ∀ (kinds : List (ElType × Nat)) (mesh : Part) (D : Nat), Ok kinds mesh D →
    ∀ (p : Element → Bool) (ord : Bool → Nat → List Element → List Element), (∀ s k l, (ord s k l).Perm l) →
    ∀ t f, split kinds mesh p ord = some (t, f) →
      (∀ x, t.own.isOwned x = true ↔ OwnedIn mesh t x) ∧ ∀ x, f.own.isOwned x = true ↔ OwnedIn mesh f x

def lineKinds : List (ElType × Nat) := [(.hex, 2), (.quad, 2), (.line, 2)]

/-- Four line elements in a row. -/
def fourLines : Part :=
  ⟨[(0, ⟨some 1, [[], [], [⟨.line, 2, 0, [0, 1]⟩, ⟨.line, 2, 1, [1, 2]⟩, ⟨.line, 2, 2, [2, 3]⟩, ⟨.line, 2, 3, [3, 4]⟩]]⟩)], ⟨0, 5, []⟩, []⟩

theorem fourLines_ok : Ok lineKinds fourLines 0 := by
  refine ⟨⟨by decide, by simp [OMap.Sorted, fourLines], ?_⟩, by decide, by simp [fourLines], ⟨fun _ => id, fun _ _ => List.Perm.refl _, rfl⟩, by decide⟩
  intro k d hd
  have hm := mem_of_lookup hd
  simp only [fourLines, List.mem_singleton, Prod.mk.injEq] at hm
  obtain ⟨rfl, rfl⟩ := hm
  refine ⟨rfl, ?_, by decide⟩
  intro i hi e he
  match i, hi with
  | 0, _ => simp at he
  | 1, _ => simp at he
  | 2, _ =>
    simp only [List.getElem_cons_succ, List.getElem_cons_zero, List.mem_cons, List.not_mem_nil, or_false] at he
    rcases he with rfl | rfl | rfl | rfl <;> rfl

/-- Two quadrilaterals side by side, with the left and right edges as boundary 7. -/
def twoQuads : Part :=
  ⟨[(0, ⟨some 2, [[], [⟨.quad, 2, 0, [0, 1, 3, 4]⟩, ⟨.quad, 2, 1, [1, 2, 4, 5]⟩], []]⟩),
    (7, ⟨some 1, [[], [], [⟨.line, 2, 2, [0, 3]⟩, ⟨.line, 2, 3, [2, 5]⟩]]⟩)], ⟨0, 6, []⟩,
   [(7, [(⟨.quad, 2, 0, [0, 1, 3, 4]⟩, 2), (⟨.quad, 2, 1, [1, 2, 4, 5]⟩, 3)])]⟩

theorem twoQuads_ok : Ok lineKinds twoQuads 1 := by
  refine ⟨⟨by decide, by simp [OMap.Sorted, twoQuads], ?_⟩, by decide, ?_, ⟨fun _ => id, fun _ _ => List.Perm.refl _, ?_⟩, by decide⟩
  · intro k d hd
    have hm := mem_of_lookup hd
    simp only [twoQuads, List.mem_cons, List.not_mem_nil, or_false, Prod.mk.injEq] at hm
    rcases hm with ⟨rfl, rfl⟩ | ⟨rfl, rfl⟩ <;>
    · refine ⟨rfl, ?_, by decide⟩
      intro i hi e he
      match i, hi with
      | 0, _ => simp at he
      | 1, _ =>
        simp at he
        try (rcases he with rfl | rfl <;> rfl)
      | 2, _ =>
        simp at he
        try (rcases he with rfl | rfl <;> rfl)
  · intro b hb d hd
    have hm := mem_of_lookup hd
    simp only [twoQuads, List.map_cons, List.map_nil, List.mem_singleton] at hb
    subst hb
    simp only [twoQuads, List.mem_cons, List.not_mem_nil, or_false, Prod.mk.injEq] at hm
    rcases hm with ⟨h, rfl⟩ | ⟨h, rfl⟩
    · omega
    · rfl
  · decide +kernel

example : ((split lineKinds twoQuads (fun e => e.id == 1) fun _ _ => id).map fun r => (r.1.doms, r.1.own)) =
    some ([(0, ⟨some 2, [[], [⟨.quad, 2, 1, [1, 2, 4, 5]⟩], []]⟩), (7, ⟨some 1, [[], [], [⟨.line, 2, 3, [2, 5]⟩]]⟩)], ⟨1, 4, [5]⟩) := by
  decide +kernel

/-- **C27** (ownership) fails when the nodes of a part are not numbered contiguously: taking the first
and last of four line elements, the part claims node 2, which it does not contain, and treats node 4,
which the original owns, as a ghost. -/
theorem C27_ownership_violated : ¬ C27OwnershipStatement := fun h => by
  let p : Element → Bool := fun e => e.id == 0 || e.id == 3
  obtain ⟨t, f, hs, _⟩ := C27_elements lineKinds fourLines 0 fourLines_ok p (fun _ _ => id) (fun _ _ _ => List.Perm.refl _)
  have hx := ((h lineKinds fourLines 0 fourLines_ok p (fun _ _ => id) (fun _ _ _ => List.Perm.refl _) t f hs).1 4).2
  have key : (split lineKinds fourLines p fun _ _ => id).map (fun r => (r.1.doms, r.1.own)) =
      some ([(0, ⟨some 1, [[], [], [⟨.line, 2, 0, [0, 1]⟩, ⟨.line, 2, 3, [3, 4]⟩]]⟩)], ⟨0, 4, [4]⟩) := by decide +kernel
  rw [hs] at key
  simp only [Option.map_some, Option.some.injEq, Prod.mk.injEq] at key
  have h4 : t.own.isOwned 4 = false := by rw [key.2]; decide
  rw [h4] at hx
  have : OwnedIn fourLines t 4 := by
    refine ⟨?_, by decide⟩
    rw [key.1]
    exact ⟨⟨.line, 2, 3, [3, 4]⟩, ⟨_, List.mem_singleton.2 rfl, _, List.mem_cons_of_mem _ (List.mem_cons_of_mem _ (List.mem_singleton.2 rfl)), by simp⟩, by simp⟩
  simpa using hx this

theorem mem_ownedNodes (own : Own.SegOwn) (doms : DomMap) (x : Nat) :
    x ∈ ownedNodes own doms ↔ NodeIn doms x ∧ own.isOwned x = true := by
  unfold ownedNodes NodeIn Holds
  rw [Std.mem_sortUniq, List.mem_filter]
  simp only [List.mem_flatMap, Domain.elems, List.mem_flatten]
  constructor
  · rintro ⟨⟨d, hd, e, ⟨v, hv, he⟩, hx⟩, ho⟩
    exact ⟨⟨e, ⟨d, hd, v, hv, he⟩, hx⟩, ho⟩
  · rintro ⟨⟨e, ⟨d, hd, v, hv, he⟩, hx⟩, ho⟩
    exact ⟨⟨d, hd, e, ⟨v, hv, he⟩, hx⟩, ho⟩

theorem makeMesh_own {mesh part : Part} {m' : DomMap} (hs : OMap.Sorted m') (hd : part.doms = m')
    (ho : ownershipRange m' ((ownedNodes mesh.own m').headD 0) (ownedNodes mesh.own m').length = some part.own) :
    ((∀ x, part.own.isOwned x = true ↔ OwnedIn mesh part x) ↔
      ∀ a b c, OwnedIn mesh part a → OwnedIn mesh part c → a ≤ b → b ≤ c → OwnedIn mesh part b) ∧
    (∀ x, x ∈ part.own.shared ↔ NodeIn part.doms x ∧ part.own.isOwned x = false) ∧
    (∃ l : List Nat, l.Nodup ∧ (∀ x, x ∈ l ↔ OwnedIn mesh part x) ∧ part.own.cnt = l.length) := by
  subst hd
  obtain ⟨o, h1, h2, h3, h4⟩ := C22_explicit_range part.doms ((sorted_keys hs).imp fun h => Nat.ne_of_lt h)
    ((ownedNodes mesh.own part.doms).headD 0) (ownedNodes mesh.own part.doms).length
  have e : o = part.own := by rw [ho] at h1; simpa using h1.symm
  subst e
  have hm : ∀ x, x ∈ ownedNodes mesh.own part.doms ↔ OwnedIn mesh part x := fun x => mem_ownedNodes _ _ x
  have hss : (ownedNodes mesh.own part.doms).Pairwise (· < ·) := Std.sortUniq_strict _
  refine ⟨?_, fun x => ?_, ⟨ownedNodes mesh.own part.doms, Std.nodup_of_strict hss, hm, ?_⟩⟩
  · have := Std.strict_range_iff hss
    simp only [← List.headD_eq_head?_getD, hm] at this
    rw [← this]
    exact forall_congr' fun x => by rw [h2]
  · rw [h4, ← Bool.not_eq_true, h2]
  · unfold ownershipRange Own.SegOwn.make at ho
    split at ho
    · simp at ho
    · simp only [Option.some.injEq] at ho
      rw [← ho]

/-- **C27** (ownership), exact characterisation: each part owns precisely those of its nodes which the
original mesh owned if and only if these are numbered without gaps; in all cases the number of owned
nodes is right, and the ghosts are the remaining nodes of the part.  (Without gaps the full statement
holds; with gaps it fails, see `C27_ownership_violated`.) -/
theorem C27_ownership_partial (kinds : List (ElType × Nat)) (mesh : Part) (D : Nat) (h : Ok kinds mesh D) (p : Element → Bool)
    (ord : Bool → Nat → List Element → List Element) (hord : ∀ s k l, (ord s k l).Perm l) (t f : Part)
    (hsp : split kinds mesh p ord = some (t, f)) :
    ∀ part ∈ [t, f],
      ((∀ x, part.own.isOwned x = true ↔ OwnedIn mesh part x) ↔
        ∀ a b c, OwnedIn mesh part a → OwnedIn mesh part c → a ≤ b → b ≤ c → OwnedIn mesh part b) ∧
      (∀ x, x ∈ part.own.shared ↔ NodeIn part.doms x ∧ part.own.isOwned x = false) ∧
      (∃ l : List Nat, l.Nodup ∧ (∀ x, x ∈ l ↔ OwnedIn mesh part x) ∧ part.own.cnt = l.length) := by
  obtain ⟨dt, a1, a2, a3⟩ := domainMap_belongs h p true
  obtain ⟨df, b1, b2, b3⟩ := domainMap_belongs h p false
  obtain ⟨t', t1, t2, t3, t4⟩ := makeMesh_ok h p true a2 a3 (ord true) (hord true)
  obtain ⟨f', f1, f2, f3, f4⟩ := makeMesh_ok h p false b2 b3 (ord false) (hord false)
  have he : split kinds mesh p ord = some (t', f') := by
    unfold split; rw [a1, Option.bind_some, b1, Option.bind_some, t1, Option.bind_some, f1]; rfl
  rw [hsp] at he
  simp only [Option.some.injEq, Prod.mk.injEq] at he
  obtain ⟨rfl, rfl⟩ := he
  intro part hpart
  simp only [List.mem_cons, List.not_mem_nil, or_false] at hpart
  rcases hpart with rfl | rfl
  · exact makeMesh_own a2 t2 t3
  · exact makeMesh_own b2 f2 f3

end Verif.Split
