import Verif.Pipeline.Model

/-! # Lemmas for C113: partitioning any mesh gives a run of its problem -/
namespace Verif.Pipeline
open Verif Verif.Elem Verif.Mesh Verif.Dofs Verif.Lsq Verif.Distr Verif.Partition Verif.Split

noncomputable section

/-! ### What partitioning returns -/

/-- The result of partitioning, as far as it matters here; `maps` are the elements of the parts before renumbering. -/
structure Result (bnds : List Nat) (m : DomMap) (N nParts : Nat) (parts : List Part) (f : Nat → Nat) (maps : List DomMap) : Prop where
  len : maps.length = nParts
  plen : parts.length = nParts
  bij : Set.BijOn f (Set.Iio N) (Set.Iio N)
  doms : ∀ (i : Nat) m' p, maps[i]? = some m' → parts[i]? = some p → p.doms = mapDoms f m'
  nodup : ∀ (i : Nat) m' k d, maps[i]? = some m' → m'.lookup k = some d → d.elems.Nodup ∧ ∀ e ∈ d.elems, InDom m k e
  uniq : ∀ k e, InDom m k e → ∃! i : Nat, ∃ m', maps[i]? = some m' ∧ InDom m' k e
  own : ∀ (i : Nat) p, parts[i]? = some p → (∀ y, p.own.isOwned y = true ↔ before parts i ≤ y ∧ y < before parts i + p.own.cnt) ∧
    p.own.shared.Pairwise (· < ·) ∧ ∀ y, y ∈ p.own.shared ↔ NodeIn p.doms y ∧ ¬ p.own.isOwned y = true
  total : before parts parts.length = N
  nodes : ∀ x, NodeIn m x ↔ x < N
  wf : ∀ m' ∈ maps, KeysNodup m'
  dims : ∀ m' ∈ maps, ∀ d ∈ m', ∀ e ∈ d.2.elems, d.2.dim = some e.ty.dim
  mdims : ∀ d ∈ m, ∀ e ∈ d.2.elems, d.2.dim = some e.ty.dim
  views : ∀ m' ∈ maps, ViewsOk m' bnds
  els : ∀ e, Holds m e → WfElement e
  keys : KeysNodup m
  seen : ∀ (i : Nat) p, parts[i]? = some p → ∀ y, p.own.isOwned y = true → NodeIn p.doms y

theorem mesh_dims {kinds : List (ElType × Nat)} {m : DomMap} (h : WfMesh kinds m) : ∀ d ∈ m, ∀ e ∈ d.2.elems, d.2.dim = some e.ty.dim :=
  fun d hd e he => (h.dom d.1 d.2 (Mesh.lookup_of_mem (wf_keys h) hd)).dim e he

theorem partition_more {kinds : List (ElType × Nat)} {m : DomMap} {bnds : List Nat} {D : Nat} (h : MeshOk kinds m bnds D) (hone : OneSided m bnds)
    {nParts : Nat} {epart npart perm : List Nat} (hl : Labels m bnds nParts epart npart perm)
    (shuffle : List (Nat × Nat × Element) → List (Nat × Nat × Element)) (ord : Nat → Nat → List Element → List Element)
    (hshuf : ∀ l, (shuffle l).Perm l) (hord : ∀ i k l, (ord i k l).Perm l) :
    ∃ parts φ f maps, partitionImpl kinds m bnds nParts epart npart perm shuffle ord = some (parts, φ) ∧
      (∀ x, φ.find x = if x < npart.length then some (f x) else none) ∧ Result bnds m npart.length nParts parts f maps ∧
      (∀ m' ∈ maps, WfMesh kinds m') ∧
      (∀ (i : Nat) p, parts[i]? = some p → ∀ x, npart[x]? = some i → NodeIn p.doms (f x) → p.own.isOwned (f x) = true) ∧
      (∀ (i : Nat) p, parts[i]? = some p → ∀ x y, x < y → y < npart.length → p.own.isOwned (f x) = true → p.own.isOwned (f y) = true → f x < f y) ∧
      (∀ (j : Nat) k e (p : Nat), (tagged m (domainIds m bnds))[j]? = some (k, e) → epart[j]? = some p → ∃ m', maps[p]? = some m' ∧ InDom m' k e) ∧
      distribute kinds m bnds nParts epart perm shuffle = some maps := by
  obtain ⟨maps, hmaps, hlen, hok, hnd, huniq, hplace⟩ := (distribute_spec h nParts epart perm shuffle hl.els hl.elsLt hl.sorts hshuf).2 ((oneSided_iff h.wf bnds).1 hone)
  have hin : ∀ m' ∈ maps, ∀ k e, InDom m' k e → InDom m k e := by
    rintro m' hm' k e ⟨d, hd, he⟩
    obtain ⟨p, hp, rfl⟩ := List.mem_iff_getElem.1 hm'
    exact (hnd p _ k d (List.getElem?_eq_getElem hp) hd).2 e he
  have hholds : ∀ m' ∈ maps, ∀ e, Holds m' e → ∃ k, InDom m k e := by
    intro m' hm' e he
    obtain ⟨k, hk⟩ := (holds_iff_inDom (hok m' hm').1).1 he
    exact ⟨k, hin m' hm' k e hk⟩
  have hno : NodesOk npart maps := by
    refine ⟨fun p hp => by rw [hlen]; exact hl.nodesLt p hp, fun m' hm' x hx => ?_, fun x hx => ?_⟩
    · obtain ⟨e, he, hxe⟩ := mem_partNodes.1 hx
      obtain ⟨k, hk⟩ := hholds m' hm' e he
      exact (hl.nodes x).1 ⟨e, (holds_iff_inDom h.wf).2 ⟨k, hk⟩, hxe⟩
    · obtain ⟨e, he, hxe⟩ := (hl.nodes x).2 hx
      obtain ⟨k, hk⟩ := (holds_iff_inDom h.wf).1 he
      obtain ⟨p, ⟨m', hm', hk'⟩, _⟩ := huniq k e hk
      have hm'' := List.mem_of_getElem? hm'
      exact ⟨m', hm'', mem_partNodes.2 ⟨e, (holds_iff_inDom (hok m' hm'').1).2 ⟨k, hk'⟩, hxe⟩⟩
  obtain ⟨parts, φ, f, hfin, hpl, hbij, hφ, hpd, _, hown, htot, hmono⟩ := C28_partition_nodes npart maps bnds ord hno (fun m' hm' => wf_keys (hok m' hm').1)
    (fun m' hm' e he => by
      obtain ⟨k, hk⟩ := hholds m' hm' e he
      exact h.els e ((holds_iff_inDom h.wf).2 ⟨k, hk⟩)) (fun m' hm' => (hok m' hm').2) hord
  refine ⟨parts, φ, f, maps, by unfold partitionImpl; rw [hmaps, Option.bind_some, hfin], hφ, ⟨hlen, hpl.trans hlen, hbij,
    fun i m' p h1 h2 => (hpd i m' p h1 h2).1, hnd, huniq, fun i p hp => ?_, htot, hl.nodes, fun m' hm' => wf_keys (hok m' hm').1,
    fun m' hm' => mesh_dims (hok m' hm').1, mesh_dims h.wf, fun m' hm' => (hok m' hm').2, h.els, wf_keys h.wf, fun i p hp => (hown i p hp).2.1⟩, fun m' hm' => (hok m' hm').1,
    fun i p hp => (hown i p hp).2.2.2.2, hmono, hplace, hmaps⟩
  obtain ⟨h1, _, h3, h4, _⟩ := hown i p hp
  exact ⟨h1, h3, h4⟩

theorem partition_result_wf {kinds : List (ElType × Nat)} {m : DomMap} {bnds : List Nat} {D : Nat} (h : MeshOk kinds m bnds D) (hone : OneSided m bnds)
    {nParts : Nat} {epart npart perm : List Nat} (hl : Labels m bnds nParts epart npart perm)
    (shuffle : List (Nat × Nat × Element) → List (Nat × Nat × Element)) (ord : Nat → Nat → List Element → List Element)
    (hshuf : ∀ l, (shuffle l).Perm l) (hord : ∀ i k l, (ord i k l).Perm l) :
    ∃ parts φ f maps, partitionImpl kinds m bnds nParts epart npart perm shuffle ord = some (parts, φ) ∧
      (∀ x, φ.find x = if x < npart.length then some (f x) else none) ∧ Result bnds m npart.length nParts parts f maps ∧
      ∀ m' ∈ maps, WfMesh kinds m' := by
  obtain ⟨parts, φ, f, maps, h1, h2, R, hw, _⟩ := partition_more h hone hl shuffle ord hshuf hord
  exact ⟨parts, φ, f, maps, h1, h2, R, hw⟩

theorem partition_result {kinds : List (ElType × Nat)} {m : DomMap} {bnds : List Nat} {D : Nat} (h : MeshOk kinds m bnds D) (hone : OneSided m bnds)
    {nParts : Nat} {epart npart perm : List Nat} (hl : Labels m bnds nParts epart npart perm)
    (shuffle : List (Nat × Nat × Element) → List (Nat × Nat × Element)) (ord : Nat → Nat → List Element → List Element)
    (hshuf : ∀ l, (shuffle l).Perm l) (hord : ∀ i k l, (ord i k l).Perm l) :
    ∃ parts φ f maps, partitionImpl kinds m bnds nParts epart npart perm shuffle ord = some (parts, φ) ∧
      (∀ x, φ.find x = if x < npart.length then some (f x) else none) ∧ Result bnds m npart.length nParts parts f maps := by
  obtain ⟨parts, φ, f, maps, h1, h2, R, _⟩ := partition_result_wf h hone hl shuffle ord hshuf hord
  exact ⟨parts, φ, f, maps, h1, h2, R⟩

/-! ### Elements -/

/-- The elements of rank `r` before renumbering. -/
def mapAt (maps : List DomMap) (r : Nat) : DomMap := (maps[r]?).getD []

variable {bnds : List Nat} {m : DomMap} {N nParts : Nat} {parts : List Part} {f : Nat → Nat} {maps : List DomMap}

theorem part_doms (R : Result bnds m N nParts parts f maps) (r : Nat) : (part parts r).doms = mapDoms f (mapAt maps r) := by
  unfold part mapAt
  by_cases hr : r < nParts
  · have h1 : r < parts.length := by rw [R.plen]; exact hr
    have h2 : r < maps.length := by rw [R.len]; exact hr
    rw [List.getElem?_eq_getElem h1, List.getElem?_eq_getElem h2]
    exact R.doms r _ _ (List.getElem?_eq_getElem h2) (List.getElem?_eq_getElem h1)
  · rw [List.getElem?_eq_none (by rw [R.plen]; omega), List.getElem?_eq_none (by rw [R.len]; omega)]; rfl

theorem visit_mapDoms (f : Nat → Nat) (m : DomMap) (ks : List Nat) : visitIds (mapDoms f m) ks = (visitIds m ks).map (mapEl f) := by
  induction ks with
  | nil => rfl
  | cons k ks ih =>
    rw [visitIds_cons, visitIds_cons m, ih, List.map_append, visitIds_single, visitIds_single, lookup_mapDoms]
    congr 1
    cases m.lookup k with
    | none => rfl
    | some d => simp [Domain.elems, List.map_flatten]

theorem nodup_visit {kinds : List (ElType × Nat)} {D : Nat} (h : MeshOk kinds m bnds D) (k : Nat) : (visitIds m [k]).Nodup := by
  rw [visitIds_single]
  cases hk : m.lookup k with
  | none => simp
  | some d =>
    have h1 := h.ids
    unfold tagged at h1
    rw [List.map_flatMap, List.nodup_flatMap] at h1
    have h2 := h1.1 k (List.mem_map.2 ⟨(k, d), Mesh.mem_of_lookup hk, rfl⟩)
    rw [List.map_map, visitIds_single, hk] at h2
    exact List.Nodup.of_map _ h2

theorem inDom_mapAt (R : Result bnds m N nParts parts f maps) {r k : Nat} {e : Element} (h : InDom (mapAt maps r) k e) :
    r < nParts ∧ (∃ m', maps[r]? = some m' ∧ InDom m' k e) ∧ InDom m k e := by
  unfold mapAt at h
  cases hm : maps[r]? with
  | none => rw [hm] at h; obtain ⟨d, hd, _⟩ := h; cases hd
  | some m' =>
    rw [hm] at h
    have hr : r < maps.length := (List.getElem?_eq_some_iff.1 hm).1
    refine ⟨by rw [← R.len]; exact hr, ⟨m', rfl, h⟩, ?_⟩
    obtain ⟨d, hd, he⟩ := h
    exact (R.nodup r m' k d hm hd).2 e he

theorem domain_perm {kinds : List (ElType × Nat)} {D : Nat} (hm : MeshOk kinds m bnds D) (R : Result bnds m N nParts parts f maps) (k : Nat) :
    ((List.range nParts).flatMap fun r => visitIds (mapAt maps r) [k]).Perm (visitIds m [k]) := by
  rw [List.perm_ext_iff_of_nodup]
  · intro e
    rw [List.mem_flatMap, mem_visit_single]
    constructor
    · rintro ⟨r, _, he⟩
      exact (inDom_mapAt R (mem_visit_single.1 he)).2.2
    · intro he
      obtain ⟨i, ⟨m', hm', hin⟩, _⟩ := R.uniq k e he
      have hi : i < maps.length := (List.getElem?_eq_some_iff.1 hm').1
      exact ⟨i, List.mem_range.2 (by rw [← R.len]; exact hi), mem_visit_single.2 (by unfold mapAt; rw [hm']; exact hin)⟩
  · rw [List.nodup_flatMap]
    refine ⟨fun r hr => ?_, ?_⟩
    · rw [visitIds_single]
      cases hk : (mapAt maps r).lookup k with
      | none => simp
      | some d =>
        have hr' : r < maps.length := by rw [R.len]; exact List.mem_range.1 hr
        unfold mapAt at hk
        rw [List.getElem?_eq_getElem hr'] at hk
        exact (R.nodup r _ k d (List.getElem?_eq_getElem hr') hk).1
    · refine List.Pairwise.imp ?_ (List.nodup_range (n := nParts))
      intro a b hab
      intro e he he'
      have h1 := inDom_mapAt R (mem_visit_single.1 he)
      have h2 := inDom_mapAt R (mem_visit_single.1 he')
      exact hab ((R.uniq k e h1.2.2).unique h1.2.1 h2.2.1)
  · exact nodup_visit hm k

theorem flatMap_append_perm {A B : Type} (l : List A) (f g : A → List B) : (l.flatMap fun a => f a ++ g a).Perm (l.flatMap f ++ l.flatMap g) := by
  induction l with
  | nil => simp
  | cons a l ih =>
    simp only [List.flatMap_cons]
    calc (f a ++ g a ++ l.flatMap fun a => f a ++ g a).Perm (f a ++ g a ++ (l.flatMap f ++ l.flatMap g)) := ih.append_left _
      _ = f a ++ (g a ++ l.flatMap f ++ l.flatMap g) := by simp
      _ |>.Perm (f a ++ (l.flatMap f ++ g a ++ l.flatMap g)) := ((List.perm_append_comm).append_right _).append_left _
      _ = f a ++ l.flatMap f ++ (g a ++ l.flatMap g) := by simp

theorem flatMap_swap {A B C : Type} (l : List A) (k : List B) (f : A → B → List C) :
    (l.flatMap fun a => k.flatMap fun b => f a b).Perm (k.flatMap fun b => l.flatMap fun a => f a b) := by
  induction k with
  | nil => simp
  | cons b k ih =>
    simp only [List.flatMap_cons]
    exact (flatMap_append_perm l _ _).trans (ih.append_left _)

theorem flatMap_perm_congr {A B : Type} {l : List A} {f g : A → List B} (h : ∀ a ∈ l, (f a).Perm (g a)) : (l.flatMap f).Perm (l.flatMap g) := by
  induction l with
  | nil => exact List.Perm.refl _
  | cons a l ih =>
    simp only [List.flatMap_cons]
    exact (h a (by simp)).append (ih fun b hb => h b (by simp [hb]))

theorem visit_perm {kinds : List (ElType × Nat)} {D : Nat} (hm : MeshOk kinds m bnds D) (R : Result bnds m N nParts parts f maps) (ks : List Nat) :
    ((List.range nParts).flatMap fun r => visitIds (mapAt maps r) ks).Perm (visitIds m ks) := by
  induction ks with
  | nil => rw [show (fun r => visitIds (mapAt maps r) []) = fun _ => [] from rfl]; simp [visitIds, existing]
  | cons k ks ih =>
    rw [visitIds_cons]
    have : (fun r => visitIds (mapAt maps r) (k :: ks)) = fun r => visitIds (mapAt maps r) [k] ++ visitIds (mapAt maps r) ks := by
      funext r; rw [visitIds_cons]
    rw [this]
    exact (flatMap_append_perm _ _ _).trans ((domain_perm hm R k).append ih)

/-! ### Boundary views -/

theorem inDom_of_mem {m : DomMap} (hk : KeysNodup m) {d : Nat × Domain} (hd : d ∈ m) {v : List Element} (hv : v ∈ d.2.vecs) {e : Element} (he : e ∈ v) :
    InDom m d.1 e := ⟨d.2, Mesh.lookup_of_mem hk hd, List.mem_flatten.2 ⟨v, hv, he⟩⟩

theorem inDom_holds {m : DomMap} {k : Nat} {e : Element} (h : InDom m k e) : Holds m e := by
  obtain ⟨d, hd, he⟩ := h
  obtain ⟨v, hv, he⟩ := List.mem_flatten.1 he
  exact ⟨(k, d), Mesh.mem_of_lookup hd, v, hv, he⟩

theorem mapAt_mem (R : Result bnds m N nParts parts f maps) {r : Nat} (hr : r < nParts) : mapAt maps r ∈ maps := by
  have : r < maps.length := by rw [R.len]; exact hr
  unfold mapAt
  rw [List.getElem?_eq_getElem this]
  exact List.getElem_mem this

/-- A parent in a part is a parent in the mesh. -/
theorem isParent_of_part (R : Result bnds m N nParts parts f maps) {r : Nat} (hr : r < nParts) {x e : Element} {s : Nat}
    (h : IsParent (mapAt maps r) x e s) : IsParent m x e s ∧ ∃ k, InDom (mapAt maps r) k e := by
  have hmem := mapAt_mem R hr
  obtain ⟨⟨d, hd, hdim, v, hv, he⟩, hside⟩ := h
  have hin := inDom_of_mem (R.wf _ hmem) hd hv he
  obtain ⟨d', hd', he'⟩ := (inDom_mapAt R hin).2.2
  have h1 := R.dims _ hmem d hd e (List.mem_flatten.2 ⟨v, hv, he⟩)
  have h2 := R.mdims _ (Mesh.mem_of_lookup hd') e he'
  obtain ⟨v', hv', he''⟩ := List.mem_flatten.1 he'
  exact ⟨⟨⟨_, Mesh.mem_of_lookup hd', by rw [h2, ← h1, hdim], v', hv', he''⟩, hside⟩, d.1, hin⟩

theorem viewOf_part (R : Result bnds m N nParts parts f maps) (hu : UniqueParent m bnds) {r b : Nat} (hb : b ∈ bnds) {x : Element}
    (hx : InDom (mapAt maps r) b x) : ∃ e s, viewOf m x = some (e, s) ∧ viewOf (mapAt maps r) x = some (e, s) ∧ IsParent (mapAt maps r) x e s := by
  obtain ⟨hr, _, hxm⟩ := inDom_mapAt R hx
  have hmem := mapAt_mem R hr
  obtain ⟨d, hd, hxd⟩ := hx
  obtain ⟨e, s, hes⟩ := (R.views _ hmem b hb d hd).2.2 x hxd
  have hem := (isParent_of_part R hr hes).1
  refine ⟨e, s, ?_, ?_, hes⟩
  · cases hv : viewOf m x with
    | none => exact absurd ⟨e, s, hem⟩ ((viewOf_none R.keys).1 hv)
    | some v =>
      obtain ⟨h1, h2⟩ := hu b hb x hxm _ _ _ _ (viewOf_some (e := v.1) (s := v.2) R.keys hv) hem
      rw [← h1, ← h2]
  · cases hv : viewOf (mapAt maps r) x with
    | none => exact absurd ⟨e, s, hes⟩ ((viewOf_none (R.wf _ hmem)).1 hv)
    | some v =>
      obtain ⟨h1, h2⟩ := hu b hb x hxm _ _ _ _ (isParent_of_part R hr (viewOf_some (e := v.1) (s := v.2) (R.wf _ hmem) hv)).1 hem
      rw [← h1, ← h2]

theorem mem_visitIds {m : DomMap} {ks : List Nat} {e : Element} : e ∈ visitIds m ks ↔ ∃ k ∈ ks, InDom m k e := by
  induction ks with
  | nil => simp [visitIds, existing]
  | cons k ks ih => rw [visitIds_cons, List.mem_append, mem_visit_single, ih]; simp

theorem filterMap_congr' {A B : Type} {l : List A} {f g : A → Option B} (h : ∀ a ∈ l, f a = g a) : l.filterMap f = l.filterMap g := by
  induction l with
  | nil => rfl
  | cons a l ih =>
    have ih := ih fun b hb => h b (by simp [hb])
    rw [List.filterMap_cons, List.filterMap_cons, h a (by simp), ih]

theorem views_part (R : Result bnds m N nParts parts f maps) (hu : UniqueParent m bnds) {ks : List Nat} (hks : ks ⊆ bnds) (r : Nat) :
    (visitIds (mapAt maps r) ks).filterMap (viewOf (mapAt maps r)) = (visitIds (mapAt maps r) ks).filterMap (viewOf m) := by
  refine filterMap_congr' fun x hx => ?_
  obtain ⟨b, hb, hin⟩ := mem_visitIds.1 hx
  obtain ⟨e, s, h1, h2, _⟩ := viewOf_part R hu (hks hb) hin
  rw [h1, h2]

theorem holds_part (R : Result bnds m N nParts parts f maps) {r : Nat} {e : Element} (h : Holds (mapAt maps r) e) : Holds m e := by
  obtain ⟨d, hd, v, hv, he⟩ := h
  have hk : KeysNodup (mapAt maps r) := by
    unfold mapAt
    cases hm : maps[r]? with
    | none => exact List.nodup_nil
    | some m' => exact R.wf m' (List.mem_of_getElem? hm)
  exact inDom_holds (inDom_mapAt R (inDom_of_mem hk hd hv he)).2.2

theorem of_isParent_mapDoms {f : Nat → Nat} {m : DomMap} {x e' : Element} {s : Nat} (hels : ∀ e, Holds m e → WfElement e)
    (hinj : ∀ a b, NodeIn m a → NodeIn m b → f a = f b → a = b) (hx : Holds m x) (h : IsParent (mapDoms f m) (mapEl f x) e' s) :
    ∃ e, IsParent m x e s ∧ e' = mapEl f e := by
  obtain ⟨⟨d', hd', hdim, v', hv', he'⟩, l, hl, hp⟩ := h
  obtain ⟨d, hd, rfl⟩ := List.mem_map.1 hd'
  obtain ⟨v, hv, rfl⟩ := List.mem_map.1 hv'
  obtain ⟨e, he, rfl⟩ := List.mem_map.1 he'
  have hhe : Holds m e := ⟨d, hd, v, hv, he⟩
  refine ⟨e, ⟨⟨d, hd, hdim, v, hv, he⟩, ?_⟩, rfl⟩
  rw [sideNodes_mapEl (hels e hhe)] at hl
  obtain ⟨l0, hl0, rfl⟩ := Option.map_eq_some_iff.1 hl
  refine ⟨l0, hl0, ?_⟩
  have hmem : ∀ y ∈ l0, NodeIn m y := by
    intro y hy
    unfold sideNodes at hl0
    obtain ⟨inds, hi, rfl⟩ := Option.map_eq_some_iff.1 hl0
    obtain ⟨i, hii, rfl⟩ := List.mem_map.1 hy
    have hlt := sideInds_lt (hels e hhe) hi i hii
    refine ⟨e, hhe, ?_⟩
    rw [List.getD_eq_getElem?_getD, List.getElem?_eq_getElem hlt]
    exact List.getElem_mem hlt
  have key : ∀ {l l' : List Nat}, (∀ y ∈ l, NodeIn m y) → (∀ y ∈ l', NodeIn m y) → (l.map f).Perm (l'.map f) → l.Perm l' := by
    intro l l' h1 h2 hpm
    rw [List.perm_iff_count]
    intro a
    by_cases ha : NodeIn m a
    · have hc : ∀ l : List Nat, (∀ y ∈ l, NodeIn m y) → (l.map f).count (f a) = l.count a := by
        intro l hl
        induction l with
        | nil => rfl
        | cons b l ih =>
          rw [List.map_cons, List.count_cons, List.count_cons, ih fun y hy => hl y (by simp [hy])]
          congr 1
          by_cases hb : b = a
          · rw [hb]; simp
          · have : f b ≠ f a := fun hc => hb (hinj b a (hl b (by simp)) ha hc)
            simp [hb, this]
      rw [← hc l h1, ← hc l' h2]
      exact List.perm_iff_count.1 hpm (f a)
    · rw [List.count_eq_zero.2 fun h => ha (h1 a h), List.count_eq_zero.2 fun h => ha (h2 a h)]
  exact key hmem (fun y hy => ⟨x, hx, hy⟩) hp

theorem keys_mapDoms {f : Nat → Nat} {m : DomMap} (h : KeysNodup m) : KeysNodup (mapDoms f m) := by
  have : (mapDoms f m).map (·.1) = m.map (·.1) := by unfold mapDoms; rw [List.map_map]; rfl
  unfold KeysNodup at *
  rw [this]; exact h

theorem viewOf_renamed (R : Result bnds m N nParts parts f maps) (hu : UniqueParent m bnds) {r b : Nat} (hb : b ∈ bnds) {x : Element}
    (hx : InDom (mapAt maps r) b x) : viewOf (mapDoms f (mapAt maps r)) (mapEl f x) = (viewOf m x).map fun v => (mapEl f v.1, v.2) := by
  obtain ⟨e, s, h1, _, hes⟩ := viewOf_part R hu hb hx
  obtain ⟨hr, _, hxm⟩ := inDom_mapAt R hx
  have hmem := mapAt_mem R hr
  have hels : ∀ e, Holds (mapAt maps r) e → WfElement e := fun e he => R.els e (holds_part R he)
  have hhe : Holds (mapAt maps r) e := by
    obtain ⟨⟨d, hd, _, v, hv, he⟩, _⟩ := hes
    exact ⟨d, hd, v, hv, he⟩
  rw [h1]
  have hp := isParent_mapDoms (f := f) (hels e hhe) hes
  cases hv : viewOf (mapDoms f (mapAt maps r)) (mapEl f x) with
  | none => exact absurd ⟨_, s, hp⟩ ((viewOf_none (keys_mapDoms (R.wf _ hmem))).1 hv)
  | some v =>
    obtain ⟨e', he', hee⟩ := of_isParent_mapDoms hels (fun a b ha hb hab => by
      obtain ⟨ea, hea, ha⟩ := ha
      obtain ⟨eb, heb, hb⟩ := hb
      exact R.bij.2.1 ((R.nodes a).1 ⟨ea, holds_part R hea, ha⟩) ((R.nodes b).1 ⟨eb, holds_part R heb, hb⟩) hab) (inDom_holds hx)
      (viewOf_some (e := v.1) (s := v.2) (keys_mapDoms (R.wf _ hmem)) hv)
    obtain ⟨rfl, h3⟩ := hu b hb x hxm _ _ _ _ (isParent_of_part R hr he').1 (isParent_of_part R hr hes).1
    simp only [Option.map_some, Option.some.injEq]
    rw [← hee, ← h3]

theorem views_renamed (R : Result bnds m N nParts parts f maps) (hu : UniqueParent m bnds) {ks : List Nat} (hks : ks ⊆ bnds) (r : Nat) :
    (visitIds (mapDoms f (mapAt maps r)) ks).filterMap (viewOf (mapDoms f (mapAt maps r))) =
      ((visitIds (mapAt maps r) ks).filterMap (viewOf (mapAt maps r))).map fun v => (mapEl f v.1, v.2) := by
  rw [views_part R hu hks, visit_mapDoms, List.filterMap_map, List.map_filterMap]
  refine filterMap_congr' fun x hx => ?_
  obtain ⟨b, hb, hin⟩ := mem_visitIds.1 hx
  exact viewOf_renamed R hu (hks hb) hin

theorem elems_perm {kinds : List (ElType × Nat)} {D : Nat} (hm : MeshOk kinds m bnds D) (R : Result bnds m N nParts parts f maps) (hu : UniqueParent m bnds)
    {p : Prog} (hp : p.Ok m bnds) : ((List.range nParts).flatMap fun r => p.melems (mapAt maps r)).Perm (p.melems m) := by
  unfold Prog.melems
  refine (flatMap_append_perm _ _ _).trans (List.Perm.append ?_ ?_)
  · refine (flatMap_swap _ _ _).trans (flatMap_perm_congr fun K _ => ?_)
    unfold Kernel.elems
    rw [← List.map_flatMap]
    exact (visit_perm hm R K.doms).map _
  · refine (flatMap_swap _ _ _).trans (flatMap_perm_congr fun K hK => ?_)
    unfold BKernel.elems
    rw [← List.map_flatMap]
    refine List.Perm.map _ ?_
    have : (fun r => (visitIds (mapAt maps r) K.bnds).filterMap (viewOf (mapAt maps r))) = fun r => (visitIds (mapAt maps r) K.bnds).filterMap (viewOf m) :=
      funext fun r => views_part R hu (hp.bnds K hK) r
    rw [this, ← List.filterMap_flatMap]
    exact (visit_perm hm R K.bnds).filterMap _

theorem melems_renamed (R : Result bnds m N nParts parts f maps) (hu : UniqueParent m bnds) {p : Prog} (hp : p.Ok m bnds) (r : Nat) :
    p.melems (part parts r).doms = (p.melems (mapAt maps r)).map fun e => { e with nodes := e.nodes.map f } := by
  unfold Prog.melems
  rw [part_doms R, List.map_append, List.map_flatMap, List.map_flatMap]
  congr 1
  · refine List.flatMap_congr fun K _ => ?_
    unfold Kernel.elems
    rw [visit_mapDoms, List.map_map, List.map_map]
    rfl
  · refine List.flatMap_congr fun K hK => ?_
    unfold BKernel.elems
    rw [views_renamed R hu (hp.bnds K hK), List.map_map, List.map_map]
    rfl

theorem visits_perm {kinds : List (ElType × Nat)} {D : Nat} (hm : MeshOk kinds m bnds D) (R : Result bnds m N nParts parts f maps) (p : Prog) :
    ((List.range nParts).flatMap fun r => p.visits (mapAt maps r)).Perm (p.visits m) := by
  unfold Prog.visits
  refine (flatMap_swap _ _ _).trans (flatMap_perm_congr fun d _ => ?_)
  rw [← List.map_flatMap]
  exact (visit_perm hm R d.1).map _

/-! ### The numbering -/

theorem setup_length (p : Prog) (R : Result bnds m N nParts parts f maps) : (p.setup parts).counts.length = nParts := by
  change (parts.map _).length = _
  rw [List.length_map, R.plen]

theorem setup_sum (p : Prog) (R : Result bnds m N nParts parts f maps) : (p.setup parts).counts.sum = N := by
  have := R.total
  unfold before at this
  rw [List.take_length] at this
  exact this

theorem setup_owns (p : Prog) (R : Result bnds m N nParts parts f maps) {r : Nat} (hr : r < nParts) (n : Nat) :
    (p.setup parts).owns r n = (part parts r).own.isOwned n := by
  have h1 : r < parts.length := by rw [R.plen]; exact hr
  have hp : parts[r]? = some parts[r] := List.getElem?_eq_getElem h1
  have := (R.own r _ hp).1 n
  have hpart : part parts r = parts[r] := by unfold part; rw [hp]; rfl
  rw [hpart]
  apply Bool.eq_iff_iff.2
  rw [this]
  unfold Setup.owns
  rw [decide_eq_true_iff]
  have hb : (p.setup parts).world.begin r = before parts r := by
    change ((parts.map fun q => q.own.cnt).take r).sum = _
    unfold before; rw [List.map_take]
  have hc : ((p.setup parts).counts[r]?).getD 0 = parts[r].own.cnt := by
    change ((parts.map fun q => q.own.cnt)[r]?).getD 0 = _
    rw [List.getElem?_map, hp]; rfl
  rw [hb, hc]

theorem nodeIn_knows (p : Prog) (R : Result bnds m N nParts parts f maps) {r : Nat} (hr : r < nParts) {n : Nat} (hn : NodeIn (part parts r).doms n) :
    (p.setup parts).Knows r n := by
  have h1 : r < parts.length := by rw [R.plen]; exact hr
  have hp : parts[r]? = some parts[r] := List.getElem?_eq_getElem h1
  have hpart : part parts r = parts[r] := by unfold part; rw [hp]; rfl
  have := (R.own r _ hp).2.2 n
  unfold Setup.Knows
  rw [setup_owns p R hr]
  change _ ∨ n ∈ (part parts r).own.shared
  rw [hpart] at hn ⊢
  rw [this]
  by_cases ho : parts[r].own.isOwned n = true
  · exact Or.inl ho
  · exact Or.inr ⟨hn, ho⟩

theorem setup_ok {p : Prog} (hp : p.Ok m bnds) (R : Result bnds m N nParts parts f maps) : (p.setup parts).Ok := by
  have hlen := setup_length p R
  refine ⟨?_, ?_, ?_, ?_, ?_⟩
  · intro r hr
    rw [hlen] at hr
    have h1 : r < parts.length := by rw [R.plen]; exact hr
    have hpr : parts[r]? = some parts[r] := List.getElem?_eq_getElem h1
    have hpart : part parts r = parts[r] := by unfold part; rw [hpr]; rfl
    obtain ⟨_, h3, h4⟩ := R.own r _ hpr
    change ((part parts r).own.shared ++ []).Nodup ∧ ∀ n ∈ (part parts r).own.shared ++ [], _
    rw [List.append_nil]
    refine ⟨by rw [hpart]; exact h3.imp fun h => Nat.ne_of_lt h, fun n hn => ?_⟩
    rw [hpart, h4] at hn
    rw [setup_sum p R, setup_owns p R hr, hpart]
    refine ⟨?_, by simpa using hn.2⟩
    obtain ⟨e, he, hne⟩ := hn.1
    rw [← hpart, part_doms R] at he
    obtain ⟨e', he', rfl⟩ := of_holds_mapDoms he
    obtain ⟨x, hx, rfl⟩ := List.mem_map.1 hne
    exact R.bij.1 ((R.nodes x).1 ⟨e', holds_part R he', hx⟩)
  · intro r hr v hv
    rw [hlen] at hr
    obtain ⟨d, hd, hv⟩ := List.mem_flatMap.1 hv
    obtain ⟨e, he, rfl⟩ := List.mem_map.1 hv
    refine ⟨fun n hn => nodeIn_knows p R hr ?_, hp.comps d hd⟩
    obtain ⟨k, _, hk⟩ := mem_visitIds.1 he
    exact ⟨e, inDom_holds hk, hn⟩
  · intro r _
    exact ⟨List.nodup_nil, fun e he => absurd he (List.not_mem_nil)⟩
  · intro r _ n j a h; cases h
  · intro r _ n j a h; cases h

/-! ### The run -/

/-- A list with the same image up to order can be reordered to have exactly that image. -/
theorem perm_map {A B : Type} (g : A → B) {l : List A} {k : List B} (h : k.Perm (l.map g)) : ∃ l' : List A, l'.Perm l ∧ l'.map g = k := by
  induction l generalizing k with
  | nil => rw [List.map_nil, List.perm_nil] at h; exact ⟨[], List.Perm.refl _, h.symm⟩
  | cons a l ih =>
    rw [List.map_cons] at h
    have hmem : g a ∈ k := h.symm.subset (by simp)
    obtain ⟨k1, k2, rfl⟩ := List.append_of_mem hmem
    have h' : (k1 ++ k2).Perm (l.map g) := by
      have := (List.perm_middle (a := g a) (l₁ := k1) (l₂ := k2)).symm.trans h
      exact List.Perm.cons_inv this
    obtain ⟨l', hl', he⟩ := ih h'
    obtain ⟨l1, l2, rfl, h1, h2⟩ := List.map_eq_append_iff.1 he
    exact ⟨l1 ++ a :: l2, List.perm_middle.trans (hl'.cons a), by rw [List.map_append, List.map_cons, h1, h2]⟩

/-- The element with local dofs of rank `r`. -/
def local' (p : Prog) (parts : List Part) (f : Nat → Nat) (r : Nat) (e : MElem) : LElem :=
  ⟨(e.nodes.map f).flatMap fun n => e.inds.map fun j => (((p.setup parts).localDof r n j).join).getD 0, e.dims, e.pts⟩

theorem order_exists (R : Result bnds m N nParts parts f maps) (hu : UniqueParent m bnds) {p : Prog} (hp : p.Ok m bnds) {els : Nat → List LElem}
    (hels : ∀ r, (els r).Perm (p.rankElems parts r)) :
    ∃ sel : Nat → List MElem, ∀ r, (sel r).Perm (p.melems (mapAt maps r)) ∧ (sel r).map (local' p parts f r) = els r := by
  have : ∀ r, ∃ l : List MElem, l.Perm (p.melems (mapAt maps r)) ∧ l.map (local' p parts f r) = els r := by
    intro r
    refine perm_map _ ?_
    have h := hels r
    unfold Prog.rankElems at h
    rw [melems_renamed R hu hp, List.map_map] at h
    exact h
  exact ⟨fun r => (this r).choose, fun r => (this r).choose_spec⟩

/-- The run described by the parts. -/
def runOf (p : Prog) (parts : List Part) (f : Nat → Nat) (maps : List DomMap) (sel : Nat → List MElem) (els : Nat → List LElem)
    (vals : Nat → Nat → Nat → ℝ) (v : Nat → Nat → ℝ) : Run where
  s := p.setup parts
  new := f
  part := sel
  vpart r := p.visits (mapAt maps r)
  bc r := (p.rank parts els vals r).bc
  dirOwned r := (p.rank parts els vals r).dirOwned
  vals := vals
  v := v

variable {sel : Nat → List MElem} {els : Nat → List LElem}

/-- `sel` lists the elements of all ranks in the order of `els`. -/
def Selects (p : Prog) (parts : List Part) (f : Nat → Nat) (maps : List DomMap) (sel : Nat → List MElem) (els : Nat → List LElem) : Prop :=
  ∀ r, (sel r).Perm (p.melems (mapAt maps r)) ∧ (sel r).map (local' p parts f r) = els r

theorem run_rank {p : Prog} (hs : Selects p parts f maps sel els) (vals : Nat → Nat → Nat → ℝ) (v : Nat → Nat → ℝ) :
    (runOf p parts f maps sel els vals v).rank = p.rank parts els vals := by
  funext r
  unfold Run.rank Prog.rank
  congr 1
  exact (hs r).2

theorem visits_map (p : Prog) (R : Result bnds m N nParts parts f maps) (r : Nat) :
    p.visits (part parts r).doms = (p.visits (mapAt maps r)).map fun w => ⟨w.nodes.map f, w.active⟩ := by
  unfold Prog.visits
  rw [List.map_flatMap]
  refine List.flatMap_congr fun d _ => ?_
  rw [part_doms R, visit_mapDoms, List.map_map, List.map_map]
  rfl

theorem mem_melems {p : Prog} {m : DomMap} {e : MElem} (he : e ∈ p.melems m) :
    (∃ K ∈ p.kernels, ∃ e' ∈ visitIds m K.doms, e = ⟨e'.nodes, K.inds, K.dims e'.ty e'.n, K.pts e'.ty e'.n e'.id⟩) ∨
    ∃ K ∈ p.bkernels, ∃ x ∈ visitIds m K.bnds, ∃ e' s, viewOf m x = some (e', s) ∧ e = ⟨e'.nodes, K.inds, K.dims e'.ty e'.n, K.pts e'.ty e'.n e'.id s⟩ := by
  rcases List.mem_append.1 he with he | he
  · left
    obtain ⟨K, hK, he⟩ := List.mem_flatMap.1 he
    obtain ⟨e', he', rfl⟩ := List.mem_map.1 he
    exact ⟨K, hK, e', he', rfl⟩
  · right
    obtain ⟨K, hK, he⟩ := List.mem_flatMap.1 he
    obtain ⟨v, hv, rfl⟩ := List.mem_map.1 he
    obtain ⟨x, hx, hv⟩ := List.mem_filterMap.1 hv
    exact ⟨K, hK, x, hx, v.1, v.2, hv, rfl⟩

theorem isParent_inDom {m : DomMap} (hk : KeysNodup m) {x e : Element} {s : Nat} (h : IsParent m x e s) : ∃ k, InDom m k e := by
  obtain ⟨⟨d, hd, _, v, hv, he⟩, _⟩ := h
  exact ⟨_, inDom_of_mem hk hd hv he⟩

theorem problem_ok' {p : Prog} (hp : p.Ok m bnds) (hk : KeysNodup m) (hN : ∀ x, NodeIn m x ↔ x < N) : (p.problem m N).Ok := by
  refine ⟨?_, ?_, ?_, fun _ _ _ => rfl, ?_⟩
  · intro e he
    rcases mem_melems he with ⟨K, hK, e', he', rfl⟩ | ⟨K, hK, x, hx, e', s, hv, rfl⟩
    · exact hp.sized K hK e' he'
    · exact hp.bsized K hK x hx e' s hv
  · intro e he
    rcases mem_melems he with ⟨K, hK, e', he', rfl⟩ | ⟨K, hK, x, hx, e', s, hv, rfl⟩
    · obtain ⟨k, hk, hin⟩ := mem_visitIds.1 he'
      obtain ⟨d, hd, hkd, hsub⟩ := hp.active K hK k hk
      exact ⟨⟨e'.nodes, d.2⟩, List.mem_flatMap.2 ⟨d, hd, List.mem_map.2 ⟨e', mem_visitIds.2 ⟨k, hkd, hin⟩, rfl⟩⟩, fun _ h => h, hsub⟩
    · obtain ⟨k, hin⟩ := isParent_inDom hk (viewOf_some hk hv)
      obtain ⟨d, hd, hkd, hsub⟩ := hp.bactive K hK x hx e' s hv k hin
      exact ⟨⟨e'.nodes, d.2⟩, List.mem_flatMap.2 ⟨d, hd, List.mem_map.2 ⟨e', mem_visitIds.2 ⟨k, hkd, hin⟩, rfl⟩⟩, fun _ h => h, hsub⟩
  · intro w hw
    obtain ⟨d, hd, hw⟩ := List.mem_flatMap.1 hw
    obtain ⟨e, he, rfl⟩ := List.mem_map.1 hw
    obtain ⟨k, _, hk⟩ := mem_visitIds.1 he
    exact ⟨fun n hn => (hN n).1 ⟨e, inDom_holds hk, hn⟩, hp.comps d hd⟩
  · intro e he U hU
    rcases mem_melems he with ⟨K, hK, e', _, rfl⟩ | ⟨K, hK, x, _, e', s, _, rfl⟩
    · exact hp.weights K hK _ _ _ U hU
    · exact hp.bweights K hK _ _ _ _ U hU

theorem rep_eq (p : Prog) (parts : List Part) (n j : Nat) : (p.setup parts).rep n j = n := rfl

/-- All conditions of a run except those on Dirichlet data. -/
theorem run_of' {kinds : List (ElType × Nat)} {D : Nat} (hm : MeshOk kinds m bnds D) {p : Prog} (hp : p.Ok m bnds)
    (R : Result bnds m N nParts parts f maps) (hu : UniqueParent m bnds) (hs : Selects p parts f maps sel els) (vals : Nat → Nat → Nat → ℝ) (v : Nat → Nat → ℝ)
    (hcon : ∀ g, p.constrained parts g ↔ (runOf p parts f maps sel els vals v).D (p.problem m N) g)
    (hval : ∀ k, (p.problem m N).toProblem.used k → (p.problem m N).dir k → ∀ c, v ((runOf p parts f maps sel els vals v).num k) c = p.val k c) :
    (runOf p parts f maps sel els vals v).Of (p.problem m N) := by
  classical
  have hnr : (runOf p parts f maps sel els vals v).nr = nParts := setup_length p R
  have hrk := run_rank hs vals v
  refine ⟨setup_ok hp R, rfl, ?_, ?_, ?_, ?_, ?_, ?_, ?_, ?_, hval⟩
  · intro x
    rw [show (runOf p parts f maps sel els vals v).s.counts.sum = N from setup_sum p R]
    constructor
    · intro hx
      obtain ⟨n, hn, rfl⟩ := R.bij.2.2 (show x ∈ Set.Iio N from hx)
      exact ⟨n, hn, rfl⟩
    · rintro ⟨n, hn, rfl⟩
      exact R.bij.1 hn
  · rw [hnr]; exact (flatMap_perm_congr fun r _ => (hs r).1).trans (elems_perm hm R hu hp)
  · rw [hnr]; exact visits_perm hm R p
  · intro r hr; exact sees_of_eq (setup_ok hp R) hr (visits_map p R r)
  · intro r hr e he
    rw [hnr] at hr
    rcases mem_melems ((hs r).1.subset he) with ⟨K, hK, e', he', rfl⟩ | ⟨K, hK, x, hx, e', s, hv, rfl⟩
    · obtain ⟨k, hk, hin⟩ := mem_visitIds.1 he'
      obtain ⟨d, hd, hkd, hsub⟩ := hp.active K hK k hk
      exact ⟨⟨e'.nodes, d.2⟩, List.mem_flatMap.2 ⟨d, hd, List.mem_map.2 ⟨e', mem_visitIds.2 ⟨k, hkd, hin⟩, rfl⟩⟩, fun _ h => h, hsub⟩
    · obtain ⟨b, hb, hxin⟩ := mem_visitIds.1 hx
      obtain ⟨e'', s', h1, h2, hpar⟩ := viewOf_part R hu (hp.bnds K hK hb) hxin
      rw [hv] at h2
      obtain ⟨rfl, rfl⟩ := Prod.mk.inj (Option.some.inj h2)
      obtain ⟨_, k, hin⟩ := isParent_of_part R hr hpar
      obtain ⟨d, hd, hkd, hsub⟩ := hp.bactive K hK x (mem_visitIds.2 ⟨b, hb, (inDom_mapAt R hxin).2.2⟩) _ _ h1 k (inDom_mapAt R hin).2.2
      exact ⟨⟨e'.nodes, d.2⟩, List.mem_flatMap.2 ⟨d, hd, List.mem_map.2 ⟨e', mem_visitIds.2 ⟨k, hkd, hin⟩, rfl⟩⟩, fun _ h => h, hsub⟩
  · intro j n n' hn hn'
    change f n = f n' ↔ n = n'
    exact ⟨fun h => R.bij.2.1 hn hn' h, fun h => by rw [h]⟩
  · intro r _ d _
    rw [hrk]
    change decide (p.constrained parts ((p.l2g parts r).getD d 0)) = true ↔ _
    rw [decide_eq_true_iff, hcon]
    exact Iff.rfl
  · intro r _
    rw [hrk]
    refine ⟨(List.nodup_range).filter _, fun d => ?_⟩
    change d ∈ (List.range _).filter _ ↔ _
    rw [List.mem_filter, List.mem_range]
    exact Iff.rfl

/-- The same program without Dirichlet conditions. -/
def bare (p : Prog) : Prog := { p with dirichlet := [] }

theorem bare_ok {p : Prog} (hp : p.Ok m bnds) : (bare p).Ok m bnds :=
  ⟨hp.comps, hp.active, hp.sized, hp.weights, hp.bnds, hp.bactive, hp.bsized, hp.bweights⟩

theorem bare_of {kinds : List (ElType × Nat)} {D : Nat} (hm : MeshOk kinds m bnds D) {p : Prog} (hp : p.Ok m bnds)
    (R : Result bnds m N nParts parts f maps) (hu : UniqueParent m bnds) (hs : Selects p parts f maps sel els) :
    (runOf (bare p) parts f maps sel els (fun _ _ _ => 0) fun _ _ => 0).Of ((bare p).problem m N) := by
  refine run_of' hm (bare_ok hp) R hu hs _ _ ?_ ?_
  · intro g
    constructor
    · rintro ⟨r, _, d, hd, _⟩; exact absurd hd List.not_mem_nil
    · rintro ⟨k, _, ⟨d, hd, _⟩, _⟩; exact absurd hd List.not_mem_nil
  · rintro k _ ⟨d, hd, _⟩; exact absurd hd List.not_mem_nil

theorem run_marked {p : Prog} (hp : p.Ok m bnds) (R : Result bnds m N nParts parts f maps) (vals : Nat → Nat → Nat → ℝ) (v : Nat → Nat → ℝ) :
    (runOf p parts f maps sel els vals v).Marked := (C112_marked (R := runOf p parts f maps sel els vals v) (setup_ok hp R)).2 fun _ _ => rfl

theorem dof_lt_dpn {s : Setup} (h : s.Ok) {r : Nat} (hr : r < s.counts.length) {n j g : Nat}
    (hn : s.owns r n = true ∨ n ∈ s.ghosts r ++ s.pghosts r) (hd : s.dofs r n j = some g) : j < s.dpn := by
  rw [dofs_iff h hr j g hn] at hd
  exact (mem_all.1 (List.mem_of_getElem? hd)).2.1

theorem constrained_iff {kinds : List (ElType × Nat)} {D : Nat} (hm : MeshOk kinds m bnds D) {p : Prog} (hp : p.Ok m bnds)
    (R : Result bnds m N nParts parts f maps) (hu : UniqueParent m bnds) (hs : Selects p parts f maps sel els) (vals : Nat → Nat → Nat → ℝ) (v : Nat → Nat → ℝ) (g : Nat) :
    p.constrained parts g ↔ (runOf p parts f maps sel els vals v).D (p.problem m N) g := by
  have hP := problem_ok' (bare_ok hp) R.keys R.nodes
  have hof := bare_of hm hp R hu hs
  have hmk := run_marked (sel := sel) (els := els) (bare_ok hp) R (fun _ _ _ => 0) fun _ _ => 0
  have hso := setup_ok hp R
  have hlen := setup_length p R
  constructor
  · rintro ⟨r, hr, d, hd, e, he, n, hn, j, hj, hg⟩
    rw [R.plen] at hr
    rw [part_doms R, visit_mapDoms] at he
    obtain ⟨e', he', rfl⟩ := List.mem_map.1 he
    obtain ⟨x, hx, rfl⟩ := List.mem_map.1 hn
    obtain ⟨k, hk, hin⟩ := mem_visitIds.1 he'
    have hin' := (inDom_mapAt R hin).2.2
    have hxN : x < N := (R.nodes x).1 ⟨e', inDom_holds hin', hx⟩
    have hkn : (p.setup parts).Knows r (f x) := by
      refine nodeIn_knows p R hr ⟨mapEl f e', ?_, List.mem_map.2 ⟨x, hx, rfl⟩⟩
      rw [part_doms R]
      exact holds_mapDoms (inDom_holds hin)
    have hloc := knows_local hkn
    have hr' : r < (p.setup parts).counts.length := by rw [hlen]; exact hr
    have hjd : j < p.dpn := dof_lt_dpn hso hr' hloc hg
    rw [dofs_owner hso hr' hloc] at hg
    have hu := (some_iff (n := x) (j := j) hP hof hmk hxN hjd).1 (Option.isSome_iff_exists.2 ⟨g, hg⟩)
    refine ⟨(x, j), hu, ⟨d, hd, hj, e', mem_visitIds.2 ⟨k, hk, hin'⟩, hx⟩, ?_⟩
    change ((p.setup parts).dofs ((p.setup parts).owner (f x)) (f x) j).getD 0 = g
    rw [hg]; rfl
  · rintro ⟨⟨x, j⟩, hu, ⟨d, hd, hj, e, he, hx⟩, hg⟩
    obtain ⟨k, hk, hin⟩ := mem_visitIds.1 he
    obtain ⟨r, ⟨m', hm', hin'⟩, _⟩ := R.uniq k e hin
    have hr : r < nParts := by rw [← R.len]; exact (List.getElem?_eq_some_iff.1 hm').1
    have hr' : r < (p.setup parts).counts.length := by rw [hlen]; exact hr
    have hin2 : InDom (mapAt maps r) k e := by unfold mapAt; rw [hm']; exact hin'
    have hkn : (p.setup parts).Knows r (f x) := by
      refine nodeIn_knows p R hr ⟨mapEl f e, ?_, List.mem_map.2 ⟨x, hx, rfl⟩⟩
      rw [part_doms R]
      exact holds_mapDoms (inDom_holds hin2)
    have hsm := (some_iff (n := x) (j := j) hP hof hmk hu.1 hu.2.1).2 hu
    obtain ⟨g', hg'⟩ := Option.isSome_iff_exists.1 hsm
    have hg'' : (p.setup parts).dofs ((p.setup parts).owner (f x)) (f x) j = some g' := hg'
    refine ⟨r, by rw [R.plen]; exact hr, d, hd, mapEl f e, ?_, f x, List.mem_map.2 ⟨x, hx, rfl⟩, j, hj, ?_⟩
    · rw [part_doms R, visit_mapDoms]
      exact List.mem_map.2 ⟨e, mem_visitIds.2 ⟨k, hk, hin2⟩, rfl⟩
    · rw [dofs_owner hso hr' (knows_local hkn), hg'', ← hg]
      change _ = some (((p.setup parts).dofs ((p.setup parts).owner (f x)) (f x) j).getD 0)
      rw [hg'']; rfl

/-! ### Outcomes of distribution -/

theorem mapDoms_congr {f g : Nat → Nat} {m : DomMap} (h : ∀ e, Holds m e → ∀ x ∈ e.nodes, f x = g x) : mapDoms f m = mapDoms g m := by
  unfold mapDoms
  refine List.map_congr_left fun d hd => ?_
  have : ∀ v ∈ d.2.vecs, v.map (mapEl f) = v.map (mapEl g) := by
    intro v hv
    refine List.map_congr_left fun e he => ?_
    unfold mapEl
    have : e.nodes.map f = e.nodes.map g := List.map_congr_left (h e ⟨d, hd, v, hv, he⟩)
    rw [this]
  simp only [Prod.mk.injEq, Domain.mk.injEq, true_and]
  exact List.map_congr_left this

theorem mapDoms_id (m : DomMap) : mapDoms id m = m := by
  unfold mapDoms mapEl
  simp

/-! ### Reordering -/

theorem world_begin (parts : List Part) (p : Nat) : (world parts).begin p = before parts p := by
  change ((parts.map fun q => q.own.cnt).take p).sum = _
  unfold before; rw [List.map_take]

theorem world_count {p : Nat} (hp : p < parts.length) : ((world parts).counts[p]?).getD 0 = (part parts p).own.cnt := by
  change ((parts.map fun q => q.own.cnt)[p]?).getD 0 = _
  unfold part
  rw [List.getElem?_map, List.getElem?_eq_getElem hp]; rfl

theorem world_shared {p : Nat} (hp : p < parts.length) : ((world parts).shared[p]?).getD [] = (part parts p).own.shared := by
  change ((parts.map fun q => q.own.shared)[p]?).getD [] = _
  unfold part
  rw [List.getElem?_map, List.getElem?_eq_getElem hp]; rfl

theorem world_sum (R : Result bnds m N nParts parts f maps) : (world parts).counts.sum = N := by
  have := R.total
  unfold before at this
  rw [List.take_length] at this
  exact this

theorem part_get {p : Nat} (hp : p < parts.length) : parts[p]? = some (part parts p) := by
  unfold part; rw [List.getElem?_eq_getElem hp]; rfl

theorem world_owns (R : Result bnds m N nParts parts f maps) {p : Nat} (hp : p < parts.length) (y : Nat) :
    Permute.Owns (world parts) p y ↔ (part parts p).own.isOwned y = true := by
  unfold Permute.Owns
  rw [world_begin, world_count hp, ((R.own p _ (part_get hp)).1 y)]

theorem nodeIn_lt (R : Result bnds m N nParts parts f maps) {p y : Nat} (h : NodeIn (part parts p).doms y) : y < N := by
  obtain ⟨e, he, hy⟩ := h
  rw [part_doms R] at he
  obtain ⟨e', he', rfl⟩ := of_holds_mapDoms he
  obtain ⟨x, hx, rfl⟩ := List.mem_map.1 hy
  exact R.bij.1 ((R.nodes x).1 ⟨e', holds_part R he', hx⟩)

theorem permute_ok (R : Result bnds m N nParts parts f maps) {src : List Nat} (hsrc : src.Perm (List.range nParts)) : Permute.Ok (world parts) src := by
  refine ⟨⟨?_, ?_, ?_⟩, ?_, ?_⟩
  · simp [world]
  · intro l hl i hi
    obtain ⟨q, hq, rfl⟩ := List.mem_map.1 hl
    obtain ⟨r, hr, rfl⟩ := List.mem_iff_getElem.1 hq
    rw [world_sum R]
    have := ((R.own r _ (List.getElem?_eq_getElem hr)).2.2 i).1 hi
    have hp : part parts r = parts[r] := by unfold part; rw [List.getElem?_eq_getElem hr]; rfl
    rw [← hp] at this
    exact nodeIn_lt R this.1
  · intro r hr i hi
    have hr' : r < parts.length := by simpa [world] using hr
    have hs : (world parts).shared[r] = (part parts r).own.shared := by
      rw [← world_shared hr', List.getElem?_eq_getElem hr]; rfl
    rw [hs] at hi
    have := ((R.own r _ (part_get hr')).2.2 i).1 hi
    exact fun h => this.2 ((world_owns R hr' i).1 h)
  · intro l hl
    obtain ⟨q, hq, rfl⟩ := List.mem_map.1 hl
    obtain ⟨r, hr, rfl⟩ := List.mem_iff_getElem.1 hq
    exact (R.own r _ (List.getElem?_eq_getElem hr)).2.1.imp fun h => Nat.ne_of_lt h
  · have : (world parts).counts.length = nParts := by simp [world, R.plen]
    rw [this]; exact hsrc

theorem mapDoms_comp (f g : Nat → Nat) (m : DomMap) : mapDoms g (mapDoms f m) = mapDoms (fun x => g (f x)) m := by
  unfold mapDoms mapEl
  simp [Function.comp_def]

/-- The ownership of a part after reordering. -/
theorem reindexed_own (R : Result bnds m N nParts parts f maps) {src : List Nat} (hsrc : src.Perm (List.range nParts)) {p : Nat} (hp : p < parts.length) :
    ∃ o, Permute.reindexedOwn (world parts) src p = some o ∧ o.cnt = (part parts p).own.cnt ∧ o.shared.Pairwise (· < ·) ∧
      (∀ n, o.isOwned n = true ↔ ∃ g, Permute.Owns (world parts) p g ∧ Permute.newId (world parts) src g = n) ∧
      ∀ n, n ∈ o.shared ↔ ∃ g ∈ (part parts p).own.shared, Permute.newId (world parts) src g = n := by
  have hok := permute_ok R hsrc
  have hp' : p < (world parts).counts.length := by simpa [world] using hp
  obtain ⟨o, h1, h2, h3, h4, h5⟩ := Permute.ownership_any hok hp'
  refine ⟨o, h1, ?_, h3, h4, ?_⟩
  · rw [h2, world_count hp]
  · intro n; rw [h5, world_shared hp]

theorem reorder_result (R : Result bnds m N nParts parts f maps) {src : List Nat} (hsrc : src.Perm (List.range nParts)) (hmono : Monotone parts src)
    {parts' : List Part} (h' : reorder parts src = some parts') :
    Result bnds m N nParts parts' (fun x => Permute.newId (world parts) src (f x)) (src.map (mapAt maps)) := by
  have hok := permute_ok R hsrc
  have hslen : src.length = nParts := by rw [hsrc.length_eq, List.length_range]
  have hf := mapM_forall₂ _ _ _ h'
  have hplen : parts'.length = nParts := by rw [← hf.length_eq, hslen]
  have hsum := world_sum R
  have hsrclt : ∀ (q p : Nat), src[q]? = some p → p < parts.length := fun q p hq => by
    rw [R.plen]; exact List.mem_range.1 (hsrc.subset (List.mem_of_getElem? hq))
  have hsnd : src.Nodup := hsrc.nodup_iff.2 List.nodup_range
  -- the part at each rank
  have hget : ∀ (q p : Nat) (P : Part), src[q]? = some p → parts'[q]? = some P → ∃ o, Permute.reindexedOwn (world parts) src p = some o ∧
      P = ⟨mapDoms (fun g => (Permute.old2new (world parts) src p g).getD 0) (part parts p).doms, o, []⟩ := by
    intro q p P hq hP
    obtain ⟨hq1, hq2⟩ := List.getElem?_eq_some_iff.1 hq
    obtain ⟨hP1, hP2⟩ := List.getElem?_eq_some_iff.1 hP
    have := hf.get (i := q) hq1 hP1
    simp only [List.get_eq_getElem] at this
    rw [hq2, hP2] at this
    unfold reindexed at this
    obtain ⟨o, ho, hPo⟩ := Option.map_eq_some_iff.1 this
    exact ⟨o, ho, hPo.symm⟩
  have hsrcget : ∀ (q : Nat) (P : Part), parts'[q]? = some P → ∃ p, src[q]? = some p := by
    intro q P hP
    have : q < src.length := by rw [hslen, ← hplen]; exact (List.getElem?_eq_some_iff.1 hP).1
    exact ⟨_, List.getElem?_eq_getElem this⟩
  have hdoms : ∀ p < parts.length, mapDoms (fun g => (Permute.old2new (world parts) src p g).getD 0) (part parts p).doms =
      mapDoms (Permute.newId (world parts) src) (part parts p).doms := by
    intro p hp
    refine mapDoms_congr fun e he y hy => ?_
    have hsh := world_shared hp
    have hsorted : Std.sort ((part parts p).own.shared) = (part parts p).own.shared :=
      Std.sort_eq_of_sorted ((R.own p _ (part_get hp)).2.1.imp Nat.le_of_lt)
    have hk : Permute.Knows (world parts) p y := by
      unfold Permute.Knows
      rw [hsh, world_owns R hp]
      by_cases ho : (part parts p).own.isOwned y = true
      · exact Or.inl ho
      · exact Or.inr (((R.own p _ (part_get hp)).2.2 y).2 ⟨⟨e, he, hy⟩, ho⟩)
    have := (Permute.C38_renaming_partial hok (p := p) (by simpa [world] using hp)).2 (by rw [hsh, hsorted]; exact hmono p hp) y hk
    rw [this]; rfl
  have hnewbij : Set.BijOn (Permute.newId (world parts) src) (Set.Iio N) (Set.Iio N) := by
    obtain ⟨h1, h2, _⟩ := Permute.C38_new_ids hok
    rw [hsum] at h1 h2
    have hinj : Set.InjOn (Permute.newId (world parts) src) (Set.Iio N) := fun a ha b hb hab => h2 a b ha hb hab
    refine ⟨fun g hg => h1 g hg, hinj, ?_⟩
    have := Finset.surjOn_of_injOn_of_card_le (s := Finset.range N) (t := Finset.range N) (Permute.newId (world parts) src)
      (fun g hg => by simpa using h1 g (by simpa using hg)) (by simpa using hinj) le_rfl
    simpa using this
  have hcnt : ∀ (q p : Nat) (P : Part), src[q]? = some p → parts'[q]? = some P → P.own.cnt = (part parts p).own.cnt := by
    intro q p P hq hP
    obtain ⟨o, ho, rfl⟩ := hget q p P hq hP
    obtain ⟨o', ho', hc, _⟩ := reindexed_own R hsrc (hsrclt q p hq)
    rw [ho] at ho'
    rw [← Option.some.inj ho'] at hc
    exact hc
  have hcnts : parts'.map (fun P => P.own.cnt) = Permute.newCounts (world parts) src := by
    unfold Permute.newCounts
    refine List.ext_getElem (by simp [hplen, hslen]) fun q h1 h2 => ?_
    rw [List.getElem_map, List.getElem_map]
    have hq1 : q < parts'.length := by simpa using h1
    have hq2 : q < src.length := by simpa using h2
    rw [hcnt q _ _ (List.getElem?_eq_getElem hq2) (List.getElem?_eq_getElem hq1), world_count (hsrclt q _ (List.getElem?_eq_getElem hq2))]
  have hbef : ∀ q, before parts' q = ((Permute.newCounts (world parts) src).take q).sum := by
    intro q
    rw [← hcnts]; unfold before; rw [List.map_take]
  refine ⟨by rw [List.length_map, hslen], hplen, hnewbij.comp R.bij, ?_, ?_, ?_, ?_, ?_, R.nodes, ?_, ?_, R.mdims, ?_, R.els, R.keys, ?_⟩
  · intro q m' P hm' hP
    obtain ⟨p, hq⟩ := hsrcget q P hP
    obtain ⟨o, _, rfl⟩ := hget q p P hq hP
    rw [List.getElem?_map, hq] at hm'
    obtain rfl := Option.some.inj hm'
    change mapDoms _ _ = _
    rw [hdoms p (hsrclt q p hq), part_doms R, mapDoms_comp]
  · intro q m' k d hm' hd
    rw [List.getElem?_map, Option.map_eq_some_iff] at hm'
    obtain ⟨p, hq, rfl⟩ := hm'
    have hpl : p < maps.length := by rw [R.len, ← R.plen]; exact hsrclt q p hq
    unfold mapAt at hd
    rw [List.getElem?_eq_getElem hpl] at hd
    exact R.nodup p _ k d (List.getElem?_eq_getElem hpl) hd
  · intro k e he
    obtain ⟨p, ⟨m', hm', hin⟩, hun⟩ := R.uniq k e he
    have hpl : p < nParts := by rw [← R.len]; exact (List.getElem?_eq_some_iff.1 hm').1
    obtain ⟨q, hq⟩ := List.mem_iff_getElem?.1 (hsrc.symm.subset (List.mem_range.2 hpl))
    refine ⟨q, ⟨mapAt maps p, by rw [List.getElem?_map, hq]; rfl, by unfold mapAt; rw [hm']; exact hin⟩, ?_⟩
    rintro q' ⟨m'', hm'', hin''⟩
    rw [List.getElem?_map, Option.map_eq_some_iff] at hm''
    obtain ⟨p', hq', rfl⟩ := hm''
    obtain rfl := hun p' (inDom_mapAt R hin'').2.1
    obtain ⟨a1, a2⟩ := List.getElem?_eq_some_iff.1 hq
    obtain ⟨b1, b2⟩ := List.getElem?_eq_some_iff.1 hq'
    exact (List.Nodup.getElem_inj_iff hsnd).1 (b2.trans a2.symm)
  · intro q P hP
    obtain ⟨p, hq⟩ := hsrcget q P hP
    have hp := hsrclt q p hq
    obtain ⟨o, ho, rfl⟩ := hget q p P hq hP
    obtain ⟨o', ho', hc, hpw, howned, hshared⟩ := reindexed_own R hsrc hp
    rw [ho] at ho'
    obtain rfl := Option.some.inj ho'
    have hown' : ∀ y, o.isOwned y = true ↔ ((Permute.newCounts (world parts) src).take q).sum ≤ y ∧ y < ((Permute.newCounts (world parts) src).take (q + 1)).sum := by
      intro y
      rw [howned]
      constructor
      · rintro ⟨g, hg, rfl⟩
        exact ((Permute.C38_new_ids hok).2.2 q p g hq |>.1 hg).2
      · rintro ⟨h1, h2⟩
        have hlt : y < N := by
          rw [← hsum, ← Permute.sum_newCounts hok]
          exact Nat.lt_of_lt_of_le h2 (Std.sum_take_le_sum _ _)
        obtain ⟨g, hg, rfl⟩ := hnewbij.2.2 (show y ∈ Set.Iio N from hlt)
        exact ⟨g, ((Permute.C38_new_ids hok).2.2 q p g hq).2 ⟨by rw [hsum]; exact hg, h1, h2⟩, rfl⟩
    refine ⟨fun y => ?_, hpw, fun y => ?_⟩
    · change o.isOwned y = true ↔ _
      rw [hown', hbef]
      have hql : q < (Permute.newCounts (world parts) src).length := by
        unfold Permute.newCounts; rw [List.length_map]; exact (List.getElem?_eq_some_iff.1 hq).1
      have h3 := Std.sum_take_succ (Permute.newCounts (world parts) src) hql
      have h5 : (Permute.newCounts (world parts) src)[q]? = some o.cnt := by
        unfold Permute.newCounts
        rw [List.getElem?_map, hq, Option.map_some, world_count hp, hc]
      have h4 : (Permute.newCounts (world parts) src)[q] = o.cnt := Option.some.inj ((List.getElem?_eq_getElem hql).symm.trans h5)
      rw [h3, h4]
    · change y ∈ o.shared ↔ NodeIn (mapDoms _ _) y ∧ ¬ o.isOwned y = true
      rw [hshared, hdoms p hp, howned]
      constructor
      · rintro ⟨g, hg, rfl⟩
        obtain ⟨⟨e, he, hge⟩, hno⟩ := ((R.own p _ (part_get hp)).2.2 g).1 hg
        refine ⟨⟨_, holds_mapDoms he, List.mem_map.2 ⟨g, hge, rfl⟩⟩, ?_⟩
        rintro ⟨g', hg', he'⟩
        have hg'N : g' < N := by rw [← hsum]; exact (Permute.owns_lt hg').1
        obtain rfl := hnewbij.2.1 (show g' ∈ Set.Iio N from hg'N) (show g ∈ Set.Iio N from nodeIn_lt R ⟨e, he, hge⟩) he'
        exact hno ((world_owns R hp g').1 hg')
      · rintro ⟨⟨e, he, hy⟩, hno⟩
        obtain ⟨e', he', rfl⟩ := of_holds_mapDoms he
        obtain ⟨g, hg, rfl⟩ := List.mem_map.1 hy
        exact ⟨g, ((R.own p _ (part_get hp)).2.2 g).2 ⟨⟨e', he', hg⟩, fun ho => hno ⟨g, (world_owns R hp g).2 ho, rfl⟩⟩, rfl⟩
  · rw [hbef, List.take_of_length_le (by unfold Permute.newCounts; rw [List.length_map, hslen, hplen]), Permute.sum_newCounts hok, hsum]
  · intro m' hm'
    obtain ⟨p, hp, rfl⟩ := List.mem_map.1 hm'
    exact R.wf _ (mapAt_mem R (List.mem_range.1 (hsrc.subset hp)))
  · intro m' hm'
    obtain ⟨p, hp, rfl⟩ := List.mem_map.1 hm'
    exact R.dims _ (mapAt_mem R (List.mem_range.1 (hsrc.subset hp)))
  · intro m' hm'
    obtain ⟨p, hp, rfl⟩ := List.mem_map.1 hm'
    exact R.views _ (mapAt_mem R (List.mem_range.1 (hsrc.subset hp)))
  · intro q P hP y hy
    obtain ⟨p, hq⟩ := hsrcget q P hP
    have hp := hsrclt q p hq
    obtain ⟨o, ho, rfl⟩ := hget q p P hq hP
    obtain ⟨o', ho', _, _, howned, _⟩ := reindexed_own R hsrc hp
    rw [ho] at ho'
    obtain rfl := Option.some.inj ho'
    obtain ⟨g, hg, rfl⟩ := (howned y).1 hy
    obtain ⟨e, he, hge⟩ := R.seen p _ (part_get hp) g ((world_owns R hp g).1 hg)
    change NodeIn (mapDoms _ _) _
    rw [hdoms p hp]
    exact ⟨_, holds_mapDoms he, List.mem_map.2 ⟨g, hge, rfl⟩⟩

theorem outcome_result {kinds : List (ElType × Nat)} {m : DomMap} {bnds : List Nat} {D : Nat} (h : MeshOk kinds m bnds D) (hone : OneSided m bnds)
    {nParts : Nat} {parts : List Part} {f : Nat → Nat} (ho : Outcome Monotone kinds m bnds nParts parts f) : ∃ N maps, Result bnds m N nParts parts f maps := by
  induction ho with
  | whole N hN views =>
    have get1 : ∀ {A : Type} {i : Nat} {a b : A}, [a][i]? = some b → i = 0 ∧ b = a := by
      intro A i a b hi
      cases i with
      | zero => exact ⟨rfl, by simpa using hi.symm⟩
      | succ i => simp at hi
    refine ⟨N, [m], rfl, rfl, Set.bijOn_id _, ?_, ?_, ?_, ?_, ?_, hN, ?_, ?_, mesh_dims h.wf, ?_, h.els, wf_keys h.wf, ?_⟩
    · intro i m' p hm' hp
      obtain ⟨_, rfl⟩ := get1 hm'
      obtain ⟨_, rfl⟩ := get1 hp
      rw [mapDoms_id]
    · intro i m' k d hm' hd
      obtain ⟨_, rfl⟩ := get1 hm'
      refine ⟨?_, fun e he => ⟨d, hd, he⟩⟩
      have := nodup_visit h k
      rw [visitIds_single, hd] at this
      exact this
    · intro k e he
      refine ⟨0, ⟨m, rfl, he⟩, ?_⟩
      rintro i ⟨m', hm', _⟩
      exact (get1 hm').1
    · intro i p hp
      obtain ⟨rfl, rfl⟩ := get1 hp
      have ho : ∀ y, (Own.SegOwn.isOwned ⟨0, N, []⟩ y = true ↔ y < N) := by
        intro y; unfold Own.SegOwn.isOwned; simp
      refine ⟨fun y => ?_, List.Pairwise.nil, fun y => ?_⟩
      · rw [ho]; simp [before]
      · rw [ho]
        simp only [List.not_mem_nil, false_iff, not_and, not_not]
        exact fun hy => (hN y).1 hy
    · simp [before]
    · intro m' hm'
      rw [List.mem_singleton] at hm'
      subst hm'
      exact wf_keys h.wf
    · intro m' hm'
      rw [List.mem_singleton] at hm'
      subst hm'
      exact mesh_dims h.wf
    · intro m' hm'
      rw [List.mem_singleton] at hm'
      subst hm'
      intro b hb d hd
      obtain ⟨d', hd', _, hne⟩ := h.bnd b hb
      obtain rfl : d' = d := Option.some.inj (hd'.symm.trans hd)
      exact ⟨hne, fun x hx => (mesh_dims h.wf _ (Mesh.mem_of_lookup hd) x hx).symm, h.parent b hb d' hd⟩
    · intro i p hp y hy
      obtain ⟨rfl, rfl⟩ := get1 hp
      exact (hN y).2 (by simpa [Own.SegOwn.isOwned] using hy)
  | reordered nParts parts f _ src hsrc hQ parts' h' ih =>
    obtain ⟨N, maps, R⟩ := ih
    exact ⟨N, _, reorder_result R hsrc hQ h'⟩
  | parts _ epart npart perm hl shuffle ord hshuf hord _ φ hsome =>
    obtain ⟨parts', φ', f', maps, h1, h2, R⟩ := partition_result h hone hl shuffle ord hshuf hord
    rw [h1] at hsome
    obtain ⟨rfl, rfl⟩ := Prod.mk.inj (Option.some.inj hsome)
    have hf : ∀ x < npart.length, f' x = (φ'.find x).getD 0 := by
      intro x hx; rw [h2, if_pos hx]; rfl
    refine ⟨npart.length, maps, R.len, R.plen, R.bij.congr fun x hx => hf x hx, ?_, R.nodup, R.uniq, R.own, R.total, R.nodes, R.wf, R.dims, R.mdims, R.views, R.els, R.keys, R.seen⟩
    intro i m' p hm' hp
    rw [R.doms i m' p hm' hp]
    refine mapDoms_congr fun e he x hx => hf x ((R.nodes x).1 ⟨e, ?_, hx⟩)
    have : Holds (mapAt maps i) e := by unfold mapAt; rw [hm']; exact he
    exact holds_part R this

theorem unknown_iff {p : Prog} (hp : p.Ok m bnds) (hN : ∀ x, NodeIn m x ↔ x < N) (k : Nat × Nat) : (p.problem m N).toProblem.used k ↔ p.unknown m k := by
  constructor
  · rintro ⟨_, _, w, hw, n, hn, hj, hid⟩
    obtain ⟨d, hd, hw⟩ := List.mem_flatMap.1 hw
    obtain ⟨e, he, rfl⟩ := List.mem_map.1 hw
    have hid' : n = k.1 := hid
    subst hid'
    exact ⟨d, hd, hj, e, he, hn⟩
  · rintro ⟨d, hd, hj, e, he, hn⟩
    obtain ⟨i, _, hi⟩ := mem_visitIds.1 he
    exact ⟨(hN k.1).1 ⟨e, inDom_holds hi, hn⟩, hp.comps d hd _ hj, ⟨e.nodes, d.2⟩, List.mem_flatMap.2 ⟨d, hd, List.mem_map.2 ⟨e, he, rfl⟩⟩, k.1, hn, hj, rfl⟩

/-- The systems of a distributed mesh represent its problem. -/
theorem outcome_represents {kinds : List (ElType × Nat)} {D : Nat} (hm : MeshOk kinds m bnds D) {p : Prog} (hp : p.Ok m bnds)
    (R : Result bnds m N nParts parts f maps) (hu : UniqueParent m bnds) (hs : Selects p parts f maps sel els) (vals : Nat → Nat → Nat → ℝ) {v : Nat → Nat → ℝ}
    (hv : p.Values m parts f v) : (runOf p parts f maps sel els vals v).Of (p.problem m N) :=
  run_of' hm hp R hu hs vals v (constrained_iff hm hp R hu hs vals v) fun k hk hd c => hv k ((unknown_iff hp R.nodes k).1 hk) hd c

end

end Verif.Pipeline
