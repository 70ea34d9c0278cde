import Verif.MfPipe.Rank

/-! # Meshes which differ in node numbers and order of elements only -/
namespace Verif.Restart
open Verif Verif.Elem Verif.Mesh Verif.Split Verif.Partition Verif.Pipeline

/-- `m'` is `m` with nodes renamed by `f`; elements of a domain may come in another order, empty domains may be missing. -/
structure Renamed (kinds : List (ElType × Nat)) (f : Nat → Nat) (N : Nat) (m m' : DomMap) : Prop where
  wf : WfMesh kinds m
  wf' : WfMesh kinds m'
  els : ∀ e, Holds m e → WfElement e
  nodes : ∀ x, NodeIn m x ↔ x < N
  bij : Set.BijOn f (Set.Iio N) (Set.Iio N)
  perm : ∀ k, (visitIds m' [k]).Perm ((visitIds m [k]).map (mapEl f))

/-- Inverse of the renaming. -/
noncomputable def inv (f : Nat → Nat) (N : Nat) : Nat → Nat := Function.invFunOn f (Set.Iio N)

theorem inv_left {f : Nat → Nat} {N : Nat} (h : Set.BijOn f (Set.Iio N) (Set.Iio N)) {x : Nat} (hx : x < N) : inv f N (f x) = x :=
  h.injOn.leftInvOn_invFunOn hx

theorem inv_right {f : Nat → Nat} {N : Nat} (h : Set.BijOn f (Set.Iio N) (Set.Iio N)) {y : Nat} (hy : y < N) : f (inv f N y) = y :=
  (h.surjOn.rightInvOn_invFunOn) hy

theorem inv_lt {f : Nat → Nat} {N : Nat} (h : Set.BijOn f (Set.Iio N) (Set.Iio N)) {y : Nat} (hy : y < N) : inv f N y < N :=
  h.surjOn.mapsTo_invFunOn hy

variable {kinds : List (ElType × Nat)} {f : Nat → Nat} {N : Nat} {m m' : DomMap}

theorem Renamed.inDom (h : Renamed kinds f N m m') {k : Nat} {e' : Element} : InDom m' k e' ↔ ∃ e, InDom m k e ∧ mapEl f e = e' := by
  rw [← mem_visit_single, (h.perm k).mem_iff, List.mem_map]
  simp only [mem_visit_single]

theorem Renamed.node_lt (h : Renamed kinds f N m m') {k : Nat} {e : Element} (he : InDom m k e) {x : Nat} (hx : x ∈ e.nodes) : x < N :=
  (h.nodes x).1 ⟨e, inDom_holds he, hx⟩

theorem Renamed.back (h : Renamed kinds f N m m') {k : Nat} {e : Element} (he : InDom m k e) : mapEl (inv f N) (mapEl f e) = e := by
  unfold mapEl
  simp only [List.map_map]
  rw [show e.nodes.map (inv f N ∘ f) = e.nodes from (List.map_congr_left fun x hx => inv_left h.bij (h.node_lt he hx)).trans (List.map_id _)]

theorem isParent_iff (h : WfMesh kinds m) {x e : Element} {s : Nat} :
    IsParent m x e s ↔ (∃ k, InDom m k e) ∧ e.ty.dim = x.ty.dim + 1 ∧ ∃ l, sideNodes e s = some l ∧ l.Perm x.nodes := by
  constructor
  · rintro ⟨⟨d, hd, hdim, v, hv, he⟩, hl⟩
    have hin : InDom m d.1 e := inDom_of_mem (wf_keys h) hd hv he
    have := mesh_dims h d hd e (List.mem_flatten.2 ⟨v, hv, he⟩)
    exact ⟨⟨_, hin⟩, Option.some.inj (this.symm.trans hdim), hl⟩
  · rintro ⟨⟨k, d, hd, he⟩, hdim, hl⟩
    obtain ⟨v, hv, hev⟩ := List.mem_flatten.1 he
    refine ⟨⟨(k, d), Mesh.mem_of_lookup hd, ?_, v, hv, hev⟩, hl⟩
    rw [mesh_dims h _ (Mesh.mem_of_lookup hd) e he, hdim]

theorem Renamed.parent_iff (h : Renamed kinds f N m m') {x : Element} (hx : Holds m x) {e' : Element} {s : Nat} :
    IsParent m' (mapEl f x) e' s ↔ ∃ e, IsParent m x e s ∧ e' = mapEl f e := by
  have hm : IsParent m' (mapEl f x) e' s ↔ IsParent (mapDoms f m) (mapEl f x) e' s := by
    rw [isParent_iff h.wf', isParent_iff (MfPipe.wfMesh_mapDoms f h.wf)]
    have : (∃ k, InDom m' k e') ↔ ∃ k, InDom (mapDoms f m) k e' := exists_congr fun k => by rw [h.inDom, inDom_mapDoms]
    rw [this]
  rw [hm]
  constructor
  · intro hp
    exact of_isParent_mapDoms h.els (fun a b ha hb hab => h.bij.injOn ((h.nodes a).1 ha) ((h.nodes b).1 hb) hab) hx hp
  · rintro ⟨e, hp, rfl⟩
    obtain ⟨⟨d, hd, _, v, hv, he⟩, _⟩ := id hp
    exact isParent_mapDoms (h.els e ⟨d, hd, v, hv, he⟩) hp

theorem Renamed.hasSide_iff (h : Renamed kinds f N m m') {x : Element} (hx : Holds m x) {k : Nat} {e' : Element} :
    HasSide m' (mapEl f x) k e' ↔ ∃ e, HasSide m x k e ∧ mapEl f e = e' := by
  constructor
  · rintro ⟨hin, hdim, s, l, hl, hp⟩
    obtain ⟨e, he, rfl⟩ := h.inDom.1 hin
    obtain ⟨e2, hp2, heq⟩ := (h.parent_iff hx).1 ((isParent_iff h.wf').2 ⟨⟨k, hin⟩, hdim, l, hl, hp⟩)
    obtain ⟨⟨k2, hk2⟩, _, hl2⟩ := (isParent_iff h.wf).1 hp2
    have : e = e2 := by rw [← h.back he, heq, h.back hk2]
    subst this
    exact ⟨e, ⟨he, hdim, s, hl2⟩, rfl⟩
  · rintro ⟨e, ⟨he, hdim, s, hl⟩, rfl⟩
    have := (h.parent_iff hx).2 ⟨e, (isParent_iff h.wf).2 ⟨⟨k, he⟩, hdim, hl⟩, rfl⟩
    obtain ⟨_, _, hl'⟩ := (isParent_iff h.wf').1 this
    exact ⟨h.inDom.2 ⟨e, he, rfl⟩, hdim, s, hl'⟩

theorem Renamed.oneSided (h : Renamed kinds f N m m') {bnds : List Nat} (hone : OneSided m bnds) : OneSided m' bnds := by
  intro b hb x' hx'
  obtain ⟨x, hx, rfl⟩ := h.inDom.1 hx'
  have hiff : ∀ k, (∃ e', HasSide m' (mapEl f x) k e') ↔ ∃ e, HasSide m x k e := by
    intro k
    constructor
    · rintro ⟨e', he'⟩
      obtain ⟨e, he, _⟩ := (h.hasSide_iff (inDom_holds hx)).1 he'
      exact ⟨e, he⟩
    · rintro ⟨e, he⟩
      exact ⟨_, (h.hasSide_iff (inDom_holds hx)).2 ⟨e, he, rfl⟩⟩
  simp only [hiff]
  exact hone b hb x hx

theorem Renamed.uniqueParent (h : Renamed kinds f N m m') {bnds : List Nat} (hu : UniqueParent m bnds) : UniqueParent m' bnds := by
  intro b hb x' hx' e s e' s' h1 h2
  obtain ⟨x, hx, rfl⟩ := h.inDom.1 hx'
  obtain ⟨a, ha, rfl⟩ := (h.parent_iff (inDom_holds hx)).1 h1
  obtain ⟨a', ha', rfl⟩ := (h.parent_iff (inDom_holds hx)).1 h2
  obtain ⟨rfl, rfl⟩ := hu b hb x hx a s a' s' ha ha'
  exact ⟨rfl, rfl⟩

theorem Renamed.wfEl (h : Renamed kinds f N m m') : ∀ e, Holds m' e → WfElement e := by
  intro e' he'
  obtain ⟨k, hk⟩ := (holds_iff_inDom h.wf').1 he'
  obtain ⟨e, he, rfl⟩ := h.inDom.1 hk
  have := h.els e (inDom_holds he)
  exact ⟨this.pos, this.small, by simpa [mapEl] using this.len⟩

theorem Renamed.nodes' (h : Renamed kinds f N m m') (y : Nat) : NodeIn m' y ↔ y < N := by
  constructor
  · rintro ⟨e', he', hy⟩
    obtain ⟨k, hk⟩ := (holds_iff_inDom h.wf').1 he'
    obtain ⟨e, he, rfl⟩ := h.inDom.1 hk
    obtain ⟨x, hx, rfl⟩ := List.mem_map.1 hy
    exact h.bij.mapsTo (h.node_lt he hx)
  · intro hy
    obtain ⟨e, he, hx⟩ := (h.nodes _).2 (inv_lt h.bij hy)
    obtain ⟨k, hk⟩ := (holds_iff_inDom h.wf).1 he
    exact ⟨mapEl f e, (holds_iff_inDom h.wf').2 ⟨k, h.inDom.2 ⟨e, hk, rfl⟩⟩, List.mem_map.2 ⟨_, hx, inv_right h.bij hy⟩⟩

theorem Renamed.meshOk (h : Renamed kinds f N m m') {bnds : List Nat} {D : Nat} (hm : MeshOk kinds m bnds D) : MeshOk kinds m' bnds D := by
  refine ⟨h.wf', h.wfEl, ?_, hm.bndSorted, fun b hb => ?_, fun b hb d hd x' hx' => ?_⟩
  · have hdom : ∀ k, ((visitIds m' [k]).map (·.id)).Nodup := by
      intro k
      have hp := (h.perm k).map (·.id)
      rw [List.map_map] at hp
      rw [hp.nodup_iff]
      change ((visitIds m [k]).map (·.id)).Nodup
      rw [visitIds_single]
      cases hk : m.lookup k with
      | none => simp
      | some d =>
        have h1 := hm.ids
        unfold tagged at h1
        rw [List.map_flatMap, List.nodup_flatMap] at h1
        have h2 := h1.1 k (List.mem_map.2 ⟨(k, d), Mesh.mem_of_lookup hk, rfl⟩)
        rw [List.map_map, visitIds_single, hk] at h2
        exact h2
    unfold tagged
    rw [List.map_flatMap, List.nodup_flatMap]
    refine ⟨fun k _ => by rw [List.map_map]; exact hdom k, ?_⟩
    have hkeys : (m'.map (·.1)).Nodup := wf_keys h.wf'
    refine hkeys.imp fun {a b} hab i hi hi' => hab ?_
    simp only [List.map_map] at hi hi'
    obtain ⟨e1, he1, rfl⟩ := List.mem_map.1 hi
    obtain ⟨e2, he2, heq⟩ := List.mem_map.1 hi'
    obtain ⟨a1, ha1, rfl⟩ := h.inDom.1 (mem_visit_single.1 he1)
    obtain ⟨a2, ha2, rfl⟩ := h.inDom.1 (mem_visit_single.1 he2)
    have hk : ∀ {k : Nat} {e : Element}, InDom m k e → (k, e) ∈ tagged m (m.map (·.1)) := fun {k e} ⟨d, hd, he⟩ =>
      mem_tagged.2 ⟨List.mem_map.2 ⟨(k, d), Mesh.mem_of_lookup hd, rfl⟩, d, hd, he⟩
    have := List.inj_on_of_nodup_map hm.ids (hk ha1) (hk ha2) heq.symm
    exact (Prod.mk.inj this).1
  · obtain ⟨d, hd, hdim, hne⟩ := hm.bnd b hb
    obtain ⟨x, hx⟩ := List.exists_mem_of_ne_nil _ hne
    obtain ⟨d', hd', hx'⟩ := h.inDom.2 ⟨x, ⟨d, hd, hx⟩, rfl⟩
    refine ⟨d', hd', ?_, List.ne_nil_of_mem hx'⟩
    rw [mesh_dims h.wf' _ (Mesh.mem_of_lookup hd') _ hx', ← hdim, mesh_dims h.wf _ (Mesh.mem_of_lookup hd) _ hx]; rfl
  · obtain ⟨x, ⟨d0, hd0, hx⟩, rfl⟩ := h.inDom.1 (⟨d, hd, hx'⟩ : InDom m' b x')
    obtain ⟨e, s, hp⟩ := hm.parent b hb d0 hd0 x hx
    exact ⟨_, s, (h.parent_iff (inDom_holds ⟨d0, hd0, hx⟩)).2 ⟨e, hp, rfl⟩⟩

/-- A distribution of the renamed mesh is a distribution of the mesh. -/
theorem Renamed.result (h : Renamed kinds f N m m') {bnds : List Nat} {nParts : Nat} {parts : List Part} {g : Nat → Nat} {maps : List DomMap}
    (R : Result bnds m' N nParts parts g maps) :
    Result bnds m N nParts parts (fun x => g (f x)) (maps.map (mapDoms (inv f N))) := by
  have hin : ∀ {i : Nat} {m1 : DomMap}, maps[i]? = some m1 → ∀ {k e1}, InDom m1 k e1 → ∃ e, InDom m k e ∧ mapEl f e = e1 := by
    intro i m1 hm1 k e1 ⟨d, hd, he⟩
    exact h.inDom.1 ((R.nodup i m1 k d hm1 hd).2 e1 he)
  have hholds : ∀ m1 ∈ maps, ∀ e1, Holds m1 e1 → ∃ k e, InDom m k e ∧ mapEl f e = e1 := by
    intro m1 hm1 e1 he1
    obtain ⟨i, hi, rfl⟩ := List.mem_iff_getElem.1 hm1
    obtain ⟨d, hd, v, hv, he⟩ := he1
    obtain ⟨e, h1, h2⟩ := hin (List.getElem?_eq_getElem hi) (inDom_of_mem (R.wf _ hm1) hd hv he)
    exact ⟨d.1, e, h1, h2⟩
  have hget : ∀ {i : Nat} {a : DomMap}, (maps.map (mapDoms (inv f N)))[i]? = some a → ∃ m1, maps[i]? = some m1 ∧ a = mapDoms (inv f N) m1 := by
    intro i a ha
    rw [List.getElem?_map] at ha
    obtain ⟨m1, h1, rfl⟩ := Option.map_eq_some_iff.1 ha
    exact ⟨m1, h1, rfl⟩
  have hiff : ∀ {i : Nat} {m1 : DomMap}, maps[i]? = some m1 → ∀ {k e}, InDom m k e → (InDom (mapDoms (inv f N) m1) k e ↔ InDom m1 k (mapEl f e)) := by
    intro i m1 hm1 k e he
    rw [inDom_mapDoms]
    constructor
    · rintro ⟨e1, he1, rfl⟩
      obtain ⟨e0, he0, rfl⟩ := hin hm1 he1
      rw [h.back he0]; exact he1
    · intro h1
      exact ⟨_, h1, h.back he⟩
  have hwf : ∀ m1 ∈ maps, ∀ e1, Holds m1 e1 → WfElement e1 := by
    intro m1 hm1 e1 he1
    obtain ⟨k, e, h1, rfl⟩ := hholds m1 hm1 e1 he1
    exact h.wfEl _ (inDom_holds (h.inDom.2 ⟨e, h1, rfl⟩))
  refine ⟨by rw [List.length_map]; exact R.len, R.plen, R.bij.comp h.bij, ?_, ?_, ?_, R.own, R.total, h.nodes, ?_, ?_, mesh_dims h.wf, ?_, h.els, wf_keys h.wf, R.seen⟩
  · intro i a p ha hp
    obtain ⟨m1, hm1, rfl⟩ := hget ha
    rw [mapDoms_comp, R.doms i m1 p hm1 hp]
    refine mapDoms_congr fun e1 he1 y hy => ?_
    obtain ⟨k, e, h1, rfl⟩ := hholds m1 (List.mem_of_getElem? hm1) e1 he1
    obtain ⟨x, hx, rfl⟩ := List.mem_map.1 hy
    rw [inv_left h.bij (h.node_lt h1 hx)]
  · intro i a k d ha hd
    obtain ⟨m1, hm1, rfl⟩ := hget ha
    have hmem : ∀ e ∈ d.elems, InDom m k e := by
      intro e he
      obtain ⟨e1, he1, rfl⟩ := inDom_mapDoms.1 (⟨d, hd, he⟩ : InDom (mapDoms (inv f N) m1) k e)
      obtain ⟨e0, he0, rfl⟩ := hin hm1 he1
      rw [h.back he0]; exact he0
    refine ⟨?_, hmem⟩
    rw [lookup_mapDoms, Option.map_eq_some_iff] at hd
    obtain ⟨d1, hd1, rfl⟩ := hd
    have h1 := (R.nodup i m1 k d1 hm1 hd1).1
    have he : (⟨d1.dim, d1.vecs.map (List.map (mapEl (inv f N)))⟩ : Domain).elems = d1.elems.map (mapEl (inv f N)) := by
      unfold Domain.elems; rw [List.map_flatten]
    rw [he]
    refine h1.map_on ?_
    intro a ha b hb hab
    obtain ⟨a0, ha0, rfl⟩ := hin hm1 ⟨d1, hd1, ha⟩
    obtain ⟨b0, hb0, rfl⟩ := hin hm1 ⟨d1, hd1, hb⟩
    rw [h.back ha0, h.back hb0] at hab
    rw [hab]
  · intro k e he
    obtain ⟨i, ⟨m1, hm1, h1⟩, hu⟩ := R.uniq k (mapEl f e) (h.inDom.2 ⟨e, he, rfl⟩)
    refine ⟨i, ⟨_, by rw [List.getElem?_map, hm1]; rfl, (hiff hm1 he).2 h1⟩, ?_⟩
    rintro j ⟨a, ha, h2⟩
    obtain ⟨m2, hm2, rfl⟩ := hget ha
    exact hu j ⟨m2, hm2, (hiff hm2 he).1 h2⟩
  · intro a ha
    obtain ⟨m1, hm1, rfl⟩ := List.mem_map.1 ha
    exact Pipeline.keys_mapDoms (R.wf m1 hm1)
  · intro a ha d hd e he
    obtain ⟨m1, hm1, rfl⟩ := List.mem_map.1 ha
    obtain ⟨d1, hd1, rfl⟩ := List.mem_map.1 hd
    obtain ⟨v, hv, hev⟩ := List.mem_flatten.1 he
    obtain ⟨v1, hv1, rfl⟩ := List.mem_map.1 hv
    obtain ⟨e1, he1, rfl⟩ := List.mem_map.1 hev
    exact R.dims m1 hm1 d1 hd1 e1 (List.mem_flatten.2 ⟨v1, hv1, he1⟩)
  · intro a ha
    obtain ⟨m1, hm1, rfl⟩ := List.mem_map.1 ha
    exact viewsOk_mapDoms (hwf m1 hm1) (R.views m1 hm1)

end Verif.Restart
