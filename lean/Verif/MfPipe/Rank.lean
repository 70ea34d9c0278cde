import Verif.MfPipe.Comb
import Verif.SolUpd.Props
import Verif.Dofs.Props
import Verif.Distr.Runs

/-! # Lemmas for C121: the mesh of a rank after distribution -/
namespace Verif.MfPipe
open Verif Verif.Elem Verif.Mesh Verif.Dofs Verif.Lsq Verif.LocView Verif.Pipeline Verif.Partition

/-! ### Parts are well-formed -/

theorem wfMesh_mapDoms {kinds : List (ElType × Nat)} {m : DomMap} (g : Nat → Nat) (h : WfMesh kinds m) : WfMesh kinds (mapDoms g m) := by
  refine ⟨h.nodup, ?_, fun k d hd => ?_⟩
  · have h1 := h.sorted
    unfold OMap.Sorted mapDoms at *
    rw [List.pairwise_map]; exact h1
  · rw [lookup_mapDoms, Option.map_eq_some_iff] at hd
    obtain ⟨d0, hd0, rfl⟩ := hd
    have h0 := h.dom k d0 hd0
    refine ⟨by rw [List.length_map]; exact h0.len, fun i hi e he => ?_, fun e he => ?_⟩
    · simp only [List.getElem_map] at he
      obtain ⟨e', he', rfl⟩ := List.mem_map.1 he
      exact h0.kind i (by simpa using hi) e' he'
    · obtain ⟨v, hv, hev⟩ := List.mem_flatten.1 he
      obtain ⟨v', hv', rfl⟩ := List.mem_map.1 hv
      obtain ⟨e', he', rfl⟩ := List.mem_map.1 hev
      exact h0.dim e' (List.mem_flatten.2 ⟨v', hv', he'⟩)

theorem wfMesh_nil {kinds : List (ElType × Nat)} (h : kinds.Nodup) : WfMesh kinds [] := ⟨h, by simp [OMap.Sorted], fun k d hd => by simp at hd⟩

theorem outcome_wf {kinds : List (ElType × Nat)} {m : DomMap} {bnds : List Nat} {D : Nat} (h : MeshOk kinds m bnds D) (hone : OneSided m bnds)
    {Q : List Split.Part → List Nat → Prop} {nParts : Nat} {parts : List Split.Part} {f : Nat → Nat} (ho : Outcome Q kinds m bnds nParts parts f) :
    ∀ q ∈ parts, WfMesh kinds q.doms := by
  induction ho with
  | whole N hN views =>
    intro q hq
    obtain rfl := List.mem_singleton.1 hq
    exact h.wf
  | parts nParts epart npart perm hl shuffle ord hshuf hord parts φ hp =>
    intro q hq
    obtain ⟨parts', φ', f, maps, h1, h2, R, hw⟩ := partition_result_wf h hone hl shuffle ord hshuf hord
    rw [hp] at h1
    obtain ⟨rfl, rfl⟩ := Prod.mk.inj (Option.some.inj h1)
    obtain ⟨i, hi, rfl⟩ := List.mem_iff_getElem.1 hq
    have hm : i < maps.length := by rw [R.len, ← R.plen]; exact hi
    rw [R.doms i _ _ (List.getElem?_eq_getElem hm) (List.getElem?_eq_getElem hi)]
    exact wfMesh_mapDoms _ (hw _ (List.getElem_mem hm))
  | reordered nParts parts f ho src hsrc hQ parts' h' ih =>
    intro q hq
    obtain ⟨i, _, hi⟩ := (mapM_mem h').2 q hq
    unfold reindexed at hi
    obtain ⟨o, _, rfl⟩ := Option.map_eq_some_iff.1 hi
    refine wfMesh_mapDoms _ ?_
    unfold part
    cases hc : parts[i]? with
    | none => exact wfMesh_nil h.wf.nodup
    | some q' => exact ih q' (List.mem_of_getElem? hc)

/-! ### Conditions of the views on a part -/

/-- What the matrix-free system asks of the mesh beyond `MeshOk`: distinct nodes in an element of order at least one, valid boundary ids,
boundary elements with one parent, at most one boundary element on a side. -/
structure MfMesh (m : DomMap) (bnds : List Nat) : Prop where
  els : ∀ e, Holds m e → 2 ≤ e.n ∧ e.nodes.Nodup
  bids : ∀ b ∈ bnds, b < invalidDom
  uniq : UniqueParent m bnds
  single : ∀ b ∈ bnds, ∀ b' ∈ bnds, ∀ x x', InDom m b x → InDom m b' x' → viewOf m x = viewOf m x' → b = b' ∧ x = x'

/-- What it asks of the part of a rank: sizes within 32 bits, internal nodes of an element numbered consecutively. -/
structure Fits (bnds : List Nat) (q : Split.Part) : Prop where
  size : q.own.localSize < 2 ^ 32
  small : ∀ d ∈ q.doms, ∀ v ∈ d.2.vecs, ∀ e ∈ v, e.nodes.length * v.length < 2 ^ 32 - 1
  cont : ∀ k e, k ∉ bnds → InDom q.doms k e → InternalContiguous q.own e

variable {kinds : List (ElType × Nat)} {m : DomMap} {bnds : List Nat} {D N nParts : Nat} {parts : List Split.Part} {f : Nat → Nat} {maps : List DomMap}

theorem part_get (R : Result bnds m N nParts parts f maps) {r : Nat} (hr : r < nParts) : parts[r]? = some (part parts r) := by
  have h1 : r < parts.length := by rw [R.plen]; exact hr
  unfold part
  rw [List.getElem?_eq_getElem h1]; rfl

theorem ids_inj (hm : MeshOk kinds m bnds D) {k k' : Nat} {e e' : Element} (hk : InDom m k e) (hk' : InDom m k' e') (hid : e.id = e'.id) : k = k' ∧ e = e' := by
  have key : ∀ {k : Nat} {e : Element}, InDom m k e → (k, e) ∈ Split.tagged m (m.map (·.1)) := fun {k e} h => Split.mem_tagged.2 ⟨by
    obtain ⟨d, hd, _⟩ := h
    exact List.mem_map.2 ⟨_, Mesh.mem_of_lookup hd, rfl⟩, h⟩
  have := List.inj_on_of_nodup_map hm.ids (key hk) (key hk') hid
  exact ⟨congrArg Prod.fst this, congrArg Prod.snd this⟩

theorem node_inj (R : Result bnds m N nParts parts f maps) (r : Nat) (a b : Nat) (ha : NodeIn (mapAt maps r) a) (hb : NodeIn (mapAt maps r) b)
    (h : f a = f b) : a = b := by
  have key : ∀ x, NodeIn (mapAt maps r) x → x ∈ Set.Iio N := by
    rintro x ⟨e, he, hx⟩
    exact (R.nodes x).1 ⟨e, holds_part R he, hx⟩
  exact R.bij.injOn (key a ha) (key b hb) h

theorem part_ids (hm : MeshOk kinds m bnds D) (R : Result bnds m N nParts parts f maps) {r : Nat} (hr : r < nParts) :
    ((Split.tagged (part parts r).doms ((part parts r).doms.map (·.1))).map (·.2.id)).Nodup := by
  have hmem := mapAt_mem R hr
  have hkeys := R.wf _ hmem
  rw [part_doms R, Partition.keys_mapDoms]
  have he : (Split.tagged (mapDoms f (mapAt maps r)) ((mapAt maps r).map (·.1))).map (·.2.id) =
      (Split.tagged (mapAt maps r) ((mapAt maps r).map (·.1))).map (·.2.id) := by
    unfold Split.tagged
    rw [List.map_flatMap, List.map_flatMap]
    refine List.flatMap_congr fun k _ => ?_
    rw [visit_mapDoms, List.map_map, List.map_map, List.map_map]
    rfl
  rw [he]
  have hget : maps[r]? = some (mapAt maps r) := by
    unfold mapAt
    rw [List.getElem?_eq_getElem (by rw [R.len]; exact hr)]; rfl
  refine List.Nodup.map_on ?_ ?_
  · rintro ⟨k, e⟩ h1 ⟨k', e'⟩ h2 hid
    obtain ⟨rfl, rfl⟩ := ids_inj hm (inDom_mapAt R (Split.mem_tagged.1 h1).2).2.2 (inDom_mapAt R (Split.mem_tagged.1 h2).2).2.2 hid
    rfl
  · unfold Split.tagged
    rw [List.nodup_flatMap]
    refine ⟨fun k _ => ?_, ?_⟩
    · refine List.Nodup.map (fun a b hab => (Prod.mk.inj hab).2) ?_
      rw [Split.visitIds_single]
      cases hk : (mapAt maps r).lookup k with
      | none => exact List.nodup_nil
      | some d => exact (R.nodup r _ k d hget hk).1
    · refine List.Pairwise.imp_of_mem ?_ hkeys
      intro a b _ _ hab x hx hx'
      obtain ⟨_, _, rfl⟩ := List.mem_map.1 hx
      obtain ⟨_, _, h⟩ := List.mem_map.1 hx'
      exact hab (Prod.mk.inj h).1.symm

theorem rankMesh_some (R : Result bnds m N nParts parts f maps) {r : Nat} (hr : r < nParts) {ord : Nat → List Element → List Element}
    (hord : ∀ k l, (ord k l).Perm l) :
    ∃ v, rankMesh parts bnds ord r = some ⟨(part parts r).doms, (part parts r).own, v⟩ ∧ v.map (·.1) = bnds ∧
      Split.initViews (part parts r).doms bnds ord = some v := by
  have hmem := mapAt_mem R hr
  have hv : ViewsOk (part parts r).doms bnds := by
    rw [part_doms R]
    exact viewsOk_mapDoms (fun e he => R.els e (holds_part R he)) (R.views _ hmem)
  obtain ⟨v, h1, h2⟩ := initViews_ok (by rw [part_doms R]; exact Pipeline.keys_mapDoms (R.wf _ hmem)) hv ord hord
  exact ⟨v, by unfold rankMesh; rw [h1]; rfl, h2, h1⟩

theorem rank_ok (hm : MeshOk kinds m bnds D) (hmf : MfMesh m bnds) (R : Result bnds m N nParts parts f maps) (hw : ∀ q ∈ parts, WfMesh kinds q.doms) {r : Nat} (hr : r < nParts)
    (hf : Fits bnds (part parts r)) {ord : Nat → List Element → List Element} (hord : ∀ k l, (ord k l).Perm l) {v : List (Nat × List (Element × Nat))}
    (hk : v.map (·.1) = bnds) (hv : Split.initViews (part parts r).doms bnds ord = some v) : RankOk kinds ⟨(part parts r).doms, (part parts r).own, v⟩ D := by
  have hmem := mapAt_mem R hr
  have hget := part_get R hr
  have hpd := part_doms R r
  obtain ⟨o1, o2, o3⟩ := R.own r _ hget
  have hin : ∀ {k x'}, InDom (part parts r).doms k x' → ∃ x, InDom (mapAt maps r) k x ∧ mapEl f x = x' ∧ InDom m k x := by
    intro k x' h
    rw [hpd, inDom_mapDoms] at h
    obtain ⟨x, hx, rfl⟩ := h
    exact ⟨x, hx, rfl, (inDom_mapAt R hx).2.2⟩
  have howned : ∀ y, (part parts r).own.isOwned y = true ↔ (part parts r).own.first ≤ y ∧ y < (part parts r).own.first + (part parts r).own.cnt := by
    intro y; simp [Own.SegOwn.isOwned]
  refine ⟨⟨show WfMesh kinds (part parts r).doms from hw _ (List.mem_of_getElem? hget), by rw [hk]; exact hm.bndSorted, ?_, ⟨ord, hord, by rw [hk]; exact hv⟩, part_ids hm R hr⟩, ?_, o2, ?_, ?_, hf.size, hf.small,
    by rw [hk]; exact hf.cont, by rw [hk]; exact hmf.bids, ?_, ?_⟩
  · rw [hk]
    intro b hb d hd
    have hd' : (part parts r).doms.lookup b = some d := hd
    rw [hpd, lookup_mapDoms, Option.map_eq_some_iff] at hd'
    obtain ⟨d0, hd0, rfl⟩ := hd'
    obtain ⟨h1, _, _⟩ := R.views _ hmem b hb d0 hd0
    obtain ⟨x, hx⟩ := List.exists_mem_of_ne_nil _ h1
    have hdim := R.dims _ hmem _ (Mesh.mem_of_lookup hd0) x hx
    obtain ⟨dm, hdm, hxm⟩ := (inDom_mapAt R ⟨d0, hd0, hx⟩).2.2
    obtain ⟨dm', hdm', hD, _⟩ := hm.bnd b hb
    rw [hdm] at hdm'
    obtain rfl := Option.some.inj hdm'
    have h2 := R.mdims _ (Mesh.mem_of_lookup hdm) x hxm
    change d0.dim = _
    rw [hdim, ← h2, hD]
  · intro e' he'
    have he2 : Holds (part parts r).doms e' := he'
    rw [hpd] at he2
    obtain ⟨e, he, rfl⟩ := of_holds_mapDoms he2
    have hem := holds_part R he
    obtain ⟨h1, h2⟩ := hmf.els e hem
    have h3 := R.els e hem
    refine ⟨⟨h3.pos, h3.small, by change (e.nodes.map f).length = _; rw [List.length_map]; exact h3.len⟩, h1, ?_⟩
    refine List.Nodup.map_on (fun a ha b hb hab => node_inj R r a b ⟨e, he, ha⟩ ⟨e, he, hb⟩ hab) h2
  · intro x hx
    rw [← howned]
    exact ((o3 x).1 hx).2
  · intro x hx
    by_cases ho : (part parts r).own.isOwned x = true
    · exact .inl ((howned x).1 ho)
    · exact .inr ((o3 x).2 ⟨hx, ho⟩)
  · rw [hk]
    intro b hb x' hx' e1 s1 e2 s2 h1 h2
    obtain ⟨x, hx, rfl, hxm⟩ := hin hx'
    change IsParent (part parts r).doms _ _ _ at h1
    change IsParent (part parts r).doms _ _ _ at h2
    rw [hpd] at h1 h2
    have hels : ∀ e, Holds (mapAt maps r) e → WfElement e := fun e he => R.els e (holds_part R he)
    obtain ⟨e1', p1, rfl⟩ := of_isParent_mapDoms hels (node_inj R r) (inDom_holds hx) h1
    obtain ⟨e2', p2, rfl⟩ := of_isParent_mapDoms hels (node_inj R r) (inDom_holds hx) h2
    obtain ⟨rfl, rfl⟩ := hmf.uniq b hb x hxm _ _ _ _ (isParent_of_part R hr p1).1 (isParent_of_part R hr p2).1
    exact ⟨rfl, rfl⟩
  · rw [hk]
    intro b hb b' hb' x' y' hx' hy' hvw
    obtain ⟨x, hx, rfl, hxm⟩ := hin hx'
    obtain ⟨y, hy, rfl, hym⟩ := hin hy'
    change viewOf (part parts r).doms _ = viewOf (part parts r).doms _ at hvw
    rw [hpd, viewOf_renamed R hmf.uniq hb hx, viewOf_renamed R hmf.uniq hb' hy] at hvw
    obtain ⟨e, s, h1, _, h2⟩ := viewOf_part R hmf.uniq hb hx
    obtain ⟨e2, s2, h3, _, h4⟩ := viewOf_part R hmf.uniq hb' hy
    rw [h1, h3] at hvw
    obtain ⟨h5, h6⟩ := Prod.mk.inj (Option.some.inj hvw)
    have hid : e.id = e2.id := by
      have := congrArg Element.id h5
      exact this
    obtain ⟨k, hke⟩ := (isParent_of_part R hr h2).2
    obtain ⟨k2, hke2⟩ := (isParent_of_part R hr h4).2
    obtain ⟨_, rfl⟩ := ids_inj hm (inDom_mapAt R hke).2.2 (inDom_mapAt R hke2).2.2 hid
    obtain ⟨rfl, rfl⟩ := hmf.single b hb b' hb' x y hxm hym (by rw [h1, h3]; change _ = some (e, s2); rw [← show s = s2 from h6])
    exact ⟨rfl, rfl⟩

theorem nodup_length_le {l : List Nat} {N : Nat} (h : l.Nodup) (hl : ∀ x ∈ l, x < N) : l.length ≤ N := by
  have : l.Subperm (List.range N) := List.subperm_of_subset h fun x hx => List.mem_range.2 (hl x hx)
  simpa using this.length_le

/-- Sizes of parts follow from sizes of the mesh. -/
theorem fits_of_mesh (R : Result bnds m N nParts parts f maps) {r : Nat} (hr : r < nParts) (hN : N < 2 ^ 32)
    (hs : ∀ k e, InDom m k e → e.nodes.length * (domEls m k).length < 2 ^ 32 - 1)
    (hc : ∀ k e, k ∉ bnds → InDom (part parts r).doms k e → InternalContiguous (part parts r).own e) : Fits bnds (part parts r) := by
  have hget := MfPipe.part_get R hr
  obtain ⟨o1, o2, o3⟩ := R.own r _ hget
  have hmem := mapAt_mem R hr
  have hlt : ∀ {x}, NodeIn (part parts r).doms x → x < N := fun h => nodeIn_lt R h
  have hgm : maps[r]? = some (mapAt maps r) := by
    unfold mapAt
    rw [List.getElem?_eq_getElem (by rw [R.len]; exact hr)]; rfl
  refine ⟨?_, ?_, hc⟩
  · refine lt_of_le_of_lt ?_ hN
    have hn : ((List.range (part parts r).own.cnt).map ((part parts r).own.first + ·) ++ (part parts r).own.shared).Nodup := by
      refine List.nodup_append.2 ⟨List.Nodup.map (fun a b hab => by simpa using hab) List.nodup_range, o2.imp Nat.ne_of_lt, ?_⟩
      intro a ha b hb hab
      subst hab
      obtain ⟨i, hi, rfl⟩ := List.mem_map.1 ha
      have := List.mem_range.1 hi
      exact ((o3 _).1 hb).2 (by simp [Own.SegOwn.isOwned]; omega)
    have := nodup_length_le (N := N) hn (fun x hx => by
      rcases List.mem_append.1 hx with h | h
      · obtain ⟨i, hi, rfl⟩ := List.mem_map.1 h
        have := List.mem_range.1 hi
        exact hlt (R.seen r _ hget _ (by simp [Own.SegOwn.isOwned]; omega))
      · exact hlt ((o3 x).1 h).1)
    simpa [Own.SegOwn.localSize] using this
  · intro d hd v hv e he
    rw [part_doms R] at hd
    obtain ⟨d0, hd0, rfl⟩ := List.mem_map.1 hd
    obtain ⟨v0, hv0, rfl⟩ := List.mem_map.1 hv
    obtain ⟨e0, he0, rfl⟩ := List.mem_map.1 he
    have hlk := Mesh.lookup_of_mem (R.wf _ hmem) hd0
    have hnd := R.nodup r _ d0.1 d0.2 hgm hlk
    have hsub : v0.Sublist d0.2.elems := List.sublist_flatten_of_mem hv0
    have hin : ∀ x ∈ v0, InDom m d0.1 x := fun x hx => hnd.2 x (hsub.subset hx)
    have hle : v0.length ≤ (domEls m d0.1).length :=
      (List.subperm_of_subset (hnd.1.sublist hsub) fun x hx => mem_domEls.2 (hin x hx)).length_le
    have h1 := hs d0.1 e0 (hin e0 he0)
    change (e0.nodes.map f).length * (v0.map _).length < _
    rw [List.length_map, List.length_map]
    exact lt_of_le_of_lt (Nat.mul_le_mul_left _ hle) h1

/-! ### Local dofs -/

theorem known_nodes (p : Prog) (R : Result bnds m N nParts parts f maps) {r : Nat} (hr : r < nParts) {n : Nat}
    (hn : ((part parts r).own.first ≤ n ∧ n < (part parts r).own.first + (part parts r).own.cnt) ∨ n ∈ (part parts r).own.shared) :
    (p.setup parts).owns r n = true ∨ n ∈ (p.setup parts).ghosts r ++ (p.setup parts).pghosts r := by
  rcases hn with h | h
  · left
    rw [setup_owns p R hr]
    simpa [Own.SegOwn.isOwned] using h
  · right
    change n ∈ (part parts r).own.shared ++ []
    simpa using h

theorem dofSys_valid {p : Prog} (hp : p.Ok m bnds) (R : Result bnds m N nParts parts f maps) {r : Nat} (hr : r < nParts) :
    (dofSys (p.setup parts) (part parts r).own r).Valid := by
  have hget := part_get R hr
  obtain ⟨o1, o2, o3⟩ := R.own r _ hget
  obtain ⟨o, ho, hown, hdof⟩ := @C39_ownership (p.setup parts) r
  have hlen : r < (p.setup parts).counts.length := by rw [setup_length p R]; exact hr
  have hdo : (dofSys (p.setup parts) (part parts r).own r).dofOwn = o := by unfold dofSys; rw [ho]; rfl
  refine ⟨⟨_, _, _, o2.imp Nat.ne_of_lt, own_make o2 fun x hx hc => ((o3 x).1 hx).2 (by simpa [Own.SegOwn.isOwned] using hc)⟩,
    ⟨_, _, (p.setup parts).sharedDofs r, Std.sortUniq_nodup _, by rw [hdo]; exact ho⟩, by simp [dofSys], ?_, by simp [dofSys]⟩
  intro n hn j d hd
  have hk := known_nodes p R hr (n := n) (by
    rcases SolUpd.Sys.mem_nodes.1 hn with h | h
    · left; exact of_decide_eq_true h
    · exact .inr h)
  have hj := dof_lt_dpn (setup_ok hp R) hlen hk hd
  rw [hdo]
  obtain ⟨l, _, h2, h3, h4⟩ := hdof n (Distr.mem_localNodes.2 hk) j hj d hd
  by_cases hc : o.isOwned d = true
  · exact .inl hc
  · right
    have hcn : o.cnt = (p.setup parts).numOwned r := congrArg Own.SegOwn.cnt (Own.make_some ho).1
    have hl : ¬ l < o.cnt := fun hl => hc ((hown d).2 (h4.1 (by rw [← hcn]; exact hl)))
    unfold Own.SegOwn.getGlobal at h3
    rw [if_neg hl] at h3
    exact List.mem_of_getElem? h3

theorem nodeDofs_eq {p : Prog} (hp : p.Ok m bnds) (R : Result bnds m N nParts parts f maps) {r : Nat} (hr : r < nParts) {v : List (Nat × List (Element × Nat))}
    (h : RankOk kinds ⟨(part parts r).doms, (part parts r).own, v⟩ D) {e : Element} (he : Holds (part parts r).doms e) {n : Nat} (hn : n ∈ e.nodes) (j : Nat) :
    nodeDofs (p.setup parts) (part parts r).own r (localPos (part parts r).own n) j = ((p.setup parts).localDof r n j).join := by
  have hv := dofSys_valid hp R hr
  have hno := h.nodesOk he
  have hmem : n ∈ (dofSys (p.setup parts) (part parts r).own r).nodes := by
    rw [SolUpd.Sys.mem_nodes]
    rcases hno.known n hn with h1 | h1
    · exact .inl (decide_eq_true h1)
    · exact .inr h1
  have h1 := hv.localDofs_get hmem
  rw [show (dofSys (p.setup parts) (part parts r).own r).nodeOwn.getLocal n = localPos (part parts r).own n from getLocal_pos hno hn] at h1
  unfold nodeDofs
  rw [h1]
  obtain ⟨o, ho, _⟩ := @C39_ownership (p.setup parts) r
  unfold SolUpd.Sys.row Setup.localDof dofSys
  rw [ho]; rfl

theorem asm_rankElems {p : Prog} (hp : p.Ok m bnds) (R : Result bnds m N nParts parts f maps) {r : Nat} (hr : r < nParts) {v : List (Nat × List (Element × Nat))}
    (h : RankOk kinds ⟨(part parts r).doms, (part parts r).own, v⟩ D) :
    asmEvals p ⟨(part parts r).doms, (part parts r).own, v⟩ (nodeDofs (p.setup parts) (part parts r).own r) = p.rankElems parts r := by
  have hd : ∀ e, Holds (part parts r).doms e → ∀ inds : List Nat,
      elDofs ⟨(part parts r).doms, (part parts r).own, v⟩ (nodeDofs (p.setup parts) (part parts r).own r) e inds =
      e.nodes.flatMap fun n => inds.map fun j => (((p.setup parts).localDof r n j).join).getD 0 := by
    intro e he inds
    unfold elDofs
    refine List.flatMap_congr fun n hn => List.map_congr_left fun j _ => ?_
    rw [nodeDofs_eq hp R hr h he hn]
  unfold asmEvals Prog.rankElems Prog.melems
  rw [List.map_append, List.map_flatMap, List.map_flatMap]
  congr 1
  · refine List.flatMap_congr fun K _ => ?_
    unfold Kernel.elems
    rw [List.map_map]
    refine List.map_congr_left fun e he => ?_
    obtain ⟨k, _, hin⟩ := mem_visitIds.1 he
    unfold eE
    rw [hd e (inDom_holds hin)]; rfl
  · refine List.flatMap_congr fun K _ => ?_
    unfold BKernel.elems
    rw [List.map_map]
    refine List.map_congr_left fun w hw => ?_
    obtain ⟨x, _, hx⟩ := List.mem_filterMap.1 hw
    obtain ⟨⟨d, hd', _, u, hu, he⟩, _⟩ := viewOf_some (e := w.1) (s := w.2) h.keys hx
    unfold eS
    rw [hd w.1 ⟨d, hd', u, hu, he⟩]; rfl

/-! ### Interior elements -/

theorem dof_of_visit {p : Prog} (hp : p.Ok m bnds) (R : Result bnds m N nParts parts f maps) {r : Nat} (hr : r < nParts) {e : Element} {d : List Nat × List Nat}
    (hd : d ∈ p.pdef) {k : Nat} (hk : k ∈ d.1) (he : InDom (part parts r).doms k e) {n j : Nat} (hn : n ∈ e.nodes) (hj : j ∈ d.2) :
    ∃ g, (p.setup parts).dofs r n j = some g := by
  have hlen : r < (p.setup parts).counts.length := by rw [setup_length p R]; exact hr
  have hkn := nodeIn_knows p R hr ⟨e, inDom_holds he, hn⟩
  refine Option.isSome_iff_exists.1 ((C39_active_exact (setup_ok hp R) hlen hkn (hp.comps d hd j hj)).2 ⟨r, hlen, ⟨e.nodes, d.2⟩, ?_, n, hn, hj, ?_⟩)
  · exact List.mem_flatMap.2 ⟨d, hd, List.mem_map.2 ⟨e, mem_visitIds.2 ⟨k, hk, he⟩, rfl⟩⟩
  · rw [rep_eq]; rfl

theorem interior_lt {p : Prog} (hp : p.Ok m bnds) (R : Result bnds m N nParts parts f maps) {r : Nat} (hr : r < nParts) {v : List (Nat × List (Element × Nat))}
    (h : RankOk kinds ⟨(part parts r).doms, (part parts r).own, v⟩ D) {e : Element} (he : Holds (part parts r).doms e) (hi : isInterior (p.setup parts) r e = true)
    {n j g : Nat} (hn : n ∈ e.nodes) (hg : (p.setup parts).dofs r n j = some g) :
    (nodeDofs (p.setup parts) (part parts r).own r (localPos (part parts r).own n) j).getD 0 < (p.setup parts).numOwned r := by
  have hlen : r < (p.setup parts).counts.length := by rw [setup_length p R]; exact hr
  have hkn := nodeIn_knows p R hr ⟨e, he, hn⟩
  have hj := dof_lt_dpn (setup_ok hp R) hlen (knows_local hkn) hg
  obtain ⟨o, ho, _, hdof⟩ := @C39_ownership (p.setup parts) r
  obtain ⟨l, h1, _, _, h4⟩ := hdof n (Distr.mem_localNodes.2 (knows_local hkn)) j hj g hg
  rw [nodeDofs_eq hp R hr h he hn, h1]
  unfold isInterior at hi
  have h2 := List.all_eq_true.1 (List.all_eq_true.1 hi n hn) j (List.mem_range.2 hj)
  rw [hg] at h2
  exact h4.2 (of_decide_eq_true h2)

theorem mem_domKernels {p : Prog} {k : Nat} {K : Kernel} (h : K ∈ domKernels p k) : K ∈ p.kernels ∧ k ∈ K.doms := by
  obtain ⟨K', hK', h⟩ := List.mem_flatMap.1 h
  obtain ⟨j, hj, rfl⟩ := List.mem_map.1 h
  obtain ⟨h1, h2⟩ := List.mem_filter.1 hj
  rw [← show j = k from eq_of_beq h2]
  exact ⟨hK', h1⟩

theorem mem_bndKernels {p : Prog} {b : Nat} {K : BKernel} (h : K ∈ bndKernels p b) : K ∈ p.bkernels ∧ b ∈ K.bnds := by
  obtain ⟨K', hK', h⟩ := List.mem_flatMap.1 h
  obtain ⟨j, hj, rfl⟩ := List.mem_map.1 h
  obtain ⟨h1, h2⟩ := List.mem_filter.1 hj
  rw [← show j = b from eq_of_beq h2]
  exact ⟨hK', h1⟩

theorem interior_safe {p : Prog} (hp : p.Ok m bnds) (hu : UniqueParent m bnds) (R : Result bnds m N nParts parts f maps) {r : Nat} (hr : r < nParts) {v : List (Nat × List (Element × Nat))}
    (hv : v.map (·.1) = bnds) (h : RankOk kinds ⟨(part parts r).doms, (part parts r).own, v⟩ D) {k : Nat} {e : Element} (he : InDom (part parts r).doms k e)
    (hi : isInterior (p.setup parts) r e = true) {el : LElem}
    (hel : el ∈ elEvals p ⟨(part parts r).doms, (part parts r).own, v⟩ (nodeDofs (p.setup parts) (part parts r).own r) k e) :
    ∀ d ∈ el.dofs, d < (p.setup parts).numOwned r := by
  have hh := inDom_holds he
  rcases List.mem_append.1 hel with hel | hel
  · obtain ⟨K, hK, rfl⟩ := List.mem_map.1 hel
    obtain ⟨hK, hk⟩ := mem_domKernels hK
    obtain ⟨d, hd, hkd, hsub⟩ := hp.active K hK k hk
    intro x hx
    obtain ⟨n, hn, hx⟩ := List.mem_flatMap.1 hx
    obtain ⟨j, hj, rfl⟩ := List.mem_map.1 hx
    obtain ⟨g, hg⟩ := dof_of_visit hp R hr hd hkd he hn (hsub hj)
    exact interior_lt hp R hr h hh hi hn hg
  · obtain ⟨sb, hsb, hel⟩ := List.mem_flatMap.1 hel
    obtain ⟨K, hK, rfl⟩ := List.mem_map.1 hel
    obtain ⟨hKp, hb⟩ := mem_bndKernels hK
    obtain ⟨b, hbb, hsb⟩ := List.mem_flatMap.1 hsb
    obtain ⟨w, hw, hsb⟩ := List.mem_flatMap.1 hsb
    by_cases hwe : w.1 = e
    swap
    · rw [if_neg hwe] at hsb; simp at hsb
    rw [if_pos hwe, List.mem_singleton] at hsb
    subst hsb
    obtain ⟨x, hx, hxv⟩ := List.mem_filterMap.1 hw
    have hx' := mem_domEls.1 hx
    rw [part_doms R, inDom_mapDoms] at hx'
    obtain ⟨x0, hx0, rfl⟩ := hx'
    have hbb' : b ∈ bnds := by rw [← hv]; exact hbb
    have hxv' : viewOf (part parts r).doms (mapEl f x0) = some w := hxv
    rw [part_doms R, viewOf_renamed R hu hbb' hx0] at hxv'
    obtain ⟨e0, s0, h1, _, h3⟩ := viewOf_part R hu hbb' hx0
    rw [h1] at hxv'
    obtain rfl := Option.some.inj hxv'
    obtain ⟨k0, hk0⟩ := (isParent_of_part R hr h3).2
    obtain ⟨d, hd, hkd, hsub⟩ := hp.bactive K hKp x0 (mem_visitIds.2 ⟨b, hb, (inDom_mapAt R hx0).2.2⟩) _ _ h1 k0 (inDom_mapAt R hk0).2.2
    intro y hy
    obtain ⟨n, hn, hy⟩ := List.mem_flatMap.1 hy
    obtain ⟨j, hj, rfl⟩ := List.mem_map.1 hy
    have he0 : InDom (part parts r).doms k0 e := by
      rw [part_doms R, inDom_mapDoms]; exact ⟨e0, hk0, hwe⟩
    obtain ⟨g, hg⟩ := dof_of_visit hp R hr hd hkd he0 hn (hsub hj)
    exact interior_lt hp R hr h hh hi hn hg

theorem rankEvals_ok (hm : MeshOk kinds m bnds D) (hmf : MfMesh m bnds) {p : Prog} (hp : p.Ok m bnds) (hk : ∀ K ∈ p.kernels, ∀ k ∈ K.doms, k ∉ bnds)
    (R : Result bnds m N nParts parts f maps) (hw : ∀ q ∈ parts, WfMesh kinds q.doms) {r : Nat} (hr : r < nParts) (hf : Fits bnds (part parts r))
    {ordM : Nat → List Element → List Element} (hordM : ∀ k l, (ordM k l).Perm l) {ord : Bool → Nat → List Element → List Element}
    (hord : ∀ s k l, (ord s k l).Perm l) {ords : Bool → Nat → Orders} (hords : ∀ s j k l, ((ords s j k).2 l).Perm l) :
    ∃ a b, rankEvals kinds p parts bnds r ordM ord ords = some (a, b) ∧ (a ++ b).Perm (p.rankElems parts r) ∧
      ∀ el ∈ a, ∀ d ∈ el.dofs, d < (p.setup parts).numOwned r := by
  obtain ⟨v, h1, h2, h3⟩ := rankMesh_some R hr hordM
  have h := rank_ok hm hmf R hw hr hf hordM h2 h3
  obtain ⟨a, b, h4, ha, hb⟩ := mfEvals_perm h p (nodeDofs (p.setup parts) (part parts r).own r) (isInterior (p.setup parts) r) ord hord ords hords
  refine ⟨a, b, by unfold rankEvals; rw [h1]; exact h4, ?_, fun el hel => ?_⟩
  · refine ((ha.append hb).trans (filter_not_perm _ _ _)).trans ?_
    rw [← asm_rankElems hp R hr h]
    refine elEvals_asm h (fun K hK k hkk => ?_) (fun K hK => ?_) _
    · change k ∉ v.map (·.1); rw [h2]; exact hk K hK k hkk
    · change _ ⊆ v.map (·.1); rw [h2]; exact hp.bnds K hK
  · obtain ⟨ke, hke, hel⟩ := List.mem_flatMap.1 (ha.subset hel)
    obtain ⟨hke, hi⟩ := List.mem_filter.1 hke
    obtain ⟨k, _, hke⟩ := List.mem_flatMap.1 hke
    obtain ⟨e, he, rfl⟩ := List.mem_map.1 hke
    exact interior_safe hp hmf.uniq R hr h2 h (mem_domEls.1 he) hi hel

end Verif.MfPipe
