import Verif.MfGen.Spec
import Verif.MfPipe.Rank
import Verif.Pipeline.Lemmas
namespace Verif.MfGen
open Verif Verif.Elem Verif.Split Verif.Mesh Verif.Partition Verif.Pipeline Verif.LocView

variable {kinds : List (ElType × Nat)} {m : DomMap} {bnds : List Nat} {D N nParts : Nat} {parts : List Split.Part} {f : Nat → Nat} {maps : List DomMap}

theorem mem_domainTagged {k : Nat} {e : Element} : (k, e) ∈ tagged m (domainIds m bnds) ↔ InDom m k e ∧ k ∉ bnds := by
  rw [mem_tagged]
  unfold domainIds
  rw [List.mem_filter, decide_eq_true_eq]
  constructor
  · rintro ⟨⟨_, h2⟩, h3⟩; exact ⟨h3, h2⟩
  · rintro ⟨h1, h2⟩
    obtain ⟨d, hd, he⟩ := h1
    exact ⟨⟨List.mem_map.2 ⟨(k, d), Mesh.mem_of_lookup hd, rfl⟩, h2⟩, d, hd, he⟩

theorem ids_domainTagged (h : MeshOk kinds m bnds D) : ((tagged m (domainIds m bnds)).map (·.2.id)).Nodup := by
  unfold domainIds
  rw [tagged_filter]
  exact List.Nodup.sublist (List.Sublist.map _ List.filter_sublist) h.ids

theorem mem_domainVisit {e : Element} : e ∈ visitIds m (domainIds m bnds) ↔ ∃ k, k ∉ bnds ∧ InDom m k e := by
  rw [visitIds_tagged, List.mem_map]
  constructor
  · rintro ⟨⟨k, e'⟩, h, rfl⟩
    obtain ⟨h1, h2⟩ := mem_domainTagged.1 h
    exact ⟨k, h2, h1⟩
  · rintro ⟨k, h2, h1⟩
    exact ⟨(k, e), mem_domainTagged.2 ⟨h1, h2⟩, rfl⟩

theorem internal_lt {e : Element} (hw : WfElement e) {i : Nat} (hi : i ∈ internalInds e.ty e.n) : i < e.nodes.length := by
  have := List.mem_range.1 (List.mem_filter.1 hi).1
  rwa [nNodes, u16_id hw.small, ← hw.len] at this

theorem internal_mem {e : Element} (hw : WfElement e) {i : Nat} (hi : i ∈ internalInds e.ty e.n) : e.nodes.getD i 0 ∈ e.nodes := getD_mem (internal_lt hw hi)

theorem mem_of_internalNodes {e : Element} (hw : WfElement e) {x : Nat} (hx : x ∈ internalNodes e) : x ∈ e.nodes := by
  obtain ⟨i, hi, rfl⟩ := List.mem_map.1 hx
  exact internal_mem hw hi

theorem inner_disjoint (h : MeshOk kinds m bnds D) (hI : Inner m bnds) :
    (visitIds m (domainIds m bnds)).Pairwise fun e e' => ∀ x ∈ internalNodes e, x ∉ internalNodes e' := by
  rw [visitIds_tagged, List.pairwise_map]
  have hn := ids_domainTagged h
  rw [List.Nodup, List.pairwise_map] at hn
  refine hn.imp_of_mem fun {a b} ha hb hab x hx hx' => ?_
  obtain ⟨a1, a2⟩ := mem_domainTagged.1 (show (a.1, a.2) ∈ _ from ha)
  obtain ⟨b1, b2⟩ := mem_domainTagged.1 (show (b.1, b.2) ∈ _ from hb)
  exact hI.alone _ _ a2 a1 b.2 (inDom_holds b1) (Ne.symm hab) x hx (mem_of_internalNodes (h.els _ (inDom_holds b1)) hx')

theorem node_cases {e : Element} (hw : WfElement e) {x : Nat} (hx : x ∈ e.nodes) : x ∈ boundaryNodes e ∨ x ∈ internalNodes e := by
  obtain ⟨i, hi, rfl⟩ := List.mem_iff_getElem.1 hx
  have hg : e.nodes[i] = e.nodes.getD i 0 := by rw [List.getD_eq_getElem?_getD, List.getElem?_eq_getElem hi]; rfl
  by_cases hb : i ∈ boundaryInds e.ty e.n
  · exact Or.inl (List.mem_map.2 ⟨i, hb, hg.symm⟩)
  · refine Or.inr (List.mem_map.2 ⟨i, ?_, hg.symm⟩)
    have hss : (boundaryInds e.ty e.n).Pairwise (· ≤ ·) := (Std.sortUniq_strict _).imp (fun {a b} h => Nat.le_of_lt h)
    refine List.mem_filter.2 ⟨List.mem_range.2 (by rw [nNodes, u16_id hw.small, ← hw.len]; exact hi), ?_⟩
    cases hbs : Std.binarySearch (boundaryInds e.ty e.n) i with
    | false => rfl
    | true => exact absurd ((Std.binarySearch_iff hss i).1 hbs) hb

theorem boundary_mem {e : Element} (hw : WfElement e) {x : Nat} (hx : x ∈ boundaryNodes e) : x ∈ e.nodes := by
  obtain ⟨i, hi, rfl⟩ := List.mem_map.1 hx
  refine getD_mem ?_
  rw [boundaryInds, Std.mem_sortUniq, List.mem_flatten] at hi
  obtain ⟨l, hl, hi⟩ := hi
  obtain ⟨s, hs, rfl⟩ := List.mem_iff_getElem.1 hl
  exact sideInds_lt hw (s := s) (by rw [sideNodeInds, List.getElem?_eq_getElem hs]) i hi

theorem side_boundary {e : Element} {s : Nat} {l : List Nat} (h : sideNodes e s = some l) {x : Nat} (hx : x ∈ l) : x ∈ boundaryNodes e := by
  obtain ⟨inds, h1, rfl⟩ := Option.map_eq_some_iff.1 h
  obtain ⟨i, hi, rfl⟩ := List.mem_map.1 hx
  refine List.mem_map.2 ⟨i, ?_, rfl⟩
  rw [boundaryInds, Std.mem_sortUniq, List.mem_flatten]
  exact ⟨inds, List.mem_of_getElem? h1, hi⟩

/-- Every node lies on the boundary of some element, or inside an element of a domain. -/
theorem node_covered (h : MeshOk kinds m bnds D) {x : Nat} (hx : NodeIn m x) :
    IsBoundaryNode m x ∨ ∃ e ∈ visitIds m (domainIds m bnds), x ∈ internalNodes e := by
  obtain ⟨e, he, hxe⟩ := hx
  rcases node_cases (h.els e he) hxe with hb | hi
  · exact Or.inl ⟨e, he, hb⟩
  · obtain ⟨k, hk⟩ := (holds_iff_inDom h.wf).1 he
    by_cases hkb : k ∈ bnds
    · obtain ⟨d, hd, hed⟩ := hk
      obtain ⟨y, s, ⟨d', hd', _, v, hv, hy⟩, l, hl, hp⟩ := h.parent k hkb d hd e hed
      exact Or.inl ⟨y, ⟨d', hd', v, hv, hy⟩, side_boundary hl (hp.symm.subset hxe)⟩
    · exact Or.inr ⟨e, mem_domainVisit.2 ⟨k, hkb, hk⟩, hi⟩

/-- The labels made from what METIS returned. -/
theorem labels_of_metis (h : MeshOk kinds m bnds D) (hI : Inner m bnds) (hN : ∀ x, NodeIn m x ↔ x < N) {init epart npartCond perm : List Nat}
    (hl : MetisOut m bnds N nParts init epart npartCond perm) :
    Labels m bnds nParts epart (nodeLabels m bnds N init epart npartCond) perm ∧ (nodeLabels m bnds N init epart npartCond).length = N ∧
    ∀ (j : Nat) e, (visitIds m (domainIds m bnds))[j]? = some e → ∀ x ∈ internalNodes e, (nodeLabels m bnds N init epart npartCond)[x]? = epart[j]? := by
  have hbn : ∀ x, IsBoundaryNode m x → x < N := fun x ⟨e, he, hx⟩ => (hN x).1 ⟨e, he, boundary_mem (h.els e he) hx⟩
  obtain ⟨_, c2, c3, _, _⟩ := C30_condensation_maps m (wf_keys h.wf) N hbn
  have hdom : ∀ e ∈ visitIds m (domainIds m bnds), Holds m e := fun e he => by
    obtain ⟨k, _, hk⟩ := mem_domainVisit.1 he
    exact inDom_holds hk
  obtain ⟨u1, u2, u3⟩ := C30_uncondensed_labels init epart npartCond (condMaps m N).2 (visitIds m (domainIds m bnds)) c2
    (fun x hx => by rw [hl.size]; exact hbn x ((c3 x).1 hx)) hl.cond hl.els (inner_disjoint h hI)
    (fun e he x hx => by rw [hl.size]; exact (hN x).1 ⟨e, hdom e he, mem_of_internalNodes (h.els e (hdom e he)) hx⟩)
  have hlen : (nodeLabels m bnds N init epart npartCond).length = N := u1.trans hl.size
  refine ⟨⟨hl.els, hl.elsLt, fun x => by rw [hlen]; exact hN x, ?_, hl.sorts⟩, hlen, u2⟩
  intro p hp
  obtain ⟨x, hx⟩ := List.mem_iff_getElem?.1 hp
  have hxN : x < N := by rw [← hlen]; exact (List.getElem?_eq_some_iff.1 hx).1
  by_cases hi : ∃ e ∈ visitIds m (domainIds m bnds), x ∈ internalNodes e
  · obtain ⟨e, he, hxe⟩ := hi
    obtain ⟨j, hj⟩ := List.mem_iff_getElem?.1 he
    have := u2 j e hj x hxe
    change (nodeLabels m bnds N init epart npartCond)[x]? = _ at this
    rw [hx] at this
    exact hl.elsLt p (List.mem_of_getElem? this.symm)
  · rcases node_covered h ((hN x).2 hxN) with hb | hb
    · obtain ⟨i, hi'⟩ := List.mem_iff_getElem?.1 ((c3 x).2 hb)
      have := u3 i x hi' fun e he hxe => hi ⟨e, he, hxe⟩
      change (nodeLabels m bnds N init epart npartCond)[x]? = _ at this
      rw [hx] at this
      exact hl.condLt p (List.mem_of_getElem? this.symm)
    · exact absurd hb hi

/-- Every run is an outcome in the sense of Pipeline. -/
theorem run_outcome {Q : List Split.Part → List Nat → Prop} (h : MeshOk kinds m bnds D) (hI : Inner m bnds) (hN : ∀ x, NodeIn m x ↔ x < N)
    (hr : Run Q kinds m bnds N nParts parts f) : Outcome Q kinds m bnds nParts parts f := by
  induction hr with
  | whole views => exact .whole N hN views
  | parts nParts init epart npartCond perm hl shuffle ord hshuf hord parts φ hs =>
    exact .parts nParts epart _ perm (labels_of_metis h hI hN hl).1 shuffle ord hshuf hord parts φ hs
  | reordered nParts parts f _ src hsrc hQ parts' h' ih => exact .reordered nParts parts f ih src hsrc hQ parts' h'

/-- The nodes inside an element are owned by its part and keep consecutive numbers. -/
def Blocks (bnds : List Nat) (parts : List Split.Part) (f : Nat → Nat) (maps : List DomMap) : Prop :=
  ∀ r k e, k ∉ bnds → InDom (mapAt maps r) k e → ∃ M, ∀ j (hj : j < (internalInds e.ty e.n).length),
    f (e.nodes.getD (internalInds e.ty e.n)[j] 0) = M + j ∧ (part parts r).own.isOwned (M + j) = true

theorem isOwned_iff {o : Own.SegOwn} {x : Nat} : o.isOwned x = true ↔ o.first ≤ x ∧ x < o.first + o.cnt := by
  simp [Own.SegOwn.isOwned]

theorem localPos_owned {o : Own.SegOwn} {x : Nat} (h : o.isOwned x = true) : localPos o x = x - o.first := by
  obtain ⟨h1, h2⟩ := isOwned_iff.1 h
  unfold localPos
  have hn : ((List.range o.cnt).map (o.first + ·)).Nodup := List.Nodup.map (fun a b hab => by simpa using hab) List.nodup_range
  have hm : x ∈ (List.range o.cnt).map (o.first + ·) := List.mem_map.2 ⟨x - o.first, List.mem_range.2 (by omega), by omega⟩
  rw [List.idxOf_append_of_mem hm]
  have hl : x - o.first < ((List.range o.cnt).map (o.first + ·)).length := by simp; omega
  have := hn.idxOf_getElem (x - o.first) hl
  rw [List.getElem_map, List.getElem_range] at this
  rwa [show o.first + (x - o.first) = x by omega] at this

theorem contiguous_of_blocks (R : Result bnds m N nParts parts f maps) (hB : Blocks bnds parts f maps) {r k : Nat} {e : Element} (hk : k ∉ bnds)
    (he : InDom (part parts r).doms k e) : InternalContiguous (part parts r).own e := by
  rw [part_doms R, inDom_mapDoms] at he
  obtain ⟨e0, he0, rfl⟩ := he
  obtain ⟨M, hM⟩ := hB r k e0 hk he0
  have hw := R.els e0 (inDom_holds (inDom_mapAt R he0).2.2)
  intro j hj
  change j < (internalInds e0.ty e0.n).length at hj
  have hget : ∀ i ∈ internalInds e0.ty e0.n, (e0.nodes.map f).getD i 0 = f (e0.nodes.getD i 0) := by
    intro i hi
    have := internal_lt hw hi
    rw [List.getD_eq_getElem?_getD, List.getElem?_map, List.getD_eq_getElem?_getD, List.getElem?_eq_getElem this]; rfl
  have h0 : 0 < (internalInds e0.ty e0.n).length := by omega
  have hg0 : (internalInds e0.ty e0.n).getD 0 0 = (internalInds e0.ty e0.n)[0] := by
    rw [List.getD_eq_getElem?_getD, List.getElem?_eq_getElem h0]; rfl
  change localPos _ ((e0.nodes.map f).getD (internalInds e0.ty e0.n)[j] 0) = localPos _ ((e0.nodes.map f).getD ((internalInds e0.ty e0.n).getD 0 0) 0) + j
  rw [hg0, hget _ (List.getElem_mem hj), hget _ (List.getElem_mem h0), (hM j hj).1, (hM 0 h0).1, localPos_owned (hM j hj).2, localPos_owned (hM 0 h0).2]
  have := (isOwned_iff.1 (hM 0 h0).2).1
  omega

/-- An increasing bijection onto a block maps consecutive numbers to consecutive ones. -/
theorem consec_of_mono {g : Nat → Nat} {N : Nat} (hb : Set.BijOn g (Set.Iio N) (Set.Iio N)) {S : Nat → Prop} {lo hi : Nat} (hS : ∀ y, S y ↔ lo ≤ y ∧ y < hi) (hlt : ∀ y, S y → y < N)
    (hmono : ∀ x y, x < y → y < N → S (g x) → S (g y) → g x < g y) {M L : Nat} (hL : ∀ j < L, M + j < N ∧ S (g (M + j))) : ∀ j < L, g (M + j) = g M + j := by
  intro j
  induction j with
  | zero => intro _; rfl
  | succ j ih =>
    intro hj
    have e1 := ih (by omega)
    obtain ⟨a1, a2⟩ := hL j (by omega)
    obtain ⟨b1, b2⟩ := hL (j + 1) hj
    have h1 := hmono (M + j) (M + (j + 1)) (by omega) b1 a2 b2
    by_contra hne
    have hs : S (g (M + j) + 1) := (hS _).2 ⟨by have := (hS _).1 a2; omega, by have := (hS _).1 b2; omega⟩
    obtain ⟨w, hw, hwe⟩ := hb.2.2 (show g (M + j) + 1 ∈ Set.Iio N from hlt _ hs)
    have hw : w < N := hw
    rw [← hwe] at hs
    rcases Nat.lt_trichotomy w (M + j) with h | h | h
    · have := hmono w (M + j) h a1 hs a2; omega
    · subst h; omega
    · rcases Nat.lt_trichotomy w (M + (j + 1)) with h' | h' | h'
      · omega
      · subst h'; omega
      · have := hmono (M + (j + 1)) w h' hw b2 hs; omega

theorem run_blocks (h : MeshOk kinds m bnds D) (hone : OneSided m bnds) (hI : Inner m bnds) (hN : ∀ x, NodeIn m x ↔ x < N)
    (hr : Run Monotone kinds m bnds N nParts parts f) : ∃ maps, Result bnds m N nParts parts f maps ∧ Blocks bnds parts f maps := by
  have hNN : ∀ {N' nParts parts f maps}, Result bnds m N' nParts parts f maps → N' = N := by
    intro N' _ _ _ _ R
    have h : ∀ x, x < N' ↔ x < N := fun x => (R.nodes x).symm.trans (hN x)
    have h1 := h N
    have h2 := h N'
    omega
  induction hr with
  | whole views =>
    obtain ⟨N', maps, R⟩ := outcome_result h hone (.whole N hN views)
    obtain rfl := hNN R
    refine ⟨maps, R, fun r k e hk he => ?_⟩
    obtain ⟨hr, _, hem⟩ := inDom_mapAt R he
    obtain ⟨M, hM⟩ := hI.consec k e hk hem
    refine ⟨M, fun j hj => ⟨hM j hj, ?_⟩⟩
    have : M + j < N' := by rw [← hM j hj]; exact (hN _).1 ⟨e, inDom_holds hem, internal_mem (h.els e (inDom_holds hem)) (List.getElem_mem hj)⟩
    obtain rfl : r = 0 := by omega
    exact isOwned_iff.2 ⟨Nat.zero_le _, (by change M + j < 0 + N'; omega)⟩
  | parts nParts init epart npartCond perm hl shuffle ord hshuf hord parts φ hs =>
    obtain ⟨hlab, hlen, hint⟩ := labels_of_metis h hI hN hl
    obtain ⟨parts', φ', f', maps, h1, h2, R, _, hown, hmono, hplace, _⟩ := partition_more h hone hlab shuffle ord hshuf hord
    rw [h1] at hs
    obtain ⟨rfl, rfl⟩ := Prod.mk.inj (Option.some.inj hs)
    rw [hlen] at R h2 hmono
    have hf : ∀ x < N, f' x = (φ'.find x).getD 0 := by
      intro x hx; rw [h2, if_pos hx]; rfl
    have R' : Result bnds m N nParts parts' (fun x => (φ'.find x).getD 0) maps := by
      refine ⟨R.len, R.plen, R.bij.congr fun x hx => hf x hx, ?_, R.nodup, R.uniq, R.own, R.total, R.nodes, R.wf, R.dims, R.mdims, R.views, R.els, R.keys, R.seen⟩
      intro i m' p hm' hp
      rw [R.doms i m' p hm' hp]
      refine mapDoms_congr fun e he x hx => hf x ((R.nodes x).1 ⟨e, ?_, hx⟩)
      have : Holds (mapAt maps i) e := by unfold mapAt; rw [hm']; exact he
      exact holds_part R this
    refine ⟨maps, R', fun r k e hk he => ?_⟩
    obtain ⟨hr, hin, hem⟩ := inDom_mapAt R he
    have hw := h.els e (inDom_holds hem)
    obtain ⟨M, hM⟩ := hI.consec k e hk hem
    obtain ⟨j, hj⟩ := List.mem_iff_getElem?.1 (mem_domainTagged.2 ⟨hem, hk⟩)
    have hjl : j < epart.length := by
      rw [hl.els, visitIds_tagged, List.length_map]; exact (List.getElem?_eq_some_iff.1 hj).1
    have hpr : epart[j] = r := by
      obtain ⟨m', hm', hk'⟩ := hplace j k e _ hj (List.getElem?_eq_getElem hjl)
      exact (R.uniq k e hem).unique ⟨m', hm', hk'⟩ hin
    have hr' : r < parts'.length := by rw [R.plen]; exact hr
    have hgp := Pipeline.part_get hr'
    have hvis : (visitIds m (domainIds m bnds))[j]? = some e := by rw [visitIds_tagged, List.getElem?_map, hj]; rfl
    have hmem : ∀ i (hi : i < (internalInds e.ty e.n).length), M + i ∈ e.nodes ∧ M + i < N ∧ (part parts' r).own.isOwned (f' (M + i)) = true := by
      intro i hi
      have hx : M + i ∈ internalNodes e := by rw [← hM i hi]; exact List.mem_map.2 ⟨_, List.getElem_mem hi, rfl⟩
      have hxe := mem_of_internalNodes hw hx
      have hxN := (hN _).1 ⟨e, inDom_holds hem, hxe⟩
      refine ⟨hxe, hxN, hown r _ hgp (M + i) ?_ ?_⟩
      · rw [hint j e hvis _ hx, List.getElem?_eq_getElem hjl, hpr]
      · rw [part_doms R]
        exact ⟨_, holds_mapDoms (inDom_holds he), List.mem_map.2 ⟨_, hxe, rfl⟩⟩
    have hcon := consec_of_mono R.bij (S := fun y => (part parts' r).own.isOwned y = true) (fun y => isOwned_iff)
      (fun y hy => nodeIn_lt R (R.seen r _ hgp y hy)) (fun x y hxy hy h1 h2 => hmono r _ hgp x y hxy hy h1 h2) (M := M) (L := (internalInds e.ty e.n).length)
      (fun i hi => (hmem i hi).2)
    refine ⟨f' M, fun i hi => ⟨?_, ?_⟩⟩
    · beta_reduce; rw [hM i hi, ← hf _ (hmem i hi).2.1, hcon i hi]
    · rw [← hcon i hi]; exact (hmem i hi).2.2
  | reordered nParts parts f _ src hsrc hQ parts' h' ih =>
    obtain ⟨maps, R, hB⟩ := ih
    have R' := reorder_result R hsrc hQ h'
    refine ⟨_, R', fun q k e hk he => ?_⟩
    obtain ⟨hq, _, hem⟩ := inDom_mapAt R' he
    have hql : q < src.length := by rw [hsrc.length_eq, List.length_range]; exact hq
    have hmap : mapAt (src.map (mapAt maps)) q = mapAt maps src[q] := by
      unfold mapAt; rw [List.getElem?_map, List.getElem?_eq_getElem hql]; rfl
    rw [hmap] at he
    have hp : src[q] < parts.length := by rw [R.plen]; exact List.mem_range.1 (hsrc.subset (List.getElem_mem hql))
    obtain ⟨M, hM⟩ := hB _ k e hk he
    have hq' : q < parts'.length := by rw [R'.plen]; exact hq
    have hnew : ∀ j (hj : j < (internalInds e.ty e.n).length), Permute.newId (world parts) src (M + j) = Permute.newBegin (world parts) src src[q] + (M + j - (world parts).begin src[q]) ∧
        (world parts).begin src[q] ≤ M + j := by
      intro j hj
      have ho := (world_owns R hp _).2 (hM j hj).2
      exact ⟨Permute.newId_owned ho, ho.1⟩
    have hown : ∀ y, Permute.Owns (world parts) src[q] y → (part parts' q).own.isOwned (Permute.newId (world parts) src y) = true := by
      intro y hy
      have hf := mapM_forall₂ _ _ _ h'
      have := hf.get (i := q) hql hq'
      simp only [List.get_eq_getElem] at this
      unfold reindexed at this
      obtain ⟨o, ho, hPo⟩ := Option.map_eq_some_iff.1 this
      obtain ⟨o', ho', _, _, howned, _⟩ := reindexed_own R hsrc hp
      rw [ho] at ho'
      obtain rfl := Option.some.inj ho'
      have : part parts' q = parts'[q] := by unfold part; rw [List.getElem?_eq_getElem hq']; rfl
      rw [this, ← hPo]
      exact (howned _).2 ⟨y, hy, rfl⟩
    refine ⟨Permute.newId (world parts) src M, fun j hj => ?_⟩
    have h0 : 0 < (internalInds e.ty e.n).length := by omega
    have e0 := hnew 0 h0
    have ej := hnew j hj
    rw [Nat.add_zero] at e0
    have hsum : Permute.newId (world parts) src (M + j) = Permute.newId (world parts) src M + j := by rw [ej.1, e0.1]; omega
    refine ⟨by beta_reduce; rw [(hM j hj).1, hsum], ?_⟩
    rw [← hsum]
    exact hown _ ((world_owns R hp _).2 (hM j hj).2)

end Verif.MfGen
