import Verif.Partition.Nodes
import Mathlib.Data.Set.Function

/-! # Property C28: new numbers and the resulting parts -/
namespace Verif.Partition
open Verif Verif.Elem Verif.Mesh

/-! ## Numbering -/

theorem nodeMap_find (owned : List (List Nat)) (x : Nat) :
    (nodeMap owned).find x = if x ∈ owned.flatten then some (owned.flatten.idxOf x) else none := by
  have h1 : nodeMap owned = Algo.indexMap owned.flatten := by
    unfold nodeMap Algo.indexMap numberLoop
    rw [List.foldl_flatten]
  rw [h1]
  have := Algo.indexMap_fold owned.flatten [] 0 x
  simpa [Algo.indexMap, Algo.AMap.find] using this

theorem newOwned_getElem? (os : List (List Nat)) (k i : Nat) :
    (newOwned os k)[i]? = os[i]?.map fun o => List.range' (k + ((os.take i).map List.length).sum) o.length := by
  induction os generalizing k i with
  | nil => simp [newOwned]
  | cons o os ih =>
    cases i with
    | zero => simp [newOwned]
    | succ i => simp [newOwned, ih, Nat.add_assoc]

theorem idxOf_flatten (os : List (List Nat)) (hn : os.flatten.Nodup) (i : Nat) (o : List Nat) (ho : os[i]? = some o) (x : Nat) (hx : x ∈ o) :
    os.flatten.idxOf x = ((os.take i).map List.length).sum + o.idxOf x := by
  induction os generalizing i with
  | nil => simp at ho
  | cons a os ih =>
    rw [List.flatten_cons, List.nodup_append] at hn
    cases i with
    | zero =>
      simp only [List.getElem?_cons_zero, Option.some.injEq] at ho
      subst ho
      rw [List.flatten_cons, List.idxOf_append_of_mem hx]; simp
    | succ i =>
      simp only [List.getElem?_cons_succ] at ho
      have hxa : x ∉ a := fun h => hn.2.2 x h x (List.mem_flatten.2 ⟨o, List.mem_of_getElem? ho, hx⟩) rfl
      rw [List.flatten_cons, List.idxOf_append_of_notMem hxa, ih hn.2.1 i ho]
      simp only [List.take_succ_cons, List.map_cons, List.sum_cons]; omega

/-! ## Renaming the nodes of a mesh -/

/-- The element with its nodes renamed. -/
def mapEl (f : Nat → Nat) (e : Element) : Element := { e with nodes := e.nodes.map f }

/-- All elements renamed. -/
def mapDoms (f : Nat → Nat) (m : DomMap) : DomMap := m.map fun d => (d.1, ⟨d.2.dim, d.2.vecs.map (List.map (mapEl f))⟩)

theorem mapM_map {α β : Type} {f : α → Option β} {g : α → β} {l : List α} (h : ∀ a ∈ l, f a = some (g a)) : l.mapM f = some (l.map g) := by
  induction l with
  | nil => rfl
  | cons a l ih => rw [List.mapM_cons, h a (by simp), ih fun b hb => h b (by simp [hb])]; rfl

theorem renumberDomains_eq {φ : Algo.AMap Nat Nat} {f : Nat → Nat} {m : DomMap} (h : ∀ x, NodeIn m x → φ.find x = some (f x)) :
    renumberDomains φ m = some (mapDoms f m) := by
  refine mapM_map fun d hd => ?_
  rw [mapM_map (g := List.map (mapEl f)) fun v hv => mapM_map fun e he => ?_]
  · rfl
  · unfold renumberElement mapEl
    rw [mapM_map fun x hx => h x ⟨e, ⟨d, hd, v, hv, he⟩, hx⟩]; rfl

theorem keys_mapDoms (f : Nat → Nat) (m : DomMap) : (mapDoms f m).map (·.1) = m.map (·.1) := by
  unfold mapDoms; rw [List.map_map]; rfl

theorem holds_mapDoms {f : Nat → Nat} {m : DomMap} {e : Element} (h : Holds m e) : Holds (mapDoms f m) (mapEl f e) := by
  obtain ⟨d, hd, v, hv, he⟩ := h
  exact ⟨_, List.mem_map.2 ⟨d, hd, rfl⟩, _, List.mem_map.2 ⟨v, hv, rfl⟩, List.mem_map.2 ⟨e, he, rfl⟩⟩

theorem of_holds_mapDoms {f : Nat → Nat} {m : DomMap} {e : Element} (h : Holds (mapDoms f m) e) : ∃ e', Holds m e' ∧ e = mapEl f e' := by
  obtain ⟨d, hd, v, hv, he⟩ := h
  obtain ⟨d', hd', rfl⟩ := List.mem_map.1 hd
  obtain ⟨v', hv', rfl⟩ := List.mem_map.1 hv
  obtain ⟨e', he', rfl⟩ := List.mem_map.1 he
  exact ⟨e', ⟨d', hd', v', hv', he'⟩, rfl⟩

theorem nodeIn_mapDoms {f : Nat → Nat} {m : DomMap} {y : Nat} : NodeIn (mapDoms f m) y ↔ ∃ x, NodeIn m x ∧ f x = y := by
  constructor
  · rintro ⟨e, he, hy⟩
    obtain ⟨e', he', rfl⟩ := of_holds_mapDoms he
    obtain ⟨x, hx, rfl⟩ := List.mem_map.1 hy
    exact ⟨x, ⟨e', he', hx⟩, rfl⟩
  · rintro ⟨x, ⟨e, he, hx⟩, rfl⟩
    exact ⟨_, holds_mapDoms he, List.mem_map.2 ⟨x, hx, rfl⟩⟩

/-- An element with as many nodes as its type and order require. -/
structure WfElement (e : Element) : Prop where
  pos : 1 ≤ e.n
  small : e.n ^ e.ty.dim < 2 ^ 16
  len : e.nodes.length = e.n ^ e.ty.dim

theorem sideInds_lt {e : Element} (h : WfElement e) {s : Nat} {inds : List Nat} (hs : sideNodeInds e.ty e.n s = some inds) :
    ∀ i ∈ inds, i < e.nodes.length := by
  have hlt : s < Elem.nSides e.ty := by
    by_contra hc
    rw [(C20_invalid_side _ _ _).2 (by omega)] at hs; simp at hs
  rw [side_eq_layer _ _ _ h.pos h.small hlt] at hs
  simp only [Option.some.injEq] at hs
  subst hs
  intro i hi
  rw [h.len]; exact (mem_layer.1 hi).1

theorem sideNodes_mapEl {e : Element} (h : WfElement e) (f : Nat → Nat) (s : Nat) : sideNodes (mapEl f e) s = (sideNodes e s).map (List.map f) := by
  unfold sideNodes
  cases hs : sideNodeInds e.ty e.n s with
  | none => simp [mapEl, hs]
  | some inds =>
    simp only [mapEl, hs, Option.map_some, List.map_map, Option.some.injEq]
    refine List.map_congr_left fun i hi => ?_
    have := sideInds_lt h hs i hi
    simp only [Function.comp, List.getD_eq_getElem?_getD]
    rw [List.getElem?_map, List.getElem?_eq_getElem this]; rfl

theorem isParent_mapDoms {f : Nat → Nat} {m : DomMap} {b e : Element} {s : Nat} (he : WfElement e) (h : IsParent m b e s) :
    IsParent (mapDoms f m) (mapEl f b) (mapEl f e) s := by
  obtain ⟨⟨d, hd, hdim, v, hv, hev⟩, l, hl, hp⟩ := h
  refine ⟨⟨_, List.mem_map.2 ⟨d, hd, rfl⟩, hdim, _, List.mem_map.2 ⟨v, hv, rfl⟩, List.mem_map.2 ⟨e, hev, rfl⟩⟩, l.map f, ?_, hp.map f⟩
  rw [sideNodes_mapEl he, hl]; rfl

theorem lookup_mapDoms (f : Nat → Nat) (m : DomMap) (k : Nat) :
    (mapDoms f m).lookup k = (m.lookup k).map fun d => ⟨d.dim, d.vecs.map (List.map (mapEl f))⟩ := by
  induction m with
  | nil => rfl
  | cons a m ih =>
    unfold mapDoms at ih ⊢
    rw [List.map_cons, List.lookup_cons, List.lookup_cons]
    cases h : (k == a.1) with
    | true => simp
    | false => simpa using ih

/-- The boundary views of the part can be built: every boundary element has a parent in the part. -/
def ViewsOk (m : DomMap) (bnds : List Nat) : Prop :=
  ∀ b ∈ bnds, ∀ d, m.lookup b = some d → d.elems ≠ [] ∧ (∀ x ∈ d.elems, some x.ty.dim = d.dim) ∧ ∀ x ∈ d.elems, ∃ e s, IsParent m x e s

theorem initViews_ok {m : DomMap} {bnds : List Nat} (hk : KeysNodup m) (h : ViewsOk m bnds) (ord : Nat → List Element → List Element)
    (hord : ∀ k l, (ord k l).Perm l) : ∃ vs, Split.initViews m bnds ord = some vs ∧ vs.map (·.1) = bnds := by
  unfold Split.initViews
  induction bnds with
  | nil => exact ⟨[], rfl, rfl⟩
  | cons b bnds ih =>
    obtain ⟨vs, h1, h2⟩ := ih fun b' hb' => h b' (by simp [hb'])
    have : ∃ l, boundaryViews m b (ord b) = some l := by
      cases hm : m.lookup b with
      | none => exact ⟨[], by unfold boundaryViews; rw [hm]⟩
      | some d =>
        obtain ⟨h3, h4, h5⟩ := h b (by simp) d hm
        cases hbv : boundaryViews m b (ord b) with
        | some l => exact ⟨l, rfl⟩
        | none =>
          obtain ⟨e, he, hno⟩ := (C23_boundary_views m hk b d hm h4 h3 (ord b) (hord b)).2.1 hbv
          exact absurd (h5 e he) hno
    obtain ⟨l, hl⟩ := this
    exact ⟨(b, l) :: vs, by rw [List.mapM_cons, hl, h1]; rfl, by simp [h2]⟩

theorem viewsOk_mapDoms {f : Nat → Nat} {m : DomMap} {bnds : List Nat} (he : ∀ e, Holds m e → WfElement e) (h : ViewsOk m bnds) :
    ViewsOk (mapDoms f m) bnds := by
  intro b hb d hd
  rw [lookup_mapDoms, Option.map_eq_some_iff] at hd
  obtain ⟨d0, hd0, rfl⟩ := hd
  obtain ⟨h1, h2, h3⟩ := h b hb d0 hd0
  have hel : ∀ x, x ∈ (⟨d0.dim, d0.vecs.map (List.map (mapEl f))⟩ : Domain).elems ↔ ∃ y ∈ d0.elems, mapEl f y = x := by
    intro x
    unfold Domain.elems
    simp only [List.mem_flatten, List.mem_map]
    constructor
    · rintro ⟨l, ⟨v, hv, rfl⟩, hx⟩
      obtain ⟨y, hy, rfl⟩ := List.mem_map.1 hx
      exact ⟨y, ⟨v, hv, hy⟩, rfl⟩
    · rintro ⟨y, ⟨v, hv, hy⟩, rfl⟩
      exact ⟨_, ⟨v, hv, rfl⟩, List.mem_map.2 ⟨y, hy, rfl⟩⟩
  refine ⟨?_, fun x hx => ?_, fun x hx => ?_⟩
  · obtain ⟨a, ha⟩ := List.exists_mem_of_ne_nil _ h1
    exact List.ne_nil_of_mem ((hel _).2 ⟨a, ha, rfl⟩)
  · obtain ⟨y, hy, rfl⟩ := (hel x).1 hx
    exact h2 y hy
  · obtain ⟨y, hy, rfl⟩ := (hel x).1 hx
    obtain ⟨e, s, hp⟩ := h3 y hy
    obtain ⟨⟨d', hd', _, hv⟩, _⟩ := id hp
    exact ⟨_, s, isParent_mapDoms (he e ⟨d', hd', hv⟩) hp⟩

/-- Sum of the numbers of nodes owned by the parts before `i`. -/
def before (parts : List Split.Part) (i : Nat) : Nat := ((parts.take i).map fun p => p.own.cnt).sum

theorem mapM_getElem? {α β : Type} {f : α → Option β} {l : List α} {r : List β} (h : l.mapM f = some r) (i : Nat) :
    (l[i]?).bind f = r[i]? := by
  induction l generalizing r i with
  | nil => simp at h; subst h; simp
  | cons a l ih =>
    rw [List.mapM_cons] at h
    simp only [Option.bind_eq_bind, Option.bind_eq_some_iff, Option.pure_def, Option.some.injEq] at h
    obtain ⟨b, hb, r', hr', rfl⟩ := h
    cases i with
    | zero => simpa using hb
    | succ i => simpa using ih hr' i

theorem mapM_isSome {α β : Type} {f : α → Option β} {l : List α} (h : ∀ a ∈ l, ∃ b, f a = some b) : ∃ r, l.mapM f = some r := by
  cases hr : l.mapM f with
  | some r => exact ⟨r, rfl⟩
  | none =>
    obtain ⟨a, ha, hn⟩ := (mapM_none _ _).1 hr
    obtain ⟨b, hb⟩ := h a ha
    rw [hb] at hn; simp at hn

theorem idxOf_lt {l : List Nat} (h : l.Pairwise (· < ·)) {x y : Nat} (hx : x ∈ l) (hy : y ∈ l) (hxy : x < y) : l.idxOf x < l.idxOf y := by
  by_contra hc
  have lx := List.idxOf_lt_length_of_mem hx
  have ly := List.idxOf_lt_length_of_mem hy
  have gx : l[l.idxOf x] = x := List.getElem_idxOf lx
  have gy : l[l.idxOf y] = y := List.getElem_idxOf ly
  rcases Nat.lt_or_ge (l.idxOf y) (l.idxOf x) with hlt | hge
  · have := List.pairwise_iff_getElem.1 h _ _ ly lx hlt
    omega
  · have he : l.idxOf x = l.idxOf y := by omega
    have : x = y := (List.idxOf_inj hx).1 he
    omega

/-- **C28**: whatever labels the partitioner returns, once the elements are distributed (`maps`) the
nodes are distributed so that: the new numbers `f` are a bijection of `0..N-1`; the elements of each
part are the old ones with their nodes renamed; every node is owned by exactly one part; part `i` owns
the contiguous block following those of the lower parts; it has each owned node in one of its
elements, and its ghosts are the other nodes of its elements; nodes of one part keep their order; and a node goes to the part the
partitioner chose whenever that part has an element containing it. -/
theorem C28_partition_nodes (npart : List Nat) (maps : List DomMap) (bnds : List Nat) (ord : Nat → Nat → List Element → List Element)
    (h : NodesOk npart maps) (hk : ∀ m ∈ maps, KeysNodup m) (he : ∀ m ∈ maps, ∀ e, Holds m e → WfElement e)
    (hv : ∀ m ∈ maps, ViewsOk m bnds) (hord : ∀ i k l, (ord i k l).Perm l) :
    ∃ parts φ f, finish npart maps bnds ord = some (parts, φ) ∧ parts.length = maps.length ∧
      Set.BijOn f (Set.Iio npart.length) (Set.Iio npart.length) ∧
      (∀ x, φ.find x = if x < npart.length then some (f x) else none) ∧
      (∀ (i : Nat) (m : DomMap) (part : Split.Part), maps[i]? = some m → parts[i]? = some part → part.doms = mapDoms f m ∧ part.bnds.map (·.1) = bnds) ∧
      (∀ y, y < npart.length → ∃! i : Nat, ∃ part : Split.Part, parts[i]? = some part ∧ part.own.isOwned y = true) ∧
      (∀ (i : Nat) (part : Split.Part), parts[i]? = some part → (∀ y, part.own.isOwned y = true ↔ before parts i ≤ y ∧ y < before parts i + part.own.cnt) ∧
        (∀ y, part.own.isOwned y = true → NodeIn part.doms y) ∧
        part.own.shared.Pairwise (· < ·) ∧ (∀ y, y ∈ part.own.shared ↔ NodeIn part.doms y ∧ ¬ part.own.isOwned y = true) ∧
        ∀ x, npart[x]? = some i → NodeIn part.doms (f x) → part.own.isOwned (f x) = true) ∧
      before parts parts.length = npart.length ∧
      (∀ (i : Nat) (part : Split.Part), parts[i]? = some part → ∀ x y, x < y → y < npart.length → part.own.isOwned (f x) = true → part.own.isOwned (f y) = true → f x < f y) := by
  obtain ⟨L, hL, hLlen, hsort, hcov, huniq, hpart⟩ := assignNodes_spec h
  set os := L.map (·.1) with hos
  set N := npart.length with hN
  have hosi : ∀ (i : Nat) (q : List Nat × List Nat), L[i]? = some q → os[i]? = some q.1 := fun i q hq => by rw [hos, List.getElem?_map, hq]; rfl
  have hoslen : os.length = maps.length := by rw [hos, List.length_map, hLlen]
  have hlt : ∀ (i : Nat) (q : List Nat × List Nat), L[i]? = some q → ∀ x ∈ q.1, x < N := by
    intro i q hq x hx
    have hi : i < maps.length := by rw [← hLlen]; exact (List.getElem?_eq_some_iff.1 hq).1
    have := (hpart i q _ hq (List.getElem?_eq_getElem hi)).1 x hx
    exact h.bound _ (List.getElem_mem _) x this
  have hflat : os.flatten.Nodup := by
    rw [List.nodup_flatten]
    constructor
    · intro l hl
      obtain ⟨q, hq, rfl⟩ := List.mem_map.1 hl
      exact Std.nodup_of_strict (hsort q hq).1
    · rw [hos, List.pairwise_map, List.pairwise_iff_getElem]
      intro i j hi hj hij x hx hx'
      have := huniq i j _ _ x (List.getElem?_eq_getElem hi) (List.getElem?_eq_getElem hj) hx hx'
      omega
  have hmem : ∀ x, x ∈ os.flatten ↔ x < N := by
    intro x
    rw [List.mem_flatten]
    constructor
    · rintro ⟨l, hl, hx⟩
      obtain ⟨q, hq, rfl⟩ := List.mem_map.1 hl
      obtain ⟨i, hi, rfl⟩ := List.mem_iff_getElem.1 hq
      exact hlt i _ (List.getElem?_eq_getElem hi) x hx
    · intro hx
      obtain ⟨i, q, hq, hxq⟩ := hcov x hx
      exact ⟨q.1, List.mem_of_getElem? (hosi i q hq), hxq⟩
  have hflen : os.flatten.length = N := by
    have : os.flatten.Perm (List.range N) := (List.perm_ext_iff_of_nodup hflat List.nodup_range).2 fun x => by rw [hmem, List.mem_range]
    rw [this.length_eq, List.length_range]
  set f := fun x => os.flatten.idxOf x with hf
  have hφ : ∀ x, (nodeMap os).find x = if x < N then some (f x) else none := by
    intro x
    rw [nodeMap_find]
    exact if_congr (hmem x) rfl rfl
  have hbij : Set.BijOn f (Set.Iio N) (Set.Iio N) := by
    refine ⟨fun x hx => ?_, fun x hx y hy hxy => ?_, fun y hy => ?_⟩
    · have := List.idxOf_lt_length_of_mem ((hmem x).2 hx)
      rw [hflen] at this; exact this
    · exact (List.idxOf_inj ((hmem x).2 hx)).1 hxy
    · have hy' : y < os.flatten.length := by rw [hflen]; exact hy
      exact ⟨os.flatten[y], (hmem _).1 (List.getElem_mem _), List.Nodup.idxOf_getElem hflat y hy'⟩
  have hnode : ∀ m ∈ maps, ∀ x, NodeIn m x → x < N := fun m hm x hx => h.bound m hm x (mem_partNodes.2 hx)
  -- the steps of `finish`
  have hghost : ∃ r, (L.mapM fun (p : List Nat × List Nat) => p.2.mapM fun x => (nodeMap os).find x) = some r := by
    refine mapM_isSome fun q hq => mapM_isSome fun x hx => ?_
    obtain ⟨i, hi, rfl⟩ := List.mem_iff_getElem.1 hq
    have hi' : i < maps.length := by omega
    have h2 := (hpart i _ _ (List.getElem?_eq_getElem hi) (List.getElem?_eq_getElem hi')).2.1 x
    have hxN := h.bound _ (List.getElem_mem hi') x (h2.1 hx).1
    exact ⟨f x, by rw [hφ, if_pos hxN]⟩
  obtain ⟨gh, hghost⟩ := hghost
  have hmaps : maps.mapM (renumberDomains (nodeMap os)) = some (maps.map (mapDoms f)) :=
    mapM_map fun m hm => renumberDomains_eq fun x hx => by rw [hφ, if_pos (hnode m hm x hx)]
  -- one part
  have hone : ∀ (i : Nat) (m : DomMap), maps[i]? = some m → ∀ o, ∃ part, makePart (mapDoms f m) o bnds (ord i) = some part ∧ part.doms = mapDoms f m ∧
      part.bnds.map (·.1) = bnds ∧ ownershipRange (mapDoms f m) (o.headD 0) o.length = some part.own := by
    intro i m hm o
    have hm' := List.mem_of_getElem? hm
    have hkm : KeysNodup (mapDoms f m) := by unfold KeysNodup; rw [keys_mapDoms]; exact hk m hm'
    obtain ⟨vs, h1, h2⟩ := initViews_ok hkm (viewsOk_mapDoms (he m hm') (hv m hm')) (ord i) (hord i)
    obtain ⟨ow, h3, _⟩ := C22_explicit_range (mapDoms f m) hkm (o.headD 0) o.length
    exact ⟨⟨_, ow, vs⟩, by unfold makePart; rw [h1, Option.bind_some, h3]; rfl, rfl, h2, h3⟩
  have hzip : ∀ (i : Nat) (mo : DomMap × List Nat), (List.zip (maps.map (mapDoms f)) (newOwned os 0))[i]? = some mo ↔
      ∃ m o, maps[i]? = some m ∧ os[i]? = some o ∧ mo = (mapDoms f m, List.range' ((os.take i).map List.length).sum o.length) := by
    intro i mo
    rw [List.zip, List.getElem?_zipWith, List.getElem?_map, newOwned_getElem?, Nat.zero_add]
    cases h1 : maps[i]? with
    | none => simp
    | some m =>
      cases h2 : os[i]? with
      | none => simp
      | some o => simp [eq_comm]
  obtain ⟨parts, hparts⟩ : ∃ parts, ((List.zip (maps.map (mapDoms f)) (newOwned os 0)).zipIdx.mapM fun p => makePart p.1.1 p.1.2 bnds (ord p.2)) = some parts := by
    refine mapM_isSome fun p hp => ?_
    obtain ⟨mo, i⟩ := p
    rw [List.mem_zipIdx_iff_getElem?] at hp
    obtain ⟨m, o, h1, h2, rfl⟩ := (hzip i mo).1 hp
    obtain ⟨part, h3, _⟩ := hone i m h1 (List.range' ((os.take i).map List.length).sum o.length)
    exact ⟨part, h3⟩
  have hpi : ∀ (i : Nat) (part : Split.Part), parts[i]? = some part ↔ ∃ m o, maps[i]? = some m ∧ os[i]? = some o ∧
      makePart (mapDoms f m) (List.range' ((os.take i).map List.length).sum o.length) bnds (ord i) = some part := by
    intro i part
    rw [← mapM_getElem? hparts i, Option.bind_eq_some_iff]
    constructor
    · rintro ⟨⟨mo, j⟩, h1, h2⟩
      rw [List.getElem?_zipIdx, Option.map_eq_some_iff] at h1
      obtain ⟨mo', h1, h3⟩ := h1
      simp only [Prod.mk.injEq, Nat.zero_add] at h3
      obtain ⟨rfl, rfl⟩ := h3
      obtain ⟨m, o, h4, h5, rfl⟩ := (hzip i mo').1 h1
      exact ⟨m, o, h4, h5, h2⟩
    · rintro ⟨m, o, h1, h2, h3⟩
      refine ⟨((mapDoms f m, List.range' ((os.take i).map List.length).sum o.length), i), ?_, h3⟩
      rw [List.getElem?_zipIdx, (hzip i _).2 ⟨m, o, h1, h2, rfl⟩]; simp
  have hplen : parts.length = maps.length := by
    have := (mapM_forall₂ _ _ _ hparts).length_eq
    rw [← this, List.length_zipIdx, List.length_zip, List.length_map]
    have : (newOwned os 0).length = os.length := by
      have : ∀ (l : List (List Nat)) k, (newOwned l k).length = l.length := by
        intro l
        induction l with
        | nil => intro k; rfl
        | cons a l ih => intro k; simp [newOwned, ih]
      exact this _ _
    rw [this, hoslen, Nat.min_self]
  -- sizes of the parts
  have hcnt : ∀ (i : Nat) (part : Split.Part) (o : List Nat), parts[i]? = some part → os[i]? = some o →
      part.own.cnt = o.length ∧ part.own.first = (List.range' ((os.take i).map List.length).sum o.length).headD 0 ∧
      part.own.shared.Pairwise (· < ·) ∧ (∀ x, x ∈ part.own.shared ↔ NodeIn part.doms x ∧ ¬ part.own.isOwned x = true) := by
    intro i part o hp ho
    obtain ⟨m, o', h1, h2, h3⟩ := (hpi i part).1 hp
    rw [ho] at h2; simp only [Option.some.injEq] at h2; subst h2
    obtain ⟨part', h4, h5, _, h6⟩ := hone i m h1 (List.range' ((os.take i).map List.length).sum o.length)
    rw [h3] at h4; simp only [Option.some.injEq] at h4; subst h4
    have hkm : KeysNodup (mapDoms f m) := by unfold KeysNodup; rw [keys_mapDoms]; exact hk m (List.mem_of_getElem? h1)
    obtain ⟨ow, h7, h8, h9, h10⟩ := C22_explicit_range (mapDoms f m) hkm ((List.range' ((os.take i).map List.length).sum o.length).headD 0) (List.range' ((os.take i).map List.length).sum o.length).length
    rw [h6] at h7; simp only [Option.some.injEq] at h7
    have h11 : part.own.cnt = o.length ∧ part.own.first = (List.range' ((os.take i).map List.length).sum o.length).headD 0 := by
      unfold ownershipRange Own.SegOwn.make at h6
      split at h6
      · simp at h6
      · simp only [Option.some.injEq] at h6
        rw [← h6]; simp
    refine ⟨h11.1, h11.2, by rw [h7]; exact h9, fun x => ?_⟩
    rw [h5]
    rw [h7, h10 x, h8 x]
  have hbefore : ∀ i, i ≤ parts.length → before parts i = ((os.take i).map List.length).sum := by
    intro i hi
    unfold before
    have : (parts.take i).map (fun p => p.own.cnt) = (os.take i).map List.length := by
      apply List.ext_getElem
      · simp [hplen, hoslen]
      · intro j h1 h2
        simp only [List.length_map, List.length_take] at h1 h2
        simp only [List.getElem_map, List.getElem_take]
        exact (hcnt j _ _ (List.getElem?_eq_getElem (by omega)) (List.getElem?_eq_getElem (by omega))).1
    rw [this]
  have howned : ∀ (i : Nat) (part : Split.Part) (o : List Nat), parts[i]? = some part → os[i]? = some o → ∀ y, part.own.isOwned y = true ↔
      before parts i ≤ y ∧ y < before parts i + part.own.cnt := by
    intro i part o hp ho y
    obtain ⟨h1, h2, _⟩ := hcnt i part o hp ho
    have hi := (List.getElem?_eq_some_iff.1 hp).1
    rw [hbefore i (by omega)]
    unfold Own.SegOwn.isOwned
    rw [decide_eq_true_eq, h1, h2]
    cases ho' : o.length with
    | zero => simp
    | succ k => simp [List.range'_succ]
  have hown_iff : ∀ (i : Nat) (part : Split.Part) (q : List Nat × List Nat), parts[i]? = some part → L[i]? = some q → ∀ x ∈ q.1, part.own.isOwned (f x) = true := by
    intro i part q hp hq x hx
    have ho := hosi i q hq
    rw [howned i part q.1 hp ho, hbefore i (by have := (List.getElem?_eq_some_iff.1 hp).1; omega), (hcnt i part q.1 hp ho).1]
    have := idxOf_flatten os hflat i q.1 ho x hx
    have hlt := List.idxOf_lt_length_of_mem hx
    simp only [hf, this]; omega
  have hblock : ∀ (i j : Nat) (p p' : Split.Part) y, parts[i]? = some p → parts[j]? = some p' → p.own.isOwned y = true → p'.own.isOwned y = true → i = j := by
    intro i j p p' y hi hj hy hy'
    have li := (List.getElem?_eq_some_iff.1 hi).1
    have lj := (List.getElem?_eq_some_iff.1 hj).1
    have oi : os[i]? = some os[i] := List.getElem?_eq_getElem (by omega)
    have oj : os[j]? = some os[j] := List.getElem?_eq_getElem (by omega)
    rw [howned i p _ hi oi] at hy
    rw [howned j p' _ hj oj] at hy'
    have mono : ∀ (a b : Nat) (pa : Split.Part), parts[a]? = some pa → a < b → b ≤ parts.length → before parts a + pa.own.cnt ≤ before parts b := by
      intro a b pa ha hab hb
      have la := (List.getElem?_eq_some_iff.1 ha).1
      unfold before
      have h1 := Std.sum_take_succ (parts.map fun p => p.own.cnt) (i := a) (by simpa using la)
      have h2 := Std.sum_take_le (parts.map fun p => p.own.cnt) (i := a + 1) (j := b) hab
      rw [← List.map_take, ← List.map_take] at h1 h2
      have h3 : (parts.map fun p => p.own.cnt)[a]'(by simpa using la) = pa.own.cnt := by
        rw [List.getElem_map, (List.getElem?_eq_some_iff.1 ha).2]
      omega
    rcases Nat.lt_trichotomy i j with hlt | heq | hgt
    · have := mono i j p hi hlt (by omega); omega
    · exact heq
    · have := mono j i p' hj hgt (by omega); omega
  refine ⟨parts, nodeMap os, f, ?_, hplen, hbij, hφ, fun i m part hm hp => ?_, fun y hy => ?_, fun i part hp => ?_, ?_, fun i part hp x y hxy hy ox oy => ?_⟩
  · unfold finish
    rw [hL, Option.bind_some]
    simp only
    rw [hghost, Option.bind_some, hmaps, Option.bind_some, hparts]; rfl
  · obtain ⟨m', o, h1, h2, h3⟩ := (hpi i part).1 hp
    rw [hm] at h1; simp only [Option.some.injEq] at h1; subst h1
    obtain ⟨part', h4, h5, h6, _⟩ := hone i m hm (List.range' ((os.take i).map List.length).sum o.length)
    rw [h3] at h4; simp only [Option.some.injEq] at h4; subst h4
    exact ⟨h5, h6⟩
  · obtain ⟨x, hx, rfl⟩ := hbij.2.2 hy
    obtain ⟨i, q, hq, hxq⟩ := hcov x hx
    have hi : i < parts.length := by rw [hplen, ← hLlen]; exact (List.getElem?_eq_some_iff.1 hq).1
    refine ⟨i, ⟨_, List.getElem?_eq_getElem hi, hown_iff i _ q (List.getElem?_eq_getElem hi) hq x hxq⟩, ?_⟩
    rintro j ⟨p', hj, hy'⟩
    exact hblock j i _ _ _ hj (List.getElem?_eq_getElem hi) hy' (hown_iff i _ q (List.getElem?_eq_getElem hi) hq x hxq)
  · have li := (List.getElem?_eq_some_iff.1 hp).1
    have oi : os[i]? = some os[i] := List.getElem?_eq_getElem (by omega)
    have qi : L[i]? = some (L[i]'(by omega)) := List.getElem?_eq_getElem (by omega)
    have hmi : maps[i]? = some (maps[i]'(by omega)) := List.getElem?_eq_getElem (by omega)
    obtain ⟨m', o', h1, h2, h3⟩ := (hpi i part).1 hp
    rw [hmi] at h1; simp only [Option.some.injEq] at h1; subst h1
    obtain ⟨part', h4, h5, _⟩ := hone i _ hmi (List.range' ((os.take i).map List.length).sum o'.length)
    rw [h3] at h4; simp only [Option.some.injEq] at h4; subst h4
    obtain ⟨c1, c2, c3, c4⟩ := hcnt i part _ hp oi
    obtain ⟨p1, p2, p3⟩ := hpart i _ _ qi hmi
    refine ⟨howned i part _ hp oi, fun y hy => ?_, c3, c4, fun x hx hxn => ?_⟩
    · have hyN : y < N := by
        rw [howned i part _ hp oi, hbefore i (by omega), c1] at hy
        have h1 := Std.sum_take_succ (os.map List.length) (i := i) (by simp; omega)
        have h2 := Std.sum_take_le_sum (os.map List.length) (i + 1)
        rw [List.getElem_map] at h1
        rw [List.map_take] at hy
        have h3 : (os.map List.length).sum = N := by rw [← List.length_flatten]; exact hflen
        omega
      obtain ⟨x, hx, rfl⟩ := hbij.2.2 hyN
      obtain ⟨j, q, hq, hxq⟩ := hcov x hx
      have hj : j < parts.length := by rw [hplen, ← hLlen]; exact (List.getElem?_eq_some_iff.1 hq).1
      have := hblock j i _ _ _ (List.getElem?_eq_getElem hj) hp (hown_iff j _ q (List.getElem?_eq_getElem hj) hq x hxq) hy
      subst this
      have hqe : q = L[j]'(by omega) := by rw [qi] at hq; simpa using hq.symm
      rw [h5, nodeIn_mapDoms]
      exact ⟨x, mem_partNodes.1 (p1 x (hqe ▸ hxq)), rfl⟩
    · have hxN : x < N := (List.getElem?_eq_some_iff.1 hx).1
      rw [h5, nodeIn_mapDoms] at hxn
      obtain ⟨x', hx', hfx⟩ := hxn
      have : x' = x := hbij.2.1 (hnode _ (List.getElem_mem _) x' hx') hxN hfx
      subst this
      exact hown_iff i part _ hp qi _ (p3 _ (mem_partNodes.2 hx') hx)
  · rw [hbefore _ (Nat.le_refl _), List.take_of_length_le (by omega), ← List.length_flatten, hflen]
  · have key : ∀ z, z < N → part.own.isOwned (f z) = true → ∃ q : List Nat × List Nat, L[i]? = some q ∧ z ∈ q.1 := by
      intro z hz oz
      obtain ⟨j, q, hq, hzq⟩ := hcov z hz
      have hj : j < parts.length := by rw [hplen, ← hLlen]; exact (List.getElem?_eq_some_iff.1 hq).1
      obtain rfl := hblock j i _ _ _ (List.getElem?_eq_getElem hj) hp (hown_iff j _ q (List.getElem?_eq_getElem hj) hq z hzq) oz
      exact ⟨q, hq, hzq⟩
    obtain ⟨q, hq, hxq⟩ := key x (by omega) ox
    obtain ⟨q', hq', hyq⟩ := key y hy oy
    obtain rfl : q = q' := Option.some.inj (hq.symm.trans hq')
    have := idxOf_lt (hsort q (List.mem_of_getElem? hq)).1 hxq hyq hxy
    have e1 := idxOf_flatten os hflat i q.1 (hosi i q hq) x hxq
    have e2 := idxOf_flatten os hflat i q.1 (hosi i q hq) y hyq
    simp only [hf]
    omega

end Verif.Partition
