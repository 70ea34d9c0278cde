import Verif.Lookup.Lemmas

/-! Elements looked up by id in the parts of a distributed mesh. -/

namespace Verif.Lookup

open Verif Verif.Elem Verif.Mesh Verif.Split Verif.Partition Verif.Pipeline

/-- In every domain which is not a boundary, every vector of elements (one per element type and order) lists increasing ids, which fit 64 bits. (what `findImpl` relies on, MeshPartition.hpp 229-250) -/
def SortedIds (m : DomMap) (bnds : List Nat) : Prop :=
  ∀ k d, k ∉ bnds → m.lookup k = some d → ∀ v ∈ d.vecs, (v.map (·.id)).Pairwise (· < ·) ∧ ∀ e ∈ v, e.id < 2 ^ 64

/-- No id of an element of another domain lies between the ids of two elements of a boundary. (Boundary elements are inserted in any order, PartitionMesh.hpp 287-319) -/
def Apart (m : DomMap) (bnds : List Nat) : Prop :=
  ∀ b ∈ bnds, ∀ k, k ∉ bnds → ∀ x y e, InDom m b x → InDom m b y → InDom m k e → ¬ (x.id ≤ e.id ∧ e.id ≤ y.id)

/-- What matters of the elements of a part for the lookup. -/
structure Good (m : DomMap) (bnds : List Nat) (doms : DomMap) : Prop where
  keys : KeysNodup doms
  sorted : SortedIds doms bnds
  from_ : ∀ k e, InDom doms k e → ∃ e0, InDom m k e0 ∧ e0.id = e.id
  inj : ∀ k k' e e', InDom doms k e → InDom doms k' e' → e.id = e'.id → k = k' ∧ e = e'

theorem mapEl_id (f : Nat → Nat) (e : Element) : (mapEl f e).id = e.id := rfl

theorem Good.map {m : DomMap} {bnds : List Nat} {doms : DomMap} (h : Good m bnds doms) (f : Nat → Nat) : Good m bnds (mapDoms f doms) := by
  refine ⟨?_, fun k d hk hd v hv => ?_, fun k e he => ?_, fun k k' e e' he he' hid => ?_⟩
  · have := h.keys
    unfold KeysNodup mapDoms at *
    rwa [List.map_map]
  · rw [lookup_mapDoms] at hd
    obtain ⟨d0, hd0, rfl⟩ := Option.map_eq_some_iff.1 hd
    obtain ⟨v0, hv0, rfl⟩ := List.mem_map.1 hv
    obtain ⟨h1, h2⟩ := h.sorted k d0 hk hd0 v0 hv0
    refine ⟨?_, fun e he => ?_⟩
    · rw [List.map_map]; exact h1
    · obtain ⟨e0, he0, rfl⟩ := List.mem_map.1 he
      exact h2 e0 he0
  · obtain ⟨e0, he0, rfl⟩ := inDom_mapDoms.1 he
    exact h.from_ k e0 he0
  · obtain ⟨e0, he0, rfl⟩ := inDom_mapDoms.1 he
    obtain ⟨e1, he1, rfl⟩ := inDom_mapDoms.1 he'
    obtain ⟨rfl, rfl⟩ := h.inj k k' e0 e1 he0 he1 hid
    exact ⟨rfl, rfl⟩

theorem id_inj {kinds : List (ElType × Nat)} {m : DomMap} {bnds : List Nat} {D : Nat} (h : MeshOk kinds m bnds D) {k k' : Nat} {e e' : Element}
    (he : InDom m k e) (he' : InDom m k' e') (hid : e.id = e'.id) : k = k' ∧ e = e' := by
  have hmem : ∀ k e, InDom m k e → (k, e) ∈ tagged m (m.map (·.1)) := fun k e hk =>
    mem_tagged.2 ⟨let ⟨_, hd, _⟩ := hk; List.mem_map.2 ⟨_, mem_of_lookup hd, rfl⟩, hk⟩
  have := List.inj_on_of_nodup_map h.ids (hmem k e he) (hmem k' e' he') hid
  exact Prod.mk.inj this

/-- Vectors which are parts of the sequence of all elements of a domain inherit the order of its vectors. -/
theorem sorted_sublist {kinds : List (ElType × Nat)} {d : Domain} (hn : kinds.Nodup) (hw : WfDomain kinds d) (hs : ∀ v ∈ d.vecs, (v.map (·.id)).Pairwise (· < ·))
    {v : List Element} (hv : v.Sublist d.elems) {kd : ElType × Nat} (hk : ∀ e ∈ v, e.kind = kd) : (v.map (·.id)).Pairwise (· < ·) := by
  have h1 : d.elems.Pairwise fun a b => a.kind = b.kind → a.id < b.id := by
    unfold Domain.elems
    rw [List.pairwise_flatten]
    refine ⟨fun l hl => ?_, ?_⟩
    · exact (List.pairwise_map.1 (hs l hl)).imp (S := fun a b : Element => a.kind = b.kind → a.id < b.id) fun hab _ => hab
    · rw [List.pairwise_iff_getElem]
      intro i j hi hj hij x hx y hy hxy
      rw [hw.kind i hi x hx, hw.kind j hj y hy] at hxy
      have := (List.Nodup.getElem_inj_iff hn).1 hxy
      omega
  rw [List.pairwise_map]
  have h2 := h1.sublist hv
  exact h2.imp_of_mem fun ha hb h => h ((hk _ ha).trans (hk _ hb).symm)

theorem parts_good {kinds : List (ElType × Nat)} {m : DomMap} {bnds : List Nat} {D : Nat} (h : MeshOk kinds m bnds D) (hone : OneSided m bnds) (hs : SortedIds m bnds)
    {nParts : Nat} {epart npart perm : List Nat} (hl : Labels m bnds nParts epart npart perm)
    {shuffle : List (Nat × Nat × Element) → List (Nat × Nat × Element)} {ord : Nat → Nat → List Element → List Element}
    (hshuf : ∀ l, (shuffle l).Perm l) (hord : ∀ i k l, (ord i k l).Perm l) {parts : List Part} {φ : Algo.AMap Nat Nat}
    (hp : partitionImpl kinds m bnds nParts epart npart perm shuffle ord = some (parts, φ)) : ∀ p ∈ parts, Good m bnds p.doms := by
  obtain ⟨parts', φ', f, maps, h1, _, R, hw, _, _, _, hdist⟩ := partition_more h hone hl shuffle ord hshuf hord
  rw [h1] at hp
  obtain ⟨rfl, rfl⟩ := Prod.mk.inj (Option.some.inj hp)
  intro p hp
  obtain ⟨i, hi⟩ := List.getElem?_of_mem hp
  have hil : i < maps.length := by rw [R.len, ← R.plen]; exact (List.getElem?_eq_some_iff.1 hi).1
  have hmi : maps[i]? = some maps[i] := List.getElem?_eq_getElem hil
  have hmm : maps[i] ∈ maps := List.getElem_mem _
  rw [R.doms i _ p hmi hi]
  have hfrom : ∀ k e, InDom maps[i] k e → InDom m k e := fun k e ⟨d, hd, he⟩ => (R.nodup i _ k d hmi hd).2 e he
  refine Good.map ⟨R.wf _ hmm, fun k d hk hd v hv => ?_, fun k e he => ⟨e, hfrom k e he, rfl⟩,
    fun k k' e e' he he' hid => id_inj h (hfrom k e he) (hfrom k' e' he') hid⟩ f
  have hsub := distribute_order (wf_keys h.wf) hshuf hdist _ hmm k d hk hd v hv
  cases hm : m.lookup k with
  | none =>
    rw [hm] at hsub
    have : v = [] := List.sublist_nil.1 hsub
    subst this
    simp
  | some d0 =>
    rw [hm] at hsub
    simp only [Option.map_some, Option.getD_some] at hsub
    obtain ⟨j, hj, rfl⟩ := List.mem_iff_getElem.1 hv
    refine ⟨sorted_sublist h.wf.nodup (h.wf.dom k d0 hm) (fun w hw => (hs k d0 hk hm w hw).1) hsub (((hw _ hmm).dom k d hd).kind j hj), fun e he => ?_⟩
    obtain ⟨w, hw, hew⟩ := List.mem_flatten.1 (hsub.subset he)
    exact (hs k d0 hk hm w hw).2 e hew

theorem outcome_good {Q : List Part → List Nat → Prop} {kinds : List (ElType × Nat)} {m : DomMap} {bnds : List Nat} {D : Nat} (h : MeshOk kinds m bnds D) (hone : OneSided m bnds)
    (hs : SortedIds m bnds) {nParts : Nat} {parts : List Part} {f : Nat → Nat} (ho : Outcome Q kinds m bnds nParts parts f) : ∀ p ∈ parts, Good m bnds p.doms := by
  induction ho with
  | whole N hN views =>
    intro p hp
    rw [List.mem_singleton] at hp
    subst hp
    exact ⟨wf_keys h.wf, hs, fun k e he => ⟨e, he, rfl⟩, fun k k' e e' he he' hid => id_inj h he he' hid⟩
  | parts nParts epart npart perm hl shuffle ord hshuf hord parts φ hp => exact parts_good h hone hs hl hshuf hord hp
  | reordered nParts parts f _ src hsrc hQ parts' h' ih =>
    intro p hp
    unfold reorder at h'
    obtain ⟨q, hq, hre⟩ := mapM_mem' h' p hp
    unfold reindexed at hre
    obtain ⟨o, ho, rfl⟩ := Option.map_eq_some_iff.1 hre
    refine Good.map ?_ _
    unfold part
    cases hx : parts[q]? with
    | none =>
      refine ⟨List.nodup_nil, fun _ _ _ hd => ?_, fun _ _ ⟨_, hd, _⟩ => ?_, fun _ _ _ _ ⟨_, hd, _⟩ => ?_⟩ <;> simp at hd
    | some p0 => exact ih p0 (List.mem_of_getElem? hx)

/-- The lookup in a part. -/
theorem find_good {m : DomMap} {bnds : List Nat} {doms : DomMap} (hg : Good m bnds doms) (ha : Apart m bnds) {k0 : Nat} {e0 : Element} (hk0 : k0 ∉ bnds) (he0 : InDom m k0 e0) :
    (∀ e, findId doms e0.id = some e → e.id = e0.id ∧ ∃ k, k ∉ bnds ∧ InDom doms k e) ∧
    (findId doms e0.id = none → ∀ k e, InDom doms k e → k ∉ bnds → e.id ≠ e0.id) := by
  have hvec : ∀ d ∈ doms, ∀ v ∈ d.2.vecs, (∀ e, findInVec e0.id v = some e → e ∈ v ∧ e.id = e0.id ∧ d.1 ∉ bnds) ∧
      (findInVec e0.id v = none → d.1 ∉ bnds → ∀ e ∈ v, e.id ≠ e0.id) := by
    intro d hd v hv
    have hlook := lookup_of_mem hg.keys hd
    by_cases hb : d.1 ∈ bnds
    · have hin : ∀ x ∈ v, ∃ x0, InDom m d.1 x0 ∧ x0.id = x.id := fun x hx => hg.from_ d.1 x ⟨d.2, hlook, List.mem_flatten.2 ⟨v, hv, hx⟩⟩
      refine ⟨fun e he => ?_, fun _ hc => absurd hb hc⟩
      exfalso
      unfold findInVec at he
      split at he
      · rename_i a b ha1 hb1
        obtain ⟨x, hx, hxi⟩ := hin a (List.mem_of_head? ha1)
        obtain ⟨y, hy, hyi⟩ := hin b (List.mem_of_getLast? hb1)
        have := ha d.1 hb k0 hk0 x y e0 hx hy he0
        rw [if_pos (by omega)] at he
        simp at he
      · simp at he
    · obtain ⟨h1, h2⟩ := hg.sorted d.1 d.2 hb hlook v hv
      obtain ⟨h3, h4⟩ := findInVec_spec h1 h2 e0.id
      exact ⟨fun e he => ⟨(h3 e he).1, (h3 e he).2, hb⟩, fun hn _ => h4.1 hn⟩
  unfold findId
  constructor
  · intro e he
    obtain ⟨d, hd, he⟩ := List.exists_of_findSome?_eq_some he
    obtain ⟨v, hv, he⟩ := List.exists_of_findSome?_eq_some he
    obtain ⟨h1, h2, h3⟩ := (hvec d hd v hv).1 e he
    exact ⟨h2, d.1, h3, d.2, lookup_of_mem hg.keys hd, List.mem_flatten.2 ⟨v, hv, h1⟩⟩
  · intro hn k e ⟨d, hd, hed⟩ hk
    rw [List.findSome?_eq_none_iff] at hn
    have h1 := hn _ (mem_of_lookup hd)
    rw [List.findSome?_eq_none_iff] at h1
    obtain ⟨v, hv, hev⟩ := List.mem_flatten.1 hed
    exact (hvec _ (mem_of_lookup hd) v hv).2 (h1 v hv) hk e hev

theorem findInVec_map (f : Nat → Nat) (id : Nat) (v : List Element) : findInVec id (v.map (mapEl f)) = (findInVec id v).map (mapEl f) := by
  unfold findInVec
  rw [List.head?_map, List.getLast?_map]
  cases h1 : v.head? with
  | none => simp
  | some a =>
    cases h2 : v.getLast? with
    | none => simp
    | some b =>
      simp only [Option.map_some, mapEl_id, List.length_map, List.getElem?_map, List.map_map]
      have : ((fun x : Element => x.id) ∘ mapEl f) = fun x => x.id := rfl
      rw [this]
      split
      · rfl
      · split
        · rfl
        · cases v[List.findIdx (fun x => !decide (x < id)) (v.map fun x => x.id)]? with
          | none => rfl
          | some e =>
            simp only [Option.map_some, mapEl_id]
            by_cases hid : e.id = id <;> simp [hid]

theorem findSome?_map' {α β γ : Type} (g : α → β) (F : β → Option γ) (G : α → Option γ) (t : γ → γ) (h : ∀ a, F (g a) = (G a).map t) (l : List α) :
    (l.map g).findSome? F = (l.findSome? G).map t := by
  induction l with
  | nil => rfl
  | cons a l ih =>
    rw [List.map_cons, List.findSome?_cons, List.findSome?_cons, h]
    cases G a with
    | none => exact ih
    | some x => rfl

/-- Ids do not change when nodes are renumbered. -/
theorem findId_mapDoms (f : Nat → Nat) (m : DomMap) (id : Nat) : findId (mapDoms f m) id = (findId m id).map (mapEl f) := by
  unfold findId mapDoms
  refine findSome?_map' _ _ _ _ (fun d => ?_) m
  exact findSome?_map' _ _ _ _ (fun v => findInVec_map f id v) _

end Verif.Lookup
