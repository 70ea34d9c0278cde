import Verif.Partition.Elements
import Verif.Partition.Cond

/-! # Property C29 (and the whole of `partitionMeshImpl`): elements of a partitioned mesh -/
namespace Verif.Partition
open Verif Verif.Elem Verif.Mesh Verif.Split

/-- `e` (in domain `k`) has the boundary element `x` as one of its sides. -/
def HasSide (m : DomMap) (x : Element) (k : Nat) (e : Element) : Prop :=
  InDom m k e ∧ e.ty.dim = x.ty.dim + 1 ∧ ∃ s l, sideNodes e s = some l ∧ l.Perm x.nodes

/-- Every boundary element bounds elements of exactly one domain. -/
def OneSided (m : DomMap) (bnds : List Nat) : Prop := ∀ b ∈ bnds, ∀ x, InDom m b x → ∃! k, ∃ e, HasSide m x k e

theorem mem_parentDoms {kinds : List (ElType × Nat)} {m : DomMap} (h : WfMesh kinds m) {x : Element} {k : Nat} :
    k ∈ parentDoms m x ↔ ∃ e, HasSide m x k e := by
  unfold parentDoms
  rw [List.mem_filter]
  constructor
  · rintro ⟨_, h2⟩
    obtain ⟨e, he⟩ := Option.isSome_iff_exists.1 h2
    exact ⟨e, findIn_some he⟩
  · rintro ⟨e, ⟨d, hd, hed⟩, hdim, s, l, hl, hp⟩
    refine ⟨(mem_domainsOfDim h).2 ⟨d, hd, ?_⟩, findIn_of ⟨d, hd, hed⟩ hdim hl hp⟩
    rw [← hdim]; exact (h.dom k d hd).dim e hed

theorem oneSided_iff {kinds : List (ElType × Nat)} {m : DomMap} (h : WfMesh kinds m) (bnds : List Nat) : OneSided m bnds ↔ SingleDomain m bnds := by
  unfold OneSided SingleDomain
  refine forall_congr' fun b => forall_congr' fun _ => forall_congr' fun x => imp_congr Iff.rfl ?_
  have hn : (parentDoms m x).Nodup := (nodup_domainsOfDim h _).filter _
  simp only [← mem_parentDoms h]
  constructor
  · rintro ⟨k, hk, hu⟩
    match hp : parentDoms m x, hn with
    | [], _ => rw [hp] at hk; simp at hk
    | [a], _ => rfl
    | a :: b :: l, hn =>
      have h1 := hu a (by rw [hp]; simp)
      have h2 := hu b (by rw [hp]; simp)
      rw [List.nodup_cons] at hn
      exact absurd (by simp [h1, h2]) hn.1
  · intro hl
    obtain ⟨k, hk⟩ := List.length_eq_one_iff.1 hl
    exact ⟨k, by rw [hk]; simp, fun y hy => by rw [hk] at hy; simpa using hy⟩

/-- The inputs of the partitioner's post-processing: one label per domain element and per node, all
below the number of parts; the element ids sorted; the mesh's nodes are `0 … N-1`. -/
structure Labels (m : DomMap) (bnds : List Nat) (nParts : Nat) (epart npart perm : List Nat) : Prop where
  els : epart.length = (visitIds m (domainIds m bnds)).length
  elsLt : ∀ p ∈ epart, p < nParts
  nodes : ∀ x, NodeIn m x ↔ x < npart.length
  nodesLt : ∀ p ∈ npart, p < nParts
  sorts : Sorts ((visitIds m (domainIds m bnds)).map (·.id)) perm

theorem inDom_mapDoms {f : Nat → Nat} {m : DomMap} {k : Nat} {e : Element} : InDom (mapDoms f m) k e ↔ ∃ e', InDom m k e' ∧ mapEl f e' = e := by
  unfold InDom
  rw [lookup_mapDoms]
  simp only [Option.map_eq_some_iff, Domain.elems]
  constructor
  · rintro ⟨d, ⟨d', hd', rfl⟩, he⟩
    obtain ⟨v, hv, hev⟩ := List.mem_flatten.1 he
    obtain ⟨v', hv', rfl⟩ := List.mem_map.1 hv
    obtain ⟨e', he', rfl⟩ := List.mem_map.1 hev
    exact ⟨e', ⟨d', hd', List.mem_flatten.2 ⟨v', hv', he'⟩⟩, rfl⟩
  · rintro ⟨e', ⟨d', hd', he'⟩, rfl⟩
    obtain ⟨v', hv', he''⟩ := List.mem_flatten.1 he'
    exact ⟨_, ⟨d', hd', rfl⟩, List.mem_flatten.2 ⟨_, List.mem_map.2 ⟨v', hv', rfl⟩, List.mem_map.2 ⟨e', he'', rfl⟩⟩⟩

/-- Full statement of **C29**, for the part of `partitionMeshImpl` after the partitioner. -/
def C29Statement : Prop :=
  ∀ (kinds : List (ElType × Nat)) (m : DomMap) (bnds : List Nat) (D : Nat), MeshOk kinds m bnds D →
    ∀ nParts epart npart perm, Labels m bnds nParts epart npart perm →
    ∀ shuffle ord, (∀ l, (shuffle l).Perm l) → (∀ i k l, (ord i k l).Perm l) →
    (partitionImpl kinds m bnds nParts epart npart perm shuffle ord).isSome = true

/-- **C29** (elements): when every boundary element bounds one domain, partitioning succeeds; up to the
renumbering `f` of the nodes (a bijection of `0 … N-1`), every element of the mesh lies in exactly one
part, in its old domain, parts hold no element twice and nothing else, domain element `j` (in visiting order) is in
part `epart[j]`, every boundary element is accompanied by an element it bounds, and all boundary views
exist in all parts. -/
theorem C29_elements_partial {kinds : List (ElType × Nat)} {m : DomMap} {bnds : List Nat} {D : Nat} (h : MeshOk kinds m bnds D) (hone : OneSided m bnds)
    {nParts : Nat} {epart npart perm : List Nat} (hl : Labels m bnds nParts epart npart perm)
    (shuffle : List (Nat × Nat × Element) → List (Nat × Nat × Element)) (ord : Nat → Nat → List Element → List Element)
    (hshuf : ∀ l, (shuffle l).Perm l) (hord : ∀ i k l, (ord i k l).Perm l) :
    ∃ parts φ f, partitionImpl kinds m bnds nParts epart npart perm shuffle ord = some (parts, φ) ∧ parts.length = nParts ∧
      Set.BijOn f (Set.Iio npart.length) (Set.Iio npart.length) ∧ (∀ x, φ.find x = if x < npart.length then some (f x) else none) ∧
      (∀ k e, InDom m k e → ∃! i : Nat, ∃ part : Part, parts[i]? = some part ∧ InDom part.doms k (mapEl f e)) ∧
      (∀ (i : Nat) (part : Part) k d, parts[i]? = some part → part.doms.lookup k = some d → d.elems.Nodup ∧ ∀ e' ∈ d.elems, ∃ e, InDom m k e ∧ mapEl f e = e') ∧
      (∀ (j : Nat) k e (p : Nat), (tagged m (domainIds m bnds))[j]? = some (k, e) → epart[j]? = some p → ∃ part : Part, parts[p]? = some part ∧ InDom part.doms k (mapEl f e)) ∧
      (∀ (i : Nat) (part : Part), parts[i]? = some part → part.bnds.map (·.1) = bnds ∧
        ∀ b ∈ bnds, ∀ x, InDom part.doms b x → ∃ k e, HasSide part.doms x k e) := by
  obtain ⟨maps, hmaps, hlen, hok, hnd, huniq, hj⟩ := (distribute_spec h nParts epart perm shuffle hl.els hl.elsLt hl.sorts hshuf).2 ((oneSided_iff h.wf bnds).1 hone)
  have hin : ∀ m' ∈ maps, ∀ k e, InDom m' k e → InDom m k e := by
    rintro m' hm' k e ⟨d, hd, he⟩
    obtain ⟨p, hp, rfl⟩ := List.mem_iff_getElem.1 hm'
    exact (hnd p _ k d (List.getElem?_eq_getElem hp) hd).2 e he
  have hholds : ∀ m' ∈ maps, ∀ e, Holds m' e → ∃ k, InDom m k e := by
    intro m' hm' e he
    obtain ⟨k, hk⟩ := (holds_iff_inDom (hok m' hm').1).1 he
    exact ⟨k, hin m' hm' k e hk⟩
  have hno : NodesOk npart maps := by
    refine ⟨fun p hp => by rw [hlen]; exact hl.nodesLt p hp, fun m' hm' x hx => ?_, fun x hx => ?_⟩
    · obtain ⟨e, he, hxe⟩ := mem_partNodes.1 hx
      obtain ⟨k, hk⟩ := hholds m' hm' e he
      exact (hl.nodes x).1 ⟨e, (holds_iff_inDom h.wf).2 ⟨k, hk⟩, hxe⟩
    · obtain ⟨e, he, hxe⟩ := (hl.nodes x).2 hx
      obtain ⟨k, hk⟩ := (holds_iff_inDom h.wf).1 he
      obtain ⟨p, ⟨m', hm', hk'⟩, _⟩ := huniq k e hk
      have hm'' := List.mem_of_getElem? hm'
      exact ⟨m', hm'', mem_partNodes.2 ⟨e, (holds_iff_inDom (hok m' hm'').1).2 ⟨k, hk'⟩, hxe⟩⟩
  obtain ⟨parts, φ, f, hfin, hpl, hbij, hφ, hpd, _⟩ := C28_partition_nodes npart maps bnds ord hno (fun m' hm' => wf_keys (hok m' hm').1)
    (fun m' hm' e he => by
      obtain ⟨k, hk⟩ := hholds m' hm' e he
      exact h.els e ((holds_iff_inDom h.wf).2 ⟨k, hk⟩)) (fun m' hm' => (hok m' hm').2) hord
  have hpm : ∀ (i : Nat) (part : Part), parts[i]? = some part → ∃ m', maps[i]? = some m' ∧ part.doms = mapDoms f m' ∧ part.bnds.map (·.1) = bnds := by
    intro i part hp
    have hi : i < maps.length := by rw [← hpl]; exact (List.getElem?_eq_some_iff.1 hp).1
    exact ⟨maps[i], List.getElem?_eq_getElem hi, hpd i _ part (List.getElem?_eq_getElem hi) hp⟩
  have hmp : ∀ (i : Nat) m', maps[i]? = some m' → ∃ part : Part, parts[i]? = some part ∧ part.doms = mapDoms f m' := by
    intro i m' hm'
    have hi : i < parts.length := by rw [hpl]; exact (List.getElem?_eq_some_iff.1 hm').1
    exact ⟨parts[i], List.getElem?_eq_getElem hi, (hpd i m' _ hm' (List.getElem?_eq_getElem hi)).1⟩
  have hinj : ∀ e e' k k', InDom m k e → InDom m k' e' → mapEl f e = mapEl f e' → e = e' := by
    intro e e' k k' he he' heq
    have hlt : ∀ e k, InDom m k e → ∀ x ∈ e.nodes, x ∈ Set.Iio npart.length := fun e k he x hx =>
      (hl.nodes x).1 ⟨e, (holds_iff_inDom h.wf).2 ⟨k, he⟩, hx⟩
    have hn : e.nodes.map f = e'.nodes.map f := congrArg Element.nodes heq
    have h1 : e.nodes = e'.nodes := by
      have hll : e.nodes.length = e'.nodes.length := by simpa using congrArg List.length hn
      refine List.ext_getElem hll fun i h1 h2 => ?_
      have h3 := List.getElem_of_eq hn (i := i) (by simpa using h1)
      simp only [List.getElem_map] at h3
      exact hbij.2.1 (hlt e k he _ (List.getElem_mem _)) (hlt e' k' he' _ (List.getElem_mem _)) h3
    have h2 : e.ty = e'.ty := (congrArg Element.ty heq :)
    have h3 : e.n = e'.n := (congrArg Element.n heq :)
    have h4 : e.id = e'.id := (congrArg Element.id heq :)
    cases e; cases e'; simp_all
  refine ⟨parts, φ, f, by unfold partitionImpl; rw [hmaps, Option.bind_some, hfin], by rw [hpl, hlen], hbij, hφ, fun k e hke => ?_, fun i part k d hp hd => ?_, fun j k e p hjt hjp => ?_, fun i part hp => ?_⟩
  · obtain ⟨p, ⟨m', hm', hk'⟩, hu⟩ := huniq k e hke
    obtain ⟨part, hpart, hdoms⟩ := hmp p m' hm'
    refine ⟨p, ⟨part, hpart, by rw [hdoms]; exact inDom_mapDoms.2 ⟨e, hk', rfl⟩⟩, ?_⟩
    rintro p' ⟨part', hpart', hin'⟩
    obtain ⟨m'', hm'', hdoms', _⟩ := hpm p' part' hpart'
    rw [hdoms'] at hin'
    obtain ⟨e', he', heq⟩ := inDom_mapDoms.1 hin'
    have := hinj e' e k k (hin m'' (List.mem_of_getElem? hm'') k e' he') hke heq
    subst this
    exact hu p' ⟨m'', hm'', he'⟩
  · obtain ⟨m', hm', hdoms, _⟩ := hpm i part hp
    rw [hdoms, lookup_mapDoms, Option.map_eq_some_iff] at hd
    obtain ⟨d0, hd0, rfl⟩ := hd
    obtain ⟨hn, hall⟩ := hnd i m' k d0 hm' hd0
    have hel : (⟨d0.dim, d0.vecs.map (List.map (mapEl f))⟩ : Domain).elems = d0.elems.map (mapEl f) := by
      simp [Domain.elems, List.map_flatten]
    rw [hel]
    refine ⟨List.Nodup.map_on (fun a ha b hb hab => hinj a b k k (hall a ha) (hall b hb) hab) hn, fun e' he' => ?_⟩
    obtain ⟨e, he, rfl⟩ := List.mem_map.1 he'
    exact ⟨e, hall e he, rfl⟩
  · obtain ⟨m', hm', hk'⟩ := hj j k e p hjt hjp
    obtain ⟨part, hpart, hdoms⟩ := hmp p m' hm'
    exact ⟨part, hpart, by rw [hdoms]; exact inDom_mapDoms.2 ⟨e, hk', rfl⟩⟩
  · obtain ⟨m', hm', hdoms, hb⟩ := hpm i part hp
    refine ⟨hb, fun b hbm x hx => ?_⟩
    rw [hdoms] at hx ⊢
    obtain ⟨x0, ⟨d, hd, hx0⟩, rfl⟩ := inDom_mapDoms.1 hx
    have hm'' := List.mem_of_getElem? hm'
    obtain ⟨e, s, hpar⟩ := ((hok m' hm'').2 b hbm d hd).2.2 x0 hx0
    obtain ⟨⟨k, hk⟩, hdim, l, hsl, hperm⟩ := (isParent_iff (hok m' hm'').1).1 hpar
    have hwe : WfElement e := h.els e ((holds_iff_inDom h.wf).2 ⟨k, hin m' hm'' k e hk⟩)
    exact ⟨k, mapEl f e, inDom_mapDoms.2 ⟨e, hk, rfl⟩, hdim, s, l.map f, by rw [sideNodes_mapEl hwe, hsl]; rfl, hperm.map f⟩

/-- **C29** (success): partitioning a mesh succeeds exactly when every boundary element bounds one domain. -/
theorem C29_success_iff_partial {kinds : List (ElType × Nat)} {m : DomMap} {bnds : List Nat} {D : Nat} (h : MeshOk kinds m bnds D)
    {nParts : Nat} {epart npart perm : List Nat} (hl : Labels m bnds nParts epart npart perm)
    (shuffle : List (Nat × Nat × Element) → List (Nat × Nat × Element)) (ord : Nat → Nat → List Element → List Element)
    (hshuf : ∀ l, (shuffle l).Perm l) (hord : ∀ i k l, (ord i k l).Perm l) :
    (partitionImpl kinds m bnds nParts epart npart perm shuffle ord).isSome = true ↔ OneSided m bnds := by
  constructor
  · intro hs
    by_contra hc
    have := (distribute_spec h nParts epart perm shuffle hl.els hl.elsLt hl.sorts hshuf).1 (fun hh => hc ((oneSided_iff h.wf bnds).2 hh))
    unfold partitionImpl at hs
    rw [this] at hs
    simp at hs
  · intro hone
    obtain ⟨parts, φ, f, heq, _⟩ := C29_elements_partial h hone hl shuffle ord hshuf hord
    rw [heq]; rfl

/-! ## Concrete cases -/

theorem wf_of_all {kinds : List (ElType × Nat)} {m : DomMap} (hk : kinds.Nodup) (hs : OMap.Sorted m)
    (h : ∀ d ∈ m, d.2.vecs.length = kinds.length ∧ (∀ p ∈ d.2.vecs.zip kinds, ∀ e ∈ p.1, e.kind = p.2) ∧ ∀ e ∈ d.2.elems, d.2.dim = some e.ty.dim) :
    WfMesh kinds m := by
  refine ⟨hk, hs, fun k d hd => ?_⟩
  obtain ⟨h1, h2, h3⟩ := h _ (mem_of_lookup hd)
  simp only at h1
  refine ⟨h1, fun i hi e he => ?_, h3⟩
  refine h2 (d.vecs[i], kinds[i]'(by omega)) ?_ e he
  exact List.mem_iff_getElem.2 ⟨i, by simp; omega, by simp⟩

theorem meshOk_of_all {kinds : List (ElType × Nat)} {m : DomMap} {bnds : List Nat} {D : Nat} (hw : WfMesh kinds m)
    (h1 : ∀ d ∈ m, ∀ e ∈ d.2.elems, 1 ≤ e.n ∧ e.n ^ e.ty.dim < 2 ^ 16 ∧ e.nodes.length = e.n ^ e.ty.dim)
    (h2 : ((tagged m (m.map (·.1))).map (·.2.id)).Nodup) (h3 : bnds.Pairwise (· < ·))
    (h4 : ∀ b ∈ bnds, (m.lookup b).any (fun d => d.dim == some D && !d.elems.isEmpty) = true)
    (h5 : ∀ b ∈ bnds, ∀ x ∈ visitIds m [b], 1 ≤ (parentDoms m x).length) : MeshOk kinds m bnds D := by
  refine ⟨hw, fun e he => ?_, h2, h3, fun b hb => ?_, fun b hb d hd x hx => ?_⟩
  · obtain ⟨d, hd, v, hv, hev⟩ := he
    obtain ⟨a1, a2, a3⟩ := h1 d hd e (List.mem_flatten.2 ⟨v, hv, hev⟩)
    exact ⟨a1, a2, a3⟩
  · have := h4 b hb
    rw [Option.any_eq_true] at this
    obtain ⟨d, hd, hd'⟩ := this
    exact ⟨d, hd, by simpa using hd'⟩
  · have h6 := h5 b hb x (mem_visit_single.2 ⟨d, hd, hx⟩)
    obtain ⟨k, hk⟩ := List.exists_mem_of_length_pos h6
    obtain ⟨e, hin, hdim, s, l, hl, hp⟩ := (mem_parentDoms hw).1 hk
    exact ⟨e, s, (isParent_iff hw).2 ⟨⟨k, hin⟩, hdim, l, hl, hp⟩⟩

theorem nodes_of_all {m : DomMap} {N : Nat} (h1 : ∀ d ∈ m, ∀ v ∈ d.2.vecs, ∀ e ∈ v, ∀ x ∈ e.nodes, x < N)
    (h2 : ∀ x ∈ List.range N, ∃ d ∈ m, ∃ v ∈ d.2.vecs, ∃ e ∈ v, x ∈ e.nodes) (x : Nat) : NodeIn m x ↔ x < N := by
  constructor
  · rintro ⟨e, ⟨d, hd, v, hv, he⟩, hx⟩; exact h1 d hd v hv e he x hx
  · intro hx
    obtain ⟨d, hd, v, hv, e, he, hxe⟩ := h2 x (List.mem_range.2 hx)
    exact ⟨e, ⟨d, hd, v, hv, he⟩, hxe⟩

theorem oneSided_of_all {kinds : List (ElType × Nat)} {m : DomMap} {bnds : List Nat} (hw : WfMesh kinds m)
    (h : ∀ b ∈ bnds, ∀ x ∈ visitIds m [b], (parentDoms m x).length = 1) : OneSided m bnds :=
  (oneSided_iff hw bnds).2 fun b hb x hx => h b hb x (mem_visit_single.2 hx)

theorem twoQuads_meshOk : MeshOk lineKinds twoQuads.doms [7] 1 :=
  meshOk_of_all (wf_of_all (by decide) (by simp [OMap.Sorted, twoQuads]) (by decide)) (by decide) (by decide) (by decide)
    (by decide) (by decide +kernel)

/-- The hypotheses of the theorems hold for two quadrilaterals sent to two parts, with the middle nodes
labelled 1. -/
example : MeshOk lineKinds twoQuads.doms [7] 1 ∧ OneSided twoQuads.doms [7] ∧ Labels twoQuads.doms [7] 2 [1, 0] [1, 0, 0, 1, 0, 0] [0, 1] :=
  ⟨twoQuads_meshOk, oneSided_of_all twoQuads_meshOk.wf (by decide +kernel),
    by decide, by decide, fun x => nodes_of_all (N := 6) (by decide) (by decide) x, by decide, ⟨by decide, by decide⟩⟩

/-- Hypotheses of `C28_partition_nodes`, on the same two parts. -/
def twoParts : List DomMap :=
  [[(0, ⟨some 2, [[], [⟨.quad, 2, 1, [1, 2, 4, 5]⟩], []]⟩), (7, ⟨some 1, [[], [], [⟨.line, 2, 3, [2, 5]⟩]]⟩)],
   [(0, ⟨some 2, [[], [⟨.quad, 2, 0, [0, 1, 3, 4]⟩], []]⟩), (7, ⟨some 1, [[], [], [⟨.line, 2, 2, [0, 3]⟩]]⟩)]]

/-- The elements of the two quadrilaterals above are indeed distributed this way. -/
example : distribute lineKinds twoQuads.doms [7] 2 [1, 0] [0, 1] id = some twoParts := by decide +kernel

example : NodesOk [1, 0, 0, 1, 0, 0] twoParts ∧ (∀ m ∈ twoParts, KeysNodup m) := by
  refine ⟨⟨by decide, by decide, ?_⟩, by decide⟩
  intro x hx
  have : ∀ x ∈ List.range 6, ∃ m ∈ twoParts, x ∈ partNodes m := by decide
  exact this x (List.mem_range.2 hx)

/-- Two quadrilaterals in *different* domains, the edge between them being a boundary. -/
def interface : DomMap :=
  [(0, ⟨some 2, [[], [⟨.quad, 2, 0, [0, 1, 3, 4]⟩], []]⟩), (1, ⟨some 2, [[], [⟨.quad, 2, 1, [1, 2, 4, 5]⟩], []]⟩),
   (7, ⟨some 1, [[], [], [⟨.line, 2, 2, [1, 4]⟩]]⟩)]

/-- **C29** fails for a boundary between two domains: the element is entered once per domain, and the
count check at the end of the assignment throws. -/
theorem C29_interface_violated : ¬ C29Statement := fun h => by
  have hw : WfMesh lineKinds interface := wf_of_all (by decide) (by simp [OMap.Sorted, interface]) (by decide)
  have hm : MeshOk lineKinds interface [7] 1 := meshOk_of_all hw (by decide) (by decide) (by decide)
    (by decide) (by decide +kernel)
  have hl : Labels interface [7] 2 [0, 1] [0, 0, 1, 0, 0, 1] [0, 1] :=
    ⟨by decide, by decide, fun x => nodes_of_all (N := 6) (by decide) (by decide) x, by decide, ⟨by decide, by decide⟩⟩
  have := h _ _ _ _ hm _ _ _ _ hl id (fun _ _ => id) (fun _ => List.Perm.refl _) (fun _ _ _ => List.Perm.refl _)
  rw [C29_success_iff_partial hm hl id (fun _ _ => id) (fun _ => List.Perm.refl _) (fun _ _ _ => List.Perm.refl _), oneSided_iff hw] at this
  have h2 := this 7 (by simp) ⟨.line, 2, 2, [1, 4]⟩ ⟨_, rfl, by decide⟩
  revert h2
  decide +kernel

end Verif.Partition
