import Verif.DimCheck.Model
import Verif.Pipeline.Props

/-!
# C120: a kernel is applied to every element of its domains, or the call throws
-/
namespace Verif.DimCheck
open Verif Verif.Elem Verif.Mesh Verif.Partition Verif.Pipeline Verif.Split

theorem checkDim_iff {m : DomMap} {ids : List Nat} {dim : Nat} :
    checkDim m ids dim = true ↔ ∀ k ∈ ids, ∀ d, m.lookup k = some d → d.dim = some dim := by
  unfold checkDim
  rw [List.all_eq_true]
  refine forall₂_congr fun k _ => ?_
  unfold checkOne
  cases h : m.lookup k with
  | none => simp
  | some d => simp

/-- **C120** on one mesh: if assembly does not throw, the kernel was applied to all elements of the listed domains, in the order of visiting, and so are
matrix-free evaluation and integration. If it throws, one of the listed domains has elements of another dimension, or no elements. -/
theorem C120_all_or_throw {kinds : List (ElType × Nat)} {m : DomMap} (h : WfMesh kinds m) (ids : List Nat) (dim : Nat) :
    (∀ es, assemble m ids dim = some es → es = visitIds m ids ∧ applied m ids dim = visitIds m ids) ∧
    (assemble m ids dim = none → ∃ k ∈ ids, ∃ d, m.lookup k = some d ∧ ∀ e ∈ d.elems, e.ty.dim ≠ dim) ∧
    ((∃ k ∈ ids, ∃ e, InDom m k e ∧ e.ty.dim ≠ dim) → assemble m ids dim = none) := by
  refine ⟨fun es he => ?_, fun he => ?_, ?_⟩
  · unfold assemble at he
    by_cases hc : checkDim m ids dim = true
    · rw [if_pos hc, Option.some.injEq] at he
      have : applied m ids dim = visitIds m ids := by
        unfold applied
        rw [List.filter_eq_self]
        intro e hin
        obtain ⟨k, hk, d, hd, hed⟩ := mem_visitIds.1 hin
        have h1 := checkDim_iff.1 hc k hk d hd
        have h2 := (h.dom k d hd).dim e hed
        rw [h1, Option.some.injEq] at h2
        exact decide_eq_true h2
      exact ⟨he ▸ this, this⟩
    · rw [if_neg hc] at he; exact absurd he (by simp)
  · unfold assemble at he
    by_cases hc : checkDim m ids dim = true
    · rw [if_pos hc] at he; exact absurd he (by simp)
    · rw [checkDim_iff] at hc
      simp only [not_forall] at hc
      obtain ⟨k, hk, d, hd, hne⟩ := hc
      refine ⟨k, hk, d, hd, fun e hed heq => hne ?_⟩
      rw [(h.dom k d hd).dim e hed, heq]
  · rintro ⟨k, hk, e, ⟨d, hd, hed⟩, hne⟩
    unfold assemble
    rw [if_neg]
    intro hc
    have h1 := checkDim_iff.1 hc k hk d hd
    rw [(h.dom k d hd).dim e hed, Option.some.injEq] at h1
    exact hne h1

example : assemble exLines [1, 7] 1 = some [⟨.line, 2, 0, [0, 1]⟩, ⟨.line, 2, 2, [1, 4]⟩] ∧ assemble exLines [1, 7] 2 = none := by decide

/-- **C120** for boundaries: if assembly does not throw, the kernel was applied to the parent of every boundary element which has one (C23: construction
of the mesh throws if one does not). -/
theorem C120_boundary {kinds : List (ElType × Nat)} {m : DomMap} (h : WfMesh kinds m) (ids : List Nat) (dim : Nat) (hdim : 0 < dim)
    (vs : List (Element × Nat)) (hv : assembleBnd m ids dim = some vs) :
    vs = (visitIds m ids).filterMap (viewOf m) ∧
    ∀ k ∈ ids, ∀ b, InDom m k b → (∃ e s, IsParent m b e s) → ∃ e s, (e, s) ∈ vs ∧ IsParent m b e s ∧ e.ty.dim = dim := by
  have hkeys : KeysNodup m := Split.wf_keys h
  unfold assembleBnd at hv
  by_cases hc : checkDim m ids (dim - 1) = true
  swap
  · rw [if_neg hc] at hv; exact absurd hv (by simp)
  rw [if_pos hc, Option.some.injEq] at hv
  have hpar : ∀ b ∈ visitIds m ids, ∀ v, viewOf m b = some v → v.1.ty.dim = dim := by
    intro b hb v hvw
    obtain ⟨k, hk, d, hd, hbd⟩ := mem_visitIds.1 hb
    have h1 := checkDim_iff.1 hc k hk d hd
    rw [(h.dom k d hd).dim b hbd, Option.some.injEq] at h1
    obtain ⟨⟨d', hd', hdd, w, hw, hew⟩, _⟩ := viewOf_some hkeys (e := v.1) (s := v.2) hvw
    have h2 := mesh_dims h d' hd' v.1 (List.mem_flatten.2 ⟨w, hw, hew⟩)
    rw [hdd, Option.some.injEq] at h2
    omega
  have heq : appliedBnd m ids dim = (visitIds m ids).filterMap (viewOf m) := by
    unfold appliedBnd
    rw [List.filter_eq_self]
    intro v hin
    obtain ⟨b, hb, hbv⟩ := List.mem_filterMap.1 hin
    exact decide_eq_true (hpar b hb v hbv).symm
  refine ⟨hv ▸ heq, fun k hk b hb hp => ?_⟩
  have hbv : b ∈ visitIds m ids := mem_visitIds.2 ⟨k, hk, hb⟩
  cases hvw : viewOf m b with
  | none => exact absurd hp ((viewOf_none hkeys).1 hvw)
  | some v =>
    refine ⟨v.1, v.2, ?_, viewOf_some hkeys hvw, hpar b hbv v hvw⟩
    rw [← hv, heq]
    exact List.mem_filterMap.2 ⟨b, hbv, hvw⟩

/-- A square with one of its sides as boundary 3. -/
def exSide : DomMap := [(1, ⟨some 2, [[], [⟨.quad, 2, 0, [0, 1, 2, 3]⟩], []]⟩), (3, ⟨some 1, [[], [], [⟨.line, 2, 1, [2, 0]⟩]]⟩)]

example : WfMesh lineKinds exSide ∧ (assembleBnd exSide [3] 2).isSome ∧ assembleBnd exSide [3] 1 = none ∧ assembleBnd exSide [1] 2 = none ∧
    ∃ e s, IsParent exSide ⟨.line, 2, 1, [2, 0]⟩ e s := by
  refine ⟨wf_of_all (by decide) (by simp [OMap.Sorted, exSide]) (by decide), by decide, by decide, by decide, ⟨.quad, 2, 0, [0, 1, 2, 3]⟩, 2, ?_⟩
  refine ⟨⟨_, List.mem_cons_self, rfl, _, List.mem_cons_of_mem _ List.mem_cons_self, List.mem_cons_self⟩, [0, 2], by decide +kernel, by decide⟩

theorem map_injOn {f : Nat → Nat} {N : Nat} {l l' : List Nat} (h : ∀ y ∈ l, y < N) (h' : ∀ y ∈ l', y < N) (hf : Set.InjOn f (Set.Iio N))
    (he : l.map f = l'.map f) : l = l' := by
  induction l generalizing l' with
  | nil => exact (List.map_eq_nil_iff.1 he.symm).symm
  | cons a l ih =>
    cases l' with
    | nil => exact absurd he (by simp)
    | cons b l' =>
      rw [List.map_cons, List.map_cons, List.cons.injEq] at he
      rw [hf (h a (by simp)) (h' b (by simp)) he.1, ih (fun y hy => h y (by simp [hy])) (fun y hy => h' y (by simp [hy])) he.2]

/-- **C120** on a distributed mesh: if no rank throws, every element of the listed domains is of the dimension of the kernel and is processed by exactly one rank
(under the numbers `f` distribution gives to nodes). -/
theorem C120_distributed {kinds : List (ElType × Nat)} {m : DomMap} {bnds : List Nat} {D : Nat} (h : MeshOk kinds m bnds D) (hone : OneSided m bnds)
    {nParts : Nat} {parts : List Split.Part} {f : Nat → Nat} (ho : Outcome Monotone kinds m bnds nParts parts f) (ids : List Nat) (dim : Nat)
    (hall : ∀ p ∈ parts, (assemble p.doms ids dim).isSome) :
    ∀ k ∈ ids, ∀ e, InDom m k e → e.ty.dim = dim ∧
      ∃! i : Nat, ∃ p es, parts[i]? = some p ∧ assemble p.doms [k] dim = some es ∧ mapEl f e ∈ es := by
  obtain ⟨N, maps, R⟩ := outcome_result h hone ho
  intro k hk e hin
  obtain ⟨i, ⟨m', hm', hi⟩, hu⟩ := R.uniq k e hin
  have hilt : i < parts.length := by rw [R.plen, ← R.len]; exact (List.getElem?_eq_some_iff.1 hm').1
  have hp : parts[i]? = some parts[i] := List.getElem?_eq_getElem hilt
  have hdoms := R.doms i m' _ hm' hp
  have hok : ∀ p ∈ parts, assemble p.doms [k] dim = some (applied p.doms [k] dim) := by
    intro p hpm
    have := hall p hpm
    unfold assemble at this ⊢
    rw [if_pos]
    by_cases hc : checkDim p.doms ids dim = true
    · rw [checkDim_iff] at hc ⊢
      intro k' hk'
      rw [List.mem_singleton.1 hk']
      exact hc k hk
    · rw [if_neg hc] at this; exact absurd this (by simp)
  have hdim : e.ty.dim = dim := by
    obtain ⟨d, hd, hed⟩ := hi
    have h1 := hall _ (List.getElem_mem hilt)
    unfold assemble at h1
    by_cases hc : checkDim (parts[i]).doms ids dim = true
    · have h2 := checkDim_iff.1 hc k hk ⟨d.dim, d.vecs.map (List.map (mapEl f))⟩ (by rw [hdoms, lookup_mapDoms, hd]; rfl)
      have h3 := R.dims m' (List.mem_of_getElem? hm') (k, d) (Mesh.mem_of_lookup hd) e hed
      simp only at h2 h3
      rw [h2, Option.some.injEq] at h3
      exact h3.symm
    · rw [if_neg hc] at h1; exact absurd h1 (by simp)
  refine ⟨hdim, i, ⟨parts[i], _, hp, hok _ (List.getElem_mem hilt), ?_⟩, ?_⟩
  · refine List.mem_filter.2 ⟨mem_visitIds.2 ⟨k, List.mem_singleton.2 rfl, ?_⟩, decide_eq_true hdim.symm⟩
    rw [hdoms]
    exact inDom_mapDoms.2 ⟨e, hi, rfl⟩
  · rintro j ⟨p, es, hj, hes, hmem⟩
    have hpm := List.mem_of_getElem? hj
    rw [hok p hpm, Option.some.injEq] at hes
    subst hes
    obtain ⟨k', hk', hin'⟩ := mem_visitIds.1 (List.mem_filter.1 hmem).1
    rw [List.mem_singleton.1 hk'] at hin'
    have hjlt : j < maps.length := by rw [R.len, ← R.plen]; exact (List.getElem?_eq_some_iff.1 hj).1
    have hmj : maps[j]? = some maps[j] := List.getElem?_eq_getElem hjlt
    rw [R.doms j _ p hmj hj] at hin'
    obtain ⟨e', he', heq⟩ := inDom_mapDoms.1 hin'
    have hm' : InDom m k e' := by
      obtain ⟨d, hd, hed⟩ := he'
      exact (R.nodup j _ k d hmj hd).2 e' hed
    have hlt : ∀ x : Element, InDom m k x → ∀ y ∈ x.nodes, y < N := by
      rintro x ⟨d, hd, hxd⟩ y hy
      obtain ⟨v, hv, hxv⟩ := List.mem_flatten.1 hxd
      exact (R.nodes y).1 ⟨x, ⟨(k, d), Mesh.mem_of_lookup hd, v, hv, hxv⟩, hy⟩
    have hee : e' = e := by
      have hn : e'.nodes.map f = e.nodes.map f := congrArg Element.nodes heq
      have hinj : e'.nodes = e.nodes := by
        exact map_injOn (fun y hy => hlt _ hm' y hy) (fun y hy => hlt _ hin y hy) R.bij.injOn hn
      have h1 : e'.ty = e.ty := (congrArg Element.ty heq : (mapEl f e').ty = (mapEl f e).ty)
      have h2 : e'.n = e.n := (congrArg Element.n heq : (mapEl f e').n = (mapEl f e).n)
      have h3 : e'.id = e.id := (congrArg Element.id heq : (mapEl f e').id = (mapEl f e).id)
      cases e'; cases e
      simp_all
    exact hu j ⟨_, hmj, hee ▸ he'⟩

example : (∀ p ∈ exParts, (assemble p.doms [1] 1).isSome) ∧ exParts.map (fun p => (assemble p.doms [1] 1).map List.length) = [some 1, some 0, some 1] := by
  decide

/-- **C120**: if a kernel is given a domain with elements of another dimension, at least one rank throws. -/
theorem C120_some_rank_throws {kinds : List (ElType × Nat)} {m : DomMap} {bnds : List Nat} {D : Nat} (h : MeshOk kinds m bnds D) (hone : OneSided m bnds)
    {nParts : Nat} {parts : List Split.Part} {f : Nat → Nat} (ho : Outcome Monotone kinds m bnds nParts parts f) (ids : List Nat) (dim : Nat)
    {k : Nat} (hk : k ∈ ids) {e : Element} (he : InDom m k e) (hne : e.ty.dim ≠ dim) : ∃ p ∈ parts, assemble p.doms ids dim = none := by
  by_contra hno
  simp only [not_exists, not_and] at hno
  exact hne (C120_distributed h hone ho ids dim (fun p hp => Option.isSome_iff_ne_none.2 (hno p hp)) k hk e he).1

example : exParts.map (fun p => (assemble p.doms [1] 2).isSome) = [false, true, false] := by decide

/-- The part of C120 about agreement: all ranks give the same verdict. -/
def C120AgreeStatement : Prop :=
  ∀ (kinds : List (ElType × Nat)) (m : DomMap) (bnds : List Nat) (D : Nat), MeshOk kinds m bnds D → OneSided m bnds →
    ∀ (nParts : Nat) (parts : List Split.Part) (f : Nat → Nat), Outcome NoReorder kinds m bnds nParts parts f →
      ∀ (ids : List Nat) (dim : Nat), ∀ p ∈ parts, ∀ q ∈ parts, (assemble p.doms ids dim).isSome = (assemble q.doms ids dim).isSome

/-- **C120**: ranks do not agree: one which has no element of the domain goes on (into the collective operations which follow) while the others throw. -/
theorem C120_agreement_violated : ¬ C120AgreeStatement := by
  intro h
  obtain ⟨f, ho⟩ := ex_outcome NoReorder
  have := h lineKinds exLines [] 0 exLines_ok (fun b hb => absurd hb List.not_mem_nil) 3 exParts f ho [1] 2 exParts[0] (by decide) exParts[1] (by decide)
  revert this
  decide

/-- **C120**: ranks agree if each has elements of each of the listed domains or none has. -/
theorem C120_agreement_partial {kinds : List (ElType × Nat)} {m : DomMap} {bnds : List Nat} {D : Nat} (h : MeshOk kinds m bnds D) (hone : OneSided m bnds)
    {nParts : Nat} {parts : List Split.Part} {f : Nat → Nat} (ho : Outcome Monotone kinds m bnds nParts parts f) (ids : List Nat) (dim : Nat)
    (hsame : ∀ p ∈ parts, ∀ k ∈ ids, (∃ e, InDom m k e) → ∃ e, InDom p.doms k e)
    (hempty : ∀ p ∈ parts, ∀ k d, p.doms.lookup k = some d → d.elems ≠ []) :
    ∀ p ∈ parts, ∀ q ∈ parts, (assemble p.doms ids dim).isSome = (assemble q.doms ids dim).isSome := by
  obtain ⟨N, maps, R⟩ := outcome_result h hone ho
  have key : ∀ p ∈ parts, (assemble p.doms ids dim).isSome = true ↔ ∀ k ∈ ids, ∀ e, InDom m k e → e.ty.dim = dim := by
    intro p hp
    obtain ⟨i, hilt, rfl⟩ := List.mem_iff_getElem.1 hp
    have hmlt : i < maps.length := by rw [R.len, ← R.plen]; exact hilt
    have hmi : maps[i]? = some maps[i] := List.getElem?_eq_getElem hmlt
    have hdoms := R.doms i _ _ hmi (List.getElem?_eq_getElem hilt)
    have hsome : (assemble (parts[i]).doms ids dim).isSome = true ↔ checkDim (parts[i]).doms ids dim = true := by
      unfold assemble
      by_cases hc : checkDim (parts[i]).doms ids dim = true
      · rw [if_pos hc]; simp [hc]
      · rw [if_neg hc]; simp [hc]
    rw [hsome, checkDim_iff]
    have dimOf : ∀ k d e, (parts[i]).doms.lookup k = some d → e ∈ d.elems → d.dim = some e.ty.dim ∧ ∃ e', InDom m k e' ∧ e'.ty = e.ty := by
      intro k d e hd hed
      rw [hdoms, lookup_mapDoms] at hd
      obtain ⟨d', hd', rfl⟩ := Option.map_eq_some_iff.1 hd
      have : InDom (mapDoms f maps[i]) k e := ⟨_, by rw [lookup_mapDoms, hd']; rfl, hed⟩
      obtain ⟨e', he', rfl⟩ := inDom_mapDoms.1 this
      obtain ⟨d'', hd'', hed''⟩ := he'
      obtain rfl : d' = d'' := Option.some.inj (hd'.symm.trans hd'')
      exact ⟨R.dims _ (List.getElem_mem hmlt) (k, d') (Mesh.mem_of_lookup hd') e' hed'', e', (R.nodup i _ k d' hmi hd').2 e' hed'', rfl⟩
    have mdim : ∀ k e e', InDom m k e → InDom m k e' → e.ty.dim = e'.ty.dim := by
      rintro k e e' ⟨d, hd, hed⟩ ⟨d', hd', hed'⟩
      obtain rfl : d = d' := Option.some.inj (hd.symm.trans hd')
      exact Option.some.inj ((R.mdims (k, d) (Mesh.mem_of_lookup hd) e hed).symm.trans (R.mdims (k, d) (Mesh.mem_of_lookup hd) e' hed'))
    constructor
    · intro hc k hk e he
      obtain ⟨x, d, hd, hxd⟩ := hsame _ hp k hk ⟨e, he⟩
      obtain ⟨h1, e', he', ht⟩ := dimOf k d x hd hxd
      rw [hc k hk d hd, Option.some.injEq] at h1
      rw [mdim k e e' he he', ht, ← h1]
    · intro hc k hk d hd
      obtain ⟨x, hx⟩ := List.exists_mem_of_ne_nil _ (hempty _ hp k d hd)
      obtain ⟨h1, e', he', ht⟩ := dimOf k d x hd hx
      rw [h1, ← ht, hc k hk e' he']
  intro p hp q hq
  rw [Bool.eq_iff_iff, key p hp, key q hq]

/-- The same mesh on two ranks, each with elements of both domains. -/
def exTwo : List Split.Part :=
  [⟨[(1, ⟨some 1, [[], [], [⟨.line, 2, 0, [0, 1]⟩]]⟩), (2, ⟨some 1, [[], [], [⟨.line, 2, 1, [2, 3]⟩]]⟩)], ⟨0, 4, []⟩, []⟩,
   ⟨[(1, ⟨some 1, [[], [], [⟨.line, 2, 2, [1, 4]⟩]]⟩), (2, ⟨some 1, [[], [], [⟨.line, 2, 3, [4, 2]⟩]]⟩)], ⟨4, 1, [1, 2]⟩, []⟩]

theorem exTwo_eq : (partitionImpl lineKinds exLines [] 2 [0, 1, 0, 1] [0, 0, 0, 0, 1] [0, 2, 1, 3] id (fun _ _ => id)).map (·.1) = some exTwo := by
  have h1 : distribute lineKinds exLines [] 2 [0, 1, 0, 1] [0, 2, 1, 3] id = some (exTwo.map (·.doms)) := by decide +kernel
  have h2 : assignNodes [0, 0, 0, 0, 1] (exTwo.map (·.doms)) = some [([0, 1, 2, 3], []), ([4], [1, 2])] := by
    have hog : (exTwo.map (·.doms)).zipIdx.map (fun m => ownGhost [0, 0, 0, 0, 1] m.1 m.2) = [([0, 1, 2, 3], []), ([4], [1, 2])] := by decide +kernel
    have hdis : (([([0, 1, 2, 3], []), ([4], [1, 2])] : List (List Nat × List Nat)).zipIdx.map fun p => disjointOf [0, 0, 0, 0, 1] p.1.1 p.2).flatten = [] := by
      decide +kernel
    unfold assignNodes
    simp only [hog, hdis]
    simp [reassign, claim, Std.sort]
  unfold partitionImpl
  rw [h1, Option.bind_some]
  unfold finish
  rw [h2, Option.bind_some]
  decide +kernel

example : (∃ f, Outcome Pipeline.Monotone lineKinds exLines [] 2 exTwo f) ∧ (∀ p ∈ exTwo, ∀ k ∈ [1, 2], ∃ e, InDom p.doms k e) ∧
    (∀ p ∈ exTwo, ∀ k d, p.doms.lookup k = some d → d.elems ≠ []) ∧ ∀ p ∈ exTwo, assemble p.doms [1, 2] 2 = none := by
  refine ⟨?_, ?_, ?_, by decide⟩
  · obtain ⟨⟨parts, φ⟩, h, he⟩ := Option.map_eq_some_iff.1 exTwo_eq
    obtain rfl : parts = exTwo := he
    exact ⟨_, .parts 2 _ _ _ ⟨by decide, by decide, fun x => nodes_of_all (N := 5) (by decide) (by decide) x, by decide, ⟨by decide, by decide⟩⟩ id (fun _ _ => id)
      (fun _ => List.Perm.refl _) (fun _ _ _ => List.Perm.refl _) _ φ h⟩
  · have h : ∀ p ∈ exTwo, ∀ k ∈ [1, 2], ∃ d ∈ p.doms, d.1 = k ∧ p.doms.lookup k = some d.2 ∧ d.2.elems ≠ [] := by decide
    intro p hp k hk
    obtain ⟨d, _, _, hd, hne⟩ := h p hp k hk
    obtain ⟨e, he⟩ := List.exists_mem_of_ne_nil _ hne
    exact ⟨e, d.2, hd, he⟩
  · intro p hp k d hd
    have h : ∀ p ∈ exTwo, ∀ d ∈ p.doms, d.2.elems ≠ [] := by decide
    exact h p hp (k, d) (Mesh.mem_of_lookup hd)

/-- What a user relies on when no exception is thrown, for matrix-free systems and integrals. -/
def C120SkipStatement : Prop :=
  ∀ (kinds : List (ElType × Nat)) (m : DomMap), WfMesh kinds m → ∀ (ids : List Nat) (dim : Nat), applied m ids dim = visitIds m ids

/-- **C120**: matrix-free systems and integrals do not check: a kernel of the wrong dimension is silently applied to nothing. -/
theorem C120_unchecked_violated : ¬ C120SkipStatement := by
  intro h
  have := h lineKinds exLines exLines_ok.wf [1] 2
  revert this
  decide

end Verif.DimCheck
