import Verif.Partition.Number

/-! # Property C29: distribution of domain and boundary elements over the parts -/
namespace Verif.Partition
open Verif Verif.Elem Verif.Mesh Verif.Split

/-! ## Pushing into several parts -/

/-- The pushes directed at part `p`. -/
def route (p : Nat) (evs : List (Nat × Nat × Element)) : List (Nat × Element) := (evs.filter fun e => e.1 == p).map (·.2)

theorem mem_route {p : Nat} {evs : List (Nat × Nat × Element)} {ev : Nat × Element} : ev ∈ route p evs ↔ (p, ev) ∈ evs := by
  simp only [route, List.mem_map, List.mem_filter, beq_iff_eq]
  constructor
  · rintro ⟨⟨a, b⟩, ⟨h, rfl⟩, rfl⟩; exact h
  · intro h; exact ⟨_, ⟨h, rfl⟩, rfl⟩

theorem pushParts_spec {kinds : List (ElType × Nat)} (evs : List (Nat × Nat × Element)) (maps : List DomMap)
    (hlt : ∀ ev ∈ evs, ev.1 < maps.length)
    (hok : ∀ (p : Nat) (m : DomMap), maps[p]? = some m → ∃ m', pushAll kinds m (route p evs) = some m') :
    ∃ maps', pushParts kinds maps evs = some maps' ∧ maps'.length = maps.length ∧
      ∀ (p : Nat) (m : DomMap), maps[p]? = some m → ∃ m', maps'[p]? = some m' ∧ pushAll kinds m (route p evs) = some m' := by
  induction evs generalizing maps with
  | nil => exact ⟨maps, rfl, rfl, fun p m hm => ⟨m, hm, rfl⟩⟩
  | cons ev evs ih =>
    have hl := hlt ev (by simp)
    have hm0 : maps[ev.1]? = some maps[ev.1] := List.getElem?_eq_getElem hl
    have hr : route ev.1 (ev :: evs) = ev.2 :: route ev.1 evs := by simp [route]
    obtain ⟨m', hm'⟩ := hok ev.1 _ hm0
    rw [hr] at hm'
    unfold pushAll at hm'
    rw [List.foldlM_cons] at hm'
    obtain ⟨m1, h1, h2⟩ := Option.bind_eq_some_iff.1 hm'
    have hne : ∀ p, p ≠ ev.1 → route p (ev :: evs) = route p evs := by
      intro p hp
      have : (ev.1 == p) = false := by simpa using Ne.symm hp
      simp [route, this]
    obtain ⟨maps', a1, a2, a3⟩ := ih (maps.set ev.1 m1) (fun e he => by rw [List.length_set]; exact hlt e (by simp [he])) (fun p m hm => by
      by_cases hp : p = ev.1
      · subst hp
        rw [List.getElem?_set_self hl] at hm
        simp only [Option.some.injEq] at hm
        subst hm
        exact ⟨m', h2⟩
      · rw [List.getElem?_set_ne (Ne.symm hp)] at hm
        rw [← hne p hp]; exact hok p m hm)
    refine ⟨maps', ?_, by rw [a2, List.length_set], fun p m hm => ?_⟩
    · unfold pushParts at a1 ⊢
      rw [List.foldlM_cons]
      have : pushPart kinds maps ev = some (maps.set ev.1 m1) := by
        unfold pushPart
        rw [hm0, Option.bind_some, h1]; rfl
      rw [this]; exact a1
    · by_cases hp : p = ev.1
      · subst hp
        obtain ⟨x, hx1, hx2⟩ := a3 ev.1 m1 (List.getElem?_set_self hl)
        refine ⟨x, hx1, ?_⟩
        rw [hm0] at hm; simp only [Option.some.injEq] at hm; subst hm
        rw [hr]; unfold pushAll; rw [List.foldlM_cons, h1]; exact hx2
      · obtain ⟨x, hx1, hx2⟩ := a3 p m (by rw [List.getElem?_set_ne (Ne.symm hp)]; exact hm)
        exact ⟨x, hx1, by rw [hne p hp]; exact hx2⟩

theorem pushAll_append (kinds : List (ElType × Nat)) (m : DomMap) (a b : List (Nat × Element)) :
    pushAll kinds m (a ++ b) = (pushAll kinds m a).bind fun m' => pushAll kinds m' b := by
  unfold pushAll; rw [List.foldlM_append]; rfl

theorem grow_perm {kinds : List (ElType × Nat)} (hk : kinds.Nodup) (l : List Element) (hl : ∀ e ∈ l, e.kind ∈ kinds) :
    (grow kinds (emptyDom kinds) l).elems.Perm l := by
  unfold grow emptyDom Domain.elems
  simp only
  have h1 : List.zipWith (fun (v : List Element) kd => v ++ l.filter fun e => e.kind == kd) (kinds.map fun _ => []) kinds =
      kinds.map fun kd => l.filter fun e => e.kind == kd := by
    clear hl hk
    induction kinds with
    | nil => rfl
    | cons a k ih => rw [List.map_cons, List.zipWith_cons_cons, ih]; rfl
  rw [h1]
  clear h1
  induction kinds generalizing l with
  | nil =>
    cases l with
    | nil => simp
    | cons a l => exact absurd (hl a (by simp)) (by simp)
  | cons a ks ih =>
    rw [List.nodup_cons] at hk
    rw [List.map_cons, List.flatten_cons]
    have h2 : (ks.map fun kd => l.filter fun e => e.kind == kd) = ks.map fun kd => (l.filter fun e => !(e.kind == a)).filter fun e => e.kind == kd := by
      refine List.map_congr_left fun kd hkd => ?_
      rw [List.filter_filter]
      refine List.filter_congr fun e _ => ?_
      by_cases h : e.kind = kd
      · have : kd ≠ a := fun hc => hk.1 (hc ▸ hkd)
        simp [h, this]
      · simp [h]
    rw [h2]
    refine ((ih hk.2 (l.filter fun e => !(e.kind == a)) fun e he => ?_).append_left _).trans ?_
    · obtain ⟨he1, he2⟩ := List.mem_filter.1 he
      rcases List.mem_cons.1 (hl e he1) with h | h
      · simp [h] at he2
      · exact h
    · exact List.filter_append_perm _ _

/-! ## Looking up the part of an element -/

theorem copyPermuted_map {l perm : List Nat} (hp : perm.length = l.length) (hb : ∀ i ∈ perm, i < l.length) :
    Algo.copyPermuted l perm = some (perm.map fun i => l.getD i 0) := by
  unfold Algo.copyPermuted
  rw [mapM_map (g := fun k => l.getD (perm.getD k 0) 0)]
  · congr 1
    apply List.ext_getElem (by simp [hp])
    intro i h1 h2
    simp only [List.length_map, List.length_range] at h1 h2
    simp only [List.getElem_map, List.getElem_range, List.getD_eq_getElem?_getD]
    rw [List.getElem?_eq_getElem (l := perm) (by omega)]; rfl
  · intro k hk
    rw [List.mem_range] at hk
    rw [List.getElem?_eq_getElem (l := perm) (by omega), Option.bind_some]
    have := hb perm[k] (List.getElem_mem _)
    rw [List.getD_eq_getElem?_getD, List.getD_eq_getElem?_getD, List.getElem?_eq_getElem (l := perm) (by omega), Option.getD_some,
      List.getElem?_eq_getElem this]; rfl

/-- `perm` sorts `ids` (what C15 proves about `sortingPermutation`). -/
structure Sorts (ids perm : List Nat) : Prop where
  isPerm : perm.Perm (List.range ids.length)
  sorted : (perm.map fun i => ids.getD i 0).Pairwise (· ≤ ·)

theorem lookupPart_spec {ids epart perm : List Nat} (hs : Sorts ids perm) (hn : ids.Nodup) (hl : epart.length = ids.length)
    (j id : Nat) (hj : ids[j]? = some id) : lookupPart ids epart perm id = epart[j]? := by
  have hpl : perm.length = ids.length := by rw [hs.isPerm.length_eq, List.length_range]
  have hpb : ∀ i ∈ perm, i < ids.length := fun i hi => by simpa using hs.isPerm.mem_iff.1 hi
  unfold lookupPart
  rw [copyPermuted_map hpl hpb, Option.bind_some, copyPermuted_map (by rw [hpl, hl]) (by rw [hl]; exact hpb), Option.bind_some]
  obtain ⟨hjl, hje⟩ := List.getElem?_eq_some_iff.1 hj
  have hjm : j ∈ perm := hs.isPerm.mem_iff.2 (by simpa using hjl)
  obtain ⟨i, hi, hij⟩ := List.mem_iff_getElem.1 hjm
  have hpn : perm.Nodup := hs.isPerm.nodup_iff.2 List.nodup_range
  have hnd : (perm.map fun i => ids.getD i 0).Nodup := by
    rw [List.Nodup, List.pairwise_map]
    refine (List.pairwise_iff_getElem.2 fun a b ha hb hab hc => ?_)
    have h1 := hpb _ (List.getElem_mem ha)
    have h2 := hpb _ (List.getElem_mem hb)
    rw [List.getD_eq_getElem?_getD, List.getD_eq_getElem?_getD, List.getElem?_eq_getElem h1, List.getElem?_eq_getElem h2, Option.getD_some, Option.getD_some] at hc
    have := (List.Nodup.getElem_inj_iff hpn).1 ((List.Nodup.getElem_inj_iff hn).1 hc)
    omega
  have hst := Std.lt_of_le_nodup hs.sorted hnd
  have hsi : (perm.map fun i => ids.getD i 0)[i]'(by simpa using hi) = id := by
    rw [List.getElem_map, hij, List.getD_eq_getElem?_getD, hj]; rfl
  have hlb := Std.lowerBound_getElem hst (i := i) (by simpa using hi)
  rw [hsi] at hlb
  rw [hlb, List.getElem?_map, List.getElem?_eq_getElem hi, hij, Option.map_some, List.getD_eq_getElem?_getD,
    List.getElem?_eq_getElem (by rw [hl]; exact hjl)]; rfl

/-! ## The mesh -/

/-- A mesh ready to be partitioned: domains as the library builds them, well-formed elements with
unique ids, boundaries present, all of dimension `D`, each boundary element having a parent (the
constructor of the mesh has checked that). -/
structure MeshOk (kinds : List (ElType × Nat)) (m : DomMap) (bnds : List Nat) (D : Nat) : Prop where
  wf : WfMesh kinds m
  els : ∀ e, Holds m e → WfElement e
  ids : ((tagged m (m.map (·.1))).map (·.2.id)).Nodup
  bndSorted : bnds.Pairwise (· < ·)
  bnd : ∀ b ∈ bnds, ∃ d, m.lookup b = some d ∧ d.dim = some D ∧ d.elems ≠ []
  parent : ∀ b ∈ bnds, ∀ d, m.lookup b = some d → ∀ x ∈ d.elems, ∃ e s, IsParent m x e s

/-- The domains in which the boundary element `x` has a parent. -/
def parentDoms (m : DomMap) (x : Element) : List Nat :=
  (domainsOfDim m (x.ty.dim + 1)).filter fun k => (findIn m k x).isSome

/-- `e` is held by domain `k`. -/
def InDom (m : DomMap) (k : Nat) (e : Element) : Prop := ∃ d, m.lookup k = some d ∧ e ∈ d.elems

theorem findIn_some {m : DomMap} {k : Nat} {x e : Element} (h : findIn m k x = some e) :
    InDom m k e ∧ e.ty.dim = x.ty.dim + 1 ∧ ∃ s l, sideNodes e s = some l ∧ l.Perm x.nodes := by
  obtain ⟨⟨i, hi, d, hd, v, hv, he⟩, h2⟩ := findPred_some h
  simp only [List.mem_singleton] at hi
  subst hi
  rw [Bool.and_eq_true, decide_eq_true_eq] at h2
  obtain ⟨s, hs⟩ := Option.isSome_iff_exists.1 h2.2
  obtain ⟨l, hl, hp⟩ := matchSide_some hs
  exact ⟨⟨d, hd, List.mem_flatten.2 ⟨v, hv, he⟩⟩, h2.1, s, l, hl, hp⟩

theorem findIn_of {m : DomMap} {k : Nat} {x e : Element} {s : Nat} {l : List Nat} (h : InDom m k e) (hd : e.ty.dim = x.ty.dim + 1)
    (hs : sideNodes e s = some l) (hp : l.Perm x.nodes) : (findIn m k x).isSome = true := by
  cases hf : findIn m k x with
  | some e' => rfl
  | none =>
    exfalso
    obtain ⟨d, hd', he⟩ := h
    obtain ⟨v, hv, he⟩ := List.mem_flatten.1 he
    have := findPred_none.1 hf e ⟨k, by simp, d, hd', v, hv, he⟩
    rw [hd] at this
    simp only [decide_true, Bool.true_and] at this
    have hn : matchSide e (Std.sort x.nodes) = none := by simpa using this
    exact matchSide_none.1 hn ⟨s, l, hs, hp⟩

theorem holds_iff_inDom {kinds : List (ElType × Nat)} {m : DomMap} (h : WfMesh kinds m) {e : Element} : Holds m e ↔ ∃ k, InDom m k e := by
  constructor
  · rintro ⟨d, hd, v, hv, he⟩
    exact ⟨d.1, d.2, lookup_of_mem (wf_keys h) hd, List.mem_flatten.2 ⟨v, hv, he⟩⟩
  · rintro ⟨k, d, hd, he⟩
    obtain ⟨v, hv, he⟩ := List.mem_flatten.1 he
    exact ⟨(k, d), mem_of_lookup hd, v, hv, he⟩

theorem isParent_iff {kinds : List (ElType × Nat)} {m : DomMap} (h : WfMesh kinds m) {x e : Element} {s : Nat} :
    IsParent m x e s ↔ (∃ k, InDom m k e) ∧ e.ty.dim = x.ty.dim + 1 ∧ ∃ l, sideNodes e s = some l ∧ l.Perm x.nodes := by
  constructor
  · rintro ⟨⟨d, hd, hdim, v, hv, he⟩, hl⟩
    have hlk := lookup_of_mem (wf_keys h) hd
    have hmem : e ∈ d.2.elems := List.mem_flatten.2 ⟨v, hv, he⟩
    have h1 := (h.dom d.1 d.2 hlk).dim e hmem
    rw [hdim] at h1
    simp only [Option.some.injEq] at h1
    exact ⟨⟨d.1, d.2, hlk, hmem⟩, h1.symm, hl⟩
  · rintro ⟨⟨k, d, hd, he⟩, hdim, hl⟩
    obtain ⟨v, hv, hev⟩ := List.mem_flatten.1 he
    exact ⟨⟨(k, d), mem_of_lookup hd, by rw [← hdim]; exact (h.dom k d hd).dim e he, v, hv, hev⟩, hl⟩

theorem mem_domainsOfDim {kinds : List (ElType × Nat)} {m : DomMap} (h : WfMesh kinds m) {k D : Nat} :
    k ∈ domainsOfDim m D ↔ ∃ d, m.lookup k = some d ∧ d.dim = some D := by
  unfold domainsOfDim
  rw [List.mem_map]
  constructor
  · rintro ⟨d, hd, rfl⟩
    obtain ⟨h1, h2⟩ := List.mem_filter.1 hd
    exact ⟨d.2, lookup_of_mem (wf_keys h) h1, by simpa using h2⟩
  · rintro ⟨d, hd, hdim⟩
    exact ⟨(k, d), List.mem_filter.2 ⟨mem_of_lookup hd, by simpa using hdim⟩, rfl⟩

theorem nodup_domainsOfDim {kinds : List (ElType × Nat)} {m : DomMap} (h : WfMesh kinds m) (D : Nat) : (domainsOfDim m D).Nodup := by
  unfold domainsOfDim
  exact List.Nodup.sublist (List.Sublist.map _ List.filter_sublist) (wf_keys h)

theorem parentDoms_ne_nil {kinds : List (ElType × Nat)} {m : DomMap} {bnds : List Nat} {D : Nat} (h : MeshOk kinds m bnds D)
    {b : Nat} {x : Element} (hb : b ∈ bnds) (hx : InDom m b x) : 1 ≤ (parentDoms m x).length := by
  obtain ⟨d, hd, hxd⟩ := hx
  obtain ⟨e, s, hp⟩ := h.parent b hb d hd x hxd
  obtain ⟨⟨k, dk, hdk, he⟩, hdim, l, hl, hperm⟩ := (isParent_iff h.wf).1 hp
  have : k ∈ parentDoms m x := by
    refine List.mem_filter.2 ⟨(mem_domainsOfDim h.wf).2 ⟨dk, hdk, ?_⟩, findIn_of ⟨dk, hdk, he⟩ hdim hl hperm⟩
    rw [← hdim]; exact (h.wf.dom k dk hdk).dim e he
  exact List.length_pos_of_mem this

/-! ## The boundary events -/

/-- The part of the parent of `x` found in domain `k`. -/
def partOf (m : DomMap) (lab : Nat → Nat) (k : Nat) (x : Element) : Option Nat := (findIn m k x).map fun e => lab e.id

/-- All insertions for boundary `b`. -/
def eventsFor (m : DomMap) (lab : Nat → Nat) (D b : Nat) : List (Nat × Nat × Element) :=
  (domainsOfDim m (D + 1)).flatMap fun k => (visitIds m [b]).filterMap fun x => (partOf m lab k x).map fun p => (p, b, x)

theorem mem_visit_single {m : DomMap} {b : Nat} {x : Element} : x ∈ visitIds m [b] ↔ InDom m b x := by
  rw [visitIds_single]
  unfold InDom
  cases m.lookup b <;> simp

theorem filterMap_mapM {α β γ : Type} (l : List α) (g : α → Option β) (lab : β → Option γ) (lab' : β → γ) (h : ∀ x ∈ l, ∀ e, g x = some e → lab e = some (lab' e)) {δ : Type} (mk : γ → α → δ) :
    ((l.filterMap fun x => (g x).map fun e => (lab e, x)).mapM fun p => p.1.map fun t => mk t p.2) = some (l.filterMap fun x => (g x).map fun e => mk (lab' e) x) := by
  induction l with
  | nil => rfl
  | cons a l ih =>
    have ih := ih fun x hx => h x (by simp [hx])
    cases hg : g a with
    | none => simp only [List.filterMap_cons, hg, Option.map_none]; exact ih
    | some e =>
      simp only [List.filterMap_cons, hg, Option.map_some]
      rw [List.mapM_cons, h a (by simp) e hg, ih]; rfl

theorem boundaryEvents_eq {kinds : List (ElType × Nat)} {m : DomMap} {bnds : List Nat} {D : Nat} (h : MeshOk kinds m bnds D)
    {part : Nat → Option Nat} {lab : Nat → Nat} (hpart : ∀ k e, InDom m k e → k ∉ bnds → part e.id = some (lab e.id)) :
    bnds.mapM (assignBoundary m part) = some (bnds.map (eventsFor m lab D)) := by
  refine mapM_map fun b hb => ?_
  obtain ⟨d, hd, hdim, hne⟩ := h.bnd b hb
  unfold assignBoundary eventsFor
  rw [hd, Option.bind_some]
  simp only [hdim, Option.getD_some]
  have hdoms : domainsOfDim m (D + 1) ≠ [] := by
    obtain ⟨x, hx⟩ := List.exists_mem_of_ne_nil _ hne
    have hxD : x.ty.dim = D := by
      have := (h.wf.dom b d hd).dim x hx
      rw [hdim] at this; simpa using this.symm
    have hlen := parentDoms_ne_nil h hb ⟨d, hd, hx⟩
    intro hc
    unfold parentDoms at hlen
    rw [hxD, hc] at hlen; simp at hlen
  rw [if_neg hdoms]
  rw [mapM_map (g := fun k => (visitIds m [b]).filterMap fun x => (partOf m lab k x).map fun p => (p, b, x)) fun k hk => ?_]
  · rw [Option.map_some, ← List.flatMap_def]
  · have hkb : k ∉ bnds := by
      intro hc
      obtain ⟨dk, hdk, hkd, _⟩ := h.bnd k hc
      obtain ⟨dk', hdk', hkd'⟩ := (mem_domainsOfDim h.wf).1 hk
      rw [hdk] at hdk'; simp only [Option.some.injEq] at hdk'; subst hdk'
      rw [hkd] at hkd'; simp at hkd'
    unfold assignFrom
    rw [filterMap_mapM (visitIds m [b]) (fun x => findIn m k x) (fun e => part e.id) (fun e => lab e.id)
      (fun x hx e he => hpart k e (findIn_some he).1 hkb) (fun t x => (t, b, x))]
    simp only [partOf, Option.map_map]; rfl

theorem count_swap {α β : Type} (as : List α) (bs : List β) (P : α → β → Bool) :
    (as.map fun a => bs.countP fun b => P a b).sum = (bs.map fun b => as.countP fun a => P a b).sum := by
  induction as with
  | nil => simp
  | cons a as ih =>
    rw [List.map_cons, List.sum_cons, ih]
    simp only [List.countP_cons]
    clear ih
    induction bs with
    | nil => rfl
    | cons b bs ih => simp only [List.countP_cons, List.map_cons, List.sum_cons]; omega

theorem length_eventsFor {kinds : List (ElType × Nat)} {m : DomMap} {bnds : List Nat} {D : Nat} (h : MeshOk kinds m bnds D)
    (lab : Nat → Nat) {b : Nat} (hb : b ∈ bnds) :
    (eventsFor m lab D b).length = ((visitIds m [b]).map fun x => (parentDoms m x).length).sum := by
  unfold eventsFor
  rw [List.length_flatMap]
  have h1 : ∀ k, ((visitIds m [b]).filterMap fun x => (partOf m lab k x).map fun p => (p, b, x)).length = (visitIds m [b]).countP fun x => (findIn m k x).isSome := by
    intro k
    rw [List.length_filterMap_eq_countP]
    refine List.countP_congr fun x _ => ?_
    simp [partOf]
  simp only [h1]
  rw [count_swap]
  congr 1
  refine List.map_congr_left fun x hx => ?_
  obtain ⟨d, hd, hdim, _⟩ := h.bnd b hb
  obtain ⟨d', hd', hxd⟩ := mem_visit_single.1 hx
  rw [hd] at hd'; simp only [Option.some.injEq] at hd'; subst hd'
  have hxD : x.ty.dim = D := by
    have := (h.wf.dom b d hd).dim x hxd
    rw [hdim] at this; simpa using this.symm
  unfold parentDoms
  rw [hxD, List.countP_eq_length_filter]

theorem sum_ge_iff {α : Type} (l : List α) (f : α → Nat) (h : ∀ a ∈ l, 1 ≤ f a) :
    l.length ≤ (l.map f).sum ∧ ((l.map f).sum = l.length ↔ ∀ a ∈ l, f a = 1) := by
  induction l with
  | nil => simp
  | cons a l ih =>
    obtain ⟨h1, h2⟩ := ih fun b hb => h b (by simp [hb])
    have ha := h a (by simp)
    simp only [List.map_cons, List.sum_cons, List.length_cons, List.mem_cons, forall_eq_or_imp]
    refine ⟨by omega, fun hh => ⟨by omega, h2.1 (by omega)⟩, fun hh => ?_⟩
    rw [h2.2 hh.2, hh.1]; omega

theorem bndSize_eq (m : DomMap) (b : Nat) : bndSize m b = (visitIds m [b]).length := by
  unfold bndSize
  rw [visitIds_single]
  cases m.lookup b <;> simp

/-- The counts agree exactly if every boundary element has parents in exactly one domain. -/
theorem boundaryEvents_iff {kinds : List (ElType × Nat)} {m : DomMap} {bnds : List Nat} {D : Nat} (h : MeshOk kinds m bnds D)
    {part : Nat → Option Nat} {lab : Nat → Nat} (hpart : ∀ k e, InDom m k e → k ∉ bnds → part e.id = some (lab e.id)) :
    boundaryEvents m part bnds = if (∀ b ∈ bnds, ∀ x ∈ visitIds m [b], (parentDoms m x).length = 1)
      then some (bnds.flatMap (eventsFor m lab D)) else none := by
  unfold boundaryEvents
  rw [boundaryEvents_eq h hpart, Option.map_some, Option.bind_some, ← List.flatMap_def]
  refine if_congr ?_ rfl rfl
  rw [List.length_flatMap]
  have h1 : ∀ l : List Nat, (∀ b ∈ l, b ∈ bnds) → (l.map (bndSize m)).sum ≤ (l.map fun b => (eventsFor m lab D b).length).sum ∧
      ((l.map fun b => (eventsFor m lab D b).length).sum = (l.map (bndSize m)).sum ↔ ∀ b ∈ l, ∀ x ∈ visitIds m [b], (parentDoms m x).length = 1) := by
    intro l
    induction l with
    | nil => simp
    | cons b l ih =>
      intro hl
      obtain ⟨i1, i2⟩ := ih fun b hb => hl b (by simp [hb])
      have hb := hl b (by simp)
      obtain ⟨s1, s2⟩ := sum_ge_iff (visitIds m [b]) (fun x => (parentDoms m x).length) fun x hx => parentDoms_ne_nil h hb (mem_visit_single.1 hx)
      rw [← length_eventsFor h lab hb, ← bndSize_eq] at s1 s2
      simp only [List.map_cons, List.sum_cons, List.mem_cons, forall_eq_or_imp]
      refine ⟨by omega, fun hh => ⟨s2.1 (by omega), i2.1 (by omega)⟩, fun hh => ?_⟩
      rw [s2.2 hh.1, i2.2 hh.2]
  exact (h1 bnds fun _ hb => hb).2

/-! ## The result -/

theorem visitIds_cons (m : DomMap) (k : Nat) (ks : List Nat) : visitIds m (k :: ks) = visitIds m [k] ++ visitIds m ks := by
  unfold visitIds existing
  cases h : m.lookup k <;> simp [h]

theorem visitIds_tagged (m : DomMap) (ids : List Nat) : visitIds m ids = (tagged m ids).map (·.2) := by
  induction ids with
  | nil => rfl
  | cons k ks ih =>
    rw [visitIds_cons, ih]
    unfold tagged
    rw [List.flatMap_cons, List.map_append, List.map_map]
    congr 1
    exact (List.map_id _).symm

theorem tagged_filter (m : DomMap) (q : Nat → Bool) (l : List Nat) : tagged m (l.filter q) = (tagged m l).filter fun ev => q ev.1 := by
  unfold tagged
  induction l with
  | nil => rfl
  | cons k l ih =>
    rw [List.flatMap_cons, List.filter_append, ← ih, List.filter_cons]
    cases h : q k with
    | true =>
      rw [if_pos rfl, List.flatMap_cons]
      congr 1
      rw [List.filter_eq_self.2]
      intro a ha
      obtain ⟨e, _, rfl⟩ := List.mem_map.1 ha
      exact h
    | false =>
      have hnil : ((visitIds m [k]).map fun e => (k, e)).filter (fun ev => q ev.1) = [] := by
        rw [List.filter_eq_nil_iff]
        intro a ha
        obtain ⟨e, _, rfl⟩ := List.mem_map.1 ha
        simp [h]
      rw [if_neg (by simp), hnil, List.nil_append]

theorem wf_grow {kinds : List (ElType × Nat)} (l : List Element)
    (hd : ∀ a ∈ l, ∀ b ∈ l, a.ty.dim = b.ty.dim) : WfDomain kinds (grow kinds (emptyDom kinds) l) := by
  have hkind : ∀ i (h : i < (grow kinds (emptyDom kinds) l).vecs.length), ∀ e ∈ (grow kinds (emptyDom kinds) l).vecs[i],
      e ∈ l ∧ e.kind = kinds[i]'(by simp [grow, emptyDom] at h; omega) := by
    intro i h e he
    simp only [grow, emptyDom, List.getElem_zipWith, List.getElem_map, List.nil_append, List.mem_filter, beq_iff_eq] at he
    exact he
  refine ⟨by simp [grow, emptyDom], fun i h e he => (hkind i h e he).2, fun e he => ?_⟩
  obtain ⟨v, hv, hev⟩ := List.mem_flatten.1 he
  obtain ⟨i, hi, rfl⟩ := List.mem_iff_getElem.1 hv
  have hel := (hkind i hi e hev).1
  simp only [grow, emptyDom, Option.none_or]
  cases l with
  | nil => simp at hel
  | cons a l => simp only [List.head?_cons, Option.map_some, Option.some.injEq]; exact hd a (by simp) e hel

/-- The condition under which partitioning works: the parents of every boundary element are in one
domain. -/
def SingleDomain (m : DomMap) (bnds : List Nat) : Prop := ∀ b ∈ bnds, ∀ x, InDom m b x → (parentDoms m x).length = 1

theorem distribute_spec {kinds : List (ElType × Nat)} {m : DomMap} {bnds : List Nat} {D : Nat} (h : MeshOk kinds m bnds D) (nParts : Nat) (epart perm : List Nat)
    (shuffle : List (Nat × Nat × Element) → List (Nat × Nat × Element)) (hel : epart.length = (visitIds m (domainIds m bnds)).length)
    (hlab : ∀ p ∈ epart, p < nParts) (hperm : Sorts ((visitIds m (domainIds m bnds)).map (·.id)) perm) (hshuf : ∀ l, (shuffle l).Perm l) :
    (¬ SingleDomain m bnds → distribute kinds m bnds nParts epart perm shuffle = none) ∧
    (SingleDomain m bnds → ∃ maps, distribute kinds m bnds nParts epart perm shuffle = some maps ∧ maps.length = nParts ∧
      (∀ m' ∈ maps, WfMesh kinds m' ∧ ViewsOk m' bnds) ∧
      (∀ (p : Nat) m' k d, maps[p]? = some m' → m'.lookup k = some d → d.elems.Nodup ∧ ∀ e ∈ d.elems, InDom m k e) ∧
      (∀ k e, InDom m k e → ∃! p : Nat, ∃ m', maps[p]? = some m' ∧ InDom m' k e) ∧
      (∀ (j : Nat) k e (p : Nat), (tagged m (domainIds m bnds))[j]? = some (k, e) → epart[j]? = some p → ∃ m', maps[p]? = some m' ∧ InDom m' k e)) := by
  set ids := domainIds m bnds with hids
  set tg := tagged m ids with htg
  have hvt : visitIds m ids = tg.map (·.2) := visitIds_tagged m ids
  have hkeys : ∀ k e, InDom m k e → k ∈ m.map (·.1) := fun k e ⟨d, hd, _⟩ => List.mem_map.2 ⟨(k, d), mem_of_lookup hd, rfl⟩
  have hmtg : ∀ k e, (k, e) ∈ tg ↔ InDom m k e ∧ k ∉ bnds := by
    intro k e
    rw [htg, mem_tagged, hids]
    unfold domainIds
    rw [List.mem_filter, decide_eq_true_eq]
    constructor
    · rintro ⟨⟨_, h2⟩, h3⟩; exact ⟨h3, h2⟩
    · rintro ⟨h1, h2⟩; exact ⟨⟨hkeys k e h1, h2⟩, h1⟩
  have hidn : (tg.map (·.2.id)).Nodup := by
    rw [htg, hids]
    unfold domainIds
    rw [tagged_filter]
    exact List.Nodup.sublist (List.Sublist.map _ List.filter_sublist) h.ids
  have htgn : tg.Nodup := List.Nodup.of_map _ hidn
  set eids := (visitIds m ids).map (·.id) with heids
  have heids' : eids = tg.map (·.2.id) := by rw [heids, hvt, List.map_map]; rfl
  have hel' : epart.length = tg.length := by rw [hel, hvt, List.length_map]
  set lab := fun id => (lookupPart eids epart perm id).getD 0 with hlabdef
  have hlook : ∀ (j : Nat) k e, tg[j]? = some (k, e) → lookupPart eids epart perm e.id = epart[j]? := by
    intro j k e hj
    refine lookupPart_spec hperm (by rw [heids']; exact hidn) (by rw [heids', List.length_map]; exact hel') j e.id ?_
    rw [heids', List.getElem?_map, hj]; rfl
  have hpart : ∀ k e, InDom m k e → k ∉ bnds → lookupPart eids epart perm e.id = some (lab e.id) := by
    intro k e hke hkb
    obtain ⟨j, hj, hje⟩ := List.mem_iff_getElem.1 ((hmtg k e).2 ⟨hke, hkb⟩)
    have h1 := hlook j k e (by rw [List.getElem?_eq_getElem hj, hje])
    have : epart[j]? = some epart[j] := List.getElem?_eq_getElem (by omega)
    simp only [hlabdef, h1, this]; rfl
  set evs := tg.zipIdx.map fun q => (epart.getD q.2 0, q.1) with hevs
  have hde : domainEvents m ids epart = some evs := by
    unfold domainEvents
    refine mapM_map fun q hq => ?_
    obtain ⟨a, j⟩ := q
    rw [List.mem_zipIdx_iff_getElem?] at hq
    have hj : j < epart.length := by rw [hel']; exact (List.getElem?_eq_some_iff.1 hq).1
    simp only [List.getD_eq_getElem?_getD, List.getElem?_eq_getElem hj]; rfl
  have hevs2 : evs.map (·.2) = tg := by
    rw [hevs, List.map_map]
    exact List.zipIdx_map_fst 0 tg
  have hmev : ∀ p k e, (p, k, e) ∈ evs ↔ ∃ j : Nat, tg[j]? = some (k, e) ∧ epart[j]? = some p := by
    intro p k e
    rw [hevs, List.mem_map]
    constructor
    · rintro ⟨⟨a, j⟩, hq, heq⟩
      rw [List.mem_zipIdx_iff_getElem?] at hq
      simp only [Prod.mk.injEq] at heq hq
      obtain ⟨h1, rfl⟩ := heq
      have hj : j < epart.length := by rw [hel']; exact (List.getElem?_eq_some_iff.1 hq).1
      refine ⟨j, hq, ?_⟩
      rw [← h1, List.getD_eq_getElem?_getD, List.getElem?_eq_getElem hj]; rfl
    · rintro ⟨j, h1, h2⟩
      refine ⟨((k, e), j), List.mem_zipIdx_iff_getElem?.2 h1, ?_⟩
      rw [List.getD_eq_getElem?_getD, h2]; rfl
  have hevlt : ∀ ev ∈ evs, ev.1 < nParts := by
    rintro ⟨p, k, e⟩ hev
    obtain ⟨j, _, hj⟩ := (hmev p k e).1 hev
    exact hlab p (List.mem_of_getElem? hj)
  have hbe := boundaryEvents_iff h hpart
  have hsingle : SingleDomain m bnds ↔ ∀ b ∈ bnds, ∀ x ∈ visitIds m [b], (parentDoms m x).length = 1 :=
    forall_congr' fun b => forall_congr' fun _ => forall_congr' fun x => imp_congr mem_visit_single.symm Iff.rfl
  -- pushing events which come from the mesh succeeds
  have hok : ∀ l : List (Nat × Element), (∀ ev ∈ l, InDom m ev.1 ev.2) → PushOk kinds [] l := by
    intro l hl
    have hdim : ∀ ev ∈ l, ∀ d, m.lookup ev.1 = some d → d.dim = some ev.2.ty.dim := by
      intro ev hev d hd
      obtain ⟨d', hd', he⟩ := hl ev hev
      rw [hd] at hd'; simp only [Option.some.injEq] at hd'; subst hd'
      exact (h.wf.dom _ _ hd).dim _ he
    refine ⟨h.wf.nodup, by simp [OMap.Sorted], by simp, fun ev hev => ?_, fun a ha b hb hab => ?_, by simp⟩
    · obtain ⟨d, hd, he⟩ := hl ev hev
      exact (h.wf.dom _ _ hd).mem_kind he
    · obtain ⟨d, hd, _⟩ := hl a ha
      have h1 := hdim a ha d hd
      have h2 := hdim b hb d (hab ▸ hd)
      rw [h1] at h2; simpa using h2
  have hevIn : ∀ ev ∈ evs, InDom m ev.2.1 ev.2.2 := by
    rintro ⟨p, k, e⟩ hev
    obtain ⟨j, hj, _⟩ := (hmev p k e).1 hev
    exact ((hmtg k e).1 (List.mem_of_getElem? hj)).1
  obtain ⟨maps1, hm1, hm1l, hm1s⟩ := pushParts_spec (kinds := kinds) evs (List.replicate nParts []) (fun ev hev => by simpa using hevlt ev hev)
    (fun p m' hm' => by
      have : m' = [] := List.eq_of_mem_replicate (List.mem_of_getElem? hm')
      subst this
      obtain ⟨r, hr, _⟩ := pushAll_spec (hok (route p evs) fun ev hev => hevIn _ (mem_route.1 hev))
      exact ⟨r, hr⟩)
  have hdist : distribute kinds m bnds nParts epart perm shuffle = (boundaryEvents m (lookupPart eids epart perm) bnds).bind fun bevs => pushParts kinds maps1 (shuffle bevs) := by
    unfold distribute
    simp only [← hids]
    rw [hde, Option.bind_some, hm1, Option.bind_some]
  constructor
  · intro hns
    rw [hdist, hbe, if_neg (fun hc => hns (hsingle.2 hc))]; rfl
  intro hs
  rw [hdist, hbe, if_pos (hsingle.1 hs), Option.bind_some]
  set bevs := bnds.flatMap (eventsFor m lab D) with hbevs
  have hxD : ∀ b ∈ bnds, ∀ x, InDom m b x → x.ty.dim = D := by
    rintro b hb x ⟨d, hd, hx⟩
    obtain ⟨d', hd', hdim, _⟩ := h.bnd b hb
    rw [hd] at hd'; simp only [Option.some.injEq] at hd'; subst hd'
    have := (h.wf.dom b d hd).dim x hx
    rw [hdim] at this; simpa using this.symm
  have hnb : ∀ k ∈ domainsOfDim m (D + 1), k ∉ bnds := by
    intro k hk hc
    obtain ⟨dk, hdk, hkd, _⟩ := h.bnd k hc
    obtain ⟨dk', hdk', hkd'⟩ := (mem_domainsOfDim h.wf).1 hk
    rw [hdk] at hdk'; simp only [Option.some.injEq] at hdk'; subst hdk'
    rw [hkd] at hkd'; simp at hkd'
  have hmbe : ∀ p b x, (p, b, x) ∈ bevs ↔ b ∈ bnds ∧ InDom m b x ∧ ∃ k ∈ domainsOfDim m (D + 1), ∃ e, findIn m k x = some e ∧ lab e.id = p := by
    intro p b x
    rw [hbevs, List.mem_flatMap]
    unfold eventsFor
    simp only [List.mem_flatMap, List.mem_filterMap, partOf, Option.map_map, Option.map_eq_some_iff]
    constructor
    · rintro ⟨b', hb', k, hk, x', hx', e, he, heq⟩
      simp only [Function.comp, Prod.mk.injEq] at heq
      obtain ⟨h1, rfl, rfl⟩ := heq
      exact ⟨hb', mem_visit_single.1 hx', k, hk, e, he, h1⟩
    · rintro ⟨hb, hx, k, hk, e, he, rfl⟩
      exact ⟨b, hb, k, hk, x, mem_visit_single.2 hx, e, he, rfl⟩
  have hbn : (tagged m bnds).Nodup := by
    have hx : ((tagged m (m.map (·.1))).filter fun ev => (fun k => decide (k ∈ bnds)) ev.1).Nodup := (List.Nodup.of_map _ h.ids).filter _
    rw [← tagged_filter m (fun k => decide (k ∈ bnds))] at hx
    have hEq : (m.map (·.1)).filter (fun k => decide (k ∈ bnds)) = bnds := by
      refine Std.eq_of_mem_of_strict ((sorted_keys h.wf.sorted).filter _) h.bndSorted fun k => ?_
      rw [List.mem_filter, decide_eq_true_eq]
      refine ⟨fun hh => hh.2, fun hh => ⟨?_, hh⟩⟩
      obtain ⟨d, hd, _⟩ := h.bnd k hh
      exact List.mem_map.2 ⟨(k, d), mem_of_lookup hd, rfl⟩
    rw [hEq] at hx; exact hx
  have hbperm : (tagged m bnds).Perm (bevs.map (·.2)) := by
    have hsub : tagged m bnds ⊆ bevs.map (·.2) := by
      rintro ⟨b, x⟩ hbx
      obtain ⟨hb, hx⟩ := mem_tagged.1 hbx
      have hlen := hs b hb x hx
      obtain ⟨k, hk⟩ : ∃ k, k ∈ parentDoms m x := by
        cases hp : parentDoms m x with
        | nil => rw [hp] at hlen; simp at hlen
        | cons a l => exact ⟨a, by simp⟩
      obtain ⟨hk1, hk2⟩ := List.mem_filter.1 hk
      obtain ⟨e, he⟩ := Option.isSome_iff_exists.1 hk2
      rw [hxD b hb x hx] at hk1
      exact List.mem_map.2 ⟨(lab e.id, b, x), (hmbe _ _ _).2 ⟨hb, hx, k, hk1, e, he, rfl⟩, rfl⟩
    have hlen : (bevs.map (·.2)).length ≤ (tagged m bnds).length := by
      have h1 := boundaryEvents_iff h hpart
      rw [if_pos (hsingle.1 hs), boundaryEvents, boundaryEvents_eq h hpart, Option.map_some, Option.bind_some, ← List.flatMap_def] at h1
      have h2 : bevs.length = (bnds.map (bndSize m)).sum := by
        by_contra hc
        rw [if_neg hc] at h1; simp at h1
      rw [List.length_map, h2]
      unfold tagged
      rw [List.length_flatMap]
      have : (bnds.map (bndSize m)) = bnds.map fun b => ((visitIds m [b]).map fun e => (b, e)).length :=
        List.map_congr_left fun b _ => by rw [bndSize_eq, List.length_map]
      rw [this]
    exact (List.subperm_of_subset hbn hsub).perm_of_length_le hlen
  -- everything together
  set T := evs ++ shuffle bevs with hT
  have hTmem : ∀ ev, ev ∈ T ↔ ev ∈ evs ∨ ev ∈ bevs := fun ev => by rw [hT, List.mem_append, (hshuf bevs).mem_iff]
  have hTIn : ∀ ev ∈ T, InDom m ev.2.1 ev.2.2 := by
    rintro ⟨p, k, e⟩ hev
    rcases (hTmem _).1 hev with h1 | h1
    · exact hevIn _ h1
    · exact ((hmbe p k e).1 h1).2.1
  have hTnodup : (T.map (·.2)).Nodup := by
    rw [hT, List.map_append, hevs2]
    have hp : ((shuffle bevs).map (·.2)).Perm (tagged m bnds) := ((hshuf bevs).map _).trans hbperm.symm
    rw [(hp.append_left tg).nodup_iff, List.nodup_append]
    refine ⟨htgn, hbn, fun a ha b hb hab => ?_⟩
    subst hab
    exact ((hmtg a.1 a.2).1 ha).2 (mem_tagged.1 (show (a.1, a.2) ∈ tagged m bnds from hb)).1
  have hlablt : ∀ ev ∈ T, ev.1 < nParts := by
    rintro ⟨p, k, e⟩ hev
    rcases (hTmem _).1 hev with h1 | h1
    · exact hevlt _ h1
    · obtain ⟨hb, hx, k', hk', e', he', rfl⟩ := (hmbe p k e).1 h1
      have hin := (findIn_some he').1
      obtain ⟨j, hj, hje⟩ := List.mem_iff_getElem.1 ((hmtg k' e').2 ⟨hin, hnb k' hk'⟩)
      have h2 := hlook j k' e' (by rw [List.getElem?_eq_getElem hj, hje])
      have h3 : epart[j]? = some epart[j] := List.getElem?_eq_getElem (by omega)
      have h4 := hpart k' e' hin (hnb k' hk')
      rw [h2, h3] at h4
      simp only [Option.some.injEq] at h4
      rw [← h4]; exact hlab _ (List.getElem_mem _)
  have hroute : ∀ p, route p T = route p evs ++ route p (shuffle bevs) := by
    intro p; rw [hT]; simp [route]
  have htot : ∀ p, ∃ m', pushAll kinds [] (route p T) = some m' ∧ OMap.Sorted m' ∧ ∀ k, m'.lookup k =
      if k ∈ (route p T).map (·.1) then some (grow kinds (emptyDom kinds) (sel k (route p T))) else none := by
    intro p
    obtain ⟨m', h1, h2, h3⟩ := pushAll_spec (hok (route p T) fun ev hev => hTIn _ (mem_route.1 hev))
    refine ⟨m', h1, h2, fun k => ?_⟩
    rw [h3 k]
    refine if_congr (by simp) ?_ rfl
    simp
  have hrep : ∀ p, p < nParts → (List.replicate nParts ([] : DomMap))[p]? = some [] := fun p hp => by
    rw [List.getElem?_eq_getElem (by simpa using hp)]; simp
  obtain ⟨maps, hmaps, hmapsl, hmapss⟩ := pushParts_spec (kinds := kinds) (shuffle bevs) maps1
    (fun ev hev => by rw [hm1l, List.length_replicate]; exact hlablt ev (by rw [hT]; simp [hev]))
    (fun p m1 hm1p => by
      have hp : p < nParts := by
        have := (List.getElem?_eq_some_iff.1 hm1p).1
        rw [hm1l, List.length_replicate] at this; exact this
      obtain ⟨m1', e1, e2⟩ := hm1s p [] (hrep p hp)
      rw [hm1p] at e1; simp only [Option.some.injEq] at e1; subst e1
      obtain ⟨m', t1, _⟩ := htot p
      rw [hroute, pushAll_append, e2, Option.bind_some] at t1
      exact ⟨m', t1⟩)
  have hlen : maps.length = nParts := by rw [hmapsl, hm1l, List.length_replicate]
  have hfinal : ∀ (p : Nat) m', maps[p]? = some m' → OMap.Sorted m' ∧ ∀ k, m'.lookup k =
      if k ∈ (route p T).map (·.1) then some (grow kinds (emptyDom kinds) (sel k (route p T))) else none := by
    intro p m' hm'
    have hp : p < nParts := by rw [← hlen]; exact (List.getElem?_eq_some_iff.1 hm').1
    obtain ⟨m1', e1, e2⟩ := hm1s p [] (hrep p hp)
    obtain ⟨m2', f1, f2⟩ := hmapss p m1' e1
    rw [hm'] at f1; simp only [Option.some.injEq] at f1; subst f1
    obtain ⟨m3, t1, t2, t3⟩ := htot p
    rw [hroute, pushAll_append, e2, Option.bind_some, f2] at t1
    simp only [Option.some.injEq] at t1; subst t1
    exact ⟨t2, t3⟩
  have hselk : ∀ p k, ∀ e ∈ sel k (route p T), InDom m k e := fun p k e he => hTIn _ (mem_route.1 (mem_sel.1 he))
  have hseldim : ∀ p k, ∀ a ∈ sel k (route p T), ∀ b ∈ sel k (route p T), a.ty.dim = b.ty.dim := by
    intro p k a ha b hb
    obtain ⟨d, hd, had⟩ := hselk p k a ha
    obtain ⟨d', hd', hbd⟩ := hselk p k b hb
    rw [hd] at hd'; simp only [Option.some.injEq] at hd'; subst hd'
    have h1 := (h.wf.dom k d hd).dim a had
    have h2 := (h.wf.dom k d hd).dim b hbd
    rw [h1] at h2; simpa using h2
  have hgp : ∀ p k, (grow kinds (emptyDom kinds) (sel k (route p T))).elems.Perm (sel k (route p T)) := fun p k =>
    grow_perm h.wf.nodup _ fun e he => by
      obtain ⟨d, hd, hed⟩ := hselk p k e he
      exact (h.wf.dom k d hd).mem_kind hed
  have hInDom : ∀ (p : Nat) m', maps[p]? = some m' → ∀ k e, InDom m' k e ↔ (p, k, e) ∈ T := by
    intro p m' hm' k e
    obtain ⟨_, hl⟩ := hfinal p m' hm'
    unfold InDom
    rw [hl k]
    constructor
    · rintro ⟨d, hd, he⟩
      split at hd
      · simp only [Option.some.injEq] at hd; subst hd
        exact mem_route.1 (mem_sel.1 ((hgp p k).mem_iff.1 he))
      · simp at hd
    · intro he
      have h1 := mem_route.2 he
      rw [if_pos (List.mem_map.2 ⟨_, h1, rfl⟩)]
      exact ⟨_, rfl, (hgp p k).mem_iff.2 (mem_sel.2 h1)⟩
  have hwf : ∀ (p : Nat) m', maps[p]? = some m' → WfMesh kinds m' := by
    intro p m' hm'
    obtain ⟨hs', hl⟩ := hfinal p m' hm'
    refine ⟨h.wf.nodup, hs', fun k d hd => ?_⟩
    rw [hl k] at hd
    split at hd
    · simp only [Option.some.injEq] at hd; subst hd
      exact wf_grow _ (hseldim p k)
    · simp at hd
  have hmapat : ∀ p, p < nParts → ∃ m', maps[p]? = some m' := fun p hp => ⟨maps[p]'(by omega), List.getElem?_eq_getElem _⟩
  refine ⟨maps, hmaps, hlen, fun m' hm' => ?_, fun p m' k d hm' hd => ?_, fun k e hke => ?_, fun j k e p hj hp => ?_⟩
  · obtain ⟨p, hp, rfl⟩ := List.mem_iff_getElem.1 hm'
    have hmp := List.getElem?_eq_getElem hp
    have hw := hwf p _ hmp
    refine ⟨hw, fun b hb d hd => ⟨?_, fun x hx => (hw.dom b d hd |>.dim x hx).symm, fun x hx => ?_⟩⟩
    · obtain ⟨_, hl⟩ := hfinal p _ hmp
      rw [hl b] at hd
      split at hd
      · rename_i hin
        simp only [Option.some.injEq] at hd; subst hd
        obtain ⟨⟨b', x⟩, hx, rfl⟩ := List.mem_map.1 hin
        exact List.ne_nil_of_mem ((hgp p _).mem_iff.2 (mem_sel.2 hx))
      · simp at hd
    · have hTx := (hInDom p _ hmp b x).1 ⟨d, hd, hx⟩
      have hbx : (p, b, x) ∈ bevs := by
        rcases (hTmem _).1 hTx with h1 | h1
        · obtain ⟨j, hj, _⟩ := (hmev p b x).1 h1
          exact absurd hb ((hmtg b x).1 (List.mem_of_getElem? hj)).2
        · exact h1
      obtain ⟨_, hxin, k, hk, e, he, hle⟩ := (hmbe p b x).1 hbx
      obtain ⟨hin, hdim, s, l, hl, hperm'⟩ := findIn_some he
      have hee : (p, k, e) ∈ evs := by
        obtain ⟨j, hj, hje⟩ := List.mem_iff_getElem.1 ((hmtg k e).2 ⟨hin, hnb k hk⟩)
        have hj' : tg[j]? = some (k, e) := by rw [List.getElem?_eq_getElem hj, hje]
        refine (hmev p k e).2 ⟨j, hj', ?_⟩
        rw [← hlook j k e hj', hpart k e hin (hnb k hk), hle]
      exact ⟨e, s, (isParent_iff hw).2 ⟨⟨k, (hInDom p _ hmp k e).2 ((hTmem _).2 (Or.inl hee))⟩, hdim, l, hl, hperm'⟩⟩
  · refine ⟨?_, fun e he => hTIn _ ((hInDom p m' hm' k e).1 ⟨d, hd, he⟩)⟩
    obtain ⟨_, hl⟩ := hfinal p m' hm'
    rw [hl k] at hd
    split at hd
    · simp only [Option.some.injEq] at hd; subst hd
      rw [(hgp p k).nodup_iff]
      unfold sel
      have h1 : (route p T).Nodup := by
        unfold route
        exact List.Nodup.sublist (List.Sublist.map _ List.filter_sublist) hTnodup
      refine List.Nodup.map_on (fun a ha b hb hab => ?_) (h1.filter _)
      simp only [List.mem_filter, beq_iff_eq] at ha hb
      exact Prod.ext (ha.2.trans hb.2.symm) hab
    · simp at hd
  · have hin : (k, e) ∈ T.map (·.2) := by
      rw [hT, List.map_append, List.mem_append, hevs2]
      by_cases hkb : k ∈ bnds
      · right
        have : (k, e) ∈ bevs.map (·.2) := hbperm.mem_iff.1 (mem_tagged.2 ⟨hkb, hke⟩)
        exact ((hshuf bevs).map _).mem_iff.2 this
      · left; exact (hmtg k e).2 ⟨hke, hkb⟩
    obtain ⟨⟨p, ke⟩, hp, hpe⟩ := List.mem_map.1 hin
    simp only at hpe
    subst hpe
    obtain ⟨m', hm'⟩ := hmapat p (hlablt _ hp)
    refine ⟨p, ⟨m', hm', (hInDom p m' hm' k e).2 hp⟩, ?_⟩
    rintro p' ⟨m'', hm'', hin''⟩
    have hp' := (hInDom p' m'' hm'' k e).1 hin''
    have := List.inj_on_of_nodup_map hTnodup hp' hp rfl
    simpa using this
  · have hee := (hmev p k e).2 ⟨j, hj, hp⟩
    obtain ⟨m', hm'⟩ := hmapat p (hevlt _ hee)
    exact ⟨m', hm', (hInDom p m' hm' k e).2 ((hTmem _).2 (Or.inl hee))⟩

end Verif.Partition
