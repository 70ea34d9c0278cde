import Verif.Prim.Model
import Verif.Mesh.Props
import Mathlib.Data.List.Induction

/-! # Lemmas about building a mesh by successive `emplaceInDomain` calls -/
namespace Verif.Prim
open Verif Verif.Elem Verif.Mesh

/-- Elements sent to domain `k`. -/
def sel (k : Nat) (evs : List (Nat × Element)) : List Element := (evs.filter fun e => e.1 == k).map (·.2)

def domOf (k : Nat) (evs : List (Nat × Element)) : Domain :=
  ⟨(sel k evs).head?.map (·.ty.dim), kinds1.map fun kd => (sel k evs).filter fun e => (e.ty, e.n) == kd⟩

theorem sel_append (k : Nat) (a b : List (Nat × Element)) : sel k (a ++ b) = sel k a ++ sel k b := by simp [sel]

theorem mem_sel {k : Nat} {evs : List (Nat × Element)} {e : Element} : e ∈ sel k evs ↔ (k, e) ∈ evs := by
  simp only [sel, List.mem_map, List.mem_filter, beq_iff_eq]
  constructor
  · rintro ⟨⟨a, b⟩, ⟨h, rfl⟩, rfl⟩; exact h
  · intro h; exact ⟨_, ⟨h, rfl⟩, rfl⟩

/-- Elements sent to one domain have one dimension; all have two nodes per edge. -/
structure Good (evs : List (Nat × Element)) : Prop where
  n2 : ∀ ev ∈ evs, ev.2.n = 2
  dim : ∀ a ∈ evs, ∀ b ∈ evs, a.1 = b.1 → a.2.ty.dim = b.2.ty.dim

theorem dim_inj {a b : ElType} (h : a.dim = b.dim) : a = b := by cases a <;> cases b <;> simp_all [ElType.dim]

theorem push_domOf {evs : List (Nat × Element)} {ev : Nat × Element} (h : Good (evs ++ [ev])) :
    (domOf ev.1 evs).push kinds1 ev.2 = some (domOf ev.1 (evs ++ [ev])) := by
  obtain ⟨k, ⟨ty, n, id, nodes⟩⟩ := ev
  have hn : n = 2 := h.n2 _ (List.mem_append_right _ (List.mem_singleton.2 rfl))
  subst hn
  have hs : sel k (evs ++ [(k, ⟨ty, 2, id, nodes⟩)]) = sel k evs ++ [⟨ty, 2, id, nodes⟩] := by
    rw [sel_append]; congr 1; simp [sel]
  have hdim : ((sel k evs).head?.map (·.ty.dim)).getD ty.dim = ty.dim := by
    cases hh : (sel k evs).head? with
    | none => rfl
    | some e =>
      have hm : (k, e) ∈ evs := mem_sel.1 (List.mem_of_mem_head? hh)
      exact h.dim (k, e) (List.mem_append_left _ hm) (k, ⟨ty, 2, id, nodes⟩) (by simp) rfl
  have hhead : (sel k evs ++ [(⟨ty, 2, id, nodes⟩ : Element)]).head?.map (fun e : Element => e.ty.dim) = some ty.dim := by
    cases hh : sel k evs with
    | nil => rfl
    | cons e l =>
      rw [hh] at hdim
      simpa using hdim
  unfold Domain.push domOf
  simp only [hdim, ne_eq, not_true_eq_false, if_false, hs, hhead]
  cases ty <;> simp [kinds1, List.findIdx?_cons, List.filter_append]

theorem foldl_reserve (res : List Nat) :
    ∀ m : DomMap, OMap.Sorted m → (∀ k d, m.lookup k = some d → d = emptyDomain) →
      let m' := res.foldl (fun m k => OMap.upd m k fun d => d.getD emptyDomain) m
      OMap.Sorted m' ∧ ∀ k, m'.lookup k = if k ∈ res ∨ (m.lookup k).isSome then some emptyDomain else none := by
  induction res with
  | nil =>
    intro m hm he
    refine ⟨hm, fun k => ?_⟩
    cases h : m.lookup k with
    | none => simp [h]
    | some d => simp [h, he k d h]
  | cons r res ih =>
    intro m hm he
    have hl := OMap.lookup_upd hm r (fun d => d.getD emptyDomain)
    have he' : ∀ k d, (OMap.upd m r fun d => d.getD emptyDomain).lookup k = some d → d = emptyDomain := by
      intro k d h
      rw [hl] at h
      split at h
      · cases hr : m.lookup r with
        | none => rw [hr] at h; simpa using h.symm
        | some d' => rw [hr] at h; simp at h; rw [← h]; exact he r d' hr
      · exact he k d h
    obtain ⟨h1, h2⟩ := ih _ (OMap.sorted_upd hm r _) he'
    refine ⟨h1, fun k => ?_⟩
    rw [List.foldl_cons, h2]
    refine if_congr ?_ rfl rfl
    rw [hl]
    by_cases hk : k = r
    · simp [hk]
    · rw [if_neg hk]; simp [hk]

/-- What a successful build contains. -/
structure Built (res : List Nat) (evs : List (Nat × Element)) (m : DomMap) : Prop where
  sorted : OMap.Sorted m
  look : ∀ k, m.lookup k = if k ∈ res ∨ k ∈ evs.map (·.1) then some (domOf k evs) else none

theorem build_ok (res : List Nat) (evs : List (Nat × Element)) (h : Good evs) : ∃ m, build res evs = some m ∧ Built res evs m := by
  induction evs using List.reverseRecOn with
  | nil =>
    obtain ⟨h1, h2⟩ := foldl_reserve res [] List.Pairwise.nil (by simp)
    refine ⟨_, rfl, h1, fun k => ?_⟩
    rw [h2]
    have : domOf k [] = emptyDomain := rfl
    simp [this]
  | append_singleton evs ev ih =>
    obtain ⟨m, hm, hb⟩ := ih ⟨fun e he => h.n2 e (by simp [he]), fun a ha b hb' => h.dim a (by simp [ha]) b (by simp [hb'])⟩
    have hcur : (m.lookup ev.1).getD emptyDomain = domOf ev.1 evs := by
      rw [hb.look]
      split
      · rfl
      · rename_i hne
        have : sel ev.1 evs = [] := by
          rw [List.eq_nil_iff_forall_not_mem]
          intro e he
          exact hne (.inr (List.mem_map.2 ⟨_, mem_sel.1 he, rfl⟩))
        simp [domOf, this, kinds1, emptyDomain]
    refine ⟨OMap.upd m ev.1 fun _ => domOf ev.1 (evs ++ [ev]), ?_, OMap.sorted_upd hb.sorted _ _, fun k => ?_⟩
    · unfold build at hm ⊢
      rw [List.foldlM_append, hm]
      simp only [Option.bind_eq_bind, Option.bind_some, List.foldlM_cons, List.foldlM_nil, pushTo, hcur, push_domOf h,
        Option.map_some, Option.pure_def]
    · rw [OMap.lookup_upd hb.sorted]
      by_cases hk : k = ev.1
      · subst hk; simp
      · rw [if_neg hk, hb.look]
        have : domOf k (evs ++ [ev]) = domOf k evs := by
          have : sel k (evs ++ [ev]) = sel k evs := by
            rw [sel_append]
            have : sel k [ev] = [] := by simp [sel, Ne.symm hk]
            simp [this]
          simp [domOf, this]
        rw [this]
        refine if_congr ?_ rfl rfl
        rw [List.map_append, List.mem_append]
        have : k ∉ List.map (·.1) [ev] := by simpa using hk
        tauto

theorem keysNodup_of_sorted {m : DomMap} (h : OMap.Sorted m) : KeysNodup m := by
  have : (m.map (·.1)).Pairwise (· < ·) := List.pairwise_map.2 h
  exact this.imp fun h => Nat.ne_of_lt h

/-- The elements of one domain, in order. -/
theorem elems_domOf {evs : List (Nat × Element)} (h : Good evs) (k : Nat) : (domOf k evs).elems = sel k evs := by
  have hall : ∀ t, (∃ e ∈ sel k evs, e.ty = t) → ∀ e ∈ sel k evs, e.ty = t ∧ e.n = 2 := by
    rintro t ⟨e0, he0, rfl⟩ e he
    refine ⟨?_, h.n2 _ (mem_sel.1 he)⟩
    exact dim_inj (h.dim _ (mem_sel.1 he) _ (mem_sel.1 he0) rfl)
  unfold domOf Domain.elems
  cases hs : sel k evs with
  | nil => simp [kinds1]
  | cons e0 l =>
    rw [← hs]
    have ha := hall e0.ty ⟨e0, by simp [hs], rfl⟩
    generalize sel k evs = L at ha
    have hfull : L.filter (fun e => (e.ty, e.n) == (e0.ty, 2)) = L :=
      List.filter_eq_self.2 fun e he => by rw [(ha e he).1, (ha e he).2]; simp
    have hnone : ∀ t, t ≠ e0.ty → L.filter (fun e => (e.ty, e.n) == (t, 2)) = [] := by
      intro t ht
      rw [List.filter_eq_nil_iff]
      intro e he
      rw [(ha e he).1]
      simp [Ne.symm ht]
    cases ht : e0.ty <;> rw [ht] at hfull hnone <;> simp only [kinds1, List.map_cons, List.map_nil, List.flatten_cons, List.flatten_nil] <;>
      simp [hfull, hnone]

theorem holds_built {res : List Nat} {evs : List (Nat × Element)} {m : DomMap} (hg : Good evs) (hb : Built res evs m) {e : Element} :
    Holds m e ↔ e ∈ evs.map (·.2) := by
  have hk := keysNodup_of_sorted hb.sorted
  have aux : ∀ k, e ∈ sel k evs ↔ ∃ v ∈ (domOf k evs).vecs, e ∈ v := by
    intro k
    rw [← elems_domOf hg, Domain.elems, List.mem_flatten]
  constructor
  · rintro ⟨d, hd, hv⟩
    have hl := lookup_of_mem hk hd
    rw [hb.look] at hl
    split at hl
    · simp only [Option.some.injEq] at hl
      rw [← hl, ← aux] at hv
      exact List.mem_map.2 ⟨_, mem_sel.1 hv, rfl⟩
    · simp at hl
  · intro h
    obtain ⟨ev, hev, rfl⟩ := List.mem_map.1 h
    have hl := hb.look ev.1
    rw [if_pos (.inr (List.mem_map.2 ⟨ev, hev, rfl⟩))] at hl
    exact ⟨_, mem_of_lookup hl, (aux ev.1).1 (mem_sel.2 hev)⟩

/-! ### Numbering -/

theorem mem_number {P : Type} {l : List (Emit P)} {x : Nat × Element} :
    x ∈ number l ↔ ∃ ev i, l[i]? = some ev ∧ x = (ev.dom, ⟨ev.ty, 2, i, ev.nodes⟩) := by
  unfold number
  simp only [List.mem_map, Prod.exists, List.mem_zipIdx_iff_getElem?]
  constructor
  · rintro ⟨ev, i, h, rfl⟩; exact ⟨ev, i, h, rfl⟩
  · rintro ⟨ev, i, h, rfl⟩; exact ⟨ev, i, h, rfl⟩

theorem number_ids {P : Type} (l : List (Emit P)) : (number l).map (·.2.id) = List.range l.length := by
  unfold number
  rw [List.map_map]
  have : ((fun x : Nat × Element => x.2.id) ∘ fun p : Emit P × Nat => (p.1.dom, (⟨p.1.ty, 2, p.2, p.1.nodes⟩ : Element))) = fun p => p.2 := rfl
  rw [this, List.zipIdx_map_snd, List.range'_eq_map_range]
  simp

/-- Emissions to one domain have one element type. -/
def GoodEmits {P : Type} (l : List (Emit P)) : Prop := ∀ a ∈ l, ∀ b ∈ l, a.dom = b.dom → a.ty = b.ty

theorem good_number {P : Type} {l : List (Emit P)} (h : GoodEmits l) : Good (number l) := by
  constructor
  · intro ev hev
    obtain ⟨_, _, _, rfl⟩ := mem_number.1 hev; rfl
  · intro a ha b hb he
    obtain ⟨ea, ia, ha', rfl⟩ := mem_number.1 ha
    obtain ⟨eb, ib, hb', rfl⟩ := mem_number.1 hb
    exact congrArg ElType.dim (h ea (List.mem_of_getElem? ha') eb (List.mem_of_getElem? hb') he)

theorem sel_ids_strict {P : Type} (l : List (Emit P)) (k : Nat) : ((sel k (number l)).map (·.id)).Pairwise (· < ·) := by
  have h1 : ((number l).map (·.2.id)).Pairwise (· < ·) := by rw [number_ids]; exact List.pairwise_lt_range
  unfold sel
  rw [List.map_map]
  exact h1.sublist ((List.filter_sublist).map _)

/-- The element ids of the mesh are `0, ..., N-1`, each occurring once. -/
theorem built_ids {P : Type} {res : List Nat} {l : List (Emit P)} {m : DomMap} (hg : GoodEmits l) (hb : Built res (number l) m) :
    ((visitAll m).map (·.id)).Perm (List.range l.length) := by
  have hk := keysNodup_of_sorted hb.sorted
  have hids : ((number l).map (·.2.id)).Nodup := by rw [number_ids]; exact List.nodup_range
  have huniq : ∀ a ∈ number l, ∀ b ∈ number l, a.2.id = b.2.id → a = b := fun a ha b hb h => List.inj_on_of_nodup_map hids ha hb h
  have hn1 : ((number l).map (·.2)).Nodup := by
    have : ((number l).map (·.2)).map (·.id) = (number l).map (·.2.id) := by rw [List.map_map]; rfl
    exact List.Nodup.of_map _ (this ▸ hids)
  have hvis : visitAll m = m.flatMap fun d => d.2.elems := by
    unfold visitAll visitIds
    have : existing m (m.map (·.1)) = m.map (·.1) := by
      unfold existing
      rw [List.filter_eq_self]
      intro i hi
      exact (OMap.lookup_isSome_iff m i).2 hi
    rw [this, List.flatMap_map]
    apply List.flatMap_congr
    intro d hd
    simp [lookup_of_mem hk hd]
  have helems : ∀ d ∈ m, d.2.elems = sel d.1 (number l) := by
    intro d hd
    have hl := lookup_of_mem hk hd
    rw [hb.look] at hl
    split at hl
    · simp only [Option.some.injEq] at hl
      rw [← hl, elems_domOf (good_number hg)]
    · simp at hl
  have hn2 : (visitAll m).Nodup := by
    rw [hvis]
    unfold List.Nodup
    rw [List.pairwise_flatMap]
    refine ⟨fun d hd => ?_, ?_⟩
    · rw [helems d hd]
      exact List.Nodup.of_map (fun e : Element => e.id) ((sel_ids_strict l d.1).imp fun h => Nat.ne_of_lt h)
    · have := hb.sorted
      unfold OMap.Sorted at this
      refine List.Pairwise.imp_of_mem ?_ this
      intro a b ha hb' hab x hx y hy hxy
      rw [helems a ha] at hx
      rw [helems b hb'] at hy
      have := huniq _ (mem_sel.1 hx) _ (mem_sel.1 hy) (by rw [hxy])
      have : a.1 = b.1 := (Prod.mk.injEq _ _ _ _ ▸ this).1
      omega
  have hp : (visitAll m).Perm ((number l).map (·.2)) := by
    rw [List.perm_ext_iff_of_nodup hn2 hn1]
    intro e
    rw [mem_visitAll hk, holds_built (good_number hg) hb]
  have := hp.map (·.id)
  rw [List.map_map] at this
  exact this.trans (by rw [show ((fun e : Element => e.id) ∘ fun x : Nat × Element => x.2) = fun x => x.2.id from rfl, number_ids])

/-- Every vector of a built mesh is sorted by element id. -/
theorem built_sorted {P : Type} {res : List Nat} {l : List (Emit P)} {m : DomMap} (hb : Built res (number l) m) :
    ∀ d ∈ m, ∀ v ∈ d.2.vecs, (v.map (·.id)).Pairwise (· < ·) := by
  intro d hd v hv
  have hl := lookup_of_mem (keysNodup_of_sorted hb.sorted) hd
  rw [hb.look] at hl
  split at hl
  · simp only [Option.some.injEq] at hl
    rw [← hl] at hv
    simp only [domOf, List.mem_map] at hv
    obtain ⟨kd, _, rfl⟩ := hv
    exact (sel_ids_strict l d.1).sublist ((List.filter_sublist).map _)
  · simp at hl

/-- An emitted element is in its domain; every element of the domain was emitted to it. -/
theorem built_domain {P : Type} {res : List Nat} {l : List (Emit P)} {m : DomMap} (hg : GoodEmits l) (hb : Built res (number l) m)
    {k : Nat} (hk : k ∈ res) : ∃ d, m.lookup k = some d ∧ d.elems = sel k (number l) ∧
      d.dim = (sel k (number l)).head?.map (·.ty.dim) := by
  refine ⟨domOf k (number l), ?_, elems_domOf (good_number hg) k, rfl⟩
  rw [hb.look, if_pos (.inl hk)]

theorem mem_sel_number {P : Type} {l : List (Emit P)} {k : Nat} {e : Element} :
    e ∈ sel k (number l) ↔ ∃ ev, l[e.id]? = some ev ∧ ev.dom = k ∧ e = ⟨ev.ty, 2, e.id, ev.nodes⟩ := by
  rw [mem_sel, mem_number]
  constructor
  · rintro ⟨ev, i, h, he⟩
    simp only [Prod.mk.injEq] at he
    obtain ⟨rfl, rfl⟩ := he
    exact ⟨ev, h, rfl, rfl⟩
  · rintro ⟨ev, h, rfl, he⟩
    exact ⟨ev, e.id, h, by rw [← he]⟩

theorem exists_sel_of_emit {P : Type} {l : List (Emit P)} {ev : Emit P} (h : ev ∈ l) :
    ∃ e ∈ sel ev.dom (number l), e.ty = ev.ty ∧ e.n = 2 ∧ e.nodes = ev.nodes := by
  obtain ⟨i, hi, he⟩ := List.mem_iff_getElem.1 h
  exact ⟨⟨ev.ty, 2, i, ev.nodes⟩, mem_sel_number.2 ⟨ev, by simp [hi, he], rfl, rfl⟩, rfl, rfl, rfl⟩

theorem emit_of_sel {P : Type} {l : List (Emit P)} {k : Nat} {e : Element} (h : e ∈ sel k (number l)) :
    ∃ ev ∈ l, ev.dom = k ∧ e.ty = ev.ty ∧ e.n = 2 ∧ e.nodes = ev.nodes := by
  obtain ⟨ev, h1, h2, h3⟩ := mem_sel_number.1 h
  refine ⟨ev, List.mem_of_getElem? h1, h2, ?_, ?_, ?_⟩ <;> rw [h3]

theorem length_sel_number {P : Type} (l : List (Emit P)) (k : Nat) :
    (sel k (number l)).length = (l.filter fun e => e.dom == k).length := by
  unfold sel number
  rw [List.length_map, ← List.countP_eq_length_filter, List.countP_map, ← List.countP_eq_length_filter]
  have : l = l.zipIdx.map (·.1) := by simp
  conv_rhs => rw [this, List.countP_map]
  rfl

end Verif.Prim
