import Verif.Mesh.Props
import Mathlib.Data.List.Induction

/-! # Meshes assembled by successive `pushToDomain(domains[id], element)` calls -/
namespace Verif.Mesh
open Verif Verif.Elem

/-- A default-constructed `Domain` for the container types `kinds` (Domain.hpp 24-38). -/
def emptyDom (kinds : List (ElType × Nat)) : Domain := ⟨none, kinds.map fun _ => []⟩

/-- `pushToDomain(domains[id], element)`. (Domain.hpp 48-68; called at PartitionMesh.hpp 239, SplitMesh.hpp 54, 73, 77) -/
def pushTo (kinds : List (ElType × Nat)) (m : DomMap) (ev : Nat × Element) : Option DomMap :=
  (((m.lookup ev.1).getD (emptyDom kinds)).push kinds ev.2).map fun d => OMap.upd m ev.1 fun _ => d

/-- A sequence of such calls; `none` = one of them throws. (Domain.hpp 48-57) -/
def pushAll (kinds : List (ElType × Nat)) (m : DomMap) (evs : List (Nat × Element)) : Option DomMap :=
  evs.foldlM (pushTo kinds) m

/-- Elements sent to domain `k`. -/
def sel (k : Nat) (evs : List (Nat × Element)) : List Element := (evs.filter fun e => e.1 == k).map (·.2)

/-- Element type and order. -/
def Element.kind (e : Element) : ElType × Nat := (e.ty, e.n)

/-- The domain `d` with the elements `l` appended, each to the vector of its type and order. -/
def grow (kinds : List (ElType × Nat)) (d : Domain) (l : List Element) : Domain :=
  ⟨d.dim.or (l.head?.map (·.ty.dim)), List.zipWith (fun v kd => v ++ l.filter fun e => e.kind == kd) d.vecs kinds⟩

theorem sel_append (k : Nat) (a b : List (Nat × Element)) : sel k (a ++ b) = sel k a ++ sel k b := by simp [sel]

theorem mem_sel {k : Nat} {evs : List (Nat × Element)} {e : Element} : e ∈ sel k evs ↔ (k, e) ∈ evs := by
  simp only [sel, List.mem_map, List.mem_filter, beq_iff_eq]
  constructor
  · rintro ⟨⟨a, b⟩, ⟨h, rfl⟩, rfl⟩; exact h
  · intro h; exact ⟨_, ⟨h, rfl⟩, rfl⟩

theorem grow_nil (kinds : List (ElType × Nat)) (d : Domain) (h : d.vecs.length = kinds.length) : grow kinds d [] = d := by
  unfold grow
  have : List.zipWith (fun v kd => v ++ List.filter (fun e : Element => e.kind == kd) []) d.vecs kinds = d.vecs := by
    apply List.ext_getElem (by simp [h])
    intro i h1 h2
    simp
  rw [this]; simp

theorem push_grow {kinds : List (ElType × Nat)} (hk : kinds.Nodup) {d : Domain} (hd : d.vecs.length = kinds.length)
    {l : List Element} {e : Element} (he : e.kind ∈ kinds) (hdim : ∀ x, (grow kinds d l).dim = some x → x = e.ty.dim) :
    (grow kinds d l).push kinds e = some (grow kinds d (l ++ [e])) := by
  have h1 : (grow kinds d l).dim.getD e.ty.dim = e.ty.dim := by
    cases h : (grow kinds d l).dim with
    | none => rfl
    | some x => exact hdim x h
  obtain ⟨i, hi, hie⟩ := List.mem_iff_getElem.1 he
  have h2 : kinds.findIdx? (· == e.kind) = some i := by
    rw [List.findIdx?_eq_some_iff_getElem]
    refine ⟨hi, by simp [hie], fun j hj => ?_⟩
    have : kinds[j] ≠ kinds[i] := fun hc => by
      have := (List.Nodup.getElem_inj_iff hk).1 hc; omega
    rw [hie] at this; simpa using this
  unfold Domain.push
  simp only [h1, ne_eq, not_true_eq_false, if_false]
  rw [show (e.ty, e.n) = e.kind from rfl, h2]
  simp only [Option.some.injEq]
  unfold grow
  congr 1
  · cases hdd : d.dim with
    | some x =>
      have := hdim x (by simp [grow, hdd]); simp [this]
    | none =>
      cases l with
      | nil => rfl
      | cons a l =>
        have := hdim a.ty.dim (by simp [grow, hdd]); simp [this]
  · apply List.ext_getElem (by simp)
    intro j h3 h4
    simp only [List.length_set, List.length_zipWith] at h3
    rw [List.getElem_set]
    simp only [List.getElem_zipWith, List.filter_append]
    by_cases hij : i = j
    · subst hij
      rw [if_pos rfl, List.getD_eq_getElem?_getD, List.getElem?_eq_getElem (by simp; omega)]
      simp [hie]
    · rw [if_neg hij]
      have : kinds[j] ≠ kinds[i] := fun hc => by
        have := (List.Nodup.getElem_inj_iff hk).1 hc; omega
      rw [hie] at this
      have : List.filter (fun e => e.kind == kinds[j]) [e] = [] := by simpa using fun h => this h.symm
      simp [this]

/-- Preconditions for a sequence of pushes onto `m`. -/
structure PushOk (kinds : List (ElType × Nat)) (m : DomMap) (evs : List (Nat × Element)) : Prop where
  nodup : kinds.Nodup
  sorted : OMap.Sorted m
  shape : ∀ k d, m.lookup k = some d → d.vecs.length = kinds.length
  kind : ∀ ev ∈ evs, ev.2.kind ∈ kinds
  dim : ∀ a ∈ evs, ∀ b ∈ evs, a.1 = b.1 → a.2.ty.dim = b.2.ty.dim
  dim0 : ∀ ev ∈ evs, ∀ d x, m.lookup ev.1 = some d → d.dim = some x → x = ev.2.ty.dim

theorem pushAll_spec {kinds : List (ElType × Nat)} {m : DomMap} {evs : List (Nat × Element)} (h : PushOk kinds m evs) :
    ∃ m', pushAll kinds m evs = some m' ∧ OMap.Sorted m' ∧ ∀ k, m'.lookup k =
      if k ∈ evs.map (·.1) ∨ (m.lookup k).isSome then some (grow kinds ((m.lookup k).getD (emptyDom kinds)) (sel k evs)) else none := by
  have hshape : ∀ k, ((m.lookup k).getD (emptyDom kinds)).vecs.length = kinds.length := by
    intro k
    cases hl : m.lookup k with
    | none => simp [emptyDom]
    | some d => exact h.shape k d hl
  induction evs using List.reverseRecOn with
  | nil =>
    refine ⟨m, rfl, h.sorted, fun k => ?_⟩
    rw [show sel k [] = [] from rfl, grow_nil _ _ (hshape k)]
    cases m.lookup k <;> simp
  | append_singleton evs ev ih =>
    obtain ⟨m', h1, h2, h3⟩ := ih ⟨h.nodup, h.sorted, h.shape, fun e he => h.kind e (by simp [he]),
      fun a ha b hb => h.dim a (by simp [ha]) b (by simp [hb]), fun e he => h.dim0 e (by simp [he])⟩
    have hcur : (m'.lookup ev.1).getD (emptyDom kinds) = grow kinds ((m.lookup ev.1).getD (emptyDom kinds)) (sel ev.1 evs) := by
      rw [h3]
      split
      · rfl
      · rename_i hne
        rw [not_or] at hne
        have hs : sel ev.1 evs = [] := by
          rw [List.eq_nil_iff_forall_not_mem]
          intro e he
          exact hne.1 (List.mem_map.2 ⟨_, mem_sel.1 he, rfl⟩)
        have hn : m.lookup ev.1 = none := by
          cases hl : m.lookup ev.1 with
          | none => rfl
          | some d => exact absurd (by simp [hl]) hne.2
        rw [hs, hn, grow_nil _ _ (by simp [emptyDom])]
    have hsel : sel ev.1 (evs ++ [ev]) = sel ev.1 evs ++ [ev.2] := by rw [sel_append]; simp [sel]
    have hpush : ((m'.lookup ev.1).getD (emptyDom kinds)).push kinds ev.2 =
        some (grow kinds ((m.lookup ev.1).getD (emptyDom kinds)) (sel ev.1 (evs ++ [ev]))) := by
      rw [hcur, hsel]
      refine push_grow h.nodup (hshape _) (h.kind ev (by simp)) fun x hx => ?_
      unfold grow at hx
      simp only at hx
      cases hd : ((m.lookup ev.1).getD (emptyDom kinds)).dim with
      | some y =>
        rw [hd] at hx; simp only [Option.some_or, Option.some.injEq] at hx
        subst hx
        cases hl : m.lookup ev.1 with
        | none => rw [hl] at hd; simp [emptyDom] at hd
        | some d => rw [hl] at hd; exact h.dim0 ev (by simp) d y hl hd
      | none =>
        rw [hd] at hx
        simp only [Option.none_or, Option.map_eq_some_iff] at hx
        obtain ⟨e, he, rfl⟩ := hx
        have := mem_sel.1 (List.mem_of_mem_head? he)
        exact h.dim (ev.1, e) (by simp [this]) ev (by simp) rfl
    refine ⟨OMap.upd m' ev.1 fun _ => grow kinds ((m.lookup ev.1).getD (emptyDom kinds)) (sel ev.1 (evs ++ [ev])), ?_,
      OMap.sorted_upd h2 _ _, fun k => ?_⟩
    · unfold pushAll at h1 ⊢
      rw [List.foldlM_append, h1]
      simp only [Option.bind_eq_bind, Option.bind_some, List.foldlM_cons, List.foldlM_nil, pushTo, hpush, Option.map_some, Option.pure_def]
    · rw [OMap.lookup_upd h2]
      by_cases hk : k = ev.1
      · subst hk; simp
      · rw [if_neg hk, h3]
        have : sel k (evs ++ [ev]) = sel k evs := by
          rw [sel_append]
          have : sel k [ev] = [] := by simp [sel, Ne.symm hk]
          simp [this]
        rw [this]
        refine if_congr ?_ rfl rfl
        rw [List.map_append, List.mem_append]
        have : k ∉ List.map (·.1) [ev] := by simpa using hk
        tauto

/-- A domain as built by the library: one vector per element type and order, elements of one
dimension, the dimension recorded. -/
structure WfDomain (kinds : List (ElType × Nat)) (d : Domain) : Prop where
  len : d.vecs.length = kinds.length
  kind : ∀ i (h : i < d.vecs.length), ∀ e ∈ d.vecs[i], e.kind = kinds[i]'(by omega)
  dim : ∀ e ∈ d.elems, d.dim = some e.ty.dim

structure WfMesh (kinds : List (ElType × Nat)) (m : DomMap) : Prop where
  nodup : kinds.Nodup
  sorted : OMap.Sorted m
  dom : ∀ k d, m.lookup k = some d → WfDomain kinds d

theorem WfDomain.mem_kind {kinds : List (ElType × Nat)} {d : Domain} (h : WfDomain kinds d) {e : Element} (he : e ∈ d.elems) : e.kind ∈ kinds := by
  obtain ⟨v, hv, he⟩ := List.mem_flatten.1 he
  obtain ⟨i, hi, rfl⟩ := List.mem_iff_getElem.1 hv
  rw [h.kind i hi e he]; exact List.getElem_mem _

theorem flatten_ite_range {α : Type} (N i : Nat) (hi : i < N) (X : List α) :
    ((List.range N).map fun j => if j = i then X else []).flatten = X := by
  induction N with
  | zero => omega
  | succ N ih =>
    rw [List.range_succ, List.map_append, List.flatten_append]
    by_cases hc : i = N
    · subst hc
      have : ((List.range i).map fun j => if j = i then X else []).flatten = [] := by
        rw [List.flatten_eq_nil_iff]
        intro l hl
        obtain ⟨j, hj, rfl⟩ := List.mem_map.1 hl
        rw [List.mem_range] at hj
        rw [if_neg (by omega)]
      simp [this]
    · rw [ih (by omega)]
      simp [Ne.symm hc]

/-- Filtering the elements of a well-formed domain by type recovers its vectors. -/
theorem filter_kind {kinds : List (ElType × Nat)} (hk : kinds.Nodup) {d : Domain} (h : WfDomain kinds d) (q : Element → Bool)
    (i : Nat) (hi : i < d.vecs.length) :
    (d.elems.filter q).filter (fun e => e.kind == kinds[i]'(by rw [← h.len]; exact hi)) = d.vecs[i].filter q := by
  have hlen := h.len
  unfold Domain.elems
  rw [List.filter_filter]
  rw [List.filter_flatten]
  have key : ∀ j (hj : j < d.vecs.length), d.vecs[j].filter (fun a => (a.kind == kinds[i]'(by omega)) && q a) =
      if j = i then d.vecs[i].filter q else [] := by
    intro j hj
    split
    · rename_i hji
      subst hji
      exact List.filter_congr fun e he => by rw [h.kind j hj e he]; simp
    · rename_i hne
      rw [List.filter_eq_nil_iff]
      intro e he
      rw [h.kind j hj e he]
      have : kinds[j]'(by omega) ≠ kinds[i]'(by omega) := fun hc => hne ((List.Nodup.getElem_inj_iff hk).1 hc)
      simp [this]
  have hmap : d.vecs.map (List.filter fun a => (a.kind == kinds[i]'(by omega)) && q a) =
      (List.range d.vecs.length).map fun j => if j = i then d.vecs[i].filter q else [] := by
    apply List.ext_getElem (by simp)
    intro j h1 h2
    simp only [List.length_map] at h1
    simp only [List.getElem_map, List.getElem_range, key j h1]
  rw [hmap]
  generalize d.vecs[i].filter q = X
  exact flatten_ite_range _ _ hi X

/-- Pushing the elements of a well-formed domain which satisfy `q` into a fresh domain. -/
theorem grow_filter {kinds : List (ElType × Nat)} (hk : kinds.Nodup) {d : Domain} (h : WfDomain kinds d) (q : Element → Bool)
    (hne : d.elems.filter q ≠ []) : grow kinds (emptyDom kinds) (d.elems.filter q) = ⟨d.dim, d.vecs.map (List.filter q)⟩ := by
  unfold grow
  congr 1
  · obtain ⟨a, ha⟩ := List.exists_mem_of_ne_nil _ hne
    have hhd : ∃ b, (d.elems.filter q).head? = some b := by
      cases hl : d.elems.filter q with
      | nil => exact absurd hl hne
      | cons b l => exact ⟨b, rfl⟩
    obtain ⟨b, hb⟩ := hhd
    rw [hb]
    have := h.dim b (List.mem_filter.1 (List.mem_of_mem_head? hb)).1
    simp [emptyDom, this]
  · apply List.ext_getElem (by simp [emptyDom, h.len])
    intro i h1 h2
    simp only [List.length_map] at h2
    simp only [List.getElem_zipWith, emptyDom, List.getElem_map, List.nil_append]
    exact filter_kind hk h q i h2

end Verif.Mesh
