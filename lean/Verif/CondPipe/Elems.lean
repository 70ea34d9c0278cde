import Verif.CondPipe.Model

/-! # The condensed elements of the parts are those of the mesh -/
namespace Verif.CondPipe
open Verif Verif.Elem Verif.Mesh Verif.Dofs Verif.Lsq Verif.Distr Verif.Pipeline Verif.Partition Verif.Split Verif.PerPipe Verif.CondInit Verif.CondDistr

noncomputable section

theorem flatMap_ite {A B : Type} [DecidableEq A] (g : A → List B) (k : A) : ∀ {l : List A}, l.Nodup → (l.flatMap fun a => if k = a then g a else []) = if k ∈ l then g k else []
  | [], _ => rfl
  | a :: l, h => by
    rw [List.flatMap_cons, flatMap_ite g k (List.nodup_cons.1 h).2]
    by_cases ha : k = a
    · subst ha
      rw [if_pos rfl, if_neg (List.nodup_cons.1 h).1, if_pos (List.mem_cons_self ..), List.append_nil]
    · rw [if_neg ha, List.nil_append]
      by_cases hl : k ∈ l
      · rw [if_pos hl, if_pos (List.mem_cons_of_mem _ hl)]
      · rw [if_neg hl, if_neg (by simp [ha, hl])]

theorem filter_flatMap {A : Type} (q : A → Prop) [DecidablePred q] (l : List A) : (l.filter fun a => decide (q a)) = l.flatMap fun a => if q a then [a] else [] := by
  induction l with
  | nil => rfl
  | cons a l ih =>
    rw [List.filter_cons, List.flatMap_cons, ← ih]
    by_cases h : q a <;> simp [h]

/-- Sorting a list by key loses nothing. -/
theorem sorted_perm {A B : Type} [DecidableEq B] (key : A → B) {E : List B} (hE : E.Nodup) (V : List A) (h : ∀ v ∈ V, key v ∈ E) :
    (E.flatMap fun e => V.filter fun v => decide (key v = e)).Perm V := by
  have e1 : (fun e => V.filter fun v => decide (key v = e)) = fun e => V.flatMap fun v => if key v = e then [v] else [] :=
    funext fun e => filter_flatMap (fun v => key v = e) V
  rw [e1]
  refine (flatMap_swap _ _ _).trans ?_
  have e2 : (V.flatMap fun v => E.flatMap fun e => if key v = e then [v] else []) = V.flatMap fun v => [v] :=
    List.flatMap_congr fun v hv => by rw [flatMap_ite (fun _ => [v]) (key v) hE, if_pos (h v hv)]
  rw [e2]
  simp

theorem lookup_none {m : DomMap} {k : Nat} (h : k ∉ m.map (·.1)) : m.lookup k = none := by
  cases hk : m.lookup k with
  | none => rfl
  | some d => exact absurd (List.mem_map.2 ⟨(k, d), Mesh.mem_of_lookup hk, rfl⟩) h

theorem inDom_key {m : DomMap} {k : Nat} {e : Element} (h : InDom m k e) : k ∈ m.map (·.1) := by
  obtain ⟨d, hd, _⟩ := h
  exact List.mem_map.2 ⟨(k, d), Mesh.mem_of_lookup hd, rfl⟩

theorem mem_entries {p : Prog} {m : DomMap} {q : Nat × Element} : q ∈ entries p m ↔ hasDom p q.1 = true ∧ InDom m q.1 q.2 := by
  unfold entries tagged
  rw [List.mem_flatMap]
  constructor
  · rintro ⟨k, hk, hq⟩
    obtain ⟨e, he, rfl⟩ := List.mem_map.1 hq
    exact ⟨(List.mem_filter.1 hk).2, mem_visit_single.1 he⟩
  · rintro ⟨h1, h2⟩
    exact ⟨q.1, List.mem_filter.2 ⟨inDom_key h2, h1⟩, List.mem_map.2 ⟨q.2, mem_visit_single.2 h2, rfl⟩⟩

theorem hasDom_iff {p : Prog} {k : Nat} : hasDom p k = true ↔ ∃ d ∈ p.pdef, k ∈ d.1 := by
  unfold hasDom
  simp

theorem mem_activeIn {p : Prog} (hc : ∀ d ∈ p.pdef, ∀ j ∈ d.2, j < p.dpn) {k j : Nat} : j ∈ activeIn p k ↔ ∃ d ∈ p.pdef, k ∈ d.1 ∧ j ∈ d.2 := by
  unfold activeIn
  rw [List.mem_filter, List.mem_range]
  simp only [List.any_eq_true, Bool.and_eq_true, decide_eq_true_eq]
  exact ⟨fun h => h.2, fun h => ⟨by obtain ⟨d, hd, _, hj⟩ := h; exact hc d hd j hj, h⟩⟩

/-- A kernel on domains: its elements by entry. -/
theorem dom_perm {B : Type} {p : Prog} {m : DomMap} (hk : KeysNodup m) (h : Element → B) : ∀ ks : List Nat, (∀ k ∈ ks, hasDom p k = true) →
    ((entries p m).flatMap fun q => (ks.filter fun k' => decide (k' = q.1)).map fun _ => h q.2).Perm ((visitIds m ks).map h)
  | [], _ => by
    have : ((entries p m).flatMap fun q => (([] : List Nat).filter fun k' => decide (k' = q.1)).map fun _ => h q.2) = [] := by simp
    rw [this]
    simp [visitIds, existing]
  | k :: ks, hd => by
    have ih := dom_perm hk h ks fun k' hk' => hd k' (by simp [hk'])
    rw [visitIds_cons, List.map_append]
    have e1 : (fun q : Nat × Element => ((k :: ks).filter fun k' => decide (k' = q.1)).map fun _ => h q.2) =
        fun q => (if k = q.1 then [h q.2] else []) ++ (ks.filter fun k' => decide (k' = q.1)).map fun _ => h q.2 := by
      funext q
      rw [List.filter_cons]
      by_cases hq : k = q.1 <;> simp [hq]
    rw [e1]
    refine (flatMap_append_perm _ _ _).trans (List.Perm.append ?_ ih)
    have e2 : ((entries p m).flatMap fun q => if k = q.1 then [h q.2] else []) = (visitIds m [k]).map h := by
      unfold entries tagged
      rw [List.flatMap_assoc]
      have e3 : (fun k' => ((visitIds m [k']).map fun e => (k', e)).flatMap fun q : Nat × Element => if k = q.1 then [h q.2] else []) =
          fun k' => if k = k' then (visitIds m [k']).map h else [] := by
        funext k'
        by_cases hkk : k = k'
        · subst hkk
          rw [if_pos rfl, List.flatMap_map, List.map_eq_flatMap]
          exact List.flatMap_congr fun e _ => if_pos rfl
        · rw [if_neg hkk, List.flatMap_map]
          simp [hkk]
      rw [e3, flatMap_ite (fun k' => (visitIds m [k']).map h) k (hk.filter _)]
      by_cases hmem : k ∈ m.map (·.1)
      · rw [if_pos (List.mem_filter.2 ⟨hmem, hd k (by simp)⟩)]
      · rw [if_neg fun hc => hmem (List.mem_filter.1 hc).1, visitIds_single, lookup_none hmem]
        rfl
    rw [e2]

/-- The local systems computed for the condensed elements are those of the program. -/
theorem cels_perm {p : Prog} {m : DomMap} (hk : KeysNodup m) (hn : ((entries p m).map (·.2)).Nodup) (hd : ∀ K ∈ p.kernels, ∀ k ∈ K.doms, hasDom p k = true)
    (hb : ∀ K ∈ p.bkernels, ∀ v ∈ (visitIds m K.bnds).filterMap (viewOf m), v.1 ∈ (entries p m).map (·.2)) :
    ((cels p m).flatMap fun e => e.kernels.map fun k => (⟨e.el.nodes, k.inds, k.dims, k.pts⟩ : MElem)).Perm (p.melems m) := by
  unfold cels Prog.melems
  rw [List.flatMap_map]
  have e1 : (fun q : Nat × Element => ((⟨toEl q.1 q.2, activeIn p q.1, kersOf p m q.1 q.2⟩ : CEl).kernels.map fun k =>
      (⟨(⟨toEl q.1 q.2, activeIn p q.1, kersOf p m q.1 q.2⟩ : CEl).el.nodes, k.inds, k.dims, k.pts⟩ : MElem))) =
      fun q => (p.kernels.flatMap fun K => (K.doms.filter fun k' => decide (k' = q.1)).map fun _ => (⟨q.2.nodes, K.inds, K.dims q.2.ty q.2.n, K.pts q.2.ty q.2.n q.2.id⟩ : MElem)) ++
        p.bkernels.flatMap fun K => (((visitIds m K.bnds).filterMap (viewOf m)).filter fun v => decide (v.1 = q.2)).map fun v =>
          (⟨v.1.nodes, K.inds, K.dims v.1.ty v.1.n, K.pts v.1.ty v.1.n v.1.id v.2⟩ : MElem) := by
    funext q
    change (kersOf p m q.1 q.2).map _ = _
    unfold kersOf
    rw [List.map_append, List.map_flatMap, List.map_flatMap]
    congr 1
    · refine List.flatMap_congr fun K _ => ?_
      rw [List.map_map]
      rfl
    · refine List.flatMap_congr fun K _ => ?_
      rw [List.map_map]
      refine List.map_congr_left fun v hv => ?_
      have : v.1 = q.2 := by simpa using (List.mem_filter.1 hv).2
      rw [this]
      rfl
  rw [e1]
  refine (flatMap_append_perm _ _ _).trans (List.Perm.append ?_ ?_)
  · refine (flatMap_swap _ _ _).trans (flatMap_perm_congr fun K hK => ?_)
    exact dom_perm hk (fun e => (⟨e.nodes, K.inds, K.dims e.ty e.n, K.pts e.ty e.n e.id⟩ : MElem)) K.doms (hd K hK)
  · refine (flatMap_swap _ _ _).trans (flatMap_perm_congr fun K hK => ?_)
    have := (sorted_perm (fun v : Element × Nat => v.1) hn ((visitIds m K.bnds).filterMap (viewOf m)) (hb K hK)).map
      fun v => (⟨v.1.nodes, K.inds, K.dims v.1.ty v.1.n, K.pts v.1.ty v.1.n v.1.id v.2⟩ : MElem)
    rw [List.map_flatMap, List.flatMap_map] at this
    exact this

end

end Verif.CondPipe
