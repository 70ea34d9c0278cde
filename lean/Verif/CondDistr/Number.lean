import Verif.CondDistr.Inds

/-! # Numbering of primary and internal unknowns -/
namespace Verif.CondDistr
open Verif Verif.Dofs Verif.Lsq Verif.Distr Verif.Condense Verif.CondInit Finset

noncomputable section

variable {C : CProblem} {Q : CRun}

/-! ### The two problems -/

theorem mem_bndNodes {e : El} {n : Nat} : n ∈ e.bndNodes ↔ ∃ v < e.nodes.length, e.bnd v = true ∧ e.nodes.getD v 0 = n := by
  unfold El.bndNodes El.bndPos
  simp only [List.mem_map, List.mem_filter, List.mem_range, and_assoc]

theorem mem_intNodes {e : El} {n : Nat} : n ∈ e.intNodes ↔ ∃ v < e.nodes.length, e.bnd v = false ∧ e.nodes.getD v 0 = n := by
  unfold El.intNodes El.intPos
  simp only [List.mem_map, List.mem_filter, List.mem_range, and_assoc, Bool.not_eq_true', Bool.not_eq_eq_eq_not, Bool.not_true]

theorem getD_mem {l : List Nat} {v : Nat} (h : v < l.length) : l.getD v 0 ∈ l := by
  rw [List.getD_eq_getElem?_getD, List.getElem?_eq_getElem h]
  exact List.getElem_mem h

theorem mem_nodes {e : El} {n : Nat} : n ∈ e.nodes ↔ n ∈ e.bndNodes ∨ n ∈ e.intNodes := by
  rw [mem_bndNodes, mem_intNodes]
  constructor
  · intro h
    obtain ⟨v, hv, rfl⟩ := List.mem_iff_getElem.1 h
    have hg : e.nodes.getD v 0 = e.nodes[v] := by rw [List.getD_eq_getElem?_getD, List.getElem?_eq_getElem hv]; rfl
    cases hb : e.bnd v
    · exact Or.inr ⟨v, hv, hb, hg⟩
    · exact Or.inl ⟨v, hv, hb, hg⟩
  · rintro (⟨v, hv, _, rfl⟩ | ⟨v, hv, _, rfl⟩) <;> exact getD_mem hv

theorem prim_ok (hC : C.Ok) : C.prim.Ok := by
  refine ⟨by simp [CProblem.prim], by simp [CProblem.prim], ?_, hC.refl, by simp [CProblem.prim]⟩
  intro w hw
  obtain ⟨e, he, rfl⟩ := List.mem_map.1 hw
  exact ⟨fun n hn => hC.nodes e he n (mem_nodes.2 (Or.inl hn)), hC.active e he⟩

theorem full_elem {a : MElem} (ha : a ∈ C.full.elems) : ∃ e ∈ C.els, ∃ k ∈ e.kernels, a = ⟨e.el.nodes, k.inds, k.dims, k.pts⟩ := by
  obtain ⟨e, he, ha⟩ := List.mem_flatMap.1 ha
  obtain ⟨k, hk, rfl⟩ := List.mem_map.1 ha
  exact ⟨e, he, k, hk, rfl⟩

theorem full_ok (hC : C.Ok) : C.full.Ok := by
  refine ⟨?_, ?_, ?_, hC.refl, ?_⟩
  · intro a ha
    obtain ⟨e, he, k, hk, rfl⟩ := full_elem ha
    exact hC.sized e he k hk
  · intro a ha
    obtain ⟨e, he, k, hk, rfl⟩ := full_elem ha
    exact ⟨⟨e.el.nodes, e.active⟩, List.mem_map.2 ⟨e, he, rfl⟩, fun _ h => h, (hC.inds e he k hk).1⟩
  · intro w hw
    obtain ⟨e, he, rfl⟩ := List.mem_map.1 hw
    exact ⟨hC.nodes e he, hC.active e he⟩
  · intro a ha
    obtain ⟨e, he, k, hk, rfl⟩ := full_elem ha
    exact hC.weights e he k hk

theorem prim_used {k : Nat × Nat} : C.prim.toProblem.used k ↔ C.node k.1 ∧ k.2 < C.dpn ∧ ∃ e ∈ C.els, ∃ m ∈ e.el.bndNodes, k.2 ∈ e.active ∧ C.ident k.2 m k.1 := by
  unfold MProblem.toProblem CProblem.prim
  simp only [List.mem_map, exists_exists_and_eq_and]

theorem full_used {k : Nat × Nat} : C.full.toProblem.used k ↔ C.node k.1 ∧ k.2 < C.dpn ∧ ∃ e ∈ C.els, ∃ m ∈ e.el.nodes, k.2 ∈ e.active ∧ C.ident k.2 m k.1 := by
  unfold MProblem.toProblem CProblem.full
  simp only [List.mem_map, exists_exists_and_eq_and]

/-- The pair is an internal unknown of an element. -/
def IsInt (C : CProblem) (k : Nat × Nat) : Prop := ∃ e ∈ C.els, k.1 ∈ e.el.intNodes ∧ k.2 ∈ e.active

theorem used_split (hC : C.Ok) {k : Nat × Nat} : C.full.toProblem.used k ↔ C.prim.toProblem.used k ∨ IsInt C k := by
  rw [full_used, prim_used]
  constructor
  · rintro ⟨h1, h2, e, he, m, hm, hj, hi⟩
    rcases mem_nodes.1 hm with hb | hb
    · exact Or.inl ⟨h1, h2, e, he, m, hb, hj, hi⟩
    · have := hC.single e he m hb k.2 k.1 (Or.inl hi)
      subst this
      exact Or.inr ⟨e, he, hb, hj⟩
  · rintro (⟨h1, h2, e, he, m, hm, hj, hi⟩ | ⟨e, he, hb, hj⟩)
    · exact ⟨h1, h2, e, he, m, mem_nodes.2 (Or.inl hm), hj, hi⟩
    · have hn := hC.nodes e he _ (mem_nodes.2 (Or.inr hb))
      exact ⟨hn, hC.active e he _ hj, e, he, k.1, mem_nodes.2 (Or.inr hb), hj, hC.refl _ _ hn⟩

theorem int_not_prim (hC : C.Ok) {k : Nat × Nat} (h : IsInt C k) : ¬ C.prim.toProblem.used k := by
  rw [prim_used]
  rintro ⟨_, _, e', he', m, hm, _, hi⟩
  obtain ⟨e, he, hb, _⟩ := h
  have := hC.single e he k.1 hb k.2 m (Or.inr hi)
  subst this
  exact hC.apart e he _ hb e' he' hm

theorem bnd_used (hC : C.Ok) {e : CEl} (he : e ∈ C.els) {n j : Nat} (hn : n ∈ e.el.bndNodes) (hj : j ∈ e.active) : C.prim.toProblem.used (n, j) := by
  have hnode := hC.nodes e he n (mem_nodes.2 (Or.inl hn))
  exact prim_used.2 ⟨hnode, hC.active e he j hj, e, he, n, hn, hj, hC.refl j n hnode⟩

/-! ### What a rank knows about its elements -/

theorem mem_els (h : Q.Of C) {r : Nat} (hr : r < Q.R.nr) {e : CEl} (he : e ∈ Q.parts r) : e ∈ C.els :=
  h.els.subset (List.mem_flatMap.2 ⟨r, List.mem_range.2 hr, he⟩)

theorem bnd_dofs (h : Q.Of C) {r : Nat} (hr : r < Q.R.nr) {e : CEl} (he : e ∈ Q.parts r) {n : Nat} (hn : n ∈ e.el.bndNodes) (j : Nat) :
    Q.R.s.dofs r (Q.R.new n) j = Q.R.s.dofs (Q.R.s.owner (Q.R.new n)) (Q.R.new n) j := by
  have hv : (⟨e.el.bndNodes, e.active⟩ : Visit) ∈ Q.R.vpart r := by
    rw [h.vpart r hr]
    exact List.mem_map.2 ⟨e, he, rfl⟩
  exact dofs_owner h.run.ok hr (knows_local ((h.run.setup r hr).2 _ hv n hn))

theorem valid_iff (hC : C.Ok) (h : Q.Of C) {r : Nat} (hr : r < Q.R.nr) {e : CEl} (he : e ∈ Q.parts r) {n j : Nat} (hn : n ∈ e.el.bndNodes) (hj : j < C.dpn) :
    Q.valid r n j = true ↔ C.prim.toProblem.used (n, j) := by
  unfold CRun.valid
  rw [bnd_dofs h hr he hn]
  exact some_iff (prim_ok hC) h.run h.marked (hC.nodes e (mem_els h hr he) n (mem_nodes.2 (Or.inl hn))) hj

theorem gdof_eq (h : Q.Of C) {r : Nat} (hr : r < Q.R.nr) {e : CEl} (he : e ∈ Q.parts r) {k : Nat × Nat} (hn : k.1 ∈ e.el.bndNodes) : Q.gdof r k = Q.R.num k := by
  unfold CRun.gdof Run.num
  rw [bnd_dofs h hr he hn]

theorem info_nd (h : Q.Of C) (r : Nat) (e : CEl) : (Q.info r e).nd = C.dpn := h.run.dpn

theorem internal_iff (hC : C.Ok) (h : Q.Of C) {r : Nat} (hr : r < Q.R.nr) {e : CEl} (he : e ∈ Q.parts r) {j : Nat} (hj : j < C.dpn) :
    (Q.info r e).internal j = true ↔ j ∈ e.active := by
  change (e.el.bndNodes.all fun n => Q.valid r n j) = true ↔ _
  rw [List.all_eq_true]
  constructor
  · intro hh
    exact hC.tight e (mem_els h hr he) j hj fun n hn => (valid_iff hC h hr he hn hj).1 (hh n hn)
  · intro hh n hn
    exact (valid_iff hC h hr he hn hj).2 (bnd_used hC (mem_els h hr he) hn hh)

theorem fieldsOk (hC : C.Ok) (h : Q.Of C) {r : Nat} (hr : r < Q.R.nr) {e : CEl} (he : e ∈ Q.parts r) {k : CKer} (hk : k ∈ e.kernels) : FieldsOk (Q.info r e) k.inds := by
  have hin := hC.inds e (mem_els h hr he) k hk
  have hlt : ∀ i ∈ k.inds, i < C.dpn := fun i hi => hC.active e (mem_els h hr he) i (hin.1 hi)
  refine ⟨hin.2.imp fun hlt => by omega, fun i hi => by rw [info_nd h]; exact hlt i hi, ?_, fun i hi => (internal_iff hC h hr he (hlt i hi)).2 (hin.1 hi)⟩
  intro i hi v hv hb
  have hn : e.el.nodes.getD v 0 ∈ e.el.bndNodes := mem_bndNodes.2 ⟨v, hv, hb, rfl⟩
  exact (valid_iff hC h hr he hn (hlt i hi)).2 (bnd_used hC (mem_els h hr he) hn (hin.1 hi))

theorem honours (hC : C.Ok) (h : Q.Of C) {r : Nat} (hr : r < Q.R.nr) {e : CEl} (he : e ∈ Q.parts r) {k : CKer} (hk : k ∈ e.kernels) : Honours (Q.info r e) k.inds :=
  C53_partial _ _ (fieldsOk hC h hr he hk) (hC.inds e (mem_els h hr he) k hk).2

theorem mem_pairs {E : ElInfo} {q : Nat × Nat} : q ∈ pairs E ↔ q.1 < E.n ∧ q.2 < E.nd := by
  unfold pairs
  simp only [List.mem_flatMap, List.mem_map, List.mem_range]
  constructor
  · rintro ⟨v, hv, i, hi, rfl⟩; exact ⟨hv, hi⟩
  · rintro ⟨hv, hi⟩; exact ⟨q.1, hv, q.2, hi, rfl⟩

theorem nodup_pairs (E : ElInfo) : (pairs E).Nodup := by
  unfold pairs
  refine List.nodup_flatMap.2 ⟨fun v _ => List.nodup_range.map fun a b hab => (Prod.mk.inj hab).2, ?_⟩
  refine List.nodup_range.imp ?_
  intro a b hab
  unfold Function.onFun
  beta_reduce
  intro q h1 h2
  obtain ⟨i, _, rfl⟩ := List.mem_map.1 h1
  obtain ⟨j, _, hj⟩ := List.mem_map.1 h2
  exact hab (Prod.mk.inj hj).1.symm

/-- The primary unknowns of an element. -/
theorem primary_key (hC : C.Ok) (h : Q.Of C) {r : Nat} (hr : r < Q.R.nr) {e : CEl} (he : e ∈ Q.parts r) {q : Nat × Nat} (hq : q ∈ primaryDofs (Q.info r e)) :
    (e.key q).1 ∈ e.el.bndNodes ∧ C.prim.toProblem.used (e.key q) := by
  obtain ⟨hp, hb⟩ := List.mem_filter.1 hq
  obtain ⟨h1, h2⟩ := mem_pairs.1 hp
  simp only [Bool.and_eq_true] at hb
  have hn : e.el.nodes.getD q.1 0 ∈ e.el.bndNodes := mem_bndNodes.2 ⟨q.1, h1, hb.1, rfl⟩
  rw [info_nd h] at h2
  exact ⟨hn, (valid_iff hC h hr he hn h2).1 hb.2⟩

/-- The condensed unknowns of an element. -/
theorem cond_key (hC : C.Ok) (h : Q.Of C) {r : Nat} (hr : r < Q.R.nr) {e : CEl} (he : e ∈ Q.parts r) (k : Nat × Nat) :
    k ∈ (condDofs (Q.info r e)).map e.key ↔ k.1 ∈ e.el.intNodes ∧ k.2 ∈ e.active := by
  rw [List.mem_map, mem_intNodes]
  constructor
  · rintro ⟨q, hq, rfl⟩
    obtain ⟨hp, hb⟩ := List.mem_filter.1 hq
    obtain ⟨h1, h2⟩ := mem_pairs.1 hp
    simp only [Bool.and_eq_true, Bool.not_eq_true'] at hb
    rw [info_nd h] at h2
    exact ⟨⟨q.1, h1, hb.1, rfl⟩, (internal_iff hC h hr he h2).1 hb.2⟩
  · rintro ⟨⟨v, hv, hb, hn⟩, hj⟩
    have hjd := hC.active e (mem_els h hr he) _ hj
    refine ⟨(v, k.2), List.mem_filter.2 ⟨mem_pairs.2 ⟨hv, by rw [info_nd h]; exact hjd⟩, ?_⟩, ?_⟩
    · simp only [Bool.and_eq_true, Bool.not_eq_true']
      exact ⟨hb, (internal_iff hC h hr he hjd).2 hj⟩
    · exact Prod.ext hn rfl

/-! ### All elements of all ranks -/

/-- The elements of the ranks. -/
def CRun.all (Q : CRun) : List (Nat × CEl) := (List.range Q.R.nr).flatMap fun r => (Q.parts r).map fun e => (r, e)

theorem mem_all {p : Nat × CEl} : p ∈ Q.all ↔ p.1 < Q.R.nr ∧ p.2 ∈ Q.parts p.1 := by
  unfold CRun.all
  simp only [List.mem_flatMap, List.mem_map, List.mem_range]
  constructor
  · rintro ⟨r, hr, e, he, rfl⟩; exact ⟨hr, he⟩
  · rintro ⟨hr, he⟩; exact ⟨p.1, hr, p.2, he, rfl⟩

theorem all_els (h : Q.Of C) : (Q.all.map (·.2)).Perm C.els := by
  have : Q.all.map (·.2) = (List.range Q.R.nr).flatMap Q.parts := by
    unfold CRun.all
    rw [List.map_flatMap]
    simp [List.map_map, Function.comp_def]
  rw [this]; exact h.els

/-- Internal unknowns of an element of a rank. -/
def CRun.condKeys (Q : CRun) (p : Nat × CEl) : List (Nat × Nat) := (condDofs (Q.info p.1 p.2)).map p.2.key

/-- All internal unknowns. -/
def CRun.ints (Q : CRun) : List (Nat × Nat) := Q.all.flatMap Q.condKeys

theorem mem_condKeys (hC : C.Ok) (h : Q.Of C) {p : Nat × CEl} (hp : p ∈ Q.all) {k : Nat × Nat} : k ∈ Q.condKeys p ↔ k.1 ∈ p.2.el.intNodes ∧ k.2 ∈ p.2.active :=
  cond_key hC h (mem_all.1 hp).1 (mem_all.1 hp).2 k

theorem mem_ints (hC : C.Ok) (h : Q.Of C) {k : Nat × Nat} : k ∈ Q.ints ↔ IsInt C k := by
  unfold CRun.ints IsInt
  rw [List.mem_flatMap]
  constructor
  · rintro ⟨p, hp, hk⟩
    exact ⟨p.2, mem_els h (mem_all.1 hp).1 (mem_all.1 hp).2, (mem_condKeys hC h hp).1 hk⟩
  · rintro ⟨e, he, hk⟩
    obtain ⟨p, hp, rfl⟩ := List.mem_map.1 ((all_els h).symm.subset he)
    exact ⟨p, hp, (mem_condKeys hC h hp).2 hk⟩

theorem all_distinct (hC : C.Ok) (h : Q.Of C) : (Q.all.flatMap fun p => p.2.el.intNodes).Nodup := by
  have : (Q.all.flatMap fun p => p.2.el.intNodes) = (Q.all.map (·.2)).flatMap fun e => e.el.intNodes := by rw [List.flatMap_map]
  rw [this]
  exact ((all_els h).flatMap_right _).symm.nodup hC.distinct

theorem nodup_ints (hC : C.Ok) (h : Q.Of C) : Q.ints.Nodup := by
  obtain ⟨h1, h2⟩ := List.nodup_flatMap.1 (all_distinct hC h)
  refine List.nodup_flatMap.2 ⟨fun p hp => ?_, ?_⟩
  · have hinj := h1 p hp
    unfold El.intNodes at hinj
    refine List.Nodup.map_on ?_ ((nodup_pairs _).filter _)
    intro q hq q' hq' hk
    obtain ⟨hp1, hb1⟩ := List.mem_filter.1 hq
    obtain ⟨hp2, hb2⟩ := List.mem_filter.1 hq'
    simp only [Bool.and_eq_true] at hb1 hb2
    obtain ⟨e1, e2⟩ := Prod.mk.inj hk
    refine Prod.ext ?_ e2
    refine List.inj_on_of_nodup_map hinj ?_ ?_ e1
    · exact List.mem_filter.2 ⟨List.mem_range.2 (mem_pairs.1 hp1).1, hb1.1⟩
    · exact List.mem_filter.2 ⟨List.mem_range.2 (mem_pairs.1 hp2).1, hb2.1⟩
  · refine (List.Pairwise.and_mem.1 h2).imp ?_
    rintro p p' ⟨hp, hp', hd⟩
    unfold Function.onFun at hd ⊢
    beta_reduce at hd ⊢
    intro k hk hk'
    exact hd ((mem_condKeys hC h hp).1 hk).1 ((mem_condKeys hC h hp').1 hk').1

/-! ### Numbers for all unknowns -/

/-- Primary unknowns keep their numbers, internal ones follow. -/
def CRun.num' (Q : CRun) (k : Nat × Nat) : Nat := if k ∈ Q.ints then Q.R.s.total + Q.ints.idxOf k else Q.R.num k

/-- Number of all unknowns. -/
def CRun.tot (Q : CRun) : Nat := Q.R.s.total + Q.ints.length

/-- The constrained ones. -/
def CRun.D' (Q : CRun) (C : CProblem) (g : Nat) : Prop := ∃ k, C.full.toProblem.used k ∧ C.full.toProblem.dir k ∧ Q.num' k = g

theorem num'_int {k : Nat × Nat} (hk : k ∈ Q.ints) : Q.num' k = Q.R.s.total + Q.ints.idxOf k := by rw [CRun.num', if_pos hk]

theorem num'_prim (hC : C.Ok) (h : Q.Of C) {k : Nat × Nat} (hk : C.prim.toProblem.used k) : Q.num' k = Q.R.num k := by
  rw [CRun.num', if_neg fun hi => int_not_prim hC ((mem_ints hC h).1 hi) hk]

theorem dir_prim (hC : C.Ok) {k : Nat × Nat} (hk : C.full.toProblem.used k) (hd : C.dir k) : C.prim.toProblem.used k := by
  rcases (used_split hC).1 hk with hp | ⟨e, he, hn, _⟩
  · exact hp
  · exact absurd hd (hC.free e he k.1 hn k.2)

open Classical in
/-- One rank with all unknowns and no condensation. -/
def CRun.fict (Q : CRun) (C : CProblem) : LRank where
  nOwned := Q.tot
  l2g := List.range Q.tot
  elems := (C.full.elems.map MElem.keyed).map fun e => ⟨e.keys.map Q.num', e.dims, e.pts⟩
  bc := some fun g => decide (Q.D' C g)
  dirOwned := (List.range Q.tot).filter fun g => decide (Q.D' C g)
  vals := fun _ _ => 0

theorem range_getD {n i : Nat} (h : i < n) : (List.range n).getD i 0 = i := by
  rw [List.getD_eq_getElem?_getD, List.getElem?_range h]; rfl

theorem num'_lt (hC : C.Ok) (h : Q.Of C) {k : Nat × Nat} (hk : C.full.toProblem.used k) : Q.num' k < Q.tot := by
  unfold CRun.tot
  rcases (used_split hC).1 hk with hp | hi
  · rw [num'_prim hC h hp]
    have := num_lt (prim_ok hC) h.run h.marked hp
    omega
  · have hi := (mem_ints hC h).2 hi
    rw [num'_int hi]
    have := List.idxOf_lt_length_of_mem hi
    omega

theorem num'_int_ge {k : Nat × Nat} (hk : k ∈ Q.ints) : Q.R.s.total ≤ Q.num' k := by rw [num'_int hk]; omega

theorem num'_inj_int {k k' : Nat × Nat} (hk : k ∈ Q.ints) (hk' : k' ∈ Q.ints) (he : Q.num' k = Q.num' k') : k = k' := by
  rw [num'_int hk, num'_int hk'] at he
  exact List.idxOf_inj hk |>.1 (by omega)

theorem represents (hC : C.Ok) (h : Q.Of C) :
    Represents C.full.toProblem Q.tot 1 (Q.D' C) (fun _ => Q.fict C) (fun g c => Q.R.v g c) Q.num' := by
  classical
  have hused : ∀ e ∈ C.full.elems.map MElem.keyed, ∀ k ∈ e.keys, C.full.toProblem.used k := (problem_ok (full_ok hC)).used
  refine ⟨⟨?_, ?_, ?_, ?_, ?_, ?_, ?_⟩, ⟨fun _ => C.full.elems.map MElem.keyed, ?_, ?_⟩, ?_, ?_, ?_, ?_, ?_⟩
  · exact fun _ _ => List.nodup_range
  · exact fun _ _ g hg => List.mem_range.1 hg
  · intro _ _
    change Q.tot ≤ (List.range Q.tot).length
    rw [List.length_range]
  · intro _ _ e he d hd
    obtain ⟨e1, he1, rfl⟩ := List.mem_map.1 he
    obtain ⟨e2, he2, rfl⟩ := List.mem_map.1 he1
    obtain ⟨e3, he3, rfl⟩ := List.mem_map.1 he2
    obtain ⟨k, hk, rfl⟩ := List.mem_map.1 hd
    change _ < (List.range Q.tot).length
    rw [List.length_range]
    exact num'_lt hC h (hused e3 he3 k hk)
  · intro q hq q' hq' _ _ _ _ _
    omega
  · intro _ _ d hd
    change decide (Q.D' C d) = true ↔ Q.D' C ((List.range Q.tot).getD d 0)
    have hd : d < (List.range Q.tot).length := hd
    rw [range_getD (by simpa using hd), decide_eq_true_iff]
  · intro _ _
    refine ⟨List.nodup_range.filter _, fun d => ?_⟩
    change d ∈ (List.range Q.tot).filter _ ↔ d < Q.tot ∧ decide (Q.D' C d) = true
    rw [List.mem_filter, List.mem_range]
  · simp [MProblem.toProblem]
  · intro _ _
    change List.Forall₂ _ _ ((C.full.elems.map MElem.keyed).map _)
    rw [List.forall₂_map_right_iff]
    refine List.forall₂_same.2 fun e he => ⟨?_, rfl, rfl⟩
    rw [List.map_map]
    refine List.map_congr_left fun k hk => ?_
    exact range_getD (num'_lt hC h (hused e he k hk))
  · intro k k' hk hk'
    rcases (used_split hC).1 hk with hp | hi <;> rcases (used_split hC).1 hk' with hp' | hi'
    · rw [num'_prim hC h hp, num'_prim hC h hp']
      exact num_inj (prim_ok hC) h.run h.marked hp hp'
    · have hm' := (mem_ints hC h).2 hi'
      constructor
      · intro he
        have h1 := num'_int_ge hm'
        rw [← he, num'_prim hC h hp] at h1
        have h2 := num_lt (prim_ok hC) h.run h.marked hp
        omega
      · rintro ⟨e1, e2⟩
        obtain ⟨e, he, hn, hj⟩ := hi'
        have := hC.single e he k'.1 hn k.2 k.1 (Or.inr e2)
        have hk : k = k' := Prod.ext this.symm e1
        rw [hk]
    · have hm := (mem_ints hC h).2 hi
      constructor
      · intro he
        have h1 := num'_int_ge hm
        rw [he, num'_prim hC h hp'] at h1
        have h2 := num_lt (prim_ok hC) h.run h.marked hp'
        omega
      · rintro ⟨e1, e2⟩
        obtain ⟨e, he, hn, hj⟩ := hi
        have := hC.single e he k.1 hn k.2 k'.1 (Or.inl e2)
        have hk : k = k' := Prod.ext this e1
        rw [hk]
    · have hm := (mem_ints hC h).2 hi
      have hm' := (mem_ints hC h).2 hi'
      constructor
      · intro he
        have := num'_inj_int hm hm' he
        rw [this]
        exact ⟨rfl, hC.refl _ _ hk'.1⟩
      · rintro ⟨e1, e2⟩
        obtain ⟨e, he, hn, hj⟩ := hi
        have := hC.single e he k.1 hn k.2 k'.1 (Or.inl e2)
        have hk : k = k' := Prod.ext this e1
        rw [hk]
  · exact fun k hk => num'_lt hC h hk
  · intro g hg
    by_cases hgN : g < Q.R.s.total
    · obtain ⟨k, hk, he⟩ := num_surj (prim_ok hC) h.run h.marked hgN
      exact ⟨k, (used_split hC).2 (Or.inl hk), (num'_prim hC h hk).trans he⟩
    · unfold CRun.tot at hg
      have hi : g - Q.R.s.total < Q.ints.length := by omega
      have hm : Q.ints[g - Q.R.s.total] ∈ Q.ints := List.getElem_mem hi
      refine ⟨Q.ints[g - Q.R.s.total], (used_split hC).2 (Or.inr ((mem_ints hC h).1 hm)), ?_⟩
      rw [num'_int hm, (nodup_ints hC h).idxOf_getElem]
      omega
  · exact fun g _ => Iff.rfl
  · intro k hk hd c
    have hp := dir_prim hC hk hd
    change Q.R.v (Q.num' k) c = _
    rw [num'_prim hC h hp]
    exact h.run.val k hp hd c

theorem D'_iff (hC : C.Ok) (h : Q.Of C) (g : Nat) : Q.D' C g ↔ Q.R.D C.prim g := by
  constructor
  · rintro ⟨k, hk, hd, rfl⟩
    have hp := dir_prim hC hk hd
    exact ⟨k, hp, hd, (num'_prim hC h hp).symm⟩
  · rintro ⟨k, hk, hd, rfl⟩
    exact ⟨k, (used_split hC).2 (Or.inl hk), hd, num'_prim hC h hk⟩

end

end Verif.CondDistr
