import Verif.CondPipe.Parts

/-! # The condensed problem of a distributed mesh is sensible -/
namespace Verif.CondPipe
open Verif Verif.Elem Verif.Mesh Verif.Dofs Verif.Lsq Verif.Distr Verif.Pipeline Verif.Partition Verif.Split Verif.PerPipe Verif.CondInit Verif.CondDistr

noncomputable section

variable {bnds : List Nat} {m : DomMap} {N nParts : Nat} {parts : List Part} {f g : Nat → Nat} {maps : List DomMap} {pos : Nat → List ℝ}

theorem getD_mem {l : List Nat} {i : Nat} (h : i < l.length) : l.getD i 0 ∈ l := by
  rw [List.getD_eq_getElem?_getD, List.getElem?_eq_getElem h]
  exact List.getElem_mem h

theorem bndNodes_sub {e : El} {n : Nat} (h : n ∈ e.bndNodes) : n ∈ e.nodes := by
  obtain ⟨v, hv, rfl⟩ := List.mem_map.1 h
  exact getD_mem (List.mem_range.1 (List.mem_filter.1 hv).1)

theorem intNodes_sub {e : El} {n : Nat} (h : n ∈ e.intNodes) : n ∈ e.nodes := by
  obtain ⟨v, hv, rfl⟩ := List.mem_map.1 h
  exact getD_mem (List.mem_range.1 (List.mem_filter.1 hv).1)

theorem node_cases {e : El} {n : Nat} (h : n ∈ e.nodes) : n ∈ e.bndNodes ∨ n ∈ e.intNodes := by
  obtain ⟨i, hi, rfl⟩ := List.mem_iff_getElem.1 h
  have he : e.nodes.getD i 0 = e.nodes[i] := by rw [List.getD_eq_getElem?_getD, List.getElem?_eq_getElem hi]; rfl
  cases hb : e.bnd i with
  | true => exact Or.inl (List.mem_map.2 ⟨i, List.mem_filter.2 ⟨List.mem_range.2 hi, hb⟩, he⟩)
  | false => exact Or.inr (List.mem_map.2 ⟨i, List.mem_filter.2 ⟨List.mem_range.2 hi, by simp [hb]⟩, he⟩)

theorem getD_inj {l : List Nat} (hl : l.Nodup) {i j : Nat} (hi : i < l.length) (hj : j < l.length) (h : l.getD i 0 = l.getD j 0) : i = j := by
  rw [List.getD_eq_getElem?_getD, List.getD_eq_getElem?_getD, List.getElem?_eq_getElem hi, List.getElem?_eq_getElem hj] at h
  exact (List.Nodup.getElem_inj_iff hl).1 h

theorem bnd_int {e : El} (hd : e.nodes.Nodup) {n : Nat} (h : n ∈ e.bndNodes) (h' : n ∈ e.intNodes) : False := by
  obtain ⟨v, hv, rfl⟩ := List.mem_map.1 h
  obtain ⟨w, hw, he⟩ := List.mem_map.1 h'
  obtain ⟨h1, h2⟩ := List.mem_filter.1 hv
  obtain ⟨h3, h4⟩ := List.mem_filter.1 hw
  rw [getD_inj hd (List.mem_range.1 h3) (List.mem_range.1 h1) he, h2] at h4
  cases h4

theorem intNodes_nodup {e : El} (hd : e.nodes.Nodup) : e.intNodes.Nodup := by
  refine List.Nodup.map_on ?_ (List.nodup_range.filter _)
  intro v hv w hw he
  exact getD_inj hd (List.mem_range.1 (List.mem_filter.1 hv).1) (List.mem_range.1 (List.mem_filter.1 hw).1) he

/-- The node lies in an element of one of the boundaries. -/
def OnB (m : DomMap) (bnds : List Nat) (x : Nat) : Prop := ∃ b ∈ bnds, ∃ e, InDom m b e ∧ x ∈ e.nodes

theorem onB_of {ids : List Nat} (h : ids ⊆ bnds) {x : Nat} (hx : OnBnd m ids x) : OnB m bnds x := by
  obtain ⟨e, he, hxe⟩ := hx
  obtain ⟨b, hb, hin⟩ := mem_visitIds.1 he
  exact ⟨b, h hb, e, hin, hxe⟩

theorem ident_onB {p : PProg} (hx : p.Exact m bnds pos) {j a b : Nat} (h : p.ident m pos j a b) : a = b ∨ OnB m bnds a ∧ OnB m bnds b := by
  have h1 := hx.bnd
  clear hx
  induction h with
  | rel a b h =>
    obtain ⟨_, d, hd, _, ha, hb, _⟩ := h
    exact Or.inr ⟨onB_of (h1 d hd).1 ha, onB_of (h1 d hd).2 hb⟩
  | refl => exact Or.inl rfl
  | symm _ _ _ ih => exact ih.imp Eq.symm And.symm
  | trans _ _ _ _ _ ih1 ih2 =>
    rcases ih1 with rfl | ⟨a1, a2⟩
    · exact ih2
    · rcases ih2 with rfl | ⟨_, b2⟩
      · exact Or.inr ⟨a1, a2⟩
      · exact Or.inr ⟨a1, b2⟩

theorem int_not_onB {kinds : List (ElType × Nat)} {D : Nat} (hm : MeshOk kinds m bnds D) {p : PProg} (hC : Condensable p m bnds pos) {d : List Nat × List Nat} (hd : d ∈ p.pdef) {k : Nat} (hk : k ∈ d.1)
    {e : Element} (he : InDom m k e) {n : Nat} (hn : n ∈ (toEl 0 e).intNodes) : ¬ OnB m bnds n := by
  rintro ⟨b, hb, e', hin, hne⟩
  have := hC.own d hd e (mem_visitIds.2 ⟨k, hk, he⟩) n hn e' (inDom_holds hin) hne
  subst this
  have := (dom_unique hm he hin rfl).1
  subst this
  exact hC.apart d hd k hk hb

theorem mem_kersOf {p : Prog} {m : DomMap} {k : Nat} {e : Element} {q : CKer} (h : q ∈ kersOf p m k e) :
    (∃ K ∈ p.kernels, k ∈ K.doms ∧ q = ⟨K.inds, K.dims e.ty e.n, K.pts e.ty e.n e.id⟩) ∨
    ∃ K ∈ p.bkernels, ∃ s, (e, s) ∈ (visitIds m K.bnds).filterMap (viewOf m) ∧ q = ⟨K.inds, K.dims e.ty e.n, K.pts e.ty e.n e.id s⟩ := by
  rcases List.mem_append.1 h with h | h
  · obtain ⟨K, hK, h⟩ := List.mem_flatMap.1 h
    obtain ⟨k', hk', rfl⟩ := List.mem_map.1 h
    obtain ⟨h1, h2⟩ := List.mem_filter.1 hk'
    rw [decide_eq_true_iff] at h2
    subst h2
    exact Or.inl ⟨K, hK, h1, rfl⟩
  · obtain ⟨K, hK, h⟩ := List.mem_flatMap.1 h
    obtain ⟨v, hv, rfl⟩ := List.mem_map.1 h
    obtain ⟨h1, h2⟩ := List.mem_filter.1 hv
    rw [decide_eq_true_iff] at h2
    refine Or.inr ⟨K, hK, v.2, ?_, rfl⟩
    rw [← h2]
    exact h1

theorem all_nodup {kinds : List (ElType × Nat)} {D : Nat} (hm : MeshOk kinds m bnds D) (R : Result bnds m N nParts parts f maps) (p : Prog) :
    ((List.range nParts).flatMap fun r => (entries p (mapAt maps r)).map (·.2)).Nodup := by
  refine List.nodup_flatMap.2 ⟨fun r _ => entries_nodup hm R p r, ?_⟩
  refine (List.nodup_range (n := nParts)).imp fun {a b} hab => ?_
  intro e h1 h2
  obtain ⟨q, hq, rfl⟩ := List.mem_map.1 h1
  obtain ⟨q', hq', he⟩ := List.mem_map.1 h2
  have i1 := (mem_entries.1 hq).2
  have i2 := (mem_entries.1 hq').2
  have d := (dom_unique hm (inDom_mapAt R i1).2.2 (inDom_mapAt R i2).2.2 (by rw [he])).1
  rw [he, ← d] at i2
  obtain ⟨r, _, hr⟩ := R.uniq q.1 q.2 (inDom_mapAt R i1).2.2
  have key : ∀ t, InDom (mapAt maps t) q.1 q.2 → t = r := by
    intro t ht
    refine hr t ?_
    unfold mapAt at ht
    cases hmt : maps[t]? with
    | none => rw [hmt] at ht; obtain ⟨_, h, _⟩ := ht; cases h
    | some m' => rw [hmt] at ht; exact ⟨m', hmt, ht⟩
  exact hab ((key a i1).trans (key b i2).symm)

theorem cproblem_ok {kinds : List (ElType × Nat)} {D : Nat} (hm : MeshOk kinds m bnds D) (R : Result bnds m N nParts parts f maps) (hu : UniqueParent m bnds) {p : PProg}
    (hp : p.toProg.Ok m bnds) (hx : p.Exact m bnds pos) (hC : Condensable p m bnds pos) : (cproblem p m pos N nParts maps).Ok := by
  -- components of kernels
  have hker : ∀ r, ∀ k e, hasDom p.toProg k = true → InDom (mapAt maps r) k e → ∀ q ∈ kersOf p.toProg (mapAt maps r) k e,
      q.inds ⊆ activeIn p.toProg k ∧ q.inds.Pairwise (· < ·) ∧ (e.nodes.length = q.dims.nb ∧ q.inds.length = q.dims.nu) ∧ ∀ U ∈ q.pts, 0 ≤ U.w := by
    intro r k e _ hin q hq
    have hin' := (inDom_mapAt R hin).2.2
    rcases mem_kersOf hq with ⟨K, hK, hk, rfl⟩ | ⟨K, hK, s, hv, rfl⟩
    · obtain ⟨d, hd, hkd, hsub⟩ := hp.active K hK k hk
      exact ⟨fun j hj => (mem_activeIn hp.comps).2 ⟨d, hd, hkd, hsub hj⟩, hC.sorted.1 K hK, hp.sized K hK e (mem_visitIds.2 ⟨k, hk, hin'⟩), hp.weights K hK _ _ _⟩
    · obtain ⟨k', hk', x, hxm, hvx, d, hd, hkd, hsub⟩ := view_parent R hu hp hK hv
      have := (dom_unique hm hin' (inDom_mapAt R hk').2.2 rfl).1
      subst this
      exact ⟨fun j hj => (mem_activeIn hp.comps).2 ⟨d, hd, hkd, hsub hj⟩, hC.sorted.2 K hK, hp.bsized K hK x hxm e s hvx, hp.bweights K hK _ _ _ _⟩
  have hnd : ∀ k e, hasDom p.toProg k = true → InDom m k e → e.nodes.Nodup := by
    intro k e hk hin
    obtain ⟨d, hd, hkd⟩ := hasDom_iff.1 hk
    exact hC.nodup d hd e (mem_visitIds.2 ⟨k, hkd, hin⟩)
  have hown : ∀ k e, hasDom p.toProg k = true → InDom m k e → ∀ n ∈ (toEl 0 e).intNodes, ∀ e', Holds m e' → n ∈ e'.nodes → e' = e := by
    intro k e hk hin
    obtain ⟨d, hd, hkd⟩ := hasDom_iff.1 hk
    exact hC.own d hd e (mem_visitIds.2 ⟨k, hkd, hin⟩)
  have hnotB : ∀ k e, hasDom p.toProg k = true → InDom m k e → ∀ n ∈ (toEl 0 e).intNodes, ¬ OnB m bnds n := by
    intro k e hk hin n hn
    obtain ⟨d, hd, hkd⟩ := hasDom_iff.1 hk
    exact int_not_onB hm hC hd hkd hin hn
  refine ⟨⟨?_, ?_, ?_, ?_, ?_, fun _ _ _ => .refl _, ?_, ?_, ?_, ?_⟩, ?_, ?_⟩
  · intro e he n hn
    obtain ⟨r, _, k, e', hk, _, hin, rfl⟩ := mem_els R he
    exact (R.nodes n).1 ⟨e', inDom_holds hin, hn⟩
  · intro e he j hj
    obtain ⟨r, _, k, e', hk, _, hin, rfl⟩ := mem_els R he
    exact List.mem_range.1 (List.mem_filter.1 hj).1
  · intro e he q hq
    obtain ⟨r, _, k, e', hk, hin', hin, rfl⟩ := mem_els R he
    have h := hker r k e' hk hin' q hq
    exact ⟨h.1, h.2.1.imp fun h => ne_of_lt h⟩
  · intro e he q hq
    obtain ⟨r, _, k, e', hk, hin', hin, rfl⟩ := mem_els R he
    exact (hker r k e' hk hin' q hq).2.2.1
  · intro e he q hq
    obtain ⟨r, _, k, e', hk, hin', hin, rfl⟩ := mem_els R he
    exact (hker r k e' hk hin' q hq).2.2.2
  · have he : ((cproblem p m pos N nParts maps).els.flatMap fun e => e.el.intNodes) =
        ((List.range nParts).flatMap fun r => (entries p.toProg (mapAt maps r)).map (·.2)).flatMap fun e => (toEl 0 e).intNodes := by
      change ((List.range nParts).flatMap fun r => cels p.toProg (mapAt maps r)).flatMap _ = _
      rw [List.flatMap_assoc, List.flatMap_assoc]
      refine List.flatMap_congr fun r _ => ?_
      unfold cels
      rw [List.flatMap_map, List.flatMap_map]
      rfl
    rw [he]
    have hdata : ∀ e ∈ (List.range nParts).flatMap fun r => (entries p.toProg (mapAt maps r)).map (·.2), ∃ k, hasDom p.toProg k = true ∧ InDom m k e := by
      intro e he
      obtain ⟨r, _, he⟩ := List.mem_flatMap.1 he
      obtain ⟨q, hq, rfl⟩ := List.mem_map.1 he
      exact ⟨q.1, (mem_entries.1 hq).1, (inDom_mapAt R (mem_entries.1 hq).2).2.2⟩
    refine List.nodup_flatMap.2 ⟨fun e he => ?_, ?_⟩
    · obtain ⟨k, hk, hin⟩ := hdata e he
      exact intNodes_nodup (hnd k e hk hin)
    · refine (all_nodup hm R p.toProg).imp_of_mem fun {a b} ha hb hab => ?_
      intro n h1 h2
      obtain ⟨k, hk, hin⟩ := hdata a ha
      obtain ⟨k', hk', hin'⟩ := hdata b hb
      exact hab (hown k a hk hin n h1 b (inDom_holds hin') (intNodes_sub h2)).symm
  · intro e he n hn e2 he2 hb
    obtain ⟨r, _, k, e', hk, _, hin, rfl⟩ := mem_els R he
    obtain ⟨r', _, k', e'', hk', _, hin', rfl⟩ := mem_els R he2
    have := hown k e' hk hin n hn e'' (inDom_holds hin') (bndNodes_sub hb)
    subst this
    exact bnd_int (e := toEl 0 e'') (hnd k e'' hk hin) hb hn
  · intro e he n hn j n' h
    obtain ⟨r, _, k, e', hk, _, hin, rfl⟩ := mem_els R he
    have hnb := hnotB k e' hk hin n hn
    rcases h with h | h
    · exact (ident_onB hx h).resolve_right fun h => hnb h.1
    · exact ((ident_onB hx h).resolve_right fun h => hnb h.2).symm
  · rintro e he n hn j ⟨d, hd, _, e2, he2, hne⟩
    obtain ⟨r, _, k, e', hk, _, hin, rfl⟩ := mem_els R he
    exact hnotB k e' hk hin n hn (onB_of (ids := d.1) (fun b hb => hC.dir d hd b hb) ⟨e2, he2, hne⟩)
  · intro e he q hq
    obtain ⟨r, _, k, e', hk, hin', hin, rfl⟩ := mem_els R he
    exact (hker r k e' hk hin' q hq).2.1
  · intro e he j hj h
    obtain ⟨r, _, k, e', hk, _, hin, rfl⟩ := mem_els R he
    obtain ⟨d, hd, hkd⟩ := hasDom_iff.1 hk
    obtain ⟨d', hd', h1, h2⟩ := hC.tight d hd k hkd e' hin j hj fun n hn => (prim_used R hp (n, j)).1 (h n hn)
    exact (mem_activeIn hp.comps).2 ⟨d', hd', h1, h2⟩

end

end Verif.CondPipe
