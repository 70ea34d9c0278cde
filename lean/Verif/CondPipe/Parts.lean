import Verif.CondPipe.Elems

/-! # The condensed problem of a distributed mesh -/
namespace Verif.CondPipe
open Verif Verif.Elem Verif.Mesh Verif.Dofs Verif.Lsq Verif.Distr Verif.Pipeline Verif.Partition Verif.Split Verif.PerPipe Verif.CondInit Verif.CondDistr

noncomputable section

variable {bnds : List Nat} {m : DomMap} {N nParts : Nat} {parts : List Part} {f g : Nat → Nat} {maps : List DomMap} {pos : Nat → List ℝ}

theorem dom_unique {kinds : List (ElType × Nat)} {D : Nat} (hm : MeshOk kinds m bnds D) {k k' : Nat} {e e' : Element} (h : InDom m k e) (h' : InDom m k' e') (hid : e.id = e'.id) :
    k = k' ∧ e = e' := by
  have hmem : ∀ {k e}, InDom m k e → (k, e) ∈ tagged m (m.map (·.1)) := fun {k e} h =>
    List.mem_flatMap.2 ⟨k, inDom_key h, List.mem_map.2 ⟨e, mem_visit_single.2 h, rfl⟩⟩
  have := List.inj_on_of_nodup_map hm.ids (hmem h) (hmem h') hid
  exact Prod.mk.inj this

theorem keys_mapAt (R : Result bnds m N nParts parts f maps) (r : Nat) : KeysNodup (mapAt maps r) := by
  unfold mapAt
  cases hm : maps[r]? with
  | none => exact List.nodup_nil
  | some m' => exact R.wf m' (List.mem_of_getElem? hm)

theorem nodup_single (R : Result bnds m N nParts parts f maps) (r k : Nat) : (visitIds (mapAt maps r) [k]).Nodup := by
  rw [visitIds_single]
  cases hl : (mapAt maps r).lookup k with
  | none => exact List.nodup_nil
  | some d =>
    unfold mapAt at hl
    cases hm : maps[r]? with
    | none => rw [hm] at hl; cases hl
    | some m' => rw [hm] at hl; exact (R.nodup r m' k d hm hl).1

theorem entries_nodup {kinds : List (ElType × Nat)} {D : Nat} (hm : MeshOk kinds m bnds D) (R : Result bnds m N nParts parts f maps) (p : Prog) (r : Nat) :
    ((entries p (mapAt maps r)).map (·.2)).Nodup := by
  refine List.Nodup.map_on ?_ ?_
  · intro q hq q' hq' he
    have h1 := (inDom_mapAt R (mem_entries.1 hq).2).2.2
    have h2 := (inDom_mapAt R (mem_entries.1 hq').2).2.2
    exact Prod.ext (dom_unique hm h1 h2 (by rw [he])).1 he
  · unfold entries tagged
    refine List.nodup_flatMap.2 ⟨fun k _ => (nodup_single R r k).map fun a b h => (Prod.mk.inj h).2, ?_⟩
    refine ((keys_mapAt R r).filter _).imp fun {a b} hab => ?_
    intro q h1 h2
    obtain ⟨_, _, rfl⟩ := List.mem_map.1 h1
    obtain ⟨_, _, he⟩ := List.mem_map.1 h2
    exact hab (Prod.mk.inj he).1.symm

theorem view_parent (R : Result bnds m N nParts parts f maps) (hu : UniqueParent m bnds) {p : Prog} (hp : p.Ok m bnds) {K : BKernel} (hK : K ∈ p.bkernels) {r : Nat} {v : Element × Nat}
    (hv : v ∈ (visitIds (mapAt maps r) K.bnds).filterMap (viewOf (mapAt maps r))) :
    ∃ k, InDom (mapAt maps r) k v.1 ∧ ∃ x ∈ visitIds m K.bnds, viewOf m x = some v ∧ ∃ d ∈ p.pdef, k ∈ d.1 ∧ K.inds ⊆ d.2 := by
  obtain ⟨x, hx, hvx⟩ := List.mem_filterMap.1 hv
  obtain ⟨b, hb, hxin⟩ := mem_visitIds.1 hx
  obtain ⟨e, s, h1, h2, hpar⟩ := viewOf_part R hu (hp.bnds K hK hb) hxin
  rw [hvx] at h2
  obtain rfl := Option.some.inj h2
  obtain ⟨_, k, hin⟩ := isParent_of_part R (inDom_mapAt R hxin).1 hpar
  have hxm : x ∈ visitIds m K.bnds := mem_visitIds.2 ⟨b, hb, (inDom_mapAt R hxin).2.2⟩
  exact ⟨k, hin, x, hxm, h1, hp.bactive K hK x hxm _ _ h1 k (inDom_mapAt R hin).2.2⟩

theorem kernels_perm {kinds : List (ElType × Nat)} {D : Nat} (hm : MeshOk kinds m bnds D) (R : Result bnds m N nParts parts f maps) (hu : UniqueParent m bnds) {p : Prog} (hp : p.Ok m bnds) (r : Nat) :
    ((cels p (mapAt maps r)).flatMap fun e => e.kernels.map fun k => (⟨e.el.nodes, k.inds, k.dims, k.pts⟩ : MElem)).Perm (p.melems (mapAt maps r)) := by
  refine cels_perm (keys_mapAt R r) (entries_nodup hm R p r) ?_ ?_
  · intro K hK k hk
    obtain ⟨d, hd, hkd, _⟩ := hp.active K hK k hk
    exact hasDom_iff.2 ⟨d, hd, hkd⟩
  · intro K hK v hv
    obtain ⟨k, hin, _, _, _, d, hd, hkd, _⟩ := view_parent R hu hp hK hv
    exact List.mem_map.2 ⟨(k, v.1), mem_entries.2 ⟨hasDom_iff.2 ⟨d, hd, hkd⟩, hin⟩, rfl⟩

theorem entries_renamed (R : Result bnds m N nParts parts f maps) (p : Prog) (r : Nat) :
    entries p (part parts r).doms = (entries p (mapAt maps r)).map fun q => (q.1, mapEl f q.2) := by
  rw [part_doms R]
  unfold entries tagged
  have hk : (mapDoms f (mapAt maps r)).map (·.1) = (mapAt maps r).map (·.1) := by unfold mapDoms; rw [List.map_map]; rfl
  rw [hk, List.map_flatMap]
  refine List.flatMap_congr fun k _ => ?_
  rw [visit_mapDoms, List.map_map, List.map_map]
  rfl

theorem mapEl_inj (R : Result bnds m N nParts parts f maps) {e e' : Element} (h : Holds m e) (h' : Holds m e') (he : mapEl f e = mapEl f e') : e = e' := by
  have hn : e.nodes.map f = e'.nodes.map f := congrArg Element.nodes he
  have hl : ∀ x ∈ e.nodes, ∀ y ∈ e'.nodes, f x = f y → x = y := fun x hx y hy hxy =>
    R.bij.2.1 ((R.nodes x).1 ⟨e, h, hx⟩) ((R.nodes y).1 ⟨e', h', hy⟩) hxy
  have key : ∀ (l l' : List Nat), (∀ x ∈ l, ∀ y ∈ l', f x = f y → x = y) → l.map f = l'.map f → l = l' := by
    intro l
    induction l with
    | nil => intro l' _ h; cases l' with
      | nil => rfl
      | cons => cases h
    | cons a l ih => intro l' hl h; cases l' with
      | nil => cases h
      | cons b l' =>
        obtain ⟨h1, h2⟩ := List.cons.inj h
        rw [hl a (by simp) b (by simp) h1, ih l' (fun x hx y hy => hl x (by simp [hx]) y (by simp [hy])) h2]
  have hnn := key _ _ hl hn
  cases e; cases e'
  simp only [mapEl, Element.mk.injEq] at he
  simp only [Element.mk.injEq]
  exact ⟨he.1, he.2.1, he.2.2.1, hnn⟩

theorem kersOf_renamed (R : Result bnds m N nParts parts f maps) (hu : UniqueParent m bnds) {p : Prog} (hp : p.Ok m bnds) {r k : Nat} {e : Element} (hin : InDom (mapAt maps r) k e) :
    kersOf p (part parts r).doms k (mapEl f e) = kersOf p (mapAt maps r) k e := by
  unfold kersOf
  congr 1
  refine List.flatMap_congr fun K hK => ?_
  rw [part_doms R, views_renamed R hu (hp.bnds K hK), List.filter_map, List.map_map]
  have : ((visitIds (mapAt maps r) K.bnds).filterMap (viewOf (mapAt maps r))).filter ((fun v : Element × Nat => decide (v.1 = mapEl f e)) ∘ fun v => (mapEl f v.1, v.2)) =
      ((visitIds (mapAt maps r) K.bnds).filterMap (viewOf (mapAt maps r))).filter fun v => decide (v.1 = e) := by
    refine List.filter_congr fun v hv => ?_
    obtain ⟨k', hin', _⟩ := view_parent R hu hp hK hv
    simp only [Function.comp_apply, decide_eq_decide]
    exact ⟨fun h => mapEl_inj R (inDom_holds (inDom_mapAt R hin').2.2) (inDom_holds (inDom_mapAt R hin).2.2) h, fun h => by rw [h]⟩
  rw [this]
  rfl

theorem cels_renamed (R : Result bnds m N nParts parts f maps) (hu : UniqueParent m bnds) {p : Prog} (hp : p.Ok m bnds) (hg : ∀ x, NodeIn m x → g (f x) = x) (r : Nat) :
    (cels p (part parts r).doms).map (CEl.rename g) = cels p (mapAt maps r) := by
  unfold cels
  rw [entries_renamed R, List.map_map, List.map_map]
  refine List.map_congr_left fun q hq => ?_
  have hin := (mem_entries.1 hq).2
  have hnodes : (q.2.nodes.map f).map g = q.2.nodes := by
    rw [List.map_map]
    conv_rhs => rw [← List.map_id q.2.nodes]
    refine List.map_congr_left fun x hx => hg x ⟨q.2, inDom_holds (inDom_mapAt R hin).2.2, hx⟩
  simp only [Function.comp_apply]
  unfold CEl.rename
  rw [kersOf_renamed R hu hp hin]
  unfold toEl
  simp only [mapEl, hnodes]
  rfl

/-- The condensed problem of a distributed mesh, in the names before distribution. -/
def cproblem (p : PProg) (m : DomMap) (pos : Nat → List ℝ) (N nParts : Nat) (maps : List DomMap) : CProblem where
  dpn := p.dpn
  node n := n < N
  els := (List.range nParts).flatMap fun r => cels p.toProg (mapAt maps r)
  ident := p.ident m pos
  dir k := ∃ d ∈ p.dirichlet, k.2 ∈ d.2 ∧ ∃ e ∈ visitIds m d.1, k.1 ∈ e.nodes
  val := p.val

theorem mem_els (R : Result bnds m N nParts parts f maps) {p : PProg} {e : CEl} (he : e ∈ (cproblem p m pos N nParts maps).els) :
    ∃ r < nParts, ∃ k e', hasDom p.toProg k = true ∧ InDom (mapAt maps r) k e' ∧ InDom m k e' ∧ e = ⟨toEl k e', activeIn p.toProg k, kersOf p.toProg (mapAt maps r) k e'⟩ := by
  obtain ⟨r, hr, he⟩ := List.mem_flatMap.1 he
  obtain ⟨q, hq, rfl⟩ := List.mem_map.1 he
  obtain ⟨h1, h2⟩ := mem_entries.1 hq
  exact ⟨r, List.mem_range.1 hr, q.1, q.2, h1, h2, (inDom_mapAt R h2).2.2, rfl⟩

theorem els_mem (R : Result bnds m N nParts parts f maps) {p : PProg} {k : Nat} {e : Element} (hk : hasDom p.toProg k = true) (h : InDom m k e) :
    ∃ r < nParts, ⟨toEl k e, activeIn p.toProg k, kersOf p.toProg (mapAt maps r) k e⟩ ∈ (cproblem p m pos N nParts maps).els := by
  obtain ⟨r, ⟨m', hm', hin'⟩, _⟩ := R.uniq k e h
  have hr : r < nParts := by rw [← R.len]; exact (List.getElem?_eq_some_iff.1 hm').1
  have hin : InDom (mapAt maps r) k e := by unfold mapAt; rw [hm']; exact hin'
  exact ⟨r, hr, List.mem_flatMap.2 ⟨r, List.mem_range.2 hr, List.mem_map.2 ⟨(k, e), mem_entries.2 ⟨hk, hin⟩, rfl⟩⟩⟩

theorem prim_used (R : Result bnds m N nParts parts f maps) {p : PProg} (hp : p.toProg.Ok m bnds) (k : Nat × Nat) :
    (cproblem p m pos N nParts maps).prim.toProblem.used k ↔ primary p m pos k := by
  constructor
  · rintro ⟨h1, _, w, hw, n, hn, hj, hid⟩
    obtain ⟨e, he, rfl⟩ := List.mem_map.1 hw
    obtain ⟨r, _, k', e', hk', _, hin, rfl⟩ := mem_els R he
    obtain ⟨d, hd, hkd, hjd⟩ := (mem_activeIn hp.comps).1 hj
    exact ⟨(R.nodes _).2 h1, d, hd, hjd, e', mem_visitIds.2 ⟨k', hkd, hin⟩, n, hn, hid⟩
  · rintro ⟨h1, d, hd, hj, e, he, n, hn, hid⟩
    obtain ⟨k', hk', hin⟩ := mem_visitIds.1 he
    obtain ⟨r, _, hmem⟩ := els_mem (pos := pos) R (p := p) (hasDom_iff.2 ⟨d, hd, hk'⟩) hin
    exact ⟨(R.nodes _).1 h1, hp.comps d hd _ hj, _, List.mem_map.2 ⟨_, hmem, rfl⟩, n, hn, (mem_activeIn hp.comps).2 ⟨d, hd, hk', hj⟩, hid⟩

theorem full_used (R : Result bnds m N nParts parts f maps) {p : PProg} (hp : p.toProg.Ok m bnds) (k : Nat × Nat) :
    (cproblem p m pos N nParts maps).full.toProblem.used k ↔ (p.problem m pos N).toProblem.used k := by
  rw [PerPipe.unknown_iff hp R.nodes]
  constructor
  · rintro ⟨h1, _, w, hw, n, hn, hj, hid⟩
    obtain ⟨e, he, rfl⟩ := List.mem_map.1 hw
    obtain ⟨r, _, k', e', hk', _, hin, rfl⟩ := mem_els R he
    obtain ⟨d, hd, hkd, hjd⟩ := (mem_activeIn hp.comps).1 hj
    exact ⟨(R.nodes _).2 h1, n, ⟨d, hd, hjd, e', mem_visitIds.2 ⟨k', hkd, hin⟩, hn⟩, hid⟩
  · rintro ⟨h1, n, ⟨d, hd, hj, e, he, hn⟩, hid⟩
    obtain ⟨k', hk', hin⟩ := mem_visitIds.1 he
    obtain ⟨r, _, hmem⟩ := els_mem (pos := pos) R (p := p) (hasDom_iff.2 ⟨d, hd, hk'⟩) hin
    exact ⟨(R.nodes _).1 h1, hp.comps d hd _ hj, _, List.mem_map.2 ⟨_, hmem, rfl⟩, n, hn, (mem_activeIn hp.comps).2 ⟨d, hd, hk', hj⟩, hid⟩

theorem full_elems {kinds : List (ElType × Nat)} {D : Nat} (hm : MeshOk kinds m bnds D) (R : Result bnds m N nParts parts f maps) (hu : UniqueParent m bnds) {p : PProg} (hp : p.toProg.Ok m bnds) :
    (cproblem p m pos N nParts maps).full.elems.Perm (p.problem m pos N).elems := by
  change (((List.range nParts).flatMap fun r => cels p.toProg (mapAt maps r)).flatMap _).Perm (p.toProg.melems m)
  rw [List.flatMap_assoc]
  exact (flatMap_perm_congr fun r _ => kernels_perm hm R hu hp r).trans (elems_perm hm R hu hp)

/-- Condensed and plain problem have the same least-squares solutions. -/
theorem full_minimises {kinds : List (ElType × Nat)} {D : Nat} (hm : MeshOk kinds m bnds D) (R : Result bnds m N nParts parts f maps) (hu : UniqueParent m bnds) {p : PProg} (hp : p.toProg.Ok m bnds)
    (c : Nat) (F : Nat × Nat → ℝ) : (cproblem p m pos N nParts maps).full.toProblem.Minimises c F ↔ (p.problem m pos N).toProblem.Minimises c F := by
  have hJ : ∀ F, (cproblem p m pos N nParts maps).full.toProblem.J c F = (p.problem m pos N).toProblem.J c F := by
    intro F
    unfold Problem.J
    exact List.Perm.sum_eq (((full_elems hm R hu hp).map MElem.keyed).map _)
  have hA : ∀ F, (cproblem p m pos N nParts maps).full.toProblem.Admissible c F ↔ (p.problem m pos N).toProblem.Admissible c F := by
    intro F
    unfold Problem.Admissible
    simp only [full_used (pos := pos) R hp]
    exact Iff.rfl
  unfold Problem.Minimises
  simp only [hJ, hA]

end

end Verif.CondPipe
