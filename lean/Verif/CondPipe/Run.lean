import Verif.CondPipe.Okay

/-! # The condensed run of a distributed mesh -/
namespace Verif.CondPipe
open Verif Verif.Elem Verif.Mesh Verif.Dofs Verif.Lsq Verif.Distr Verif.Pipeline Verif.Partition Verif.Split Verif.PerPipe Verif.CondInit Verif.CondDistr

noncomputable section

variable {bnds : List Nat} {m : DomMap} {N nParts : Nat} {parts : List Part} {f g : Nat → Nat} {maps : List DomMap}
variable {pos npos : Nat → List ℝ} {o : Orders} {rowM colM vecM : Nat → List Nat}

/-- What the numbering of the primary dofs satisfies. -/
structure CNumbered (p : PProg) (m : DomMap) (pos : Nat → List ℝ) (N : Nat) (parts : List Part) (f : Nat → Nat) (s : Setup) : Prop where
  ok : s.Ok
  dpn : s.dpn = p.dpn
  counts : s.counts = (p.toProg.setup parts).counts
  ghosts : s.ghosts = (p.toProg.setup parts).ghosts
  visits : s.visits = (csetup p.toProg parts).visits
  rep : ∀ j n n', n < N → n' < N → (s.rep (f n) j = s.rep (f n') j ↔ p.ident m pos j n n')
  marked : ∀ j y, s.Active y j → s.lookup (s.owner y) y j ≠ none → ∃ w ∈ s.visits (s.owner y), y ∈ w.nodes ∧ j ∈ w.active

theorem lookup_ident (R : Result bnds m N nParts parts f maps) (hu : UniqueParent m bnds) (ho : o.Ok) (hl : Located m pos npos f) {p : PProg} (hx : p.Exact m bnds pos)
    {gs : List (List Nat × List Nat × List Nat × List (Nat × Nat))} (hgs : p.groups o npos parts = some gs) (hper : Periodic (p.toProg.setup parts) gs) {r y j a : Nat}
    (h : ((p.toProg.setup parts).withPeriodic (strip gs)).lookup r y j = some a) : ∃ x, f x = y ∧ OnB m bnds x := by
  obtain ⟨_, G, hG, hjG, hm⟩ := (lookup_spec hper r y j a).1 h
  have hj : j < p.dpn := hper.comps G hG j hjG
  obtain ⟨G', hG', hjG', hlink⟩ := group_of R hu ho hl hx hgs hj
  obtain rfl := same_group hper hG hG' hjG hjG'
  obtain ⟨h1, h2, _⟩ := ((hper.pairs G hG).mem y a).1 hm
  obtain ⟨m1, m2⟩ := linked_mem h2 h1
  have n1 := hper.nodes G hG y m1
  have n2 := hper.nodes G hG a m2
  rw [setup_sum p.toProg R] at n1 n2
  obtain ⟨x, hx1, rfl⟩ := R.bij.2.2 (show y ∈ Set.Iio N from n1)
  obtain ⟨z, hz1, rfl⟩ := R.bij.2.2 (show a ∈ Set.Iio N from n2)
  rcases ident_onB hx ((hlink x z hx1 hz1).1 h2) with rfl | h
  · exact absurd rfl h1
  · exact ⟨x, rfl, h.1⟩

theorem mem_cvisits (R : Result bnds m N nParts parts f maps) {p : Prog} {r : Nat} {w : Visit} : w ∈ cvisits p (part parts r).doms ↔
    ∃ d ∈ p.pdef, ∃ k ∈ d.1, ∃ e, InDom (mapAt maps r) k e ∧ w = ⟨(toEl 0 e).bndNodes.map f, d.2⟩ := by
  have hb : ∀ e : Element, (toEl 0 (mapEl f e)).bndNodes = (toEl 0 e).bndNodes.map f := by
    intro e
    unfold El.bndNodes El.bndPos toEl
    simp only [mapEl, List.length_map, List.map_map]
    refine List.map_congr_left fun v hv => ?_
    have hv := List.mem_range.1 (List.mem_filter.1 hv).1
    simp only [Function.comp_apply]
    rw [List.getD_eq_getElem?_getD, List.getD_eq_getElem?_getD, List.getElem?_map, List.getElem?_eq_getElem hv]
    rfl
  unfold cvisits
  rw [part_doms R]
  simp only [visit_mapDoms, List.mem_flatMap, List.mem_map]
  constructor
  · rintro ⟨d, hd, _, ⟨e, he, rfl⟩, rfl⟩
    obtain ⟨k, hk, hin⟩ := mem_visitIds.1 he
    exact ⟨d, hd, k, hk, e, hin, by rw [hb]⟩
  · rintro ⟨d, hd, k, hk, e, hin, rfl⟩
    exact ⟨d, hd, _, ⟨e, mem_visitIds.2 ⟨k, hk, hin⟩, rfl⟩, by rw [hb]⟩

theorem knows_node {p : Prog} (R : Result bnds m N nParts parts f maps) {r : Nat} (hr : r < nParts) {k : Nat} {e : Element} (hin : InDom (mapAt maps r) k e) {x : Nat} (hx : x ∈ e.nodes) :
    NodeIn (part parts r).doms (f x) ∧ (p.setup parts).Knows r (f x) := by
  have h : NodeIn (part parts r).doms (f x) := by
    refine ⟨mapEl f e, ?_, List.mem_map.2 ⟨x, hx, rfl⟩⟩
    rw [part_doms R]
    exact holds_mapDoms (inDom_holds hin)
  exact ⟨h, nodeIn_knows p R hr h⟩

theorem csetup_ok {p : Prog} (hp : p.Ok m bnds) (R : Result bnds m N nParts parts f maps) : (csetup p parts).MeshOk := by
  refine ⟨(meshOk_setup hp R).ghosts, ?_⟩
  intro r hr w hw
  have hr : r < nParts := lt_of_lt_of_eq hr (setup_length p R)
  obtain ⟨d, hd, k, hk, e, hin, rfl⟩ := (mem_cvisits R).1 hw
  refine ⟨fun y hy => ?_, hp.comps d hd⟩
  obtain ⟨x, hx, rfl⟩ := List.mem_map.1 hy
  exact (knows_node (p := p) R hr hin (bndNodes_sub hx)).2

/-- Numbering never fails and is as promised. -/
theorem cnumbered {kinds : List (ElType × Nat)} {D : Nat} (hm : MeshOk kinds m bnds D) {p : PProg} (hp : p.toProg.Ok m bnds)
    (R : Result bnds m N nParts parts f maps) (hu : UniqueParent m bnds) (ho : o.Ok) (hl : Located m pos npos f) (hx : p.Exact m bnds pos) (he : p.Everywhere m bnds)
    (hC : Condensable p m bnds pos) : ∃ s, pcsetup p o npos parts = some s ∧ CNumbered p m pos N parts f s := by
  obtain ⟨gs, hgs, hper, _⟩ := groups_spec R hu ho hl hx
  have hper' : Periodic (csetup p.toProg parts) gs := by constructor <;> first | exact hper.1 | exact hper.2 | exact hper.3 | exact hper.4
  have hok := C41_consistent (csetup_ok hp R) hper'
  refine ⟨(csetup p.toProg parts).withPeriodic (strip gs), by unfold pcsetup; rw [hgs]; rfl, hok, rfl, rfl, rfl, rfl,
    fun j n n' hn hn' => rep_iff R hu ho hl hx hgs hper j n n' hn hn', ?_⟩
  intro j y hact hne
  obtain ⟨a, ha⟩ := Option.ne_none_iff_exists'.1 hne
  obtain ⟨hj, d, hd, hjd⟩ := lookup_named R hu ho hl hx hgs hper ha
  obtain ⟨x0, hx0, honB⟩ := lookup_ident R hu ho hl hx hgs hper ha
  obtain ⟨r, hr, w, hw, hyw, _⟩ := hact
  have hkn := (hok.visits r hr w hw).1 y hyw
  have hlt := local_lt hok hr (knows_local hkn)
  obtain ⟨ho1, ho2⟩ := owns_owner hlt
  have ho1' : ((csetup p.toProg parts).withPeriodic (strip gs)).owner y < nParts := by
    have := setup_length p.toProg R
    exact lt_of_lt_of_eq ho1 this
  have ho2' : (part parts (((csetup p.toProg parts).withPeriodic (strip gs)).owner y)).own.isOwned y = true := by
    rw [← setup_owns p.toProg R ho1']
    exact ho2
  obtain ⟨k, hk, e, hin, x, hxe, hfx⟩ := seen_inside hm R ho1' ho2'
  have hin' := (inDom_mapAt R hin).2.2
  obtain ⟨q, hq, hkq, hjq⟩ := he d hd j hjd k hk e hin'
  have hxx : x = x0 := by
    have n0 : NodeIn m x0 := by obtain ⟨b, _, e', h1, h2⟩ := honB; exact ⟨e', inDom_holds h1, h2⟩
    exact R.bij.2.1 ((R.nodes x).1 ⟨e, inDom_holds hin', hxe⟩) ((R.nodes x0).1 n0) (hfx.trans hx0.symm)
  subst hxx
  have hxb : x ∈ (toEl 0 e).bndNodes := (node_cases (e := toEl 0 e) hxe).resolve_right fun hi => int_not_onB hm hC hq hkq hin' hi honB
  refine ⟨⟨(toEl 0 e).bndNodes.map f, q.2⟩, ?_, List.mem_map.2 ⟨x, hxb, hfx⟩, hjq⟩
  change _ ∈ cvisits p.toProg (part parts _).doms
  exact (mem_cvisits R).2 ⟨q, hq, k, hkq, e, hin, rfl⟩

theorem cknows {p : PProg} {s : Setup} (hn : CNumbered p m pos N parts f s) {r n : Nat} (h : (p.toProg.setup parts).Knows r n) : s.Knows r n := by
  unfold Setup.Knows Setup.owns Setup.world at *
  rw [hn.counts, hn.ghosts]
  exact h

/-- All conditions of a run except those on Dirichlet data. -/
theorem crun_of' {p : PProg} (hp : p.toProg.Ok m bnds)
    (R : Result bnds m N nParts parts f maps) (hu : UniqueParent m bnds) {s : Setup} (hn : CNumbered p m pos N parts f s) (hg : ∀ x, NodeIn m x → g (f x) = x)
    (v : Nat → Nat → ℝ)
    (hcon : ∀ i, constrained p.toProg s parts i ↔ (crun p.toProg s parts f g v rowM colM vecM).R.D (cproblem p m pos N nParts maps).prim i)
    (hval : ∀ k, (cproblem p m pos N nParts maps).prim.toProblem.used k → (cproblem p m pos N nParts maps).dir k → ∀ c, v ((crun p.toProg s parts f g v rowM colM vecM).R.num k) c = p.val k c) :
    (crun p.toProg s parts f g v rowM colM vecM).R.Of (cproblem p m pos N nParts maps).prim := by
  classical
  have hnr : (crun p.toProg s parts f g v rowM colM vecM).R.nr = nParts := by
    change s.counts.length = _
    rw [hn.counts]; exact setup_length p.toProg R
  have hvp : ∀ r, (crun p.toProg s parts f g v rowM colM vecM).R.vpart r = (cels p.toProg (mapAt maps r)).map fun e => ⟨e.el.bndNodes, e.active⟩ := by
    intro r
    change (((cels p.toProg (part parts r).doms).map (CEl.rename g))).map _ = _
    rw [cels_renamed R hu hp hg]
  refine ⟨hn.ok, hn.dpn, ?_, ?_, ?_, ?_, ?_, ?_, ?_, ?_, hval⟩
  · intro x
    rw [show (crun p.toProg s parts f g v rowM colM vecM).R.s.counts.sum = N by
      change s.counts.sum = _
      rw [hn.counts]; exact setup_sum p.toProg R]
    constructor
    · intro hx
      obtain ⟨n, hn, rfl⟩ := R.bij.2.2 (show x ∈ Set.Iio N from hx)
      exact ⟨n, hn, rfl⟩
    · rintro ⟨n, hn, rfl⟩
      exact R.bij.1 hn
  · have : ((List.range (crun p.toProg s parts f g v rowM colM vecM).R.nr).flatMap (crun p.toProg s parts f g v rowM colM vecM).R.part) = [] :=
      List.flatMap_eq_nil_iff.2 fun _ _ => rfl
    rw [this]
    exact List.Perm.refl _
  · rw [hnr]
    have : (List.range nParts).flatMap (crun p.toProg s parts f g v rowM colM vecM).R.vpart = (cproblem p m pos N nParts maps).prim.visits := by
      change _ = ((List.range nParts).flatMap fun r => cels p.toProg (mapAt maps r)).map fun e : CEl => (⟨e.el.bndNodes, e.active⟩ : Visit)
      rw [List.map_flatMap]
      exact List.flatMap_congr fun r _ => hvp r
    rw [this]
  · intro r hr
    rw [hnr] at hr
    rw [hvp r]
    refine ⟨fun y j => ?_, fun w hw n hnw => ?_⟩
    · have hvis : (crun p.toProg s parts f g v rowM colM vecM).R.s.visits r = cvisits p.toProg (part parts r).doms := by
        change s.visits r = _
        rw [hn.visits]
        rfl
      rw [hvis]
      constructor
      · rintro ⟨w, hw, hy, hj⟩
        obtain ⟨d, hd, k, hk, e, hin, rfl⟩ := (mem_cvisits R).1 hw
        exact ⟨_, List.mem_map.2 ⟨_, List.mem_map.2 ⟨(k, e), mem_entries.2 ⟨hasDom_iff.2 ⟨d, hd, hk⟩, hin⟩, rfl⟩, rfl⟩, hy, (mem_activeIn hp.comps).2 ⟨d, hd, hk, hj⟩⟩
      · rintro ⟨w, hw, hy, hj⟩
        obtain ⟨e, he, rfl⟩ := List.mem_map.1 hw
        obtain ⟨q, hq, rfl⟩ := List.mem_map.1 he
        obtain ⟨d, hd, hk, hjd⟩ := (mem_activeIn hp.comps).1 hj
        exact ⟨_, (mem_cvisits R).2 ⟨d, hd, q.1, hk, q.2, (mem_entries.1 hq).2, rfl⟩, hy, hjd⟩
    · obtain ⟨e, he, rfl⟩ := List.mem_map.1 hw
      obtain ⟨q, hq, rfl⟩ := List.mem_map.1 he
      exact cknows hn (knows_node (p := p.toProg) R hr (mem_entries.1 hq).2 (bndNodes_sub hnw)).2
  · intro r _ e he; cases he
  · intro j n n' h1 h2
    exact hn.rep j n n' h1 h2
  · intro r _ d _
    change decide (constrained p.toProg s parts ((l2g s r).getD d 0)) = true ↔ _
    rw [decide_eq_true_iff, hcon]
    exact Iff.rfl
  · intro r _
    refine ⟨(List.nodup_range).filter _, fun d => ?_⟩
    change d ∈ (List.range _).filter _ ↔ _
    rw [List.mem_filter, List.mem_range]
    exact Iff.rfl

theorem prim_ok' {p : PProg} (hp : p.toProg.Ok m bnds) (R : Result bnds m N nParts parts f maps) : (cproblem p m pos N nParts maps).prim.Ok := by
  refine ⟨fun e he => absurd he List.not_mem_nil, fun e he => absurd he List.not_mem_nil, ?_, fun _ _ _ => Relation.EqvGen.refl _, fun e he => absurd he List.not_mem_nil⟩
  intro w hw
  obtain ⟨e, he, rfl⟩ := List.mem_map.1 hw
  obtain ⟨r, _, k, e', hk, _, hin, rfl⟩ := mem_els R he
  exact ⟨fun n hn => (R.nodes n).1 ⟨e', inDom_holds hin, bndNodes_sub hn⟩, fun j hj => List.mem_range.1 (List.mem_filter.1 hj).1⟩

theorem bare_cnumbered {p : PProg} {s : Setup} (h : CNumbered p m pos N parts f s) : CNumbered (bare p) m pos N parts f s :=
  ⟨h.ok, h.dpn, h.counts, h.ghosts, h.visits, h.rep, h.marked⟩

theorem bare_crun_of {p : PProg} (hp : p.toProg.Ok m bnds) (R : Result bnds m N nParts parts f maps) (hu : UniqueParent m bnds) {s : Setup} (hn : CNumbered p m pos N parts f s)
    (hg : ∀ x, NodeIn m x → g (f x) = x) :
    (crun (bare p).toProg s parts f g (fun _ _ => 0) (fun _ => []) (fun _ => []) fun _ => []).R.Of (cproblem (bare p) m pos N nParts maps).prim := by
  refine crun_of' (p := bare p) (Pipeline.bare_ok hp) R hu (bare_cnumbered hn) hg _ ?_ ?_
  · intro g
    constructor
    · rintro ⟨r, _, d, hd, _⟩; exact absurd hd List.not_mem_nil
    · rintro ⟨k, _, ⟨d, hd, _⟩, _⟩; exact absurd hd List.not_mem_nil
  · rintro k _ ⟨d, hd, _⟩; exact absurd hd List.not_mem_nil

/-- A primary dof has a number exactly if it is used. -/
theorem csome_iff {p : PProg} (hp : p.toProg.Ok m bnds) (R : Result bnds m N nParts parts f maps) (hu : UniqueParent m bnds) {s : Setup} (hn : CNumbered p m pos N parts f s)
    (hg : ∀ x, NodeIn m x → g (f x) = x) {x j : Nat} (hx : x < N) (hj : j < p.dpn) :
    (s.dofs (s.owner (f x)) (f x) j).isSome = true ↔ (cproblem p m pos N nParts maps).prim.toProblem.used (x, j) := by
  have hof := bare_crun_of (pos := pos) hp R hu hn hg
  exact some_iff (n := x) (j := j) (prim_ok' (p := bare p) (pos := pos) (Pipeline.bare_ok hp) R) hof (fun j y h1 h2 => hn.marked j y h1 h2) hx hj

theorem cconstrained_iff {p : PProg} (hp : p.toProg.Ok m bnds)
    (R : Result bnds m N nParts parts f maps) (hu : UniqueParent m bnds) {s : Setup} (hn : CNumbered p m pos N parts f s) (hg : ∀ x, NodeIn m x → g (f x) = x)
    (v : Nat → Nat → ℝ) (i : Nat) :
    constrained p.toProg s parts i ↔ (crun p.toProg s parts f g v rowM colM vecM).R.D (cproblem p m pos N nParts maps).prim i := by
  have hso := hn.ok
  have hlen : s.counts.length = nParts := by rw [hn.counts]; exact setup_length p.toProg R
  constructor
  · rintro ⟨r, hr, d, hd, e, he, n, hne, j, hj, hgi⟩
    rw [R.plen] at hr
    rw [part_doms R, visit_mapDoms] at he
    obtain ⟨e', he', rfl⟩ := List.mem_map.1 he
    obtain ⟨x, hx, rfl⟩ := List.mem_map.1 hne
    obtain ⟨k, hk, hin⟩ := mem_visitIds.1 he'
    have hin' := (inDom_mapAt R hin).2.2
    have hxN : x < N := (R.nodes x).1 ⟨e', inDom_holds hin', hx⟩
    have hkn : s.Knows r (f x) := cknows hn (knows_node (p := p.toProg) R hr hin hx).2
    have hloc := knows_local hkn
    have hr' : r < s.counts.length := by rw [hlen]; exact hr
    have hjd : j < p.dpn := by rw [← hn.dpn]; exact dof_lt_dpn hso hr' hloc hgi
    rw [dofs_owner hso hr' hloc] at hgi
    have hus := (csome_iff hp R hu hn hg hxN hjd).1 (Option.isSome_iff_exists.2 ⟨i, hgi⟩)
    refine ⟨(x, j), hus, ⟨d, hd, hj, e', mem_visitIds.2 ⟨k, hk, hin'⟩, hx⟩, ?_⟩
    change (s.dofs (s.owner (f x)) (f x) j).getD 0 = i
    rw [hgi]; rfl
  · rintro ⟨⟨x, j⟩, hus, ⟨d, hd, hj, e, he, hx⟩, hgi⟩
    obtain ⟨k, hk, hin⟩ := mem_visitIds.1 he
    obtain ⟨r, ⟨m', hm', hin'⟩, _⟩ := R.uniq k e hin
    have hr : r < nParts := by rw [← R.len]; exact (List.getElem?_eq_some_iff.1 hm').1
    have hr' : r < s.counts.length := by rw [hlen]; exact hr
    have hin2 : InDom (mapAt maps r) k e := by unfold mapAt; rw [hm']; exact hin'
    have hkn : s.Knows r (f x) := cknows hn (knows_node (p := p.toProg) R hr hin2 hx).2
    have hsm := (csome_iff hp R hu hn hg hus.1 hus.2.1).2 hus
    obtain ⟨g', hg'⟩ := Option.isSome_iff_exists.1 hsm
    refine ⟨r, by rw [R.plen]; exact hr, d, hd, mapEl f e, ?_, f x, List.mem_map.2 ⟨x, hx, rfl⟩, j, hj, ?_⟩
    · rw [part_doms R, visit_mapDoms]
      exact List.mem_map.2 ⟨e, mem_visitIds.2 ⟨k, hk, hin2⟩, rfl⟩
    · rw [dofs_owner hso hr' (knows_local hkn), hg', ← hgi]
      change _ = some ((s.dofs (s.owner (f x)) (f x) j).getD 0)
      rw [hg']; rfl

/-- The run of the program is one of the condensed problem. -/
theorem crun_of {p : PProg} (hp : p.toProg.Ok m bnds)
    (R : Result bnds m N nParts parts f maps) (hu : UniqueParent m bnds) {s : Setup} (hn : CNumbered p m pos N parts f s) (hg : ∀ x, NodeIn m x → g (f x) = x)
    {v : Nat → Nat → ℝ} (hv : ∀ k, primary p m pos k → p.toProg.prescribed m k → ∀ c, v (dof s (f k.1, k.2)) c = p.val k c) (hM : MapsOk s parts rowM colM vecM) :
    (crun p.toProg s parts f g v rowM colM vecM).Of (cproblem p m pos N nParts maps) := by
  have hnr : (crun p.toProg s parts f g v rowM colM vecM).R.nr = nParts := by
    change s.counts.length = _
    rw [hn.counts]; exact setup_length p.toProg R
  have hparts : ∀ r, (crun p.toProg s parts f g v rowM colM vecM).parts r = cels p.toProg (mapAt maps r) := fun r => cels_renamed R hu hp hg r
  refine ⟨crun_of' hp R hu hn hg v (cconstrained_iff hp R hu hn hg v) fun k hk hd c => hv k ((prim_used R hp k).1 hk) hd c, fun j y h1 h2 => hn.marked j y h1 h2, ?_, fun _ _ => rfl, ?_, ?_⟩
  · rw [hnr]
    have : (List.range nParts).flatMap (crun p.toProg s parts f g v rowM colM vecM).parts = (cproblem p m pos N nParts maps).els := List.flatMap_congr fun r _ => hparts r
    rw [this]
  · intro r hr
    rw [hnr, ← R.plen] at hr
    exact ⟨(hM r hr).1, (hM r hr).2.1, (hM r hr).2.2.1⟩
  · intro r hr e he n hne j i hd
    rw [hnr] at hr
    rw [hparts] at he
    obtain ⟨q, hq, rfl⟩ := List.mem_map.1 he
    exact (hM r (by rw [R.plen]; exact hr)).2.2.2 (f n) (knows_node (p := p.toProg) R hr (mem_entries.1 hq).2 (bndNodes_sub hne)).1 j i hd

theorem cgives_iff {p : PProg} (hp : p.toProg.Ok m bnds)
    (R : Result bnds m N nParts parts f maps) {s : Setup} {v : Nat → Nat → ℝ} {nc c : Nat} {x : Nat → ℝ} {F : Nat × Nat → ℝ} :
    (crun p.toProg s parts f g v rowM colM vecM).Gives (cproblem p m pos N nParts maps) nc c x F ↔ Field p m pos s f (crun p.toProg s parts f g v rowM colM vecM) nc c x F := by
  constructor
  · intro h
    exact ⟨fun k hk => h.prim k ((prim_used R hp k).2 hk), h.int⟩
  · intro h
    exact ⟨fun k hk => h.prim k ((prim_used R hp k).1 hk), h.int⟩

theorem sys_congr {n : Nat} {D D' : Nat → Prop} [DecidablePred D] [DecidablePred D'] (h : D = D') {A : Nat → Nat → ℝ} {B v x : Nat → ℝ} :
    SolvesSys n D A B v x ↔ SolvesSys n D' A B v x := by
  subst h
  convert Iff.rfl

theorem csolved_iff {p : PProg} (hp : p.toProg.Ok m bnds)
    (R : Result bnds m N nParts parts f maps) (hu : UniqueParent m bnds) {s : Setup} (hn : CNumbered p m pos N parts f s) (hg : ∀ x, NodeIn m x → g (f x) = x)
    (v : Nat → Nat → ℝ) (um uv : Nat → List ((Nat × Nat) × ℝ)) (c : Nat) (x : Nat → ℝ) :
    (crun p.toProg s parts f g v rowM colM vecM).Solved (cproblem p m pos N nParts maps) um uv c x ↔ CSolution p.toProg s parts (crun p.toProg s parts f g v rowM colM vecM) um uv v c x := by
  have e : constrained p.toProg s parts = (crun p.toProg s parts f g v rowM colM vecM).R.D (cproblem p m pos N nParts maps).prim :=
    funext fun i => propext (cconstrained_iff hp R hu hn hg v i)
  classical
  unfold CSolution CRun.Solved
  exact sys_congr e.symm

/-- Old names from new ones. -/
theorem back_exists (R : Result bnds m N nParts parts f maps) : ∃ g : Nat → Nat, ∀ x, NodeIn m x → g (f x) = x := by
  classical
  refine ⟨fun y => if h : ∃ x, NodeIn m x ∧ f x = y then h.choose else 0, fun x hx => ?_⟩
  have h : ∃ x', NodeIn m x' ∧ f x' = f x := ⟨x, hx, rfl⟩
  beta_reduce
  rw [dif_pos h]
  exact R.bij.2.1 ((R.nodes _).1 h.choose_spec.1) ((R.nodes x).1 hx) h.choose_spec.2

theorem same_count (R : Result bnds m N nParts parts f maps) {N' : Nat} (hN : ∀ x, NodeIn m x ↔ x < N') : N = N' := by
  have h : ∀ x, x < N ↔ x < N' := fun x => (R.nodes x).symm.trans (hN x)
  have h1 := h N
  have h2 := h N'
  omega

theorem unique_of {kinds : List (ElType × Nat)} {D : Nat} (hm : MeshOk kinds m bnds D) (R : Result bnds m N nParts parts f maps) (hu : UniqueParent m bnds) {p : PProg} (hp : p.toProg.Ok m bnds) {c : Nat}
    (h : ∀ F F', (p.problem m pos N).toProblem.Minimises c F → (p.problem m pos N).toProblem.Minimises c F' → ∀ k, p.unknown m pos k → F k = F' k) :
    (cproblem p m pos N nParts maps).Unique c := by
  intro F F' h1 h2 k hk
  rw [full_minimises hm R hu hp] at h1 h2
  exact h F F' h1 h2 k ((PerPipe.unknown_iff hp R.nodes k).1 ((full_used R hp k).1 hk))

end

end Verif.CondPipe
