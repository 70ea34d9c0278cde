import Verif.PerPipe.Number

/-! # The run of a periodic program -/
namespace Verif.PerPipe
open Verif Verif.Elem Verif.Mesh Verif.Dofs Verif.Lsq Verif.Distr Verif.Pipeline Verif.Partition Verif.Split

noncomputable section

variable {bnds : List Nat} {m : DomMap} {N nParts : Nat} {parts : List Part} {f : Nat → Nat} {maps : List DomMap}
variable {pos npos : Nat → List ℝ} {o : Orders} {sel : Nat → List MElem} {els : Nat → List LElem}

/-- What the numbering of a periodic program satisfies. -/
structure Numbered (p : PProg) (m : DomMap) (pos : Nat → List ℝ) (N : Nat) (parts : List Part) (f : Nat → Nat) (s : Setup) : Prop where
  ok : s.Ok
  dpn : s.dpn = p.dpn
  counts : s.counts = (p.toProg.setup parts).counts
  ghosts : s.ghosts = (p.toProg.setup parts).ghosts
  visits : s.visits = (p.toProg.setup parts).visits
  rep : ∀ j n n', n < N → n' < N → (s.rep (f n) j = s.rep (f n') j ↔ p.ident m pos j n n')
  marked : ∀ j y, s.Active y j → s.lookup (s.owner y) y j ≠ none → ∃ w ∈ s.visits (s.owner y), y ∈ w.nodes ∧ j ∈ w.active

theorem knows_of {p : PProg} {s : Setup} (hn : Numbered p m pos N parts f s) {r n : Nat} (h : (p.toProg.setup parts).Knows r n) : s.Knows r n := by
  unfold Setup.Knows Setup.owns Setup.world at *
  rw [hn.counts, hn.ghosts]
  exact h

/-- Numbering never fails and is as promised. -/
theorem numbered {kinds : List (ElType × Nat)} {D : Nat} (hm : MeshOk kinds m bnds D) {p : PProg} (hp : p.toProg.Ok m bnds)
    (R : Result bnds m N nParts parts f maps) (hu : UniqueParent m bnds) (ho : o.Ok) (hl : Located m pos npos f) (hx : p.Exact m bnds pos) (he : p.Everywhere m bnds) :
    ∃ s, p.psetup o npos parts = some s ∧ Numbered p m pos N parts f s := by
  obtain ⟨gs, hgs, hper, _⟩ := groups_spec R hu ho hl hx
  have hok := C41_consistent (meshOk_setup hp R) hper
  refine ⟨(p.toProg.setup parts).withPeriodic (strip gs), by unfold PProg.psetup; rw [hgs]; rfl, hok, rfl, rfl, rfl, rfl,
    fun j n n' hn hn' => rep_iff R hu ho hl hx hgs hper j n n' hn hn', ?_⟩
  intro j y hact hne
  obtain ⟨a, ha⟩ := Option.ne_none_iff_exists'.1 hne
  obtain ⟨hj, d, hd, hjd⟩ := lookup_named R hu ho hl hx hgs hper ha
  obtain ⟨r, hr, w, hw, hyw, _⟩ := hact
  have hkn := (hok.visits r hr w hw).1 y hyw
  have hlt := local_lt hok hr (knows_local hkn)
  obtain ⟨ho1, ho2⟩ := owns_owner hlt
  have ho1' : ((p.toProg.setup parts).withPeriodic (strip gs)).owner y < nParts := by
    have := setup_length p.toProg R
    exact lt_of_lt_of_eq ho1 this
  have ho2' : (part parts (((p.toProg.setup parts).withPeriodic (strip gs)).owner y)).own.isOwned y = true := by
    rw [← setup_owns p.toProg R ho1']
    exact ho2
  obtain ⟨k, hk, e, hin, x, hxe, hfx⟩ := seen_inside hm R ho1' ho2'
  obtain ⟨q, hq, hkq, hjq⟩ := he d hd j hjd k hk e (inDom_mapAt R hin).2.2
  refine ⟨⟨e.nodes.map f, q.2⟩, ?_, List.mem_map.2 ⟨x, hxe, hfx⟩, hjq⟩
  change _ ∈ p.toProg.visits (part parts _).doms
  rw [visits_map p.toProg R]
  exact List.mem_map.2 ⟨⟨e.nodes, q.2⟩, List.mem_flatMap.2 ⟨q, hq, List.mem_map.2 ⟨e, mem_visitIds.2 ⟨k, hkq, hin⟩, rfl⟩⟩, rfl⟩

/-- The element with local dofs of rank `r`. -/
def localElem (s : Setup) (f : Nat → Nat) (r : Nat) (e : MElem) : LElem :=
  ⟨(e.nodes.map f).flatMap fun n => e.inds.map fun j => ((s.localDof r n j).join).getD 0, e.dims, e.pts⟩

/-- `sel` lists the elements of all ranks in the order of `els`. -/
def Selects (p : Prog) (s : Setup) (f : Nat → Nat) (maps : List DomMap) (sel : Nat → List MElem) (els : Nat → List LElem) : Prop :=
  ∀ r, (sel r).Perm (p.melems (mapAt maps r)) ∧ (sel r).map (localElem s f r) = els r

theorem order_exists (R : Result bnds m N nParts parts f maps) (hu : UniqueParent m bnds) {p : Prog} (hp : p.Ok m bnds) {s : Setup}
    (hels : ∀ r, (els r).Perm (rankElems p s parts r)) : ∃ sel : Nat → List MElem, Selects p s f maps sel els := by
  have : ∀ r, ∃ l : List MElem, l.Perm (p.melems (mapAt maps r)) ∧ l.map (localElem s f r) = els r := by
    intro r
    refine perm_map _ ?_
    have h := hels r
    unfold rankElems at h
    rw [melems_renamed R hu hp, List.map_map] at h
    exact h
  exact ⟨fun r => (this r).choose, fun r => (this r).choose_spec⟩

/-- The run described by the parts. -/
def runOf (p : Prog) (s : Setup) (parts : List Part) (f : Nat → Nat) (maps : List DomMap) (sel : Nat → List MElem) (els : Nat → List LElem)
    (vals : Nat → Nat → Nat → ℝ) (v : Nat → Nat → ℝ) : Run where
  s := s
  new := f
  part := sel
  vpart r := p.visits (mapAt maps r)
  bc r := (rank p s parts els vals r).bc
  dirOwned r := (rank p s parts els vals r).dirOwned
  vals := vals
  v := v

theorem run_rank {p : Prog} {s : Setup} (hs : Selects p s f maps sel els) (vals : Nat → Nat → Nat → ℝ) (v : Nat → Nat → ℝ) :
    (runOf p s parts f maps sel els vals v).rank = rank p s parts els vals := by
  funext r
  unfold Run.rank rank
  congr 1
  exact (hs r).2

theorem problem_ok {p : PProg} (hp : p.toProg.Ok m bnds) (hk : KeysNodup m) (hN : ∀ x, NodeIn m x ↔ x < N) : (p.problem m pos N).Ok := by
  have h := problem_ok' hp hk hN
  exact ⟨h.sized, h.covered, h.node, fun _ _ _ => .refl _, h.weights⟩

/-- All conditions of a run except those on Dirichlet data. -/
theorem run_of' {kinds : List (ElType × Nat)} {D : Nat} (hm : MeshOk kinds m bnds D) {p : PProg} (hp : p.toProg.Ok m bnds)
    (R : Result bnds m N nParts parts f maps) (hu : UniqueParent m bnds) {s : Setup} (hn : Numbered p m pos N parts f s) (hs : Selects p.toProg s f maps sel els)
    (vals : Nat → Nat → Nat → ℝ) (v : Nat → Nat → ℝ)
    (hcon : ∀ g, constrained p.toProg s parts g ↔ (runOf p.toProg s parts f maps sel els vals v).D (p.problem m pos N) g)
    (hval : ∀ k, (p.problem m pos N).toProblem.used k → (p.problem m pos N).dir k → ∀ c, v ((runOf p.toProg s parts f maps sel els vals v).num k) c = p.val k c) :
    (runOf p.toProg s parts f maps sel els vals v).Of (p.problem m pos N) := by
  classical
  have hnr : (runOf p.toProg s parts f maps sel els vals v).nr = nParts := by
    change s.counts.length = _
    rw [hn.counts]; exact setup_length p.toProg R
  have hrk := run_rank (parts := parts) hs vals v
  refine ⟨hn.ok, hn.dpn, ?_, ?_, ?_, ?_, ?_, ?_, ?_, ?_, hval⟩
  · intro x
    rw [show (runOf p.toProg s parts f maps sel els vals v).s.counts.sum = N by
      change s.counts.sum = _
      rw [hn.counts]; exact setup_sum p.toProg R]
    constructor
    · intro hx
      obtain ⟨n, hn, rfl⟩ := R.bij.2.2 (show x ∈ Set.Iio N from hx)
      exact ⟨n, hn, rfl⟩
    · rintro ⟨n, hn, rfl⟩
      exact R.bij.1 hn
  · rw [hnr]; exact (flatMap_perm_congr fun r _ => (hs r).1).trans (elems_perm hm R hu hp)
  · rw [hnr]; exact visits_perm hm R p.toProg
  · intro r hr
    refine sees_of_eq hn.ok hr ?_
    change s.visits r = _
    rw [hn.visits]
    exact visits_map p.toProg R r
  · intro r hr e he
    rw [hnr] at hr
    rcases mem_melems ((hs r).1.subset he) with ⟨K, hK, e', he', rfl⟩ | ⟨K, hK, x, hx, e', s, hv, rfl⟩
    · obtain ⟨k, hk, hin⟩ := mem_visitIds.1 he'
      obtain ⟨d, hd, hkd, hsub⟩ := hp.active K hK k hk
      exact ⟨⟨e'.nodes, d.2⟩, List.mem_flatMap.2 ⟨d, hd, List.mem_map.2 ⟨e', mem_visitIds.2 ⟨k, hkd, hin⟩, rfl⟩⟩, fun _ h => h, hsub⟩
    · obtain ⟨b, hb, hxin⟩ := mem_visitIds.1 hx
      obtain ⟨e'', s', h1, h2, hpar⟩ := viewOf_part R hu (hp.bnds K hK hb) hxin
      rw [hv] at h2
      obtain ⟨rfl, rfl⟩ := Prod.mk.inj (Option.some.inj h2)
      obtain ⟨_, k, hin⟩ := isParent_of_part R hr hpar
      obtain ⟨d, hd, hkd, hsub⟩ := hp.bactive K hK x (mem_visitIds.2 ⟨b, hb, (inDom_mapAt R hxin).2.2⟩) _ _ h1 k (inDom_mapAt R hin).2.2
      exact ⟨⟨e'.nodes, d.2⟩, List.mem_flatMap.2 ⟨d, hd, List.mem_map.2 ⟨e', mem_visitIds.2 ⟨k, hkd, hin⟩, rfl⟩⟩, fun _ h => h, hsub⟩
  · intro j n n' hnn hnn'
    exact hn.rep j n n' hnn hnn'
  · intro r _ d _
    rw [hrk]
    change decide (constrained p.toProg s parts ((l2g s r).getD d 0)) = true ↔ _
    rw [decide_eq_true_iff, hcon]
    exact Iff.rfl
  · intro r _
    rw [hrk]
    refine ⟨(List.nodup_range).filter _, fun d => ?_⟩
    change d ∈ (List.range _).filter _ ↔ _
    rw [List.mem_filter, List.mem_range]
    exact Iff.rfl

/-- The same program without Dirichlet conditions. -/
def bare (p : PProg) : PProg := { p with dirichlet := [] }

theorem bare_numbered {p : PProg} {s : Setup} (h : Numbered p m pos N parts f s) : Numbered (bare p) m pos N parts f s :=
  ⟨h.ok, h.dpn, h.counts, h.ghosts, h.visits, h.rep, h.marked⟩

theorem bare_of {kinds : List (ElType × Nat)} {D : Nat} (hm : MeshOk kinds m bnds D) {p : PProg} (hp : p.toProg.Ok m bnds)
    (R : Result bnds m N nParts parts f maps) (hu : UniqueParent m bnds) {s : Setup} (hn : Numbered p m pos N parts f s) (hs : Selects p.toProg s f maps sel els) :
    (runOf (bare p).toProg s parts f maps sel els (fun _ _ _ => 0) fun _ _ => 0).Of ((bare p).problem m pos N) := by
  refine run_of' (p := bare p) hm (Pipeline.bare_ok hp) R hu (bare_numbered hn) hs _ _ ?_ ?_
  · intro g
    constructor
    · rintro ⟨r, _, d, hd, _⟩; exact absurd hd List.not_mem_nil
    · rintro ⟨k, _, ⟨d, hd, _⟩, _⟩; exact absurd hd List.not_mem_nil
  · rintro k _ ⟨d, hd, _⟩; exact absurd hd List.not_mem_nil

theorem run_marked {p : PProg} {s : Setup} (hn : Numbered p m pos N parts f s) (vals : Nat → Nat → Nat → ℝ) (v : Nat → Nat → ℝ) :
    (runOf p.toProg s parts f maps sel els vals v).Marked := fun j y h1 h2 => hn.marked j y h1 h2

theorem constrained_iff {kinds : List (ElType × Nat)} {D : Nat} (hm : MeshOk kinds m bnds D) {p : PProg} (hp : p.toProg.Ok m bnds)
    (R : Result bnds m N nParts parts f maps) (hu : UniqueParent m bnds) {s : Setup} (hn : Numbered p m pos N parts f s) (hs : Selects p.toProg s f maps sel els)
    (vals : Nat → Nat → Nat → ℝ) (v : Nat → Nat → ℝ) (g : Nat) :
    constrained p.toProg s parts g ↔ (runOf p.toProg s parts f maps sel els vals v).D (p.problem m pos N) g := by
  have hP := problem_ok (pos := pos) (p := bare p) (Pipeline.bare_ok hp) R.keys R.nodes
  have hof := bare_of hm hp R hu hn hs
  have hmk := run_marked (maps := maps) (sel := sel) (els := els) (bare_numbered hn) (fun _ _ _ => 0) fun _ _ => 0
  have hso := hn.ok
  have hlen : s.counts.length = nParts := by rw [hn.counts]; exact setup_length p.toProg R
  constructor
  · rintro ⟨r, hr, d, hd, e, he, n, hne, j, hj, hg⟩
    rw [R.plen] at hr
    rw [part_doms R, visit_mapDoms] at he
    obtain ⟨e', he', rfl⟩ := List.mem_map.1 he
    obtain ⟨x, hx, rfl⟩ := List.mem_map.1 hne
    obtain ⟨k, hk, hin⟩ := mem_visitIds.1 he'
    have hin' := (inDom_mapAt R hin).2.2
    have hxN : x < N := (R.nodes x).1 ⟨e', inDom_holds hin', hx⟩
    have hkn : s.Knows r (f x) := by
      refine knows_of hn (nodeIn_knows p.toProg R hr ⟨mapEl f e', ?_, List.mem_map.2 ⟨x, hx, rfl⟩⟩)
      rw [part_doms R]
      exact holds_mapDoms (inDom_holds hin)
    have hloc := knows_local hkn
    have hr' : r < s.counts.length := by rw [hlen]; exact hr
    have hjd : j < p.dpn := by rw [← hn.dpn]; exact dof_lt_dpn hso hr' hloc hg
    rw [dofs_owner hso hr' hloc] at hg
    have hu := (some_iff (n := x) (j := j) hP hof hmk hxN hjd).1 (Option.isSome_iff_exists.2 ⟨g, hg⟩)
    refine ⟨(x, j), hu, ⟨d, hd, hj, e', mem_visitIds.2 ⟨k, hk, hin'⟩, hx⟩, ?_⟩
    change (s.dofs (s.owner (f x)) (f x) j).getD 0 = g
    rw [hg]; rfl
  · rintro ⟨⟨x, j⟩, hu, ⟨d, hd, hj, e, he, hx⟩, hg⟩
    obtain ⟨k, hk, hin⟩ := mem_visitIds.1 he
    obtain ⟨r, ⟨m', hm', hin'⟩, _⟩ := R.uniq k e hin
    have hr : r < nParts := by rw [← R.len]; exact (List.getElem?_eq_some_iff.1 hm').1
    have hr' : r < s.counts.length := by rw [hlen]; exact hr
    have hin2 : InDom (mapAt maps r) k e := by unfold mapAt; rw [hm']; exact hin'
    have hkn : s.Knows r (f x) := by
      refine knows_of hn (nodeIn_knows p.toProg R hr ⟨mapEl f e, ?_, List.mem_map.2 ⟨x, hx, rfl⟩⟩)
      rw [part_doms R]
      exact holds_mapDoms (inDom_holds hin2)
    have hsm := (some_iff (n := x) (j := j) hP hof hmk hu.1 hu.2.1).2 hu
    obtain ⟨g', hg'⟩ := Option.isSome_iff_exists.1 hsm
    have hg'' : s.dofs (s.owner (f x)) (f x) j = some g' := hg'
    refine ⟨r, by rw [R.plen]; exact hr, d, hd, mapEl f e, ?_, f x, List.mem_map.2 ⟨x, hx, rfl⟩, j, hj, ?_⟩
    · rw [part_doms R, visit_mapDoms]
      exact List.mem_map.2 ⟨e, mem_visitIds.2 ⟨k, hk, hin2⟩, rfl⟩
    · rw [dofs_owner hso hr' (knows_local hkn), hg'', ← hg]
      change _ = some ((s.dofs (s.owner (f x)) (f x) j).getD 0)
      rw [hg'']; rfl

theorem ident_node {p : PProg} {j a b : Nat} (h : p.ident m pos j a b) : NodeIn m a ↔ NodeIn m b := by
  induction h with
  | rel a b h => obtain ⟨_, d, _, _, ha, hb, _⟩ := h; exact ⟨fun _ => onBnd_node hb, fun _ => onBnd_node ha⟩
  | refl => exact Iff.rfl
  | symm _ _ _ ih => exact ih.symm
  | trans _ _ _ _ _ ih1 ih2 => exact ih1.trans ih2

theorem unknown_iff {p : PProg} (hp : p.toProg.Ok m bnds) (hN : ∀ x, NodeIn m x ↔ x < N) (k : Nat × Nat) : (p.problem m pos N).toProblem.used k ↔ p.unknown m pos k := by
  constructor
  · rintro ⟨hk, _, w, hw, n, hn, hj, hid⟩
    obtain ⟨d, hd, hw⟩ := List.mem_flatMap.1 hw
    obtain ⟨e, he, rfl⟩ := List.mem_map.1 hw
    exact ⟨(hN _).2 hk, n, ⟨d, hd, hj, e, he, hn⟩, hid⟩
  · rintro ⟨hk, n, ⟨d, hd, hj, e, he, hn⟩, hid⟩
    exact ⟨(hN k.1).1 hk, hp.comps d hd _ hj, ⟨e.nodes, d.2⟩, List.mem_flatMap.2 ⟨d, hd, List.mem_map.2 ⟨e, he, rfl⟩⟩, n, hn, hj, hid⟩

/-- The systems of a distributed mesh represent its problem. -/
theorem outcome_represents {kinds : List (ElType × Nat)} {D : Nat} (hm : MeshOk kinds m bnds D) {p : PProg} (hp : p.toProg.Ok m bnds)
    (R : Result bnds m N nParts parts f maps) (hu : UniqueParent m bnds) {s : Setup} (hn : Numbered p m pos N parts f s) (hs : Selects p.toProg s f maps sel els)
    (vals : Nat → Nat → Nat → ℝ) {v : Nat → Nat → ℝ} (hv : p.Values m pos s f v) : (runOf p.toProg s parts f maps sel els vals v).Of (p.problem m pos N) :=
  run_of' hm hp R hu hn hs vals v (constrained_iff hm hp R hu hn hs vals v) fun k hk hd c => hv k ((unknown_iff hp R.nodes k).1 hk) hd c

theorem solution_iff {kinds : List (ElType × Nat)} {D : Nat} (hm : MeshOk kinds m bnds D) {p : PProg} (hp : p.toProg.Ok m bnds)
    (R : Result bnds m N nParts parts f maps) (hu : UniqueParent m bnds) {s : Setup} (hn : Numbered p m pos N parts f s) (hs : Selects p.toProg s f maps sel els)
    (vals : Nat → Nat → Nat → ℝ) (v : Nat → Nat → ℝ) (c : Nat) (x : Nat → ℝ) [DecidablePred ((runOf p.toProg s parts f maps sel els vals v).D (p.problem m pos N))] :
    Solution p.toProg s parts els vals v c x ↔ Solves (runOf p.toProg s parts f maps sel els vals v).s.total (runOf p.toProg s parts f maps sel els vals v).nr
      ((runOf p.toProg s parts f maps sel els vals v).D (p.problem m pos N)) (runOf p.toProg s parts f maps sel els vals v).rank
      (fun g => (runOf p.toProg s parts f maps sel els vals v).v g c) x c := by
  have e : constrained p.toProg s parts = (runOf p.toProg s parts f maps sel els vals v).D (p.problem m pos N) :=
    funext fun g => propext (constrained_iff hm hp R hu hn hs vals v g)
  have hnr : (runOf p.toProg s parts f maps sel els vals v).nr = parts.length := by
    change s.counts.length = _
    rw [hn.counts]; exact (setup_length p.toProg R).trans R.plen.symm
  unfold Solution
  rw [run_rank hs, hnr]
  simp only [e]
  change _ ↔ Solves s.total _ _ _ (fun g => v g c) x c
  convert Iff.rfl

end

end Verif.PerPipe
