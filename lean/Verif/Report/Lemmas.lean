import Verif.Report.Model

/-! # Lemmas on what is computed from a solution -/
namespace Verif.Report
open Verif Verif.Distr Verif.Elem Verif.Mesh Verif.Dofs Verif.Fields Verif.SolUpd Verif.Pipeline Verif.Partition Verif.Split

noncomputable section

variable {m : DomMap} {bnds : List Nat} {N nParts : Nat} {parts : List Part} {f : Nat → Nat} {maps : List DomMap}

theorem part_get (R : Result bnds m N nParts parts f maps) {r : Nat} (hr : r < nParts) : parts[r]? = some (part parts r) := by
  have : r < parts.length := by rw [R.plen]; exact hr
  unfold part
  rw [List.getElem?_eq_getElem this]; rfl

theorem dofOwn_get {p : Prog} {q : Query} {parts : List Part} {r : Nat} :
    (p.setup parts).dofOwn r = some (sysOf p q parts r).dofOwn := by
  obtain ⟨o, ho, _⟩ := C39_ownership (s := p.setup parts) (r := r)
  unfold sysOf
  rw [ho]; rfl

theorem sort_of_sorted {l : List Nat} (h : l.Pairwise (· < ·)) : Std.sort l = l :=
  (Std.sort_perm l).eq_of_pairwise (fun _ _ _ _ h1 h2 => Nat.le_antisymm h1 h2) (Std.sort_sorted l) (h.imp fun h => Nat.le_of_lt h)

theorem node_ok (p : Prog) (q : Query) (R : Result bnds m N nParts parts f maps) {r : Nat} (hr : r < nParts) : (sysOf p q parts r).NodeOk := by
  obtain ⟨h1, h2, h3⟩ := R.own r _ (part_get R hr)
  refine ⟨(part parts r).own.first, (part parts r).own.cnt, (part parts r).own.shared, h2.imp fun h => Nat.ne_of_lt h, ?_⟩
  unfold Own.SegOwn.make
  rw [if_neg]
  · rw [sort_of_sorted h2]; rfl
  · intro h
    obtain ⟨y, hy, ho⟩ := List.any_eq_true.1 h
    exact ((h3 y).1 hy).2 ho

theorem mem_nodes {p : Prog} {q : Query} {r n : Nat} : n ∈ (sysOf p q parts r).nodes ↔ (part parts r).own.isOwned n = true ∨ n ∈ (part parts r).own.shared := by
  unfold Sys.nodes Own.SegOwn.isOwned
  rw [List.mem_append, decide_eq_true_iff]
  refine or_congr ?_ Iff.rfl
  change n ∈ (List.range (part parts r).own.cnt).map ((part parts r).own.first + ·) ↔ _
  rw [List.mem_map]
  constructor
  · rintro ⟨i, hi, rfl⟩; have := List.mem_range.1 hi; omega
  · rintro ⟨h1, h2⟩; exact ⟨n - (part parts r).own.first, List.mem_range.2 (by omega), by omega⟩

theorem nodeIn_nodes {p : Prog} {q : Query} (R : Result bnds m N nParts parts f maps) {r n : Nat} (hr : r < nParts) (h : NodeIn (part parts r).doms n) :
    n ∈ (sysOf p q parts r).nodes := by
  obtain ⟨_, _, h3⟩ := R.own r _ (part_get R hr)
  rw [mem_nodes]
  by_cases ho : (part parts r).own.isOwned n = true
  · exact Or.inl ho
  · exact Or.inr ((h3 n).2 ⟨h, ho⟩)

theorem nodes_known {p : Prog} {q : Query} (R : Result bnds m N nParts parts f maps) {r n : Nat} (hr : r < nParts) (h : n ∈ (sysOf p q parts r).nodes) :
    (p.setup parts).Knows r n := by
  unfold Setup.Knows
  rw [setup_owns p R hr]
  exact mem_nodes.1 h

theorem l2g_get' (p : Prog) (q : Query) (r l : Nat) : (p.l2g parts r)[l]? = (sysOf p q parts r).dofOwn.getGlobal l := by
  have ho' : Own.SegOwn.make ((p.setup parts).base r) ((p.setup parts).numOwned r) ((p.setup parts).sharedDofs r) = some (sysOf p q parts r).dofOwn := dofOwn_get
  have h1 := (Own.make_some ho').1
  rw [h1]
  unfold Prog.l2g Own.SegOwn.getGlobal
  by_cases h : l < (p.setup parts).numOwned r
  · rw [List.getElem?_append_left (by simpa using h), if_pos h, List.getElem?_map, List.getElem?_range h]; rfl
  · rw [List.getElem?_append_right (by simpa using h), if_neg h]; simp

theorem known_dof {p : Prog} (q : Query) (hp : p.Ok m bnds) (R : Result bnds m N nParts parts f maps) {r n : Nat} (hr : r < nParts)
    (hn : n ∈ (sysOf p q parts r).nodes) {j d : Nat} (hd : (p.setup parts).dofs r n j = some d) :
    (p.l2g parts r).getD ((sysOf p q parts r).dofOwn.getLocal d) 0 = d ∧
      ((sysOf p q parts r).dofOwn.isOwned d = true ∨ d ∈ (sysOf p q parts r).dofOwn.shared) := by
  have hkn := nodes_known R hr hn
  have hso := setup_ok hp R
  have hr' : r < (p.setup parts).counts.length := by rw [setup_length p R]; exact hr
  have hj := dof_lt_dpn hso hr' (knows_local hkn) hd
  obtain ⟨o, ho, _, hl⟩ := C39_ownership (s := p.setup parts) (r := r)
  obtain rfl : o = (sysOf p q parts r).dofOwn := Option.some.inj (ho.symm.trans dofOwn_get)
  obtain ⟨l, h1, h2, h3, _⟩ := hl n (mem_localNodes.2 (knows_local hkn)) j hj d hd
  have hl' : l = (sysOf p q parts r).dofOwn.getLocal d := by
    unfold Setup.localDof at h1
    rw [dofOwn_get (q := q), hd] at h1
    exact (Option.some.inj (Option.some.inj h1)).symm
  subst hl'
  constructor
  · rw [List.getD_eq_getElem?_getD, l2g_get' p q, h3]; rfl
  · unfold Own.SegOwn.getGlobal at h3
    split at h3
    · next hc =>
      left
      have := Option.some.inj h3
      unfold Own.SegOwn.isOwned
      rw [decide_eq_true_iff]
      omega
    · exact Or.inr (List.mem_of_getElem? h3)

/-- The read of `FieldAccess` and that of the manager agree. -/
theorem accessRead_of {s : Sol ℝ} {n fl : Nat} {v : ℝ} (h : nodeValueGlobal s n fl = .ok v) : accessRead s fl (s.own.getLocal n) = .ok v := by
  unfold nodeValueGlobal viewRead fieldView at h
  unfold accessRead
  split at h
  · split at h
    · rw [Nat.add_comm]; exact h
    · cases h
  · cases h

/-- After `updateSolution`, all nodes of elements have the values of the solution. -/
theorem updated_value {p : Prog} {q : Query} (hp : p.Ok m bnds) (R : Result bnds m N nParts parts f maps) (hnd : q.dst.Nodup) {x : Nat → Nat → ℝ} {r : Nat} (hr : r < nParts)
    {s s' : Sol ℝ} (hs : Manager (sysOf p q parts r) s) (hu : Updated p q parts x r s s') {n : Nat} (hn : NodeIn (part parts r).doms n) {i c d : Nat} (hi : i < q.src.length)
    (hc : c < q.nRhs) (hd : (p.setup parts).dofs r n (q.src.getD i 0) = some d) :
    accessRead s' (q.dst.getD (i * q.nRhs + c) 0) (s'.own.getLocal n) = .ok (x d c) := by
  refine accessRead_of ?_
  have hnn := nodeIn_nodes (p := p) (q := q) R hr hn
  have ht : Target (sysOf p q parts r) q.src q.dst n (q.dst.getD (i * q.nRhs + c) 0) d c := ⟨i, hi, hc, hd, rfl⟩
  cases hu with
  | assembled ord ho h =>
    have hck : checks (sysOf p q parts r) s.nFields q.src q.dst = true := by
      unfold asmUpdate at h
      by_contra hh
      rw [if_neg hh] at h; cases h
    obtain ⟨s1, h1, _, _, h2⟩ := C98_assembled_update (sysOf p q parts r) (node_ok p q R hr) x (localSol p parts x r)
      (fun n hn j d hd c _ => by unfold localSol; rw [(known_dof q hp R hr hn hd).1]) q.src q.dst hnd s hs hck ord ho
    rw [h] at h1
    cases h1
    exact (h2 n hnn _ (ht.field_lt hck)).1 d c trivial ht
  | matrixFree stale ordI ordB small hI hB h =>
    have hck : checks (sysOf p q parts r) s.nFields q.src q.dst = true := by
      unfold mfUpdate at h
      by_contra hh
      rw [if_neg hh] at h; cases h
    have hdo : Own.SegOwn.make ((p.setup parts).base r) ((p.setup parts).numOwned r) ((p.setup parts).sharedDofs r) = some (sysOf p q parts r).dofOwn := dofOwn_get
    have hval : (sysOf p q parts r).Valid := by
      refine ⟨node_ok p q R hr, ⟨_, _, _, Std.sortUniq_nodup _, hdo⟩, ?_, fun n hn j d hd => (known_dof q hp R hr hn hd).2, small⟩
      intro e he n hn
      obtain ⟨e', he', rfl⟩ := List.mem_map.1 he
      obtain ⟨k, _, hin⟩ := mem_visitIds.1 he'
      exact nodeIn_nodes R hr ⟨e', inDom_holds hin, hn⟩
    have hcnt : (sysOf p q parts r).dofOwn.cnt = (p.setup parts).numOwned r := by rw [(Own.make_some hdo).1]
    have hvec : Vectors (sysOf p q parts r) x (localSol p parts x r) (fun i => localSol p parts x r ((p.setup parts).numOwned r + i)) := by
      constructor
      · intro i hi c
        unfold localSol
        rw [List.getD_eq_getElem?_getD, l2g_get' p q]
        unfold Own.SegOwn.getGlobal
        rw [if_pos hi]; rfl
      · intro i hi c
        unfold localSol
        rw [List.getD_eq_getElem?_getD, l2g_get' p q]
        unfold Own.SegOwn.getGlobal
        rw [if_neg (by rw [hcnt]; omega), hcnt, Nat.add_sub_cancel_left, List.getElem?_eq_getElem hi]; rfl
    obtain ⟨s1, h1, _, _, h2⟩ := C98_matrix_free_update_partial (sysOf p q parts r) hval x _ stale _ hvec q.src q.dst hnd s hs hck ordI ordB hI hB
    rw [h] at h1
    cases h1
    refine (h2 n hnn _ (ht.field_lt hck)).1 d c ?_ ht
    obtain ⟨e, ⟨dm, hdm, v, hv, he⟩, hne⟩ := hn
    have hk : KeysNodup (part parts r).doms := by rw [part_doms R]; exact keys_mapDoms (R.wf _ (mapAt_mem R hr))
    exact ⟨e.nodes, List.mem_map.2 ⟨e, mem_visitIds.2 ⟨dm.1, List.mem_map.2 ⟨dm, hdm, rfl⟩, inDom_of_mem hk hdm hv he⟩, rfl⟩, hne⟩

theorem updated_len {p : Prog} {q : Query} {x : Nat → Nat → ℝ} {r : Nat} {s s' : Sol ℝ} (hu : Updated p q parts x r s s') :
    q.dst.length = q.src.length * q.nRhs := by
  have key : checks (sysOf p q parts r) s.nFields q.src q.dst = true → q.dst.length = q.src.length * q.nRhs := by
    intro h
    simp only [checks, Bool.and_eq_true, beq_iff_eq] at h
    exact h.1.1
  cases hu with
  | assembled ord ho h =>
    refine key ?_
    unfold asmUpdate at h
    by_contra hh
    rw [if_neg hh] at h; cases h
  | matrixFree stale ordI ordB small hI hB h =>
    refine key ?_
    unfold mfUpdate at h
    by_contra hh
    rw [if_neg hh] at h; cases h

/-- Component whose values field `fl` gets. -/
def comp (q : Query) (fl : Nat) : Nat := q.src.getD (q.dst.idxOf fl / q.nRhs) 0

/-- Right-hand side whose values field `fl` gets. -/
def rhs (q : Query) (fl : Nat) : Nat := q.dst.idxOf fl % q.nRhs

/-- Value of field `fl` at the node which was `n` before distribution. -/
def valueOf (p : Prog) (q : Query) (parts : List Part) (f : Nat → Nat) (x : Nat → Nat → ℝ) (n fl : Nat) : ℝ := x (p.dof parts (f n, comp q fl)) (rhs q fl)

/-- An element of the undistributed mesh with given values at its nodes. -/
def canon (q : Query) (V : Nat → Nat → ℝ) (e : Element) (side : Nat) : Integral.El ℝ :=
  ⟨e.ty.dim, q.pts e.ty e.n e.id side (e.nodes.map fun n => q.reads.map fun fl => .ok (V n fl))⟩

theorem field_index {q : Query} (hlen : q.dst.length = q.src.length * q.nRhs) {fl : Nat} (h : fl ∈ q.dst) :
    q.dst.idxOf fl / q.nRhs < q.src.length ∧ rhs q fl < q.nRhs ∧ q.dst.getD (q.dst.idxOf fl / q.nRhs * q.nRhs + rhs q fl) 0 = fl ∧ comp q fl ∈ q.src := by
  have hi := List.idxOf_lt_length_of_mem h
  have hpos : 0 < q.nRhs := by
    rcases Nat.eq_zero_or_pos q.nRhs with h0 | h0
    · rw [hlen, h0, Nat.mul_zero] at hi; omega
    · exact h0
  have h1 : q.dst.idxOf fl / q.nRhs < q.src.length := by
    rw [Nat.div_lt_iff_lt_mul hpos, ← hlen]; exact hi
  refine ⟨h1, Nat.mod_lt _ hpos, ?_, ?_⟩
  · unfold rhs
    rw [Nat.div_add_mod', List.getD_eq_getElem?_getD, List.getElem?_eq_getElem hi]
    exact List.getElem_idxOf hi
  · unfold comp
    rw [List.getD_eq_getElem?_getD, List.getElem?_eq_getElem h1]
    exact List.getElem_mem h1

/-- On every rank that has the node, an unknown has the number of its owner. -/
theorem dof_eq {kinds : List (ElType × Nat)} {D : Nat} (hm : MeshOk kinds m bnds D) {p : Prog} (hp : p.Ok m bnds) (R : Result bnds m N nParts parts f maps)
    (hu : UniqueParent m bnds) {r k : Nat} {e : Element} (he : InDom (mapAt maps r) k e) {n j : Nat} (hn : n ∈ e.nodes) (hk : p.unknown m (n, j)) :
    (p.setup parts).dofs r (f n) j = some (p.dof parts (f n, j)) ∧ NodeIn (part parts r).doms (f n) := by
  obtain ⟨sel, hs⟩ := order_exists R hu hp (els := p.rankElems parts) fun _ => List.Perm.refl _
  have hP := problem_ok' (bare_ok hp) R.keys R.nodes
  have hof := bare_of hm hp R hu hs
  have hmk := run_marked (sel := sel) (els := p.rankElems parts) (bare_ok hp) R (fun _ _ _ => 0) fun _ _ => 0
  have hr : r < nParts := (inDom_mapAt R he).1
  have hr' : r < (p.setup parts).counts.length := by rw [setup_length p R]; exact hr
  have hnode : NodeIn (part parts r).doms (f n) := ⟨mapEl f e, by rw [part_doms R]; exact holds_mapDoms (inDom_holds he), List.mem_map.2 ⟨n, hn, rfl⟩⟩
  have hkn := nodeIn_knows p R hr hnode
  have hused : ((bare p).problem m N).toProblem.used (n, j) := (unknown_iff (bare_ok hp) R.nodes (n, j)).2 hk
  obtain ⟨g, hg⟩ := Option.isSome_iff_exists.1 ((some_iff (n := n) (j := j) hP hof hmk hused.1 hused.2.1).2 hused)
  have hg' : (p.setup parts).dofs ((p.setup parts).owner (f n)) (f n) j = some g := hg
  refine ⟨?_, hnode⟩
  rw [dofs_owner (setup_ok hp R) hr' (knows_local hkn), hg']
  unfold Prog.dof
  rw [hg']; rfl

theorem values_eq {kinds : List (ElType × Nat)} {D : Nat} (hm : MeshOk kinds m bnds D) {p : Prog} (hp : p.Ok m bnds) (R : Result bnds m N nParts parts f maps)
    (hu : UniqueParent m bnds) {q : Query} (hnd : q.dst.Nodup) (hrd : q.reads ⊆ q.dst) {x : Nat → Nat → ℝ} {r : Nat} (hr : r < nParts) {s s' : Sol ℝ}
    (hs : Manager (sysOf p q parts r) s) (hup : Updated p q parts x r s s') {k : Nat} {e : Element} (he : InDom (mapAt maps r) k e)
    (hact : ∃ d ∈ p.pdef, k ∈ d.1 ∧ q.src ⊆ d.2) :
    valuesAt s' (mapEl f e).nodes q.reads = e.nodes.map fun n => q.reads.map fun fl => .ok (valueOf p q parts f x n fl) := by
  have hlen := updated_len hup
  unfold valuesAt
  change (e.nodes.map f).map _ = _
  rw [List.map_map]
  refine List.map_congr_left fun n hn => ?_
  refine List.map_congr_left fun fl hfl => ?_
  obtain ⟨h1, h2, h3, h4⟩ := field_index hlen (hrd hfl)
  obtain ⟨d, hd, hkd, hsub⟩ := hact
  have hunk : p.unknown m (n, comp q fl) := ⟨d, hd, hsub h4, e, mem_visitIds.2 ⟨k, hkd, (inDom_mapAt R he).2.2⟩, hn⟩
  obtain ⟨g1, g2⟩ := dof_eq hm hp R hu he hn hunk
  have := updated_value hp R hnd hr hs hup g2 (i := q.dst.idxOf fl / q.nRhs) h1 h2 g1
  rw [h3] at this
  exact this

theorem elementsOf_cons {E : Type} (G : Integral.Groups E) (k : Nat) (ks : List Nat) :
    Integral.elementsOf G (k :: ks) = Integral.elementsOf G [k] ++ Integral.elementsOf G ks := by simp [Integral.elementsOf]

theorem lookup_map' {B C : Type} (g : Nat × B → C) (l : List (Nat × B)) (k : Nat) : (l.map fun d => (d.1, g d)).lookup k = (l.lookup k).map fun b => g (k, b) := by
  induction l with
  | nil => rfl
  | cons d l ih =>
    rw [List.map_cons, List.lookup_cons, List.lookup_cons]
    by_cases h : k = d.1
    · subst h; simp
    · simp only [beq_eq_false_iff_ne.2 h, ih]

theorem elementsOf_dom (q : Query) (s : Sol ℝ) (M : DomMap) (ids : List Nat) :
    Integral.elementsOf (domGroups q s M) ids = (visitIds M ids).map fun e => elOf q s e 0 := by
  induction ids with
  | nil => rfl
  | cons k ks ih =>
    rw [elementsOf_cons, visitIds_cons, List.map_append, ih]
    congr 1
    unfold Integral.elementsOf domGroups
    rw [visitIds_single, List.flatMap_singleton, lookup_map' (fun d : Nat × Domain => d.2.vecs.map (·.map fun e => elOf q s e 0))]
    cases M.lookup k with
    | none => rfl
    | some d => simp [Domain.elems, List.map_flatten]

theorem elementsOf_bnd (q : Query) (s : Sol ℝ) (M : DomMap) (ids : List Nat) :
    Integral.elementsOf (bndGroups q s M) ids = ((visitIds M ids).filterMap (viewOf M)).map fun v => elOf q s v.1 v.2 := by
  induction ids with
  | nil => rfl
  | cons k ks ih =>
    rw [elementsOf_cons, visitIds_cons, List.filterMap_append, List.map_append, ih]
    congr 1
    unfold Integral.elementsOf bndGroups
    rw [visitIds_single, List.flatMap_singleton, lookup_map' (fun d : Nat × Domain => [((d.2.elems).filterMap (viewOf M)).map fun v => elOf q s v.1 v.2])]
    cases M.lookup k with
    | none => rfl
    | some d => simp

theorem dom_perm {kinds : List (ElType × Nat)} {D : Nat} (hm : MeshOk kinds m bnds D) {p : Prog} (hp : p.Ok m bnds) (R : Result bnds m N nParts parts f maps)
    (hu : UniqueParent m bnds) {q : Query} (hq : q.Ok p m) {x : Nat → Nat → ℝ} {s s' : Nat → Sol ℝ}
    (hs : ∀ r < nParts, Manager (sysOf p q parts r) (s r) ∧ Updated p q parts x r (s r) (s' r)) :
    (((List.range nParts).map fun r => domGroups q (s' r) (part parts r).doms).flatMap (Integral.elementsOf · q.ids)).Perm
      ((visitIds m q.ids).map fun e => canon q (valueOf p q parts f x) e 0) := by
  rw [List.flatMap_map]
  have : ∀ r ∈ List.range nParts, Integral.elementsOf (domGroups q (s' r) (part parts r).doms) q.ids =
      (visitIds (mapAt maps r) q.ids).map fun e => canon q (valueOf p q parts f x) e 0 := by
    intro r hr
    have hr := List.mem_range.1 hr
    rw [elementsOf_dom, part_doms R, visit_mapDoms, List.map_map]
    refine List.map_congr_left fun e he => ?_
    obtain ⟨k, hk, hin⟩ := mem_visitIds.1 he
    have := values_eq hm hp R hu hq.nodup hq.reads hr (hs r hr).1 (hs r hr).2 hin (hq.active k hk)
    unfold elOf canon
    rw [← this]; rfl
  rw [List.flatMap_congr this, ← List.map_flatMap]
  exact (visit_perm hm R q.ids).map _

theorem bnd_perm {kinds : List (ElType × Nat)} {D : Nat} (hm : MeshOk kinds m bnds D) {p : Prog} (hp : p.Ok m bnds) (R : Result bnds m N nParts parts f maps)
    (hu : UniqueParent m bnds) {q : Query} (hq : q.BndOk p m bnds) {x : Nat → Nat → ℝ} {s s' : Nat → Sol ℝ}
    (hs : ∀ r < nParts, Manager (sysOf p q parts r) (s r) ∧ Updated p q parts x r (s r) (s' r)) :
    (((List.range nParts).map fun r => bndGroups q (s' r) (part parts r).doms).flatMap (Integral.elementsOf · q.ids)).Perm
      (((visitIds m q.ids).filterMap (viewOf m)).map fun v => canon q (valueOf p q parts f x) v.1 v.2) := by
  rw [List.flatMap_map]
  have : ∀ r ∈ List.range nParts, Integral.elementsOf (bndGroups q (s' r) (part parts r).doms) q.ids =
      ((visitIds (mapAt maps r) q.ids).filterMap (viewOf m)).map fun v => canon q (valueOf p q parts f x) v.1 v.2 := by
    intro r hr
    have hr := List.mem_range.1 hr
    rw [elementsOf_bnd, part_doms R, views_renamed R hu hq.bnds, List.map_map, ← views_part R hu hq.bnds]
    refine List.map_congr_left fun w hw => ?_
    obtain ⟨y, hy, hv⟩ := List.mem_filterMap.1 hw
    obtain ⟨b, hb, hin⟩ := mem_visitIds.1 hy
    obtain ⟨e, sd, h1, h2, hpar⟩ := viewOf_part R hu (hq.bnds hb) hin
    obtain rfl : w = (e, sd) := Option.some.inj (hv.symm.trans h2)
    obtain ⟨_, k, hk⟩ := isParent_of_part R hr hpar
    have := values_eq hm hp R hu hq.nodup hq.reads hr (hs r hr).1 (hs r hr).2 hk (hq.active b hb y (inDom_mapAt R hin).2.2 e sd h1 k (inDom_mapAt R hk).2.2)
    unfold canon
    change elOf q (s' r) (mapEl f e) sd = _
    unfold elOf
    rw [← this]; rfl
  rw [List.flatMap_congr this, ← List.map_flatMap]
  refine List.Perm.map _ ?_
  rw [← List.filterMap_flatMap]
  exact (visit_perm hm R q.ids).filterMap _

end

end Verif.Report
