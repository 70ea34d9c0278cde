import Verif.Resume.Lemmas

/-! # Fields saved and loaded -/
namespace Verif.Resume
open Verif Verif.Elem Verif.Mesh Verif.Dofs Verif.Fields Verif.SolUpd Verif.Pipeline Verif.Report Verif.SetVals Verif.Partition Verif.MfPipe Verif.Reach Verif.Steps Verif.Restart
  Verif.NativeIO Verif.Own

noncomputable section

variable {kinds : List (ElType × Nat)} {m : DomMap} {bnds : List Nat} {D N nParts nParts' nF : Nat} {parts parts' : List Split.Part} {f f' : Nat → Nat} {maps : List DomMap}
  {defs : Nat → SysDef} {V : Nat → Nat → ℝ} {W W' : Nat → Nat × Nat → Nat → ℝ} {dec : List Byte → ℝ}

/-! ### Managers with any contents -/

theorem write_all {own : SegOwn} {F : Nat} (c : List ℝ) : ∀ (a b : List ℝ), b.length = c.length → a.length + b.length = own.localSize * F →
    ∃ ops : List (Op ℝ), (∀ o ∈ ops, Op.InRange own.localSize F o) ∧ run ops ⟨own, F, a ++ b⟩ = .ok ⟨own, F, a ++ c⟩ := by
  induction c with
  | nil =>
    intro a b hb _
    obtain rfl : b = [] := List.length_eq_zero_iff.1 hb
    exact ⟨[], by simp, rfl⟩
  | cons y c ih =>
    intro a b hb hl
    cases b with
    | nil => simp at hb
    | cons x b =>
      obtain ⟨ops, h1, h2⟩ := ih (a ++ [y]) b (by simpa using hb) (by simp at hl ⊢; omega)
      have hlt : a.length < own.localSize * F := by simp at hl; omega
      have hL : 0 < own.localSize := by
        rcases Nat.eq_zero_or_pos own.localSize with h | h
        · rw [h, Nat.zero_mul] at hlt; omega
        · exact h
      have hr : a.length % own.localSize < own.localSize ∧ a.length / own.localSize < F := ⟨Nat.mod_lt _ hL, Nat.div_lt_of_lt_mul hlt⟩
      refine ⟨Op.raw (a.length % own.localSize) (a.length / own.localSize) y :: ops, ?_, ?_⟩
      · intro o ho
        rcases List.mem_cons.1 ho with rfl | ho
        · exact hr
        · exact h1 o ho
      · have hpos : a.length % own.localSize + a.length / own.localSize * own.localSize = a.length := by rw [Nat.mul_comm]; exact Nat.mod_add_div _ _
        have hs : step (⟨own, F, a ++ x :: b⟩ : Sol ℝ) (Op.raw (a.length % own.localSize) (a.length / own.localSize) y) = .ok ⟨own, F, (a ++ [y]) ++ b⟩ := by
          unfold step rawWrite Sol.nNodes
          dsimp only
          rw [if_pos hr]
          unfold store
          rw [hpos, if_pos (by simp)]
          have : (a ++ x :: b).set a.length y = (a ++ [y]) ++ b := by simp
          dsimp only [Out.bind]
          rw [this]
        unfold run
        rw [hs]
        change run ops _ = _
        rw [h2]
        simp

/-- A manager holding anything. -/
theorem managed_any {own : SegOwn} {t : Sol ℝ} (h1 : t.own = own) (h2 : t.nFields = nF) (h3 : t.data.length = own.localSize * nF) : Managed own nF t := by
  obtain ⟨ops, g1, g2⟩ := write_all (own := own) (F := nF) t.data [] (List.replicate (own.localSize * nF) 0) (by rw [List.length_replicate, h3]) (by simp)
  refine ⟨0, ops, g1, ?_⟩
  have : t = ⟨own, nF, t.data⟩ := by cases t; simp only at h1 h2; subst h1 h2; rfl
  rw [this]
  exact g2

theorem managed_length {own : SegOwn} {t : Sol ℝ} (h : Managed own nF t) : t.data.length = own.localSize * nF := by
  obtain ⟨init, ops, hr, h⟩ := h
  obtain ⟨s', h1, h2, h3, h4, _⟩ := run_holds ops (new own nF init) _ (holds_new _ _ _) hr
  rw [h] at h1
  cases h1
  have e1 : t.own = own := h2
  have e2 : t.nFields = nF := h3
  rw [h4, Sol.nNodes, e1, e2]

/-! ### What is saved -/

theorem before_mono {r r' : Nat} {p : Split.Part} (hr : parts[r]? = some p) (h : r < r') : before parts r + p.own.cnt ≤ before parts r' := by
  obtain ⟨hlt, rfl⟩ := List.getElem?_eq_some_iff.1 hr
  unfold before
  have h1 := Std.sum_take_succ (parts.map fun p => p.own.cnt) (i := r) (by simpa using hlt)
  have h2 := Std.sum_take_le (parts.map fun p => p.own.cnt) (show r + 1 ≤ r' from h)
  simp only [List.map_take, List.getElem_map] at *
  omega

theorem owned_at (R : Result bnds m N nParts parts f maps) {r : Nat} {p : Split.Part} (hr : parts[r]? = some p) {i y : Nat} (hi : i < p.own.cnt) (h : p.own.getGlobal i = some y) :
    before parts r + i = y := by
  unfold SegOwn.getGlobal at h
  rw [if_pos hi, first_eq R hr (by omega)] at h
  exact Option.some.inj h

theorem owner_one (R : Result bnds m N nParts parts f maps) {r r' : Nat} {p p' : Split.Part} (hr : parts[r]? = some p) (hr' : parts[r']? = some p') {i i' y : Nat} (hi : i < p.own.cnt)
    (hi' : i' < p'.own.cnt) (h : p.own.getGlobal i = some y) (h' : p'.own.getGlobal i' = some y) : r = r' ∧ i = i' := by
  have a := owned_at R hr hi h
  have b := owned_at R hr' hi' h'
  rcases Nat.lt_trichotomy r r' with hlt | rfl | hlt
  · have := before_mono hr hlt; omega
  · exact ⟨rfl, by omega⟩
  · have := before_mono hr' hlt; omega

/-- The bytes the ranks hold at the nodes of the mesh. -/
theorem state_of (R : Result bnds m N nParts parts f maps) {s : State} (hc : Carries defs m parts f nF s V W) {sols : List SolMan} (hlen : sols.length = parts.length)
    (henc : ∀ (r : Nat) sm, sols[r]? = some sm → Encodes dec sm (s.fields r) ∧ ∀ v ∈ sm.data, v.length = 8) :
    ∃ w, Restart.State m parts f sols w ∧ ∀ x, NodeIn m x → ∀ fl < nF, dec (w x fl) = V x fl := by
  classical
  have hman : ∀ {r : Nat} {p sm}, parts[r]? = some p → sols[r]? = some sm → Managed p.own nF (s.fields r) ∧ sm.nNodes = p.own.localSize ∧ sm.nFields = nF ∧ sm.data.length = sm.nNodes * sm.nFields := by
    intro r p sm hp hs
    have hr := (List.getElem?_eq_some_iff.1 hp).1
    have hp' : part parts r = p := by unfold part; rw [hp]; rfl
    have h := hc.man r hr
    rw [hp'] at h
    obtain ⟨e1, e2, e3⟩ := (henc r sm hs).1
    obtain ⟨m1, m2⟩ := managed_fields h
    refine ⟨h, by rw [e1, m1], by rw [e2, m2], ?_⟩
    rw [e1, e2, m1, m2, ← managed_length h, ← e3, List.length_map]
  have hval : ∀ {r : Nat} {p sm}, parts[r]? = some p → sols[r]? = some sm → ∀ {i x}, i < p.own.cnt → NodeIn m x → p.own.getGlobal i = some (f x) → ∀ fl < nF,
      ∃ b, sm.get i fl = some b ∧ dec b = V x fl := by
    intro r p sm hp hs i x hi hx hg fl hfl
    have hr := (List.getElem?_eq_some_iff.1 hp).1
    have hp' : part parts r = p := by unfold part; rw [hp]; rfl
    obtain ⟨hmn, hn, hF, hl⟩ := hman hp hs
    have hown : p.own.isOwned (f x) = true := by
      rw [((R.own r p hp).1 (f x)), ← owned_at R hp hi hg]; omega
    have hv := hc.vals r hr x hx (by rw [hp']; exact R.seen r p hp _ hown) fl hfl
    obtain ⟨m1, m2⟩ := managed_fields hmn
    have hloc : p.own.getLocal (f x) = i := by
      unfold SegOwn.getLocal
      rw [if_pos hown, ← owned_at R hp hi hg, first_eq R hp (by omega)]; omega
    unfold State.reader accessRead load at hv
    rw [m1, hloc, ← (henc r sm hs).1.data, List.getElem?_map] at hv
    have hil : i < sm.nNodes := by rw [hn]; unfold SegOwn.localSize; omega
    rw [get_eq hil, Nat.add_comm, hn]
    cases hb : sm.data[i + fl * p.own.localSize]? with
    | none => rw [hb] at hv; cases hv
    | some b =>
      rw [hb] at hv
      exact ⟨b, rfl, by injection hv⟩
  let w : Nat → Nat → List Byte := fun x fl =>
    if h : ∃ b, ∃ (r : Nat) (p : Split.Part) (sm : SolMan) (i : Nat), parts[r]? = some p ∧ sols[r]? = some sm ∧ i < p.own.cnt ∧ p.own.getGlobal i = some (f x) ∧ SolMan.get sm i fl = some b then h.choose else []
  have hw : ∀ {r : Nat} {p sm}, parts[r]? = some p → sols[r]? = some sm → ∀ {i x}, i < p.own.cnt → NodeIn m x → p.own.getGlobal i = some (f x) → ∀ fl < nF,
      sm.get i fl = some (w x fl) := by
    intro r p sm hp hs i x hi hx hg fl hfl
    obtain ⟨b, hb, _⟩ := hval hp hs hi hx hg fl hfl
    have hex : ∃ b, ∃ (r : Nat) (p : Split.Part) (sm : SolMan) (i : Nat), parts[r]? = some p ∧ sols[r]? = some sm ∧ i < p.own.cnt ∧ p.own.getGlobal i = some (f x) ∧ SolMan.get sm i fl = some b := ⟨b, r, p, sm, i, hp, hs, hi, hg, hb⟩
    have hwd : w x fl = hex.choose := dif_pos hex
    obtain ⟨r', p', sm', i', a1, a2, a3, a4, a5⟩ := hex.choose_spec
    obtain ⟨rfl, rfl⟩ := owner_one R hp a1 hi a3 hg a4
    obtain rfl := Option.some.inj (hs.symm.trans a2)
    rw [hwd]; exact a5
  refine ⟨w, ⟨hlen, fun r p sm hp hs => ?_, fun r p sm hp hs i hi x hx hg fl hfl => ?_⟩, fun x hx fl hfl => ?_⟩
  · obtain ⟨_, h1, h2, h3⟩ := hman hp hs
    exact ⟨h1, h3, (henc r sm hs).2⟩
  · exact hw hp hs hi hx hg fl (by rw [← (hman hp hs).2.2.1]; exact hfl)
  · have hlt : f x < N := R.bij.mapsTo ((R.nodes x).1 hx)
    obtain ⟨r, rk, j, g1, g2, g3⟩ := node_owner (ranksOf parts sols) (f x) (by rw [sum_ranks R hlen]; exact hlt)
    obtain ⟨p, p1, p2, p3⟩ := ranksOf_get g1
    have hg : p.own.getGlobal j = some (f x) := by
      unfold SegOwn.getGlobal
      rw [if_pos (by omega), first_eq R p1 (by omega), g3, nodeBegin_before hlen]
    obtain ⟨b, hb, hd⟩ := hval p1 p2 (i := j) (x := x) (by omega) hx hg fl hfl
    have := hw p1 p2 (i := j) (x := x) (by omega) hx hg fl hfl
    rw [hb] at this
    rw [← Option.some.inj this]; exact hd

/-! ### What is loaded -/

theorem loadRes_length {file : List Byte} {o src dst : List Nat} {s s' : SolMan} (h : loadRes file o src dst s = some s') : s'.data.length = s.data.length := by
  have key : ∀ (r : Nat × Nat × List Byte) (l : List ((Nat × Nat) × (Nat × Nat))) (s s' : SolMan),
      l.foldlM (fun s x => (readVal r x.2.1 x.1.1).map fun v => s.set x.2.2 x.1.2 v) s = some s' → s'.data.length = s.data.length := by
    intro r l
    induction l with
    | nil => intro s s' h; rw [← Option.some.inj h]
    | cons x l ih =>
      intro s s' h
      rw [List.foldlM_cons] at h
      obtain ⟨t, ht, h⟩ := Option.bind_eq_some_iff.1 h
      obtain ⟨v, _, rfl⟩ := Option.map_eq_some_iff.1 ht
      rw [ih _ _ h]
      simp [SolMan.set]
  unfold loadRes at h
  obtain ⟨r, _, h⟩ := Option.bind_eq_some_iff.1 h
  split at h
  · cases h
  split at h
  · cases h
  split at h
  · cases h
  exact key _ _ _ _ h

theorem reloaded_core {maps' : List DomMap} {g : Nat → Nat} {old : List (List Nat)} (R : Result bnds m N nParts parts f maps) (R' : Result bnds m N nParts' parts' (fun x => g (f x)) maps')
    (hnames : ∀ (r : Nat) p, parts'[r]? = some p → ∃ o, old[r]? = some o ∧ Names p g N o) (hx : ∃ x, NodeIn m x) (hsmall : ∀ x, NodeIn m x → x < 2 ^ 63)
    (hF : 0 < nF) (hF' : nF < 2 ^ 64) {s t : State} (hs : Carries defs m parts f nF s V W)
    (hr : Reloaded dec nF parts parts' old s t) : Carries defs m parts' (fun x => g (f x)) nF t V fun _ _ _ => 0 := by
  obtain ⟨⟨comment, prev, sols, ws, ws', hlen, henc, hsave, hw, hload⟩, hdir⟩ := hr
  obtain ⟨w, hst, hwv⟩ := state_of R hs hlen henc
  have hsf : ∀ sm ∈ sols, sm.nFields = nF := by
    intro sm hsm
    obtain ⟨r, hr⟩ := List.getElem?_of_mem hsm
    have hr' : r < parts.length := hlen ▸ (List.getElem?_eq_some_iff.1 hr).1
    rw [(henc r sm hr).1.fields, (managed_fields (hs.man r hr')).2]
  have key : ∀ r < parts'.length, ∃ sm : SolMan, Encodes dec sm (t.fields r) ∧ (t.fields r).own = (part parts' r).own ∧ sm.nFields = nF ∧ sm.data.length = sm.nNodes * nF ∧
      ∀ (i x fl : Nat), NodeIn m x → (part parts' r).own.getGlobal i = some (g (f x)) → fl < nF → sm.get i fl = some (w x fl) := by
    intro r hr
    obtain ⟨hown, o, s0, sm, ho, h1, h2, h3, h4, h5⟩ := hload r hr
    have hp : parts'[r]? = some (part parts' r) := by unfold part; rw [List.getElem?_eq_getElem hr]; rfl
    have hrange : ∀ {q k : Nat}, (List.range nF)[q]? = some k ↔ q < nF ∧ k = q := by
      intro q k
      rw [List.getElem?_eq_some_iff]
      simp only [List.length_range, List.getElem_range]
      exact ⟨fun ⟨a, b⟩ => ⟨a, b.symm⟩, fun ⟨a, b⟩ => ⟨a, b.symm⟩⟩
    obtain ⟨o', s', q1, q2, q3, q4, _, q6, _⟩ := values_of R R' hnames hx hsmall hst comment prev hsave hw (by simpa using hF')
      (fun i hi sm hsm => by rw [hsf sm hsm]; simpa using hi) hp s0 h1 h3 (src := List.range nF) (dst := List.range nF) rfl (by simp; omega) (by simp) (by simp [h2]) List.nodup_range
    rw [ho] at q1
    obtain rfl := Option.some.inj q1
    rw [h4] at q2
    obtain rfl := Option.some.inj q2
    have hl : sm.data.length = s0.data.length := loadRes_length h4
    refine ⟨sm, h5, hown, by rw [q4, h2], by rw [hl, h3, q3, h2], fun i x fl hxm hi hfl => ?_⟩
    exact q6 i x fl fl fl fl hxm hi (hrange.2 ⟨hfl, rfl⟩) (hrange.2 ⟨hfl, rfl⟩) (hrange.2 ⟨hfl, rfl⟩)
  refine ⟨fun r hr => ?_, fun r hr n hn hnp fl hfl => ?_, fun i k hk rhs => hdir _ _ _ _⟩
  · obtain ⟨sm, h1, h2, h3, h4, _⟩ := key r hr
    refine managed_any h2 (by rw [← h1.fields, h3]) ?_
    rw [← h1.data, List.length_map, h4, h1.nodes, h2]
  · obtain ⟨sm, h1, h2, h3, h4, h5⟩ := key r hr
    have hr' : r < nParts' := R'.plen ▸ hr
    have hnn := nodeIn_nodes (p := SysDef.prog ⟨0, [], [], 0⟩) (q := ⟨0, [], [], [], 0, 0, [], fun _ _ _ _ _ => []⟩) R' hr' hnp
    obtain ⟨e1, e2⟩ := (node_ok (SysDef.prog ⟨0, [], [], 0⟩) ⟨0, [], [], [], 0, 0, [], fun _ _ _ _ _ => []⟩ R' hr').node_known hnn
    have e1' : (part parts' r).own.getGlobal ((part parts' r).own.getLocal (g (f n))) = some (g (f n)) := e1
    have e2' : (part parts' r).own.getLocal (g (f n)) < (part parts' r).own.localSize := e2
    have h6 := h5 _ n fl hn e1' hfl
    rw [get_eq (by rw [h1.nodes, h2]; exact e2'), Nat.add_comm, h1.nodes, h2] at h6
    unfold State.reader accessRead load
    rw [← h1.data, h2, List.getElem?_map, h6]
    change Out.ok (dec (w n fl)) = _
    rw [hwv n hn fl hfl]

/-- The ranks of the new distribution carry the fields which those of the old one carried, and no prescribed values. -/
theorem reloaded_carries {m' : DomMap} {g : Nat → Nat} {old : List (List Nat)} (hm : MeshOk kinds m bnds D) (hone : OneSided m bnds) (hx : ∃ x, NodeIn m x) (hsmall : ∀ x, NodeIn m x → x < 2 ^ 63)
    (hF : 0 < nF) (hF' : nF < 2 ^ 64) (h : Restarted Monotone kinds m bnds nParts parts f m' nParts' parts' g old) {s t : State} (hs : Carries defs m parts f nF s V W)
    (hr : Reloaded dec nF parts parts' old s t) : Carries defs m parts' (fun x => g (f x)) nF t V fun _ _ _ => 0 := by
  obtain ⟨N, maps, maps', R, _, R', hnames⟩ := h.results hm hone
  exact reloaded_core R R' hnames hx hsmall hF hF' hs hr

/-- The same of parts which came about in any way. -/
theorem reread_carries {m' : DomMap} {g : Nat → Nat} {old : List (List Nat)} (hm : MeshOk kinds m bnds D) (hone : OneSided m bnds) (hx : ∃ x, NodeIn m x) (hsmall : ∀ x, NodeIn m x → x < 2 ^ 63)
    (hF : 0 < nF) (hF' : nF < 2 ^ 64) (ho : Spread kinds m bnds nParts parts f) (hpos : 0 < nParts) (h : Reread Monotone kinds bnds parts m' nParts' parts' g old) {s t : State}
    (hs : Carries defs m parts f nF s V W) (hr : Reloaded dec nF parts parts' old s t) : Carries defs m parts' (fun x => g (f x)) nF t V fun _ _ _ => 0 := by
  obtain ⟨N, maps, R⟩ := ho.result
  obtain ⟨maps', _, R', hnames, _⟩ := reread_results hm hone R ho.wf hpos h
  exact reloaded_core R R' hnames hx hsmall hF hF' hs hr

end
end Verif.Resume
