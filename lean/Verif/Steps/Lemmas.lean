import Verif.Steps.Spec

/-! # Lemmas for C125 -/
namespace Verif.Steps
open Verif Verif.Elem Verif.Mesh Verif.Dofs Verif.Fields Verif.SolUpd Verif.Pipeline Verif.Report Verif.SetVals Verif.Partition

noncomputable section

/-- The fields as the kernels should see them. -/
def canon (V : Nat → Nat → ℝ) : Reader := fun n fl => .ok (V n fl)

variable {kinds : List (ElType × Nat)} {m : DomMap} {bnds : List Nat} {D N nParts nF : Nat} {parts : List Split.Part} {f : Nat → Nat} {maps : List DomMap}
  {defs : Nat → SysDef} {s s' : State} {V : Nat → Nat → ℝ} {W : Nat → Nat × Nat → Nat → ℝ} {st : Step}

/-! ### What kernels read -/

theorem nodesOf_eq {M : DomMap} (hu : ∀ {k k' e e'}, InDom M k e → InDom M k' e' → e.id = e'.id → e = e') {k : Nat} {e : Element} (he : InDom M k e) :
    nodesOf M e.id = e.nodes := by
  have hv : e ∈ visitAll M := mem_visitIds.2 ⟨k, by obtain ⟨d, hd, _⟩ := he; exact List.mem_map.2 ⟨_, Mesh.mem_of_lookup hd, rfl⟩, he⟩
  unfold nodesOf
  cases hf : (visitAll M).find? (fun a => a.id == e.id) with
  | none => exact absurd (List.find?_eq_none.1 hf e hv) (by simp)
  | some a =>
    obtain ⟨k', _, ha⟩ := mem_visitIds.1 (List.mem_of_find?_eq_some hf)
    have := hu ha he (by simpa using List.find?_some hf)
    rw [this]; rfl

theorem part_ids_inj (hm : MeshOk kinds m bnds D) (R : Result bnds m N nParts parts f maps) {r k k' : Nat} {e e' : Element}
    (he : InDom (part parts r).doms k e) (he' : InDom (part parts r).doms k' e') (h : e.id = e'.id) : e = e' := by
  obtain ⟨a, _, ha, rfl⟩ := Reach.inDom_part R he
  obtain ⟨b, _, hb, rfl⟩ := Reach.inDom_part R he'
  rw [(MfPipe.ids_inj hm ha hb h).2]

theorem vals_eq (hm : MeshOk kinds m bnds D) (R : Result bnds m N nParts parts f maps) (hc : Carries defs m parts f nF s V W) {r : Nat} (hr : r < nParts) {reads : List Nat}
    (hrd : ∀ fl ∈ reads, fl < nF) {k : Nat} {e : Element} (he : InDom (part parts r).doms k e) :
    valsOf (part parts r).doms (s.reader r) reads e.id = valsOf m (canon V) reads e.id := by
  obtain ⟨a, _, ha, rfl⟩ := Reach.inDom_part R he
  have h1 := nodesOf_eq (M := (part parts r).doms) (part_ids_inj hm R) he
  have h2 := nodesOf_eq (M := m) (fun h h' hid => (MfPipe.ids_inj hm h h' hid).2) ha
  unfold valsOf
  change (nodesOf _ (mapEl f a).id).map _ = (nodesOf m a.id).map _
  rw [h1, h2]
  change (a.nodes.map f).map _ = _
  rw [List.map_map]
  refine List.map_congr_left fun n hn => List.map_congr_left fun fl hfl => ?_
  exact hc.vals r (R.plen ▸ hr) n ⟨a, inDom_holds ha, hn⟩ ⟨_, inDom_holds he, List.mem_map.2 ⟨n, hn, rfl⟩⟩ fl (hrd fl hfl)

theorem part_none (R : Result bnds m N nParts parts f maps) {r : Nat} (hr : ¬ r < nParts) : (part parts r).doms = [] := by
  unfold part; rw [List.getElem?_eq_none (by rw [R.plen]; omega)]; rfl

theorem inDom_visit {M : DomMap} {ks : List Nat} {e : Element} (h : e ∈ visitIds M ks) : ∃ k, InDom M k e := by
  obtain ⟨k, _, hk⟩ := mem_visitIds.1 h; exact ⟨k, hk⟩

theorem view_inDom {M : DomMap} (hk : KeysNodup M) {x e : Element} {t : Nat} (hx : viewOf M x = some (e, t)) : ∃ k, InDom M k e := isParent_inDom hk (viewOf_some hk hx)

/-- What a rank assembles with the fields it has is what it would with the kernels of the undistributed mesh. -/
theorem rankElems_eq (hm : MeshOk kinds m bnds D) (R : Result bnds m N nParts parts f maps) (hc : Carries defs m parts f nF s V W) {S : SysDef} (hst : st.Ok S m bnds nF) (r : Nat) :
    (st.prog S (part parts r).doms (s.reader r)).rankElems parts r = (st.prog S m (canon V)).rankElems parts r := by
  by_cases hr : r < nParts
  · have hkeys := part_keys R hr
    have key : (st.prog S (part parts r).doms (s.reader r)).melems (part parts r).doms = (st.prog S m (canon V)).melems (part parts r).doms := by
      unfold Prog.melems
      congr 1
      · change (st.kernels.map _).flatMap _ = (st.kernels.map _).flatMap _
        rw [List.flatMap_map, List.flatMap_map]
        refine List.flatMap_congr fun K hK => ?_
        refine List.map_congr_left fun e he => ?_
        obtain ⟨k, hk⟩ := inDom_visit he
        change (⟨_, _, _, K.pts _ _ _ (valsOf _ _ _ _)⟩ : Distr.MElem) = ⟨_, _, _, K.pts _ _ _ (valsOf _ _ _ _)⟩
        rw [vals_eq hm R hc hr (hst.reads K hK) hk]
        rfl
      · change (st.bkernels.map _).flatMap _ = (st.bkernels.map _).flatMap _
        rw [List.flatMap_map, List.flatMap_map]
        refine List.flatMap_congr fun K hK => ?_
        refine List.map_congr_left fun v hv => ?_
        obtain ⟨x, _, hx⟩ := List.mem_filterMap.1 hv
        obtain ⟨k, hk⟩ := view_inDom hkeys (e := v.1) (t := v.2) hx
        change (⟨_, _, _, K.pts _ _ _ _ (valsOf _ _ _ _)⟩ : Distr.MElem) = ⟨_, _, _, K.pts _ _ _ _ (valsOf _ _ _ _)⟩
        rw [vals_eq hm R hc hr (hst.breads K hK) hk]
        rfl
    unfold Prog.rankElems
    rw [key]; rfl
  · rw [MfPipe.rankElems_none (by rw [R.plen]; omega), MfPipe.rankElems_none (by rw [R.plen]; omega)]

/-! ### Prescribed values -/

theorem pts_id {K : Type} {c : Call K} {M : DomMap} (hk : KeysNodup M) {L : List Reach.Pt} (hL : c.pts M = some L) {pt : Reach.Pt} (hpt : pt ∈ L) :
    ∃ k e, InDom M k e ∧ pt.id = e.id := by
  cases hb : c.boundary with
  | false =>
    unfold Call.pts at hL
    simp only [hb, Bool.false_eq_true, if_false] at hL
    unfold Reach.asmDom DimCheck.assemble at hL
    by_cases hx : DimCheck.checkDim M c.ids c.dim = true
    · rw [if_pos hx, Option.map_some] at hL
      obtain rfl := Option.some.inj hL
      obtain ⟨e, he, hpe⟩ := List.mem_flatMap.1 hpt
      obtain ⟨k, _, hke⟩ := mem_visitIds.1 (List.mem_filter.1 he).1
      obtain ⟨q, _, rfl⟩ := List.mem_map.1 hpe
      exact ⟨k, e, hke, rfl⟩
    · rw [if_neg hx] at hL; cases hL
  | true =>
    obtain ⟨x, _, e, t, hx, hp⟩ := pts_bnd hb hL hpt
    obtain ⟨k, he⟩ := view_inDom hk hx
    obtain ⟨i, _, rfl⟩ := List.mem_map.1 hp
    exact ⟨k, e, he, rfl⟩

theorem entries_kern {K : Type} {dofs : Nat → Nat → Option Nat} {inds : List Nat} {F G : Kern K} {L : List Reach.Pt} (h : ∀ pt ∈ L, F.at pt = G.at pt) :
    entriesOf dofs inds F L = entriesOf dofs inds G L := by
  unfold entriesOf
  refine List.flatMap_congr fun pt hpt => ?_
  rw [h pt hpt]

theorem kern_eq (hm : MeshOk kinds m bnds D) (R : Result bnds m N nParts parts f maps) (hc : Carries defs m parts f nF s V W) {c : FCall} (hrd : ∀ fl ∈ c.reads, fl < nF) {r : Nat}
    (hr : r < nParts) {pt : Reach.Pt} (hpt : ∃ k e, InDom (part parts r).doms k e ∧ pt.id = e.id) :
    (c.at (part parts r).doms (s.reader r)).kern.at pt = (c.at m (canon V)).kern.at pt := by
  obtain ⟨k, e, he, hid⟩ := hpt
  funext i j
  change c.kern _ _ _ _ _ (valsOf _ _ _ _) _ _ = c.kern _ _ _ _ _ (valsOf _ _ _ _) _ _
  rw [hid, vals_eq hm R hc hr hrd he]

theorem asmCall_of (hm : MeshOk kinds m bnds D) (R : Result bnds m N nParts parts f maps) (hc : Carries defs m parts f nF s V W) {c : FCall} (hrd : ∀ fl ∈ c.reads, fl < nF) {p : Prog}
    {old new : Nat → Nat → Nat → ℝ} : AsmCallR p parts (fun r => c.at (part parts r).doms (s.reader r)) old new ↔ AsmCall p parts (c.at m (canon V)) old new := by
  unfold AsmCallR AsmCall
  refine exists_congr fun L => exists_congr fun ord => exists_congr fun zero => and_congr_left fun _ => forall_congr' fun r => forall_congr' fun hr => ?_
  have hr' : r < nParts := R.plen ▸ hr
  refine and_congr_right fun h1 => ?_
  have e1 : ∀ dofs inds, entriesOf dofs inds (c.at (part parts r).doms (s.reader r)).kern (L r) = entriesOf dofs inds (c.at m (canon V)).kern (L r) :=
    fun _ _ => entries_kern fun pt hpt => kern_eq hm R hc hrd hr' (pts_id (part_keys R hr') h1 hpt)
  have e2 : ∀ dofs inds ids, entriesOf dofs inds (c.at (part parts r).doms (s.reader r)).kern (Reach.asmConst (part parts r).doms ids) =
      entriesOf dofs inds (c.at m (canon V)).kern (Reach.asmConst (part parts r).doms ids) := fun _ _ _ => entries_kern fun pt hpt => kern_eq hm R hc hrd hr' (by
    obtain ⟨e, he, hpe⟩ := List.mem_flatMap.1 hpt
    obtain ⟨k, hk⟩ := inDom_visit he
    obtain ⟨q, _, rfl⟩ := List.mem_map.1 hpe
    exact ⟨k, e, hk, rfl⟩)
  beta_reduce
  rw [e1, e2]
  rfl

theorem mfCall_of (hm : MeshOk kinds m bnds D) (hmf : MfPipe.MfMesh m bnds) (ho : Spread kinds m bnds nParts parts f)
    (R : Result bnds m N nParts parts f maps) (hfit : ∀ r < nParts, MfPipe.Fits bnds (part parts r)) (hc : Carries defs m parts f nF s V W) {c : FCall} (hrd : ∀ fl ∈ c.reads, fl < nF) {p : Prog}
    (hok : ∀ M rd, (c.at M rd).Ok p m bnds) {old new : Nat → Nat → Nat → ℝ}
    (h : MfCallR kinds bnds p parts (fun r => c.at (part parts r).doms (s.reader r)) old new) : MfCall kinds bnds p parts (c.at m (canon V)) old new := by
  have hw := ho.wf
  obtain ⟨ordM, ord, ords, border, interior, init, tc, tv, hoM, hoo, hos, hr, rfl⟩ := h
  refine ⟨ordM, ord, ords, border, interior, init, tc, tv, hoM, hoo, hos, fun r hrl => ?_, rfl⟩
  have hr' : r < nParts := R.plen ▸ hrl
  obtain ⟨q, vi, vb, a, b, q1, q2, q3, q4, q5, q6⟩ := hr r hrl
  obtain ⟨bv, g1, g2, g3⟩ := MfPipe.rankMesh_some R hr' (hoM r)
  obtain ⟨L, hL⟩ := Option.isSome_iff_exists.1 (hok m (canon V)).some
  obtain ⟨Ls, h1, h2⟩ := ranks_pts hm hmf.uniq R hw ho.filled (hok m (canon V)) hL
  rw [g1] at q1
  obtain rfl := Option.some.inj q1
  have hq := MfPipe.rank_ok hm hmf R hw hr' (hfit r hr') (hoM r) g2 g3
  obtain ⟨vi', vb', a', b', w1, w2, w3, _⟩ := mf_spec hq g2 (hok m (canon V)) (MfPipe.isInterior (p.setup parts) r) (hoo r) (hos r) (h1 r hr')
  rw [w1] at q2
  obtain ⟨rfl, rfl⟩ := Prod.mk.inj (Option.some.inj q2)
  have q3' : (c.at m (canon V)).mfPts vi' vb' = some (a, b) := q3
  rw [w2] at q3'
  obtain ⟨rfl, rfl⟩ := Prod.mk.inj (Option.some.inj q3')
  have hids : ∀ pt ∈ a' ++ b', ∃ k e, InDom (part parts r).doms k e ∧ pt.id = e.id := by
    intro pt hpt
    obtain ⟨pt', hpt', rfl⟩ := List.mem_map.1 (w3.mem_iff.1 hpt)
    obtain ⟨k, e, he, hid⟩ := pts_id (part_keys R hr') (h1 r hr') hpt'
    exact ⟨k, e, he, hid⟩
  refine ⟨_, _, _, a', b', g1, w1, w2, ?_, ?_, q6⟩
  · rw [← entries_kern fun pt hpt => kern_eq hm R hc hrd hr' (hids pt (List.mem_append_left _ hpt))]
    exact q4
  · rw [← entries_kern fun pt hpt => kern_eq hm R hc hrd hr' (hids pt (List.mem_append_right _ hpt))]
    exact q5

/-- Values prescribed after the calls of a step. -/
def newDir (m : DomMap) (V : Nat → Nat → ℝ) (st : Step) (w : Nat × Nat → Nat → ℝ) : Nat × Nat → Nat → ℝ :=
  (st.calls.map (·.at m (canon V))).foldl (fun v c => specCall m c v) w

theorem calls_rep {p : Prog}
    {one : (Nat → Call ℝ) → (Nat → Nat → Nat → ℝ) → (Nat → Nat → Nat → ℝ) → Prop} : ∀ (cs : List FCall),
    (∀ c ∈ cs, ∀ old new v, Rep p m parts f old v → one (fun r => c.at (part parts r).doms (s.reader r)) old new → Rep p m parts f new (specCall m (c.at m (canon V)) v)) →
    ∀ {old new : Nat → Nat → Nat → ℝ} {w : Nat × Nat → Nat → ℝ}, Rep p m parts f old w →
      Calls one (cs.map fun c r => c.at (part parts r).doms (s.reader r)) old new →
      Rep p m parts f new ((cs.map (·.at m (canon V))).foldl (fun v c => specCall m c v) w)
  | [], _, old, new, w, hw, h => by
    obtain rfl : new = old := h
    exact hw
  | c :: cs, h1, old, new, w, hw, h => by
    obtain ⟨mid, g1, g2⟩ := h
    exact calls_rep cs (fun c hc => h1 c (List.mem_cons_of_mem _ hc)) (h1 c List.mem_cons_self old mid w hw g1) g2

theorem def_ok {S : SysDef} (hst : st.Ok S m bnds nF) : S.prog.Ok m bnds := by
  have h := hst.prog m (canon fun _ _ => 0)
  exact ⟨h.comps, fun K hK => absurd hK List.not_mem_nil, fun K hK => absurd hK List.not_mem_nil, fun K hK => absurd hK List.not_mem_nil, fun K hK => absurd hK List.not_mem_nil,
    fun K hK => absurd hK List.not_mem_nil, fun K hK => absurd hK List.not_mem_nil, fun K hK => absurd hK List.not_mem_nil⟩

theorem asm_rep (hm : MeshOk kinds m bnds D) (hmf : MfPipe.MfMesh m bnds) (ho : Spread kinds m bnds nParts parts f)
    (R : Result bnds m N nParts parts f maps) (hc : Carries defs m parts f nF s V W) (hst : st.Ok (defs st.sys) m bnds nF) {d : Nat → Nat → Nat → ℝ}
    (h : Calls (AsmCallR (defs st.sys).prog parts) (st.rankCalls parts s) (s.dir st.sys) d) : Rep (defs st.sys).prog m parts f d (newDir m V st (W st.sys)) :=
  calls_rep st.calls
    (fun c hcs _ _ _ hr h1 => assembled_spread hm hmf.uniq (def_ok hst) ho (hst.calls c hcs m (canon V)) hr ((asmCall_of hm R hc (hst.creads c hcs)).1 h1)) (hc.dir st.sys) h

theorem mf_rep (hm : MeshOk kinds m bnds D) (hmf : MfPipe.MfMesh m bnds) (ho : Spread kinds m bnds nParts parts f)
    (R : Result bnds m N nParts parts f maps) (hfit : ∀ r < nParts, MfPipe.Fits bnds (part parts r)) (hc : Carries defs m parts f nF s V W) (hst : st.Ok (defs st.sys) m bnds nF)
    {d : Nat → Nat → Nat → ℝ} (h : Calls (MfCallR kinds bnds (defs st.sys).prog parts) (st.rankCalls parts s) (s.dir st.sys) d) :
    Rep (defs st.sys).prog m parts f d (newDir m V st (W st.sys)) :=
  calls_rep st.calls
    (fun c hcs _ _ _ hr h1 => matrix_free_spread hm hmf (def_ok hst) ho hfit (hst.calls c hcs m (canon V)) (hst.count c hcs m (canon V)) hr
      (mfCall_of hm hmf ho R hfit hc (hst.creads c hcs) (hst.calls c hcs) h1)) (hc.dir st.sys) h

/-! ### Fields after a step -/

theorem runStores_run {l : List (Option (Op ℝ))} {t t' : Sol ℝ} (h : runStores l t = .ok t') : ∃ ops, (∀ o ∈ ops, some o ∈ l) ∧ run ops t = .ok t' := by
  induction l generalizing t with
  | nil => exact ⟨[], by simp, h⟩
  | cons o l ih =>
    cases o with
    | none => cases h
    | some o =>
      unfold runStores at h
      cases hs : step t o with
      | ok t1 =>
        rw [hs] at h
        obtain ⟨ops, h1, h2⟩ := ih (t := t1) h
        refine ⟨o :: ops, ?_, ?_⟩
        · intro o' ho'
          rcases List.mem_cons.1 ho' with rfl | ho'
          · exact List.mem_cons_self
          · exact List.mem_cons_of_mem _ (h1 o' ho')
        · unfold run; rw [hs]; exact h2
      | throws => rw [hs] at h; cases h
      | ub => rw [hs] at h; cases h

theorem run_append {V : Type} (a b : List (Op V)) (t : Sol V) : run (a ++ b) t = (run a t).bind (run b) := by
  induction a generalizing t with
  | nil => rfl
  | cons o a ih =>
    change (step t o).bind (run (a ++ b)) = ((step t o).bind (run a)).bind (run b)
    cases step t o with
    | ok t1 => exact ih t1
    | throws => rfl
    | ub => rfl

theorem managed_fields {own : Own.SegOwn} {t : Sol ℝ} (h : Managed own nF t) : t.own = own ∧ t.nFields = nF := by
  obtain ⟨init, ops, hr, h⟩ := h
  obtain ⟨s', h1, h2, h3, _⟩ := run_holds ops (new own nF init) _ (holds_new _ _ _) hr
  rw [h] at h1
  cases h1
  exact ⟨h2, h3⟩

theorem managed_step {own : Own.SegOwn} {t t' : Sol ℝ} (h : Managed own nF t) {l : List (Option (Op ℝ))} (hl : ∀ o, some o ∈ l → Op.InRange own.localSize nF o)
    (hr : runStores l t = .ok t') : Managed own nF t' := by
  obtain ⟨init, ops, h1, h2⟩ := h
  obtain ⟨ops', h3, h4⟩ := runStores_run hr
  refine ⟨init, ops ++ ops', fun o ho => ?_, ?_⟩
  · rcases List.mem_append.1 ho with ho | ho
    · exact h1 o ho
    · exact hl o (h3 o ho)
  · rw [run_append, h2]; exact h4

theorem covers_range {u : Sys} (hv : u.NodeOk) {x : Nat → Nat → ℝ} {src dst : List Nat} {P : Nat → Prop} {l : List (Option (Op ℝ))} (h : Covers u x src dst P l) {F : Nat}
    (hc : checks u F src dst = true) {o : Op ℝ} (ho : some o ∈ l) : Op.InRange u.nodeOwn.localSize F o := by
  obtain ⟨p, n, fl, d, rhs, he, hn, _, ht, hp⟩ := h.1 _ ho
  cases he
  exact hp.inRange (hv.node_known hn).2 (ht.field_lt hc)

/-- What `updateSolution` does on a rank. -/
theorem updated_all {p : Prog} {q : Query} (hp : p.Ok m bnds) (R : Result bnds m N nParts parts f maps) (hnd : q.dst.Nodup) {x : Nat → Nat → ℝ} {r : Nat} (hr : r < nParts)
    {t t' : Sol ℝ} (ht : Managed (part parts r).own nF t) (hu : Updated p q parts x r t t') :
    Managed (part parts r).own nF t' ∧ ∃ P : Nat → Prop, (∀ n, NodeIn (part parts r).doms n → P n) ∧ Copied (sysOf p q parts r) x q.src q.dst P t t' := by
  have hman : Manager (sysOf p q parts r) t := by obtain ⟨i, o, h⟩ := ht; exact ⟨nF, i, o, h⟩
  have hF := (managed_fields ht).2
  cases hu with
  | assembled ord ho h =>
    have hck : checks (sysOf p q parts r) t.nFields q.src q.dst = true := by
      unfold asmUpdate at h
      by_contra hh
      rw [if_neg hh] at h; cases h
    have hx : ∀ n ∈ (sysOf p q parts r).nodes, ∀ j d, (sysOf p q parts r).gdof n j = some d → ∀ c < (sysOf p q parts r).nRhs,
        localSol p parts x r ((sysOf p q parts r).dofOwn.getLocal d) c = x d c := fun n hn j d hd c _ => by unfold localSol; rw [(known_dof q hp R hr hn hd).1]
    obtain ⟨s1, h1, h2⟩ := C98_assembled_update (sysOf p q parts r) (node_ok p q R hr) x (localSol p parts x r) hx q.src q.dst hnd t hman hck ord ho
    rw [h] at h1
    cases h1
    refine ⟨managed_step ht (fun o ho' => ?_) (by unfold asmUpdate at h; rw [if_pos hck] at h; exact h), _, fun _ _ => trivial, h2⟩
    rw [hF] at hck
    exact covers_range (node_ok p q R hr) ((assembled_covers hx).perm ho) hck ho'
  | matrixFree stale ordI ordB small hI hB h =>
    have hck : checks (sysOf p q parts r) t.nFields q.src q.dst = true := by
      unfold mfUpdate at h
      by_contra hh
      rw [if_neg hh] at h; cases h
    have hdo : Own.SegOwn.make ((p.setup parts).base r) ((p.setup parts).numOwned r) ((p.setup parts).sharedDofs r) = some (sysOf p q parts r).dofOwn := dofOwn_get
    have hval : (sysOf p q parts r).Valid := by
      refine ⟨node_ok p q R hr, ⟨_, _, _, Std.sortUniq_nodup _, hdo⟩, ?_, fun n hn j d hd => (known_dof q hp R hr hn hd).2, small⟩
      intro e he n hn
      obtain ⟨e', he', rfl⟩ := List.mem_map.1 he
      obtain ⟨k, _, hin⟩ := mem_visitIds.1 he'
      exact nodeIn_nodes R hr ⟨e', inDom_holds hin, hn⟩
    have hcnt : (sysOf p q parts r).dofOwn.cnt = (p.setup parts).numOwned r := by rw [(Own.make_some hdo).1]
    have hvec : Vectors (sysOf p q parts r) x (localSol p parts x r) (fun i => localSol p parts x r ((p.setup parts).numOwned r + i)) := by
      constructor
      · intro i hi c
        unfold localSol
        rw [List.getD_eq_getElem?_getD, l2g_get' p q]
        unfold Own.SegOwn.getGlobal
        rw [if_pos hi]; rfl
      · intro i hi c
        unfold localSol
        rw [List.getD_eq_getElem?_getD, l2g_get' p q]
        unfold Own.SegOwn.getGlobal
        rw [if_neg (by rw [hcnt]; omega), hcnt, Nat.add_sub_cancel_left, List.getElem?_eq_getElem hi]; rfl
    obtain ⟨s1, h1, h2⟩ := C98_matrix_free_update_partial (sysOf p q parts r) hval x _ stale _ hvec q.src q.dst hnd t hman hck ordI ordB hI hB
    rw [h] at h1
    cases h1
    have hsrc : ∀ i ∈ q.src, i < (sysOf p q parts r).nd := by
      simp only [checks, Bool.and_eq_true, List.all_eq_true, decide_eq_true_eq] at hck; exact hck.1.2
    refine ⟨managed_step ht (l := ordI ++ ordB) (fun o ho' => ?_) (by unfold mfUpdate at h; rw [if_pos hck, ← runStores_append] at h; exact h), _, fun n hn => ?_, h2⟩
    · rw [hF] at hck
      exact covers_range hval.node (((interior_covers hval hvec stale hsrc).perm hI).append ((border_covers hval hvec).perm hB)) hck ho'
    · obtain ⟨e, ⟨dm, hdm, v, hv, he⟩, hne⟩ := hn
      have hk := part_keys R hr
      exact ⟨e.nodes, List.mem_map.2 ⟨e, mem_visitIds.2 ⟨dm.1, List.mem_map.2 ⟨dm, hdm, rfl⟩, inDom_of_mem hk hdm hv he⟩, rfl⟩, hne⟩

open Classical in
/-- Fields after a step with the solution `x` by global dof and right-hand side. -/
def newVals (S : SysDef) (m : DomMap) (parts : List Split.Part) (f : Nat → Nat) (V : Nat → Nat → ℝ) (st : Step) (x : Nat → Nat → ℝ) (n fl : Nat) : ℝ :=
  if fl ∈ st.dst ∧ S.prog.unknown m (n, comp (st.query S) fl) then valueOf S.prog (st.query S) parts f x n fl else V n fl

theorem unknown_of_dof (hm : MeshOk kinds m bnds D) {p : Prog} (hp : p.Ok m bnds) (R : Result bnds m N nParts parts f maps) (hu : UniqueParent m bnds) {r : Nat} (hr : r < nParts) {n j d : Nat}
    (hn : NodeIn m n) (hk : (p.setup parts).Knows r (f n)) (hd : (p.setup parts).dofs r (f n) j = some d) : p.unknown m (n, j) := by
  obtain ⟨sel, hs⟩ := order_exists R hu hp (els := p.rankElems parts) fun _ => List.Perm.refl _
  have hP := problem_ok' (bare_ok hp) R.keys R.nodes
  have hof := bare_of hm hp R hu hs
  have hmk := run_marked (sel := sel) (els := p.rankElems parts) (bare_ok hp) R (fun _ _ _ => 0) fun _ _ => 0
  have hr' : r < (p.setup parts).counts.length := by rw [setup_length p R]; exact hr
  have hj := dof_lt_dpn (setup_ok hp R) hr' (knows_local hk) hd
  rw [Distr.dofs_owner (setup_ok hp R) hr' (knows_local hk)] at hd
  refine (unknown_iff (bare_ok hp) R.nodes (n, j)).1 ((Distr.some_iff (n := n) (j := j) hP hof hmk ((R.nodes n).1 hn) hj).1 ?_)
  exact Option.isSome_iff_exists.2 ⟨d, hd⟩

theorem getD_idx {l : List Nat} (hnd : l.Nodup) {i : Nat} (hi : i < l.length) : l.idxOf (l.getD i 0) = i := by
  rw [List.getD_eq_getElem?_getD, List.getElem?_eq_getElem hi]
  exact hnd.idxOf_getElem i hi

theorem target_comp {q : Query} (hnd : q.dst.Nodup) (hlen : q.dst.length = q.src.length * q.nRhs) {i c : Nat} (hi : i < q.src.length) (hc : c < q.nRhs) :
    q.dst.getD (i * q.nRhs + c) 0 ∈ q.dst ∧ comp q (q.dst.getD (i * q.nRhs + c) 0) = q.src.getD i 0 := by
  have hlt : i * q.nRhs + c < q.dst.length := by
    have := Nat.mul_le_mul_right q.nRhs (show i + 1 ≤ q.src.length from hi)
    rw [Nat.add_mul, Nat.one_mul] at this
    omega
  refine ⟨?_, ?_⟩
  · rw [List.getD_eq_getElem?_getD, List.getElem?_eq_getElem hlt]; exact List.getElem_mem hlt
  · unfold comp
    rw [getD_idx hnd hlt, Nat.mul_comm, Nat.mul_add_div (by omega), Nat.div_eq_of_lt hc, Nat.add_zero]

/-- What the kernels of the next step read. -/
theorem fields_rep (hm : MeshOk kinds m bnds D) (huni : UniqueParent m bnds) (R : Result bnds m N nParts parts f maps) (hc : Carries defs m parts f nF s V W)
    (hst : st.Ok (defs st.sys) m bnds nF) {x : Nat → Nat → ℝ}
    (hupd : ∀ r < parts.length, Updated (defs st.sys).prog (st.query (defs st.sys)) parts x r (s.fields r) (s'.fields r)) :
    (∀ r < parts.length, Managed (part parts r).own nF (s'.fields r)) ∧
    ∀ r < parts.length, ∀ n, NodeIn m n → NodeIn (part parts r).doms (f n) → ∀ fl < nF, s'.reader r (f n) fl = .ok (newVals (defs st.sys) m parts f V st x n fl) := by
  have hp := def_ok hst
  have key := fun r (hr : r < parts.length) => updated_all hp R (q := st.query (defs st.sys)) hst.nodup (R.plen ▸ hr) (hc.man r hr) (hupd r hr)
  refine ⟨fun r hr => (key r hr).1, fun r hr n hn hnp fl hfl => ?_⟩
  have hr' : r < nParts := R.plen ▸ hr
  obtain ⟨_, P, hP, h1, h2, h3⟩ := key r hr
  have hF := (managed_fields (hc.man r hr))
  have hnn := nodeIn_nodes (p := (defs st.sys).prog) (q := st.query (defs st.sys)) R hr' hnp
  obtain ⟨h4, h5⟩ := h3 (f n) hnn fl (by rw [hF.2]; exact hfl)
  unfold newVals
  by_cases hk : fl ∈ st.dst ∧ (defs st.sys).prog.unknown m (n, comp (st.query (defs st.sys)) fl)
  · rw [if_pos hk]
    obtain ⟨e', he', hne'⟩ := hnp
    obtain ⟨k, hke⟩ : ∃ k, InDom (part parts r).doms k e' := by
      obtain ⟨dm, hdm, v, hv, he⟩ := he'
      exact ⟨dm.1, inDom_of_mem (part_keys R hr') hdm hv he⟩
    obtain ⟨e, he1, he2, rfl⟩ := Reach.inDom_part R hke
    obtain ⟨n', hn', hfn⟩ := List.mem_map.1 hne'
    have hnn' : n' = n := R.bij.2.1 ((R.nodes n').1 ⟨e, inDom_holds he2, hn'⟩) ((R.nodes n).1 hn) hfn
    subst hnn'
    obtain ⟨g1, _⟩ := dof_eq hm hp R huni he1 hn' hk.2
    obtain ⟨w1, w2, w3, _⟩ := field_index (q := st.query (defs st.sys)) hst.len hk.1
    exact accessRead_of (h4 _ _ (hP _ ⟨_, he', hne'⟩) ⟨_, w1, w2, g1, w3⟩)
  · rw [if_neg hk]
    have hno : ¬ ∃ d rhs, P (f n) ∧ Target (sysOf (defs st.sys).prog (st.query (defs st.sys)) parts r) st.src st.dst (f n) fl d rhs := by
      rintro ⟨d, rhs, _, i, hi, hr1, hd, rfl⟩
      obtain ⟨w1, w2⟩ := target_comp (q := st.query (defs st.sys)) hst.nodup hst.len hi hr1
      refine hk ⟨w1, ?_⟩
      have hw2 : comp (st.query (defs st.sys)) (st.dst.getD (i * (defs st.sys).nRhs + rhs) 0) = st.src.getD i 0 := w2
      change (defs st.sys).prog.unknown m (n, comp (st.query (defs st.sys)) (st.dst.getD (i * (defs st.sys).nRhs + rhs) 0))
      rw [hw2]
      exact unknown_of_dof hm hp R huni hr' hn (nodes_known R hr' hnn) hd
    have hold := hc.vals r hr n hn hnp fl hfl
    have hman : Manager (sysOf (defs st.sys).prog (st.query (defs st.sys)) parts r) (s.fields r) := by obtain ⟨i, o, h⟩ := hc.man r hr; exact ⟨nF, i, o, h⟩
    obtain ⟨ho1, t, ht⟩ := hman.holds
    have hread : nodeValueGlobal (s.fields r) (f n) fl = .ok (V n fl) := by
      have hlt : (s.fields r).own.getLocal (f n) < (s.fields r).nNodes := by
        unfold Sol.nNodes; rw [ho1]; exact ((node_ok (defs st.sys).prog (st.query (defs st.sys)) R hr').node_known hnn).2
      unfold nodeValueGlobal viewRead
      rw [if_pos hlt, fieldView_ok ht (by rw [hF.2]; exact hfl)]
      unfold State.reader accessRead at hold
      change load (s.fields r).data (fl * (s.fields r).nNodes + _) = _
      rw [Nat.add_comm]
      exact hold
    exact accessRead_of ((h5 hno).trans hread)

/-- What a matrix-free system of the distribution is solved by solves the assembled one. -/
theorem mf_solution (hm : MeshOk kinds m bnds D) (hmf : MfPipe.MfMesh m bnds) {p : Prog} (hp : p.Ok m bnds)
    (ho : Spread kinds m bnds nParts parts f) {els : Nat → List Lsq.LElem} (hels : ∀ r, (els r).Perm (p.rankElems parts r)) (vals : Nat → Nat → Nat → ℝ) {v : Nat → Nat → ℝ}
    (hv : p.Values m parts f v) (nc c : Nat) (hc : c < nc)
    (hvals : ∀ q < nParts, ∀ d < (p.l2g parts q).length, p.constrained parts ((p.l2g parts q).getD d 0) → vals q d c = v ((p.l2g parts q).getD d 0) c)
    (x y : Nat → Nat → ℝ) (ups ups' : Nat → List ((Nat × Nat) × ℝ))
    (hups : ∀ q < nParts, MatFree.IsOrder (p.rank parts els vals q).toI.toRank x nc 1 (ups q))
    (hups' : ∀ q < nParts, (ups' q).Perm (MfInit.rhsIncs (p.rank parts els vals q).toI nc)) :
    (∀ me < nParts, ∀ loc < (p.setup parts).numOwned me,
      MatFree.result nParts (fun q => (p.rank parts els vals q).toI.toRank) (fun q => MatFree.rankMem (p.rank parts els vals q).toI.toRank y 0 (ups q)) me loc c =
        MfInit.finalRhs nParts (fun q => (p.rank parts els vals q).toI) ups' me loc c) ↔ Solution p parts els vals v c fun g => x g c := by
  classical
  obtain ⟨N, maps, R⟩ := ho.result
  have huni := hmf.uniq
  obtain ⟨sel, hs⟩ := order_exists R huni hp hels
  have h1 := outcome_represents hm hp R huni hs vals hv
  have hrk := run_rank hs vals v
  have hnr : (runOf p parts f maps sel els vals v).nr = nParts := setup_length p R
  rw [solution_iff hm hp R huni hs vals v c]
  have key := Distr.C112_runs_matrix_free_partial (problem_ok' hp R.keys R.nodes) h1 h1 (run_marked hp R vals v) (run_marked hp R vals v) x y (fun g => x g c) nc c hc
    (by
      intro q hq d hd hD
      rw [hnr] at hq
      exact hvals q hq d hd ((constrained_iff hm hp R huni hs vals v _).2 hD))
    ups ups' (by rw [hnr, hrk]; exact hups) (by rw [hnr, hrk]; exact hups') (fun _ _ => rfl)
  rw [hnr, hrk] at key
  rw [hnr, hrk]
  exact key

/-- What a step does, whatever the system and the distribution. -/
theorem step_rep (hm : MeshOk kinds m bnds D) (hmf : MfPipe.MfMesh m bnds) (ho : Spread kinds m bnds nParts parts f)
    (hfit : ∀ r < nParts, MfPipe.Fits bnds (part parts r)) (hc : Carries defs m parts f nF s V W) (hst : st.Ok (defs st.sys) m bnds nF) {u : Bool}
    (h : StepRun u defs kinds bnds parts st s s') :
    ∃ (els : Nat → List Lsq.LElem) (vals : Nat → Nat → Nat → ℝ) (v x : Nat → Nat → ℝ),
      (∀ r, (els r).Perm ((st.prog (defs st.sys) m (canon V)).rankElems parts r)) ∧
      ({ st.prog (defs st.sys) m (canon V) with val := newDir m V st (W st.sys) } : Prog).Values m parts f v ∧
      (∀ c < (defs st.sys).nRhs, Solution (defs st.sys).prog parts els vals v c fun g => x g c) ∧
      (u = true → OneSolution (defs st.sys).prog (defs st.sys).nRhs parts els vals v) ∧
      Carries defs m parts f nF s' (newVals (defs st.sys) m parts f V st x) (Function.update W st.sys (newDir m V st (W st.sys))) := by
  obtain ⟨N, maps, R⟩ := ho.result
  have hdirs : ∀ {d : Nat → Nat → Nat → ℝ}, Rep (defs st.sys).prog m parts f d (newDir m V st (W st.sys)) → s'.dir = Function.update s.dir st.sys d →
      ∀ i, Rep (defs i).prog m parts f (s'.dir i) (Function.update W st.sys (newDir m V st (W st.sys)) i) := by
    intro d hd hu i
    rw [hu]
    by_cases hi : i = st.sys
    · subst hi
      rw [Function.update_self, Function.update_self]; exact hd
    · rw [Function.update_of_ne hi, Function.update_of_ne hi]; exact hc.dir i
  cases h with
  | assembled els vals x d hcalls hels hsol hone' hupd hdir =>
    have hd := asm_rep hm hmf ho R hc hst hcalls
    obtain ⟨h1, h2⟩ := fields_rep hm hmf.uniq R hc hst hupd
    exact ⟨els, vals, _, x, fun r => by rw [← rankElems_eq hm R hc hst r]; exact hels r, fun k hk _ c => hd k hk c, hsol, hone', ⟨h1, h2, hdirs hd hdir⟩⟩
  | matrixFree a b vals x y d ordM ord ords hordM hord hords hcalls hab hrest hvals ups ups' hups hups' hsol hone' hupd hdir =>
    have hd := mf_rep hm hmf ho R hfit hc hst hcalls
    obtain ⟨h1, h2⟩ := fields_rep hm hmf.uniq R hc hst hupd
    have hels : ∀ r, ((fun r => a r ++ b r) r).Perm ((st.prog (defs st.sys) m (canon V)).rankElems parts r) := by
      intro r
      by_cases hr : r < nParts
      · obtain ⟨a', b', w1, w2, _⟩ := MfPipe.rankEvals_ok hm hmf (hst.prog (part parts r).doms (s.reader r)) (fun K hK k hk => by
          obtain ⟨K', hK', rfl⟩ := List.mem_map.1 hK
          exact hst.doms K' hK' k hk) R ho.wf hr (hfit r hr) (hordM r) (hord r) (hords r)
        rw [hab r (by rw [R.plen]; exact hr)] at w1
        obtain ⟨rfl, rfl⟩ := Prod.mk.inj (Option.some.inj w1)
        rw [← rankElems_eq hm R hc hst r]
        exact w2
      · obtain ⟨w1, w2⟩ := hrest r (by rw [R.plen]; omega)
        rw [MfPipe.rankElems_none (by rw [R.plen]; omega)]
        simp [w1, w2]
    have hok : ({ st.prog (defs st.sys) m (canon V) with val := newDir m V st (W st.sys) } : Prog).Ok m bnds := by
      have h := hst.prog m (canon V)
      exact ⟨h.comps, h.active, h.sized, h.weights, h.bnds, h.bactive, h.bsized, h.bweights⟩
    have hV : ({ st.prog (defs st.sys) m (canon V) with val := newDir m V st (W st.sys) } : Prog).Values m parts f (dirAt (defs st.sys).prog parts d) := fun k hk _ c => hd k hk c
    refine ⟨_, vals, _, x, hels, hV, fun c hcl => ?_, hone', ⟨h1, h2, hdirs hd hdir⟩⟩
    rw [R.plen] at *
    exact (mf_solution hm hmf hok ho hels vals hV (defs st.sys).nRhs c hcl (fun q hq k hk hcn => hvals q hq k hk hcn c) x y ups ups' hups hups').1 (hsol c hcl)

end
end Verif.Steps
