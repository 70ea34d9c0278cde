import Verif.Steps.Lemmas

/-! # C125: programs of many steps do not depend on how the mesh is distributed nor on the kind of the systems -/
namespace Verif.Steps
open Verif Verif.Elem Verif.Mesh Verif.Dofs Verif.Fields Verif.SolUpd Verif.Pipeline Verif.Report Verif.SetVals Verif.Partition Verif.MfPipe Verif.Reach

noncomputable section

variable {kinds : List (ElType × Nat)} {m : DomMap} {bnds : List Nat} {D nParts nParts' nF : Nat} {parts parts' : List Split.Part} {f f' : Nat → Nat}
  {defs : Nat → SysDef} {V : Nat → Nat → ℝ} {W : Nat → Nat × Nat → Nat → ℝ}

theorem prog_ok {st : Step} {S : SysDef} (hst : st.Ok S m bnds nF) (M : DomMap) (rd : Reader) (val : Nat × Nat → Nat → ℝ) : ({ st.prog S M rd with val := val } : Prog).Ok m bnds := by
  have h := hst.prog M rd
  exact ⟨h.comps, h.active, h.sized, h.weights, h.bnds, h.bactive, h.bsized, h.bweights⟩

theorem newVals_congr {st : Step} {S : SysDef} (hst : st.Ok S m bnds nF) {x x' : Nat → Nat → ℝ}
    (h : ∀ c < S.nRhs, ∀ k, S.prog.unknown m k → x (S.prog.dof parts (f k.1, k.2)) c = x' (S.prog.dof parts' (f' k.1, k.2)) c) :
    newVals S m parts f V st x = newVals S m parts' f' V st x' := by
  funext n fl
  unfold newVals
  by_cases hk : fl ∈ st.dst ∧ S.prog.unknown m (n, comp (st.query S) fl)
  · rw [if_pos hk, if_pos hk]
    exact h _ (field_index (q := st.query S) hst.len hk.1).2.1 _ hk.2
  · rw [if_neg hk, if_neg hk]

/-- **C125** (one step).  Two runs of a step from the same fields and prescribed values, each with an assembled or a matrix-free system on a distribution of its own, end with the
same fields and prescribed values if the system solved has one solution. -/
theorem C125_step (hm : MeshOk kinds m bnds D) (hone : OneSided m bnds) (hmf : MfMesh m bnds) (hfill : Filled m) (ho : Outcome Monotone kinds m bnds nParts parts f)
    (ho' : Outcome Monotone kinds m bnds nParts' parts' f') (hfit : ∀ r < nParts, Fits bnds (part parts r)) (hfit' : ∀ r < nParts', Fits bnds (part parts' r)) {st : Step}
    (hst : st.Ok (defs st.sys) m bnds nF) {s s1 t t1 : State} (hs : Carries defs m parts f nF s V W) (ht : Carries defs m parts' f' nF t V W)
    (hrun : StepRun true defs kinds bnds parts st s s1) (hrun' : StepRun false defs kinds bnds parts' st t t1) :
    ∃ V1 W1, Carries defs m parts f nF s1 V1 W1 ∧ Carries defs m parts' f' nF t1 V1 W1 := by
  obtain ⟨els, vals, v, x, h1, h2, h3, h4, h5⟩ := step_rep hm hmf (outcome_spread hm hone hfill ho) hfit hs hst hrun
  obtain ⟨els', vals', v', x', g1, g2, g3, _, g5⟩ := step_rep hm hmf (outcome_spread hm hone hfill ho') hfit' ht hst hrun'
  refine ⟨_, _, h5, ?_⟩
  rw [newVals_congr (parts' := parts') (f' := f') hst (x' := x') fun c hc k hk => ?_]
  · exact g5
  · exact (C113_reordered_partial hm hone hmf.uniq (prog_ok hst m (canon V) (newDir m V st (W st.sys))) ho ho' h1 g1 vals vals' h2 g2 c).2.2 (h4 rfl c hc) _ _ (h3 c hc) (g3 c hc) k hk

/-- **C125** (programs).  The same for programs of any number of steps using any number of systems: fields and prescribed values agree after the last step if all systems solved have one
solution, on one of the two distributions. -/
theorem C125_program (hm : MeshOk kinds m bnds D) (hone : OneSided m bnds) (hmf : MfMesh m bnds) (hfill : Filled m) (ho : Outcome Monotone kinds m bnds nParts parts f)
    (ho' : Outcome Monotone kinds m bnds nParts' parts' f') (hfit : ∀ r < nParts, Fits bnds (part parts r)) (hfit' : ∀ r < nParts', Fits bnds (part parts' r)) {sts : List Step}
    (hst : ∀ st ∈ sts, st.Ok (defs st.sys) m bnds nF) {s s1 t t1 : State} (hs : Carries defs m parts f nF s V W) (ht : Carries defs m parts' f' nF t V W)
    (hrun : Run true defs kinds bnds parts sts s s1) (hrun' : Run false defs kinds bnds parts' sts t t1) :
    ∃ V1 W1, Carries defs m parts f nF s1 V1 W1 ∧ Carries defs m parts' f' nF t1 V1 W1 := by
  induction sts generalizing s t V W with
  | nil =>
    obtain rfl : s1 = s := hrun
    obtain rfl : t1 = t := hrun'
    exact ⟨V, W, hs, ht⟩
  | cons st sts ih =>
    obtain ⟨a, ha, hra⟩ := hrun
    obtain ⟨b, hb, hrb⟩ := hrun'
    obtain ⟨V1, W1, h1, h2⟩ := C125_step hm hone hmf hfill ho ho' hfit hfit' (hst st List.mem_cons_self) hs ht ha hb
    exact ih (fun st h => hst st (List.mem_cons_of_mem _ h)) h1 h2 hra hrb

/-- **C125** (fields).  After such programs every field has the same value at every node, on whichever ranks the node is. -/
theorem C125_same_fields (hm : MeshOk kinds m bnds D) (hone : OneSided m bnds) (hmf : MfMesh m bnds) (hfill : Filled m) (ho : Outcome Monotone kinds m bnds nParts parts f)
    (ho' : Outcome Monotone kinds m bnds nParts' parts' f') (hfit : ∀ r < nParts, Fits bnds (part parts r)) (hfit' : ∀ r < nParts', Fits bnds (part parts' r)) {sts : List Step}
    (hst : ∀ st ∈ sts, st.Ok (defs st.sys) m bnds nF) {s s1 t t1 : State} (hs : Carries defs m parts f nF s V W) (ht : Carries defs m parts' f' nF t V W)
    (hrun : Run true defs kinds bnds parts sts s s1) (hrun' : Run false defs kinds bnds parts' sts t t1) {n : Nat} (hn : NodeIn m n) {fl : Nat} (hfl : fl < nF)
    {r r' : Nat} (hr : r < parts.length) (hr' : r' < parts'.length) (hnr : NodeIn (part parts r).doms (f n)) (hnr' : NodeIn (part parts' r').doms (f' n)) :
    ∃ a, s1.reader r (f n) fl = .ok a ∧ t1.reader r' (f' n) fl = .ok a := by
  obtain ⟨V1, W1, h1, h2⟩ := C125_program hm hone hmf hfill ho ho' hfit hfit' hst hs ht hrun hrun'
  exact ⟨_, h1.vals r hr n hn hnr fl hfl, h2.vals r' hr' n hn hnr' fl hfl⟩

theorem calls_exist (hm : MeshOk kinds m bnds D) (huni : UniqueParent m bnds) (ho : Spread kinds m bnds nParts parts f) {p : Prog} {s : State}
    (hs : Carries defs m parts f nF s V W) : ∀ (cs : List FCall), (∀ c ∈ cs, (c.at m (canon V)).Ok p m bnds) → (∀ c ∈ cs, ∀ fl ∈ c.reads, fl < nF) → ∀ old,
      ∃ new, Calls (AsmCallR p parts) (cs.map fun c r => c.at (part parts r).doms (s.reader r)) old new
  | [], _, _, old => ⟨old, rfl⟩
  | c :: cs, h1, h2, old => by
    obtain ⟨N, maps, R⟩ := ho.result
    obtain ⟨mid, hmid⟩ := assembled_exists hm huni ho (h1 c List.mem_cons_self) old
    obtain ⟨new, hnew⟩ := calls_exist hm huni ho hs cs (fun c hc => h1 c (List.mem_cons_of_mem _ hc)) (fun c hc => h2 c (List.mem_cons_of_mem _ hc)) mid
    exact ⟨new, mid, (asmCall_of hm R hs (h2 c List.mem_cons_self)).2 hmid, hnew⟩

/-- The systems can be solved, whatever the kernels and the prescribed values. -/
theorem solution_exists (hm : MeshOk kinds m bnds D) (huni : UniqueParent m bnds) {p : Prog} (hp : p.Ok m bnds) (ho : Spread kinds m bnds nParts parts f)
    {els : Nat → List Lsq.LElem} (hels : ∀ r, (els r).Perm (p.rankElems parts r)) (vals : Nat → Nat → Nat → ℝ) {v : Nat → Nat → ℝ} (hv : p.Values m parts f v) (c : Nat) :
    ∃ x, Solution p parts els vals v c x := by
  classical
  obtain ⟨N, maps, R⟩ := ho.result
  obtain ⟨sel, hs⟩ := order_exists R huni hp hels
  have h1 := outcome_represents hm hp R huni hs vals hv
  have hP := problem_ok' hp R.keys R.nodes
  obtain ⟨x, hx⟩ := Lsq.C93_solvable (N := (runOf p parts f maps sel els vals v).s.total) (D := (runOf p parts f maps sel els vals v).D (p.problem m N))
    (Distr.weighted (Distr.problem_ok hP) (Distr.run_represents hP h1 (run_marked hp R vals v))) (fun g => (runOf p parts f maps sel els vals v).v g c) c
  exact ⟨x, (solution_iff hm hp R huni hs vals v c x).2 hx⟩

/-- A step can be made, and copies given solutions. -/
theorem step_exists (hm : MeshOk kinds m bnds D) (hmf : MfMesh m bnds) (ho : Spread kinds m bnds nParts parts f)
    {st : Step} (hst : st.Ok (defs st.sys) m bnds nF) (hsrc : ∀ j ∈ st.src, j < (defs st.sys).dpn) (hdst : ∀ fl ∈ st.dst, fl < nF) {s : State} (hs : Carries defs m parts f nF s V W) :
    ∃ v : Nat → Nat → ℝ, ({ st.prog (defs st.sys) m (canon V) with val := newDir m V st (W st.sys) } : Prog).Values m parts f v ∧
      ∀ (u : Bool) (vals : Nat → Nat → Nat → ℝ) (x : Nat → Nat → ℝ),
        (∀ c < (defs st.sys).nRhs, Solution (defs st.sys).prog parts (fun r => (st.prog (defs st.sys) m (canon V)).rankElems parts r) vals v c fun g => x g c) →
        (u = true → OneSolution (defs st.sys).prog (defs st.sys).nRhs parts (fun r => (st.prog (defs st.sys) m (canon V)).rankElems parts r) vals v) →
        ∃ s', StepRun u defs kinds bnds parts st s s' ∧
          Carries defs m parts f nF s' (newVals (defs st.sys) m parts f V st x) (Function.update W st.sys (newDir m V st (W st.sys))) := by
  obtain ⟨N, maps, R⟩ := ho.result
  obtain ⟨d, hd⟩ := calls_exist hm hmf.uniq ho hs st.calls (fun c hc => hst.calls c hc m (canon V)) hst.creads (s.dir st.sys)
  have hdr := asm_rep hm hmf ho R hs hst hd
  refine ⟨dirAt (defs st.sys).prog parts d, fun k hk _ c => hdr k hk c, fun u vals x hx hu => ?_⟩
  have hup : ∀ r, ∃ w, r < parts.length → Updated (defs st.sys).prog (st.query (defs st.sys)) parts x r (s.fields r) w := by
    intro r
    by_cases hr : r < parts.length
    · have hman := hs.man r hr
      have hck : checks (sysOf (defs st.sys).prog (st.query (defs st.sys)) parts r) (s.fields r).nFields st.src st.dst = true := by
        simp only [checks, Bool.and_eq_true, List.all_eq_true, decide_eq_true_eq, beq_iff_eq]
        exact ⟨⟨hst.len, hsrc⟩, by rw [(managed_fields hman).2]; exact hdst⟩
      have hr' : r < nParts := by rw [← R.plen]; exact hr
      obtain ⟨w, e1, _⟩ := C98_assembled_update (sysOf (defs st.sys).prog (st.query (defs st.sys)) parts r) (node_ok _ _ R hr') x (localSol (defs st.sys).prog parts x r)
        (fun n hn j d hd c _ => by unfold localSol; rw [(known_dof (st.query (defs st.sys)) (def_ok hst) R hr' hn hd).1]) st.src st.dst hst.nodup (s.fields r)
        (by obtain ⟨i, o, h⟩ := hman; exact ⟨nF, i, o, h⟩) hck _ (List.Perm.refl _)
      exact ⟨w, fun _ => .assembled _ (List.Perm.refl _) e1⟩
    · exact ⟨s.fields r, fun h => absurd h hr⟩
  choose w hw using hup
  refine ⟨⟨w, Function.update s.dir st.sys d⟩,
    .assembled (fun r => (st.prog (defs st.sys) m (canon V)).rankElems parts r) vals x d hd (fun r => by rw [rankElems_eq hm R hs hst r]) hx hu hw rfl, ?_⟩
  obtain ⟨e1, e2⟩ := fields_rep (s' := ⟨w, Function.update s.dir st.sys d⟩) hm hmf.uniq R hs hst hw
  refine ⟨e1, e2, fun i => ?_⟩
  by_cases hi : i = st.sys
  · subst hi
    change Rep _ _ _ _ (Function.update s.dir st.sys d st.sys) _
    rw [Function.update_self, Function.update_self]; exact hdr
  · change Rep _ _ _ _ (Function.update s.dir st.sys d i) _
    rw [Function.update_of_ne hi, Function.update_of_ne hi]; exact hs.dir i

/-- **C125** (programs run).  On every distribution every program of sensible steps can run to its end: no call throws, the systems have solutions, and no update fails. -/
theorem C125_runs (hm : MeshOk kinds m bnds D) (hone : OneSided m bnds) (hmf : MfMesh m bnds) (hfill : Filled m) (ho : Outcome Monotone kinds m bnds nParts parts f)
    {sts : List Step} (hst : ∀ st ∈ sts, st.Ok (defs st.sys) m bnds nF) (hsrc : ∀ st ∈ sts, ∀ j ∈ st.src, j < (defs st.sys).dpn) (hdst : ∀ st ∈ sts, ∀ fl ∈ st.dst, fl < nF)
    {s : State} (hs : Carries defs m parts f nF s V W) : ∃ s1 V1 W1, Run false defs kinds bnds parts sts s s1 ∧ Carries defs m parts f nF s1 V1 W1 := by
  induction sts generalizing s V W with
  | nil => exact ⟨s, V, W, rfl, hs⟩
  | cons st sts ih =>
    have hst0 := hst st List.mem_cons_self
    obtain ⟨v, hv, h⟩ := step_exists hm hmf (outcome_spread hm hone hfill ho) hst0 (hsrc st List.mem_cons_self) (hdst st List.mem_cons_self) hs
    have hx := fun c => solution_exists hm hmf.uniq (prog_ok hst0 m (canon V) (newDir m V st (W st.sys))) (outcome_spread hm hone hfill ho) (els := fun r => (st.prog (defs st.sys) m (canon V)).rankElems parts r)
      (fun _ => List.Perm.refl _) (fun _ _ _ => 0) hv c
    choose x hx using hx
    obtain ⟨t, h1, h2⟩ := h false (fun _ _ _ => 0) (fun g c => x c g) (fun c _ => hx c) fun h => Bool.noConfusion h
    obtain ⟨s1, V1, W1, e1, e2⟩ := ih (fun st h => hst st (List.mem_cons_of_mem _ h)) (fun st h => hsrc st (List.mem_cons_of_mem _ h)) (fun st h => hdst st (List.mem_cons_of_mem _ h)) h2
    exact ⟨s1, V1, W1, ⟨t, h1, e1⟩, e2⟩

/-- **C125** (any distribution will do).  Whatever a program ends with on one distribution, with systems of either kind, it can end with on any other.  Here solutions need not be
unique. -/
theorem C125_can_run (hm : MeshOk kinds m bnds D) (hone : OneSided m bnds) (hmf : MfMesh m bnds) (hfill : Filled m) (ho : Outcome Monotone kinds m bnds nParts parts f)
    (ho' : Outcome Monotone kinds m bnds nParts' parts' f') (hfit : ∀ r < nParts, Fits bnds (part parts r)) {sts : List Step}
    (hst : ∀ st ∈ sts, st.Ok (defs st.sys) m bnds nF) (hsrc : ∀ st ∈ sts, ∀ j ∈ st.src, j < (defs st.sys).dpn) (hdst : ∀ st ∈ sts, ∀ fl ∈ st.dst, fl < nF)
    {s s1 t : State} (hs : Carries defs m parts f nF s V W) (ht : Carries defs m parts' f' nF t V W) {u : Bool} (hrun : Run u defs kinds bnds parts sts s s1) :
    ∃ t1 V1 W1, Run false defs kinds bnds parts' sts t t1 ∧ Carries defs m parts f nF s1 V1 W1 ∧ Carries defs m parts' f' nF t1 V1 W1 := by
  induction sts generalizing s t V W with
  | nil =>
    obtain rfl : s1 = s := hrun
    exact ⟨t, V, W, rfl, hs, ht⟩
  | cons st sts ih =>
    obtain ⟨a, ha, hra⟩ := hrun
    have hst0 := hst st List.mem_cons_self
    obtain ⟨els, vals, v, x, h1, h2, h3, _, h5⟩ := step_rep hm hmf (outcome_spread hm hone hfill ho) hfit hs hst0 ha
    obtain ⟨v', hv', h⟩ := step_exists hm hmf (outcome_spread hm hone hfill ho') hst0 (hsrc st List.mem_cons_self) (hdst st List.mem_cons_self) ht
    have hx : ∀ c, ∃ x' : Nat → ℝ, c < (defs st.sys).nRhs →
        Solution (defs st.sys).prog parts' (fun r => (st.prog (defs st.sys) m (canon V)).rankElems parts' r) vals v' c x' ∧
        ∀ k, (defs st.sys).prog.unknown m k → x ((defs st.sys).prog.dof parts (f k.1, k.2)) c = x' ((defs st.sys).prog.dof parts' (f' k.1, k.2)) := by
      intro c
      by_cases hc : c < (defs st.sys).nRhs
      · obtain ⟨x', e1, e2⟩ := (C113_reordered_partial hm hone hmf.uniq (prog_ok hst0 m (canon V) (newDir m V st (W st.sys))) ho ho' h1 (fun _ => List.Perm.refl _) vals vals h2 hv' c).2.1 _ (h3 c hc)
        exact ⟨x', fun _ => ⟨e1, e2⟩⟩
      · exact ⟨fun _ => 0, fun h => absurd h hc⟩
    choose x' hx' using hx
    obtain ⟨b, hb, hcar⟩ := h false vals (fun g c => x' c g) (fun c hc => (hx' c hc).1) fun h => Bool.noConfusion h
    rw [← newVals_congr (parts := parts) (f := f) hst0 (x := x) fun c hc k hk => (hx' c hc).2 k hk] at hcar
    obtain ⟨t1, V1, W1, k1, k2, k3⟩ := ih (fun st h => hst st (List.mem_cons_of_mem _ h)) (fun st h => hsrc st (List.mem_cons_of_mem _ h)) (fun st h => hdst st (List.mem_cons_of_mem _ h)) h5 hcar hra
    exact ⟨t1, V1, W1, ⟨_, hb, k1⟩, k2, k3⟩

/-- **C125** (start).  New solution managers and systems carry the same fields and prescribed values on every distribution. -/
theorem C125_start (hm : MeshOk kinds m bnds D) (hone : OneSided m bnds) (ho : Outcome Monotone kinds m bnds nParts parts f) (init : ℝ) :
    Carries defs m parts f nF ⟨fun r => new (part parts r).own nF init, fun _ _ _ _ => 0⟩ (fun _ _ => init) fun _ _ _ => 0 := by
  obtain ⟨N, maps, R⟩ := outcome_result hm hone ho
  refine ⟨fun r _ => ⟨init, [], by simp, rfl⟩, fun r hr n hn hnp fl hfl => ?_, fun i k hk rhs => rfl⟩
  have hr' : r < nParts := R.plen ▸ hr
  have hp : (SysDef.prog ⟨0, [], [], 0⟩).Ok m bnds := by
    constructor <;> intro _ h <;> exact absurd h List.not_mem_nil
  have hnn := nodeIn_nodes (p := SysDef.prog ⟨0, [], [], 0⟩) (q := ⟨0, [], [], [], 0, 0, [], fun _ _ _ _ _ => []⟩) R hr' hnp
  have hlt := ((node_ok (SysDef.prog ⟨0, [], [], 0⟩) ⟨0, [], [], [], 0, 0, [], fun _ _ _ _ _ => []⟩ R hr').node_known hnn).2
  have h := (holds_new (part parts r).own nF init).2 _ hlt fl hfl
  have h' : (new (part parts r).own nF init).data[(part parts r).own.getLocal (f n) + fl * (part parts r).own.localSize]? = some init := h
  unfold State.reader accessRead load
  dsimp only [new] at h' ⊢
  rw [h']

/-! ### Examples -/
open Verif.Split (lineKinds twoQuads)

/-- The field at node `l`, among what a kernel reading one field is given. -/
def exVal (vals : Vals) (l : Nat) : ℝ := match (vals.getD l []).getD 0 .ub with | .ok a => a | _ => 0

/-- `u = old + 1`, collocated at the nodes of quadrilaterals; `old` is field 0. -/
def exKernel : FKernel := ⟨[0], [0], fun _ _ => ⟨1, 1, 4, 2, 1⟩, [0], fun _ _ _ vals =>
  (List.range 4).map fun l => ⟨fun k _ _ => if k = 0 then 1 else 0, fun _ _ => exVal vals l + 1, fun b => if b = l then 1 else 0, fun _ _ => 0, 1⟩⟩

/-- A step which adds 1 to field 0. -/
def exStep : Step := ⟨0, [], [exKernel], [], [0], [0]⟩

/-- System 0 has no conditions, the others have one on boundary 7. -/
def exDefs (i : Nat) : SysDef := if i = 0 then ⟨1, [([0], [0])], [], 1⟩ else ⟨1, [([0], [0])], [([7], [0])], 1⟩

/-- A step which prescribes the average of field 1 on boundary 7, and puts the result in field 1. -/
def exStep' : Step := ⟨1, [⟨true, [7], [0], 2, [1], fun _ _ _ _ l vals _ _ => exVal vals l + 1⟩], [{ exKernel with reads := [1] }],
  [⟨[7], [0], fun _ _ => ⟨1, 1, 4, 2, 1⟩, [0], fun _ _ _ s vals => [⟨fun _ _ _ => 1, fun _ _ => exVal vals s, fun _ => 1, fun _ _ => 0, 2⟩]⟩], [0], [1]⟩

theorem exStep_ok : exStep.Ok (exDefs exStep.sys) twoQuads.doms [7] 2 := by
  have h4 : ∀ e ∈ visitIds twoQuads.doms [0], e.nodes.length = 4 := by decide
  refine ⟨fun M rd => ⟨?_, ?_, ?_, ?_, ?_, ?_, ?_, ?_⟩, ?_, ?_, ?_, ?_, ?_, ?_, by decide, rfl⟩
  · intro d hd j hj
    obtain rfl : d = ([0], [0]) := by simpa [Step.prog, exStep, exDefs] using hd
    obtain rfl : j = 0 := by simpa using hj
    exact Nat.one_pos
  · intro K hK k hk
    obtain rfl : K = exKernel.at M rd := by simpa [Step.prog, exStep] using hK
    exact ⟨([0], [0]), by simp [Step.prog, exStep, exDefs], hk, fun _ h => h⟩
  · intro K hK e he
    obtain rfl : K = exKernel.at M rd := by simpa [Step.prog, exStep] using hK
    exact ⟨h4 e he, rfl⟩
  · intro K hK t n i U hU
    obtain rfl : K = exKernel.at M rd := by simpa [Step.prog, exStep] using hK
    obtain ⟨l, _, rfl⟩ := List.mem_map.1 hU
    exact zero_le_one
  · intro K hK; exact absurd hK List.not_mem_nil
  · intro K hK; exact absurd hK List.not_mem_nil
  · intro K hK; exact absurd hK List.not_mem_nil
  · intro K hK; exact absurd hK List.not_mem_nil
  · intro K hK
    obtain rfl : K = exKernel := by simpa [exStep] using hK
    decide
  · intro c hc; exact absurd hc List.not_mem_nil
  · intro c hc; exact absurd hc List.not_mem_nil
  · intro K hK fl hfl
    obtain rfl : K = exKernel := by simpa [exStep] using hK
    obtain rfl : fl = 0 := by simpa [exKernel] using hfl
    decide
  · intro K hK; exact absurd hK List.not_mem_nil
  · intro c hc; exact absurd hc List.not_mem_nil

theorem exStep'_ok : exStep'.Ok (exDefs exStep'.sys) twoQuads.doms [7] 2 := by
  have h4 : ∀ e ∈ visitIds twoQuads.doms [0], e.nodes.length = 4 := by decide
  have hdom : ∀ x ∈ visitIds twoQuads.doms [7], ∀ e s, viewOf twoQuads.doms x = some (e, s) → ∀ k, (∃ d, twoQuads.doms.lookup k = some d ∧ e ∈ d.elems) → k = 0 := by
    intro x hx e s hv k hk
    obtain ⟨v, hv', _, hin⟩ := twoQuads_views x hx
    obtain rfl : v = (e, s) := Option.some.inj (hv'.symm.trans hv)
    have hone : ∀ d ∈ twoQuads.doms, ∀ e ∈ d.2.elems, e ∈ visitIds twoQuads.doms [0] → d.1 = 0 := by decide +kernel
    obtain ⟨d, hd, he⟩ := hk
    exact hone _ (Mesh.mem_of_lookup hd) e he hin
  have hcall : ∀ c ∈ exStep'.calls, c.boundary = true ∧ c.ids = [7] ∧ c.inds = [0] ∧ c.dim = 2 ∧ c.reads = [1] := by
    intro c hc
    obtain rfl : c = _ := List.mem_singleton.1 hc
    exact ⟨rfl, rfl, rfl, rfl, rfl⟩
  refine ⟨fun M rd => ⟨?_, ?_, ?_, ?_, ?_, ?_, ?_, ?_⟩, ?_, ?_, ?_, ?_, ?_, ?_, by decide, rfl⟩
  · intro d hd j hj
    obtain rfl : d = ([0], [0]) := by simpa [Step.prog, exStep', exDefs] using hd
    obtain rfl : j = 0 := by simpa using hj
    exact Nat.one_pos
  · intro K hK k hk
    obtain rfl := List.mem_singleton.1 hK
    exact ⟨([0], [0]), by simp [Step.prog, exStep', exDefs], hk, fun _ h => h⟩
  · intro K hK e he
    obtain rfl := List.mem_singleton.1 hK
    exact ⟨h4 e he, rfl⟩
  · intro K hK t n i U hU
    obtain rfl := List.mem_singleton.1 hK
    obtain ⟨l, _, rfl⟩ := List.mem_map.1 hU
    exact zero_le_one
  · intro K hK
    obtain rfl := List.mem_singleton.1 hK
    exact fun _ h => h
  · intro K hK x hx e s hv k hk
    obtain rfl := List.mem_singleton.1 hK
    obtain rfl := hdom x hx e s hv k hk
    exact ⟨([0], [0]), by simp [Step.prog, exStep', exDefs], by simp, fun _ h => h⟩
  · intro K hK x hx e s hv
    obtain rfl := List.mem_singleton.1 hK
    obtain ⟨v, hv', hl, _⟩ := twoQuads_views x hx
    obtain rfl : v = (e, s) := Option.some.inj (hv'.symm.trans hv)
    exact ⟨hl, rfl⟩
  · intro K hK t n i s U hU
    obtain rfl := List.mem_singleton.1 hK
    obtain rfl := List.mem_singleton.1 hU
    exact zero_le_two
  · intro K hK
    obtain rfl := List.mem_singleton.1 hK
    decide
  · intro c hc M rd
    obtain ⟨h1, h2, h3, h4, _⟩ := hcall c hc
    refine ⟨?_, ?_, fun h => ?_, fun _ x hx e s hv k hk => ?_⟩
    · change ((if c.boundary then asmBnd twoQuads.doms c.ids c.dim else asmDom twoQuads.doms c.ids c.dim)).isSome = true
      rw [h1, h2, h4]
      decide +kernel
    · change if c.boundary then c.ids ⊆ [7] ∧ c.ids.Nodup ∧ 0 < c.dim else _
      rw [h1, h2, h4, if_pos rfl]
      decide
    · change c.boundary = false at h
      rw [h1] at h; cases h
    · change x ∈ visitIds _ c.ids at hx
      rw [h2] at hx
      obtain rfl := hdom x hx e s hv k hk
      refine ⟨([0], [0]), by simp [SysDef.prog, exStep', exDefs], by simp, ?_⟩
      change c.inds ⊆ [0]
      rw [h3]; exact fun _ h => h
  · intro c hc M rd
    obtain ⟨h1, h2, h3, h4, _⟩ := hcall c hc
    refine count_of_length fun L hL => ?_
    have hL : (if c.boundary then asmBnd twoQuads.doms c.ids c.dim else asmDom twoQuads.doms c.ids c.dim) = some L := hL
    rw [h1, h2, h4] at hL
    have : ∀ l, asmBnd twoQuads.doms [7] 2 = some l → l.length < 100 := by decide +kernel
    have := this L hL
    change L.length * c.inds.length < _
    rw [h3]
    change L.length * 1 < _
    omega
  · intro K hK fl hfl
    obtain rfl := List.mem_singleton.1 hK
    obtain rfl := List.mem_singleton.1 hfl
    decide
  · intro K hK fl hfl
    obtain rfl := List.mem_singleton.1 hK
    obtain rfl := List.mem_singleton.1 hfl
    decide
  · intro c hc fl hfl
    obtain ⟨_, _, _, _, h5⟩ := hcall c hc
    rw [h5] at hfl
    obtain rfl := List.mem_singleton.1 hfl
    decide

/-- The problem of `exStep`: squares of the differences from the field plus 1. -/
theorem ex_J (V : Nat → Nat → ℝ) (W : Nat × Nat → Nat → ℝ) (c : Nat) (F : Nat × Nat → ℝ) :
    (({ exStep.prog (exDefs 0) twoQuads.doms (canon V) with val := W } : Prog).problem twoQuads.doms 6).toProblem.J c F =
      ([0, 1, 3, 4, 1, 2, 4, 5].map fun n => (F (n, 0) - (V n 0 + 1)) ^ 2).sum := by
  have hv : visitIds twoQuads.doms exKernel.doms = [⟨.quad, 2, 0, [0, 1, 3, 4]⟩, ⟨.quad, 2, 1, [1, 2, 4, 5]⟩] := by decide +kernel
  have h0 : nodesOf twoQuads.doms 0 = [0, 1, 3, 4] := by decide +kernel
  have h1 : nodesOf twoQuads.doms 1 = [1, 2, 4, 5] := by decide +kernel
  have he : (({ exStep.prog (exDefs 0) twoQuads.doms (canon V) with val := W } : Prog).problem twoQuads.doms 6).toProblem.elems =
      [⟨.quad, 2, 0, [0, 1, 3, 4]⟩, ⟨.quad, 2, 1, [1, 2, 4, 5]⟩].map fun e : Element => ⟨e.nodes.map fun n => (n, 0), ⟨1, 1, 4, 2, 1⟩, (exKernel.at twoQuads.doms (canon V)).pts e.ty e.n e.id⟩ := by
    change (({ exStep.prog (exDefs 0) twoQuads.doms (canon V) with val := W } : Prog).melems twoQuads.doms).map Distr.MElem.keyed = _
    simp only [Prog.melems, Step.prog, exStep, List.map_cons, List.map_nil, List.flatMap_cons, List.flatMap_nil, List.append_nil, Kernel.elems]
    rw [show visitIds twoQuads.doms (exKernel.at twoQuads.doms (canon V)).doms = _ from hv]
    rfl
  unfold Distr.Problem.J
  rw [he]
  simp [exKernel, FKernel.at, valsOf, h0, h1, exVal, canon, Lsq.residual, Lsq.uVal, Lsq.uDer, Distr.fieldAt, List.range_succ, Finset.sum_range_succ]
  ring

theorem sum_zero {l : List ℝ} (h : ∀ x ∈ l, 0 ≤ x) (hs : l.sum ≤ 0) : ∀ x ∈ l, x = 0 := by
  induction l with
  | nil => intro x hx; cases hx
  | cons a l ih =>
    have h1 : 0 ≤ l.sum := List.sum_nonneg fun x hx => h x (by simp [hx])
    have h2 := h a (by simp)
    rw [List.sum_cons] at hs
    intro x hx
    rcases List.mem_cons.1 hx with rfl | hx
    · linarith
    · exact ih (fun x hx => h x (by simp [hx])) (by linarith) x hx

theorem ex_solution {nParts : Nat} {parts : List Split.Part} {f : Nat → Nat} (ho : Outcome Monotone lineKinds twoQuads.doms [7] nParts parts f) (V : Nat → Nat → ℝ) (W : Nat × Nat → Nat → ℝ)
    {vals : Nat → Nat → Nat → ℝ} {v : Nat → Nat → ℝ} (hv : ({ exStep.prog (exDefs 0) twoQuads.doms (canon V) with val := W } : Prog).Values twoQuads.doms parts f v) {c : Nat} {x : Nat → ℝ}
    (hx : Solution (exDefs 0).prog parts (fun r => (exStep.prog (exDefs 0) twoQuads.doms (canon V)).rankElems parts r) vals v c x) :
    (∀ k, (exDefs 0).prog.unknown twoQuads.doms k → x ((exDefs 0).prog.dof parts (f k.1, k.2)) = V k.1 0 + 1) ∧
    ∀ g < ((exDefs 0).prog.setup parts).total, ∃ k, (exDefs 0).prog.unknown twoQuads.doms k ∧ (exDefs 0).prog.dof parts (f k.1, k.2) = g := by
  classical
  have hp : ({ exStep.prog (exDefs 0) twoQuads.doms (canon V) with val := W } : Prog).Ok twoQuads.doms [7] := prog_ok exStep_ok twoQuads.doms (canon V) W
  have hN : ∀ x, NodeIn twoQuads.doms x ↔ x < 6 := fun x => nodes_of_all (N := 6) (by decide) (by decide) x
  obtain ⟨N, maps, R⟩ := outcome_result twoQuads_meshOk twoQuads_one ho
  obtain rfl : N = 6 := by
    have h := fun x => (R.nodes x).symm.trans (hN x)
    have h1 := h N
    have h2 := h 6
    omega
  obtain ⟨sel, hs⟩ := order_exists R twoQuads_unique hp (els := fun r => (exStep.prog (exDefs 0) twoQuads.doms (canon V)).rankElems parts r) fun _ => List.Perm.refl _
  have h1 := outcome_represents twoQuads_meshOk hp R twoQuads_unique hs vals hv
  have hP := problem_ok' hp R.keys R.nodes
  have hr := Distr.run_represents hP h1 (run_marked hp R vals v)
  have hmin := (Distr.C112_intrinsic (Distr.problem_ok hP) hr c x).1 ((solution_iff twoQuads_meshOk hp R twoQuads_unique hs vals v c x).1 hx)
  have hJ := hmin.2 (fun k => V k.1 0 + 1) ⟨?_, ?_⟩
  · rw [ex_J, ex_J] at hJ
    have : (([0, 1, 3, 4, 1, 2, 4, 5] : List Nat).map fun n => ((V n 0 + 1) - (V n 0 + 1)) ^ 2).sum = 0 := by simp
    rw [this] at hJ
    have hz := sum_zero (by
      intro x hx
      obtain ⟨n, _, rfl⟩ := List.mem_map.1 hx
      positivity) hJ
    refine ⟨?_, fun g hg => ?_⟩
    · rintro ⟨n, j⟩ ⟨d, hd, hj, e, he, hn⟩
      obtain rfl : d = ([0], [0]) := by simpa [exDefs, SysDef.prog] using hd
      obtain rfl : j = 0 := by simpa using hj
      have hall : ∀ e ∈ visitIds twoQuads.doms [0], ∀ n ∈ e.nodes, n ∈ [0, 1, 3, 4, 1, 2, 4, 5] := by decide
      have := pow_eq_zero_iff two_ne_zero |>.1 (hz _ (List.mem_map.2 ⟨n, hall e he n hn, rfl⟩))
      exact sub_eq_zero.1 this
    · obtain ⟨k, hk, hg⟩ := hr.surj g hg
      exact ⟨k, (unknown_iff hp hN k).1 hk, hg⟩
  · rintro ⟨n, j⟩ ⟨n', j'⟩ _ _ ⟨_, h⟩
    change n = n' at h
    rw [h]
  · rintro k _ ⟨d, hd, _⟩
    exact absurd hd List.not_mem_nil

theorem ex_nodes (x : Nat) : NodeIn twoQuads.doms x ↔ x < 6 := nodes_of_all (N := 6) (by decide) (by decide) x

theorem ex_unknown (n : Nat) : (exDefs 0).prog.unknown twoQuads.doms (n, 0) ↔ n < 6 := by
  constructor
  · rintro ⟨d, hd, _, e, he, hn⟩
    obtain rfl : d = ([0], [0]) := by simpa [exDefs, SysDef.prog] using hd
    have hall : ∀ e ∈ visitIds twoQuads.doms [0], ∀ n ∈ e.nodes, n < 6 := by decide
    exact hall e he n hn
  · intro hn
    have hall : ∀ n < 6, ∃ e ∈ visitIds twoQuads.doms [0], n ∈ e.nodes := by decide
    exact ⟨([0], [0]), by simp [exDefs, SysDef.prog], by simp, hall n hn⟩

/-- `exStep` can be made on every distribution, its system has one solution, and it adds 1 to field 0. -/
theorem ex_run {nParts : Nat} {parts : List Split.Part} {f : Nat → Nat} (ho : Outcome Monotone lineKinds twoQuads.doms [7] nParts parts f) {s : State} {V : Nat → Nat → ℝ}
    {W : Nat → Nat × Nat → Nat → ℝ} (hs : Carries exDefs twoQuads.doms parts f 2 s V W) :
    ∃ s' W', StepRun true exDefs lineKinds [7] parts exStep s s' ∧ Carries exDefs twoQuads.doms parts f 2 s' (fun n fl => if fl = 0 ∧ n < 6 then V n 0 + 1 else V n fl) W' := by
  obtain ⟨v, hv, h⟩ := step_exists twoQuads_meshOk twoQuads_mf (outcome_spread twoQuads_meshOk twoQuads_one twoQuads_filled ho) exStep_ok (by decide) (by decide) hs
  have hx := fun c => solution_exists twoQuads_meshOk twoQuads_unique (prog_ok exStep_ok twoQuads.doms (canon V) (newDir twoQuads.doms V exStep (W exStep.sys)))
    (outcome_spread twoQuads_meshOk twoQuads_one twoQuads_filled ho)
    (els := fun r => (exStep.prog (exDefs exStep.sys) twoQuads.doms (canon V)).rankElems parts r) (fun _ => List.Perm.refl _) (fun _ _ _ => 0) hv c
  choose x hx using hx
  obtain ⟨s', h1, h2⟩ := h true (fun _ _ _ => 0) (fun g c => x c g) (fun c _ => hx c) fun _ c _ y z hy hz g hg => by
    obtain ⟨k, hk, rfl⟩ := (ex_solution ho V _ hv hy).2 g hg
    rw [(ex_solution ho V _ hv hy).1 k hk, (ex_solution ho V _ hv hz).1 k hk]
  have e : newVals (exDefs exStep.sys) twoQuads.doms parts f V exStep (fun g c => x c g) = fun n fl => if fl = 0 ∧ n < 6 then V n 0 + 1 else V n fl := by
    funext n fl
    unfold newVals
    by_cases hfl : fl = 0
    · subst hfl
      have hc : comp (exStep.query (exDefs exStep.sys)) 0 = 0 := rfl
      rw [hc]
      by_cases hn : n < 6
      · rw [if_pos ⟨List.mem_singleton.2 rfl, (ex_unknown n).2 hn⟩, if_pos ⟨rfl, hn⟩]
        exact (ex_solution ho V _ hv (hx _)).1 (n, 0) ((ex_unknown n).2 hn)
      · rw [if_neg fun h => hn ((ex_unknown n).1 h.2), if_neg fun h => hn h.2]
    · rw [if_neg fun h => hfl (List.mem_singleton.1 h.1), if_neg fun h => hfl h.1]
  rw [e] at h2
  exact ⟨s', _, h1, h2⟩

/-- Any number of steps, on any distribution of the two quadrilaterals: field 0 counts them, field 1 stays as it was. -/
theorem ex_runs {nParts : Nat} {parts : List Split.Part} {f : Nat → Nat} (ho : Outcome Monotone lineKinds twoQuads.doms [7] nParts parts f) (k : Nat) {s : State} {V : Nat → Nat → ℝ}
    {W : Nat → Nat × Nat → Nat → ℝ} (hs : Carries exDefs twoQuads.doms parts f 2 s V W) :
    ∃ s' V' W', Run true exDefs lineKinds [7] parts (List.replicate k exStep) s s' ∧ Carries exDefs twoQuads.doms parts f 2 s' V' W' ∧ ∀ n < 6, V' n 0 = V n 0 + k ∧ V' n 1 = V n 1 := by
  induction k generalizing s V W with
  | zero => exact ⟨s, V, W, rfl, hs, fun n _ => ⟨by simp, rfl⟩⟩
  | succ k ih =>
    obtain ⟨a, W1, h1, h2⟩ := ex_run ho hs
    obtain ⟨s', V', W', e1, e2, e3⟩ := ih h2
    refine ⟨s', V', W', ⟨a, h1, e1⟩, e2, fun n hn => ?_⟩
    obtain ⟨t1, t2⟩ := e3 n hn
    rw [t1, t2, if_pos ⟨rfl, hn⟩, if_neg fun h => by simp at h]
    push_cast
    exact ⟨by ring, rfl⟩

/-- Hypotheses of the theorems: two quadrilaterals on one rank and on two; a hundred steps with one solution each can be made on one rank, so also on two, and all runs there end with 100 in field 0 at
every node. -/
example : ∃ parts f s t, Outcome Monotone lineKinds twoQuads.doms [7] 2 parts f ∧ Outcome Monotone lineKinds twoQuads.doms [7] 1 [⟨twoQuads.doms, ⟨0, 6, []⟩, []⟩] id ∧
    Carries exDefs twoQuads.doms [⟨twoQuads.doms, ⟨0, 6, []⟩, []⟩] id 2 s (fun _ _ => 0) (fun _ _ _ => 0) ∧ Carries exDefs twoQuads.doms parts f 2 t (fun _ _ => 0) (fun _ _ _ => 0) ∧
    (∃ s1, Run true exDefs lineKinds [7] [⟨twoQuads.doms, ⟨0, 6, []⟩, []⟩] (List.replicate 100 exStep) s s1) ∧
    (∃ t1, Run false exDefs lineKinds [7] parts (List.replicate 100 exStep) t t1) ∧
    (∀ r < 2, Fits [7] (part parts r)) ∧ (∀ t1, Run false exDefs lineKinds [7] parts (List.replicate 100 exStep) t t1 →
      ∀ n < 6, ∀ r < 2, NodeIn (part parts r).doms (f n) → t1.reader r (f n) 0 = .ok 100) := by
  have hl : Labels twoQuads.doms [7] 2 [1, 0] [1, 0, 0, 1, 0, 0] [0, 1] := ⟨by decide, by decide, ex_nodes, by decide, ⟨by decide, by decide⟩⟩
  obtain ⟨parts, φ, f, maps, h1, _, _⟩ := partition_result twoQuads_meshOk twoQuads_one hl id (fun _ _ => id) (fun _ => List.Perm.refl _) (fun _ _ _ => List.Perm.refl _)
  have ho : Outcome Monotone lineKinds twoQuads.doms [7] 2 parts _ := .parts 2 _ _ _ hl id (fun _ _ => id) (fun _ => List.Perm.refl _) (fun _ _ _ => List.Perm.refl _) _ φ h1
  obtain ⟨N, maps, R⟩ := outcome_result twoQuads_meshOk twoQuads_one ho
  have hs := C125_start (defs := exDefs) (nF := 2) twoQuads_meshOk twoQuads_one twoQuads_whole 0
  have ht := C125_start (defs := exDefs) (nF := 2) twoQuads_meshOk twoQuads_one ho 0
  have hok : ∀ st ∈ List.replicate 100 exStep, st.Ok (exDefs st.sys) twoQuads.doms [7] 2 := fun st h => by
    obtain rfl := (List.mem_replicate.1 h).2
    exact exStep_ok
  have hfit : ∀ r < 1, Fits [7] (part [⟨twoQuads.doms, ⟨0, 6, []⟩, []⟩] r) := by
    intro r hr
    obtain rfl : r = 0 := by omega
    exact fits_whole (by decide) (by decide)
  have hsz : ∀ d ∈ twoQuads.doms, ∀ v ∈ d.2.vecs, ∀ e ∈ v, e.nodes.length ≤ 4 ∧ e.n = 2 := by decide
  have hln : ∀ d ∈ twoQuads.doms, (domEls twoQuads.doms d.1).length ≤ 2 := by decide +kernel
  have hf : ∀ r < 2, Fits [7] (part parts r) := by
    intro r hr
    refine C121_fits twoQuads_meshOk twoQuads_one ho ex_nodes (by decide) ?_ ?_ hr
    · rintro k e ⟨d, hd, he⟩
      obtain ⟨v, hv, hev⟩ := List.mem_flatten.1 he
      have h1 := (hsz _ (Mesh.mem_of_lookup hd) v hv e hev).1
      have h2 := hln _ (Mesh.mem_of_lookup hd)
      have h3 := Nat.mul_le_mul h1 h2
      simp only at h3
      omega
    · rintro e ⟨d, hd, v, hv, he⟩
      exact (hsz d hd v hv e he).2
  obtain ⟨s1, V1, W1, e1, e2, e3⟩ := ex_runs twoQuads_whole 100 hs
  refine ⟨parts, _, _, _, ho, twoQuads_whole, hs, ht, ⟨s1, e1⟩, ?_, hf, fun t1 hrun n hn r hr hnr => ?_⟩
  · obtain ⟨t1, _, _, h, _⟩ := C125_runs twoQuads_meshOk twoQuads_one twoQuads_mf twoQuads_filled ho hok
      (fun st h => by obtain rfl := (List.mem_replicate.1 h).2; decide) (fun st h => by obtain rfl := (List.mem_replicate.1 h).2; decide) ht
    exact ⟨t1, h⟩
  · have hin : NodeIn (part [⟨twoQuads.doms, ⟨0, 6, []⟩, []⟩] 0).doms n := (ex_nodes n).2 hn
    obtain ⟨a, ha, hb⟩ := C125_same_fields twoQuads_meshOk twoQuads_one twoQuads_mf twoQuads_filled twoQuads_whole ho hfit hf hok hs ht e1 hrun ((ex_nodes n).2 hn) (fl := 0) (by decide)
      (r := 0) (r' := r) (by decide) (by rw [R.plen]; exact hr) hin hnr
    have hv := e2.vals 0 (by decide) n ((ex_nodes n).2 hn) hin 0 (by decide)
    rw [(e3 n hn).1] at hv
    have : Out.ok a = Out.ok ((0 : ℝ) + (100 : Nat)) := ha.symm.trans hv
    rw [hb, this]
    norm_num

/-- Steps with conditions which read fields, in turn with others, using two systems. -/
example : (∀ st ∈ [exStep, exStep', exStep], st.Ok (exDefs st.sys) twoQuads.doms [7] 2) ∧ (∀ st ∈ [exStep, exStep', exStep], ∀ j ∈ st.src, j < (exDefs st.sys).dpn) ∧
    (∀ st ∈ [exStep, exStep', exStep], ∀ fl ∈ st.dst, fl < 2) := by
  refine ⟨?_, ?_, by decide⟩
  · simp only [List.mem_cons, List.not_mem_nil, or_false]
    rintro st (rfl | rfl | rfl)
    exacts [exStep_ok, exStep'_ok, exStep_ok]
  · simp only [List.mem_cons, List.not_mem_nil, or_false]
    rintro st (rfl | rfl | rfl) <;> decide

end
end Verif.Steps
