import Verif.Resume.Spec
import Verif.Steps.Props
import Verif.Restart.Props

/-! # Lemmas for C135 -/
namespace Verif.Resume
open Verif Verif.Elem Verif.Mesh Verif.Dofs Verif.Fields Verif.SolUpd Verif.Pipeline Verif.Report Verif.SetVals Verif.Partition Verif.MfPipe Verif.Reach Verif.Steps Verif.Restart
  Verif.NativeIO Verif.Own

noncomputable section

variable {kinds : List (ElType × Nat)} {m : DomMap} {bnds : List Nat} {D N nParts nParts' nF : Nat} {parts parts' : List Split.Part} {f f' : Nat → Nat} {maps : List DomMap}
  {defs : Nat → SysDef} {V : Nat → Nat → ℝ} {W W' : Nat → Nat × Nat → Nat → ℝ}

/-! ### Parts of the mesh read are parts of the mesh -/

theorem reread_spread {m' : DomMap} {g : Nat → Nat} {old : List (List Nat)} (hm : MeshOk kinds m bnds D) (hone : OneSided m bnds) (ho : Spread kinds m bnds nParts parts f) (hpos : 0 < nParts)
    (h : Reread Monotone kinds bnds parts m' nParts' parts' g old) : Spread kinds m bnds nParts' parts' fun x => g (f x) := by
  obtain ⟨N, maps, R⟩ := ho.result
  obtain ⟨maps', h2, R', _, h4, h5⟩ := reread_results hm hone R ho.wf hpos h
  exact ⟨⟨N, maps', R'⟩, outcome_wf (h2.meshOk hm) (h2.oneSided hone) h4, outcome_filled (h2.meshOk hm) (h2.oneSided hone) (h5 ho.filled) h4⟩

theorem restarted_spread {m' : DomMap} {g : Nat → Nat} {old : List (List Nat)} (hm : MeshOk kinds m bnds D) (hone : OneSided m bnds) (hfill : Filled m)
    (h : Restarted Monotone kinds m bnds nParts parts f m' nParts' parts' g old) : Spread kinds m bnds nParts' parts' fun x => g (f x) :=
  reread_spread hm hone (outcome_spread hm hone hfill h.before) h.pos h.read

/-- The answer does not depend on the distribution, however it came about. -/
theorem answers_same (hm : MeshOk kinds m bnds D) (huni : UniqueParent m bnds) {p : Prog} (hp : p.Ok m bnds) (ho : Spread kinds m bnds nParts parts f) (ho' : Spread kinds m bnds nParts' parts' f')
    {els els' : Nat → List Lsq.LElem} (hels : ∀ r, (els r).Perm (p.rankElems parts r)) (hels' : ∀ r, (els' r).Perm (p.rankElems parts' r)) (vals vals' : Nat → Nat → Nat → ℝ) {v v' : Nat → Nat → ℝ}
    (hv : p.Values m parts f v) (hv' : p.Values m parts' f' v') (c : Nat)
    (hu : ∀ x y, Solution p parts els vals v c x → Solution p parts els vals v c y → ∀ g < (p.setup parts).total, x g = y g) {x x' : Nat → ℝ}
    (hx : Solution p parts els vals v c x) (hx' : Solution p parts' els' vals' v' c x') (k : Nat × Nat) (hk : p.unknown m k) :
    x (p.dof parts (f k.1, k.2)) = x' (p.dof parts' (f' k.1, k.2)) := by
  classical
  obtain ⟨N, maps, R⟩ := ho.result
  obtain ⟨N', maps', R'⟩ := ho'.result
  have hNN : N = N' := by
    have h : ∀ x, x < N ↔ x < N' := fun x => (R.nodes x).symm.trans (R'.nodes x)
    have h1 := h N
    have h2 := h N'
    omega
  subst hNN
  obtain ⟨sel, hs⟩ := order_exists R huni hp hels
  obtain ⟨sel', hs'⟩ := order_exists R' huni hp hels'
  have h1 := outcome_represents hm hp R huni hs vals hv
  have h2 := outcome_represents hm hp R' huni hs' vals' hv'
  obtain ⟨_, _, t3⟩ := Distr.C112_runs_partial (problem_ok' hp R.keys R.nodes) h1 h2 (run_marked hp R vals v) (run_marked hp R' vals' v') c
  exact t3 (fun x y hx hy => hu x y ((solution_iff hm hp R huni hs vals v c x).2 hx) ((solution_iff hm hp R huni hs vals v c y).2 hy)) x x'
    ((solution_iff hm hp R huni hs vals v c x).1 hx) ((solution_iff hm hp R' huni hs' vals' v' c x').1 hx') k ((unknown_iff hp R.nodes k).2 hk)

/-! ### Prescribed values -/

/-- The values of two sets of systems agree where they matter. -/
def Agree (defs : Nat → SysDef) (m : DomMap) (live : Nat → Prop) (W W' : Nat → Nat × Nat → Nat → ℝ) : Prop :=
  ∀ i, live i → ∀ k, (defs i).prog.unknown m k → (defs i).prog.prescribed m k → W i k = W' i k

theorem fold_congr {m : DomMap} (cs : List (Call ℝ)) {w w' : Nat × Nat → Nat → ℝ} {k : Nat × Nat} (h : w k = w' k) :
    cs.foldl (fun v c => specCall m c v) w k = cs.foldl (fun v c => specCall m c v) w' k := by
  induction cs generalizing w w' with
  | nil => exact h
  | cons c cs ih =>
    refine ih ?_
    funext rhs
    unfold specCall
    beta_reduce
    rw [h]

theorem fold_sets {m : DomMap} {cs : List (Call ℝ)} {k : Nat × Nat} (h : ∃ c ∈ cs, contribsAt ((c.pts m).getD []) c.inds c.kern k ≠ []) (w w' : Nat × Nat → Nat → ℝ) :
    cs.foldl (fun v c => specCall m c v) w k = cs.foldl (fun v c => specCall m c v) w' k := by
  induction cs generalizing w w' with
  | nil => obtain ⟨c, hc, _⟩ := h; exact absurd hc List.not_mem_nil
  | cons c cs ih =>
    by_cases hc : contribsAt ((c.pts m).getD []) c.inds c.kern k = []
    · obtain ⟨d, hd, hne⟩ := h
      rcases List.mem_cons.1 hd with rfl | hd
      · exact absurd hc hne
      · exact ih ⟨d, hd, hne⟩ _ _
    · refine fold_congr cs ?_
      funext rhs
      unfold specCall NodeVals.expected
      beta_reduce
      rw [if_neg hc, if_neg hc]

theorem contribs_ne {L : List Pt} {inds : List Nat} {F : Kern ℝ} {k : Nat × Nat} (hk : k.2 ∈ inds) (h : ∃ pt ∈ L, pt.node = k.1) : contribsAt L inds F k ≠ [] := by
  obtain ⟨pt, hpt, hn⟩ := h
  obtain ⟨i, hi⟩ := List.getElem?_of_mem hk
  refine List.ne_nil_of_mem (a := F.at pt i) (List.mem_flatMap.2 ⟨pt, hpt, List.mem_map.2 ⟨(k.2, i), List.mem_filter.2 ⟨List.mem_zipIdx_iff_getElem?.2 hi, ?_⟩, rfl⟩⟩)
  simp [hn]

theorem newDir_sets (hm : MeshOk kinds m bnds D) (hone : OneSided m bnds) (ho : Outcome Monotone kinds m bnds nParts parts f) {st : Step} (hst : st.Ok (defs st.sys) m bnds nF)
    (h : Sets st (defs st.sys) m) {k : Nat × Nat} (hk : (defs st.sys).prog.unknown m k) (hp : (defs st.sys).prog.prescribed m k) (w w' : Nat × Nat → Nat → ℝ) :
    newDir m V st w k = newDir m V st w' k := by
  obtain ⟨c, hc, hi, e, he, hn⟩ := h k hk hp
  refine fold_sets ⟨c.at m (canon V), List.mem_map.2 ⟨c, hc, rfl⟩, contribs_ne hi ?_⟩ w w'
  have hok := hst.calls c hc m (canon V)
  obtain ⟨L, hL⟩ := Option.isSome_iff_exists.1 hok.some
  rw [hL, Option.getD_some]
  refine (whole_nodes hm hone ho hok hL k.1).1 ?_
  obtain ⟨i, hi'⟩ := List.getElem?_of_mem hn
  exact ⟨⟨k.1, e.ty, e.n, e.id, none, i⟩, List.mem_flatMap.2 ⟨e, he, List.mem_map.2 ⟨(k.1, i), List.mem_zipIdx_iff_getElem?.2 hi', rfl⟩⟩, rfl⟩

/-! ### One step and programs -/

theorem step_agree (hm : MeshOk kinds m bnds D) (hmf : MfMesh m bnds) (ho : Spread kinds m bnds nParts parts f) (ho' : Spread kinds m bnds nParts' parts' f')
    (hfit : ∀ r < nParts, Fits bnds (part parts r)) (hfit' : ∀ r < nParts', Fits bnds (part parts' r)) {st : Step}
    (hst : st.Ok (defs st.sys) m bnds nF) {s s1 t t1 : State} (hs : Carries defs m parts f nF s V W) (ht : Carries defs m parts' f' nF t V W')
    (hW : ∀ k, (defs st.sys).prog.unknown m k → (defs st.sys).prog.prescribed m k → newDir m V st (W st.sys) k = newDir m V st (W' st.sys) k)
    (hrun : StepRun true defs kinds bnds parts st s s1) (hrun' : StepRun false defs kinds bnds parts' st t t1) :
    ∃ V1, Carries defs m parts f nF s1 V1 (Function.update W st.sys (newDir m V st (W st.sys))) ∧
      Carries defs m parts' f' nF t1 V1 (Function.update W' st.sys (newDir m V st (W' st.sys))) := by
  obtain ⟨els, vals, v, x, h1, h2, h3, h4, h5⟩ := step_rep hm hmf ho hfit hs hst hrun
  obtain ⟨els', vals', v', x', g1, g2, g3, _, g5⟩ := step_rep hm hmf ho' hfit' ht hst hrun'
  refine ⟨_, h5, ?_⟩
  have g2' : ({ st.prog (defs st.sys) m (canon V) with val := newDir m V st (W st.sys) } : Prog).Values m parts' f' v' := by
    intro k hk hp c
    have h := g2 k hk hp c
    have hw := hW k hk hp
    change _ = newDir m V st (W st.sys) k c
    rw [hw]; exact h
  rw [newVals_congr (parts' := parts') (f' := f') hst (x' := x') fun c hc k hk => ?_]
  · exact g5
  · exact answers_same hm hmf.uniq (prog_ok hst m (canon V) (newDir m V st (W st.sys))) ho ho' h1 g1 vals vals' h2 g2' c (h4 rfl c hc) (h3 c hc) (g3 c hc) k hk

theorem program_agree (hm : MeshOk kinds m bnds D) (hone : OneSided m bnds) (hmf : MfMesh m bnds) (hfill : Filled m) (ho : Outcome Monotone kinds m bnds nParts parts f)
    (ho' : Spread kinds m bnds nParts' parts' f') (hfit : ∀ r < nParts, Fits bnds (part parts r)) (hfit' : ∀ r < nParts', Fits bnds (part parts' r)) {sts : List Step}
    (hst : ∀ st ∈ sts, st.Ok (defs st.sys) m bnds nF) {live : Nat → Prop} (hready : Ready defs m live sts) {s s1 t t1 : State}
    (hs : Carries defs m parts f nF s V W) (ht : Carries defs m parts' f' nF t V W') (hW : Agree defs m live W W')
    (hrun : Run true defs kinds bnds parts sts s s1) (hrun' : Run false defs kinds bnds parts' sts t t1) :
    ∃ V1 W1 W1', Carries defs m parts f nF s1 V1 W1 ∧ Carries defs m parts' f' nF t1 V1 W1' ∧ Agree defs m live W1 W1' ∧
      (∀ i, (∀ st ∈ sts, st.sys ≠ i) → W1 i = W i) := by
  induction sts generalizing s t V W W' live with
  | nil =>
    obtain rfl : s1 = s := hrun
    obtain rfl : t1 = t := hrun'
    exact ⟨V, W, W', hs, ht, hW, fun _ _ => rfl⟩
  | cons st sts ih =>
    obtain ⟨a, ha, hra⟩ := hrun
    obtain ⟨b, hb, hrb⟩ := hrun'
    obtain ⟨hr1, hr2⟩ := hready
    have hst0 := hst st List.mem_cons_self
    have hdir : ∀ k, (defs st.sys).prog.unknown m k → (defs st.sys).prog.prescribed m k → newDir m V st (W st.sys) k = newDir m V st (W' st.sys) k := by
      intro k hk hp
      rcases hr1 with hl | hset
      · exact fold_congr _ (hW _ hl k hk hp)
      · exact newDir_sets hm hone ho hst0 hset hk hp _ _
    obtain ⟨V1, h1, h2⟩ := step_agree hm hmf (outcome_spread hm hone hfill ho) ho' hfit hfit' hst0 hs ht hdir ha hb
    obtain ⟨V2, W2, W2', e1, e2, e3, e4⟩ := ih (fun st h => hst st (List.mem_cons_of_mem _ h)) hr2 h1 h2 (by
      intro i hi k hk hp
      by_cases his : i = st.sys
      · subst his
        rw [Function.update_self, Function.update_self]; exact hdir k hk hp
      · rw [Function.update_of_ne his, Function.update_of_ne his]
        exact hW i (hi.resolve_right his) k hk hp) hra hrb
    refine ⟨V2, W2, W2', e1, e2, fun i hi => e3 i (Or.inl hi), fun i hi => ?_⟩
    rw [e4 i fun st' hst' => hi st' (List.mem_cons_of_mem _ hst'), Function.update_of_ne (hi st List.mem_cons_self).symm]

theorem run_split {u : Bool} {A B : List Step} {s s2 : State} (h : Run u defs kinds bnds parts (A ++ B) s s2) :
    ∃ s1, Run u defs kinds bnds parts A s s1 ∧ Run u defs kinds bnds parts B s1 s2 := by
  induction A generalizing s with
  | nil => exact ⟨s, rfl, h⟩
  | cons st A ih =>
    obtain ⟨a, ha, h⟩ := h
    obtain ⟨s1, h1, h2⟩ := ih h
    exact ⟨s1, ⟨a, ha, h1⟩, h2⟩

theorem ready_mono {live live' : Nat → Prop} (hl : ∀ i, live i → live' i) {sts : List Step} (h : Ready defs m live sts) : Ready defs m live' sts := by
  induction sts generalizing live live' with
  | nil => trivial
  | cons st sts ih => exact ⟨h.1.imp (hl _) id, ih (fun i hi => hi.imp (hl i) id) h.2⟩

theorem ready_all (sts : List Step) : Ready defs m (fun _ => True) sts := by
  induction sts with
  | nil => trivial
  | cons st sts ih => exact ⟨Or.inl trivial, ready_mono (fun _ _ => Or.inl trivial) ih⟩

end
end Verif.Resume
