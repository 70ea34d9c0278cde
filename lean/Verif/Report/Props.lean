import Verif.Report.Lemmas
import Mathlib.Analysis.SpecialFunctions.Pow.Real

/-! # C114: what is computed from the solution does not depend on how the mesh is distributed -/
namespace Verif.Report
open Verif Verif.Distr Verif.Elem Verif.Mesh Verif.Dofs Verif.Fields Verif.SolUpd Verif.Pipeline Verif.Partition Verif.Split Verif.Lsq

noncomputable section

/-- `y` may be returned by `computeIntegral` (over the groups `G` of the parts) after the systems of all right-hand sides were solved, and `updateSolution` was
called on all ranks. -/
def Reports (G : Query → Sol ℝ → DomMap → Integral.Groups (Integral.El ℝ)) (p : Prog) (q : Query) (parts : List Part) (els : Nat → List LElem)
    (vals : Nat → Nat → Nat → ℝ) (v : Nat → Nat → ℝ) (y : Nat → ℝ) : Prop :=
  ∃ (x : Nat → Nat → ℝ) (s s' : Nat → Sol ℝ), (∀ c < q.nRhs, Solution p parts els vals v c fun g => x g c) ∧
    (∀ r < parts.length, Manager (sysOf p q parts r) (s r) ∧ Updated p q parts x r (s r) (s' r)) ∧
    Integral.Integral q.nEq q.dim ((List.range parts.length).map fun r => G q (s' r) (part parts r).doms) q.ids y

/-- The systems of all right-hand sides have at most one solution. -/
def UniqueSolution (p : Prog) (q : Query) (parts : List Part) (els : Nat → List LElem) (vals : Nat → Nat → Nat → ℝ) (v : Nat → Nat → ℝ) : Prop :=
  ∀ c < q.nRhs, ∀ x y, Solution p parts els vals v c x → Solution p parts els vals v c y → ∀ g < (p.setup parts).total, x g = y g

variable {kinds : List (ElType × Nat)} {m : DomMap} {bnds : List Nat} {D : Nat} {p : Prog} {nParts nParts' : Nat} {parts parts' : List Part} {f f' : Nat → Nat}
  {els els' : Nat → List LElem} {vals vals' : Nat → Nat → Nat → ℝ} {v v' : Nat → Nat → ℝ}

/-- The values at the nodes agree. -/
theorem value_agree (hm : MeshOk kinds m bnds D) (hone : OneSided m bnds) (huni : UniqueParent m bnds) (hp : p.Ok m bnds)
    (ho : Outcome Monotone kinds m bnds nParts parts f) (ho' : Outcome Monotone kinds m bnds nParts' parts' f')
    (hels : ∀ r, (els r).Perm (p.rankElems parts r)) (hels' : ∀ r, (els' r).Perm (p.rankElems parts' r))
    (hv : p.Values m parts f v) (hv' : p.Values m parts' f' v') {q : Query} (hu : UniqueSolution p q parts els vals v) {x x' : Nat → Nat → ℝ}
    (hx : ∀ c < q.nRhs, Solution p parts els vals v c fun g => x g c) (hx' : ∀ c < q.nRhs, Solution p parts' els' vals' v' c fun g => x' g c)
    {n fl : Nat} (hk : p.unknown m (n, comp q fl)) (hr : rhs q fl < q.nRhs) : valueOf p q parts f x n fl = valueOf p q parts' f' x' n fl :=
  (C113_reordered_partial hm hone huni hp ho ho' hels hels' vals vals' hv hv' (rhs q fl)).2.2 (hu _ hr) _ _ (hx _ hr) (hx' _ hr) _ hk

theorem canon_congr {q : Query} {V V' : Nat → Nat → ℝ} {e : Element} (side : Nat) (h : ∀ n ∈ e.nodes, ∀ fl ∈ q.reads, V n fl = V' n fl) :
    canon q V e side = canon q V' e side := by
  unfold canon
  have : (e.nodes.map fun n => q.reads.map fun fl => Out.ok (V n fl)) = e.nodes.map fun n => q.reads.map fun fl => Out.ok (V' n fl) :=
    List.map_congr_left fun n hn => List.map_congr_left fun fl hfl => by rw [h n hn fl hfl]
  rw [this]

/-- No rank at all does not happen. -/
theorem nParts_pos (ho : Outcome Monotone kinds m bnds nParts parts f) (hm : MeshOk kinds m bnds D) (hone : OneSided m bnds) {k : Nat} {e : Element} (he : InDom m k e) :
    0 < parts.length := by
  obtain ⟨N, maps, R⟩ := outcome_result hm hone ho
  obtain ⟨i, ⟨m', hm', _⟩, _⟩ := R.uniq k e he
  rw [R.plen, ← R.len]
  exact Nat.lt_of_le_of_lt (Nat.zero_le i) (List.getElem?_eq_some_iff.1 hm').1

/-- **C114** (domains).  Solve on any two distributions of one mesh, copy the solution into fields by `updateSolution` (of an assembled or a matrix-free
system, stores in any order) and integrate any kernel which reads them over any domains, on which the copied components are active.  If the solution is unique, both programs report the same
numbers. -/
theorem C114_integral (hm : MeshOk kinds m bnds D) (hone : OneSided m bnds) (huni : UniqueParent m bnds) (hp : p.Ok m bnds)
    (ho : Outcome Monotone kinds m bnds nParts parts f) (ho' : Outcome Monotone kinds m bnds nParts' parts' f')
    (hels : ∀ r, (els r).Perm (p.rankElems parts r)) (hels' : ∀ r, (els' r).Perm (p.rankElems parts' r))
    (hv : p.Values m parts f v) (hv' : p.Values m parts' f' v') {q : Query} (hq : q.Ok p m) (hu : UniqueSolution p q parts els vals v) {y y' : Nat → ℝ}
    (hy : Reports domGroups p q parts els vals v y) (hy' : Reports domGroups p q parts' els' vals' v' y') : y = y' := by
  obtain ⟨N, maps, R⟩ := outcome_result hm hone ho
  obtain ⟨N', maps', R'⟩ := outcome_result hm hone ho'
  obtain ⟨x, s, s', hx, hs, hy⟩ := hy
  obtain ⟨x', t, t', hx', ht, hy'⟩ := hy'
  have h1 := dom_perm hm hp R huni hq fun r hr => hs r (by rw [R.plen]; exact hr)
  have h2 := dom_perm hm hp R' huni hq fun r hr => ht r (by rw [R'.plen]; exact hr)
  rw [← R.plen] at h1
  rw [← R'.plen] at h2
  refine Integral.C62_distribution _ _ _ _ _ _ _ hy hy' (h1.trans (List.Perm.trans ?_ h2.symm))
  refine List.Perm.of_eq (List.map_congr_left fun e he => canon_congr 0 fun n hn fl hfl => ?_)
  obtain ⟨k, hk, hin⟩ := mem_visitIds.1 he
  obtain ⟨d, hd, hkd, hsub⟩ := hq.active k hk
  obtain ⟨_, g2, _, g4⟩ := field_index (updated_len (hs 0 (nParts_pos ho hm hone hin)).2) (hq.reads hfl)
  exact value_agree hm hone huni hp ho ho' hels hels' hv hv' hu hx hx' ⟨d, hd, hsub g4, e, mem_visitIds.2 ⟨k, hkd, hin⟩, hn⟩ g2

/-- **C114** (boundaries).  The same for integrals over boundaries. -/
theorem C114_boundary (hm : MeshOk kinds m bnds D) (hone : OneSided m bnds) (huni : UniqueParent m bnds) (hp : p.Ok m bnds)
    (ho : Outcome Monotone kinds m bnds nParts parts f) (ho' : Outcome Monotone kinds m bnds nParts' parts' f')
    (hels : ∀ r, (els r).Perm (p.rankElems parts r)) (hels' : ∀ r, (els' r).Perm (p.rankElems parts' r))
    (hv : p.Values m parts f v) (hv' : p.Values m parts' f' v') {q : Query} (hq : q.BndOk p m bnds) (hu : UniqueSolution p q parts els vals v) {y y' : Nat → ℝ}
    (hy : Reports bndGroups p q parts els vals v y) (hy' : Reports bndGroups p q parts' els' vals' v' y') : y = y' := by
  obtain ⟨N, maps, R⟩ := outcome_result hm hone ho
  obtain ⟨N', maps', R'⟩ := outcome_result hm hone ho'
  obtain ⟨x, s, s', hx, hs, hy⟩ := hy
  obtain ⟨x', t, t', hx', ht, hy'⟩ := hy'
  have h1 := bnd_perm hm hp R huni hq fun r hr => hs r (by rw [R.plen]; exact hr)
  have h2 := bnd_perm hm hp R' huni hq fun r hr => ht r (by rw [R'.plen]; exact hr)
  rw [← R.plen] at h1
  rw [← R'.plen] at h2
  refine Integral.C62_distribution _ _ _ _ _ _ _ hy hy' (h1.trans (List.Perm.trans ?_ h2.symm))
  refine List.Perm.of_eq (List.map_congr_left fun w hw => canon_congr w.2 fun n hn fl hfl => ?_)
  obtain ⟨z, hz, hvw⟩ := List.mem_filterMap.1 hw
  obtain ⟨b, hb, hin⟩ := mem_visitIds.1 hz
  obtain ⟨k, hk⟩ := isParent_inDom R.keys (viewOf_some (e := w.1) (s := w.2) R.keys hvw)
  obtain ⟨d, hd, hkd, hsub⟩ := hq.active b hb z hin w.1 w.2 hvw k hk
  obtain ⟨_, g2, _, g4⟩ := field_index (updated_len (hs 0 (nParts_pos ho hm hone hin)).2) (hq.reads hfl)
  exact value_agree hm hone huni hp ho ho' hels hels' hv hv' hu hx hx' ⟨d, hd, hsub g4, w.1, mem_visitIds.2 ⟨k, hkd, hk⟩, hn⟩ g2

/-- **C114** (no undefined reads).  Whatever a kernel integrated over such domains reads on any rank is the value of the solution there: defined, and that of the
component and right-hand side the field was filled from. -/
theorem C114_reads (hm : MeshOk kinds m bnds D) (hone : OneSided m bnds) (huni : UniqueParent m bnds) (hp : p.Ok m bnds)
    (ho : Outcome Monotone kinds m bnds nParts parts f) {q : Query} (hq : q.Ok p m) {x : Nat → Nat → ℝ} {r : Nat} (hr : r < parts.length) {s s' : Sol ℝ}
    (hs : Manager (sysOf p q parts r) s) (hup : Updated p q parts x r s s') {k : Nat} (hk : k ∈ q.ids) {e : Element} (he : InDom (part parts r).doms k e) {n : Nat} (hn : n ∈ e.nodes)
    {i c : Nat} (hi : i < q.src.length) (hc : c < q.nRhs) (hfl : q.dst.getD (i * q.nRhs + c) 0 ∈ q.reads) :
    accessRead s' (q.dst.getD (i * q.nRhs + c) 0) (s'.own.getLocal n) = .ok (x (p.dof parts (n, q.src.getD i 0)) c) := by
  obtain ⟨N, maps, R⟩ := outcome_result hm hone ho
  rw [R.plen] at hr
  have he' : e ∈ visitIds (part parts r).doms [k] := mem_visit_single.2 he
  rw [part_doms R, visit_mapDoms] at he'
  obtain ⟨e0, he0, rfl⟩ := List.mem_map.1 he'
  obtain ⟨n0, hn0, rfl⟩ := List.mem_map.1 hn
  have hin := mem_visit_single.1 he0
  obtain ⟨d, hd, hkd, hsub⟩ := hq.active k hk
  have hsrc : q.src.getD i 0 ∈ q.src := by
    rw [List.getD_eq_getElem?_getD, List.getElem?_eq_getElem hi]; exact List.getElem_mem hi
  obtain ⟨g1, g2⟩ := dof_eq hm hp R huni hin hn0 (j := q.src.getD i 0) ⟨d, hd, hsub hsrc, e0, mem_visitIds.2 ⟨k, hkd, (inDom_mapAt R hin).2.2⟩, hn0⟩
  exact updated_value hp R hq.nodup hr hs hup g2 hi hc g1

theorem squared_dom (q : Query) (s : Sol ℝ) (M : DomMap) : Integral.squaredGroups q.nEq (domGroups q s M) = domGroups q.squared s M := by
  unfold Integral.squaredGroups domGroups
  rw [List.map_map]
  refine List.map_congr_left fun d _ => ?_
  simp only [Function.comp_def, List.map_map]
  rfl

/-- `computeNormL2`: the square roots of the integrals of the squares. -/
def ReportsNorm (p : Prog) (q : Query) (parts : List Part) (els : Nat → List LElem) (vals : Nat → Nat → Nat → ℝ) (v : Nat → Nat → ℝ) (z : Nat → ℝ) : Prop :=
  ∃ y, Reports (fun q s M => Integral.squaredGroups q.nEq (domGroups q s M)) p q parts els vals v y ∧ z = fun i => Real.sqrt (y i)

/-- **C114** (norms).  The same for `computeNormL2`. -/
theorem C114_norm (hm : MeshOk kinds m bnds D) (hone : OneSided m bnds) (huni : UniqueParent m bnds) (hp : p.Ok m bnds)
    (ho : Outcome Monotone kinds m bnds nParts parts f) (ho' : Outcome Monotone kinds m bnds nParts' parts' f')
    (hels : ∀ r, (els r).Perm (p.rankElems parts r)) (hels' : ∀ r, (els' r).Perm (p.rankElems parts' r))
    (hv : p.Values m parts f v) (hv' : p.Values m parts' f' v') {q : Query} (hq : q.Ok p m) (hu : UniqueSolution p q parts els vals v) {z z' : Nat → ℝ}
    (hz : ReportsNorm p q parts els vals v z) (hz' : ReportsNorm p q parts' els' vals' v' z') : z = z' := by
  obtain ⟨y, hy, rfl⟩ := hz
  obtain ⟨y', hy', rfl⟩ := hz'
  have hsq : ∀ {parts : List Part} {els : Nat → List LElem} {vals : Nat → Nat → Nat → ℝ} {v : Nat → Nat → ℝ} {y : Nat → ℝ},
      Reports (fun q s M => Integral.squaredGroups q.nEq (domGroups q s M)) p q parts els vals v y → Reports domGroups p q.squared parts els vals v y := by
    rintro parts els vals v y ⟨x, s, s', h1, h2, h3⟩
    refine ⟨x, s, s', h1, fun r hr => ⟨(h2 r hr).1, ?_⟩, ?_⟩
    · cases (h2 r hr).2 with
      | assembled ord ho h => exact .assembled ord ho h
      | matrixFree stale ordI ordB small hI hB h => exact .matrixFree stale ordI ordB small hI hB h
    · simp only [squared_dom] at h3
      exact h3
  have := C114_integral hm hone huni hp ho ho' hels hels' hv hv' (q := q.squared) ⟨hq.nodup, hq.reads, hq.active⟩ hu (hsq hy) (hsq hy')
  rw [this]

/-- **C114** (something is reported).  Given solutions, on any distribution: with valid indices and large enough managers every rank's update succeeds (here of
assembled systems; whatever the order of the stores), and the program reports numbers. -/
theorem C114_defined (hm : MeshOk kinds m bnds D) (hone : OneSided m bnds) (hp : p.Ok m bnds)
    (ho : Outcome Monotone kinds m bnds nParts parts f) {q : Query} (hnd : q.dst.Nodup) (hlen : q.dst.length = q.src.length * q.nRhs) (hsrc : ∀ j ∈ q.src, j < p.dpn)
    {x : Nat → Nat → ℝ} (hx : ∀ c < q.nRhs, Solution p parts els vals v c fun g => x g c) {s : Nat → Sol ℝ}
    (hs : ∀ r < parts.length, Manager (sysOf p q parts r) (s r) ∧ ∀ fl ∈ q.dst, fl < (s r).nFields)
    (G : Query → Sol ℝ → DomMap → Integral.Groups (Integral.El ℝ)) : ∃ y, Reports G p q parts els vals v y := by
  obtain ⟨N, maps, R⟩ := outcome_result hm hone ho
  have hstep : ∀ r, ∃ s', r < parts.length → Updated p q parts x r (s r) s' := by
    intro r
    by_cases hr : r < parts.length
    · have hck : checks (sysOf p q parts r) (s r).nFields q.src q.dst = true := by
        simp only [checks, Bool.and_eq_true, List.all_eq_true, decide_eq_true_eq, beq_iff_eq]
        exact ⟨⟨hlen, hsrc⟩, (hs r hr).2⟩
      have hr' : r < nParts := by rw [← R.plen]; exact hr
      obtain ⟨s', h1, _⟩ := C98_assembled_update (sysOf p q parts r) (node_ok p q R hr') x (localSol p parts x r)
        (fun n hn j d hd c _ => by unfold localSol; rw [(known_dof q hp R hr' hn hd).1]) q.src q.dst hnd (s r) (hs r hr).1 hck _ (List.Perm.refl _)
      exact ⟨s', fun _ => .assembled _ (List.Perm.refl _) h1⟩
    · exact ⟨s r, fun h => absurd h hr⟩
  choose s' hs' using hstep
  exact ⟨_, x, s, s', hx, fun r hr => ⟨(hs r hr).1, hs' r hr⟩, (Integral.integral_eq _ _ _ _ _).2 rfl⟩

/-- The integral of the solution over domain 0 (one-point rule: mean of the values read), or over boundary 7. -/
def exQuery (ids : List Nat) : Query where
  nRhs := 1
  src := [0]
  dst := [2]
  reads := [2]
  nEq := 1
  dim := 2
  ids := ids
  pts := fun _ _ _ _ vals => [⟨4, 1, fun _ => (vals.map fun r => match r with | [.ok a] => a | _ => 0).sum / 4⟩]

/-- Hypotheses of the theorems above: two quadrilaterals on one rank and on two, the mean of the solution over the domain and over the boundary. -/
example : (exQuery [0]).Ok exProg twoQuads.doms ∧ (exQuery [7]).BndOk exProg twoQuads.doms [7] ∧ (exQuery [0]).dst.length = (exQuery [0]).src.length * (exQuery [0]).nRhs ∧
    (∀ j ∈ (exQuery [0]).src, j < exProg.dpn) ∧ Manager (sysOf exProg (exQuery [0]) [⟨twoQuads.doms, ⟨0, 6, []⟩, twoQuads.bnds⟩] 0) (new ⟨0, 6, []⟩ 3 0) := by
  refine ⟨⟨by decide, fun _ h => h, ?_⟩, ⟨by decide, fun _ h => h, fun _ h => h, ?_⟩, rfl, ?_, 3, 0, [], by simp, rfl⟩
  · intro k hk
    exact ⟨([0], [0]), by simp [exProg], hk, fun _ h => h⟩
  · intro b hb x hx e s hv k hk
    obtain ⟨w, hw, _, hin⟩ := twoQuads_views x (mem_visitIds.2 ⟨b, hb, hx⟩)
    obtain rfl : w = (e, s) := Option.some.inj (hw.symm.trans hv)
    have hone : ∀ d ∈ twoQuads.doms, ∀ e ∈ d.2.elems, e ∈ visitIds twoQuads.doms [0] → d.1 = 0 := by decide +kernel
    obtain ⟨d, hd, he⟩ := hk
    obtain rfl := hone _ (Mesh.mem_of_lookup hd) e he hin
    exact ⟨([0], [0]), by simp [exProg], by simp, fun _ h => h⟩
  · intro j hj
    obtain rfl : j = 0 := by simpa [exQuery] using hj
    exact Nat.one_pos

end

end Verif.Report
