import Verif.CondRace.Lemmas

/-!
# C115: kernels assembled in parallel with static condensation add up
-/
namespace Verif.CondRace
open Verif.Condense Verif.Elem Verif.Mesh

variable {R : Type}

/-- What a local system contributes to a place of its element: the entries whose unknowns belong there. -/
def Task.wanted [AddCommMonoid R] (t : Task R) : Pos → R
  | .diag r c => ((computeInds t.info t.fi).cond.map fun p => ((computeInds t.info t.fi).cond.map fun q =>
      if p.2 = r ∧ q.2 = c then t.mat p.1 q.1 else 0).sum).sum
  | .rhs r i => ((computeInds t.info t.fi).cond.map fun p => if p.2 = r ∧ i < t.nrhs then t.rhs p.1 i else 0).sum
  | .upper r c => ((computeInds t.info t.fi).prim.map fun p => ((computeInds t.info t.fi).cond.map fun q =>
      if p.2 = r ∧ q.2 = c then t.mat p.1 q.1 else 0).sum).sum

/-- What all local systems contribute to a place. -/
def wanted [AddCommMonoid R] (ts : List (Task R)) (c : Cell) : R := (ts.map fun t => if t.id = c.1 then t.wanted c.2 else 0).sum

theorem sum_flatMap [AddCommMonoid R] {α β : Type} (l : List α) (f : α → List β) (g : β → R) :
    ((l.flatMap f).map g).sum = (l.map fun a => ((f a).map g).sum).sum := by
  induction l with
  | nil => simp
  | cons a l ih => simp [ih]

theorem sum_zero [AddCommMonoid R] {α : Type} (l : List α) : (l.map fun _ => (0 : R)).sum = 0 :=
  List.sum_eq_zero (by intro x hx; obtain ⟨_, _, rfl⟩ := List.mem_map.1 hx; rfl)

theorem sum_range_one [AddCommMonoid R] (n i : Nat) (f : Nat → R) : ((List.range n).map fun k => if k = i then f k else 0).sum = if i < n then f i else 0 := by
  induction n with
  | zero => simp
  | succ n ih =>
    rw [List.range_succ, List.map_append, List.sum_append, ih]
    by_cases h : i < n
    · rw [if_pos h, if_pos (by omega)]
      have : n ≠ i := by omega
      simp [this]
    · by_cases h' : n = i
      · subst h'; simp
      · rw [if_neg h, if_neg (by omega)]; simp [h']

theorem contrib_eq [AddCommMonoid R] (t : Task R) (c : Cell) : contrib c t.id t.updates = if t.id = c.1 then t.wanted c.2 else 0 := by
  obtain ⟨id, p⟩ := c
  by_cases h : t.id = id
  · subst h
    rw [if_pos rfl]
    unfold contrib Task.updates
    rw [List.map_append, List.sum_append, sum_flatMap, sum_flatMap]
    cases p with
    | diag r c =>
      simp only [List.map_append, List.sum_append, List.map_map, Function.comp_def, Prod.mk.injEq, true_and, Pos.diag.injEq, reduceCtorEq, if_false, sum_zero, add_zero]
      rfl
    | rhs r i =>
      simp only [List.map_append, List.sum_append, List.map_map, Function.comp_def, Prod.mk.injEq, true_and, Pos.rhs.injEq, reduceCtorEq, if_false, sum_zero, add_zero, zero_add, Task.wanted]
      refine congrArg List.sum (List.map_congr_left fun q _ => ?_)
      by_cases hr : q.2 = r
      · simp only [hr, true_and]
        exact sum_range_one t.nrhs i fun k => t.rhs q.1 k
      · simp only [hr, false_and, if_false, sum_zero]
    | upper r c =>
      simp only [List.map_append, List.sum_append, List.map_map, Function.comp_def, Prod.mk.injEq, true_and, Pos.upper.injEq, reduceCtorEq, if_false, sum_zero, add_zero, zero_add, Task.wanted]
  · rw [if_neg h]
    unfold contrib
    refine List.sum_eq_zero fun x hx => ?_
    obtain ⟨u, _, rfl⟩ := List.mem_map.1 hx
    rw [if_neg fun e => h (Prod.mk.inj e).1]

theorem wanted_append [AddCommMonoid R] (ts ts' : List (Task R)) (c : Cell) : wanted (ts ++ ts') c = wanted ts c + wanted ts' c := by
  simp [wanted]

/-- **C115** (no element twice in one call).  `assembleProblem` called any number of times, each call processing its elements in
parallel and none of them twice: whatever the interleaving, every block holds the sum of all local systems. -/
theorem C115_assembly_partial [AddCommMonoid R] {calls : List (List (Task R))} (hd : ∀ ts ∈ calls, (ts.map (·.id)).Nodup) {μ μ' : Cell → R}
    (h : Assembly calls μ μ') (c : Cell) : μ' c = μ c + wanted calls.flatten c := by
  induction h with
  | nil μ => simp [wanted]
  | cons ts rest μ μ' μ'' h _ ih =>
    rw [ih fun ts hts => hd ts (List.mem_cons_of_mem _ hts), loop_sum (hd ts List.mem_cons_self) h, List.flatten_cons, wanted_append, add_assoc]
    simp only [contrib_eq]
    rfl

/-- **C115, domain kernels.**  On every mesh, for every schedule of the parallel loop over the elements of different domains: each
block gains the sum of the local systems. -/
theorem C115_domain_kernels [AddCommMonoid R] {kinds : List (ElType × Nat)} {m : DomMap} {bnds : List Nat} {D : Nat} (hm : Partition.MeshOk kinds m bnds D)
    {doms : List Nat} (hd : doms.Nodup) (s : Setting) (sys : Element → (Nat → Nat → R) × (Nat → Nat → R)) {μ μ' : Cell → R}
    (h : Loop (s.domainLoop m doms sys) μ μ') (c : Cell) : μ' c = μ c + wanted (s.domainLoop m doms sys) c := by
  have hn : ((s.domainLoop m doms sys).map (·.id)).Nodup := by
    have := ids_nodup hm hd
    unfold Setting.domainLoop
    rw [List.map_map]
    exact this
  rw [loop_sum hn h]
  simp only [contrib_eq]
  rfl

/-- Every element has at most one side on the boundaries. -/
def OneSideEach (m : DomMap) (bnds : List Nat) : Prop := (((visitIds m bnds).filterMap (viewOf m)).map fun v => v.1.id).Nodup

/-- **C115, boundary kernels** (if no element has two sides on the boundaries of the kernel). -/
theorem C115_boundary_partial [AddCommMonoid R] {m : DomMap} {bnds : List Nat} (h1 : OneSideEach m bnds) (s : Setting)
    (sys : Element × Nat → (Nat → Nat → R) × (Nat → Nat → R)) {μ μ' : Cell → R}
    (h : Loop (s.boundaryLoop m bnds sys) μ μ') (c : Cell) : μ' c = μ c + wanted (s.boundaryLoop m bnds sys) c := by
  have hn : ((s.boundaryLoop m bnds sys).map (·.id)).Nodup := by
    unfold Setting.boundaryLoop
    rw [List.map_map]
    exact h1
  rw [loop_sum hn h]
  simp only [contrib_eq]
  rfl

/-- **C115, data races.**  In one call there is a data race exactly if two of its tasks are for one element with condensed unknowns of
the kernel. -/
theorem C115_races_iff {ts : List (Task R)} (hs : ∀ t ∈ ts, ∀ t' ∈ ts, t.id = t'.id → t.info = t'.info ∧ t.fi = t'.fi) :
    Races ts ↔ ∃ i j : Nat, i ≠ j ∧ ∃ t t' : Task R, ts[i]? = some t ∧ ts[j]? = some t' ∧ t.id = t'.id ∧ (computeInds t.info t.fi).cond ≠ [] := by
  constructor
  · rintro ⟨i, j, hij, t, t', ht, ht', hid, p, hp, _⟩
    refine ⟨i, j, hij, t, t', ht, ht', hid, fun hc => ?_⟩
    have : t.updates = [] := by
      unfold Task.updates
      rw [hc]
      simp
    rw [this] at hp
    cases hp
  · rintro ⟨i, j, hij, t, t', ht, ht', hid, hc⟩
    obtain ⟨hi, hf⟩ := hs t (List.mem_of_getElem? ht) t' (List.mem_of_getElem? ht') hid
    obtain ⟨p, hp⟩ := List.exists_mem_of_ne_nil _ hc
    have key : ∀ u : Task R, p ∈ (computeInds u.info u.fi).cond → Pos.diag p.2 p.2 ∈ u.updates.map (·.1) := by
      intro u hu
      refine List.mem_map.2 ⟨(Pos.diag p.2 p.2, u.mat p.1 p.1), ?_, rfl⟩
      unfold Task.updates
      exact List.mem_append_left _ (List.mem_flatMap.2 ⟨p, hu, List.mem_append_left _ (List.mem_map.2 ⟨p, hu, rfl⟩)⟩)
    refine ⟨i, j, hij, t, t', ht, ht', hid, Pos.diag p.2 p.2, key t hp, key t' ?_⟩
    rw [← hi, ← hf]; exact hp

/-- Full statement for boundary kernels: on every mesh, whatever the schedule, the local systems of all sides are added. -/
def C115Statement : Prop :=
  ∀ (kinds : List (ElType × Nat)) (m : DomMap) (bnds : List Nat) (D : Nat), Partition.MeshOk kinds m bnds D →
    ∀ (s : Setting) (sys : Element × Nat → (Nat → Nat → Int) × (Nat → Nat → Int)) (μ μ' : Cell → Int),
    Loop (s.boundaryLoop m bnds sys) μ μ' → ∀ c, μ' c = μ c + wanted (s.boundaryLoop m bnds sys) c

/-- One quadrilateral with nine nodes; boundary 7 are its sides at the bottom and at the left. -/
def corner : DomMap :=
  [(0, ⟨some 2, [[⟨.quad, 3, 0, [0, 1, 2, 3, 4, 5, 6, 7, 8]⟩], []]⟩), (7, ⟨some 1, [[], [⟨.line, 3, 1, [0, 1, 2]⟩, ⟨.line, 3, 2, [0, 3, 6]⟩]]⟩)]

/-- Quadrilaterals and lines with three nodes per direction. -/
def kinds3 : List (ElType × Nat) := [(.quad, 3), (.line, 3)]

theorem corner_ok : Partition.MeshOk kinds3 corner [7] 1 :=
  Partition.meshOk_of_all (Partition.wf_of_all (by decide) (by simp [OMap.Sorted, corner]) (by decide)) (by decide) (by decide) (by decide) (by decide)
    (by decide +kernel)

/-- One component, everywhere valid. -/
def oneField : Setting := ⟨1, fun _ _ => true, [0], 1⟩

/-- The local system of each side: 1 in the diagonal entry of the node in the middle. -/
def middle (_ : Element × Nat) : (Nat → Nat → Int) × (Nat → Nat → Int) := (fun i j => if i = 4 ∧ j = 4 then 1 else 0, fun _ _ => 0)

theorem corner_tasks : (visitIds corner [7]).filterMap (viewOf corner) =
    [(⟨.quad, 3, 0, [0, 1, 2, 3, 4, 5, 6, 7, 8]⟩, 0), (⟨.quad, 3, 0, [0, 1, 2, 3, 4, 5, 6, 7, 8]⟩, 2)] := by decide +kernel

/-- The call for either side. -/
def cornerTask : Task Int := oneField.task ⟨.quad, 3, 0, [0, 1, 2, 3, 4, 5, 6, 7, 8]⟩ (middle (⟨.quad, 3, 0, [0, 1, 2, 3, 4, 5, 6, 7, 8]⟩, 0))

theorem corner_loop : oneField.boundaryLoop corner [7] middle = [cornerTask, cornerTask] := by
  unfold Setting.boundaryLoop
  rw [corner_tasks]
  rfl

theorem corner_updates : cornerTask.updates = (Pos.diag 0 0, 1) :: (Pos.rhs 0 0, 0) :: (List.range 8).map fun r => (Pos.upper r 0, 0) := by
  decide +kernel

/-- The second task runs between the load and the store of the first addition of the first task. -/
def lostUpdate : List (Nat × Act Int) := (0, .load (0, .diag 0 0)) :: (cornerTask.code 1 ++ (cornerTask.code 0).tail)

theorem lostUpdate_interleaves : Interleaves (codes 0 [cornerTask, cornerTask]) lostUpdate := by
  have h : cornerTask.code 0 = (0, .load (0, .diag 0 0)) :: (cornerTask.code 0).tail := by
    unfold Task.code
    rw [corner_updates]
    rfl
  change Interleaves [cornerTask.code 0, cornerTask.code 1] lostUpdate
  rw [h]
  exact Interleaves.step [] _ _ _ _ (interleaves_two _ _)

theorem lostUpdate_run : (run (⟨fun _ => 0, fun _ => 0⟩ : State Int) lostUpdate).mem (0, .diag 0 0) = 1 := by
  unfold lostUpdate Task.code
  rw [corner_updates]
  decide +kernel

/-- **C115, violated.**  A corner element has two sides on the boundary; the diagonal entry gets 1 from one side and 1 from the other,
and holds 1 in the end. -/
theorem C115_violated : ¬ C115Statement := by
  intro h
  have := h kinds3 corner [7] 1 corner_ok oneField middle (fun _ => 0) _ ⟨fun _ => 0, lostUpdate, by rw [corner_loop]; exact lostUpdate_interleaves, rfl⟩ (0, .diag 0 0)
  rw [lostUpdate_run, corner_loop] at this
  revert this
  decide +kernel

/-- The two sides of the corner element race. -/
theorem C115_corner_races : Races (oneField.boundaryLoop corner [7] middle) := by
  rw [corner_loop]
  refine (C115_races_iff ?_).2 ⟨0, 1, by decide, cornerTask, cornerTask, rfl, rfl, rfl, by decide +kernel⟩
  intro t ht t' ht' _
  simp only [List.mem_cons, List.not_mem_nil, or_false, or_self] at ht ht'
  subst ht; subst ht'
  exact ⟨rfl, rfl⟩

/-- Hypotheses of `C115_domain_kernels`, `C115_assembly_partial`: the same quadrilateral, two domain kernels one after the other; the
diagonal entry becomes 2. -/
example : ∃ μ' : Cell → Int, Assembly [oneField.domainLoop corner [0] fun e => middle (e, 0), oneField.domainLoop corner [0] fun e => middle (e, 0)] (fun _ => 0) μ' ∧
    μ' (0, .diag 0 0) = 2 := by
  have hn : ((oneField.domainLoop corner [0] fun e => middle (e, 0)).map (·.id)).Nodup := by decide +kernel
  refine ⟨_, .cons _ _ _ _ _ ⟨fun _ => 0, _, interleaves_flatten _, rfl⟩ (.cons _ _ _ _ _ ⟨fun _ => 0, _, interleaves_flatten _, rfl⟩ (.nil _)), ?_⟩
  rw [C115_assembly_partial (calls := [oneField.domainLoop corner [0] fun e => middle (e, 0), oneField.domainLoop corner [0] fun e => middle (e, 0)])
    (by simpa using hn) (.cons _ _ _ _ _ ⟨fun _ => 0, _, interleaves_flatten _, rfl⟩ (.cons _ _ _ _ _ ⟨fun _ => 0, _, interleaves_flatten _, rfl⟩ (.nil _)))]
  decide +kernel

/-- Hypotheses of `C115_domain_kernels`. -/
example : Partition.MeshOk kinds3 corner [7] 1 ∧ [0].Nodup ∧ ∃ μ' : Cell → Int, Loop (oneField.domainLoop corner [0] fun e => middle (e, 0)) (fun _ => 0) μ' :=
  ⟨corner_ok, by decide, _, fun _ => 0, _, interleaves_flatten _, rfl⟩

/-- The quadrilateral with only its bottom side on the boundary. -/
def bottom : DomMap :=
  [(0, ⟨some 2, [[⟨.quad, 3, 0, [0, 1, 2, 3, 4, 5, 6, 7, 8]⟩], []]⟩), (7, ⟨some 1, [[], [⟨.line, 3, 1, [0, 1, 2]⟩]]⟩)]

/-- Hypotheses of `C115_boundary_partial`; the diagonal entry becomes 1. -/
example : OneSideEach bottom [7] ∧ wanted (oneField.boundaryLoop bottom [7] middle) (0, .diag 0 0) = 1 := by
  constructor
  · unfold OneSideEach; decide +kernel
  · decide +kernel

/-- Without condensed unknowns (nodes at the corners only) there is no race although two sides are processed. -/
example : ¬ Races [oneField.task ⟨.quad, 2, 0, [0, 1, 2, 3]⟩ (middle (⟨.quad, 2, 0, [0, 1, 2, 3]⟩, 0)), oneField.task ⟨.quad, 2, 0, [0, 1, 2, 3]⟩ (middle (⟨.quad, 2, 0, [0, 1, 2, 3]⟩, 2))] := by
  rintro ⟨i, j, hij, t, t', ht, ht', hid, p, hp, _⟩
  have hm := List.mem_of_getElem? ht
  simp only [List.mem_cons, List.not_mem_nil, or_false] at hm
  have h0 : ∀ v, (oneField.task ⟨.quad, 2, 0, [0, 1, 2, 3]⟩ (middle v)).updates = [] := by
    intro v
    show (oneField.task ⟨.quad, 2, 0, [0, 1, 2, 3]⟩ (middle (⟨.quad, 2, 0, []⟩, 0))).updates = []
    decide +kernel
  rcases hm with rfl | rfl <;> (rw [h0] at hp; cases hp)

end Verif.CondRace
