import Verif.PerPipe.Run

/-! # C117: with periodic boundaries, too, the solution does not depend on how the mesh is distributed -/
namespace Verif.PerPipe
open Verif Verif.Elem Verif.Mesh Verif.Dofs Verif.Lsq Verif.Distr Verif.Pipeline Verif.Partition Verif.Split

noncomputable section

/-- **C117** (construction).  However the mesh is distributed, and in whatever order hash tables deliver nodes, construction of the periodic
information succeeds, the input of the numbering is consistent, and nodes share their numbers in a component exactly if a chain of
images under the definitions naming it leads from one to the other. -/
theorem C117_identified {kinds : List (ElType × Nat)} {m : DomMap} {bnds : List Nat} {D : Nat} (hm : MeshOk kinds m bnds D) (hone : OneSided m bnds) (huni : UniqueParent m bnds)
    {p : PProg} (hp : p.toProg.Ok m bnds) {pos : Nat → List ℝ} (hx : p.Exact m bnds pos) {nParts : Nat} {parts : List Part} {f : Nat → Nat}
    (hout : Outcome Monotone kinds m bnds nParts parts f) {o : Orders} (ho : o.Ok) {npos : Nat → List ℝ} (hl : Located m pos npos f) :
    ∃ s, p.psetup o npos parts = some s ∧ s.Ok ∧ ∀ j a b, NodeIn m a → NodeIn m b → (s.rep (f a) j = s.rep (f b) j ↔ p.ident m pos j a b) := by
  obtain ⟨N, maps, R⟩ := outcome_result hm hone hout
  obtain ⟨gs, hgs, hper, _⟩ := groups_spec R huni ho hl hx
  exact ⟨(p.toProg.setup parts).withPeriodic (strip gs), by unfold PProg.psetup; rw [hgs]; rfl, C41_consistent (meshOk_setup hp R) hper,
    fun j a b ha hb => rep_iff R huni ho hl hx hgs hper j a b ((R.nodes a).1 ha) ((R.nodes b).1 hb)⟩

/-- **C117** (numbers).  If periodic components are active in all domains, every unknown has a number, all numbers are taken, and two unknowns
have one number exactly if they are the same component at nodes joined by images. -/
theorem C117_numbers_partial {kinds : List (ElType × Nat)} {m : DomMap} {bnds : List Nat} {D : Nat} (hm : MeshOk kinds m bnds D) (hone : OneSided m bnds) (huni : UniqueParent m bnds)
    {p : PProg} (hp : p.toProg.Ok m bnds) {pos : Nat → List ℝ} (hx : p.Exact m bnds pos) (hev : p.Everywhere m bnds) {nParts : Nat} {parts : List Part} {f : Nat → Nat}
    (hout : Outcome Monotone kinds m bnds nParts parts f) {o : Orders} (ho : o.Ok) {npos : Nat → List ℝ} (hl : Located m pos npos f) {s : Setup}
    (hs : p.psetup o npos parts = some s) :
    (∀ k, p.unknown m pos k → s.dofs (s.owner (f k.1)) (f k.1) k.2 = some (dof s (f k.1, k.2)) ∧ dof s (f k.1, k.2) < s.total) ∧
    (∀ g < s.total, ∃ k, p.unknown m pos k ∧ dof s (f k.1, k.2) = g) ∧
    ∀ k k', p.unknown m pos k → p.unknown m pos k' → (dof s (f k.1, k.2) = dof s (f k'.1, k'.2) ↔ k.2 = k'.2 ∧ p.ident m pos k.2 k.1 k'.1) := by
  obtain ⟨N, maps, R⟩ := outcome_result hm hone hout
  obtain ⟨s', hs', hn⟩ := numbered hm hp R huni ho hl hx hev
  obtain rfl : s = s' := Option.some.inj (hs.symm.trans hs')
  obtain ⟨sel, hsel⟩ := order_exists (els := rankElems p.toProg s parts) R huni hp (s := s) fun r => List.Perm.refl _
  have hof := bare_of hm hp R huni hn hsel
  have hP := problem_ok (pos := pos) (p := bare p) (Pipeline.bare_ok hp) R.keys R.nodes
  have hmk := run_marked (maps := maps) (sel := sel) (els := rankElems p.toProg s parts) (bare_numbered hn) (fun _ _ _ => 0) fun _ _ => 0
  have hr := run_represents hP hof hmk
  have hu : ∀ k, ((bare p).problem m pos N).toProblem.used k ↔ p.unknown m pos k := fun k => unknown_iff (p := bare p) (Pipeline.bare_ok hp) R.nodes k
  refine ⟨fun k hk => ⟨used_num hP hof hmk ((hu k).2 hk), hr.lt k ((hu k).2 hk)⟩, fun g hg => ?_, fun k k' hk hk' => hr.inj k k' ((hu k).2 hk) ((hu k').2 hk')⟩
  obtain ⟨k, hk, he⟩ := hr.surj g hg
  exact ⟨k, (hu k).1 hk, he⟩

/-- **C117**.  Distribute one mesh with periodic boundaries in any two ways: on one rank, or cut with whatever labels the partitioner returns (ranks
exchanged if ghosts keep their order); match nodes in whatever order they come, assemble elements in any order.  If periodic components are active in all
domains, construction succeeds, the systems have the same number of unknowns; every solution of one is, unknown by unknown, a solution of the
other; and if one has at most one solution, every component at every node gets the same value in both. -/
theorem C117_same_answer_partial {kinds : List (ElType × Nat)} {m : DomMap} {bnds : List Nat} {D : Nat} (hm : MeshOk kinds m bnds D) (hone : OneSided m bnds) (huni : UniqueParent m bnds)
    {p : PProg} (hp : p.toProg.Ok m bnds) {pos : Nat → List ℝ} (hx : p.Exact m bnds pos) (hev : p.Everywhere m bnds)
    {nParts nParts' : Nat} {parts parts' : List Part} {f f' : Nat → Nat}
    (hout : Outcome Monotone kinds m bnds nParts parts f) (hout' : Outcome Monotone kinds m bnds nParts' parts' f')
    {o o' : Orders} (ho : o.Ok) (ho' : o'.Ok) {npos npos' : Nat → List ℝ} (hl : Located m pos npos f) (hl' : Located m pos npos' f') :
    ∃ s s', p.psetup o npos parts = some s ∧ p.psetup o' npos' parts' = some s' ∧ s.total = s'.total ∧
      ∀ els els' : Nat → List LElem, (∀ r, (els r).Perm (rankElems p.toProg s parts r)) → (∀ r, (els' r).Perm (rankElems p.toProg s' parts' r)) →
      ∀ (vals vals' : Nat → Nat → Nat → ℝ) (v v' : Nat → Nat → ℝ), p.Values m pos s f v → p.Values m pos s' f' v' → ∀ c,
      (∀ x, Solution p.toProg s parts els vals v c x → ∃ x', Solution p.toProg s' parts' els' vals' v' c x' ∧
        ∀ k, p.unknown m pos k → x (dof s (f k.1, k.2)) = x' (dof s' (f' k.1, k.2))) ∧
      ((∀ x y, Solution p.toProg s parts els vals v c x → Solution p.toProg s parts els vals v c y → ∀ g < s.total, x g = y g) →
        ∀ x x', Solution p.toProg s parts els vals v c x → Solution p.toProg s' parts' els' vals' v' c x' →
          ∀ k, p.unknown m pos k → x (dof s (f k.1, k.2)) = x' (dof s' (f' k.1, k.2))) := by
  classical
  obtain ⟨N, maps, R⟩ := outcome_result hm hone hout
  obtain ⟨N', maps', R'⟩ := outcome_result hm hone hout'
  have hNN : N = N' := by
    have h : ∀ x, x < N ↔ x < N' := fun x => (R.nodes x).symm.trans (R'.nodes x)
    have h1 := h N
    have h2 := h N'
    omega
  subst hNN
  obtain ⟨s, hs, hn⟩ := numbered hm hp R huni ho hl hx hev
  obtain ⟨s', hs', hn'⟩ := numbered hm hp R' huni ho' hl' hx hev
  refine ⟨s, s', hs, hs', ?_, ?_⟩
  · obtain ⟨sel, hsel⟩ := order_exists (els := rankElems p.toProg s parts) R huni hp (s := s) fun r => List.Perm.refl _
    obtain ⟨sel', hsel'⟩ := order_exists (els := rankElems p.toProg s' parts') R' huni hp (s := s') fun r => List.Perm.refl _
    have h1 := bare_of hm hp R huni hn hsel
    have h2 := bare_of hm hp R' huni hn' hsel'
    exact (C112_runs_partial (problem_ok (p := bare p) (Pipeline.bare_ok hp) R.keys R.nodes) h1 h2 (run_marked (bare_numbered hn) _ _) (run_marked (bare_numbered hn') _ _) 0).1
  · intro els els' hels hels' vals vals' v v' hv hv' c
    obtain ⟨sel, hsel⟩ := order_exists R huni hp (s := s) hels
    obtain ⟨sel', hsel'⟩ := order_exists R' huni hp (s := s') hels'
    have h1 := outcome_represents hm hp R huni hn hsel vals hv
    have h2 := outcome_represents hm hp R' huni hn' hsel' vals' hv'
    obtain ⟨_, t2, t3⟩ := C112_runs_partial (problem_ok hp R.keys R.nodes) h1 h2 (run_marked hn vals v) (run_marked hn' vals' v') c
    refine ⟨?_, ?_⟩
    · intro x hxs
      obtain ⟨x', hx', he⟩ := t2 x ((solution_iff hm hp R huni hn hsel vals v c x).1 hxs)
      exact ⟨x', (solution_iff hm hp R' huni hn' hsel' vals' v' c x').2 hx', fun k hk => he k ((unknown_iff hp R.nodes k).2 hk)⟩
    · intro hu x x' hxs hxs' k hk
      exact t3 (fun x y hx hy => hu x y ((solution_iff hm hp R huni hn hsel vals v c x).2 hx) ((solution_iff hm hp R huni hn hsel vals v c y).2 hy)) x x'
        ((solution_iff hm hp R huni hn hsel vals v c x).1 hxs) ((solution_iff hm hp R' huni hn' hsel' vals' v' c x').1 hxs') k ((unknown_iff hp R.nodes k).2 hk)

/-- Full statement, for the numbers alone: every unknown has one, without the condition that periodic components are active in all domains. -/
def C117Statement : Prop :=
  ∀ (kinds : List (ElType × Nat)) (m : DomMap) (bnds : List Nat) (D : Nat), MeshOk kinds m bnds D → OneSided m bnds → UniqueParent m bnds → ∀ p : PProg, p.toProg.Ok m bnds →
    ∀ pos, p.Exact m bnds pos → ∀ nParts parts f, Outcome NoReorder kinds m bnds nParts parts f → ∀ o : Orders, o.Ok → ∀ npos, Located m pos npos f →
    ∀ s, p.psetup o npos parts = some s → ∀ k, p.unknown m pos k → (s.dofs (s.owner (f k.1)) (f k.1) k.2).isSome = true

/-! ### Three quadrilaterals, the left and right sides of the lower two joined -/

/-- Nodes 0 1 4 / 2 3 5 / 6 7 from below: quadrilaterals left and above right (domain 1) and right (domain 2); boundary 3 on the left, 4 on the right. -/
def exMesh : DomMap :=
  [(1, ⟨some 2, [[], [⟨.quad, 2, 0, [0, 1, 2, 3]⟩, ⟨.quad, 2, 2, [3, 5, 6, 7]⟩], []]⟩), (2, ⟨some 2, [[], [⟨.quad, 2, 1, [1, 4, 3, 5]⟩], []]⟩),
   (3, ⟨some 1, [[], [], [⟨.line, 2, 3, [0, 2]⟩]]⟩), (4, ⟨some 1, [[], [], [⟨.line, 2, 4, [4, 5]⟩]]⟩)]

/-- Where the nodes are. -/
def exPos (x : Nat) : List ℝ := [([0, 1, 0, 1, 2, 2, 1, 2].getD x 0 : Nat), ([0, 0, 1, 1, 0, 1, 2, 2].getD x 0 : Nat), 0]

/-- One component, active in the domains `doms`; left and right sides joined. -/
def exProg (doms : List Nat) : PProg where
  dpn := 1
  pdef := [(doms, [0])]
  kernels := []
  bkernels := []
  dirichlet := []
  val := fun _ _ => 0
  defs := [(toLex ([3], toLex ([4], [2, 0, 0])), [0])]
  tol := 1 / 2
  consts := ⟨10 ^ 300, 1 / 10 ^ 300, 1 / 10 ^ 10, 1 / 10 ^ 10⟩
  junk := fun _ => 0

theorem exMesh_ok : MeshOk lineKinds exMesh [3, 4] 1 :=
  meshOk_of_all (wf_of_all (by decide) (by simp [OMap.Sorted, exMesh]) (by decide)) (by decide) (by decide) (by decide) (by decide) (by decide +kernel)

theorem exMesh_one : OneSided exMesh [3, 4] := oneSided_of_all exMesh_ok.wf (by decide +kernel)

theorem exMesh_nodes (x : Nat) : NodeIn exMesh x ↔ x < 8 := nodes_of_all (N := 8) (by decide) (by decide) x

theorem exMesh_unique : UniqueParent exMesh [3, 4] := by
  have h : ∀ x ∈ visitIds exMesh [3, 4], ∀ d ∈ exMesh, ∀ e ∈ d.2.elems, ∀ s < nSides e, (∃ l, sideNodes e s = some l ∧ l.Perm x.nodes) →
      ∀ d' ∈ exMesh, ∀ e' ∈ d'.2.elems, ∀ s' < nSides e', (∃ l, sideNodes e' s' = some l ∧ l.Perm x.nodes) → e = e' ∧ s = s' := by decide +kernel
  have lt : ∀ {e s l}, sideNodes e s = some l → s < nSides e := by
    intro e s l hl
    obtain ⟨inds, hi, _⟩ := Option.map_eq_some_iff.1 hl
    exact (List.getElem?_eq_some_iff.1 hi).1
  intro b hb x hx e s e' s' h1 h2
  obtain ⟨⟨d, hd, _, v, hv, he⟩, l, hl, hp⟩ := h1
  obtain ⟨⟨d', hd', _, v', hv', he'⟩, l', hl', hp'⟩ := h2
  exact h x (mem_visitIds.2 ⟨b, hb, hx⟩) d hd e (List.mem_flatten.2 ⟨v, hv, he⟩) s (lt hl) ⟨l, hl, hp⟩ d' hd' e' (List.mem_flatten.2 ⟨v', hv', he'⟩) s' (lt hl') ⟨l', hl', hp'⟩

theorem exProg_ok (doms : List Nat) : (exProg doms).toProg.Ok exMesh [3, 4] := by
  refine ⟨?_, ?_, ?_, ?_, ?_, ?_, ?_, ?_⟩
  · intro d hd j hj
    simp only [exProg, List.mem_cons, List.not_mem_nil, or_false] at hd
    subst hd
    simp only [List.mem_cons, List.not_mem_nil, or_false] at hj
    subst hj
    exact Nat.one_pos
  all_goals intro K hK; exact absurd hK List.not_mem_nil

theorem ex_left {x : Nat} : OnBnd exMesh [3] x ↔ x = 0 ∨ x = 2 := by
  unfold OnBnd
  rw [show visitIds exMesh [3] = [⟨.line, 2, 3, [0, 2]⟩] by decide]
  simp

theorem ex_right {x : Nat} : OnBnd exMesh [4] x ↔ x = 4 ∨ x = 5 := by
  unfold OnBnd
  rw [show visitIds exMesh [4] = [⟨.line, 2, 4, [4, 5]⟩] by decide]
  simp

theorem exProg_exact (doms : List Nat) : (exProg doms).Exact exMesh [3, 4] exPos := by
  have one : ∀ d ∈ (exProg doms).defs, d.1 = toLex ([3], toLex ([4], [2, 0, 0])) := by
    intro d hd
    simp only [exProg, List.mem_cons, List.not_mem_nil, or_false] at hd
    rw [hd]
  refine ⟨?_, ?_, ?_, ?_, ?_, ?_⟩
  · intro d hd
    rw [one d hd]
    exact ⟨fun b hb => by simp [BGroup.src] at hb; simp [hb], fun b hb => by simp [BGroup.dst] at hb; simp [hb]⟩
  · norm_num [exProg]
  · intro x; rfl
  · intro x y hx hy h
    rw [exMesh_nodes] at hx hy
    unfold exPos at h
    simp only [List.cons.injEq, Nat.cast_inj, and_true] at h
    have key : ∀ x < 8, ∀ y < 8, [0, 1, 0, 1, 2, 2, 1, 2].getD x 0 = [0, 1, 0, 1, 2, 2, 1, 2].getD y 0 →
        [0, 0, 1, 1, 0, 1, 2, 2].getD x 0 = [0, 0, 1, 1, 0, 1, 2, 2].getD y 0 → x = y := by decide
    exact key x hx y hy h.1 h.2
  · intro d hd
    rw [one d hd]
    exact ⟨rfl, 0, by norm_num, by norm_num [BGroup.dx]⟩
  · intro j d hd _ d' hd' _ a b ha hb hlt
    rw [one d hd] at ha hlt ⊢
    rw [one d' hd'] at hb
    have ha' := ex_left.1 ha
    have hb' := ex_right.1 hb
    refine ⟨?_, hb⟩
    revert hlt
    rcases ha' with rfl | rfl <;> rcases hb' with rfl | rfl <;> norm_num [PerMatch.sqDist, shift, exPos, BGroup.dx, exProg]

/-- Identity orders. -/
def exOrders : Orders := ⟨fun _ l => l, fun l => l⟩

theorem exOrders_ok : exOrders.Ok := ⟨fun _ _ => List.Perm.refl _, fun m => ⟨m, List.Perm.refl _, List.forall₂_same.2 fun a _ => ⟨rfl, List.Perm.refl _⟩⟩⟩

theorem ex_image {doms : List Nat} {j a b : Nat} : (exProg doms).Image exMesh exPos j a b ↔ j = 0 ∧ (a = 0 ∧ b = 4 ∨ a = 2 ∧ b = 5) := by
  unfold PProg.Image
  constructor
  · rintro ⟨hj, d, hd, hjd, ha, hb, he⟩
    simp only [exProg, List.mem_cons, List.not_mem_nil, or_false] at hd
    subst hd
    have hj0 : j = 0 := by simpa using hjd
    have ha' := ex_left.1 ha
    have hb' := ex_right.1 hb
    refine ⟨hj0, ?_⟩
    revert he
    rcases ha' with rfl | rfl <;> rcases hb' with rfl | rfl <;> norm_num [shift, exPos, BGroup.dx]
  · rintro ⟨rfl, h⟩
    refine ⟨Nat.one_pos, _, List.mem_singleton.2 rfl, by simp, ?_⟩
    rcases h with ⟨rfl, rfl⟩ | ⟨rfl, rfl⟩
    · exact ⟨ex_left.2 (by simp), ex_right.2 (by simp), by norm_num [shift, exPos, BGroup.dx]⟩
    · exact ⟨ex_left.2 (by simp), ex_right.2 (by simp), by norm_num [shift, exPos, BGroup.dx]⟩

/-- Classes: 0 with 4, 2 with 5, all others alone. -/
theorem ex_class {doms : List Nat} {j a b : Nat} (h : (exProg doms).ident exMesh exPos j a b) : [0, 1, 2, 3, 0, 2, 6, 7].getD a a = [0, 1, 2, 3, 0, 2, 6, 7].getD b b := by
  induction h with
  | rel a b h => rcases (ex_image.1 h).2 with ⟨rfl, rfl⟩ | ⟨rfl, rfl⟩ <;> rfl
  | refl => rfl
  | symm _ _ _ ih => exact ih.symm
  | trans _ _ _ _ _ ih1 ih2 => exact ih1.trans ih2

theorem exLabels : Labels exMesh [3, 4] 2 [0, 1, 0] [0, 0, 0, 0, 0, 1, 1, 1] [0, 2, 1] :=
  ⟨by decide, by decide, exMesh_nodes, by decide, ⟨by decide, by decide⟩⟩

/-- The two parts: left and right quadrilaterals with both boundaries, and the upper one. -/
def exParts : List Part :=
  [⟨[(1, ⟨some 2, [[], [⟨.quad, 2, 0, [0, 1, 2, 3]⟩], []]⟩), (2, ⟨some 2, [[], [⟨.quad, 2, 1, [1, 4, 3, 5]⟩], []]⟩),
     (3, ⟨some 1, [[], [], [⟨.line, 2, 3, [0, 2]⟩]]⟩), (4, ⟨some 1, [[], [], [⟨.line, 2, 4, [4, 5]⟩]]⟩)], ⟨0, 5, [5]⟩, []⟩,
   ⟨[(1, ⟨some 2, [[], [⟨.quad, 2, 2, [3, 5, 6, 7]⟩], []]⟩)], ⟨5, 3, [3]⟩, []⟩]

theorem exParts_eq : (partitionImpl lineKinds exMesh [3, 4] 2 [0, 1, 0] [0, 0, 0, 0, 0, 1, 1, 1] [0, 2, 1] id (fun _ _ => id)).map
    (fun r => (r.1.map fun q => (q.doms, q.own), (List.range 8).map fun x => (r.2.find x).getD 0)) = some (exParts.map fun q => (q.doms, q.own), List.range 8) := by
  have h1 : distribute lineKinds exMesh [3, 4] 2 [0, 1, 0] [0, 2, 1] id = some (exParts.map (·.doms)) := by decide +kernel
  have h2 : assignNodes [0, 0, 0, 0, 0, 1, 1, 1] (exParts.map (·.doms)) = some [([0, 1, 2, 3, 4], [5]), ([5, 6, 7], [3])] := by
    have hog : (exParts.map (·.doms)).zipIdx.map (fun m => ownGhost [0, 0, 0, 0, 0, 1, 1, 1] m.1 m.2) = [([0, 1, 2, 3, 4], [5]), ([5, 6, 7], [3])] := by decide +kernel
    have hdis : (([([0, 1, 2, 3, 4], [5]), ([5, 6, 7], [3])] : List (List Nat × List Nat)).zipIdx.map fun p => disjointOf [0, 0, 0, 0, 0, 1, 1, 1] p.1.1 p.2).flatten = [] := by decide +kernel
    unfold assignNodes
    simp only [hog, hdis]
    simp [reassign, claim, Std.sort]
  unfold partitionImpl
  rw [h1, Option.bind_some]
  unfold finish
  rw [h2, Option.bind_some]
  decide +kernel

theorem ex_outcome : ∃ parts f, (∀ Q, Outcome Q lineKinds exMesh [3, 4] 2 parts f) ∧ (parts.map fun q => (q.doms, q.own)) = exParts.map (fun q => (q.doms, q.own)) ∧
    ∀ x < 8, f x = x := by
  obtain ⟨⟨parts, φ⟩, h, he⟩ := Option.map_eq_some_iff.1 exParts_eq
  obtain ⟨h1, h2⟩ := Prod.mk.inj he
  refine ⟨parts, _, fun Q => .parts 2 _ _ _ exLabels id (fun _ _ => id) (fun _ => List.Perm.refl _) (fun _ _ _ => List.Perm.refl _) _ φ h, h1, fun x hx => ?_⟩
  have := congrArg (·[x]?) h2
  simpa [hx] using this

/-- Positions by new id: ids are unchanged. -/
theorem ex_located {f : Nat → Nat} (hf : ∀ x < 8, f x = x) : Located exMesh exPos exPos f := by
  refine ⟨fun _ => rfl, fun x hx => ?_⟩
  rw [hf x ((exMesh_nodes x).1 hx)]

theorem ex_setup {p : Prog} {parts : List Part} (h : (parts.map fun q => (q.doms, q.own)) = exParts.map (fun q => (q.doms, q.own))) : p.setup parts = p.setup exParts := by
  have e : ∀ r, (part parts r).own = (part exParts r).own ∧ (part parts r).doms = (part exParts r).doms := by
    intro r
    have := congrArg (·[r]?) h
    simp only [List.getElem?_map] at this
    unfold part
    cases h1 : parts[r]? with
    | none => cases h2 : exParts[r]? with
      | none => exact ⟨rfl, rfl⟩
      | some b => rw [h1, h2] at this; cases this
    | some a => cases h2 : exParts[r]? with
      | none => rw [h1, h2] at this; cases this
      | some b =>
        rw [h1, h2] at this
        obtain ⟨h3, h4⟩ := Prod.mk.inj (Option.some.inj this)
        exact ⟨h4, h3⟩
  unfold Prog.setup
  congr 1
  · have := congrArg (List.map fun q => q.2.cnt) h
    rw [List.map_map, List.map_map] at this
    exact this
  · funext r; rw [(e r).1]
  · funext r; rw [(e r).2]

/-- **C117** fails if a periodic component is active in one domain only: the upper right node of the right quadrilateral belongs to a rank without an element
of that domain; its element marks the node itself instead of its image on the left, and the unknown has no number. -/
theorem C117_violated : ¬ C117Statement := by
  intro h
  obtain ⟨parts, f, hout, hparts, hf⟩ := ex_outcome
  have hl := ex_located hf
  obtain ⟨N, maps, R⟩ := outcome_result exMesh_ok exMesh_one (hout Monotone)
  obtain rfl : N = 8 := by
    have hN : ∀ x, x < N ↔ x < 8 := fun x => (R.nodes x).symm.trans (exMesh_nodes x)
    have h1 := hN N
    have h2 := hN 8
    omega
  have hx := exProg_exact [2]
  obtain ⟨gs, hgs, hper, _⟩ := groups_spec R exMesh_unique exOrders_ok hl hx
  have hs : (exProg [2]).psetup exOrders exPos parts = some (((exProg [2]).toProg.setup parts).withPeriodic (strip gs)) := by unfold PProg.psetup; rw [hgs]; rfl
  have hok := C41_consistent (meshOk_setup (exProg_ok [2]) R) hper
  have hkey := h _ _ _ _ exMesh_ok exMesh_one exMesh_unique (exProg [2]) (exProg_ok [2]) exPos hx _ _ _ (hout NoReorder) _ exOrders_ok _ hl _ hs (5, 0)
    ⟨(exMesh_nodes 5).2 (by decide), 5, ⟨([2], [0]), List.mem_singleton.2 rfl, List.mem_singleton.2 rfl, ⟨.quad, 2, 1, [1, 4, 3, 5]⟩, by decide, by decide⟩, .refl _⟩
  have hrep := rep_iff R exMesh_unique exOrders_ok hl hx hgs hper 0
  obtain ⟨G, hG, hjG, hlink⟩ := group_of R exMesh_unique exOrders_ok hl hx hgs (j := 0) Nat.one_pos
  have hrs := rep_spec hper hG hjG (f 5)
  have h2 := hrs.2 (f 2) ((hlink 5 2 (by decide) (by decide)).2 (.symm _ _ (.rel _ _ (ex_image.2 ⟨rfl, Or.inr ⟨rfl, rfl⟩⟩))))
  have hlk := lookup_spec hper
  rw [ex_setup hparts] at *
  simp only [hf 5 (by decide), hf 2 (by decide)] at h2 hkey
  have hown : ∀ n, (((exProg [2]).toProg.setup exParts).withPeriodic (strip gs)).owner n = ((exProg [2]).toProg.setup exParts).owner n := fun _ => rfl
  have ho5 : ((exProg [2]).toProg.setup exParts).owner 5 = 1 := by decide +kernel
  rw [C39_active_exact hok (by rw [hown, ho5]; exact Nat.one_lt_two) (Or.inl (owns_owner (s := ((exProg [2]).toProg.setup exParts).withPeriodic (strip gs)) (show 5 < ((exProg [2]).toProg.setup exParts).counts.sum by decide)).2) Nat.one_pos] at hkey
  obtain ⟨r', hr', v, hv, n, hn, _, he⟩ := hkey
  have hv' : r' = 0 ∧ v = ⟨[1, 4, 3, 5], [0]⟩ := by
    have h01 : r' = 0 ∨ r' = 1 := by
      have : r' < 2 := hr'
      omega
    rcases h01 with rfl | rfl
    · refine ⟨rfl, ?_⟩
      have : v ∈ ([⟨[1, 4, 3, 5], [0]⟩] : List Visit) := hv
      simpa using this
    · have : v ∈ ([] : List Visit) := hv
      exact absurd this List.not_mem_nil
  obtain ⟨rfl, rfl⟩ := hv'
  have same : ∀ n < 5, ((((exProg [2]).toProg.setup exParts).withPeriodic (strip gs)).lookup 0 n 0).getD n = (((exProg [2]).toProg.setup exParts).withPeriodic (strip gs)).rep n 0 := by
    intro n hn
    have : ((exProg [2]).toProg.setup exParts).owner n = 0 := by
      have all : ∀ n < 5, ((exProg [2]).toProg.setup exParts).owner n = 0 := by decide +kernel
      exact all n hn
    unfold Setup.rep
    rw [hown, this]
  have no : ∀ n < 5, [0, 1, 2, 3, 0, 2, 6, 7].getD n n ≠ 2 →
      ((((exProg [2]).toProg.setup exParts).withPeriodic (strip gs)).lookup 0 n 0).getD n ≠ (((exProg [2]).toProg.setup exParts).withPeriodic (strip gs)).rep 5 0 := by
    intro n hn hc he
    rw [same n hn] at he
    have h1 := hrep n 5 (by omega) (by decide)
    rw [hf n (by omega), hf 5 (by decide)] at h1
    exact hc (ex_class (h1.1 he))
  simp only [List.mem_cons, List.not_mem_nil, or_false] at hn
  rcases hn with rfl | rfl | rfl | rfl
  · exact no 1 (by decide) (by decide) he
  · exact no 4 (by decide) (by decide) he
  · exact no 3 (by decide) (by decide) he
  · have hnone : (((exProg [2]).toProg.setup exParts).withPeriodic (strip gs)).lookup 0 5 0 = none := by
      rw [Option.eq_none_iff_forall_not_mem]
      intro a ha
      have := ((hlk 0 5 0 a).1 ha).1
      rw [ho5] at this
      exact absurd this (by decide)
    rw [hnone] at he
    have he' : 5 = (((exProg [2]).toProg.setup exParts).withPeriodic (strip gs)).rep 5 0 := he
    omega

theorem exProg_everywhere : (exProg [1, 2]).Everywhere exMesh [3, 4] := by
  intro d hd j hj k hk e he
  simp only [exProg, List.mem_cons, List.not_mem_nil, or_false] at hd
  subst hd
  simp only [List.mem_cons, List.not_mem_nil, or_false] at hj
  subst hj
  refine ⟨([1, 2], [0]), List.mem_singleton.2 rfl, ?_, List.mem_singleton.2 rfl⟩
  obtain ⟨d, hd, _⟩ := he
  have hd := Mesh.mem_of_lookup hd
  revert hk
  simp only [exMesh, List.mem_cons, List.not_mem_nil, or_false] at hd
  rcases hd with h | h | h | h <;> rw [(Prod.mk.inj h).1] <;> simp

/-- With the component active in both domains all hypotheses hold, and the mesh cut in two has the unknowns of the whole mesh: six. -/
example : ∃ parts f s s', Outcome Monotone lineKinds exMesh [3, 4] 2 parts f ∧ (exProg [1, 2]).psetup exOrders exPos parts = some s ∧
    (exProg [1, 2]).psetup exOrders exPos [⟨exMesh, ⟨0, 8, []⟩, []⟩] = some s' ∧ s.total = s'.total ∧
    dof s (f 2, 0) = dof s (f 5, 0) ∧ dof s (f 0, 0) ≠ dof s (f 2, 0) := by
  obtain ⟨parts, f, hout, _, hf⟩ := ex_outcome
  have hl := ex_located hf
  have hl' : Located exMesh exPos exPos id := ⟨fun _ => rfl, fun _ _ => rfl⟩
  obtain ⟨s, s', hs, hs', ht, _⟩ := C117_same_answer_partial exMesh_ok exMesh_one exMesh_unique (exProg_ok [1, 2]) (exProg_exact [1, 2]) exProg_everywhere (hout Monotone)
    (.whole 8 exMesh_nodes []) exOrders_ok exOrders_ok hl hl'
  have hu : ∀ x < 8, (exProg [1, 2]).unknown exMesh exPos (x, 0) := by
    intro x hx
    have hc : ∀ x < 8, ∃ e ∈ visitIds exMesh [1, 2], x ∈ e.nodes := by decide
    obtain ⟨e, he, hxe⟩ := hc x hx
    exact ⟨(exMesh_nodes x).2 hx, x, ⟨([1, 2], [0]), List.mem_singleton.2 rfl, List.mem_singleton.2 rfl, e, he, hxe⟩, .refl _⟩
  have hnum := (C117_numbers_partial exMesh_ok exMesh_one exMesh_unique (exProg_ok [1, 2]) (exProg_exact [1, 2]) exProg_everywhere (hout Monotone) exOrders_ok hl hs).2.2
  refine ⟨parts, f, s, s', hout Monotone, hs, hs', ht, ?_, ?_⟩
  · exact (hnum (2, 0) (5, 0) (hu 2 (by decide)) (hu 5 (by decide))).2 ⟨rfl, .rel _ _ (ex_image.2 ⟨rfl, Or.inr ⟨rfl, rfl⟩⟩)⟩
  · intro he
    have := ex_class ((hnum (0, 0) (2, 0) (hu 0 (by decide)) (hu 2 (by decide))).1 he).2
    exact absurd this (by decide)

end

end Verif.PerPipe
