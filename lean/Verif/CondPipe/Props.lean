import Verif.CondPipe.Run
import Verif.CondPipe.Exam

/-! # C118: from the mesh to the solution with static condensation -/
namespace Verif.CondPipe
open Verif Verif.Elem Verif.Mesh Verif.Dofs Verif.Lsq Verif.Distr Verif.Pipeline Verif.Partition Verif.Split Verif.PerPipe Verif.CondInit Verif.CondDistr

noncomputable section

/-- The values `v` by global dof are those prescribed. (precondition; what C105 proves of DirichletBC.hpp) -/
def CValues (p : PProg) (m : DomMap) (pos : Nat → List ℝ) (s : Setup) (f : Nat → Nat) (v : Nat → Nat → ℝ) : Prop :=
  ∀ k, primary p m pos k → p.toProg.prescribed m k → ∀ c, v (dof s (f k.1, k.2)) c = p.val k c

/-- The least-squares solution of the undistributed problem is unique (in the unknowns of the problem). -/
def OneSolution (p : PProg) (m : DomMap) (pos : Nat → List ℝ) (N c : Nat) : Prop :=
  ∀ F F', (p.problem m pos N).toProblem.Minimises c F → (p.problem m pos N).toProblem.Minimises c F' → ∀ k, p.unknown m pos k → F k = F' k

/-- **C118** (numbers).  With condensation, construction succeeds however the mesh is distributed; every primary unknown has a number, all numbers are taken, and two primary
unknowns have one number exactly if they are the same component at nodes joined by periodic images. -/
theorem C118_numbers_partial {kinds : List (ElType × Nat)} {m : DomMap} {bnds : List Nat} {D : Nat} (hm : MeshOk kinds m bnds D) (hone : OneSided m bnds) (huni : UniqueParent m bnds)
    {p : PProg} (hp : p.toProg.Ok m bnds) {pos : Nat → List ℝ} (hx : p.Exact m bnds pos) (hev : p.Everywhere m bnds) (hC : Condensable p m bnds pos) {nParts : Nat} {parts : List Part} {f : Nat → Nat}
    (hout : Outcome Monotone kinds m bnds nParts parts f) {o : Orders} (ho : o.Ok) {npos : Nat → List ℝ} (hl : Located m pos npos f) :
    ∃ s, pcsetup p o npos parts = some s ∧ s.Ok ∧
      (∀ k, primary p m pos k → s.dofs (s.owner (f k.1)) (f k.1) k.2 = some (dof s (f k.1, k.2)) ∧ dof s (f k.1, k.2) < s.total) ∧
      (∀ g < s.total, ∃ k, primary p m pos k ∧ dof s (f k.1, k.2) = g) ∧
      ∀ k k', primary p m pos k → primary p m pos k' → (dof s (f k.1, k.2) = dof s (f k'.1, k'.2) ↔ k.2 = k'.2 ∧ p.ident m pos k.2 k.1 k'.1) := by
  obtain ⟨N, maps, R⟩ := outcome_result hm hone hout
  obtain ⟨s, hs, hn⟩ := cnumbered hm hp R huni ho hl hx hev hC
  obtain ⟨g, hg⟩ := back_exists R
  have hof := bare_crun_of hp R huni hn hg
  have hP := prim_ok' (p := bare p) (pos := pos) (Pipeline.bare_ok hp) R
  have hmk : (crun (bare p).toProg s parts f g (fun _ _ => 0) (fun _ => []) (fun _ => []) fun _ => []).R.Marked := fun j y h1 h2 => hn.marked j y h1 h2
  have hr := run_represents hP hof hmk
  have hu : ∀ k, (cproblem (bare p) m pos N nParts maps).prim.toProblem.used k ↔ primary p m pos k := fun k => prim_used (p := bare p) R (Pipeline.bare_ok hp) k
  refine ⟨s, hs, hn.ok, fun k hk => ⟨used_num hP hof hmk ((hu k).2 hk), hr.lt k ((hu k).2 hk)⟩, fun g hg => ?_, fun k k' hk hk' => hr.inj k k' ((hu k).2 hk) ((hu k').2 hk')⟩
  obtain ⟨k, hk, he⟩ := hr.surj g hg
  exact ⟨k, (hu k).1 hk, he⟩

/-- **C118** (solution).  However the mesh is distributed: every vector gives a field (values at primary unknowns, recovered values at internal ones); if the
blocks to be inverted are invertible, the vector solves the condensed system exactly if the field is a least-squares solution of the problem on the undistributed
mesh, without condensation, and every such solution arises in this way. -/
theorem C118_condensed_partial {kinds : List (ElType × Nat)} {m : DomMap} {bnds : List Nat} {D : Nat} (hm : MeshOk kinds m bnds D) (hone : OneSided m bnds) (huni : UniqueParent m bnds)
    {p : PProg} (hp : p.toProg.Ok m bnds) {pos : Nat → List ℝ} (hx : p.Exact m bnds pos) (hev : p.Everywhere m bnds) (hC : Condensable p m bnds pos) {nParts : Nat} {parts : List Part} {f : Nat → Nat}
    (hout : Outcome Monotone kinds m bnds nParts parts f) {o : Orders} (ho : o.Ok) {npos : Nat → List ℝ} (hl : Located m pos npos f) {N : Nat} (hN : ∀ x, NodeIn m x ↔ x < N)
    {g : Nat → Nat} (hg : ∀ x, NodeIn m x → g (f x) = x) :
    ∃ s, pcsetup p o npos parts = some s ∧ ∀ rowM colM vecM, MapsOk s parts rowM colM vecM → ∀ v, CValues p m pos s f v → ∀ nc c, c < nc → ∀ um uv,
      (crun p.toProg s parts f g v rowM colM vecM).Orders nc um uv →
      (∀ x, ∃ F, Field p m pos s f (crun p.toProg s parts f g v rowM colM vecM) nc c x F) ∧
      ((∀ r < nParts, ∀ e ∈ (crun p.toProg s parts f g v rowM colM vecM).parts r, IsUnit ((crun p.toProg s parts f g v rowM colM vecM).diag nc r e).det) →
        (∀ x F, Field p m pos s f (crun p.toProg s parts f g v rowM colM vecM) nc c x F →
          (CSolution p.toProg s parts (crun p.toProg s parts f g v rowM colM vecM) um uv v c x ↔ (p.problem m pos N).toProblem.Minimises c F)) ∧
        ∀ F, (p.problem m pos N).toProblem.Minimises c F → ∃ x, CSolution p.toProg s parts (crun p.toProg s parts f g v rowM colM vecM) um uv v c x ∧
          Field p m pos s f (crun p.toProg s parts f g v rowM colM vecM) nc c x F) := by
  obtain ⟨N', maps, R⟩ := outcome_result hm hone hout
  obtain rfl := same_count R hN
  obtain ⟨s, hs, hn⟩ := cnumbered hm hp R huni ho hl hx hev hC
  refine ⟨s, hs, fun rowM colM vecM hM v hv nc c hc um uv hor => ?_⟩
  have hok := cproblem_ok hm R huni hp hx hC
  have hof := crun_of hp R huni hn hg hv hM
  have hnr : (crun p.toProg s parts f g v rowM colM vecM).R.nr = nParts := by
    change s.counts.length = _
    rw [hn.counts]; exact setup_length p.toProg R
  have hrec := C116_recovers_partial hok hof hc hor
  refine ⟨fun x => ?_, fun hinv => ⟨fun x F hF => ?_, fun F hF => ?_⟩⟩
  · obtain ⟨F, hF⟩ := hrec.1 x
    exact ⟨F, (cgives_iff hp R).1 hF⟩
  · rw [← csolved_iff hp R huni hn hg, ← full_minimises hm R huni hp]
    exact C116_intrinsic_partial hok hof hc hor (by rw [hnr]; exact hinv) ((cgives_iff hp R).2 hF)
  · rw [← full_minimises hm R huni hp] at hF
    obtain ⟨x, h1, h2⟩ := hrec.2 (by rw [hnr]; exact hinv) F hF
    exact ⟨x, (csolved_iff hp R huni hn hg v um uv c x).1 h1, (cgives_iff hp R).1 h2⟩

/-- **C118** (blocks).  The blocks to be inverted are invertible on every distribution if the problem on the undistributed mesh has only one least-squares solution. -/
theorem C118_invertible {kinds : List (ElType × Nat)} {m : DomMap} {bnds : List Nat} {D : Nat} (hm : MeshOk kinds m bnds D) (hone : OneSided m bnds) (huni : UniqueParent m bnds)
    {p : PProg} (hp : p.toProg.Ok m bnds) {pos : Nat → List ℝ} (hx : p.Exact m bnds pos) (hev : p.Everywhere m bnds) (hC : Condensable p m bnds pos) {nParts : Nat} {parts : List Part} {f : Nat → Nat}
    (hout : Outcome Monotone kinds m bnds nParts parts f) {o : Orders} (ho : o.Ok) {npos : Nat → List ℝ} (hl : Located m pos npos f) {N : Nat} (hN : ∀ x, NodeIn m x ↔ x < N)
    {g : Nat → Nat} (hg : ∀ x, NodeIn m x → g (f x) = x) {s : Setup} (hs : pcsetup p o npos parts = some s) {rowM colM vecM : Nat → List Nat} (hM : MapsOk s parts rowM colM vecM)
    {v : Nat → Nat → ℝ} (hv : CValues p m pos s f v) {nc c : Nat} (hc : c < nc) (hu : OneSolution p m pos N c) :
    ∀ r < nParts, ∀ e ∈ (crun p.toProg s parts f g v rowM colM vecM).parts r, IsUnit ((crun p.toProg s parts f g v rowM colM vecM).diag nc r e).det := by
  obtain ⟨N', maps, R⟩ := outcome_result hm hone hout
  obtain rfl := same_count R hN
  obtain ⟨s', hs', hn⟩ := cnumbered hm hp R huni ho hl hx hev hC
  obtain rfl : s = s' := Option.some.inj (hs.symm.trans hs')
  have hnr : (crun p.toProg s parts f g v rowM colM vecM).R.nr = nParts := by
    change s.counts.length = _
    rw [hn.counts]; exact setup_length p.toProg R
  have := C116_invertible (cproblem_ok hm R huni hp hx hC) (crun_of hp R huni hn hg hv hM) hc (c := c) (unique_of hm R huni hp hu)
  rw [hnr] at this
  exact this

/-- **C118**.  Distribute one mesh in three ways and solve: twice with static condensation, once without.  If the problem on the undistributed mesh has only one
least-squares solution, all three give the same value to every component at every node, internal nodes included. -/
theorem C118_same_answer_partial {kinds : List (ElType × Nat)} {m : DomMap} {bnds : List Nat} {D : Nat} (hm : MeshOk kinds m bnds D) (hone : OneSided m bnds) (huni : UniqueParent m bnds)
    {p : PProg} (hp : p.toProg.Ok m bnds) {pos : Nat → List ℝ} (hx : p.Exact m bnds pos) (hev : p.Everywhere m bnds) (hC : Condensable p m bnds pos) {N : Nat} (hN : ∀ x, NodeIn m x ↔ x < N)
    {nParts nParts' nParts'' : Nat} {parts parts' parts'' : List Part} {f f' f'' : Nat → Nat}
    (hout : Outcome Monotone kinds m bnds nParts parts f) (hout' : Outcome Monotone kinds m bnds nParts' parts' f') (hout'' : Outcome Monotone kinds m bnds nParts'' parts'' f'')
    {o o' o'' : Orders} (ho : o.Ok) (ho' : o'.Ok) (ho'' : o''.Ok) {npos npos' npos'' : Nat → List ℝ} (hl : Located m pos npos f) (hl' : Located m pos npos' f') (hl'' : Located m pos npos'' f'')
    {g g' : Nat → Nat} (hg : ∀ x, NodeIn m x → g (f x) = x) (hg' : ∀ x, NodeIn m x → g' (f' x) = x)
    {s s' s'' : Setup} (hs : pcsetup p o npos parts = some s) (hs' : pcsetup p o' npos' parts' = some s') (hs'' : p.psetup o'' npos'' parts'' = some s'')
    {rowM colM vecM rowM' colM' vecM' : Nat → List Nat} (hM : MapsOk s parts rowM colM vecM) (hM' : MapsOk s' parts' rowM' colM' vecM')
    {v v' v'' : Nat → Nat → ℝ} (hv : CValues p m pos s f v) (hv' : CValues p m pos s' f' v') (hv'' : p.Values m pos s'' f'' v'')
    {nc nc' c : Nat} (hc : c < nc) (hc' : c < nc') {um uv um' uv' : Nat → List ((Nat × Nat) × ℝ)}
    (hor : (crun p.toProg s parts f g v rowM colM vecM).Orders nc um uv) (hor' : (crun p.toProg s' parts' f' g' v' rowM' colM' vecM').Orders nc' um' uv')
    {els : Nat → List LElem} (hels : ∀ r, (els r).Perm (rankElems p.toProg s'' parts'' r)) {vals : Nat → Nat → Nat → ℝ} (hu : OneSolution p m pos N c)
    {x x' X : Nat → ℝ} {F F' : Nat × Nat → ℝ}
    (h1 : CSolution p.toProg s parts (crun p.toProg s parts f g v rowM colM vecM) um uv v c x) (hF : Field p m pos s f (crun p.toProg s parts f g v rowM colM vecM) nc c x F)
    (h2 : CSolution p.toProg s' parts' (crun p.toProg s' parts' f' g' v' rowM' colM' vecM') um' uv' v' c x') (hF' : Field p m pos s' f' (crun p.toProg s' parts' f' g' v' rowM' colM' vecM') nc' c x' F')
    (h3 : Solution p.toProg s'' parts'' els vals v'' c X) :
    ∀ k, p.unknown m pos k → F k = F' k ∧ F k = X (dof s'' (f'' k.1, k.2)) := by
  classical
  have i1 := C118_invertible hm hone huni hp hx hev hC hout ho hl hN hg hs hM hv hc hu
  have i2 := C118_invertible hm hone huni hp hx hev hC hout' ho' hl' hN hg' hs' hM' hv' hc' hu
  obtain ⟨t, ht, c1⟩ := C118_condensed_partial hm hone huni hp hx hev hC hout ho hl hN hg
  obtain rfl : s = t := Option.some.inj (hs.symm.trans ht)
  obtain ⟨t, ht, c2⟩ := C118_condensed_partial hm hone huni hp hx hev hC hout' ho' hl' hN hg'
  obtain rfl : s' = t := Option.some.inj (hs'.symm.trans ht)
  have m1 := ((((c1 _ _ _ hM v hv nc c hc um uv hor).2 i1).1 x F hF).1 h1)
  have m2 := ((((c2 _ _ _ hM' v' hv' nc' c hc' um' uv' hor').2 i2).1 x' F' hF').1 h2)
  obtain ⟨N', maps, R⟩ := outcome_result hm hone hout''
  obtain rfl := same_count R hN
  obtain ⟨t, ht, hn⟩ := numbered hm hp R huni ho'' hl'' hx hev
  obtain rfl : s'' = t := Option.some.inj (hs''.symm.trans ht)
  obtain ⟨sel, hsel⟩ := order_exists R huni hp (s := s'') hels
  have hof := outcome_represents hm hp R huni hn hsel vals hv''
  have m3 := (C112_intrinsic (problem_ok (PerPipe.problem_ok hp R.keys R.nodes)) (run_represents (PerPipe.problem_ok hp R.keys R.nodes) hof (run_marked hn vals v'')) c X).1
    ((solution_iff hm hp R huni hn hsel vals v'' c X).1 h3)
  exact fun k hk => ⟨hu _ _ m1 m2 k hk, hu _ _ m1 m3 k hk⟩

/-- The two quadrilaterals of order 2 in a ring, one on each rank, `u = 1`: the condensed system has a solution, the field left by it is 1 at all nodes, the internal
node 4 of the first included. -/
example : ∃ parts f s, Outcome Monotone kinds3 exMesh [3, 4] 2 parts f ∧ pcsetup exProg exOrders exPos parts = some s ∧
    ∃ um uv rowM colM vecM x F, CSolution exProg.toProg s parts (crun exProg.toProg s parts f id (fun _ _ => 1) rowM colM vecM) um uv (fun _ _ => 1) 0 x ∧
      Field exProg exMesh exPos s f (crun exProg.toProg s parts f id (fun _ _ => 1) rowM colM vecM) 1 0 x F ∧ ∀ k, exProg.unknown exMesh exPos k → F k = 1 := by
  obtain ⟨parts, f, hout, _, hf⟩ := ex_outcome
  have hl := ex_located hf
  have hg : ∀ x, NodeIn exMesh x → id (f x) = x := fun x hx => hf x ((exMesh_nodes x).1 hx)
  obtain ⟨N', maps, R⟩ := outcome_result exMesh_ok exMesh_one (hout Monotone)
  obtain rfl := same_count R exMesh_nodes
  obtain ⟨s, hs, hn⟩ := cnumbered exMesh_ok exProg_ok R exMesh_unique exOrders_ok hl exProg_exact exProg_everywhere exProg_cond
  have hM := maps_total R hn
  have hv : CValues exProg exMesh exPos s f fun _ _ => 1 := fun _ _ _ _ => rfl
  obtain ⟨t, ht, hc⟩ := C118_condensed_partial exMesh_ok exMesh_one exMesh_unique exProg_ok exProg_exact exProg_everywhere exProg_cond (hout Monotone) exOrders_ok hl exMesh_nodes hg
  obtain rfl : s = t := Option.some.inj (hs.symm.trans ht)
  have hi := C118_invertible exMesh_ok exMesh_one exMesh_unique exProg_ok exProg_exact exProg_everywhere exProg_cond (hout Monotone) exOrders_ok hl exMesh_nodes hg hs hM hv Nat.one_pos
    (fun _ _ h h' => ex_only 0 h h')
  obtain ⟨x, h1, h2⟩ := ((hc _ _ _ hM _ hv 1 0 Nat.one_pos _ _ fun q _ => ⟨List.Perm.refl _, List.Perm.refl _⟩).2 hi).2 _ (ex_one 0)
  exact ⟨parts, f, s, hout Monotone, hs, _, _, _, _, _, x, _, h1, h2, fun _ _ => rfl⟩

end

end Verif.CondPipe
