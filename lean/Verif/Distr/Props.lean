import Verif.Distr.Runs
import Mathlib.Tactic.IntervalCases

/-! # C112: the answer does not depend on how the mesh is distributed -/
namespace Verif.Distr
open MatFree MfInit Lsq Finset
open Verif.Dofs (Setup Visit exPlain exPeriodic exPeriodic_ok exPeriodic_lookup)

noncomputable section

variable {κ : Type} {P : Problem κ}

/-- **C112.**  On any number of ranks, with any distribution of the elements and any numbering: a vector solves the assembled system
exactly if the field it stands for is a least-squares solution of the undistributed problem. -/
theorem C112_intrinsic (hP : P.Ok) {N nr : Nat} {D : Nat → Prop} [DecidablePred D] {ranks : Nat → LRank} {v : Nat → Nat → ℝ} {num : κ → Nat}
    (h : Represents P N nr D ranks v num) (c : Nat) (x : Nat → ℝ) :
    Solves N nr D ranks (fun g => v g c) x c ↔ P.Minimises c fun k => x (num k) := by
  rw [C93_minimiser h.ok (sized hP h) (weighted hP h), minimises_iff hP h]

/-- **C112, two distributions.**  Vectors with the same value at every unknown solve one system exactly if they solve the other; every
solution of one has its counterpart in the other; and if the solution is unique in one, it is unique in the other and every unknown
has the same value. -/
theorem C112_independent (hP : P.Ok) {N nr N' nr' : Nat} {D D' : Nat → Prop} [DecidablePred D] [DecidablePred D'] {ranks ranks' : Nat → LRank}
    {v v' : Nat → Nat → ℝ} {num num' : κ → Nat} (h : Represents P N nr D ranks v num) (h' : Represents P N' nr' D' ranks' v' num') (c : Nat) :
    (∀ x x' : Nat → ℝ, (∀ k, P.used k → x (num k) = x' (num' k)) →
      (Solves N nr D ranks (fun g => v g c) x c ↔ Solves N' nr' D' ranks' (fun g => v' g c) x' c)) ∧
    (∀ x, Solves N nr D ranks (fun g => v g c) x c →
      ∃ x', Solves N' nr' D' ranks' (fun g => v' g c) x' c ∧ ∀ k, P.used k → x (num k) = x' (num' k)) ∧
    ((∀ x y, Solves N nr D ranks (fun g => v g c) x c → Solves N nr D ranks (fun g => v g c) y c → ∀ g < N, x g = y g) →
      (∀ x y, Solves N' nr' D' ranks' (fun g => v' g c) x c → Solves N' nr' D' ranks' (fun g => v' g c) y c → ∀ g < N', x g = y g) ∧
      ∀ x x', Solves N nr D ranks (fun g => v g c) x c → Solves N' nr' D' ranks' (fun g => v' g c) x' c →
        ∀ k, P.used k → x (num k) = x' (num' k)) := by
  have key : ∀ x x' : Nat → ℝ, (∀ k, P.used k → x (num k) = x' (num' k)) →
      (Solves N nr D ranks (fun g => v g c) x c ↔ Solves N' nr' D' ranks' (fun g => v' g c) x' c) := by
    intro x x' hx
    rw [C112_intrinsic hP h, C112_intrinsic hP h']
    exact minimises_congr hP hx
  have back : ∀ x', Solves N' nr' D' ranks' (fun g => v' g c) x' c → ∃ x, Solves N nr D ranks (fun g => v g c) x c ∧ ∀ k, P.used k → x (num k) = x' (num' k) := by
    intro x' hs
    obtain ⟨x, hx⟩ := exists_vector h (fun k => x' (num' k)) ((C112_intrinsic hP h' c x').1 hs).1.1
    exact ⟨x, (key x x' hx).2 hs, hx⟩
  refine ⟨key, fun x hs => ?_, fun hu => ⟨fun x y hx hy g hg => ?_, fun x x' hx hx' k hk => ?_⟩⟩
  · obtain ⟨x', hx'⟩ := exists_vector h' (fun k => x (num k)) ((C112_intrinsic hP h c x).1 hs).1.1
    exact ⟨x', (key x x' fun k hk => (hx' k hk).symm).1 hs, fun k hk => (hx' k hk).symm⟩
  · obtain ⟨k, hk, rfl⟩ := h'.surj g hg
    obtain ⟨x1, hs1, h1⟩ := back x hx
    obtain ⟨y1, hs2, h2⟩ := back y hy
    rw [← h1 k hk, ← h2 k hk]
    exact hu x1 y1 hs1 hs2 _ (h.lt k hk)
  · obtain ⟨y, hs, hy⟩ := back x' hx'
    rw [← hy k hk]
    exact hu x y hx hs _ (h.lt k hk)

/-- **C112, matrix-free.**  Whatever the order in which threads add: the operator applied to `x` equals the right-hand side on every rank
exactly if the field is a least-squares solution of the undistributed problem; so the matrix-free and the assembled system of
any two distributions have the same answers. -/
theorem C112_matrix_free (hP : P.Ok) {N nr : Nat} {D : Nat → Prop} [DecidablePred D] {ranks : Nat → LRank} {v : Nat → Nat → ℝ} {num : κ → Nat}
    (h : Represents P N nr D ranks v num) (hcover : ∀ g < N, ∃ q < nr, ∃ a < (ranks q).nOwned, (ranks q).l2g.getD a 0 = g)
    (x y : Nat → Nat → ℝ) (nc c : Nat) (hc : c < nc)
    (hv : ∀ q < nr, ∀ d < (ranks q).l2g.length, D ((ranks q).l2g.getD d 0) → (ranks q).vals d c = v ((ranks q).l2g.getD d 0) c)
    (ups ups' : Nat → List ((Nat × Nat) × ℝ)) (hups : ∀ q < nr, IsOrder (ranks q).toI.toRank x nc 1 (ups q))
    (hups' : ∀ q < nr, (ups' q).Perm (rhsIncs (ranks q).toI nc)) :
    (∀ me < nr, ∀ loc < (ranks me).nOwned,
      result nr (fun q => (ranks q).toI.toRank) (fun q => rankMem (ranks q).toI.toRank y 0 (ups q)) me loc c =
        finalRhs nr (fun q => (ranks q).toI) ups' me loc c) ↔ P.Minimises c fun k => x (num k) c := by
  rw [C93_matrix_free h.ok (sized hP h) (weighted hP h) hcover v x y nc c hc hv ups ups' hups hups']
  exact (minimises_iff hP h c fun g => x g c).symm

/-- **C112, the number of unknowns** does not depend on the distribution. -/
theorem C112_size {N nr N' nr' : Nat} {D D' : Nat → Prop} {ranks ranks' : Nat → LRank}
    {v v' : Nat → Nat → ℝ} {num num' : κ → Nat} (h : Represents P N nr D ranks v num) (h' : Represents P N' nr' D' ranks' v' num') : N = N' := by
  have key : ∀ {N nr N' nr' : Nat} {D D' : Nat → Prop} {ranks ranks' : Nat → LRank} {v v' : Nat → Nat → ℝ} {num num' : κ → Nat},
      Represents P N nr D ranks v num → Represents P N' nr' D' ranks' v' num' → N ≤ N' := by
    intro N nr N' nr' D D' ranks ranks' v v' num num' h h'
    have hc : ∀ g : Fin N, ∃ k, P.used k ∧ num k = g := fun g => h.surj g g.2
    choose key hu hk using hc
    have := Fintype.card_le_of_injective (fun g : Fin N => (⟨num' (key g), h'.lt _ (hu g)⟩ : Fin N')) (by
      intro a b hab
      have hab : num' (key a) = num' (key b) := by simpa using hab
      have := (h.inj _ _ (hu a) (hu b)).2 ((h'.inj _ _ (hu a) (hu b)).1 hab)
      rw [hk, hk] at this
      exact Fin.ext this)
    simpa using this
  exact Nat.le_antisymm (key h h') (key h' h)

/-! ## Runs of the program -/

/-- **C112, runs** (partial: `Marked`, see `C112_violated`).  Take one mesh with kernels and conditions, and two runs of the program on it:
any numbers of ranks, partitions, ghosts and renumberings of nodes.  They have the same number of unknowns; each solution of
the system of one is, node by node and component by component, a solution of the other; and if one system has one solution, so has
the other, with the same value at every node and component. -/
theorem C112_runs_partial {P : MProblem} (hP : P.Ok) {R R' : Run} (h : R.Of P) (h' : R'.Of P) (hm : R.Marked) (hm' : R'.Marked)
    [DecidablePred (R.D P)] [DecidablePred (R'.D P)] (c : Nat) :
    R.s.total = R'.s.total ∧
    (∀ x, Solves R.s.total R.nr (R.D P) R.rank (fun g => R.v g c) x c →
      ∃ x', Solves R'.s.total R'.nr (R'.D P) R'.rank (fun g => R'.v g c) x' c ∧ ∀ k, P.toProblem.used k → x (R.num k) = x' (R'.num k)) ∧
    ((∀ x y, Solves R.s.total R.nr (R.D P) R.rank (fun g => R.v g c) x c → Solves R.s.total R.nr (R.D P) R.rank (fun g => R.v g c) y c →
        ∀ g < R.s.total, x g = y g) →
      ∀ x x', Solves R.s.total R.nr (R.D P) R.rank (fun g => R.v g c) x c → Solves R'.s.total R'.nr (R'.D P) R'.rank (fun g => R'.v g c) x' c →
        ∀ k, P.toProblem.used k → x (R.num k) = x' (R'.num k)) := by
  have r := run_represents hP h hm
  have r' := run_represents hP h' hm'
  obtain ⟨_, h2, h3⟩ := C112_independent (problem_ok hP) r r' c
  exact ⟨C112_size r r', h2, fun hu => (h3 hu).2⟩

/-- **C112, matrix-free runs** (partial as above): the matrix-free system of any run has the answers of the assembled system of any other. -/
theorem C112_runs_matrix_free_partial {P : MProblem} (hP : P.Ok) {R R' : Run} (h : R.Of P) (h' : R'.Of P) (hm : R.Marked) (hm' : R'.Marked)
    [DecidablePred (R.D P)] [DecidablePred (R'.D P)] (x y : Nat → Nat → ℝ) (x' : Nat → ℝ) (nc c : Nat) (hc : c < nc)
    (hv : ∀ q < R.nr, ∀ d < (R.l2g q).length, R.D P ((R.l2g q).getD d 0) → R.vals q d c = R.v ((R.l2g q).getD d 0) c)
    (ups ups' : Nat → List ((Nat × Nat) × ℝ)) (hups : ∀ q < R.nr, IsOrder (R.rank q).toI.toRank x nc 1 (ups q))
    (hups' : ∀ q < R.nr, (ups' q).Perm (rhsIncs (R.rank q).toI nc)) (hx : ∀ k, P.toProblem.used k → x (R.num k) c = x' (R'.num k)) :
    (∀ me < R.nr, ∀ loc < R.s.numOwned me,
      result R.nr (fun q => (R.rank q).toI.toRank) (fun q => rankMem (R.rank q).toI.toRank y 0 (ups q)) me loc c =
        finalRhs R.nr (fun q => (R.rank q).toI) ups' me loc c) ↔
      Solves R'.s.total R'.nr (R'.D P) R'.rank (fun g => R'.v g c) x' c := by
  have r := run_represents hP h hm
  have r' := run_represents hP h' hm'
  rw [C112_intrinsic (problem_ok hP) r' c x', ← minimises_congr (problem_ok hP) hx]
  exact C112_matrix_free (problem_ok hP) r run_cover x y nc c hc hv ups ups' hups hups'

/-- **C112, where the condition holds**: on one rank, and on any number without periodic conditions. -/
theorem C112_marked {R : Run} (hok : R.s.Ok) : (R.nr = 1 → R.Marked) ∧ ((∀ r < R.nr, R.s.per r = []) → R.Marked) := by
  constructor
  · intro h1 j m hact hl
    obtain ⟨r, hr, w, hw, hm, hj⟩ := hact
    have hn := (hok.visits r hr w hw).1 m hm
    have ho := (Dofs.owns_owner (Dofs.local_lt hok hr (Dofs.knows_local hn))).1
    have e1 : R.s.counts.length = 1 := h1
    have : r = R.s.owner m := by omega
    rw [← this]
    exact ⟨w, hw, hm, hj⟩
  · intro h0 j m hact hl
    obtain ⟨r, hr, w, hw, hm, hj⟩ := hact
    have hn := (hok.visits r hr w hw).1 m hm
    have ho := (Dofs.owns_owner (Dofs.local_lt hok hr (Dofs.knows_local hn))).1
    exact absurd (show R.s.lookup (R.s.owner m) m j = none by unfold Setup.lookup; rw [h0 _ ho]; rfl) hl

/-- C112 in full, its first consequence: the number of unknowns does not depend on the run. -/
def C112Statement : Prop := ∀ P : MProblem, P.Ok → ∀ R R' : Run, R.Of P → R'.Of P → R.s.total = R'.s.total

/-- Three nodes in a row, 1 identified with 0; the only element with a kernel is (1, 2). -/
def exProb : MProblem where
  dpn := 1
  node n := n < 3
  elems := [⟨[1, 2], [0], ⟨1, 1, 2, 1, 1⟩, []⟩]
  visits := [⟨[0, 1], []⟩, ⟨[1, 2], [0]⟩]
  ident j n n' := (if n = 1 ∧ j = 0 then 0 else n) = if n' = 1 ∧ j = 0 then 0 else n'
  dir _ := False
  val _ _ := 0

theorem exProb_ok : exProb.Ok := by
  refine ⟨?_, ?_, ?_, ?_, ?_⟩
  · intro e he; simp [exProb] at he; subst he; exact ⟨rfl, rfl⟩
  · intro e he; simp [exProb] at he; subst he; exact ⟨⟨[1, 2], [0]⟩, by simp [exProb], fun _ h => h, fun _ h => h⟩
  · intro w hw
    simp only [exProb, List.mem_cons, List.not_mem_nil, or_false] at hw
    rcases hw with rfl | rfl <;> simp [exProb]
  · intro j n _; rfl
  · intro e he; simp [exProb] at he; subst he; intro U hU; cases hU

/-- The run on two ranks. -/
def exTwo : Run where
  s := exPeriodic
  new n := n
  part r := if r = 1 then [⟨[1, 2], [0], ⟨1, 1, 2, 1, 1⟩, []⟩] else []
  vpart r := if r = 0 then [⟨[0, 1], []⟩] else [⟨[1, 2], [0]⟩]
  bc _ := none
  dirOwned _ := []
  vals _ _ _ := 0
  v _ _ := 0

/-- The same mesh on one rank. -/
def exOneSetup : Setup where
  dpn := 1
  counts := [3]
  ghosts := fun _ => []
  pghosts := fun _ => []
  per := fun r => if r = 0 then [(1, [some 0])] else []
  visits := fun r => if r = 0 then [⟨[0, 1], []⟩, ⟨[1, 2], [0]⟩] else []

def exOne : Run where
  s := exOneSetup
  new n := n
  part r := if r = 0 then [⟨[1, 2], [0], ⟨1, 1, 2, 1, 1⟩, []⟩] else []
  vpart r := if r = 0 then [⟨[0, 1], []⟩, ⟨[1, 2], [0]⟩] else []
  bc _ := none
  dirOwned _ := []
  vals _ _ _ := 0
  v _ _ := 0

theorem exOne_lookup {r n j a : Nat} (h : exOneSetup.lookup r n j = some a) : r = 0 ∧ n = 1 ∧ j = 0 ∧ a = 0 :=
  exPeriodic_lookup h

theorem exOne_ok : exOneSetup.Ok := by
  have hlen : exOneSetup.counts.length = 1 := rfl
  refine ⟨?_, ?_, ?_, ?_, ?_⟩
  · rw [hlen]; decide
  · rw [hlen]
    intro r hr
    have : ∀ r < 1, ∀ v ∈ exOneSetup.visits r, (∀ n ∈ v.nodes, exOneSetup.owns r n = true ∨ n ∈ exOneSetup.ghosts r) ∧ ∀ j ∈ v.active, j < exOneSetup.dpn := by
      intro r hr
      interval_cases r
      simp [exOneSetup]; decide
    exact this r hr
  · rw [hlen]; decide
  · intro r _ n j a hl
    obtain ⟨rfl, rfl, rfl, rfl⟩ := exOne_lookup hl
    exact Or.inl (by decide)
  · intro r _ n j a hl
    obtain ⟨rfl, rfl, rfl, rfl⟩ := exOne_lookup hl
    decide +kernel

theorem rep_ex (s : Setup) (hl : ∀ r n j a, s.lookup r n j = some a → r = 0 ∧ n = 1 ∧ j = 0 ∧ a = 0) (h1 : s.rep 1 0 = 0) (n j : Nat) :
    s.rep n j = if n = 1 ∧ j = 0 then 0 else n := by
  by_cases h : n = 1 ∧ j = 0
  · rw [if_pos h, h.1, h.2]; exact h1
  · rw [if_neg h]
    unfold Setup.rep
    cases hc : s.lookup (s.owner n) n j with
    | none => rfl
    | some a => obtain ⟨_, e1, e2, _⟩ := hl _ _ _ _ hc; exact absurd ⟨e1, e2⟩ h

theorem exTwo_of : exTwo.Of exProb := by
  refine ⟨exPeriodic_ok, rfl, ?_, ?_, ?_, ?_, ?_, ?_, ?_, ?_, ?_⟩
  · intro m
    change m < 3 ↔ ∃ n, n < 3 ∧ n = m
    constructor
    · intro h; exact ⟨m, h, rfl⟩
    · rintro ⟨n, h, rfl⟩; exact h
  · exact List.Perm.refl _
  · exact List.Perm.refl _
  · intro r hr
    refine sees_of_eq exPeriodic_ok hr ?_
    have : r < 2 := hr
    interval_cases r <;> rfl
  · intro r hr e he
    have : r < 2 := hr
    interval_cases r
    · cases he
    · simp [exTwo] at he; subst he; exact ⟨⟨[1, 2], [0]⟩, by simp [exTwo], fun _ h => h, fun _ h => h⟩
  · intro j n n' _ _
    change exPeriodic.rep n j = exPeriodic.rep n' j ↔ _
    rw [rep_ex exPeriodic (fun _ _ _ _ h => exPeriodic_lookup h) (by decide +kernel), rep_ex exPeriodic (fun _ _ _ _ h => exPeriodic_lookup h) (by decide +kernel)]
    exact Iff.rfl
  · intro r _ d _
    constructor
    · intro h; cases h
    · rintro ⟨_, _, h, _⟩; cases h
  · intro r _
    refine ⟨List.nodup_nil, fun d => ⟨fun h => (by cases h), fun h => ?_⟩⟩
    cases h.2
  · intro k _ h; cases h

theorem exOne_of : exOne.Of exProb := by
  refine ⟨exOne_ok, rfl, ?_, ?_, ?_, ?_, ?_, ?_, ?_, ?_, ?_⟩
  · intro m
    change m < 3 ↔ ∃ n, n < 3 ∧ n = m
    constructor
    · intro h; exact ⟨m, h, rfl⟩
    · rintro ⟨n, h, rfl⟩; exact h
  · exact List.Perm.refl _
  · exact List.Perm.refl _
  · intro r hr
    refine sees_of_eq exOne_ok hr ?_
    have : r < 1 := hr
    interval_cases r; rfl
  · intro r hr e he
    have : r < 1 := hr
    interval_cases r
    simp [exOne] at he; subst he; exact ⟨⟨[1, 2], [0]⟩, by simp [exOne], fun _ h => h, fun _ h => h⟩
  · intro j n n' _ _
    change exOneSetup.rep n j = exOneSetup.rep n' j ↔ _
    rw [rep_ex exOneSetup (fun _ _ _ _ h => exOne_lookup h) (by decide +kernel), rep_ex exOneSetup (fun _ _ _ _ h => exOne_lookup h) (by decide +kernel)]
    exact Iff.rfl
  · intro r _ d _
    constructor
    · intro h; cases h
    · rintro ⟨_, _, h, _⟩; cases h
  · intro r _
    refine ⟨List.nodup_nil, fun d => ⟨fun h => (by cases h), fun h => ?_⟩⟩
    cases h.2
  · intro k _ h; cases h

/-- **C112, violated** with periodic boundaries: the mesh of `exProb` has two unknowns on one rank and one on two ranks, where the rank
with the element has the redirected node as a ghost and its representative is marked by nobody (C39). -/
theorem C112_violated : ¬ C112Statement := by
  intro h
  have := h exProb exProb_ok exOne exTwo exOne_of exTwo_of
  revert this
  decide +kernel

example : exOne.s.total = 2 ∧ exTwo.s.total = 1 ∧ exTwo.s.map 1 1 = some [none] := by decide +kernel

/-! ### A mesh on two ranks, and on one rank with the nodes numbered backwards -/

/-- Data of the point at node `b` of a line element, equations `u = 1`. -/
def exUpd (b : Nat) : Batch.Upd :=
  ⟨fun k e w => if k = 0 ∧ e = w then 1 else 0, fun _ _ => 1, fun b' => if b' = b then 1 else 0, fun _ _ => 3, 2⟩

/-- Two line elements, the second with two components; component 0 is prescribed at node 0. -/
def exMesh : MProblem where
  dpn := 2
  node n := n < 3
  elems := [⟨[0, 1], [0], ⟨1, 1, 2, 1, 1⟩, [exUpd 0, exUpd 1]⟩, ⟨[1, 2], [0, 1], ⟨2, 2, 2, 1, 1⟩, [exUpd 0, exUpd 1]⟩]
  visits := [⟨[0, 1], [0]⟩, ⟨[1, 2], [0, 1]⟩]
  ident _ n n' := n = n'
  dir k := k = (0, 0)
  val _ _ := 1

theorem exMesh_ok : exMesh.Ok := by
  refine ⟨?_, ?_, ?_, ?_, ?_⟩
  · intro e he
    simp only [exMesh, List.mem_cons, List.not_mem_nil, or_false] at he
    rcases he with rfl | rfl <;> exact ⟨rfl, rfl⟩
  · intro e he
    simp only [exMesh, List.mem_cons, List.not_mem_nil, or_false] at he
    rcases he with rfl | rfl
    · exact ⟨⟨[0, 1], [0]⟩, by simp [exMesh], fun _ h => h, fun _ h => h⟩
    · exact ⟨⟨[1, 2], [0, 1]⟩, by simp [exMesh], fun _ h => h, fun _ h => h⟩
  · intro w hw
    simp only [exMesh, List.mem_cons, List.not_mem_nil, or_false] at hw
    rcases hw with rfl | rfl <;> simp [exMesh]
  · intro j n _; rfl
  · intro e he U hU
    have : U = exUpd 0 ∨ U = exUpd 1 := by
      simp only [exMesh, List.mem_cons, List.not_mem_nil, or_false] at he
      rcases he with rfl | rfl <;> simpa using hU
    rcases this with rfl | rfl <;> norm_num [exUpd]

/-- On two ranks (`exPlain`): node 0 and 1 on rank 0, node 2 on rank 1. -/
def exMeshTwo : Run where
  s := exPlain
  new n := n
  part r := if r = 0 then [⟨[0, 1], [0], ⟨1, 1, 2, 1, 1⟩, [exUpd 0, exUpd 1]⟩] else [⟨[1, 2], [0, 1], ⟨2, 2, 2, 1, 1⟩, [exUpd 0, exUpd 1]⟩]
  vpart r := if r = 0 then [⟨[0, 1], [0]⟩] else [⟨[1, 2], [0, 1]⟩]
  bc r := some fun d => decide (r = 0 ∧ d = 0)
  dirOwned r := if r = 0 then [0] else []
  vals _ _ _ := 1
  v _ _ := 1

def exBackSetup : Setup where
  dpn := 2
  counts := [3]
  ghosts := fun _ => []
  pghosts := fun _ => []
  per := fun _ => []
  visits := fun r => if r = 0 then [⟨[1, 0], [0, 1]⟩, ⟨[2, 1], [0]⟩] else []

/-- On one rank, nodes numbered backwards, elements in the other order. -/
def exMeshOne : Run where
  s := exBackSetup
  new n := 2 - n
  part r := if r = 0 then [⟨[1, 2], [0, 1], ⟨2, 2, 2, 1, 1⟩, [exUpd 0, exUpd 1]⟩, ⟨[0, 1], [0], ⟨1, 1, 2, 1, 1⟩, [exUpd 0, exUpd 1]⟩] else []
  vpart r := if r = 0 then [⟨[1, 2], [0, 1]⟩, ⟨[0, 1], [0]⟩] else []
  bc _ := some fun d => decide (d = 4)
  dirOwned _ := [4]
  vals _ _ _ := 1
  v _ _ := 1

theorem exUsed : exMesh.toProblem.used (0, 0) :=
  ⟨show 0 < 3 by decide, by decide, ⟨[0, 1], [0]⟩, by simp [exMesh], 0, by simp, by simp, rfl⟩

theorem exD (R : Run) (g : Nat) : R.D exMesh g ↔ R.num (0, 0) = g := by
  constructor
  · rintro ⟨k, _, rfl, h⟩; exact h
  · intro h; exact ⟨(0, 0), exUsed, rfl, h⟩

theorem rep_plain (s : Setup) (h : ∀ r, s.per r = []) (n j : Nat) : s.rep n j = n := by
  unfold Setup.rep Setup.lookup; rw [h]; rfl

theorem exPlain_ok : exPlain.Ok := by
  refine ⟨by decide, ?_, by decide, ?_, ?_⟩
  · intro r hr
    have : ∀ r < 2, ∀ v ∈ exPlain.visits r, (∀ n ∈ v.nodes, exPlain.owns r n = true ∨ n ∈ exPlain.ghosts r) ∧ ∀ j ∈ v.active, j < exPlain.dpn := by
      intro r hr
      interval_cases r <;> simp [exPlain] <;> decide
    exact this r hr
  · intro r _ n j a h; simp [Setup.lookup, exPlain] at h
  · intro r _ n j a h; simp [Setup.lookup, exPlain] at h

theorem exBack_ok : exBackSetup.Ok := by
  refine ⟨by decide, ?_, by decide, ?_, ?_⟩
  · intro r hr
    have : ∀ r < 1, ∀ v ∈ exBackSetup.visits r, (∀ n ∈ v.nodes, exBackSetup.owns r n = true ∨ n ∈ exBackSetup.ghosts r) ∧ ∀ j ∈ v.active, j < exBackSetup.dpn := by
      intro r hr
      interval_cases r
      simp [exBackSetup]; decide
    exact this r hr
  · intro r _ n j a h; simp [Setup.lookup, exBackSetup] at h
  · intro r _ n j a h; simp [Setup.lookup, exBackSetup] at h

theorem exMeshTwo_of : exMeshTwo.Of exMesh := by
  refine ⟨exPlain_ok, rfl, ?_, ?_, ?_, ?_, ?_, ?_, ?_, ?_, ?_⟩
  · intro m
    change m < 3 ↔ ∃ n, n < 3 ∧ n = m
    constructor
    · intro h; exact ⟨m, h, rfl⟩
    · rintro ⟨n, h, rfl⟩; exact h
  · exact List.Perm.refl _
  · exact List.Perm.refl _
  · intro r hr
    refine sees_of_eq exPlain_ok hr ?_
    have : r < 2 := hr
    interval_cases r <;> rfl
  · intro r hr e he
    have : r < 2 := hr
    interval_cases r
    · simp [exMeshTwo] at he; subst he; exact ⟨⟨[0, 1], [0]⟩, by simp [exMeshTwo], fun _ h => h, fun _ h => h⟩
    · simp [exMeshTwo] at he; subst he; exact ⟨⟨[1, 2], [0, 1]⟩, by simp [exMeshTwo], fun _ h => h, fun _ h => h⟩
  · intro j n n' _ _
    change exPlain.rep n j = exPlain.rep n' j ↔ _
    rw [rep_plain _ fun _ => rfl, rep_plain _ fun _ => rfl]
    exact Iff.rfl
  · intro r hr d hd
    rw [exD, show exMeshTwo.num (0, 0) = 0 by decide +kernel]
    change decide (r = 0 ∧ d = 0) = true ↔ _
    have : r < 2 := hr
    interval_cases r
    · have : d < 3 := lt_of_lt_of_eq hd (by decide +kernel : (exMeshTwo.l2g 0).length = 3)
      interval_cases d <;> decide +kernel
    · have : d < 4 := lt_of_lt_of_eq hd (by decide +kernel : (exMeshTwo.l2g 1).length = 4)
      interval_cases d <;> decide +kernel
  · intro r hr
    have : r < 2 := hr
    interval_cases r
    · refine ⟨by decide +kernel, fun d => ?_⟩
      change d ∈ [0] ↔ d < exPlain.numOwned 0 ∧ decide (0 = 0 ∧ d = 0) = true
      rw [show exPlain.numOwned 0 = 3 by decide +kernel]
      simp; omega
    · refine ⟨by decide +kernel, fun d => ?_⟩
      change d ∈ [] ↔ d < exPlain.numOwned 1 ∧ decide (1 = 0 ∧ d = 0) = true
      simp
  · intro k _ _ c; rfl

theorem exMeshOne_of : exMeshOne.Of exMesh := by
  refine ⟨exBack_ok, rfl, ?_, ?_, ?_, ?_, ?_, ?_, ?_, ?_, ?_⟩
  · intro m
    change m < 3 ↔ ∃ n, n < 3 ∧ 2 - n = m
    constructor
    · intro h; exact ⟨2 - m, by omega, by omega⟩
    · rintro ⟨n, h, rfl⟩; omega
  · exact List.Perm.swap _ _ _
  · exact List.Perm.swap _ _ _
  · intro r hr
    refine sees_of_eq exBack_ok hr ?_
    have : r < 1 := hr
    interval_cases r; rfl
  · intro r hr e he
    have : r < 1 := hr
    interval_cases r
    simp only [exMeshOne, if_true, List.mem_cons, List.not_mem_nil, or_false] at he
    rcases he with rfl | rfl
    · exact ⟨⟨[1, 2], [0, 1]⟩, by simp [exMeshOne], fun _ h => h, fun _ h => h⟩
    · exact ⟨⟨[0, 1], [0]⟩, by simp [exMeshOne], fun _ h => h, fun _ h => h⟩
  · intro j n n' hn hn'
    change exBackSetup.rep (2 - n) j = exBackSetup.rep (2 - n') j ↔ n = n'
    rw [rep_plain _ fun _ => rfl, rep_plain _ fun _ => rfl]
    have : n < 3 := hn
    have : n' < 3 := hn'
    omega
  · intro r hr d hd
    rw [exD, show exMeshOne.num (0, 0) = 4 by decide +kernel]
    change decide (d = 4) = true ↔ _
    have : r < 1 := hr
    interval_cases r
    have : d < 5 := lt_of_lt_of_eq hd (by decide +kernel : (exMeshOne.l2g 0).length = 5)
    interval_cases d <;> decide +kernel
  · intro r hr
    have : r < 1 := hr
    interval_cases r
    refine ⟨by decide +kernel, fun d => ?_⟩
    change d ∈ [4] ↔ d < exBackSetup.numOwned 0 ∧ decide (d = 4) = true
    rw [show exBackSetup.numOwned 0 = 5 by decide +kernel]
    simp; omega
  · intro k _ _ c; rfl

theorem exJ (f : Nat × Nat → ℝ) : exMesh.toProblem.J 0 f =
    2 * (f (0, 0) - 1) ^ 2 + 2 * (f (1, 0) - 1) ^ 2 +
      (2 * ((f (1, 0) - 1) ^ 2 + (f (1, 1) - 1) ^ 2) + 2 * ((f (2, 0) - 1) ^ 2 + (f (2, 1) - 1) ^ 2)) := by
  simp [Problem.J, MProblem.toProblem, exMesh, MElem.keyed, Lsq.residual, uVal, uDer, exUpd, fieldAt, sum_range_succ]

theorem exUsed_cases {k : Nat × Nat} (h : exMesh.toProblem.used k) : k = (0, 0) ∨ k = (1, 0) ∨ k = (1, 1) ∨ k = (2, 0) ∨ k = (2, 1) := by
  obtain ⟨n, j⟩ := k
  obtain ⟨_, _, w, hw, m, hm, hj, hi⟩ := h
  have hi : m = n := hi
  subst hi
  change j ∈ w.active at hj
  change w ∈ [⟨[0, 1], [0]⟩, ⟨[1, 2], [0, 1]⟩] at hw
  simp only [List.mem_cons, List.not_mem_nil, or_false] at hw
  simp only [Prod.mk.injEq]
  rcases hw with rfl | rfl <;> simp at hm hj <;> omega

/-- The only least-squares solution is the constant 1. -/
theorem exMin {f : Nat × Nat → ℝ} (h : exMesh.toProblem.Minimises 0 f) : ∀ k, exMesh.toProblem.used k → f k = 1 := by
  have h1 := h.2 (fun _ => 1) ⟨fun _ _ _ _ _ => rfl, fun _ _ _ => rfl⟩
  rw [exJ, exJ] at h1
  have key : ∀ a : ℝ, (a - 1) ^ 2 ≤ 0 → a = 1 := fun a ha => by
    have := pow_eq_zero_iff (two_ne_zero) |>.1 (le_antisymm ha (sq_nonneg (a - 1)))
    linarith
  have s0 := sq_nonneg (f (0, 0) - 1)
  have s1 := sq_nonneg (f (1, 0) - 1)
  have s2 := sq_nonneg (f (1, 1) - 1)
  have s3 := sq_nonneg (f (2, 0) - 1)
  have s4 := sq_nonneg (f (2, 1) - 1)
  intro k hk
  rcases exUsed_cases hk with rfl | rfl | rfl | rfl | rfl <;> exact key _ (by norm_num at h1; linarith)

/-- The two runs satisfy every hypothesis of `C112_runs_partial`, the one about uniqueness included: what one computes at (node 2,
component 1), its unknown 4, the other has at its unknown 1. -/
example [DecidablePred (exMeshTwo.D exMesh)] [DecidablePred (exMeshOne.D exMesh)] (x x' : Nat → ℝ)
    (h : Solves 5 2 (exMeshTwo.D exMesh) exMeshTwo.rank (fun _ => 1) x 0) (h' : Solves 5 1 (exMeshOne.D exMesh) exMeshOne.rank (fun _ => 1) x' 0) :
    x 4 = x' 1 := by
  have e1 : exMeshTwo.s.total = 5 := by decide +kernel
  have e2 : exMeshOne.s.total = 5 := by decide +kernel
  have m1 : exMeshTwo.Marked := (C112_marked exPlain_ok).2 fun _ _ => rfl
  have r := run_represents exMesh_ok exMeshTwo_of m1
  have := (C112_runs_partial exMesh_ok exMeshTwo_of exMeshOne_of m1 ((C112_marked exBack_ok).1 rfl) 0).2.2 (by
    intro x y hx hy g hg
    obtain ⟨k, hk, rfl⟩ := r.surj g hg
    rw [C112_intrinsic (problem_ok exMesh_ok) r] at hx hy
    exact (exMin hx k hk).trans (exMin hy k hk).symm)
  rw [e1, e2] at this
  have := this x x' h h' (2, 1) ⟨show 2 < 3 by decide, by decide, ⟨[1, 2], [0, 1]⟩, by simp [exMesh], 2, by simp, by simp, rfl⟩
  rwa [show exMeshTwo.num (2, 1) = 4 by decide +kernel, show exMeshOne.num (2, 1) = 1 by decide +kernel] at this

end

end Verif.Distr
