import Verif.Pipeline.Lemmas

/-! # C113: whatever the partitioner answers, the solution is the same -/
namespace Verif.Pipeline
open Verif Verif.Elem Verif.Mesh Verif.Dofs Verif.Lsq Verif.Distr Verif.Partition Verif.Split

noncomputable section

open Classical in
/-- The system assembled from the parts, elements in the order `els`: `x` solves it for right-hand side `c`. -/
def Solution (p : Prog) (parts : List Part) (els : Nat → List LElem) (vals : Nat → Nat → Nat → ℝ) (v : Nat → Nat → ℝ) (c : Nat) (x : Nat → ℝ) : Prop :=
  Solves (p.setup parts).total parts.length (p.constrained parts) (p.rank parts els vals) (fun g => v g c) x c

theorem solution_iff {kinds : List (ElType × Nat)} {m : DomMap} {bnds : List Nat} {D : Nat} (hm : MeshOk kinds m bnds D) {p : Prog} (hp : p.Ok m bnds)
    {N nParts : Nat} {parts : List Part} {f : Nat → Nat} {maps : List DomMap} (R : Result bnds m N nParts parts f maps) (hu : UniqueParent m bnds)
    {sel : Nat → List MElem} {els : Nat → List LElem} (hs : Selects p parts f maps sel els) (vals : Nat → Nat → Nat → ℝ)
    (v : Nat → Nat → ℝ) (c : Nat) (x : Nat → ℝ) [DecidablePred ((runOf p parts f maps sel els vals v).D (p.problem m N))] :
    Solution p parts els vals v c x ↔ Solves (runOf p parts f maps sel els vals v).s.total (runOf p parts f maps sel els vals v).nr ((runOf p parts f maps sel els vals v).D (p.problem m N))
      (runOf p parts f maps sel els vals v).rank (fun g => (runOf p parts f maps sel els vals v).v g c) x c := by
  have e : p.constrained parts = (runOf p parts f maps sel els vals v).D (p.problem m N) := funext fun g => propext (constrained_iff hm hp R hu hs vals v g)
  have hn : (runOf p parts f maps sel els vals v).nr = parts.length := (setup_length p R).trans R.plen.symm
  unfold Solution
  rw [run_rank hs, hn]
  simp only [e]
  change _ ↔ Solves (p.setup parts).total _ _ _ (fun g => v g c) x c
  convert Iff.rfl

/-- **C113** with reordered ranks.  Distribute one mesh in any two ways: keep it on one rank, or cut it with whatever labels the partitioner returns, in
whatever order threads and hash tables deliver, assemble the elements in any order, and hand the parts to other ranks as long as ghosts keep their order.  The systems assembled from the parts have the same number of unknowns; every solution
of one is, unknown by unknown, a solution of the other; and if one has at most one solution, so has the other, and every component
at every node gets the same value. -/
theorem C113_reordered_partial {kinds : List (ElType × Nat)} {m : DomMap} {bnds : List Nat} {D : Nat} (hm : MeshOk kinds m bnds D) (hone : OneSided m bnds) (huni : UniqueParent m bnds)
    {p : Prog} (hp : p.Ok m bnds) {nParts nParts' : Nat} {parts parts' : List Part} {f f' : Nat → Nat}
    (ho : Outcome Monotone kinds m bnds nParts parts f) (ho' : Outcome Monotone kinds m bnds nParts' parts' f') 
    {els els' : Nat → List LElem} (hels : ∀ r, (els r).Perm (p.rankElems parts r)) (hels' : ∀ r, (els' r).Perm (p.rankElems parts' r)) (vals vals' : Nat → Nat → Nat → ℝ) {v v' : Nat → Nat → ℝ}
    (hv : p.Values m parts f v) (hv' : p.Values m parts' f' v') (c : Nat) :
    (p.setup parts).total = (p.setup parts').total ∧
    (∀ x, Solution p parts els vals v c x → ∃ x', Solution p parts' els' vals' v' c x' ∧
      ∀ k, p.unknown m k → x (p.dof parts (f k.1, k.2)) = x' (p.dof parts' (f' k.1, k.2))) ∧
    ((∀ x y, Solution p parts els vals v c x → Solution p parts els vals v c y → ∀ g < (p.setup parts).total, x g = y g) →
      ∀ x x', Solution p parts els vals v c x → Solution p parts' els' vals' v' c x' →
        ∀ k, p.unknown m k → x (p.dof parts (f k.1, k.2)) = x' (p.dof parts' (f' k.1, k.2))) := by
  classical
  obtain ⟨N, maps, R⟩ := outcome_result hm hone ho
  obtain ⟨N', maps', R'⟩ := outcome_result hm hone ho'
  have hNN : N = N' := by
    have h : ∀ x, x < N ↔ x < N' := fun x => (R.nodes x).symm.trans (R'.nodes x)
    have h1 := h N
    have h2 := h N'
    omega
  subst hNN
  obtain ⟨sel, hs⟩ := order_exists R huni hp hels
  obtain ⟨sel', hs'⟩ := order_exists R' huni hp hels'
  have h1 := outcome_represents hm hp R huni hs vals hv
  have h2 := outcome_represents hm hp R' huni hs' vals' hv'
  obtain ⟨t1, t2, t3⟩ := C112_runs_partial (problem_ok' hp R.keys R.nodes) h1 h2 (run_marked hp R vals v) (run_marked hp R' vals' v') c
  refine ⟨t1, ?_, ?_⟩
  · intro x hx
    obtain ⟨x', hx', he⟩ := t2 x ((solution_iff hm hp R huni hs vals v c x).1 hx)
    exact ⟨x', (solution_iff hm hp R' huni hs' vals' v' c x').2 hx', fun k hk => he k ((unknown_iff hp R.nodes k).2 hk)⟩
  · intro hu x x' hx hx' k hk
    exact t3 (fun x y hx hy => hu x y ((solution_iff hm hp R huni hs vals v c x).2 hx) ((solution_iff hm hp R huni hs vals v c y).2 hy)) x x'
      ((solution_iff hm hp R huni hs vals v c x).1 hx) ((solution_iff hm hp R' huni hs' vals' v' c x').1 hx') k ((unknown_iff hp R.nodes k).2 hk)

theorem Outcome.mono {Q Q' : List Part → List Nat → Prop} (hQ : ∀ parts src, Q parts src → Q' parts src) {kinds : List (ElType × Nat)} {m : DomMap} {bnds : List Nat}
    {nParts : Nat} {parts : List Part} {f : Nat → Nat} (h : Outcome Q kinds m bnds nParts parts f) : Outcome Q' kinds m bnds nParts parts f := by
  induction h with
  | whole N hN views => exact .whole N hN views
  | parts nParts epart npart perm hl shuffle ord hshuf hord parts φ h => exact .parts nParts epart npart perm hl shuffle ord hshuf hord parts φ h
  | reordered nParts parts f _ src hsrc hq parts' h' ih => exact .reordered nParts parts f ih src hsrc (hQ _ _ hq) parts' h'

/-- **C113** (as distributed by default).  One mesh, kept on one rank or cut with whatever labels the partitioner returns, elements
assembled in any order: the systems have the
same number of unknowns; every solution of one is, unknown by unknown, a solution of the other; and if one has at most one solution,
every component at every node gets the same value in both. -/
theorem C113_same_answer {kinds : List (ElType × Nat)} {m : DomMap} {bnds : List Nat} {D : Nat} (hm : MeshOk kinds m bnds D) (hone : OneSided m bnds) (huni : UniqueParent m bnds)
    {p : Prog} (hp : p.Ok m bnds) {nParts nParts' : Nat} {parts parts' : List Part} {f f' : Nat → Nat}
    (ho : Outcome NoReorder kinds m bnds nParts parts f) (ho' : Outcome NoReorder kinds m bnds nParts' parts' f') 
    {els els' : Nat → List LElem} (hels : ∀ r, (els r).Perm (p.rankElems parts r)) (hels' : ∀ r, (els' r).Perm (p.rankElems parts' r)) (vals vals' : Nat → Nat → Nat → ℝ) {v v' : Nat → Nat → ℝ}
    (hv : p.Values m parts f v) (hv' : p.Values m parts' f' v') (c : Nat) :
    (p.setup parts).total = (p.setup parts').total ∧
    (∀ x, Solution p parts els vals v c x → ∃ x', Solution p parts' els' vals' v' c x' ∧
      ∀ k, p.unknown m k → x (p.dof parts (f k.1, k.2)) = x' (p.dof parts' (f' k.1, k.2))) ∧
    ((∀ x y, Solution p parts els vals v c x → Solution p parts els vals v c y → ∀ g < (p.setup parts).total, x g = y g) →
      ∀ x x', Solution p parts els vals v c x → Solution p parts' els' vals' v' c x' →
        ∀ k, p.unknown m k → x (p.dof parts (f k.1, k.2)) = x' (p.dof parts' (f' k.1, k.2))) :=
  C113_reordered_partial hm hone huni hp (ho.mono fun _ _ h => h.elim) (ho'.mono fun _ _ h => h.elim) hels hels' vals vals' hv hv' c

/-- Full statement with any reordering of the ranks, for the number of unknowns alone. -/
def C113Statement : Prop :=
  ∀ (kinds : List (ElType × Nat)) (m : DomMap) (bnds : List Nat) (D : Nat), MeshOk kinds m bnds D → OneSided m bnds → UniqueParent m bnds → ∀ p : Prog, p.Ok m bnds →
    ∀ nParts nParts' parts parts' f f', Outcome AnyReorder kinds m bnds nParts parts f → Outcome AnyReorder kinds m bnds nParts' parts' f' →
    (p.setup parts).total = (p.setup parts').total

/-- Four line elements; domain 1 is solved on, domain 2 is not. -/
def exLines : DomMap :=
  [(1, ⟨some 1, [[], [], [⟨.line, 2, 0, [0, 1]⟩, ⟨.line, 2, 2, [1, 4]⟩]]⟩), (2, ⟨some 1, [[], [], [⟨.line, 2, 1, [2, 3]⟩, ⟨.line, 2, 3, [4, 2]⟩]]⟩)]

theorem exLines_ok : MeshOk lineKinds exLines [] 0 :=
  meshOk_of_all (wf_of_all (by decide) (by simp [OMap.Sorted, exLines]) (by decide)) (by decide) (by decide) (by decide) (by decide) (by decide)

theorem exLines_labels : Labels exLines [] 3 [0, 2, 1, 2] [0, 0, 1, 1, 2] [0, 2, 1, 3] :=
  ⟨by decide, by decide, fun x => nodes_of_all (N := 5) (by decide) (by decide) x, by decide, ⟨by decide, by decide⟩⟩

/-- One component on domain 1, no equations. -/
def exBare : Prog := ⟨1, [([1], [0])], [], [], [], fun _ _ => 0⟩

/-- The three parts. -/
def exParts : List Part :=
  [⟨[(1, ⟨some 1, [[], [], [⟨.line, 2, 0, [0, 1]⟩]]⟩)], ⟨0, 2, []⟩, []⟩, ⟨[(2, ⟨some 1, [[], [], [⟨.line, 2, 1, [2, 3]⟩]]⟩)], ⟨2, 2, []⟩, []⟩,
   ⟨[(1, ⟨some 1, [[], [], [⟨.line, 2, 2, [1, 4]⟩]]⟩), (2, ⟨some 1, [[], [], [⟨.line, 2, 3, [4, 2]⟩]]⟩)], ⟨4, 1, [1, 2]⟩, []⟩]

/-- The three parts after the first two changed ranks. -/
def exSwapped : List Part :=
  [⟨[(2, ⟨some 1, [[], [], [⟨.line, 2, 1, [0, 1]⟩]]⟩)], ⟨0, 2, []⟩, []⟩, ⟨[(1, ⟨some 1, [[], [], [⟨.line, 2, 0, [2, 3]⟩]]⟩)], ⟨2, 2, []⟩, []⟩,
   ⟨[(1, ⟨some 1, [[], [], [⟨.line, 2, 2, [0, 4]⟩]]⟩), (2, ⟨some 1, [[], [], [⟨.line, 2, 3, [4, 3]⟩]]⟩)], ⟨4, 1, [0, 3]⟩, []⟩]

deriving instance DecidableEq for Own.SegOwn
deriving instance DecidableEq for Split.Part

theorem exParts_eq : (partitionImpl lineKinds exLines [] 3 [0, 2, 1, 2] [0, 0, 1, 1, 2] [0, 2, 1, 3] id (fun _ _ => id)).map (·.1) = some exParts := by
  have h1 : distribute lineKinds exLines [] 3 [0, 2, 1, 2] [0, 2, 1, 3] id = some (exParts.map (·.doms)) := by decide +kernel
  have h2 : assignNodes [0, 0, 1, 1, 2] (exParts.map (·.doms)) = some [([0, 1], []), ([2, 3], []), ([4], [1, 2])] := by
    have hog : (exParts.map (·.doms)).zipIdx.map (fun m => ownGhost [0, 0, 1, 1, 2] m.1 m.2) = [([0, 1], []), ([2, 3], []), ([4], [1, 2])] := by decide +kernel
    have hdis : (([([0, 1], []), ([2, 3], []), ([4], [1, 2])] : List (List Nat × List Nat)).zipIdx.map fun p => disjointOf [0, 0, 1, 1, 2] p.1.1 p.2).flatten = [] := by decide +kernel
    unfold assignNodes
    simp only [hog, hdis]
    simp [reassign, claim, Std.sort]
  unfold partitionImpl
  rw [h1, Option.bind_some]
  unfold finish
  rw [h2, Option.bind_some]
  decide +kernel

theorem exSwapped_eq : reorder exParts [1, 0, 2] = some exSwapped := by decide +kernel

theorem exBare_ok : exBare.Ok exLines [] := by
  refine ⟨?_, ?_, ?_, ?_, ?_, ?_, ?_, ?_⟩
  · intro d hd j hj
    simp only [exBare, List.mem_cons, List.not_mem_nil, or_false] at hd
    subst hd
    simp only [List.mem_cons, List.not_mem_nil, or_false] at hj
    subst hj
    exact Nat.one_pos
  all_goals intro K hK; exact absurd hK List.not_mem_nil

theorem ex_outcome (Q : List Part → List Nat → Prop) : ∃ f, Outcome Q lineKinds exLines [] 3 exParts f := by
  obtain ⟨⟨parts, φ⟩, h, he⟩ := Option.map_eq_some_iff.1 exParts_eq
  obtain rfl : parts = exParts := he
  exact ⟨_, .parts 3 _ _ _ exLines_labels id (fun _ _ => id) (fun _ => List.Perm.refl _) (fun _ _ _ => List.Perm.refl _) _ φ h⟩

/-- **C113** fails when ranks are reordered: after the exchange of two ranks an element of the third is attached to a node of the wrong one; the system
on the same mesh has four unknowns instead of three. -/
theorem C113_reordering_violated : ¬ C113Statement := by
  intro h
  obtain ⟨f, ho⟩ := ex_outcome AnyReorder
  have := h lineKinds exLines [] 0 exLines_ok (fun b hb => absurd hb List.not_mem_nil) (fun b hb => absurd hb List.not_mem_nil) exBare exBare_ok 3 3 exParts exSwapped f _ ho
    (.reordered 3 exParts f ho [1, 0, 2] (by decide) trivial exSwapped exSwapped_eq)
  revert this
  decide +kernel

example : (exBare.setup exParts).total = 3 ∧ (exBare.setup exSwapped).total = 4 := by decide +kernel

/-- Exchanging the last two ranks instead keeps the order of ghosts: hypotheses of `C113_reordered_partial`. -/
example : Monotone exParts [0, 2, 1] ∧ ∃ parts' f, Outcome Monotone lineKinds exLines [] 3 parts' f ∧ (exBare.setup parts').total = 3 := by
  have hm : Monotone exParts [0, 2, 1] := by unfold Monotone; decide +kernel
  obtain ⟨f, ho⟩ := ex_outcome Monotone
  obtain ⟨parts', h'⟩ := Option.isSome_iff_exists.1 (show (reorder exParts [0, 2, 1]).isSome = true by decide +kernel)
  have ho' := Outcome.reordered 3 exParts f ho [0, 2, 1] (by decide) hm parts' h'
  refine ⟨hm, parts', _, ho', ?_⟩
  have := (C113_reordered_partial exLines_ok (fun b hb => absurd hb List.not_mem_nil) (fun b hb => absurd hb List.not_mem_nil) exBare_ok ho ho'
    (fun _ => List.Perm.refl _) (fun _ => List.Perm.refl _) (fun _ _ _ => 0) (fun _ _ _ => 0)
    (v := fun _ _ => 0) (v' := fun _ _ => 0) (fun _ _ h => absurd h (by rintro ⟨d, hd, _⟩; exact absurd hd List.not_mem_nil))
    (fun _ _ h => absurd h (by rintro ⟨d, hd, _⟩; exact absurd hd List.not_mem_nil)) 0).1
  rw [← this]
  decide +kernel

/-- Equations `u = 1` at one point, weight 2. -/
def exUpd4 : Batch.Upd := ⟨fun k e w => if k = 0 ∧ e = w then 1 else 0, fun _ _ => 1, fun _ => 1, fun _ _ => 3, 2⟩

/-- One component on two quadrilaterals, a kernel on both, another on boundary 7, value 1 on boundary 7. -/
def exProg : Prog :=
  ⟨1, [([0], [0])], [⟨[0], [0], fun _ _ => ⟨1, 1, 4, 1, 1⟩, fun _ _ i => if i = 0 then [exUpd4] else [exUpd4, exUpd4]⟩],
    [⟨[7], [0], fun _ _ => ⟨1, 1, 4, 1, 1⟩, fun _ _ _ s => if s = 0 then [exUpd4] else [exUpd4, exUpd4]⟩], [([7], [0])], fun _ _ => 1⟩

theorem exUpd4_pos {l : List Batch.Upd} {c : Prop} [Decidable c] (h : ∀ U, U ∈ l ↔ U ∈ if c then [exUpd4] else [exUpd4, exUpd4]) : ∀ U ∈ l, 0 ≤ U.w := by
  intro U hU
  have hU := (h U).1 hU
  have hU' : U = exUpd4 := by split at hU <;> simpa using hU
  subst hU'
  change (0 : ℝ) ≤ 2
  norm_num

/-- The views of boundary 7. -/
theorem twoQuads_views : ∀ x ∈ visitIds twoQuads.doms [7], ∃ v, viewOf twoQuads.doms x = some v ∧ v.1.nodes.length = 4 ∧ v.1 ∈ visitIds twoQuads.doms [0] := by
  decide +kernel

theorem twoQuads_unique : UniqueParent twoQuads.doms [7] := by
  have h : ∀ x ∈ visitIds twoQuads.doms [7], ∀ d ∈ twoQuads.doms, ∀ e ∈ d.2.elems, ∀ s < nSides e, (∃ l, sideNodes e s = some l ∧ l.Perm x.nodes) →
      ∀ d' ∈ twoQuads.doms, ∀ e' ∈ d'.2.elems, ∀ s' < nSides e', (∃ l, sideNodes e' s' = some l ∧ l.Perm x.nodes) → e = e' ∧ s = s' := by decide +kernel
  have lt : ∀ {e s l}, sideNodes e s = some l → s < nSides e := by
    intro e s l hl
    obtain ⟨inds, hi, _⟩ := Option.map_eq_some_iff.1 hl
    exact (List.getElem?_eq_some_iff.1 hi).1
  intro b hb x hx e s e' s' h1 h2
  obtain ⟨⟨d, hd, _, v, hv, he⟩, l, hl, hp⟩ := h1
  obtain ⟨⟨d', hd', _, v', hv', he'⟩, l', hl', hp'⟩ := h2
  exact h x (mem_visitIds.2 ⟨b, hb, hx⟩) d hd e (List.mem_flatten.2 ⟨v, hv, he⟩) s (lt hl) ⟨l, hl, hp⟩ d' hd' e' (List.mem_flatten.2 ⟨v', hv', he'⟩) s' (lt hl') ⟨l', hl', hp'⟩

theorem exProg_ok : exProg.Ok twoQuads.doms [7] := by
  refine ⟨?_, ?_, ?_, ?_, ?_, ?_, ?_, ?_⟩
  · intro d hd j hj
    simp only [exProg, List.mem_cons, List.not_mem_nil, or_false] at hd
    subst hd
    simp only [List.mem_cons, List.not_mem_nil, or_false] at hj
    subst hj
    exact Nat.one_pos
  · intro K hK k hk
    simp only [exProg, List.mem_cons, List.not_mem_nil, or_false] at hK
    subst hK
    exact ⟨([0], [0]), by simp [exProg], hk, fun _ h => h⟩
  · intro K hK e he
    simp only [exProg, List.mem_cons, List.not_mem_nil, or_false] at hK
    subst hK
    have : ∀ e ∈ visitIds twoQuads.doms [0], e.nodes.length = 4 := by decide
    exact ⟨this e he, rfl⟩
  · intro K hK t n i
    simp only [exProg, List.mem_cons, List.not_mem_nil, or_false] at hK
    subst hK
    exact exUpd4_pos fun U => Iff.rfl
  · intro K hK
    simp only [exProg, List.mem_cons, List.not_mem_nil, or_false] at hK
    subst hK
    exact fun _ h => h
  · intro K hK x hx e s hv k hk
    simp only [exProg, List.mem_cons, List.not_mem_nil, or_false] at hK
    subst hK
    obtain ⟨v, hv', _, hin⟩ := twoQuads_views x hx
    obtain rfl : v = (e, s) := Option.some.inj (hv'.symm.trans hv)
    have hone : ∀ d ∈ twoQuads.doms, ∀ e ∈ d.2.elems, e ∈ visitIds twoQuads.doms [0] → d.1 = 0 := by decide +kernel
    obtain ⟨d, hd, he⟩ := hk
    obtain rfl := hone _ (Mesh.mem_of_lookup hd) e he hin
    exact ⟨([0], [0]), by simp [exProg], by simp, fun _ h => h⟩
  · intro K hK x hx e s hv
    simp only [exProg, List.mem_cons, List.not_mem_nil, or_false] at hK
    subst hK
    obtain ⟨v, hv', hl, _⟩ := twoQuads_views x hx
    obtain rfl : v = (e, s) := Option.some.inj (hv'.symm.trans hv)
    exact ⟨hl, rfl⟩
  · intro K hK t n i s
    simp only [exProg, List.mem_cons, List.not_mem_nil, or_false] at hK
    subst hK
    exact exUpd4_pos fun U => Iff.rfl

/-- Hypotheses of `C113_same_answer`: two quadrilaterals with prescribed values, on one rank and on two. -/
example : ∃ parts f, Outcome NoReorder lineKinds twoQuads.doms [7] 2 parts f ∧ Outcome NoReorder lineKinds twoQuads.doms [7] 1 [⟨twoQuads.doms, ⟨0, 6, []⟩, twoQuads.bnds⟩] id ∧
    exProg.Ok twoQuads.doms [7] ∧ MeshOk lineKinds twoQuads.doms [7] 1 ∧ OneSided twoQuads.doms [7] ∧ UniqueParent twoQuads.doms [7] ∧ (exProg.melems twoQuads.doms).length = 4 ∧
    exProg.Values twoQuads.doms parts f (fun _ _ => 1) ∧ exProg.prescribed twoQuads.doms (3, 0) ∧ exProg.unknown twoQuads.doms (3, 0) ∧
    (exProg.setup parts).total = 6 := by
  have hone : OneSided twoQuads.doms [7] := oneSided_of_all twoQuads_meshOk.wf (by decide +kernel)
  have hN : ∀ x, NodeIn twoQuads.doms x ↔ x < 6 := fun x => nodes_of_all (N := 6) (by decide) (by decide) x
  have hl : Labels twoQuads.doms [7] 2 [1, 0] [1, 0, 0, 1, 0, 0] [0, 1] := ⟨by decide, by decide, hN, by decide, ⟨by decide, by decide⟩⟩
  obtain ⟨parts, φ, f, maps, h1, _, _⟩ := partition_result twoQuads_meshOk hone hl id (fun _ _ => id) (fun _ => List.Perm.refl _) (fun _ _ _ => List.Perm.refl _)
  have ho : Outcome NoReorder lineKinds twoQuads.doms [7] 2 parts _ := .parts 2 _ _ _ hl id (fun _ _ => id) (fun _ => List.Perm.refl _) (fun _ _ _ => List.Perm.refl _) _ φ h1
  have hw : Outcome NoReorder lineKinds twoQuads.doms [7] 1 [⟨twoQuads.doms, ⟨0, 6, []⟩, twoQuads.bnds⟩] id := .whole 6 hN _
  refine ⟨parts, _, ho, hw, exProg_ok, twoQuads_meshOk, hone, twoQuads_unique, by decide +kernel, fun _ _ _ _ => rfl, ⟨([7], [0]), by simp [exProg], by simp, ⟨.line, 2, 2, [0, 3]⟩, by decide, by decide⟩,
    ⟨([0], [0]), by simp [exProg], by simp, ⟨.quad, 2, 0, [0, 1, 3, 4]⟩, by decide, by decide⟩, ?_⟩
  rw [(C113_same_answer twoQuads_meshOk hone twoQuads_unique exProg_ok ho hw (fun _ => List.Perm.refl _) (fun _ => List.Perm.refl _) (fun _ _ _ => 1) (fun _ _ _ => 1) (v := fun _ _ => 1) (v' := fun _ _ => 1) (fun _ _ _ _ => rfl)
    (fun _ _ _ _ => rfl) 0).1]
  decide +kernel

end

end Verif.Pipeline
