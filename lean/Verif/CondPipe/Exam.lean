import Verif.CondPipe.Run

/-! # An example: two quadrilaterals of order 2 in a ring -/
namespace Verif.CondPipe
open Verif Verif.Elem Verif.Mesh Verif.Dofs Verif.Lsq Verif.Distr Verif.Pipeline Verif.Partition Verif.Split Verif.PerPipe Verif.CondInit Verif.CondDistr

noncomputable section

def kinds3 : List (ElType × Nat) := [(.hex, 3), (.quad, 3), (.line, 3)]

def exE0 : Element := ⟨.quad, 3, 0, [0, 1, 2, 3, 4, 5, 6, 7, 8]⟩
def exE1 : Element := ⟨.quad, 3, 1, [2, 9, 10, 5, 11, 12, 8, 13, 14]⟩
def exLeft : Element := ⟨.line, 3, 2, [0, 3, 6]⟩
def exRight : Element := ⟨.line, 3, 3, [10, 12, 14]⟩

/-- Two quadrilaterals side by side, boundary 3 on the left, 4 on the right. -/
def exMesh : DomMap := [(1, ⟨some 2, [[], [exE0, exE1], []]⟩), (3, ⟨some 1, [[], [], [exLeft]]⟩), (4, ⟨some 1, [[], [], [exRight]]⟩)]

def exX (x : Nat) : Nat := [0, 1, 2, 0, 1, 2, 0, 1, 2, 3, 4, 3, 4, 3, 4].getD x 0
def exY (x : Nat) : Nat := [0, 0, 0, 1, 1, 1, 2, 2, 2, 0, 0, 1, 1, 2, 2].getD x 0

/-- Where the nodes are. -/
def exPos (x : Nat) : List ℝ := [(exX x : ℝ), (exY x : ℝ), 0]

/-- The equation `u = 1` collocated at the nodes. -/
def exKernel : Kernel where
  doms := [1]
  inds := [0]
  dims := fun _ _ => ⟨1, 1, 9, 2, 1⟩
  pts := fun _ _ _ => (List.range 9).map fun i => ⟨fun k _ _ => if k = 0 then 1 else 0, fun _ _ => 1, fun b => if b = i then 1 else 0, fun _ _ => 0, 1⟩

/-- `u = 1` everywhere, prescribed on the left side, which is joined with the right one. -/
def exProg : PProg where
  dpn := 1
  pdef := [([1], [0])]
  kernels := [exKernel]
  bkernels := []
  dirichlet := [([3], [0])]
  val := fun _ _ => 1
  defs := [(toLex ([3], toLex ([4], [4, 0, 0])), [0])]
  tol := 1 / 2
  consts := ⟨10 ^ 300, 1 / 10 ^ 300, 1 / 10 ^ 10, 1 / 10 ^ 10⟩
  junk := fun _ => 0

theorem exMesh_ok : MeshOk kinds3 exMesh [3, 4] 1 :=
  meshOk_of_all (wf_of_all (by decide) (by simp [OMap.Sorted, exMesh]) (by decide)) (by decide) (by decide) (by decide) (by decide) (by decide +kernel)

theorem exMesh_one : OneSided exMesh [3, 4] := oneSided_of_all exMesh_ok.wf (by decide +kernel)

theorem exMesh_nodes (x : Nat) : NodeIn exMesh x ↔ x < 15 := nodes_of_all (N := 15) (by decide) (by decide) x

theorem exMesh_unique : UniqueParent exMesh [3, 4] := by
  have h : ∀ x ∈ visitIds exMesh [3, 4], ∀ d ∈ exMesh, ∀ e ∈ d.2.elems, ∀ s < nSides e, (∃ l, sideNodes e s = some l ∧ l.Perm x.nodes) →
      ∀ d' ∈ exMesh, ∀ e' ∈ d'.2.elems, ∀ s' < nSides e', (∃ l, sideNodes e' s' = some l ∧ l.Perm x.nodes) → e = e' ∧ s = s' := by decide +kernel
  have lt : ∀ {e s l}, sideNodes e s = some l → s < nSides e := by
    intro e s l hl
    obtain ⟨inds, hi, _⟩ := Option.map_eq_some_iff.1 hl
    exact (List.getElem?_eq_some_iff.1 hi).1
  intro b hb x hx e s e' s' h1 h2
  obtain ⟨⟨d, hd, _, v, hv, he⟩, l, hl, hp⟩ := h1
  obtain ⟨⟨d', hd', _, v', hv', he'⟩, l', hl', hp'⟩ := h2
  exact h x (mem_visitIds.2 ⟨b, hb, hx⟩) d hd e (List.mem_flatten.2 ⟨v, hv, he⟩) s (lt hl) ⟨l, hl, hp⟩ d' hd' e' (List.mem_flatten.2 ⟨v', hv', he'⟩) s' (lt hl') ⟨l', hl', hp'⟩

theorem ex_visit : visitIds exMesh [1] = [exE0, exE1] := by decide

theorem ex_dom {k : Nat} {e : Element} (h : InDom exMesh k e) : k = 1 ∧ (e = exE0 ∨ e = exE1) ∨ k = 3 ∧ e = exLeft ∨ k = 4 ∧ e = exRight := by
  obtain ⟨d, hd, he⟩ := h
  have hd := Mesh.mem_of_lookup hd
  simp only [exMesh, List.mem_cons, List.not_mem_nil, or_false] at hd
  rcases hd with h | h | h <;> obtain ⟨rfl, rfl⟩ := Prod.mk.inj h <;> simp [Domain.elems] at he <;> simp [he]

theorem exProg_ok : exProg.toProg.Ok exMesh [3, 4] := by
  refine ⟨?_, ?_, ?_, ?_, ?_, ?_, ?_, ?_⟩
  · intro d hd j hj
    simp only [exProg, List.mem_cons, List.not_mem_nil, or_false] at hd
    subst hd
    simp only [List.mem_cons, List.not_mem_nil, or_false] at hj
    subst hj
    exact Nat.one_pos
  · intro K hK k hk
    simp only [exProg, List.mem_cons, List.not_mem_nil, or_false] at hK
    subst hK
    exact ⟨([1], [0]), List.mem_singleton.2 rfl, hk, fun _ h => h⟩
  · intro K hK e he
    simp only [exProg, List.mem_cons, List.not_mem_nil, or_false] at hK
    subst hK
    have he : e ∈ [exE0, exE1] := by rw [← ex_visit]; exact he
    simp only [List.mem_cons, List.not_mem_nil, or_false] at he
    rcases he with rfl | rfl <;> exact ⟨rfl, rfl⟩
  · intro K hK t n i U hU
    simp only [exProg, List.mem_cons, List.not_mem_nil, or_false] at hK
    subst hK
    obtain ⟨i, _, rfl⟩ := List.mem_map.1 hU
    norm_num
  all_goals intro K hK; exact absurd hK List.not_mem_nil

theorem ex_left {x : Nat} : OnBnd exMesh [3] x ↔ x = 0 ∨ x = 3 ∨ x = 6 := by
  unfold OnBnd
  rw [show visitIds exMesh [3] = [exLeft] by decide]
  simp [exLeft]

theorem ex_right {x : Nat} : OnBnd exMesh [4] x ↔ x = 10 ∨ x = 12 ∨ x = 14 := by
  unfold OnBnd
  rw [show visitIds exMesh [4] = [exRight] by decide]
  simp [exRight]

theorem exProg_exact : exProg.Exact exMesh [3, 4] exPos := by
  have one : ∀ d ∈ exProg.defs, d.1 = toLex ([3], toLex ([4], [4, 0, 0])) := by
    intro d hd
    simp only [exProg, List.mem_cons, List.not_mem_nil, or_false] at hd
    rw [hd]
  refine ⟨?_, ?_, ?_, ?_, ?_, ?_⟩
  · intro d hd
    rw [one d hd]
    exact ⟨fun b hb => by simp [BGroup.src] at hb; simp [hb], fun b hb => by simp [BGroup.dst] at hb; simp [hb]⟩
  · norm_num [exProg]
  · intro x; rfl
  · intro x y hx hy h
    rw [exMesh_nodes] at hx hy
    unfold exPos at h
    simp only [List.cons.injEq, Nat.cast_inj, and_true] at h
    have key : ∀ x < 15, ∀ y < 15, exX x = exX y → exY x = exY y → x = y := by decide
    exact key x hx y hy h.1 h.2
  · intro d hd
    rw [one d hd]
    exact ⟨rfl, 0, by norm_num, by norm_num [BGroup.dx]⟩
  · intro j d hd _ d' hd' _ a b ha hb hlt
    rw [one d hd] at ha hlt ⊢
    rw [one d' hd'] at hb
    have ha' := ex_left.1 ha
    have hb' := ex_right.1 hb
    refine ⟨?_, hb⟩
    revert hlt
    rcases ha' with rfl | rfl | rfl <;> rcases hb' with rfl | rfl | rfl <;> norm_num [PerMatch.sqDist, shift, exPos, exX, exY, BGroup.dx, exProg]

theorem exProg_everywhere : exProg.Everywhere exMesh [3, 4] := by
  intro d hd j hj k hk e he
  simp only [exProg, List.mem_cons, List.not_mem_nil, or_false] at hd
  subst hd
  simp only [List.mem_cons, List.not_mem_nil, or_false] at hj
  subst hj
  refine ⟨([1], [0]), List.mem_singleton.2 rfl, ?_, List.mem_singleton.2 rfl⟩
  rcases ex_dom he with ⟨rfl, _⟩ | ⟨rfl, _⟩ | ⟨rfl, _⟩
  · simp
  · simp at hk
  · simp at hk

theorem bnd_quad (v : Nat) : v ∈ boundaryInds .quad 3 ↔ v ∈ [0, 1, 2, 3, 5, 6, 7, 8] := by
  unfold boundaryInds
  rw [Std.mem_sortUniq]
  have : (table .quad 3).flatten = [0, 1, 2, 6, 7, 8, 0, 3, 6, 2, 5, 8] := by decide +kernel
  rw [this]
  simp
  omega

theorem int_quad {e : Element} (ht : e.ty = .quad) (hn : e.n = 3) (hl : e.nodes.length = 9) : (toEl 0 e).intNodes = [e.nodes.getD 4 0] := by
  unfold El.intNodes El.intPos toEl
  simp only [ht, hn, hl, bnd_quad]
  rfl

theorem bnd_quad_nodes {e : Element} (ht : e.ty = .quad) (hn : e.n = 3) (hl : e.nodes.length = 9) : (toEl 0 e).bndNodes = [0, 1, 2, 3, 5, 6, 7, 8].map fun v => e.nodes.getD v 0 := by
  unfold El.bndNodes El.bndPos toEl
  simp only [ht, hn, hl, bnd_quad]
  rfl

theorem exProg_cond : Condensable exProg exMesh [3, 4] exPos := by
  have pd : ∀ d ∈ exProg.pdef, d = ([1], [0]) := by
    intro d hd
    simpa [exProg] using hd
  have vis : ∀ d ∈ exProg.pdef, ∀ e ∈ visitIds exMesh d.1, e = exE0 ∨ e = exE1 := by
    intro d hd e he
    rw [pd d hd] at he
    rw [ex_visit] at he
    simpa using he
  refine ⟨?_, ?_, ?_, ?_, ⟨?_, ?_⟩, ?_⟩
  · intro d hd k hk
    rw [pd d hd] at hk
    simp only [List.mem_cons, List.not_mem_nil, or_false] at hk
    subst hk
    decide
  · intro d hd k hk
    simp only [exProg, List.mem_cons, List.not_mem_nil, or_false] at hd
    subst hd
    simp only [List.mem_cons, List.not_mem_nil, or_false] at hk
    subst hk
    decide
  · intro d hd e he
    rcases vis d hd e he with rfl | rfl <;> decide
  · intro d hd e he n hn e' he' hne
    obtain ⟨q, hq, v, hv, hev⟩ := he'
    have hall : e' ∈ [exE0, exE1, exLeft, exRight] := by
      simp only [exMesh, List.mem_cons, List.not_mem_nil, or_false] at hq
      have hf : ∀ q ∈ exMesh, ∀ v ∈ q.2.vecs, ∀ e' ∈ v, e' ∈ [exE0, exE1, exLeft, exRight] := by decide
      exact hf q (by simpa [exMesh] using hq) v hv e' hev
    have key : ∀ e' ∈ [exE0, exE1, exLeft, exRight], (4 ∈ e'.nodes → e' = exE0) ∧ (11 ∈ e'.nodes → e' = exE1) := by decide
    rcases vis d hd e he with rfl | rfl
    · rw [int_quad rfl rfl rfl] at hn
      have : n = 4 := by simpa [exE0] using hn
      subst this
      exact (key e' hall).1 hne
    · rw [int_quad rfl rfl rfl] at hn
      have : n = 11 := by simpa [exE1] using hn
      subst this
      exact (key e' hall).2 hne
  · intro K hK
    simp only [exProg, List.mem_cons, List.not_mem_nil, or_false] at hK
    subst hK
    exact List.pairwise_singleton _ _
  · intro K hK; exact absurd hK List.not_mem_nil
  · intro d hd k hk e he j hj _
    refine ⟨d, hd, hk, ?_⟩
    rw [pd d hd]
    have : j = 0 := by
      have : j < 1 := hj
      omega
    simp [this]

/-! ### Its solution -/

/-- The functional: squares of the differences from 1. -/
theorem ex_J (c : Nat) (F : Nat × Nat → ℝ) : (exProg.problem exMesh exPos 15).toProblem.J c F =
    ((exE0.nodes ++ exE1.nodes).map fun n => (F (n, 0) - 1) ^ 2).sum := by
  have he : (exProg.problem exMesh exPos 15).toProblem.elems = [exE0, exE1].map fun e => ⟨e.nodes.map fun n => (n, 0), ⟨1, 1, 9, 2, 1⟩, exKernel.pts e.ty e.n e.id⟩ := by
    change (exProg.toProg.melems exMesh).map MElem.keyed = _
    simp only [Prog.melems, exProg, List.flatMap_cons, List.flatMap_nil, List.append_nil, Kernel.elems]
    rw [show visitIds exMesh exKernel.doms = [exE0, exE1] from ex_visit]
    rfl
  unfold Problem.J
  rw [he]
  simp [exKernel, Lsq.residual, uVal, uDer, fieldAt, exE0, exE1, List.range_succ, Finset.sum_range_succ]
  ring

theorem ex_one (c : Nat) : (exProg.problem exMesh exPos 15).toProblem.Minimises c fun _ => 1 := by
  refine ⟨⟨fun _ _ _ _ _ => rfl, fun _ _ _ => rfl⟩, fun h _ => ?_⟩
  rw [ex_J, ex_J]
  have : (((exE0.nodes ++ exE1.nodes).map fun n => ((1 : ℝ) - 1) ^ 2)).sum = 0 := by simp
  rw [this]
  refine List.sum_nonneg ?_
  intro x hx
  obtain ⟨n, _, rfl⟩ := List.mem_map.1 hx
  positivity

theorem sum_zero {l : List ℝ} (h : ∀ x ∈ l, 0 ≤ x) (hs : l.sum ≤ 0) : ∀ x ∈ l, x = 0 := by
  induction l with
  | nil => intro x hx; cases hx
  | cons a l ih =>
    have h1 : 0 ≤ l.sum := List.sum_nonneg fun x hx => h x (by simp [hx])
    have h2 := h a (by simp)
    rw [List.sum_cons] at hs
    intro x hx
    rcases List.mem_cons.1 hx with rfl | hx
    · linarith
    · exact ih (fun x hx => h x (by simp [hx])) (by linarith) x hx

theorem ex_unique {c : Nat} {F : Nat × Nat → ℝ} (h : (exProg.problem exMesh exPos 15).toProblem.Minimises c F) : ∀ k, exProg.unknown exMesh exPos k → F k = 1 := by
  have hJ := h.2 (fun _ => 1) (ex_one c).1
  rw [ex_J, ex_J] at hJ
  have : (((exE0.nodes ++ exE1.nodes).map fun n => ((1 : ℝ) - 1) ^ 2)).sum = 0 := by simp
  rw [this] at hJ
  have hz := sum_zero (by
    intro x hx
    obtain ⟨n, _, rfl⟩ := List.mem_map.1 hx
    positivity) hJ
  rintro ⟨n, j⟩ ⟨hn, n', ⟨d, hd, hj, _⟩, _⟩
  have hd' : d = ([1], [0]) := by simpa [exProg] using hd
  rw [hd'] at hj
  have hj : j = 0 := by simpa using hj
  subst hj
  have hn := (exMesh_nodes n).1 hn
  have hm : ∀ n < 15, n ∈ exE0.nodes ++ exE1.nodes := by decide
  have := hz _ (List.mem_map.2 ⟨n, hm n hn, rfl⟩)
  have := pow_eq_zero_iff (two_ne_zero) |>.1 this
  linarith

theorem ex_only (c : Nat) {F F' : Nat × Nat → ℝ} (h : (exProg.problem exMesh exPos 15).toProblem.Minimises c F) (h' : (exProg.problem exMesh exPos 15).toProblem.Minimises c F') :
    ∀ k, exProg.unknown exMesh exPos k → F k = F' k := fun k hk => (ex_unique h k hk).trans (ex_unique h' k hk).symm

/-! ### Two parts -/

theorem exLabels : Labels exMesh [3, 4] 2 [0, 1] [0, 0, 0, 0, 0, 0, 0, 0, 0, 1, 1, 1, 1, 1, 1] [0, 1] :=
  ⟨by decide, by decide, exMesh_nodes, by decide, ⟨by decide, by decide⟩⟩

def exParts : List (DomMap × Own.SegOwn) :=
  [([(1, ⟨some 2, [[], [exE0], []]⟩), (3, ⟨some 1, [[], [], [exLeft]]⟩)], ⟨0, 9, []⟩),
   ([(1, ⟨some 2, [[], [exE1], []]⟩), (4, ⟨some 1, [[], [], [exRight]]⟩)], ⟨9, 6, [2, 5, 8]⟩)]

theorem exParts_eq : (partitionImpl kinds3 exMesh [3, 4] 2 [0, 1] [0, 0, 0, 0, 0, 0, 0, 0, 0, 1, 1, 1, 1, 1, 1] [0, 1] id (fun _ _ => id)).map
    (fun r => (r.1.map fun q => (q.doms, q.own), (List.range 15).map fun x => (r.2.find x).getD 0)) = some (exParts, List.range 15) := by
  have h1 : distribute kinds3 exMesh [3, 4] 2 [0, 1] [0, 1] id = some (exParts.map (·.1)) := by decide +kernel
  have h2 : assignNodes [0, 0, 0, 0, 0, 0, 0, 0, 0, 1, 1, 1, 1, 1, 1] (exParts.map (·.1)) = some [([0, 1, 2, 3, 4, 5, 6, 7, 8], []), ([9, 10, 11, 12, 13, 14], [2, 5, 8])] := by
    have hog : (exParts.map (·.1)).zipIdx.map (fun m => ownGhost [0, 0, 0, 0, 0, 0, 0, 0, 0, 1, 1, 1, 1, 1, 1] m.1 m.2) =
        [([0, 1, 2, 3, 4, 5, 6, 7, 8], []), ([9, 10, 11, 12, 13, 14], [2, 5, 8])] := by decide +kernel
    have hdis : (([([0, 1, 2, 3, 4, 5, 6, 7, 8], []), ([9, 10, 11, 12, 13, 14], [2, 5, 8])] : List (List Nat × List Nat)).zipIdx.map
        fun p => disjointOf [0, 0, 0, 0, 0, 0, 0, 0, 0, 1, 1, 1, 1, 1, 1] p.1.1 p.2).flatten = [] := by decide +kernel
    unfold assignNodes
    simp only [hog, hdis]
    simp [reassign, claim, Std.sort]
  unfold partitionImpl
  rw [h1, Option.bind_some]
  unfold finish
  rw [h2, Option.bind_some]
  decide +kernel

theorem ex_outcome : ∃ parts f, (∀ Q, Outcome Q kinds3 exMesh [3, 4] 2 parts f) ∧ (parts.map fun q => (q.doms, q.own)) = exParts ∧ ∀ x < 15, f x = x := by
  obtain ⟨⟨parts, φ⟩, h, he⟩ := Option.map_eq_some_iff.1 exParts_eq
  obtain ⟨h1, h2⟩ := Prod.mk.inj he
  refine ⟨parts, _, fun Q => .parts 2 _ _ _ exLabels id (fun _ _ => id) (fun _ => List.Perm.refl _) (fun _ _ _ => List.Perm.refl _) _ φ h, h1, fun x hx => ?_⟩
  have := congrArg (·[x]?) h2
  simpa [hx] using this

theorem ex_located {f : Nat → Nat} (hf : ∀ x < 15, f x = x) : Located exMesh exPos exPos f := by
  refine ⟨fun _ => rfl, fun x hx => ?_⟩
  rw [hf x ((exMesh_nodes x).1 hx)]

/-- Identity orders. -/
def exOrders : Orders := ⟨fun _ l => l, fun l => l⟩

theorem exOrders_ok : exOrders.Ok := ⟨fun _ _ => List.Perm.refl _, fun m => ⟨m, List.Perm.refl _, List.forall₂_same.2 fun a _ => ⟨rfl, List.Perm.refl _⟩⟩⟩

/-- Maps with all the dofs. -/
theorem maps_total {bnds : List Nat} {m : DomMap} {N nParts : Nat} {parts : List Part} {f : Nat → Nat} {maps : List DomMap} {p : PProg} {pos : Nat → List ℝ} {s : Setup}
    (R : Result bnds m N nParts parts f maps) (hn : CNumbered p m pos N parts f s) :
    MapsOk s parts (fun _ => List.range s.total) (fun _ => List.range s.total) fun _ => List.range s.total := by
  intro r hr
  refine ⟨List.nodup_range, List.nodup_range, List.nodup_range, fun y hy j d hd => ?_⟩
  have hr' : r < nParts := by rw [← R.plen]; exact hr
  have hk := nodeIn_knows p.toProg R hr' hy
  have hk' : s.Knows r y := by
    rcases hk with h | h
    · left
      unfold Setup.owns at h ⊢
      rw [decide_eq_true_iff] at h ⊢
      have hb : s.world.begin r = (p.toProg.setup parts).world.begin r := congrArg (fun c => (⟨c, []⟩ : Own.World).begin r) hn.counts
      rw [hb, hn.counts]
      exact h
    · right
      rw [hn.ghosts]
      exact h
  have hc : r < s.counts.length := by
    rw [hn.counts]
    exact lt_of_lt_of_eq hr' (setup_length p.toProg R).symm
  have hd' : d < s.total := by
    by_cases hj : j < s.dpn
    · exact (C39_fill hn.ok d).2 ⟨r, hc, y, j, hk', hj, hd⟩
    · rw [dofs_iff hn.ok hc j d (knows_local hk')] at hd
      rw [← all_length]
      exact (List.getElem?_eq_some_iff.1 hd).1
  simp [hd']

end

end Verif.CondPipe
