import Verif.SetVals.Spread

/-! # C124: values set through kernels are the averages over the elements of the mesh, in both systems and on any distribution -/
namespace Verif.SetVals
open Verif Verif.Elem Verif.Mesh Verif.Dofs Verif.Reach Verif.NodeVals Verif.Pipeline Verif.Partition Verif.MfPipe

noncomputable section
variable {K : Type} {c : Call K}

variable [Field K]
variable {kinds : List (ElType × Nat)} {m : DomMap} {bnds : List Nat} {D nParts : Nat} {parts : List Split.Part} {f : Nat → Nat} {p : Prog}

/-- **C124** (assembled system).  However the mesh is distributed and in whatever order the elements are processed, a call takes values held by the ranks to the values the user expects of the
mesh: at every unknown the average over the elements or sides having it, elsewhere what was there. -/
theorem C124_assembled (hm : MeshOk kinds m bnds D) (hone : OneSided m bnds) (huni : UniqueParent m bnds) (hfill : Filled m) (hp : p.Ok m bnds)
    (ho : Outcome Monotone kinds m bnds nParts parts f) (hc : c.Ok p m bnds) {old new : Nat → Nat → Nat → K} {v : Nat × Nat → Nat → K} (hrep : Rep p m parts f old v)
    (hcall : AsmCall p parts c old new) : Rep p m parts f new (specCall m c v) :=
  assembled_spread hm huni hp (outcome_spread hm hone hfill ho) hc hrep hcall

/-- **C124** (matrix-free system).  The same, whenever MPI reads the buffers, if fewer than 65536 elements contribute to one unknown (they are counted in 16 bits). -/
theorem C124_matrix_free (hm : MeshOk kinds m bnds D) (hone : OneSided m bnds) (hmf : MfMesh m bnds) (hfill : Filled m) (hp : p.Ok m bnds)
    (ho : Outcome Monotone kinds m bnds nParts parts f) (hfit : ∀ r < nParts, Fits bnds (part parts r)) (hc : c.Ok p m bnds)
    (hcnt : ∀ L, c.pts m = some L → ∀ k, (contribsAt L c.inds c.kern k).length < 65536) {old new : Nat → Nat → Nat → K} {v : Nat × Nat → Nat → K} (hrep : Rep p m parts f old v)
    (hcall : MfCall kinds bnds p parts c old new) : Rep p m parts f new (specCall m c v) :=
  matrix_free_spread hm hmf hp (outcome_spread hm hone hfill ho) hfit hc hcnt hrep hcall

/-- **C124** (no throwing).  Calls which make sense for the mesh succeed on all ranks of any distribution. -/
theorem C124_assembled_exists (hm : MeshOk kinds m bnds D) (hone : OneSided m bnds) (huni : UniqueParent m bnds) (hfill : Filled m)
    (ho : Outcome Monotone kinds m bnds nParts parts f) (hc : c.Ok p m bnds) (old : Nat → Nat → Nat → K) : ∃ new, AsmCall p parts c old new :=
  assembled_exists hm huni (outcome_spread hm hone hfill ho) hc old

theorem C124_matrix_free_exists (hm : MeshOk kinds m bnds D) (hone : OneSided m bnds) (hmf : MfMesh m bnds) (hfill : Filled m)
    (ho : Outcome Monotone kinds m bnds nParts parts f) (hfit : ∀ r < nParts, Fits bnds (part parts r)) (hc : c.Ok p m bnds) (old : Nat → Nat → Nat → K) :
    ∃ new, MfCall kinds bnds p parts c old new :=
  matrix_free_exists hm hmf (outcome_spread hm hone hfill ho) hfit hc old

/-- **C124** (several calls).  The same for any sequence of calls, later ones acting on what earlier ones left; in both systems. -/
theorem C124_calls (hm : MeshOk kinds m bnds D) (hone : OneSided m bnds) (huni : UniqueParent m bnds) (hfill : Filled m) (hp : p.Ok m bnds)
    (ho : Outcome Monotone kinds m bnds nParts parts f) {cs : List (Call K)} (hcs : ∀ c ∈ cs, c.Ok p m bnds) {old new : Nat → Nat → Nat → K} {v : Nat × Nat → Nat → K} (hrep : Rep p m parts f old v)
    (hrun : AsmCalls p parts cs old new) : Rep p m parts f new (cs.foldl (fun v c => specCall m c v) v) := by
  induction cs generalizing old v with
  | nil =>
    obtain rfl : new = old := hrun
    exact hrep
  | cons c cs ih =>
    obtain ⟨mid, h1, h2⟩ := hrun
    exact ih (fun c hc => hcs c (List.mem_cons_of_mem _ hc)) (C124_assembled hm hone huni hfill hp ho (hcs c List.mem_cons_self) hrep h1) h2

theorem C124_mf_calls (hm : MeshOk kinds m bnds D) (hone : OneSided m bnds) (hmf : MfMesh m bnds) (hfill : Filled m) (hp : p.Ok m bnds)
    (ho : Outcome Monotone kinds m bnds nParts parts f) (hfit : ∀ r < nParts, Fits bnds (part parts r)) {cs : List (Call K)} (hcs : ∀ c ∈ cs, c.Ok p m bnds)
    (hcnt : ∀ c ∈ cs, ∀ L, c.pts m = some L → ∀ k, (contribsAt L c.inds c.kern k).length < 65536) {old new : Nat → Nat → Nat → K} {v : Nat × Nat → Nat → K} (hrep : Rep p m parts f old v)
    (hrun : MfCalls kinds bnds p parts cs old new) : Rep p m parts f new (cs.foldl (fun v c => specCall m c v) v) := by
  induction cs generalizing old v with
  | nil =>
    obtain rfl : new = old := hrun
    exact hrep
  | cons c cs ih =>
    obtain ⟨mid, h1, h2⟩ := hrun
    exact ih (fun c hc => hcs c (List.mem_cons_of_mem _ hc)) (fun c hc => hcnt c (List.mem_cons_of_mem _ hc))
      (C124_matrix_free hm hone hmf hfill hp ho hfit (hcs c List.mem_cons_self) (hcnt c List.mem_cons_self) hrep h1) h2

/-- **C124** (same values).  The assembled system on one distribution of the mesh and the matrix-free one on another hold the same value of every unknown after the same calls. -/
theorem C124_same_values (hm : MeshOk kinds m bnds D) (hone : OneSided m bnds) (hmf : MfMesh m bnds) (hfill : Filled m) (hp : p.Ok m bnds)
    (ho : Outcome Monotone kinds m bnds nParts parts f) {nParts' : Nat} {parts' : List Split.Part} {f' : Nat → Nat} (ho' : Outcome Monotone kinds m bnds nParts' parts' f')
    (hfit : ∀ r < nParts', Fits bnds (part parts' r)) {cs : List (Call K)} (hcs : ∀ c ∈ cs, c.Ok p m bnds)
    (hcnt : ∀ c ∈ cs, ∀ L, c.pts m = some L → ∀ k, (contribsAt L c.inds c.kern k).length < 65536) {old new old' new' : Nat → Nat → Nat → K} {v : Nat × Nat → Nat → K}
    (hrep : Rep p m parts f old v) (hrep' : Rep p m parts' f' old' v) (hrun : AsmCalls p parts cs old new) (hrun' : MfCalls kinds bnds p parts' cs old' new') :
    ∀ k, p.unknown m k → ∀ rhs,
      new (dofHome (p.setup parts) (p.dof parts (f k.1, k.2))).1 (dofHome (p.setup parts) (p.dof parts (f k.1, k.2))).2 rhs =
        new' (dofHome (p.setup parts') (p.dof parts' (f' k.1, k.2))).1 (dofHome (p.setup parts') (p.dof parts' (f' k.1, k.2))).2 rhs := fun k hk rhs =>
  (C124_calls hm hone hmf.uniq hfill hp ho hcs hrep hrun k hk rhs).trans (C124_mf_calls hm hone hmf hfill hp ho' hfit hcs hcnt hrep' hrun' k hk rhs).symm

/-- **C124** (functions).  If what the kernel gives depends only on the node, on whatever element it is evaluated, then exactly this is what the call sets, at the nodes of the
elements of the listed domains or boundaries, and nothing else changes. -/
theorem C124_function [CharZero K] (hm : MeshOk kinds m bnds D) (hone : OneSided m bnds) (ho : Outcome Monotone kinds m bnds nParts parts f) (hc : c.Ok p m bnds)
    {u : Nat → Nat → Nat → K} (hu : ∀ L, c.pts m = some L → ∀ pt ∈ L, ∀ eq j, c.inds[eq]? = some j → ∀ rhs, c.kern.at pt eq rhs = u pt.node j rhs) (v : Nat × Nat → Nat → K) (k : Nat × Nat) (rhs : Nat) :
    ((∃ x ∈ visitIds m c.ids, k.1 ∈ x.nodes) ∧ k.2 ∈ c.inds → specCall m c v k rhs = u k.1 k.2 rhs) ∧
    (¬ ((∃ x ∈ visitIds m c.ids, k.1 ∈ x.nodes) ∧ k.2 ∈ c.inds) → specCall m c v k rhs = v k rhs) := by
  obtain ⟨L, hL⟩ := Option.isSome_iff_exists.1 hc.some
  have hnodes : (∃ x ∈ visitIds m c.ids, k.1 ∈ x.nodes) ↔ ∃ pt ∈ L, pt.node = k.1 := by
    rw [← whole_nodes hm hone ho hc hL k.1]
    unfold asmConst
    constructor
    · rintro ⟨x, hx, hn⟩
      obtain ⟨pt, hpt, h⟩ := node_gEl.2 hn
      exact ⟨pt, List.mem_flatMap.2 ⟨x, hx, hpt⟩, h⟩
    · rintro ⟨pt, hpt, h⟩
      obtain ⟨x, hx, hp⟩ := List.mem_flatMap.1 hpt
      exact ⟨x, hx, node_gEl.1 ⟨pt, hp, h⟩⟩
  have hall : ∀ g ∈ contribsAt L c.inds c.kern k, g rhs = u k.1 k.2 rhs := by
    intro g hg
    obtain ⟨pt, hpt, hg⟩ := List.mem_flatMap.1 hg
    obtain ⟨q, hq, rfl⟩ := List.mem_map.1 hg
    obtain ⟨hq1, hq2⟩ := List.mem_filter.1 hq
    obtain ⟨e1, e2⟩ := of_decide_eq_true hq2
    rw [hu L hL pt hpt q.2 q.1 (List.mem_zipIdx_iff_getElem?.1 hq1) rhs, e1, e2]
  have hne : contribsAt L c.inds c.kern k ≠ [] ↔ (∃ x ∈ visitIds m c.ids, k.1 ∈ x.nodes) ∧ k.2 ∈ c.inds := by
    rw [hnodes, Ne, ← List.isEmpty_iff, Bool.not_eq_true, List.isEmpty_eq_false_iff_exists_mem]
    constructor
    · rintro ⟨g, hg⟩
      obtain ⟨pt, hpt, hg⟩ := List.mem_flatMap.1 hg
      obtain ⟨q, hq, rfl⟩ := List.mem_map.1 hg
      obtain ⟨hq1, hq2⟩ := List.mem_filter.1 hq
      obtain ⟨e1, e2⟩ := of_decide_eq_true hq2
      exact ⟨⟨pt, hpt, e1⟩, e2 ▸ List.mem_of_getElem? (List.mem_zipIdx_iff_getElem?.1 hq1)⟩
    · rintro ⟨⟨pt, hpt, hn⟩, hj⟩
      obtain ⟨i, hi⟩ := List.mem_iff_getElem?.1 hj
      exact ⟨_, List.mem_flatMap.2 ⟨pt, hpt, List.mem_map.2 ⟨(k.2, i), List.mem_filter.2 ⟨List.mem_zipIdx_iff_getElem?.2 hi, decide_eq_true ⟨hn, rfl⟩⟩, rfl⟩⟩⟩
  unfold specCall
  rw [hL, Option.getD_some]
  constructor
  · intro h
    exact expected_const (hne.2 h) hall _
  · intro h
    have : contribsAt L c.inds c.kern k = [] := by
      by_contra h'
      exact h (hne.1 h')
    rw [this]
    rfl

/-- **C124** (same answer).  Values prescribed by the calls, in the assembled system on one distribution and in the matrix-free one on another: the systems have the same solutions. -/
theorem C124_same_answer (hm : MeshOk kinds m bnds D) (hone : OneSided m bnds) (hmf : MfMesh m bnds) (hfill : Filled m) (hp : p.Ok m bnds)
    (ho : Outcome Monotone kinds m bnds nParts parts f) {nParts' : Nat} {parts' : List Split.Part} {f' : Nat → Nat} (ho' : Outcome Monotone kinds m bnds nParts' parts' f')
    (hfit : ∀ r < nParts', Fits bnds (part parts' r)) {cs : List (Call ℝ)} (hcs : ∀ c ∈ cs, c.Ok p m bnds)
    (hcnt : ∀ c ∈ cs, ∀ L, c.pts m = some L → ∀ k, (contribsAt L c.inds c.kern k).length < 65536)
    (hval : ∀ k, p.unknown m k → p.prescribed m k → ∀ c, p.val k c = cs.foldl (fun v c => specCall m c v) (fun _ _ => 0) k c)
    {new new' : Nat → Nat → Nat → ℝ} (hrun : AsmCalls p parts cs (fun _ _ _ => 0) new) (hrun' : MfCalls kinds bnds p parts' cs (fun _ _ _ => 0) new')
    {els els' : Nat → List Lsq.LElem} (hels : ∀ r, (els r).Perm (p.rankElems parts r)) (hels' : ∀ r, (els' r).Perm (p.rankElems parts' r)) (vals vals' : Nat → Nat → Nat → ℝ) (i : Nat) :
    (∀ x, Solution p parts els vals (fun g => new (dofHome (p.setup parts) g).1 (dofHome (p.setup parts) g).2) i x →
      ∃ x', Solution p parts' els' vals' (fun g => new' (dofHome (p.setup parts') g).1 (dofHome (p.setup parts') g).2) i x' ∧
        ∀ k, p.unknown m k → x (p.dof parts (f k.1, k.2)) = x' (p.dof parts' (f' k.1, k.2))) ∧
    ((∀ x y, Solution p parts els vals (fun g => new (dofHome (p.setup parts) g).1 (dofHome (p.setup parts) g).2) i x →
        Solution p parts els vals (fun g => new (dofHome (p.setup parts) g).1 (dofHome (p.setup parts) g).2) i y → ∀ g < (p.setup parts).total, x g = y g) →
      ∀ x x', Solution p parts els vals (fun g => new (dofHome (p.setup parts) g).1 (dofHome (p.setup parts) g).2) i x →
        Solution p parts' els' vals' (fun g => new' (dofHome (p.setup parts') g).1 (dofHome (p.setup parts') g).2) i x' →
        ∀ k, p.unknown m k → x (p.dof parts (f k.1, k.2)) = x' (p.dof parts' (f' k.1, k.2))) :=
  (C113_reordered_partial hm hone hmf.uniq hp ho ho' hels hels' vals vals'
    (fun k hk hpk c => by
      rw [hval k hk hpk c]
      exact C124_calls hm hone hmf.uniq hfill hp ho hcs (v := fun _ _ => 0) (fun _ _ _ => rfl) hrun k hk c)
    (fun k hk hpk c => by
      rw [hval k hk hpk c]
      exact C124_mf_calls hm hone hmf hfill hp ho' hfit hcs hcnt (v := fun _ _ => 0) (fun _ _ _ => rfl) hrun' k hk c) i).2

/-! ### Examples -/
open Verif.Split (lineKinds twoQuads)

/-- A kernel giving the element's id plus the position of the node, on both quadrilaterals. -/
def exDomCall : Call ℝ := ⟨false, [0], [0], 2, fun _ _ i _ l _ _ => i + l⟩

/-- A kernel giving the side and the right-hand side, on boundary 7. -/
def exBndCall : Call ℝ := ⟨true, [7], [0], 2, fun _ _ _ s _ _ rhs => s.getD 0 + rhs⟩

theorem exDomCall_ok : exDomCall.Ok exProg twoQuads.doms [7] := by
  refine ⟨?_, ?_, fun _ k hk => ⟨([0], [0]), by simp [exProg], hk, fun _ h => h⟩, fun h => Bool.noConfusion h⟩
  · change (asmDom twoQuads.doms [0] 2).isSome = true
    decide +kernel
  · change ∀ k ∈ [0], k ∉ [7]
    decide

theorem exBndCall_ok : exBndCall.Ok exProg twoQuads.doms [7] := by
  refine ⟨?_, ?_, fun h => Bool.noConfusion h, fun _ x hx e s hv k hk => ?_⟩
  · change (asmBnd twoQuads.doms [7] 2).isSome = true
    decide +kernel
  · change [7] ⊆ [7] ∧ [7].Nodup ∧ 0 < 2
    decide
  · obtain ⟨v, hv', _, hin⟩ := twoQuads_views x hx
    obtain rfl : v = (e, s) := Option.some.inj (hv'.symm.trans hv)
    have hone : ∀ d ∈ twoQuads.doms, ∀ e ∈ d.2.elems, e ∈ visitIds twoQuads.doms [0] → d.1 = 0 := by decide +kernel
    obtain ⟨d, hd, he⟩ := hk
    obtain rfl := hone _ (Mesh.mem_of_lookup hd) e he hin
    exact ⟨([0], [0]), by simp [exProg], by simp, fun _ h => h⟩

/-- Calls of few points are counted right. -/
theorem count_of_length {c : Call ℝ} {m : DomMap} (h : ∀ L, c.pts m = some L → L.length * c.inds.length < 65536) : ∀ L, c.pts m = some L → ∀ k, (contribsAt L c.inds c.kern k).length < 65536 := by
  intro L hL k
  refine lt_of_le_of_lt ?_ (h L hL)
  unfold contribsAt
  rw [List.length_flatMap]
  have : ∀ x ∈ L.map fun pt => ((c.inds.zipIdx.filter fun q => decide (pt.node = k.1 ∧ q.1 = k.2)).map fun q => c.kern.at pt q.2).length, x ≤ c.inds.length := by
    intro x hx
    obtain ⟨pt, _, rfl⟩ := List.mem_map.1 hx
    rw [List.length_map, ← List.length_zipIdx (l := c.inds)]
    exact List.length_filter_le _ _
  have := List.sum_le_card_nsmul _ _ this
  rwa [List.length_map, smul_eq_mul] at this

/-- Hypotheses of the theorems: both calls on two quadrilaterals, distributed to two ranks for the assembled system, whole for the matrix-free one; both succeed and leave the same values. -/
example : ∃ parts f, Outcome Monotone lineKinds twoQuads.doms [7] 2 parts f ∧ (∀ r < 1, Fits [7] (part [⟨twoQuads.doms, ⟨0, 6, []⟩, []⟩] r)) ∧
    (∃ new, AsmCalls exProg parts [exDomCall, exBndCall] (fun _ _ _ => 0) new) ∧
    (∃ new, MfCalls lineKinds [7] exProg [⟨twoQuads.doms, ⟨0, 6, []⟩, []⟩] [exDomCall, exBndCall] (fun _ _ _ => 0) new) ∧
    (∀ c ∈ [exDomCall, exBndCall], ∀ L, c.pts twoQuads.doms = some L → ∀ k, (contribsAt L c.inds c.kern k).length < 65536) ∧
    exProg.unknown twoQuads.doms (1, 0) := by
  have hN : ∀ x, NodeIn twoQuads.doms x ↔ x < 6 := fun x => nodes_of_all (N := 6) (by decide) (by decide) x
  have hl : Labels twoQuads.doms [7] 2 [1, 0] [1, 0, 0, 1, 0, 0] [0, 1] := ⟨by decide, by decide, hN, by decide, ⟨by decide, by decide⟩⟩
  obtain ⟨parts, φ, f, maps, h1, _, _⟩ := partition_result twoQuads_meshOk twoQuads_one hl id (fun _ _ => id) (fun _ => List.Perm.refl _) (fun _ _ _ => List.Perm.refl _)
  have ho : Outcome Monotone lineKinds twoQuads.doms [7] 2 parts _ := .parts 2 _ _ _ hl id (fun _ _ => id) (fun _ => List.Perm.refl _) (fun _ _ _ => List.Perm.refl _) _ φ h1
  have hfit : ∀ r < 1, Fits [7] (part [⟨twoQuads.doms, ⟨0, 6, []⟩, []⟩] r) := by
    intro r hr
    obtain rfl : r = 0 := by omega
    exact fits_whole (by decide) (by decide)
  refine ⟨parts, _, ho, hfit, ?_, ?_, ?_, ⟨([0], [0]), by simp [exProg], by simp, ⟨.quad, 2, 0, [0, 1, 3, 4]⟩, by decide, by decide⟩⟩
  · obtain ⟨a, ha⟩ := C124_assembled_exists (K := ℝ) twoQuads_meshOk twoQuads_one twoQuads_unique twoQuads_filled ho exDomCall_ok fun _ _ _ => 0
    obtain ⟨b, hb⟩ := C124_assembled_exists (K := ℝ) twoQuads_meshOk twoQuads_one twoQuads_unique twoQuads_filled ho exBndCall_ok a
    exact ⟨b, a, ha, b, hb, rfl⟩
  · obtain ⟨a, ha⟩ := C124_matrix_free_exists (K := ℝ) twoQuads_meshOk twoQuads_one twoQuads_mf twoQuads_filled twoQuads_whole hfit exDomCall_ok fun _ _ _ => 0
    obtain ⟨b, hb⟩ := C124_matrix_free_exists (K := ℝ) twoQuads_meshOk twoQuads_one twoQuads_mf twoQuads_filled twoQuads_whole hfit exBndCall_ok a
    exact ⟨b, a, ha, b, hb, rfl⟩
  · intro c hc
    simp only [List.mem_cons, List.not_mem_nil, or_false] at hc
    obtain rfl | rfl := hc
    · refine count_of_length fun L hL => ?_
      have : ∀ l, asmDom twoQuads.doms [0] 2 = some l → l.length < 100 := by decide +kernel
      have := this L hL
      change L.length * 1 < _
      omega
    · refine count_of_length fun L hL => ?_
      have : ∀ l, asmBnd twoQuads.doms [7] 2 = some l → l.length < 100 := by decide +kernel
      have := this L hL
      change L.length * 1 < _
      omega

/-- The value at the node both quadrilaterals have: ids 0 and 1, positions 1 and 0 there. -/
example : specCall twoQuads.doms exDomCall (fun _ _ => 5) (1, 0) 0 = 1 ∧ specCall twoQuads.doms exDomCall (fun _ _ => 5) (5, 0) 0 = 4 ∧ specCall twoQuads.doms exBndCall (fun _ _ => 5) (1, 0) 0 = 5 := by
  have h1 : exDomCall.pts twoQuads.doms = asmDom twoQuads.doms [0] 2 := rfl
  have h2 : asmDom twoQuads.doms [0] 2 = some [⟨0, .quad, 2, 0, none, 0⟩, ⟨1, .quad, 2, 0, none, 1⟩, ⟨3, .quad, 2, 0, none, 2⟩, ⟨4, .quad, 2, 0, none, 3⟩, ⟨1, .quad, 2, 1, none, 0⟩,
    ⟨2, .quad, 2, 1, none, 1⟩, ⟨4, .quad, 2, 1, none, 2⟩, ⟨5, .quad, 2, 1, none, 3⟩] := by decide +kernel
  have h3 : ∀ l, asmBnd twoQuads.doms [7] 2 = some l → ∀ pt ∈ l, pt.node ≠ 1 := by decide +kernel
  refine ⟨?_, ?_, ?_⟩
  · unfold specCall
    rw [h1, h2, Option.getD_some]
    simp [contribsAt, exDomCall, expected, Kern.at]
  · unfold specCall
    rw [h1, h2, Option.getD_some]
    simp [contribsAt, exDomCall, expected, Kern.at]
    norm_num
  · obtain ⟨l, hl⟩ := Option.isSome_iff_exists.1 (show (asmBnd twoQuads.doms [7] 2).isSome = true by decide +kernel)
    have h4 : exBndCall.pts twoQuads.doms = some l := hl
    have : contribsAt l exBndCall.inds exBndCall.kern (1, 0) = [] := by
      unfold contribsAt
      rw [List.flatMap_eq_nil_iff]
      intro pt hpt
      have := h3 l hl pt hpt
      simp [this]
    unfold specCall
    rw [h4, Option.getD_some, this]
    rfl

end
end Verif.SetVals
