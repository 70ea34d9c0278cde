import Verif.MfPipe.Rank
import Verif.Pipeline.Props

/-! # C121: a matrix-free system evaluates what an assembled one assembles -/
namespace Verif.MfPipe
open Verif Verif.Elem Verif.Split Verif.Mesh Verif.Dofs Verif.Lsq Verif.LocView Verif.Pipeline Verif.Partition Verif.MatFree Verif.MfInit

noncomputable section

/-- Full statement of **C121**, for one rank and programs and meshes meeting `P`: the evaluations of the matrix-free system are the
contributions of the assembled one. -/
def C121Statement (P : Prog → DomMap → List Nat → Prop) : Prop :=
  ∀ (kinds : List (ElType × Nat)) (m : DomMap) (bnds : List Nat) (D N : Nat), MeshOk kinds m bnds D → OneSided m bnds → UniqueParent m bnds →
    (∀ e, Holds m e → 2 ≤ e.n ∧ e.nodes.Nodup) → (∀ b ∈ bnds, b < invalidDom) → (∀ x, NodeIn m x ↔ x < N) → ∀ p : Prog, p.Ok m bnds → P p m bnds →
    Fits bnds ⟨m, ⟨0, N, []⟩, []⟩ → ∃ a b, rankEvals kinds p [⟨m, ⟨0, N, []⟩, []⟩] bnds 0 (fun _ => id) (fun _ _ => id) (fun _ _ _ => (id, id)) = some (a, b) ∧
      (a ++ b).Perm (p.rankElems [⟨m, ⟨0, N, []⟩, []⟩] 0)

/-- Every side carries one boundary element. -/
def OneEach (m : DomMap) (bnds : List Nat) : Prop :=
  ∀ b ∈ bnds, ∀ b' ∈ bnds, ∀ x x', InDom m b x → InDom m b' x' → viewOf m x = viewOf m x' → b = b' ∧ x = x'

/-- **C121** (evaluations).  On every rank of a distributed mesh the views of the matrix-free system can be built, no kernel lookup throws, and what is evaluated
at interior and border elements together is what the assembled system assembles on the rank: the same kernels at the same elements and sides with the
same local dofs, each once.  The elements evaluated before ghost values have arrived use owned dofs only. -/
theorem C121_evaluations_partial {kinds : List (ElType × Nat)} {m : DomMap} {bnds : List Nat} {D : Nat} (hm : MeshOk kinds m bnds D) (hone : OneSided m bnds)
    (hmf : MfMesh m bnds) {p : Prog} (hp : p.Ok m bnds) (hk : ∀ K ∈ p.kernels, ∀ k ∈ K.doms, k ∉ bnds) {nParts : Nat} {parts : List Split.Part} {f : Nat → Nat}
    (ho : Outcome Monotone kinds m bnds nParts parts f) {r : Nat} (hr : r < nParts) (hf : Fits bnds (part parts r))
    {ordM : Nat → List Element → List Element} (hordM : ∀ k l, (ordM k l).Perm l) {ord : Bool → Nat → List Element → List Element}
    (hord : ∀ s k l, (ord s k l).Perm l) {ords : Bool → Nat → Orders} (hords : ∀ s j k l, ((ords s j k).2 l).Perm l) :
    ∃ a b, rankEvals kinds p parts bnds r ordM ord ords = some (a, b) ∧ (a ++ b).Perm (p.rankElems parts r) ∧
      ∀ el ∈ a, ∀ d ∈ el.dofs, d < (p.setup parts).numOwned r := by
  obtain ⟨N, maps, R⟩ := outcome_result hm hone ho
  exact rankEvals_ok hm hmf hp hk R (outcome_wf hm hone ho) hr hf hordM hord hords

theorem rankElems_none {p : Prog} {parts : List Split.Part} {r : Nat} (h : parts.length ≤ r) : p.rankElems parts r = [] := by
  have hv : ∀ ks, visitIds (part parts r).doms ks = [] := by
    intro ks
    have : (part parts r).doms = [] := by unfold part; rw [List.getElem?_eq_none h]; rfl
    rw [this, visitIds_domEls]
    refine List.flatMap_eq_nil_iff.2 fun k _ => rfl
  unfold Prog.rankElems Prog.melems Kernel.elems BKernel.elems
  simp [hv]

/-- **C121** (answers).  Distribute a mesh in one way and solve the problem with the matrix-free system, distribute it in any other way and assemble: a vector makes
the application of the matrix-free operator equal to its right-hand side on all ranks exactly if the vector with the same values
at all nodes solves the assembled system.  Elements are evaluated interior first and then border or in any other order, additions happen in
any order (`ups`, `ups'`). -/
theorem C121_same_answer_partial {kinds : List (ElType × Nat)} {m : DomMap} {bnds : List Nat} {D : Nat} (hm : MeshOk kinds m bnds D) (hone : OneSided m bnds)
    (hmf : MfMesh m bnds) {p : Prog} (hp : p.Ok m bnds) (hk : ∀ K ∈ p.kernels, ∀ k ∈ K.doms, k ∉ bnds)
    {nParts nParts' : Nat} {parts parts' : List Split.Part} {f f' : Nat → Nat}
    (ho : Outcome Monotone kinds m bnds nParts parts f) (ho' : Outcome Monotone kinds m bnds nParts' parts' f')
    (hf : ∀ r < nParts, Fits bnds (part parts r)) {ordM : Nat → Nat → List Element → List Element} (hordM : ∀ r k l, (ordM r k l).Perm l)
    {ord : Nat → Bool → Nat → List Element → List Element} (hord : ∀ r s k l, (ord r s k l).Perm l) {ords : Nat → Bool → Nat → Orders}
    (hords : ∀ r s j k l, ((ords r s j k).2 l).Perm l) {a b els' : Nat → List LElem}
    (hab : ∀ r < nParts, rankEvals kinds p parts bnds r (ordM r) (ord r) (ords r) = some (a r, b r)) (hrest : ∀ r, nParts ≤ r → a r = [] ∧ b r = [])
    (hels' : ∀ r, (els' r).Perm (p.rankElems parts' r)) (vals vals' : Nat → Nat → Nat → ℝ) {v v' : Nat → Nat → ℝ}
    (hv : p.Values m parts f v) (hv' : p.Values m parts' f' v') (nc c : Nat) (hc : c < nc)
    (hvals : ∀ q < nParts, ∀ d < (p.l2g parts q).length, p.constrained parts ((p.l2g parts q).getD d 0) → vals q d c = v ((p.l2g parts q).getD d 0) c)
    (x y : Nat → Nat → ℝ) (x' : Nat → ℝ) (ups ups' : Nat → List ((Nat × Nat) × ℝ))
    (hups : ∀ q < nParts, IsOrder (p.rank parts (fun r => a r ++ b r) vals q).toI.toRank x nc 1 (ups q))
    (hups' : ∀ q < nParts, (ups' q).Perm (rhsIncs (p.rank parts (fun r => a r ++ b r) vals q).toI nc))
    (hx : ∀ k, p.unknown m k → x (p.dof parts (f k.1, k.2)) c = x' (p.dof parts' (f' k.1, k.2))) :
    (∀ me < nParts, ∀ loc < (p.setup parts).numOwned me,
      result nParts (fun q => (p.rank parts (fun r => a r ++ b r) vals q).toI.toRank)
          (fun q => rankMem (p.rank parts (fun r => a r ++ b r) vals q).toI.toRank y 0 (ups q)) me loc c =
        finalRhs nParts (fun q => (p.rank parts (fun r => a r ++ b r) vals q).toI) ups' me loc c) ↔
      Solution p parts' els' vals' v' c x' := by
  classical
  obtain ⟨N, maps, R⟩ := outcome_result hm hone ho
  obtain ⟨N', maps', R'⟩ := outcome_result hm hone ho'
  have hNN : N = N' := by
    have h : ∀ x, x < N ↔ x < N' := fun x => (R.nodes x).symm.trans (R'.nodes x)
    have h1 := h N
    have h2 := h N'
    omega
  subst hNN
  have huni := hmf.uniq
  have hels : ∀ r, ((fun r => a r ++ b r) r).Perm (p.rankElems parts r) := by
    intro r
    by_cases hr : r < nParts
    · obtain ⟨a', b', h1, h2, _⟩ := C121_evaluations_partial hm hone hmf hp hk ho hr (hf r hr) (hordM r) (hord r) (hords r)
      rw [hab r hr] at h1
      obtain ⟨rfl, rfl⟩ := Prod.mk.inj (Option.some.inj h1)
      exact h2
    · obtain ⟨h1, h2⟩ := hrest r (by omega)
      rw [rankElems_none (by rw [R.plen]; omega)]
      simp [h1, h2]
  obtain ⟨sel, hs⟩ := order_exists R huni hp hels
  obtain ⟨sel', hs'⟩ := order_exists R' huni hp hels'
  have h1 := outcome_represents hm hp R huni hs vals hv
  have h2 := outcome_represents hm hp R' huni hs' vals' hv'
  have hrk := run_rank hs vals v
  have hnr : (runOf p parts f maps sel (fun r => a r ++ b r) vals v).nr = nParts := setup_length p R
  rw [solution_iff hm hp R' huni hs' vals' v' c x']
  have key := Distr.C112_runs_matrix_free_partial (problem_ok' hp R.keys R.nodes) h1 h2 (run_marked hp R vals v) (run_marked hp R' vals' v') x y x' nc c hc
    (by
      intro q hq d hd hD
      rw [hnr] at hq
      exact hvals q hq d hd ((constrained_iff hm hp R huni hs vals v _).2 hD))
    ups ups' (by rw [hnr, hrk]; exact hups) (by rw [hnr, hrk]; exact hups') (fun k hk => hx k ((unknown_iff hp R.nodes k).1 hk))
  rw [hnr, hrk] at key
  exact key

/-- Sizes and internal nodes for elements of order one: nothing is asked beyond the size of the mesh. -/
theorem C121_fits {kinds : List (ElType × Nat)} {m : DomMap} {bnds : List Nat} {D : Nat} (hm : MeshOk kinds m bnds D) (hone : OneSided m bnds)
    {nParts N : Nat} {parts : List Split.Part} {f : Nat → Nat} (ho : Outcome Monotone kinds m bnds nParts parts f) (hN : ∀ x, NodeIn m x ↔ x < N) (hlt : N < 2 ^ 32)
    (hs : ∀ k e, InDom m k e → e.nodes.length * (domEls m k).length < 2 ^ 32 - 1) (hlin : ∀ e, Holds m e → e.n = 2) {r : Nat} (hr : r < nParts) :
    Fits bnds (part parts r) := by
  obtain ⟨N', maps, R⟩ := outcome_result hm hone ho
  have hNN : N' = N := by
    have h : ∀ x, x < N' ↔ x < N := fun x => (R.nodes x).symm.trans (hN x)
    have h1 := h N
    have h2 := h N'
    omega
  subst hNN
  refine fits_of_mesh R hr hlt hs fun k e _ he => ?_
  rw [part_doms R, inDom_mapDoms] at he
  obtain ⟨e0, he0, rfl⟩ := he
  have h2 : (mapEl f e0).n = 2 := hlin e0 (inDom_holds (inDom_mapAt R he0).2.2)
  have hnil : internalInds (mapEl f e0).ty (mapEl f e0).n = [] := by
    rw [h2]
    have : ∀ t : ElType, internalInds t 2 = [] := by intro t; cases t <;> decide +kernel
    exact this _
  intro k hk
  rw [hnil] at hk
  simp at hk

theorem twoQuads_mf : MfMesh twoQuads.doms [7] := by
  have h1 : ∀ d ∈ twoQuads.doms, ∀ v ∈ d.2.vecs, ∀ e ∈ v, 2 ≤ e.n ∧ e.nodes.Nodup := by decide
  have h2 : ∀ x ∈ visitIds twoQuads.doms [7], ∀ x' ∈ visitIds twoQuads.doms [7], viewOf twoQuads.doms x = viewOf twoQuads.doms x' → x = x' := by decide +kernel
  refine ⟨?_, by decide, twoQuads_unique, ?_⟩
  · rintro e ⟨d, hd, v, hv, he⟩
    exact h1 d hd v hv e he
  · intro b hb b' hb' x x' hx hx' hv
    exact ⟨(List.mem_singleton.1 hb).trans (List.mem_singleton.1 hb').symm,
      h2 x (mem_visitIds.2 ⟨b, hb, hx⟩) x' (mem_visitIds.2 ⟨b', hb', hx'⟩) hv⟩

/-- Hypotheses of `C121_evaluations_partial`: two quadrilaterals on two ranks, each with a domain kernel and a boundary kernel. -/
example : ∃ parts f, Outcome Monotone lineKinds twoQuads.doms [7] 2 parts f ∧ exProg.Ok twoQuads.doms [7] ∧ MeshOk lineKinds twoQuads.doms [7] 1 ∧
    OneSided twoQuads.doms [7] ∧ MfMesh twoQuads.doms [7] ∧ (∀ K ∈ exProg.kernels, ∀ k ∈ K.doms, k ∉ [7]) ∧ (∀ r < 2, Fits [7] (part parts r)) ∧
    (exProg.melems twoQuads.doms).length = 4 := by
  have hone : OneSided twoQuads.doms [7] := oneSided_of_all twoQuads_meshOk.wf (by decide +kernel)
  have hN : ∀ x, NodeIn twoQuads.doms x ↔ x < 6 := fun x => nodes_of_all (N := 6) (by decide) (by decide) x
  have hl : Labels twoQuads.doms [7] 2 [1, 0] [1, 0, 0, 1, 0, 0] [0, 1] := ⟨by decide, by decide, hN, by decide, ⟨by decide, by decide⟩⟩
  obtain ⟨parts, φ, f, maps, h1, _, _⟩ := partition_result twoQuads_meshOk hone hl id (fun _ _ => id) (fun _ => List.Perm.refl _) (fun _ _ _ => List.Perm.refl _)
  have ho : Outcome Monotone lineKinds twoQuads.doms [7] 2 parts _ := .parts 2 _ _ _ hl id (fun _ _ => id) (fun _ => List.Perm.refl _) (fun _ _ _ => List.Perm.refl _) _ φ h1
  have hsz : ∀ d ∈ twoQuads.doms, ∀ v ∈ d.2.vecs, ∀ e ∈ v, e.nodes.length ≤ 4 ∧ e.n = 2 := by decide
  have hln : ∀ d ∈ twoQuads.doms, (domEls twoQuads.doms d.1).length ≤ 2 := by decide +kernel
  refine ⟨parts, _, ho, exProg_ok, twoQuads_meshOk, hone, twoQuads_mf, ?_, ?_, by decide +kernel⟩
  · intro K hK k hk
    simp only [exProg, List.mem_cons, List.not_mem_nil, or_false] at hK
    subst hK
    obtain rfl := List.mem_singleton.1 hk
    decide
  · intro r hr
    refine C121_fits twoQuads_meshOk hone ho hN (by decide) ?_ ?_ hr
    · rintro k e ⟨d, hd, he⟩
      obtain ⟨v, hv, hev⟩ := List.mem_flatten.1 he
      have h1 := (hsz _ (Mesh.mem_of_lookup hd) v hv e hev).1
      have h2 := hln _ (Mesh.mem_of_lookup hd)
      have h3 := Nat.mul_le_mul h1 h2
      simp only at h3
      omega
    · rintro e ⟨d, hd, v, hv, he⟩
      exact (hsz d hd v hv e he).2

/-- On one rank, all four evaluations are found at interior elements. -/
example : (rankEvals lineKinds exProg [⟨twoQuads.doms, ⟨0, 6, []⟩, []⟩] [7] 0 (fun _ => id) (fun _ _ => id) (fun _ _ _ => (id, id))).map
    (fun ab => (ab.1.map (·.dofs), ab.2.length)) = some ([[0, 1, 3, 4], [0, 1, 3, 4], [1, 2, 4, 5], [1, 2, 4, 5]], 0) := by decide +kernel

theorem fits_whole {m : DomMap} {bnds : List Nat} {N : Nat} (hN : N < 2 ^ 32) (h : ∀ d ∈ m, ∀ v ∈ d.2.vecs, ∀ e ∈ v, e.nodes.length * v.length < 2 ^ 32 - 1 ∧ e.n = 2) :
    Fits bnds ⟨m, ⟨0, N, []⟩, []⟩ := by
  refine ⟨by simpa [Own.SegOwn.localSize] using hN, fun d hd v hv e he => (h d hd v hv e he).1, ?_⟩
  rintro k e _ ⟨d, hd, he⟩
  obtain ⟨v, hv, hev⟩ := List.mem_flatten.1 he
  have h2 := (h _ (Mesh.mem_of_lookup hd) v hv e hev).2
  have hnil : internalInds e.ty e.n = [] := by
    rw [h2]
    have : ∀ t : ElType, internalInds t 2 = [] := by intro t; cases t <;> decide +kernel
    exact this _
  intro k hk
  rw [hnil] at hk
  simp at hk

/-- A domain kernel on boundary 7, whose edges are a domain of their own for the assembled system. -/
def exEdge : Prog := ⟨1, [([0, 7], [0])], [⟨[7], [0], fun _ _ => ⟨1, 1, 2, 1, 1⟩, fun _ _ _ => []⟩], [], [], fun _ _ => 0⟩

/-- **C121** fails for domain kernels on boundary domains: boundary domains are left out of local views, so
the kernel is assembled on every edge by one system and silently never evaluated by the other. -/
theorem C121_boundary_domain_violated : ¬ C121Statement fun _ m bnds => OneEach m bnds := by
  intro h
  obtain ⟨a, b, h1, h2⟩ := h lineKinds twoQuads.doms [7] 1 6 twoQuads_meshOk (oneSided_of_all twoQuads_meshOk.wf (by decide +kernel)) twoQuads_unique twoQuads_mf.els
    twoQuads_mf.bids (fun x => nodes_of_all (N := 6) (by decide) (by decide) x) exEdge
    (by
      refine ⟨?_, ?_, ?_, ?_, ?_, ?_, ?_, ?_⟩
      · intro d hd j hj
        simp only [exEdge, List.mem_cons, List.not_mem_nil, or_false] at hd
        subst hd
        obtain rfl := List.mem_singleton.1 hj
        exact Nat.one_pos
      · intro K hK k hk
        simp only [exEdge, List.mem_cons, List.not_mem_nil, or_false] at hK
        subst hK
        exact ⟨([0, 7], [0]), by simp [exEdge], by simpa using Or.inr (List.mem_singleton.1 hk), fun _ h => h⟩
      · intro K hK e he
        simp only [exEdge, List.mem_cons, List.not_mem_nil, or_false] at hK
        subst hK
        have : ∀ e ∈ visitIds twoQuads.doms [7], e.nodes.length = 2 := by decide
        exact ⟨this e he, rfl⟩
      · intro K hK t n i U hU
        simp only [exEdge, List.mem_cons, List.not_mem_nil, or_false] at hK
        subst hK
        exact absurd hU List.not_mem_nil
      all_goals exact fun K hK => absurd hK List.not_mem_nil)
    twoQuads_mf.single (fits_whole (by decide) (by decide))
  have h3 : (rankEvals lineKinds exEdge [⟨twoQuads.doms, ⟨0, 6, []⟩, []⟩] [7] 0 (fun _ => id) (fun _ _ => id) (fun _ _ _ => (id, id))).map
      (fun ab => ab.1.length + ab.2.length) = some 0 := by decide +kernel
  have h4 : (exEdge.rankElems [⟨twoQuads.doms, ⟨0, 6, []⟩, []⟩] 0).length = 2 := by decide +kernel
  have h5 := h2.length_eq
  rw [h1, Option.map_some] at h3
  have h6 : a.length + b.length = _ := Option.some.inj h3
  rw [List.length_append, h4] at h5
  omega

/-- A quadrilateral with an edge that is in boundary 7 and in boundary 8. -/
def exShared : DomMap :=
  [(0, ⟨some 2, [[], [⟨.quad, 2, 0, [0, 1, 2, 3]⟩], []]⟩), (7, ⟨some 1, [[], [], [⟨.line, 2, 1, [0, 1]⟩]]⟩),
    (8, ⟨some 1, [[], [], [⟨.line, 2, 2, [0, 1]⟩]]⟩)]

theorem exShared_ok : MeshOk lineKinds exShared [7, 8] 1 :=
  meshOk_of_all (wf_of_all (by decide) (by simp [OMap.Sorted, exShared]) (by decide)) (by decide) (by decide) (by decide)
    (by decide) (by decide +kernel)

theorem exShared_unique : UniqueParent exShared [7, 8] := by
  have h : ∀ x ∈ visitIds exShared [7, 8], ∀ d ∈ exShared, ∀ e ∈ d.2.elems, ∀ s < nSides e, (∃ l, sideNodes e s = some l ∧ l.Perm x.nodes) →
      ∀ d' ∈ exShared, ∀ e' ∈ d'.2.elems, ∀ s' < nSides e', (∃ l, sideNodes e' s' = some l ∧ l.Perm x.nodes) → e = e' ∧ s = s' := by decide +kernel
  have lt : ∀ {e s l}, sideNodes e s = some l → s < nSides e := by
    intro e s l hl
    obtain ⟨inds, hi, _⟩ := Option.map_eq_some_iff.1 hl
    exact (List.getElem?_eq_some_iff.1 hi).1
  intro b hb x hx e s e' s' h1 h2
  obtain ⟨⟨d, hd, _, v, hv, he⟩, l, hl, hp⟩ := h1
  obtain ⟨⟨d', hd', _, v', hv', he'⟩, l', hl', hp'⟩ := h2
  exact h x (mem_visitIds.2 ⟨b, hb, hx⟩) d hd e (List.mem_flatten.2 ⟨v, hv, he⟩) s (lt hl) ⟨l, hl, hp⟩ d' hd' e' (List.mem_flatten.2 ⟨v', hv', he'⟩) s' (lt hl') ⟨l', hl', hp'⟩

/-- One boundary kernel on both. -/
def exBoth : Prog := ⟨1, [([0], [0])], [], [⟨[7, 8], [0], fun _ _ => ⟨1, 1, 4, 1, 1⟩, fun _ _ _ _ => []⟩], [], fun _ _ => 0⟩

theorem exShared_views : ∀ x ∈ visitIds exShared [7, 8], ∃ v, viewOf exShared x = some v ∧ v.1.nodes.length = 4 ∧ v.1 ∈ visitIds exShared [0] := by
  decide +kernel

/-- **C121** fails when two boundaries share a side: a local view keeps one boundary id for every
side, so the kernel is evaluated once where the assembled system adds it twice. -/
theorem C121_shared_side_violated : ¬ C121Statement fun p _ bnds => ∀ K ∈ p.kernels, ∀ k ∈ K.doms, k ∉ bnds := by
  intro h
  obtain ⟨a, b, h1, h2⟩ := h lineKinds exShared [7, 8] 1 4 exShared_ok (oneSided_of_all exShared_ok.wf (by decide +kernel)) exShared_unique
    (by
      have h1 : ∀ d ∈ exShared, ∀ v ∈ d.2.vecs, ∀ e ∈ v, 2 ≤ e.n ∧ e.nodes.Nodup := by decide
      rintro e ⟨d, hd, v, hv, he⟩
      exact h1 d hd v hv e he)
    (by decide) (fun x => nodes_of_all (N := 4) (by decide) (by decide) x) exBoth
    (by
      refine ⟨?_, fun K hK => absurd hK List.not_mem_nil, fun K hK => absurd hK List.not_mem_nil, fun K hK => absurd hK List.not_mem_nil, ?_, ?_, ?_, ?_⟩
      · intro d hd j hj
        simp only [exBoth, List.mem_cons, List.not_mem_nil, or_false] at hd
        subst hd
        obtain rfl := List.mem_singleton.1 hj
        exact Nat.one_pos
      · intro K hK
        simp only [exBoth, List.mem_cons, List.not_mem_nil, or_false] at hK
        subst hK
        exact fun _ h => h
      · intro K hK x hx e s hv k hk
        simp only [exBoth, List.mem_cons, List.not_mem_nil, or_false] at hK
        subst hK
        obtain ⟨v, hv', _, hin⟩ := exShared_views x hx
        obtain rfl : v = (e, s) := Option.some.inj (hv'.symm.trans hv)
        have hone : ∀ d ∈ exShared, ∀ e ∈ d.2.elems, e ∈ visitIds exShared [0] → d.1 = 0 := by decide +kernel
        obtain ⟨d, hd, he⟩ := hk
        obtain rfl := hone _ (Mesh.mem_of_lookup hd) e he hin
        exact ⟨([0], [0]), by simp [exBoth], by simp, fun _ h => h⟩
      · intro K hK x hx e s hv
        simp only [exBoth, List.mem_cons, List.not_mem_nil, or_false] at hK
        subst hK
        obtain ⟨v, hv', hl, _⟩ := exShared_views x hx
        obtain rfl : v = (e, s) := Option.some.inj (hv'.symm.trans hv)
        exact ⟨hl, rfl⟩
      · intro K hK t n i s U hU
        simp only [exBoth, List.mem_cons, List.not_mem_nil, or_false] at hK
        subst hK
        exact absurd hU List.not_mem_nil)
    (fun K hK => absurd hK List.not_mem_nil) (fits_whole (by decide) (by decide))
  have h3 : (rankEvals lineKinds exBoth [⟨exShared, ⟨0, 4, []⟩, []⟩] [7, 8] 0 (fun _ => id) (fun _ _ => id) (fun _ _ _ => (id, id))).map
      (fun ab => ab.1.length + ab.2.length) = some 1 := by decide +kernel
  have h4 : (exBoth.rankElems [⟨exShared, ⟨0, 4, []⟩, []⟩] 0).length = 2 := by decide +kernel
  have h5 := h2.length_eq
  rw [h1, Option.map_some] at h3
  have h6 : a.length + b.length = _ := Option.some.inj h3
  rw [List.length_append, h4] at h5
  omega

end

end Verif.MfPipe
