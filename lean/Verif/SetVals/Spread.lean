import Verif.SetVals.Halves

/-! # Distributions of a mesh, however they came about -/
namespace Verif.SetVals
open Verif Verif.Elem Verif.Mesh Verif.Dofs Verif.Reach Verif.NodeVals Verif.Pipeline Verif.Partition Verif.MfPipe

noncomputable section

/-- What is known of the parts a mesh was distributed to, be it directly (C113) or after having been saved and loaded (C133). -/
structure Spread (kinds : List (ElType × Nat)) (m : DomMap) (bnds : List Nat) (nParts : Nat) (parts : List Split.Part) (f : Nat → Nat) : Prop where
  result : ∃ N maps, Result bnds m N nParts parts f maps
  wf : ∀ q ∈ parts, WfMesh kinds q.doms
  filled : ∀ q ∈ parts, Filled q.doms

variable {K : Type} {c : Call K}

variable [Field K]
variable {kinds : List (ElType × Nat)} {m : DomMap} {bnds : List Nat} {D nParts : Nat} {parts : List Split.Part} {f : Nat → Nat} {p : Prog}

theorem outcome_spread (hm : MeshOk kinds m bnds D) (hone : OneSided m bnds) (hfill : Filled m) (ho : Outcome Monotone kinds m bnds nParts parts f) : Spread kinds m bnds nParts parts f :=
  ⟨outcome_result hm hone ho, outcome_wf hm hone ho, outcome_filled hm hone hfill ho⟩

theorem assembled_spread (hm : MeshOk kinds m bnds D) (huni : UniqueParent m bnds) (hp : p.Ok m bnds)
    (ho : Spread kinds m bnds nParts parts f) (hc : c.Ok p m bnds) {old new : Nat → Nat → Nat → K} {v : Nat × Nat → Nat → K} (hrep : Rep p m parts f old v)
    (hcall : AsmCall p parts c old new) : Rep p m parts f new (specCall m c v) := by
  obtain ⟨N, maps, R⟩ := ho.result
  have hw := ho.wf
  have hs := setup_ok hp R
  have hn := setup_length p R
  obtain ⟨L, hL⟩ := Option.isSome_iff_exists.1 hc.some
  obtain ⟨Ls, h1, h2⟩ := ranks_pts hm huni R hw ho.filled hc hL
  obtain ⟨L', ord, zero, hr, rfl⟩ := hcall
  rw [R.plen] at hr
  have hLL : ∀ r < nParts, L' r = Ls r := fun r h => Option.some.inj ((hr r h).1.symm.trans (h1 r h))
  have hknown : ∀ r < nParts, Known (p.setup parts) r c.inds (Ls r) := fun r h => ranks_known hm hp R hw hc hL h1 h2 h
  intro k hk rhs
  have hall := unknown_dof hp R hk
  have hg : p.dof parts (f k.1, k.2) < (p.setup parts).total := by rw [← all_length]; exact (List.getElem?_eq_some_iff.1 hall).1
  obtain ⟨g1, g2, g3⟩ := home_spec hg
  have hkN : k.1 < N := by
    obtain ⟨d, _, _, e, he, hne⟩ := hk
    obtain ⟨i, _, hi⟩ := mem_visitIds.1 he
    exact (R.nodes _).1 ⟨e, inDom_holds hi, hne⟩
  rw [assembled_zero (by rw [rank_mk _ _ g1]; exact g3) (fun r hrl d => by
    rw [world_length, hn] at hrl
    rw [rank_mk _ _ (by rw [hn]; exact hrl)]
    change atDof (zero r) d = [] ↔ atDof (ord r ++ []) d = []
    rw [List.append_nil]
    have e1 := (atDof_perm (hr r hrl).2.2 d).length_eq
    have e2 := (atDof_perm (hr r hrl).2.1 d).length_eq
    rw [← List.length_eq_zero_iff, e1, List.length_eq_zero_iff, ← List.length_eq_zero_iff (l := atDof (ord r) d), e2, List.length_eq_zero_iff, atDof_nil, atDof_nil]
    exact forall_congr' fun n => by rw [zero_nodes R hw hc hrl (hr r hrl).1 n])]
  rw [hrep k hk rhs]
  unfold specCall
  rw [hL, Option.getD_some]
  refine expected_perm ?_ _ _
  refine (contribs_perm hp R c.kern hknown (fun r h => by rw [List.append_nil]; exact (hLL r h) ▸ (hr r h).2.1) hall).trans ?_
  refine (h2.flatMap_right _).trans (List.Perm.of_eq ?_)
  exact contribsAt_renamed hm R hL hkN c.kern

theorem matrix_free_spread (hm : MeshOk kinds m bnds D) (hmf : MfMesh m bnds) (hp : p.Ok m bnds)
    (ho : Spread kinds m bnds nParts parts f) (hfit : ∀ r < nParts, Fits bnds (part parts r)) (hc : c.Ok p m bnds)
    (hcnt : ∀ L, c.pts m = some L → ∀ k, (contribsAt L c.inds c.kern k).length < 65536) {old new : Nat → Nat → Nat → K} {v : Nat × Nat → Nat → K} (hrep : Rep p m parts f old v)
    (hcall : MfCall kinds bnds p parts c old new) : Rep p m parts f new (specCall m c v) := by
  obtain ⟨N, maps, R⟩ := ho.result
  have hw := ho.wf
  have hs := setup_ok hp R
  have hn := setup_length p R
  obtain ⟨L, hL⟩ := Option.isSome_iff_exists.1 hc.some
  obtain ⟨Ls, h1, h2⟩ := ranks_pts hm hmf.uniq R hw ho.filled hc hL
  obtain ⟨ordM, ord, ords, border, interior, init, tc, tv, hoM, hoo, hos, hr, rfl⟩ := hcall
  rw [R.plen] at hr
  have hknown : ∀ r < nParts, Known (p.setup parts) r c.inds (Ls r) := fun r h => ranks_known hm hp R hw hc hL h1 h2 h
  have key : ∀ r < nParts, (border r ++ interior r).Perm (entriesOf (fun n j => ((p.setup parts).localDof r n j).join) c.inds c.kern (Ls r)) ∧
      ∀ e ∈ interior r, e.1 < (p.setup parts).numOwned r := by
    intro r hrl
    obtain ⟨q, vi, vb, a, b, q1, q2, q3, q4, q5, _⟩ := hr r hrl
    obtain ⟨bv, g1, g2, g3⟩ := rankMesh_some R hrl (hoM r)
    rw [g1] at q1
    obtain rfl := Option.some.inj q1
    have hq := rank_ok hm hmf R hw hrl (hfit r hrl) (hoM r) g2 g3
    obtain ⟨vi', vb', a', b', w1, w2, w3, w4⟩ := mf_spec hq g2 hc (isInterior (p.setup parts) r) (hoo r) (hos r) (h1 r hrl)
    rw [w1] at q2
    obtain ⟨rfl, rfl⟩ : vi' = vi ∧ vb' = vb := ⟨congrArg Prod.fst (Option.some.inj q2), congrArg Prod.snd (Option.some.inj q2)⟩
    rw [w2] at q3
    obtain ⟨rfl, rfl⟩ : a' = a ∧ b' = b := ⟨congrArg Prod.fst (Option.some.inj q3), congrArg Prod.snd (Option.some.inj q3)⟩
    have hdofs : ∀ pt ∈ Ls r, ∀ j, nodeDofs (p.setup parts) (part parts r).own r (LocView.localPos (part parts r).own pt.node) j = ((p.setup parts).localDof r pt.node j).join := by
      intro pt hpt j
      obtain ⟨e, he, hne⟩ := pts_node (part_keys R hrl) (fun e he => part_els R hrl hw he) (h1 r hrl) hpt
      exact nodeDofs_eq hp R hrl hq he hne j
    constructor
    · refine List.perm_append_comm.trans ((q4.append q5).trans ?_)
      rw [← entriesOf_append]
      refine (entriesOf_perm _ _ _ w3).trans (List.Perm.of_eq ?_)
      change entriesOf _ _ _ ((Ls r).map (Pt.map (LocView.localPos (part parts r).own))) = _
      rw [entriesOf_at]
      exact entriesOf_congr c.kern fun pt hpt j _ => hdofs pt hpt j
    · intro e he
      obtain ⟨pt, hpt, hq'⟩ := List.mem_flatMap.1 (q4.mem_iff.1 he)
      obtain ⟨x, hx, rfl⟩ := List.mem_map.1 hq'
      obtain ⟨pt', hpt', rfl, el, hel, hei, hne⟩ := w4 pt hpt
      obtain ⟨g, hgg⟩ := (hknown r hrl pt' hpt').2 x.1 (List.mem_of_getElem? (List.mem_zipIdx_iff_getElem?.1 hx))
      exact interior_lt hp R hrl hq hel hei hne hgg
  intro k hk rhs
  have hall := unknown_dof hp R hk
  have hg : p.dof parts (f k.1, k.2) < (p.setup parts).total := by rw [← all_length]; exact (List.getElem?_eq_some_iff.1 hall).1
  obtain ⟨g1, g2, g3⟩ := home_spec hg
  have hkN : k.1 < N := by
    obtain ⟨d, _, _, e, he, hne⟩ := hk
    obtain ⟨i, _, hi⟩ := mem_visitIds.1 he
    exact (R.nodes _).1 ⟨e, inDom_holds hi, hne⟩
  have hperm := (contribs_perm hp R c.kern hknown (fun r h => (key r h).1) hall).trans ((h2.flatMap_right _).trans (List.Perm.of_eq (contribsAt_renamed hm R hL hkN c.kern)))
  rw [C59_kernel (by rw [rank_mk _ _ g1]; exact g3) (fun r hrl => by
    rw [world_length, hn] at hrl
    rw [rank_mk _ _ (by rw [hn]; exact hrl)]
    obtain ⟨_, _, _, _, _, _, _, _, _, _, h⟩ := hr r hrl
    exact h) (fun r hrl => by
    rw [world_length, hn] at hrl
    rw [rank_mk _ _ (by rw [hn]; exact hrl)]
    exact (key r hrl).2) (by rw [hperm.length_eq]; exact hcnt L hL k)]
  rw [hrep k hk rhs]
  unfold specCall
  rw [hL, Option.getD_some]
  exact expected_perm hperm _ _

theorem assembled_exists (hm : MeshOk kinds m bnds D) (huni : UniqueParent m bnds)
    (ho : Spread kinds m bnds nParts parts f) (hc : c.Ok p m bnds) (old : Nat → Nat → Nat → K) : ∃ new, AsmCall p parts c old new := by
  obtain ⟨N, maps, R⟩ := ho.result
  obtain ⟨L, hL⟩ := Option.isSome_iff_exists.1 hc.some
  obtain ⟨Ls, h1, _⟩ := ranks_pts hm huni R ho.wf ho.filled hc hL
  exact ⟨_, Ls, _, _, fun r hr => ⟨h1 r (R.plen ▸ hr), List.Perm.refl _, List.Perm.refl _⟩, rfl⟩

theorem matrix_free_exists (hm : MeshOk kinds m bnds D) (hmf : MfMesh m bnds)
    (ho : Spread kinds m bnds nParts parts f) (hfit : ∀ r < nParts, Fits bnds (part parts r)) (hc : c.Ok p m bnds) (old : Nat → Nat → Nat → K) :
    ∃ new, MfCall kinds bnds p parts c old new := by
  obtain ⟨N, maps, R⟩ := ho.result
  have hw := ho.wf
  obtain ⟨L, hL⟩ := Option.isSome_iff_exists.1 hc.some
  obtain ⟨Ls, h1, _⟩ := ranks_pts hm hmf.uniq R hw ho.filled hc hL
  have key : ∀ r, ∃ (t : Split.Part × View × View × List Pt × List Pt), r < nParts → rankMesh parts bnds (fun _ => id) r = some t.1 ∧
      views kinds t.1 (isInterior (p.setup parts) r) (fun _ _ => id) (fun _ _ _ => (id, id)) = some (t.2.1, t.2.2.1) ∧ c.mfPts t.2.1 t.2.2.1 = some (t.2.2.2.1, t.2.2.2.2) := by
    intro r
    by_cases hr : r < nParts
    · obtain ⟨bv, g1, g2, g3⟩ := rankMesh_some R hr (ord := fun _ => id) (fun _ _ => List.Perm.refl _)
      have hq := rank_ok hm hmf R hw hr (hfit r hr) (fun _ _ => List.Perm.refl _) g2 g3
      obtain ⟨vi, vb, a, b, w1, w2, _⟩ := mf_spec hq g2 hc (isInterior (p.setup parts) r) (ord := fun _ _ => id) (fun _ _ _ => List.Perm.refl _)
        (ords := fun _ _ _ => (id, id)) (fun _ _ _ _ => List.Perm.refl _) (h1 r hr)
      exact ⟨(_, vi, vb, a, b), fun _ => ⟨g1, w1, w2⟩⟩
    · exact ⟨(⟨[], ⟨0, 0, []⟩, []⟩, ⟨[], []⟩, ⟨[], []⟩, [], []), fun h => absurd h hr⟩
  choose t ht using key
  exact ⟨_, fun _ _ => id, fun _ _ _ => id, fun _ _ _ _ => (id, id), fun r => entriesOf (nodeDofs (p.setup parts) (t r).1.own r) c.inds c.kern (t r).2.2.2.2,
    fun r => entriesOf (nodeDofs (p.setup parts) (t r).1.own r) c.inds c.kern (t r).2.2.2.1, _, fun _ _ => 0, fun _ _ => 0, fun _ _ _ => List.Perm.refl _, fun _ _ _ _ => List.Perm.refl _,
    fun _ _ _ _ _ => List.Perm.refl _,
    fun r hr => ⟨_, _, _, _, _, (ht r (R.plen ▸ hr)).1, (ht r (R.plen ▸ hr)).2.1, (ht r (R.plen ▸ hr)).2.2, List.Perm.refl _, List.Perm.refl _, List.Perm.refl _⟩, rfl⟩

end
end Verif.SetVals
