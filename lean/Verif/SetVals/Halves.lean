import Verif.SetVals.Calls

/-! # Helper lemmas for C124: the halves of a matrix-free system, averages -/
namespace Verif.SetVals
open Verif Verif.Elem Verif.Mesh Verif.Dofs Verif.Reach Verif.NodeVals Verif.Pipeline Verif.Partition Verif.MfPipe

noncomputable section
variable {K : Type} {c : Call K}

theorem expected_perm [Field K] {L M : List (Nat → K)} (h : L.Perm M) (old : K) (rhs : Nat) : expected old L rhs = expected old M rhs := by
  unfold expected
  rw [h.length_eq, (h.map (· rhs)).sum_eq]
  by_cases hl : L = []
  · subst hl
    rw [if_pos rfl, if_pos (List.nil_perm.1 h)]
  · rw [if_neg hl, if_neg]
    rintro rfl
    exact hl (List.perm_nil.1 h)

theorem expected_const [Field K] [CharZero K] {L : List (Nat → K)} (hne : L ≠ []) {a : K} {rhs : Nat} (h : ∀ g ∈ L, g rhs = a) (old : K) : expected old L rhs = a := by
  unfold expected
  rw [if_neg hne]
  have hs : (L.map (· rhs)).sum = L.length * a := by
    rw [List.map_congr_left h]
    simp
  rw [hs]
  have : (L.length : K) ≠ 0 := Nat.cast_ne_zero.2 (fun hl => hne (List.length_eq_zero_iff.1 hl))
  field_simp

section
variable {kinds : List (ElType × Nat)} {q : Split.Part} {D : Nat}

/-- What the matrix-free overloads visit: the points of the assembled ones, those of interior elements first. -/
theorem mf_spec (h : RankOk kinds q D) {bnds : List Nat} (hb : q.bnds.map (·.1) = bnds) {p : Prog} {m : DomMap} (hc : c.Ok p m bnds) (interior : Element → Bool)
    {ord : Bool → Nat → List Element → List Element} (hord : ∀ s k l, (ord s k l).Perm l) {ords : Bool → Nat → LocView.Orders} (hords : ∀ s j k l, ((ords s j k).2 l).Perm l)
    {L : List Pt} (hL : c.pts q.doms = some L) :
    ∃ vi vb a b, views kinds q interior ord ords = some (vi, vb) ∧ c.mfPts vi vb = some (a, b) ∧ (a ++ b).Perm (L.map (Pt.at q.own)) ∧
      ∀ pt ∈ a, ∃ pt' ∈ L, pt = Pt.at q.own pt' ∧ ∃ e, Holds q.doms e ∧ interior e = true ∧ pt'.node ∈ e.nodes := by
  obtain ⟨t, f, vi, vb, hs, hv, ht, hf, h1, h2⟩ := views_spec h interior ord hord ords hords
  have hids := hc.ids
  unfold Call.pts at hL
  unfold Call.mfPts
  cases hcb : c.boundary with
  | false =>
    simp only [hcb, Bool.false_eq_true, if_false] at hL hids ⊢
    have hids' : ∀ k ∈ c.ids, k ∉ q.bnds.map (·.1) := by rw [hb]; exact hids
    obtain ⟨vi', vb', hv', k2, _⟩ := C123_domain_kernel h interior hord hords hids' c.dim
    obtain ⟨rfl, rfl⟩ : vi' = vi ∧ vb' = vb := by
      rw [hv] at hv'
      have := Option.some.inj hv'
      exact ⟨(congrArg Prod.fst this).symm, (congrArg Prod.snd this).symm⟩
    obtain ⟨a, b, k3, k4⟩ := k2 L hL
    refine ⟨vi', vb', a, b, hv, k3, k4, fun pt hpt => ?_⟩
    unfold asmDom DimCheck.assemble at hL
    by_cases hx : DimCheck.checkDim q.doms c.ids c.dim = true
    swap
    · rw [if_neg hx] at hL; simp at hL
    rw [if_pos hx, Option.map_some] at hL
    obtain rfl := Option.some.inj hL
    unfold mfDom at k3
    split at k3
    swap
    · simp at k3
    have ha : mfDomPts vi' c.ids c.dim = a := congrArg Prod.fst (Option.some.inj k3)
    have hF : ∀ (a : VElem) e, a.id = e.id → a.loc.ty = e.ty → a.loc.n = e.n → a.loc.nodes = e.nodes.map (LocView.localPos q.own) → Holds q.doms e →
        (if c.dim = a.loc.ty.dim then VElem.pts a else []) = if c.dim = e.ty.dim then (gEl e).map (Pt.at q.own) else [] := by
      intro a e g1 g2 g3 g4 _
      unfold VElem.pts
      rw [g1, g2, g3, g4, elPts_at]
    have hp := visit_perm' h ht (hords true) h1 hids' _ _ hF
    have : pt ∈ (vi'.visit c.ids).flatMap fun a => if c.dim = a.loc.ty.dim then VElem.pts a else [] := by
      rw [← flatMap_filter_ite]
      unfold mfDomPts at ha
      rw [ha]; exact hpt
    obtain ⟨e, he, hpe⟩ := List.mem_flatMap.1 (hp.mem_iff.1 this)
    obtain ⟨he1, he2⟩ := List.mem_filter.1 he
    by_cases hd : c.dim = e.ty.dim
    · rw [if_pos hd] at hpe
      obtain ⟨pt', hpt', rfl⟩ := List.mem_map.1 hpe
      obtain ⟨k, _, hke⟩ := mem_visitIds.1 he1
      exact ⟨pt', List.mem_flatMap.2 ⟨e, List.mem_filter.2 ⟨he1, decide_eq_true hd⟩, hpt'⟩, rfl, e, inDom_holds hke, he2, node_gEl.1 ⟨pt', hpt', rfl⟩⟩
    · rw [if_neg hd] at hpe; simp at hpe
  | true =>
    simp only [hcb, if_true] at hL hids ⊢
    have hids' : c.ids ⊆ q.bnds.map (·.1) := by rw [hb]; exact hids.1
    obtain ⟨vi', vb', hv', k2, _⟩ := C123_boundary_kernel h interior hord hords hids' hids.2.1 c.dim
    obtain ⟨rfl, rfl⟩ : vi' = vi ∧ vb' = vb := by
      rw [hv] at hv'
      have := Option.some.inj hv'
      exact ⟨(congrArg Prod.fst this).symm, (congrArg Prod.snd this).symm⟩
    obtain ⟨a, b, k3, k4⟩ := k2 L hL
    refine ⟨vi', vb', a, b, hv, k3, k4, fun pt hpt => ?_⟩
    unfold asmBnd DimCheck.assembleBnd at hL
    by_cases hx : DimCheck.checkDim q.doms c.ids (c.dim - 1) = true
    swap
    · rw [if_neg hx] at hL; simp at hL
    rw [if_pos hx, Option.map_some] at hL
    obtain rfl := Option.some.inj hL
    unfold mfBnd at k3
    split at k3
    swap
    · simp at k3
    have ha : mfBndPts vi' c.ids c.dim = a := congrArg Prod.fst (Option.some.inj k3)
    have hF : ∀ (a : VElem) (e : Element) (s b : Nat), a.id = e.id → a.loc.ty = e.ty → a.loc.n = e.n → a.loc.nodes = e.nodes.map (LocView.localPos q.own) → Holds q.doms e → OnSide q e s b →
        (fun a : VElem × Nat => if c.dim = a.1.loc.ty.dim then vSide a else []) (a, s) =
          (fun v : Element × Nat => if c.dim = v.1.ty.dim then (gSide v).map (Pt.at q.own) else []) (e, s) := by
      intro a e s b g1 g2 g3 g4 he _
      beta_reduce
      unfold vSide
      simp only
      rw [g1, g2, g3, g4, sidePts_at (h.els e he).1]
    have hp := visitBnd_perm h ht (hords true) h1 c.ids (fun a : VElem × Nat => if c.dim = a.1.loc.ty.dim then vSide a else [])
      (fun v : Element × Nat => if c.dim = v.1.ty.dim then (gSide v).map (Pt.at q.own) else []) hF
    have : pt ∈ (vi'.visitBnd c.ids).flatMap fun a => if c.dim = a.1.loc.ty.dim then vSide a else [] := by
      rw [← flatMap_filter_ite]
      unfold mfBndPts at ha
      rw [ha]; exact hpt
    obtain ⟨⟨k, e⟩, hke, hpe⟩ := List.mem_flatMap.1 (hp.mem_iff.1 this)
    obtain ⟨he1, he2⟩ := List.mem_filter.1 hke
    obtain ⟨⟨s, b'⟩, hsb, hpe⟩ := List.mem_flatMap.1 hpe
    obtain ⟨hsb1, hsb2⟩ := List.mem_filter.1 hsb
    obtain ⟨_, x, hxb, hxv⟩ := mem_bsides.1 hsb1
    have hh := inDom_holds (mem_pairs.1 he1).2
    by_cases hd : c.dim = e.ty.dim
    · have hpe' : pt ∈ (gSide (e, s)).map (Pt.at q.own) := by
        have := hpe
        simp only at this
        rw [if_pos hd] at this; exact this
      obtain ⟨pt', hpt', rfl⟩ := List.mem_map.1 hpe'
      refine ⟨pt', List.mem_flatMap.2 ⟨(e, s), List.mem_filter.2 ⟨List.mem_filterMap.2 ⟨x, mem_visitIds.2 ⟨b', of_decide_eq_true hsb2, hxb⟩, hxv⟩, decide_eq_true hd⟩, hpt'⟩, rfl,
        e, hh, he2, node_gSide (h.els e hh).1 hpt'⟩
    · simp only at hpe
      rw [if_neg hd] at hpe; simp at hpe

/-- The nodes of the points a kernel is evaluated at in the mesh are those of the elements of the listed domains or boundaries. -/
theorem whole_nodes {m : DomMap} {bnds : List Nat} {nParts : Nat} {parts : List Split.Part} {f : Nat → Nat} {p : Prog} (hm : MeshOk kinds m bnds D) (hone : OneSided m bnds)
    (ho : Outcome Monotone kinds m bnds nParts parts f) (hc : c.Ok p m bnds) {L : List Pt} (hL : c.pts m = some L) (n : Nat) :
    (∃ pt ∈ asmConst m c.ids, pt.node = n) ↔ ∃ pt ∈ L, pt.node = n := by
  obtain ⟨N, maps, R⟩ := outcome_result hm hone ho
  have hw : Outcome Monotone kinds m bnds 1 [⟨m, ⟨0, N, []⟩, []⟩] id := .whole N R.nodes []
  obtain ⟨N', maps', R'⟩ := outcome_result hm hone hw
  exact zero_nodes R' (outcome_wf hm hone hw) hc Nat.one_pos hL n

end

end
end Verif.SetVals
