import Verif.Patch.Points

/-!
# C109: exact solutions in the finite element space are found
-/
namespace Verif.Patch
open Verif.Elem Verif.Mapping Verif.Quad Verif.Basis Verif.Lsq Verif.MatFree Verif.MfInit Finset

variable {t : ElType} {N nr : Nat} {D : Nat → Prop} {pel : Nat → List (PElem t)} {ranks : Nat → LRank}

theorem elem_of (ha : Assembles nr pel ranks) {q : Nat} (hq : q < nr) (L : LElem) (hL : L ∈ (ranks q).elems) : ∃ e ∈ pel q, e.toL = some L :=
  mapM_mem (ha.elems q hq) L hL

theorem toL_fields {e : PElem t} {L : LElem} (h : e.toL = some L) :
    L.dofs = e.dofs ∧ L.dims = ⟨e.us, e.nu, e.n ^ t.dim, t.dim, e.target⟩ := by
  obtain ⟨_, _, rfl⟩ := Option.map_eq_some_iff.1 h
  exact ⟨rfl, rfl⟩

theorem sized (ha : Assembles nr pel ranks) : Sized nr ranks := by
  intro q hq L hL
  obtain ⟨e, he, h⟩ := elem_of ha hq L hL
  rw [(toL_fields h).1, (toL_fields h).2]
  exact ha.dofs q hq e he

theorem weighted (ha : Assembles nr pel ranks) : Weighted nr ranks := by
  intro q hq L hL U hU
  obtain ⟨e, he, h⟩ := elem_of ha hq L hL
  obtain ⟨qo, hr⟩ := ha.rule q hq e he
  obtain ⟨_, _, w, _, _, rfl, hw, _⟩ := point_of_upd e hr h U hU
  exact hw

theorem residual_zero (ha : Assembles nr pel ranks) {u : Nat → (Fin t.dim → ℝ) → ℝ} {X : Nat → ℝ} (hX : Nodal nr pel ranks u X)
    (hu : ∀ q < nr, ∀ e ∈ pel q, ∀ v < e.nu, InSpace t e.n e.vert (u (e.unk v))) {c : Nat} (hex : ∀ q < nr, ∀ e ∈ pel q, Exact e u c)
    {q : Nat} (hq : q < nr) {L : LElem} (hL : L ∈ (ranks q).elems) {U : Batch.Upd} (hU : U ∈ L.pts) {i : Nat} (hi : i < L.dims.us) :
    Lsq.residual L.dims U (fun j => X ((ranks q).l2g.getD (L.dofs.getD j 0) 0)) c i = 0 := by
  obtain ⟨e, he, h⟩ := elem_of ha hq L hL
  obtain ⟨qo, hr⟩ := ha.rule q hq e he
  obtain ⟨p, normal, w, hpt, hp, rfl, _, hdom⟩ := point_of_upd e hr h U hU
  have hdet : (jacobiMat t e.vert (emb p)).det ≠ 0 := by
    by_cases hs : e.side = none
    · exact (hdom hs).ne'
    · exact ha.sides q hq e he hs p normal hpt
  obtain ⟨hdofs, hdims⟩ := toL_fields h
  rw [hdims] at hi ⊢
  rw [hdofs]
  obtain ⟨du, hd, heq⟩ := hex q hq e he p normal hpt
  have hval : ∀ v < e.nu, uVal ⟨e.us, e.nu, e.n ^ t.dim, t.dim, e.target⟩ (e.upd (emb p) normal w)
      (fun j => X ((ranks q).l2g.getD (e.dofs.getD j 0) 0)) v = u (e.unk v) (phys t e.vert p) := by
    intro v hv
    rw [space_reproduced (ha.pos q hq e he) (ha.inj q hq e he) (ha.nodes q hq e he) (hu q hq e he v hv) p hp]
    refine sum_congr rfl fun b hb => ?_
    rw [mul_comm]
    congr 1
    exact hX q hq e he b (mem_range.1 hb) v hv
  have hder : ∀ d : Fin t.dim, ∀ v < e.nu, uDer ⟨e.us, e.nu, e.n ^ t.dim, t.dim, e.target⟩ (e.upd (emb p) normal w)
      (fun j => X ((ranks q).l2g.getD (e.dofs.getD j 0) 0)) d v = du v (Pi.single d 1) := by
    intro d v hv
    rw [← space_derivative (ha.pos q hq e he) (ha.inj q hq e he) (ha.nodes q hq e he) (hu q hq e he v hv) p hp hdet _ (hd v hv) d]
    refine sum_congr rfl fun b hb => ?_
    congr 1
    exact hX q hq e he b (mem_range.1 hb) v hv
  unfold Lsq.residual
  rw [sub_eq_zero]
  refine Eq.trans ?_ (heq i hi)
  congr 1
  · exact sum_congr rfl fun v hv => by rw [hval v (mem_range.1 hv)]; rfl
  · refine (Fin.sum_univ_eq_sum_range (fun d => ∑ v ∈ range e.nu, (e.upd (emb p) normal w).op (d + 1) i v *
      uDer ⟨e.us, e.nu, e.n ^ t.dim, t.dim, e.target⟩ (e.upd (emb p) normal w) (fun j => X ((ranks q).l2g.getD (e.dofs.getD j 0) 0)) d v) t.dim).symm.trans ?_
    exact sum_congr rfl fun d _ => sum_congr rfl fun v hv => by rw [hder d v (mem_range.1 hv)]; rfl

theorem functional_zero (ha : Assembles nr pel ranks) {u : Nat → (Fin t.dim → ℝ) → ℝ} {X : Nat → ℝ} (hX : Nodal nr pel ranks u X)
    (hu : ∀ q < nr, ∀ e ∈ pel q, ∀ v < e.nu, InSpace t e.n e.vert (u (e.unk v))) {c : Nat} (hex : ∀ q < nr, ∀ e ∈ pel q, Exact e u c) :
    functional nr ranks c X = 0 := by
  unfold functional
  refine sum_eq_zero fun q hq => ?_
  refine List.sum_eq_zero fun y hy => ?_
  obtain ⟨L, hL, rfl⟩ := List.mem_map.1 hy
  refine List.sum_eq_zero fun y hy => ?_
  obtain ⟨U, hU, rfl⟩ := List.mem_map.1 hy
  rw [sum_eq_zero fun i hi => by rw [residual_zero ha hX hu hex (mem_range.1 hq) hL hU (mem_range.1 hi)]; exact zero_pow (by decide), mul_zero]

theorem functional_nonneg (hw : Weighted nr ranks) (c : Nat) (x : Nat → ℝ) : 0 ≤ functional nr ranks c x := by
  refine sum_nonneg fun q hq => List.sum_nonneg fun y hy => ?_
  obtain ⟨L, hL, rfl⟩ := List.mem_map.1 hy
  refine List.sum_nonneg fun y hy => ?_
  obtain ⟨U, hU, rfl⟩ := List.mem_map.1 hy
  exact mul_nonneg (hw q (mem_range.1 hq) L hL U hU) (sum_nonneg fun _ _ => sq_nonneg _)

/-- **C109** (assembled system): let the equations of all domain and boundary kernels hold at the quadrature points for fields `u` which on every
element belong to the finite element space of the element, and let the Dirichlet values be those of `u`.  Then the nodal values of `u` solve the
assembled system, every solution of the system makes all residuals vanish (zero functional), and if the system determines its solution, the
solution is `u` at every node. -/
theorem C109_exact [DecidablePred D] (ok : Ok N nr D fun q => (ranks q).toI.toRank) (ha : Assembles nr pel ranks) (u : Nat → (Fin t.dim → ℝ) → ℝ)
    (X : Nat → ℝ) (hX : Nodal nr pel ranks u X) (hu : ∀ q < nr, ∀ e ∈ pel q, ∀ v < e.nu, InSpace t e.n e.vert (u (e.unk v)))
    (c : Nat) (hex : ∀ q < nr, ∀ e ∈ pel q, Exact e u c) (val : Nat → ℝ) (hval : ∀ g < N, D g → val g = X g) :
    Solves N nr D ranks val X c ∧
    (∀ x, Solves N nr D ranks val x c → functional nr ranks c x = 0) ∧
    ((∀ z : Nat → ℝ, (∀ g < N, D g → z g = 0) → homogeneous nr ranks z = 0 → ∀ g < N, z g = 0) →
      ∀ x, Solves N nr D ranks val x c → ∀ g < N, x g = X g) := by
  have hs := sized ha
  have hw := weighted ha
  have h0 := functional_zero ha hX hu hex
  have hsol : Solves N nr D ranks val X c := by
    rw [C93_minimiser ok hs hw]
    exact ⟨fun g hg hD => (hval g hg hD).symm, fun z _ => by rw [h0]; exact functional_nonneg hw c z⟩
  refine ⟨hsol, fun x hx => ?_, fun hdef x hx => ?_⟩
  · have h := ((C93_minimiser ok hs hw val x c).1 hx).2 X fun g hg hD => (hval g hg hD).symm
    rw [h0] at h
    exact le_antisymm h (functional_nonneg hw c x)
  · by_contra hne
    push Not at hne
    obtain ⟨g, hg, hgne⟩ := hne
    have hpos := (C93_definite ok hs hw).2.2.2 hdef (fun g => x g - X g) ⟨g, hg, sub_ne_zero.2 hgne⟩
    have hz : ∀ g ∈ range N, (x g - X g) * ∑ h ∈ range N, withBC D (assembled nr fun q => (ranks q).toI.toRank) g h * (x h - X h) = 0 := by
      intro g hg
      have h1 := hx g (mem_range.1 hg)
      rw [← hsol g (mem_range.1 hg)] at h1
      have : ∑ h ∈ range N, withBC D (assembled nr fun q => (ranks q).toI.toRank) g h * (x h - X h) = 0 := by
        simp only [mul_sub, sum_sub_distrib]
        rw [h1, sub_self]
      rw [this, mul_zero]
    rw [sum_eq_zero hz] at hpos
    exact lt_irrefl _ hpos

/-- **C109** (matrix-free system): with the same hypotheses the application of the operator to the nodal values of `u` gives the right-hand side on
every rank, in whatever order the threads add. -/
theorem C109_matrix_free [DecidablePred D] (ok : Ok N nr D fun q => (ranks q).toI.toRank) (ha : Assembles nr pel ranks)
    (hcover : ∀ g < N, ∃ q < nr, ∃ a < (ranks q).nOwned, (ranks q).l2g.getD a 0 = g) (u : Nat → (Fin t.dim → ℝ) → ℝ)
    (nc c : Nat) (hc : c < nc) (X y : Nat → Nat → ℝ) (hX : Nodal nr pel ranks u fun g => X g c)
    (hu : ∀ q < nr, ∀ e ∈ pel q, ∀ v < e.nu, InSpace t e.n e.vert (u (e.unk v))) (hex : ∀ q < nr, ∀ e ∈ pel q, Exact e u c)
    (hval : ∀ q < nr, ∀ d < (ranks q).l2g.length, D ((ranks q).l2g.getD d 0) → (ranks q).vals d c = X ((ranks q).l2g.getD d 0) c)
    (ups ups' : Nat → List ((Nat × Nat) × ℝ)) (hups : ∀ q < nr, IsOrder (ranks q).toI.toRank X nc 1 (ups q))
    (hups' : ∀ q < nr, (ups' q).Perm (rhsIncs (ranks q).toI nc)) :
    ∀ me < nr, ∀ loc < (ranks me).nOwned,
      result nr (fun q => (ranks q).toI.toRank) (fun q => rankMem (ranks q).toI.toRank y 0 (ups q)) me loc c =
        finalRhs nr (fun q => (ranks q).toI) ups' me loc c := by
  have hw := weighted ha
  rw [C93_matrix_free ok (sized ha) hw hcover X X y nc c hc hval ups ups' hups hups']
  exact ⟨fun _ _ _ => rfl, fun z _ => by rw [functional_zero ha hX hu hex]; exact functional_nonneg hw c z⟩

end Verif.Patch
