import Verif.Lsq.Props
import Verif.SumOp.Model
import Verif.Quad.Props
import Verif.Mapping.Box

/-! # C93: the weights of domain elements are positive -/
namespace Verif.Lsq

theorem mem_quadRule {r : Quad.Rule1} {pw : (ℝ × ℝ) × ℝ} (h : pw ∈ Quad.quadRule r) : ∃ a ∈ r, ∃ b ∈ r, pw.2 = a.2 * b.2 := by
  unfold Quad.quadRule at h
  obtain ⟨a, ha, h⟩ := List.mem_flatMap.1 h
  obtain ⟨b, hb, rfl⟩ := List.mem_map.1 h
  exact ⟨a, ha, b, hb, by ring⟩

theorem mem_hexRule {r : Quad.Rule1} {pw : (ℝ × ℝ × ℝ) × ℝ} (h : pw ∈ Quad.hexRule r) : ∃ a ∈ r, ∃ b ∈ r, ∃ c ∈ r, pw.2 = a.2 * b.2 * c.2 := by
  unfold Quad.hexRule at h
  obtain ⟨a, ha, h⟩ := List.mem_flatMap.1 h
  obtain ⟨b, hb, h⟩ := List.mem_flatMap.1 h
  obtain ⟨c, hc, rfl⟩ := List.mem_map.1 h
  exact ⟨a, ha, b, hb, c, hc, by ring⟩

/-- C93: for quadrilaterals and hexahedra with the reference quadrature of any order the weights are positive as soon as the check
`jacobian > 0` of `assembleLocalSystem` passes at every point, so the hypothesis on the weights holds for all domain kernels. -/
theorem C93_weights (qo : Nat) (r : Quad.Rule1) (hr : Quad.IsReferenceRule qo r) (n nfld : Nat) (x : Nat → ℝ) (vert nv : Nat → Nat → ℝ) :
    (∀ kern, (∀ pw ∈ Quad.quadRule r, 0 < (Mapping.jacobiMat .quad vert (SumOp.coords2 pw.1)).det) →
      ∀ U ∈ SumOp.updsQuad n nfld x kern vert nv r, 0 < U.w) ∧
    (∀ kern, (∀ pw ∈ Quad.hexRule r, 0 < (Mapping.jacobiMat .hex vert (SumOp.coords3 pw.1)).det) →
      ∀ U ∈ SumOp.updsHex n nfld x kern vert nv r, 0 < U.w) := by
  have hp := (Quad.C66_points qo r hr).2.1
  constructor
  · intro kern hdet U hU
    obtain ⟨pw, hpw, rfl⟩ := List.mem_map.1 hU
    obtain ⟨a, ha, b, hb, e⟩ := mem_quadRule hpw
    change 0 < _ * pw.2
    refine mul_pos (hdet pw hpw) ?_
    rw [e]
    exact mul_pos (hp a ha).2.2.1 (hp b hb).2.2.1
  · intro kern hdet U hU
    obtain ⟨pw, hpw, rfl⟩ := List.mem_map.1 hU
    obtain ⟨a, ha, b, hb, c, hc, e⟩ := mem_hexRule hpw
    change 0 < _ * pw.2
    refine mul_pos (hdet pw hpw) ?_
    rw [e]
    exact mul_pos (mul_pos (hp a ha).2.2.1 (hp b hb).2.2.1) (hp c hc).2.2.1

/-- A rectangle with sides 2 and 6 passes the check at every point. -/
example (qo : Nat) (r : Quad.Rule1) (hr : Quad.IsReferenceRule qo r) (kern) : ∀ U ∈ SumOp.updsQuad 3 0 (fun i => i)
    kern (Mapping.boxVert (fun _ => 0) (fun k => if k = 0 then 1 else 3)) (fun _ _ => 0) r, 0 < U.w := by
  refine (C93_weights qo r hr 3 0 _ _ _).1 kern fun pw _ => ?_
  rw [Mapping.box_quad_det]
  norm_num

end Verif.Lsq
