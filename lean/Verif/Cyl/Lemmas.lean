import Verif.Cyl.Model
import Verif.Grid.Props
import Verif.Prim.Square
import Verif.Mapping.Box
import Verif.Quad.Props
import Mathlib.Analysis.SpecialFunctions.Integrals.Basic
import Mathlib.Tactic.LinearCombination

/-! # Cells of the blocks: jacobians and areas -/
namespace Verif.Cyl
open Verif.Prim Verif.Grid Verif.Elem Verif.Mapping Finset

/-- Vertex coordinates of an element call, as the mapping functions take them. -/
noncomputable def vertOf (e : Emit Pt) (v k : Nat) : ℝ :=
  if k = 0 then (e.verts.getD v (0, 0, 0)).1 else if k = 1 then (e.verts.getD v (0, 0, 0)).2.1 else (e.verts.getD v (0, 0, 0)).2.2

/-- Jacobian determinant of an element call at a point of the reference square. -/
noncomputable def jac (e : Emit Pt) (ξ η : ℝ) : ℝ := (jacobiMat .quad (vertOf e) (fun k => if k = 0 then ξ else η)).det

/-- Area of an element call: the integral of the jacobian over the reference square. -/
noncomputable def area (e : Emit Pt) : ℝ := ∫ ξ in (-1 : ℝ)..1, ∫ η in (-1 : ℝ)..1, jac e ξ η

/-- `(b - a) × (d - c)`. -/
def cross (a b c d : Pt) : ℝ := (b.1 - a.1) * (d.2.1 - c.2.1) - (b.2.1 - a.2.1) * (d.1 - c.1)

theorem jac_eq (d : Nat) (ns : List Nat) (v0 v1 v2 v3 : Pt) (ξ η : ℝ) : jac ⟨d, .quad, ns, [v0, v1, v2, v3]⟩ ξ η =
    ((1 - η) * (1 - ξ) * cross v0 v1 v0 v2 + (1 - η) * (1 + ξ) * cross v0 v1 v1 v3 + (1 + η) * (1 - ξ) * cross v2 v3 v0 v2 +
      (1 + η) * (1 + ξ) * cross v2 v3 v1 v3) / 16 := by
  obtain ⟨M, hM⟩ : ∃ M : Matrix (Fin 2) (Fin 2) ℝ, M =
      jacobiMat .quad (vertOf ⟨d, .quad, ns, [v0, v1, v2, v3]⟩) (fun k => if k = 0 then ξ else η) := ⟨_, rfl⟩
  have e00 : M 0 0 = ((1 - η) * (v1.1 - v0.1) + (1 + η) * (v3.1 - v2.1)) / 4 := by
    rw [hM]
    simp [jacobiMat, shapeDer, basisDer, Basis.quadDerXi, nVerts, List.range_succ, line_two_zero, line_two_one,
        lineDer_two_zero, lineDer_two_one, vertOf]
    ring
  have e01 : M 0 1 = ((1 - η) * (v1.2.1 - v0.2.1) + (1 + η) * (v3.2.1 - v2.2.1)) / 4 := by
    rw [hM]
    simp [jacobiMat, shapeDer, basisDer, Basis.quadDerXi, nVerts, List.range_succ, line_two_zero, line_two_one,
        lineDer_two_zero, lineDer_two_one, vertOf]
    ring
  have e10 : M 1 0 = ((1 - ξ) * (v2.1 - v0.1) + (1 + ξ) * (v3.1 - v1.1)) / 4 := by
    rw [hM]
    simp [jacobiMat, shapeDer, basisDer, Basis.quadDerEta, nVerts, List.range_succ, line_two_zero, line_two_one,
        lineDer_two_zero, lineDer_two_one, vertOf]
    ring
  have e11 : M 1 1 = ((1 - ξ) * (v2.2.1 - v0.2.1) + (1 + ξ) * (v3.2.1 - v1.2.1)) / 4 := by
    rw [hM]
    simp [jacobiMat, shapeDer, basisDer, Basis.quadDerEta, nVerts, List.range_succ, line_two_zero, line_two_one,
        lineDer_two_zero, lineDer_two_one, vertOf]
    ring
  have hd : jac ⟨d, .quad, ns, [v0, v1, v2, v3]⟩ ξ η = M.det := by rw [hM]; rfl
  rw [hd, Matrix.det_fin_two, e00, e01, e10, e11]
  unfold cross
  ring

theorem jac_pos (d : Nat) (ns : List Nat) (v0 v1 v2 v3 : Pt) (h0 : 0 < cross v0 v1 v0 v2) (h1 : 0 < cross v0 v1 v1 v3)
    (h2 : 0 < cross v2 v3 v0 v2) (h3 : 0 < cross v2 v3 v1 v3) (ξ η : ℝ) (a : -1 ≤ ξ) (b : ξ ≤ 1) (c : -1 ≤ η) (e : η ≤ 1) :
    0 < jac ⟨d, .quad, ns, [v0, v1, v2, v3]⟩ ξ η := by
  rw [jac_eq]
  obtain ⟨m, hm, m0, m1, m2, m3⟩ : ∃ m, 0 < m ∧ m ≤ cross v0 v1 v0 v2 ∧ m ≤ cross v0 v1 v1 v3 ∧ m ≤ cross v2 v3 v0 v2 ∧ m ≤ cross v2 v3 v1 v3 :=
    ⟨min (min (cross v0 v1 v0 v2) (cross v0 v1 v1 v3)) (min (cross v2 v3 v0 v2) (cross v2 v3 v1 v3)),
      lt_min (lt_min h0 h1) (lt_min h2 h3), (min_le_left _ _).trans (min_le_left _ _), (min_le_left _ _).trans (min_le_right _ _),
      (min_le_right _ _).trans (min_le_left _ _), (min_le_right _ _).trans (min_le_right _ _)⟩
  have k0 := mul_le_mul_of_nonneg_left m0 (mul_nonneg (sub_nonneg.2 e) (sub_nonneg.2 b))
  have k1 := mul_le_mul_of_nonneg_left m1 (mul_nonneg (sub_nonneg.2 e) (by linarith : 0 ≤ 1 + ξ))
  have k2 := mul_le_mul_of_nonneg_left m2 (mul_nonneg (by linarith : 0 ≤ 1 + η) (sub_nonneg.2 b))
  have k3 := mul_le_mul_of_nonneg_left m3 (mul_nonneg (by linarith : 0 ≤ 1 + η) (by linarith : 0 ≤ 1 + ξ))
  have : (1 - η) * (1 - ξ) * m + (1 - η) * (1 + ξ) * m + (1 + η) * (1 - ξ) * m + (1 + η) * (1 + ξ) * m = 4 * m := by ring
  linarith

theorem int_affine (A B : ℝ) : ∫ x in (-1 : ℝ)..1, (A + B * x) = 2 * A := by
  have hB : IntervalIntegrable (fun x : ℝ => B * x) MeasureTheory.volume (-1) 1 := (by fun_prop : Continuous fun x : ℝ => B * x).intervalIntegrable _ _
  rw [intervalIntegral.integral_add intervalIntegrable_const hB, intervalIntegral.integral_const, intervalIntegral.integral_const_mul, integral_id]
  simp only [smul_eq_mul]
  ring

theorem area_eq (d : Nat) (ns : List Nat) (v0 v1 v2 v3 : Pt) : area ⟨d, .quad, ns, [v0, v1, v2, v3]⟩ =
    (cross v0 v1 v0 v2 + cross v0 v1 v1 v3 + cross v2 v3 v0 v2 + cross v2 v3 v1 v3) / 4 := by
  unfold area
  simp only [jac_eq]
  generalize cross v0 v1 v0 v2 = a
  generalize cross v0 v1 v1 v3 = b
  generalize cross v2 v3 v0 v2 = c
  generalize cross v2 v3 v1 v3 = e
  have h1 : ∀ ξ : ℝ, ∫ η in (-1 : ℝ)..1, ((1 - η) * (1 - ξ) * a + (1 - η) * (1 + ξ) * b + (1 + η) * (1 - ξ) * c + (1 + η) * (1 + ξ) * e) / 16 =
      ((1 - ξ) * a + (1 + ξ) * b + (1 - ξ) * c + (1 + ξ) * e) / 8 := by
    intro ξ
    have e1 : ∀ η : ℝ, ((1 - η) * (1 - ξ) * a + (1 - η) * (1 + ξ) * b + (1 + η) * (1 - ξ) * c + (1 + η) * (1 + ξ) * e) / 16 =
        ((1 - ξ) * a + (1 + ξ) * b + (1 - ξ) * c + (1 + ξ) * e) / 16 + ((1 - ξ) * c + (1 + ξ) * e - (1 - ξ) * a - (1 + ξ) * b) / 16 * η := by
      intro η; ring
    simp only [e1]
    rw [int_affine]
    ring
  simp only [h1]
  have e2 : ∀ ξ : ℝ, ((1 - ξ) * a + (1 + ξ) * b + (1 - ξ) * c + (1 + ξ) * e) / 8 = (a + b + c + e) / 8 + (b + e - a - c) / 8 * ξ := by
    intro ξ; ring
  simp only [e2]
  rw [int_affine]
  ring

theorem cross_rotate (α : ℝ) (a b c d : Pt) : cross (rotate α a) (rotate α b) (rotate α c) (rotate α d) = cross a b c d := by
  unfold cross rotate
  have := Real.sin_sq_add_cos_sq α
  simp only
  linear_combination ((b.1 - a.1) * (d.2.1 - c.2.1) - (b.2.1 - a.2.1) * (d.1 - c.1)) * this

/-! ## Point distributions -/

/-- A strictly increasing distribution from `lo` to `hi` with `n` intervals. -/
structure Dist (xs : List ℝ) (lo hi : ℝ) (n : Nat) : Prop where
  len : xs.length = n + 1
  first : xs.getD 0 0 = lo
  last : xs.getD n 0 = hi
  inc : ∀ i, i < n → xs.getD i 0 < xs.getD (i + 1) 0

theorem getD_of {xs : List ℝ} {i : Nat} (h : i < xs.length) : xs.getD i 0 = xs[i] := by
  rw [List.getD_eq_getElem?_getD, List.getElem?_eq_getElem h]; rfl

theorem geom_dist (lo hi : ℝ) (n : Nat) (q : ℝ) (hn : 0 < n) (hq : 0 < q) (hl : lo < hi) :
    ∃ g, geomSpaceProg lo hi (n + 1) q = some g ∧ Dist g lo hi n := by
  obtain ⟨g, h1, h2, h3, h4, _, h6, _⟩ := C16_geomSpaceProg lo hi (n + 1) (by omega) q hq
  refine ⟨g, h1, ⟨h2, ?_, ?_, ?_⟩⟩
  · rw [List.getD_eq_getElem?_getD, h3]; rfl
  · rw [List.getD_eq_getElem?_getD, show n = n + 1 - 1 by omega, h4]; rfl
  · intro i hi
    rw [getD_of (by omega), getD_of (by omega)]
    exact List.pairwise_iff_getElem.1 (h6 hl) i (i + 1) (by omega) (by omega) (by omega)

theorem lin_dist (lo hi : ℝ) (n : Nat) (hn : 0 < n) :
    ∃ g, linspace lo hi (n + 1) = some g ∧ g.length = n + 1 ∧ ∀ j, j ≤ n → g.getD j 0 = lo + j * ((hi - lo) / n) := by
  refine ⟨_, if_pos (by omega), by simp, fun j hj => ?_⟩
  rw [getD_of (by simp; omega)]
  simp

end Verif.Cyl
