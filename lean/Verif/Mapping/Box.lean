import Verif.Mapping.Jacobi

/-! Order-one shape functions in closed form, and axis-aligned boxes. -/
namespace Verif.Mapping
open Verif.Basis Verif.Elem Verif.Poly Matrix

theorem line_two_zero (t : ℝ) : line 2 absc1 0 t = (1 - t) / 2 := by
  simp [line, linePoly, lagrangeInterp, lagCoefs, toList, rootPoly, mulRoot, otherRoots, evaluate, Function.update, absc1, List.range_succ]
  ring

theorem line_two_one (t : ℝ) : line 2 absc1 1 t = (1 + t) / 2 := by
  simp [line, linePoly, lagrangeInterp, lagCoefs, toList, rootPoly, mulRoot, otherRoots, evaluate, Function.update, absc1, List.range_succ]
  ring

theorem lineDer_two_zero (t : ℝ) : lineDer 2 absc1 0 t = -1 / 2 := by
  simp [lineDer, linePoly, lagrangeInterp, lagCoefs, toList, rootPoly, mulRoot, otherRoots, evaluate, derivative, derCoefs, Function.update, absc1,
    List.range_succ]
  norm_num

theorem lineDer_two_one (t : ℝ) : lineDer 2 absc1 1 t = 1 / 2 := by
  simp [lineDer, linePoly, lagrangeInterp, lagCoefs, toList, rootPoly, mulRoot, otherRoots, evaluate, derivative, derCoefs, Function.update, absc1,
    List.range_succ]
  norm_num

/-- Vertices of the box with centre `o` and half-sizes `h`. -/
noncomputable def boxVert (o h : Nat → ℝ) : Nat → Nat → ℝ := fun i k => o k + h k * absc1 (i / 2 ^ k % 2)

theorem box_hex_map (o h p : Nat → ℝ) (k : Nat) (hk : k < 3) : mapToPhysical .hex (boxVert o h) p k = o k + h k * p k := by
  unfold mapToPhysical valueAt shape basisFun hex quad boxVert
  interval_cases k <;>
    simp [nVerts, List.range_succ, line_two_zero, line_two_one, absc1] <;> ring

theorem box_hex_jac (o h p : Nat → ℝ) : (jacobiMat .hex (boxVert o h) p : Matrix (Fin 3) (Fin 3) ℝ) = !![h 0, 0, 0; 0, h 1, 0; 0, 0, h 2] := by
  ext a k
  unfold jacobiMat shapeDer basisDer hexDerXi hexDerEta hexDerZeta quad quadDerXi quadDerEta boxVert
  fin_cases a <;> fin_cases k <;>
    simp [nVerts, List.range_succ, line_two_zero, line_two_one, lineDer_two_zero, lineDer_two_one, absc1] <;> ring_nf <;> rfl

theorem box_quad_map (o h p : Nat → ℝ) (k : Nat) (hk : k < 2) : mapToPhysical .quad (boxVert o h) p k = o k + h k * p k := by
  unfold mapToPhysical valueAt shape basisFun quad boxVert
  interval_cases k <;>
    simp [nVerts, List.range_succ, line_two_zero, line_two_one, absc1] <;> ring

theorem box_quad_jac (o h p : Nat → ℝ) : (jacobiMat .quad (boxVert o h) p : Matrix (Fin 2) (Fin 2) ℝ) = !![h 0, 0; 0, h 1] := by
  ext a k
  unfold jacobiMat shapeDer basisDer quadDerXi quadDerEta boxVert
  fin_cases a <;> fin_cases k <;>
    simp [nVerts, List.range_succ, line_two_zero, line_two_one, lineDer_two_zero, lineDer_two_one, absc1] <;> ring_nf <;> rfl

theorem box_hex_det (o h p : Nat → ℝ) : (jacobiMat .hex (boxVert o h) p).det = h 0 * h 1 * h 2 := by
  have h1 : (!![h 0, 0, 0; 0, h 1, 0; 0, 0, h 2] : Matrix (Fin 3) (Fin 3) ℝ).det = h 0 * h 1 * h 2 := by
    rw [Matrix.det_fin_three]; simp
  rw [← box_hex_jac o h p] at h1
  exact h1

theorem box_quad_det (o h p : Nat → ℝ) : (jacobiMat .quad (boxVert o h) p).det = h 0 * h 1 := by
  have h1 : (!![h 0, 0; 0, h 1] : Matrix (Fin 2) (Fin 2) ℝ).det = h 0 * h 1 := by
    rw [Matrix.det_fin_two_of]; simp
  rw [← box_quad_jac o h p] at h1
  exact h1

end Verif.Mapping
