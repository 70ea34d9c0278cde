import Verif.Mapping.Model
import Mathlib.LinearAlgebra.CrossProduct
import Mathlib.LinearAlgebra.Matrix.Determinant.Basic
import Mathlib.Analysis.SpecialFunctions.Trigonometric.Basic
import Mathlib.Analysis.SpecialFunctions.Complex.Circle
import Mathlib.Tactic.LinearCombination

/-!
# C100: rotation matrices

The matrices themselves (`rotX`, `rotY`, `rotZ`, `rot2`) are modelled, entry by entry, in
`Verif.Mapping.Model` (math/RotationMatrix.hpp 11-76), with real arithmetic in place of floating
point.  Here they are compared with rotations described independently of their entries: Rodrigues'
formula in space, multiplication by `exp (i a)` in the plane.
-/

namespace Verif.Rot

open Verif.Mapping Matrix Real

/-- Right-handed rotation of `v` by the angle `a` about the unit axis `e` (Rodrigues' formula). -/
noncomputable def rodrigues (e : Fin 3 → ℝ) (a : ℝ) (v : Fin 3 → ℝ) : Fin 3 → ℝ :=
  Real.cos a • v + Real.sin a • (crossProduct e v) + ((1 - Real.cos a) * (e ⬝ᵥ v)) • e

/-- Counter-clockwise rotation of the plane by the angle `a`: multiplication by `exp (i a)`. -/
noncomputable def turn (a : ℝ) (v : Fin 2 → ℝ) : Fin 2 → ℝ :=
  ![(Complex.exp (a * Complex.I) * ⟨v 0, v 1⟩).re, (Complex.exp (a * Complex.I) * ⟨v 0, v 1⟩).im]

theorem turn_eq (a : ℝ) (v : Fin 2 → ℝ) :
    turn a v = ![Real.cos a * v 0 - Real.sin a * v 1, Real.cos a * v 1 + Real.sin a * v 0] := by
  unfold turn
  have e : Complex.exp (a * Complex.I) = ⟨Real.cos a, Real.sin a⟩ := by
    rw [Complex.exp_mul_I, ← Complex.ofReal_cos, ← Complex.ofReal_sin]
    apply Complex.ext <;>
      simp only [Complex.add_re, Complex.add_im, Complex.mul_re, Complex.mul_im, Complex.ofReal_re,
        Complex.ofReal_im, Complex.I_re, Complex.I_im] <;> ring
  rw [e, Complex.mul_re, Complex.mul_im]

/-- C100, full statement: every function returns the matrix of the (right-handed, counter-clockwise)
rotation by the angle it is given. -/
def C100Statement : Prop :=
  (∀ a v, (rotX a).mulVec v = rodrigues ![1, 0, 0] a v) ∧
  (∀ a v, (rotY a).mulVec v = rodrigues ![0, 1, 0] a v) ∧
  (∀ a v, (rotZ a).mulVec v = rodrigues ![0, 0, 1] a v) ∧
  (∀ a v, (rot2 a).mulVec v = turn a v)

/-- C100, the part that holds: the three spatial functions return the right-handed rotation about
their axis by the angle given; the planar one returns the rotation by the opposite of the angle. -/
theorem C100_rotations_partial (a : ℝ) :
    (∀ v, (rotX a).mulVec v = rodrigues ![1, 0, 0] a v) ∧
    (∀ v, (rotY a).mulVec v = rodrigues ![0, 1, 0] a v) ∧
    (∀ v, (rotZ a).mulVec v = rodrigues ![0, 0, 1] a v) ∧
    (∀ v, (rot2 a).mulVec v = turn (-a) v) := by
  refine ⟨fun v => ?_, fun v => ?_, fun v => ?_, fun v => ?_⟩
  · ext i
    fin_cases i <;>
      simp [rotX, rodrigues, crossProduct, Matrix.mulVec, dotProduct, Fin.sum_univ_three,
        Matrix.vecHead, Matrix.vecTail] <;> ring
  · ext i
    fin_cases i <;>
      simp [rotY, rodrigues, crossProduct, Matrix.mulVec, dotProduct, Fin.sum_univ_three,
        Matrix.vecHead, Matrix.vecTail] <;> ring
  · ext i
    fin_cases i <;>
      simp [rotZ, rodrigues, crossProduct, Matrix.mulVec, dotProduct, Fin.sum_univ_three,
        Matrix.vecHead, Matrix.vecTail] <;> ring
  · rw [turn_eq]
    ext i
    fin_cases i <;> simp [rot2, Matrix.mulVec, dotProduct, Fin.sum_univ_two] <;> ring

/-- A quarter turn about the x axis takes the y axis to the z axis. -/
example : (rotX (π / 2)).mulVec ![0, 1, 0] = ![0, 0, 1] := by
  rw [(C100_rotations_partial (π / 2)).1]
  ext i
  fin_cases i <;> simp [rodrigues, crossProduct, Matrix.vecHead, Matrix.vecTail]

/-- C100 fails for the planar function: for every angle that is not a multiple of `π` it returns a
matrix that is not the rotation by that angle.  In particular it disagrees with the upper left block
of `makeRotationMatrix3DZ` (math/RotationMatrix.hpp 47-63). -/
theorem C100_planar_sign_violated :
    ¬ C100Statement ∧
    ∀ a, Real.sin a ≠ 0 →
      (∃ v, (rot2 a).mulVec v ≠ turn a v) ∧
      rot2 a ≠ (rotZ a).submatrix (Fin.castLE (by decide)) (Fin.castLE (by decide)) := by
  have key : ∀ a, Real.sin a ≠ 0 → (rot2 a).mulVec ![1, 0] ≠ turn a ![1, 0] := by
    intro a ha h
    rw [turn_eq] at h
    have := congrFun h 1
    simp [rot2, Matrix.mulVec, dotProduct, Fin.sum_univ_two] at this
    apply ha; linarith
  refine ⟨fun h => key (π / 2) (by simp) (h.2.2.2 _ _), fun a ha => ⟨⟨_, key a ha⟩, fun h => ?_⟩⟩
  have := congrFun (congrFun h 1) 0
  simp [rot2, rotZ] at this
  apply ha; linarith

/-- The planar quarter turn takes the x axis to minus the y axis. -/
example : (rot2 (π / 2)).mulVec ![1, 0] = ![0, -1] := by
  ext i
  fin_cases i <;> simp [rot2, Matrix.mulVec, dotProduct, Fin.sum_univ_two]

/-- C100, rigid motions: all the matrices are orthogonal with determinant one, so that the side
mappings built from them preserve lengths, angles and orientation; rotating by `a` and then by `b`
is rotating by `a + b`; the rotation by the opposite angle is the inverse. -/
theorem C100_group (a b : ℝ) :
    ((rotX a).transpose * rotX a = 1 ∧ (rotX a).det = 1 ∧ rotX b * rotX a = rotX (a + b) ∧
      rotX (-a) * rotX a = 1) ∧
    ((rotY a).transpose * rotY a = 1 ∧ (rotY a).det = 1 ∧ rotY b * rotY a = rotY (a + b) ∧
      rotY (-a) * rotY a = 1) ∧
    ((rotZ a).transpose * rotZ a = 1 ∧ (rotZ a).det = 1 ∧ rotZ b * rotZ a = rotZ (a + b) ∧
      rotZ (-a) * rotZ a = 1) ∧
    ((rot2 a).transpose * rot2 a = 1 ∧ (rot2 a).det = 1 ∧ rot2 b * rot2 a = rot2 (a + b) ∧
      rot2 (-a) * rot2 a = 1) := by
  have h := Real.sin_sq_add_cos_sq a
  refine ⟨⟨?_, ?_, ?_, ?_⟩, ⟨?_, ?_, ?_, ?_⟩, ⟨?_, ?_, ?_, ?_⟩, ⟨?_, ?_, ?_, ?_⟩⟩
  all_goals
    first
    | (simp only [rotX, rotY, rotZ, rot2, Matrix.det_fin_three, Matrix.det_fin_two]
       simp
       first | linear_combination h | done)
    | (ext i j
       fin_cases i <;> fin_cases j <;>
        simp [rotX, rotY, rotZ, rot2, Matrix.mul_apply, Fin.sum_univ_two, Fin.sum_univ_three,
          Real.cos_add, Real.sin_add] <;>
        first | done | linear_combination h | ring)

/-- A vector and its image under a side mapping's rotation have the same length. -/
example (v : Fin 3 → ℝ) :
    (rotX 1).mulVec v ⬝ᵥ (rotX 1).mulVec v = v ⬝ᵥ v := by
  rw [Matrix.dotProduct_mulVec, Matrix.vecMul_mulVec, (C100_group 1 0).1.1, Matrix.vecMul_one]

end Verif.Rot
