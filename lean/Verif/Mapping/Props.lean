import Verif.Mapping.Model
import Verif.Elem.Props
import Mathlib.Tactic.FinCases
import Mathlib.LinearAlgebra.Matrix.DotProduct
import Mathlib.LinearAlgebra.Matrix.Nondegenerate

/-!
# C69, C70, C71: boundary normals, side mappings, surface measures
-/
namespace Verif.Mapping
open Verif.Basis Verif.Elem Matrix

/-! ## Lemmas -/

theorem normalize_spec {d : Nat} (v w : Fin d → ℝ) (h : 0 < v ⬝ᵥ w) :
    ∃ c : ℝ, 0 < c ∧ normalize v = c • v ∧ normalize v ⬝ᵥ normalize v = 1 := by
  have hv : 0 < v ⬝ᵥ v := by
    rcases (dotProduct_self_nonneg v).lt_or_eq with h' | h'
    · exact h'
    · rw [dotProduct_self_eq_zero.1 h'.symm, zero_dotProduct] at h; exact absurd h (lt_irrefl 0)
  have hs := Real.sqrt_pos.2 hv
  refine ⟨(Real.sqrt (v ⬝ᵥ v))⁻¹, inv_pos.2 hs, if_pos hv, ?_⟩
  rw [normalize, if_pos hv, smul_dotProduct, dotProduct_smul, smul_eq_mul, smul_eq_mul, ← mul_assoc, ← mul_inv,
    Real.mul_self_sqrt hv.le, inv_mul_cancel₀ hv.ne']
where
  dotProduct_self_nonneg (v : Fin d → ℝ) : 0 ≤ v ⬝ᵥ v := Finset.sum_nonneg fun i _ => mul_self_nonneg _

/-- The coordinate held fixed on a side. -/
def axis (t : ElType) (s : Nat) : Fin t.dim := ⟨sideAxis t s, sideAxis_lt t s⟩

/-- Its value on the side. -/
def sgn (s : Nat) : ℝ := if s % 2 = 0 then -1 else 1

/-- From an unnormalised normal to the statement. -/
theorem normal_of (t : ElType) (s : Nat) (J : Matrix (Fin t.dim) (Fin t.dim) ℝ) (n : Fin t.dim → ℝ)
    (hr : boundaryNormal t s J = some (normalize n)) (hdet : 0 < J.det)
    (ho : ∀ a, a ≠ axis t s → n ⬝ᵥ J a = 0) (hd : n ⬝ᵥ (sgn s • J (axis t s)) = J.det) :
    ∃ v, boundaryNormal t s J = some v ∧ v ⬝ᵥ v = 1 ∧ (∀ a, a ≠ axis t s → v ⬝ᵥ J a = 0) ∧
      0 < v ⬝ᵥ (sgn s • J (axis t s)) := by
  obtain ⟨c, hc, h1, h2⟩ := normalize_spec n _ (hd ▸ hdet)
  refine ⟨_, hr, h2, fun a ha => ?_, ?_⟩
  · rw [h1, smul_dotProduct, ho a ha, smul_zero]
  · rw [h1, smul_dotProduct, hd]; exact mul_pos hc hdet

/-- **C69.** For every element type, every side and every Jacobi matrix with positive determinant, the
computed normal has length 1, is orthogonal to the side's tangents (the derivatives along the other
reference directions) and has a positive component along the direction leaving the element. -/
theorem C69_normal (t : ElType) (s : Nat) (hs : s < nSides t) (J : Matrix (Fin t.dim) (Fin t.dim) ℝ)
    (hdet : 0 < J.det) :
    ∃ v, boundaryNormal t s J = some v ∧ v ⬝ᵥ v = 1 ∧ (∀ a, a ≠ axis t s → v ⬝ᵥ J a = 0) ∧
      0 < v ⬝ᵥ (sgn s • J (axis t s)) := by
  cases t with
  | line =>
    change Matrix (Fin 1) (Fin 1) ℝ at J
    have hJ : 0 < J 0 0 := by
      have h : J.det = J 0 0 := Matrix.det_fin_one J
      exact h ▸ hdet
    have ha : axis .line s = (0 : Fin 1) := Subsingleton.elim (α := Fin 1) _ _
    refine ⟨normalLine s, rfl, ?_, ?_, ?_⟩
    · change (normalLine s) ⬝ᵥ (normalLine s) = 1
      by_cases h : s = 0 <;> simp [normalLine, h, dotProduct]
    · intro a h; exact absurd (Subsingleton.elim (α := Fin 1) a _) h
    · rw [ha]
      change 0 < normalLine s ⬝ᵥ (sgn s • J 0)
      have hs2 : s = 0 ∨ s = 1 := by simp [nSides, table, lineTable] at hs; omega
      rcases hs2 with rfl | rfl <;> simp [normalLine, sgn, dotProduct, hJ]
  | quad =>
    change Matrix (Fin 2) (Fin 2) ℝ at J
    have hJ : J.det = J 0 0 * J 1 1 - J 0 1 * J 1 0 := Matrix.det_fin_two J
    have hs4 : s < 4 := by simpa [nSides, table, quadTable] using hs
    have key : ∀ (n : Fin 2 → ℝ) (e : normalQuad s J = some (normalize n)) (r : Fin 2),
        axis .quad s = r → (∀ a, a ≠ r → n ⬝ᵥ J a = 0) → n ⬝ᵥ (sgn s • J r) = J.det → _ :=
      fun n e r hr ho hd => normal_of .quad s J n e hdet (hr ▸ ho) (hr ▸ hd)
    interval_cases s
    · refine key _ rfl 1 rfl ?_ ?_
      · intro a ha; fin_cases a <;> simp [dotProduct, Fin.sum_univ_two] at ha ⊢; ring
      · simp [dotProduct, Fin.sum_univ_two, sgn, hJ]; ring
    · refine key _ rfl 1 rfl ?_ ?_
      · intro a ha; fin_cases a <;> simp [dotProduct, Fin.sum_univ_two] at ha ⊢; ring
      · simp [dotProduct, Fin.sum_univ_two, sgn, hJ]; ring
    · refine key _ rfl 0 rfl ?_ ?_
      · intro a ha; fin_cases a <;> simp [dotProduct, Fin.sum_univ_two] at ha ⊢; ring
      · simp [dotProduct, Fin.sum_univ_two, sgn, hJ]; ring
    · refine key _ rfl 0 rfl ?_ ?_
      · intro a ha; fin_cases a <;> simp [dotProduct, Fin.sum_univ_two] at ha ⊢; ring
      · simp [dotProduct, Fin.sum_univ_two, sgn, hJ]; ring
  | hex =>
    change Matrix (Fin 3) (Fin 3) ℝ at J
    have hJ := Matrix.det_fin_three J
    have hs6 : s < 6 := by simpa [nSides, table, hexTable] using hs
    have key : ∀ (n : Fin 3 → ℝ) (e : normalHex s J = some (normalize n)) (r : Fin 3),
        axis .hex s = r → (∀ a, a ≠ r → n ⬝ᵥ J a = 0) → n ⬝ᵥ (sgn s • J r) = J.det → _ :=
      fun n e r hr ho hd => normal_of .hex s J n e hdet (hr ▸ ho) (hr ▸ hd)
    interval_cases s
    · refine key _ rfl 2 rfl ?_ ?_
      · intro a ha; fin_cases a <;> simp [dotProduct, Fin.sum_univ_three, cross_apply] at ha ⊢ <;> ring
      · rw [hJ]; simp [dotProduct, Fin.sum_univ_three, sgn, cross_apply]; ring
    · refine key _ rfl 2 rfl ?_ ?_
      · intro a ha; fin_cases a <;> simp [dotProduct, Fin.sum_univ_three, cross_apply] at ha ⊢ <;> ring
      · rw [hJ]; simp [dotProduct, Fin.sum_univ_three, sgn, cross_apply]; ring
    · refine key _ rfl 1 rfl ?_ ?_
      · intro a ha; fin_cases a <;> simp [dotProduct, Fin.sum_univ_three, cross_apply] at ha ⊢ <;> ring
      · rw [hJ]; simp [dotProduct, Fin.sum_univ_three, sgn, cross_apply]; ring
    · refine key _ rfl 1 rfl ?_ ?_
      · intro a ha; fin_cases a <;> simp [dotProduct, Fin.sum_univ_three, cross_apply] at ha ⊢ <;> ring
      · rw [hJ]; simp [dotProduct, Fin.sum_univ_three, sgn, cross_apply]; ring
    · refine key _ rfl 0 rfl ?_ ?_
      · intro a ha; fin_cases a <;> simp [dotProduct, Fin.sum_univ_three, cross_apply] at ha ⊢ <;> ring
      · rw [hJ]; simp [dotProduct, Fin.sum_univ_three, sgn, cross_apply]; ring
    · refine key _ rfl 0 rfl ?_ ?_
      · intro a ha; fin_cases a <;> simp [dotProduct, Fin.sum_univ_three, cross_apply] at ha ⊢ <;> ring
      · rw [hJ]; simp [dotProduct, Fin.sum_univ_three, sgn, cross_apply]; ring

/-- **C69** (uniqueness): there is only one such vector, so the result is the outward unit normal. -/
theorem C69_unique (t : ElType) (s : Nat) (J : Matrix (Fin t.dim) (Fin t.dim) ℝ) (hdet : 0 < J.det)
    (v w : Fin t.dim → ℝ)
    (hv : v ⬝ᵥ v = 1 ∧ (∀ a, a ≠ axis t s → v ⬝ᵥ J a = 0) ∧ 0 < v ⬝ᵥ (sgn s • J (axis t s)))
    (hw : w ⬝ᵥ w = 1 ∧ (∀ a, a ≠ axis t s → w ⬝ᵥ J a = 0) ∧ 0 < w ⬝ᵥ (sgn s • J (axis t s))) : v = w := by
  have hinj : ∀ z : Fin t.dim → ℝ, J.mulVec z = 0 → z = 0 := by
    intro z hz
    exact Matrix.eq_zero_of_mulVec_eq_zero hdet.ne' hz
  set p := v ⬝ᵥ (sgn s • J (axis t s))
  set q := w ⬝ᵥ (sgn s • J (axis t s))
  have h : q • v - p • w = 0 := by
    apply hinj
    funext a
    change J a ⬝ᵥ (q • v - p • w) = 0
    rw [dotProduct_sub, dotProduct_smul, dotProduct_smul, dotProduct_comm, dotProduct_comm (J a)]
    by_cases ha : a = axis t s
    · subst ha
      have hsg : sgn s * sgn s = 1 := by unfold sgn; split <;> norm_num
      have e1 : p = sgn s * (v ⬝ᵥ J (axis t s)) := by rw [← smul_eq_mul, ← dotProduct_smul]
      have e2 : q = sgn s * (w ⬝ᵥ J (axis t s)) := by rw [← smul_eq_mul, ← dotProduct_smul]
      rw [smul_eq_mul, smul_eq_mul, e1, e2]; ring
    · rw [hv.2.1 a ha, hw.2.1 a ha]; simp
  have h1 : q • v = p • w := sub_eq_zero.1 h
  have h2 : q * q = p * p := by
    have := congrArg (fun z => z ⬝ᵥ z) h1
    simp only [smul_dotProduct, dotProduct_smul, hv.1, hw.1, smul_eq_mul, mul_one] at this
    exact this
  have h3 : q = p := by nlinarith [hv.2.2, hw.2.2]
  rw [h3] at h1
  exact smul_right_injective _ hv.2.2.ne' h1

/-- A sheared cell: all hypotheses hold. -/
example : 0 < (show Matrix (Fin (ElType.dim .quad)) (Fin (ElType.dim .quad)) ℝ from !![2, 0; 1, 3]).det := by
  change 0 < (!![2, 0; 1, 3] : Matrix (Fin 2) (Fin 2) ℝ).det
  rw [Matrix.det_fin_two_of]; norm_num

end Verif.Mapping
