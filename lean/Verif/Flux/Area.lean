import Verif.Flux.Lemmas
import Mathlib.LinearAlgebra.Matrix.Adjugate
import Mathlib.Tactic.LinearCombination

/-!
# Lemmas: area vectors and explicit Jacobi matrices
-/
namespace Verif.Flux
open Verif.Elem Verif.Mapping Verif.Quad Verif.Poly Verif.Basis Matrix

theorem norm_smul_normalize {d : Nat} (v : Fin d → ℝ) : Mapping.norm v • Mapping.normalize v = v := by
  unfold Mapping.norm Mapping.normalize
  split
  · rename_i h
    rw [smul_smul, mul_inv_cancel₀ (Real.sqrt_pos.2 h).ne', one_smul]
  · rename_i h
    have h0 : v ⬝ᵥ v = 0 := le_antisymm (not_lt.1 h) (Finset.sum_nonneg fun i _ => mul_self_nonneg _)
    rw [h0, Real.sqrt_zero, zero_smul, dotProduct_self_eq_zero.1 h0]

theorem area_quad (s : Nat) (hs : s < 4) (J : Matrix (Fin 2) (Fin 2) ℝ) :
    ∃ m v, boundaryJacobian .quad s J = some m ∧ normalQuad s J = some v ∧ m • v = sgn s • fun k => J.adjugate k (axis .quad s) := by
  have hs' : s < nSides .quad := by simpa [nSides, table, quadTable] using hs
  have key : ∀ (n : Fin 2 → ℝ) (r : Fin 2), normalQuad s J = some (Mapping.normalize n) → axis .quad s = r →
      n ⬝ᵥ n = J (if s < 2 then 0 else 1) ⬝ᵥ J (if s < 2 then 0 else 1) → n = (sgn s • fun k => J.adjugate k r) →
      ∃ m v, boundaryJacobian .quad s J = some m ∧ normalQuad s J = some v ∧ m • v = sgn s • fun k => J.adjugate k (axis .quad s) := by
    intro n r h1 hr h2 h3
    refine ⟨_, _, C71_partial .quad (by decide) s hs' J, h1, ?_⟩
    have e : sideMeasure .quad s J = Mapping.norm n := by
      unfold Mapping.norm; rw [h2]; rfl
    rw [e, norm_smul_normalize, hr, ← h3]
  interval_cases s
  · refine key _ 1 rfl rfl (by simp [dotProduct, Fin.sum_univ_two]; ring) ?_
    funext k; fin_cases k <;> simp [sgn, Matrix.adjugate_fin_two]
  · refine key _ 1 rfl rfl (by simp [dotProduct, Fin.sum_univ_two]; ring) ?_
    funext k; fin_cases k <;> simp [sgn, Matrix.adjugate_fin_two]
  · refine key _ 0 rfl rfl (by simp [dotProduct, Fin.sum_univ_two]; ring) ?_
    funext k; fin_cases k <;> simp [sgn, Matrix.adjugate_fin_two]
  · refine key _ 0 rfl rfl (by simp [dotProduct, Fin.sum_univ_two]; ring) ?_
    funext k; fin_cases k <;> simp [sgn, Matrix.adjugate_fin_two]

theorem area_hex (s : Nat) (hs : s < 6) (J : Matrix (Fin 3) (Fin 3) ℝ) :
    ∃ m v, boundaryJacobian .hex s J = some m ∧ normalHex s J = some v ∧ m • v = sgn s • fun k => J.adjugate k (axis .hex s) := by
  have hs' : s < nSides .hex := by simpa [nSides, table, hexTable] using hs
  have key : ∀ (n a b : Fin 3 → ℝ) (r : Fin 3), normalHex s J = some (Mapping.normalize n) → axis .hex s = r → J (if s < 4 then 0 else 1) = a →
      J (if s < 2 then 1 else 2) = b → n ⬝ᵥ n = (a ⬝ᵥ a) * (b ⬝ᵥ b) - (a ⬝ᵥ b) * (a ⬝ᵥ b) →
      n = (sgn s • fun k => J.adjugate k r) →
      ∃ m v, boundaryJacobian .hex s J = some m ∧ normalHex s J = some v ∧ m • v = sgn s • fun k => J.adjugate k (axis .hex s) := by
    intro n a b r h1 hr ha hb h2 h3
    refine ⟨_, _, C71_partial .hex (by decide) s hs' J, h1, ?_⟩
    have e : sideMeasure .hex s J = Mapping.norm n := by
      unfold Mapping.norm; rw [h2, ← ha, ← hb]; rfl
    rw [e, norm_smul_normalize, hr, ← h3]
  have dots : ∀ a b : Fin 3 → ℝ, a ⬝ᵥ b = a 0 * b 0 + a 1 * b 1 + a 2 * b 2 := fun a b => by simp [dotProduct, Fin.sum_univ_three]
  have cr : ∀ a b : Fin 3 → ℝ, (a ⨯₃ b) ⬝ᵥ (a ⨯₃ b) = (a ⬝ᵥ a) * (b ⬝ᵥ b) - (a ⬝ᵥ b) * (a ⬝ᵥ b) := by
    intro a b; simp only [dots, cross_apply]; simp; ring
  have cn : ∀ a b : Fin 3 → ℝ, (-(a ⨯₃ b)) ⬝ᵥ (-(a ⨯₃ b)) = (a ⬝ᵥ a) * (b ⬝ᵥ b) - (a ⬝ᵥ b) * (a ⬝ᵥ b) := by
    intro a b; rw [neg_dotProduct_neg, cr]
  have ad := Matrix.adjugate_fin_three J
  interval_cases s
  · refine key _ _ _ 2 rfl rfl rfl rfl (cn _ _) ?_
    rw [ad]; funext k; fin_cases k <;> simp [sgn, cross_apply] <;> ring
  · refine key _ _ _ 2 rfl rfl rfl rfl (cr _ _) ?_
    rw [ad]; funext k; fin_cases k <;> simp [sgn, cross_apply] <;> ring
  · refine key _ _ _ 1 rfl rfl rfl rfl (cr _ _) ?_
    rw [ad]; funext k; fin_cases k <;> simp [sgn, cross_apply] <;> ring
  · refine key _ _ _ 1 rfl rfl rfl rfl (cn _ _) ?_
    rw [ad]; funext k; fin_cases k <;> simp [sgn, cross_apply] <;> ring
  · refine key _ _ _ 0 rfl rfl rfl rfl (cn _ _) ?_
    rw [ad]; funext k; fin_cases k <;> simp [sgn, cross_apply] <;> ring
  · refine key _ _ _ 0 rfl rfl rfl rfl (cr _ _) ?_
    rw [ad]; funext k; fin_cases k <;> simp [sgn, cross_apply] <;> ring

/-- The Jacobi matrices with literal dimensions. -/
noncomputable def J2 (vert : Nat → Nat → ℝ) (p : Nat → ℝ) : Matrix (Fin 2) (Fin 2) ℝ := jacobiMat .quad vert p

noncomputable def J3 (vert : Nat → Nat → ℝ) (p : Nat → ℝ) : Matrix (Fin 3) (Fin 3) ℝ := jacobiMat .hex vert p

theorem J2_entry (vert : Nat → Nat → ℝ) (p : Nat → ℝ) (i k : Fin 2) :
    J2 vert p i k = ∑ v ∈ Finset.range 4, vert v k * shapeDer .quad i v p := foldl_sum _ _

theorem J3_entry (vert : Nat → Nat → ℝ) (p : Nat → ℝ) (i k : Fin 3) :
    J3 vert p i k = ∑ v ∈ Finset.range 8, vert v k * shapeDer .hex i v p := foldl_sum _ _

theorem jac_quad (vert : Nat → Nat → ℝ) : ∃ b c d : Fin 2 → ℝ, ∀ (p : Nat → ℝ) (k : Fin 2),
    J2 vert p 0 k = b k + d k * p 1 ∧
    J2 vert p 1 k = c k + d k * p 0 := by
  refine ⟨fun k => (-vert 0 k + vert 1 k - vert 2 k + vert 3 k) / 4, fun k => (-vert 0 k - vert 1 k + vert 2 k + vert 3 k) / 4,
    fun k => (vert 0 k - vert 1 k - vert 2 k + vert 3 k) / 4, fun p k => ⟨?_, ?_⟩⟩ <;>
  rw [J2_entry] <;>
  simp only [Finset.sum_range_succ, Finset.sum_range_zero, shapeDer] <;>
  simp [basisDer, quadDerXi, quadDerEta, line_two_zero, line_two_one, lineDer_two_zero, lineDer_two_one] <;> ring

theorem jac_hex (vert : Nat → Nat → ℝ) : ∃ b c d e f g h : Fin 3 → ℝ, ∀ (p : Nat → ℝ) (k : Fin 3),
    J3 vert p 0 k = b k + e k * p 1 + f k * p 2 + h k * p 1 * p 2 ∧
    J3 vert p 1 k = c k + e k * p 0 + g k * p 2 + h k * p 0 * p 2 ∧
    J3 vert p 2 k = d k + f k * p 0 + g k * p 1 + h k * p 0 * p 1 := by
  refine ⟨fun k => (-vert 0 k + vert 1 k - vert 2 k + vert 3 k - vert 4 k + vert 5 k - vert 6 k + vert 7 k) / 8,
    fun k => (-vert 0 k - vert 1 k + vert 2 k + vert 3 k - vert 4 k - vert 5 k + vert 6 k + vert 7 k) / 8,
    fun k => (-vert 0 k - vert 1 k - vert 2 k - vert 3 k + vert 4 k + vert 5 k + vert 6 k + vert 7 k) / 8,
    fun k => (vert 0 k - vert 1 k - vert 2 k + vert 3 k + vert 4 k - vert 5 k - vert 6 k + vert 7 k) / 8,
    fun k => (vert 0 k - vert 1 k + vert 2 k - vert 3 k - vert 4 k + vert 5 k - vert 6 k + vert 7 k) / 8,
    fun k => (vert 0 k + vert 1 k - vert 2 k - vert 3 k - vert 4 k - vert 5 k + vert 6 k + vert 7 k) / 8,
    fun k => (-vert 0 k + vert 1 k + vert 2 k - vert 3 k + vert 4 k - vert 5 k - vert 6 k + vert 7 k) / 8, fun p k => ⟨?_, ?_, ?_⟩⟩ <;>
  rw [J3_entry] <;>
  simp only [Finset.sum_range_succ, Finset.sum_range_zero, shapeDer] <;>
  simp [basisDer, hexDerXi, hexDerEta, hexDerZeta, Basis.quad, quadDerXi, quadDerEta, line_two_zero, line_two_one, lineDer_two_zero,
    lineDer_two_one] <;> ring

end Verif.Flux
