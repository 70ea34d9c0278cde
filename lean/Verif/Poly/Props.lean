import Verif.Poly.Lemmas
import Mathlib.Analysis.Calculus.Deriv.Polynomial
import Mathlib.MeasureTheory.Integral.IntervalIntegral.FundThmCalculus
import Mathlib.Topology.Algebra.Polynomial
import Mathlib.LinearAlgebra.Matrix.ToLinearEquiv

/-!
# C63: polynomial evaluation, derivative, integral, roots
-/
namespace Verif.Poly
open Polynomial

variable {K : Type} [Field K]

/-- **C63** (evaluation): Horner's scheme gives the power sum, for every coefficient list and point. -/
theorem C63_evaluate (l : List K) (x : K) :
    evaluate l x = ∑ i ∈ Finset.range l.length, l.getD i 0 * x ^ (l.length - 1 - i) := by
  rw [evaluate_eq, toPoly, eval_finset_sum]
  simp

/-- **C63** (derivative): the formal derivative; the coefficient of `x^k` is `(k+1)` times that of
`x^(k+1)`, and the result has one coefficient fewer (but at least one). -/
theorem C63_derivative (l : List K) (hl : l ≠ []) :
    (derivative l).length = max 1 (l.length - 1) ∧
    toPoly (derivative l) = Polynomial.derivative (toPoly l) := by
  refine ⟨?_, toPoly_derivative l⟩
  have := List.length_pos_iff.2 hl
  by_cases h : l.length = 1
  · simp [derivative, h]
  · rw [length_derivative l (by omega)]; omega

/-- **C63** (derivative, analysis): the value of the derivative polynomial is the derivative of the
polynomial function, at every real point. -/
theorem C63_hasDerivAt (l : List ℝ) (x : ℝ) : HasDerivAt (evaluate l) (evaluate (derivative l) x) x := by
  have h := (toPoly l).hasDerivAt x
  rw [evaluate_eq, toPoly_derivative]
  have e : evaluate l = fun x => (toPoly l).eval x := by funext y; exact evaluate_eq l y
  rw [e]; exact h

/-- **C63** (integral): a formal antiderivative with constant term zero and one coefficient more. -/
theorem C63_integral [CharZero K] (l : List K) :
    (integral l).length = l.length + 1 ∧ Polynomial.derivative (toPoly (integral l)) = toPoly l ∧
      evaluate (integral l) 0 = 0 := by
  refine ⟨length_integral l, toPoly_integral l, ?_⟩
  rw [evaluate_eq, toPoly_integral_zero]

/-- **C63** (integral, analysis): definite integrals over the reals, between any bounds. -/
theorem C63_integral_real (l : List ℝ) (a b : ℝ) :
    ∫ x in a..b, evaluate l x = evaluate (integral l) b - evaluate (integral l) a := by
  have e : evaluate l = fun x => (toPoly l).eval x := by funext y; exact evaluate_eq l y
  rw [e, evaluate_eq, evaluate_eq]
  apply intervalIntegral.integral_eq_sub_of_hasDerivAt
  · intro x _
    have h := (toPoly (integral l)).hasDerivAt x
    rwa [toPoly_integral] at h
  · exact (toPoly l).continuous.intervalIntegrable _ _

/-- **C63** (derivative of integral): returns exactly the original coefficients. -/
theorem C63_derivative_integral [CharZero K] (l : List K) (hl : l ≠ []) : derivative (integral l) = l := by
  have hp := List.length_pos_iff.2 hl
  apply toPoly_inj
  · rw [length_derivative _ (by rw [length_integral]; omega), length_integral]; rfl
  · rw [toPoly_derivative, toPoly_integral]

/-- **C63** (integral of derivative): restores the polynomial up to its constant term. -/
theorem C63_integral_derivative [CharZero K] (l : List K) (x : K) :
    evaluate (integral (derivative l)) x = evaluate l x - evaluate l 0 := by
  have h : toPoly (integral (derivative l)) = toPoly l - C ((toPoly l).eval 0) := by
    have h1 : Polynomial.derivative (toPoly (integral (derivative l)) - toPoly l) = 0 := by
      rw [derivative_sub, toPoly_integral, toPoly_derivative, sub_self]
    have h2 := derivative_eq_zero.1 h1
    rw [natDegree_eq_zero] at h2
    obtain ⟨c, hc⟩ := h2
    have h3 : toPoly (integral (derivative l)) = toPoly l + C c := by rw [hc]; ring
    have h4 := toPoly_integral_zero (derivative l)
    rw [h3, eval_add, eval_C] at h4
    rw [h3, sub_eq_add_neg, ← C_neg]
    congr 2
    exact eq_neg_of_add_eq_zero_right h4
  rw [evaluate_eq, h, evaluate_eq, evaluate_eq]; simp

/-- The left vector `(1, t, t², …)` times the companion matrix. -/
theorem companion_left (n : Nat) (coefs : Nat → K) (h0 : coefs 0 ≠ 0) (t : K) (c : Fin (n + 1)) :
    ∑ r : Fin (n + 1), t ^ (r : Nat) * companion n coefs r c =
      t ^ ((c : Nat) + 1) - if (c : Nat) = n then evaluate (toList (n + 2) coefs) t / coefs 0 else 0 := by
  by_cases hc : (c : Nat) = n
  · rw [if_pos hc]
    have hr : ∀ r : Fin (n + 1), t ^ (r : Nat) * companion n coefs r c = -(coefs (n + 1 - r) * t ^ (r : Nat)) / coefs 0 := by
      intro r
      have := r.2
      unfold companion
      rw [if_neg (by omega), if_pos hc]
      by_cases hr : (r : Nat) = 0
      · rw [if_pos hr, hr]; simp
      · rw [if_neg hr]; ring
    rw [Finset.sum_congr rfl fun r _ => hr r, ← Finset.sum_div, Finset.sum_neg_distrib,
      evaluate_eq, toPoly_toList, eval_finset_sum]
    simp only [eval_mul, eval_C, eval_pow, eval_X]
    rw [Fin.sum_univ_eq_sum_range (fun r => coefs (n + 1 - r) * t ^ r), Finset.sum_range_succ' _ (n + 1)]
    rw [show n + 2 - 1 - 0 = n + 1 by omega, hc]
    rw [← Finset.sum_range_reflect (fun j => coefs (n + 1 - j) * t ^ j)]
    have : ∀ j ∈ Finset.range (n + 1), coefs (n + 1 - (n + 1 - 1 - j)) * t ^ (n + 1 - 1 - j) =
        coefs (j + 1) * t ^ (n + 2 - 1 - (j + 1)) := by
      intro j hj
      have := Finset.mem_range.1 hj
      rw [show n + 1 - (n + 1 - 1 - j) = j + 1 by omega, show n + 1 - 1 - j = n + 2 - 1 - (j + 1) by omega]
    rw [Finset.sum_congr rfl this]
    field_simp; ring
  · rw [if_neg hc, sub_zero]
    have hlt : (c : Nat) + 1 < n + 1 := by have := c.2; omega
    rw [Finset.sum_eq_single (⟨c + 1, hlt⟩ : Fin (n + 1))]
    · simp [companion]
    · intro r _ hr
      unfold companion
      rw [if_neg (fun h => hr (Fin.ext h)), if_neg hc, mul_zero]
    · intro h; exact absurd (Finset.mem_univ _) h

/-- **C63** (roots): the eigenvalues of the companion matrix built by `roots` are exactly the zeros of the
polynomial, for every order ≥ 1 and nonzero leading coefficient. -/
theorem C63_roots (n : Nat) (coefs : Nat → K) (h0 : coefs 0 ≠ 0) (t : K) :
    (Matrix.scalar (Fin (n + 1)) t - companion n coefs).det = 0 ↔ evaluate (toList (n + 2) coefs) t = 0 := by
  rw [← Matrix.exists_vecMul_eq_zero_iff]
  constructor
  · rintro ⟨w, hw, he⟩
    have hcol : ∀ c : Fin (n + 1), ∑ r, w r * companion n coefs r c = t * w c := by
      intro c
      have h := congrFun he c
      simp only [Matrix.vecMul, dotProduct, Matrix.sub_apply, mul_sub, Finset.sum_sub_distrib, Pi.zero_apply,
        Matrix.scalar_apply, Matrix.diagonal_apply, mul_ite, mul_zero, Finset.sum_ite_eq', Finset.mem_univ,
        if_true] at h
      rw [← sub_eq_zero.1 h, mul_comm]
    have hpow : ∀ k (hk : k < n + 1), w ⟨k, hk⟩ = w 0 * t ^ k := by
      intro k
      induction k with
      | zero => intro hk; simp
      | succ k ih =>
        intro hk
        have h := hcol ⟨k, by omega⟩
        rw [Finset.sum_eq_single (⟨k + 1, hk⟩ : Fin (n + 1))] at h
        · rw [companion, if_pos rfl, mul_one, ih (by omega)] at h
          rw [h, pow_succ]; ring
        · intro r _ hr
          unfold companion
          rw [if_neg (fun h => hr (Fin.ext h)), if_neg (by simp; omega), mul_zero]
        · intro h; exact absurd (Finset.mem_univ _) h
    have hw0 : w 0 ≠ 0 := by
      intro hz
      apply hw
      funext r
      have := hpow r r.2
      rw [hz, zero_mul] at this
      exact this
    have h := hcol (Fin.last n)
    have h2 := companion_left n coefs h0 t (Fin.last n)
    rw [if_pos (by simp)] at h2
    have h3 : ∑ r, w r * companion n coefs r (Fin.last n) =
        w 0 * ∑ r : Fin (n + 1), t ^ (r : Nat) * companion n coefs r (Fin.last n) := by
      rw [Finset.mul_sum]
      apply Finset.sum_congr rfl
      intro r _
      rw [show w r = w 0 * t ^ (r : Nat) from hpow r r.2]; ring
    rw [h3, h2, show w (Fin.last n) = w 0 * t ^ n from hpow n (by omega)] at h
    have h4 : w 0 * (evaluate (toList (n + 2) coefs) t / coefs 0) = 0 := by
      have : ((Fin.last n : Fin (n + 1)) : Nat) = n := rfl
      rw [this] at h
      linear_combination -h
    rcases mul_eq_zero.1 h4 with h5 | h5
    · exact absurd h5 hw0
    · rcases div_eq_zero_iff.1 h5 with h6 | h6
      · exact h6
      · exact absurd h6 h0
  · intro hz
    refine ⟨fun r => t ^ (r : Nat), fun h => ?_, ?_⟩
    · have := congrFun h 0; simp at this
    · funext c
      simp only [Matrix.vecMul, dotProduct, Matrix.sub_apply, mul_sub, Finset.sum_sub_distrib, Pi.zero_apply,
        Matrix.scalar_apply, Matrix.diagonal_apply, mul_ite, mul_zero, Finset.sum_ite_eq', Finset.mem_univ,
        if_true]
      rw [companion_left n coefs h0 t c, hz]
      simp [pow_succ]

/-! ## Examples -/

example : evaluate [2, -3, 5] (2 : ℚ) = 7 := by norm_num [evaluate]
example : derivative [2, -3, 5] = [4, (-3 : ℚ)] := by norm_num [derivative, derCoefs, List.range_succ]
example : integral [6, 4, (5 : ℚ)] = [2, 2, 5, 0] := by norm_num [integral, intCoefs, List.range_succ]

end Verif.Poly
