import Verif.Poly.Legendre
import Mathlib.Analysis.Calculus.Deriv.Polynomial
import Mathlib.MeasureTheory.Integral.IntervalIntegral.FundThmCalculus
import Mathlib.Topology.Algebra.Polynomial
import Mathlib.Topology.Order.IntermediateValue
import Mathlib.Algebra.Polynomial.Roots
import Mathlib.RingTheory.Polynomial.Basic

/-!
# Orthogonality and zeros of Legendre polynomials
-/
namespace Verif.Poly
open Polynomial Set

/-- Integral over the reference interval. -/
noncomputable def I : ℝ[X] →ₗ[ℝ] ℝ where
  toFun p := ∫ x in (-1 : ℝ)..1, p.eval x
  map_add' p q := by
    simp only [eval_add]
    exact intervalIntegral.integral_add (p.continuous.intervalIntegrable _ _) (q.continuous.intervalIntegrable _ _)
  map_smul' c p := by
    simp only [eval_smul, smul_eq_mul, RingHom.id_apply]
    exact intervalIntegral.integral_const_mul c _

theorem I_def (p : ℝ[X]) : I p = ∫ x in (-1 : ℝ)..1, p.eval x := rfl

theorem I_derivative (p : ℝ[X]) : I (Polynomial.derivative p) = p.eval 1 - p.eval (-1) := by
  rw [I_def]
  exact intervalIntegral.integral_eq_sub_of_hasDerivAt (fun x _ => p.hasDerivAt x)
    ((Polynomial.derivative p).continuous.intervalIntegrable _ _)

theorem I_C_mul (c : ℝ) (p : ℝ[X]) : I (C c * p) = c * I p := by
  rw [← smul_eq_C_mul, map_smul, smul_eq_mul]

/-- Different Legendre polynomials are orthogonal. -/
theorem I_P_P (n m : Nat) (h : n ≠ m) : I (P n * P m) = 0 := by
  have hd : Polynomial.derivative ((1 - X ^ 2) * Polynomial.derivative (P n : ℝ[X]) * P m -
      (1 - X ^ 2) * Polynomial.derivative (P m : ℝ[X]) * P n) =
      C ((m : ℝ) * (m + 1) - n * (n + 1)) * (P n * P m) := by
    rw [derivative_sub, derivative_mul (f := (1 - X ^ 2) * Polynomial.derivative (P n : ℝ[X])),
      derivative_mul (f := (1 - X ^ 2) * Polynomial.derivative (P m : ℝ[X])), P_ode, P_ode, C_sub]; ring
  have hi := I_derivative ((1 - X ^ 2) * Polynomial.derivative (P n : ℝ[X]) * P m -
      (1 - X ^ 2) * Polynomial.derivative (P m : ℝ[X]) * P n)
  rw [hd, I_C_mul] at hi
  simp at hi
  rcases hi with hi | hi
  · exfalso
    apply h
    have h1 : (m : ℝ) * (m + 1) = n * (n + 1) := by linarith
    have h2 : m * (m + 1) = n * (n + 1) := by exact_mod_cast h1
    rcases lt_trichotomy n m with h3 | h3 | h3
    · have := Nat.mul_lt_mul'' h3 (Nat.add_lt_add_right h3 1); omega
    · exact h3
    · have := Nat.mul_lt_mul'' h3 (Nat.add_lt_add_right h3 1); omega
  · exact hi

/-- `Pₙ` is orthogonal to every polynomial of lower degree. -/
theorem I_P_lower (n : Nat) (q : ℝ[X]) (hq : q.degree < n) : I (P n * q) = 0 := by
  have := lin_zero (I.comp (LinearMap.mulLeft ℝ (P n))) n (fun j hj => by
    simpa using I_P_P n j (by omega)) q hq
  simpa using this

/-- The norms. -/
theorem I_P_sq (n : Nat) : I (P n * P n) = 2 / (2 * n + 1) := by
  induction n with
  | zero => rw [P, I_def]; norm_num
  | succ n ih =>
    have key : (2 * (n : ℝ) + 3) * I (P (n + 1) * P (n + 1)) = (2 * n + 1) * I (P n * P n) := by
      cases n with
      | zero =>
        have : (P 1 * P 1 : ℝ[X]) = Polynomial.derivative (C (1 / 3) * X ^ 3) := by
          rw [P, derivative_C_mul_X_pow]
          norm_num
          rw [pow_two]
        rw [this, I_derivative, P, I_def]
        norm_num
      | succ n =>
        -- `∫ x Pₙ₊₁ Pₙ₊₂` by the recurrence for either factor
        have h1 := congrArg (fun p => I (P (n + 2) * p)) (P_rec (K := ℝ) n)
        have h2 := congrArg (fun p => I (P (n + 1) * p)) (P_rec (K := ℝ) (n + 1))
        have e1 : P (n + 2) * (C ((n : ℝ) + 2) * P (n + 2)) = C ((n : ℝ) + 2) * (P (n + 2) * P (n + 2)) := by ring
        have e2 : P (n + 2) * (C (2 * (n : ℝ) + 3) * (X * P (n + 1)) - C ((n : ℝ) + 1) * P n) =
            C (2 * (n : ℝ) + 3) * (X * P (n + 1) * P (n + 2)) - C ((n : ℝ) + 1) * (P (n + 2) * P n) := by ring
        have e3 : P (n + 1) * (C (((n + 1 : Nat) : ℝ) + 2) * P (n + 3)) =
            C (((n + 1 : Nat) : ℝ) + 2) * (P (n + 1) * P (n + 3)) := by ring
        have e4 : P (n + 1) * (C (2 * ((n + 1 : Nat) : ℝ) + 3) * (X * P (n + 2)) - C (((n + 1 : Nat) : ℝ) + 1) * P (n + 1)) =
            C (2 * ((n + 1 : Nat) : ℝ) + 3) * (X * P (n + 1) * P (n + 2)) -
              C (((n + 1 : Nat) : ℝ) + 1) * (P (n + 1) * P (n + 1)) := by ring
        simp only [e1, e2, map_sub, I_C_mul, I_P_P (n + 2) n (by omega)] at h1
        rw [e3, e4] at h2
        simp only [map_sub, I_C_mul, I_P_P (n + 1) (n + 3) (by omega)] at h2
        push_cast at h2 ⊢
        have hn : ((n : ℝ) + 2) ≠ 0 := by positivity
        have h3 : (2 * (n : ℝ) + 3) ≠ 0 := by positivity
        apply mul_left_cancel₀ hn
        linear_combination (2 * (n : ℝ) + 5) * h1 - (2 * (n : ℝ) + 3) * h2
    have h1 : (2 * (n : ℝ) + 3) ≠ 0 := by positivity
    have h2 : (2 * (n : ℝ) + 1) ≠ 0 := by positivity
    rw [ih] at key
    push_cast
    field_simp at key ⊢
    linarith

/-- A polynomial with simple zeros, orthogonal (with a positive weight) to all of lower degree, has all
its zeros inside the interval. -/
theorem roots_inside (n : Nat) (p w : ℝ[X]) (hp : p.natDegree = n) (hp0 : p ≠ 0)
    (hw : ∀ x, -1 < x → x < 1 → 0 < w.eval x)
    (hs : ∀ r, p.eval r = 0 → (Polynomial.derivative p).eval r ≠ 0)
    (ho : ∀ q : ℝ[X], q.natDegree < n → I (w * (p * q)) = 0) :
    ∃ S : Finset ℝ, S.card = n ∧ ∀ r, r ∈ S ↔ (-1 < r ∧ r < 1) ∧ p.eval r = 0 := by
  classical
  let S : Finset ℝ := p.roots.toFinset.filter fun r => -1 < r ∧ r < 1
  have hmem : ∀ r, r ∈ S ↔ (-1 < r ∧ r < 1) ∧ p.eval r = 0 := by
    intro r
    simp only [S, Finset.mem_filter, Multiset.mem_toFinset, mem_roots hp0, IsRoot.def]
    exact and_comm
  refine ⟨S, ?_, hmem⟩
  have hle : S.card ≤ n := by
    calc S.card ≤ p.roots.toFinset.card := Finset.card_filter_le _ _
      _ ≤ Multiset.card p.roots := Multiset.toFinset_card_le _
      _ ≤ n := by rw [← hp]; exact card_roots' p
  by_contra hne
  let q : ℝ[X] := ∏ r ∈ S, (X - C r)
  have hq : q.natDegree = S.card := by
    simp only [q]
    rw [natDegree_prod_of_monic _ _ fun r _ => monic_X_sub_C r]
    simp
  have hdvd : q ∣ p := by
    apply Finset.prod_dvd_of_coprime
    · intro a _ b _ hab
      exact pairwise_coprime_X_sub_C Function.injective_id hab
    · intro r hr
      exact dvd_iff_isRoot.2 ((hmem r).1 hr).2
  obtain ⟨g, hg⟩ := hdvd
  have hqroot : ∀ r, q.eval r = 0 ↔ r ∈ S := by
    intro r
    simp only [q, eval_prod, eval_sub, eval_X, eval_C]
    rw [Finset.prod_eq_zero_iff]
    constructor
    · rintro ⟨a, ha, h⟩
      rwa [sub_eq_zero.1 h]
    · intro h; exact ⟨r, h, sub_self r⟩
  have hgne : ∀ r, -1 < r → r < 1 → g.eval r ≠ 0 := by
    intro r h1 h2 hz
    have hpr : p.eval r = 0 := by rw [hg, eval_mul, hz, mul_zero]
    have hqr : q.eval r = 0 := (hqroot r).2 ((hmem r).2 ⟨⟨h1, h2⟩, hpr⟩)
    apply hs r hpr
    rw [hg, derivative_mul, eval_add, eval_mul, eval_mul, hz, hqr]; ring
  have hsign : ∀ r, -1 < r → r < 1 → 0 < g.eval r * g.eval 0 := by
    intro r h1 h2
    by_contra hneg
    have h0 : 0 < g.eval 0 * g.eval 0 := by
      exact mul_self_pos.2 (hgne 0 (by norm_num) (by norm_num))
    have hcont : ContinuousOn (fun x => g.eval x * g.eval 0) (uIcc r 0) :=
      (g.continuous.mul continuous_const).continuousOn
    obtain ⟨c, hc, hz⟩ := intermediate_value_uIcc hcont
      (show (0 : ℝ) ∈ uIcc (g.eval r * g.eval 0) (g.eval 0 * g.eval 0) from
        mem_uIcc.2 (Or.inl ⟨not_lt.1 hneg, h0.le⟩))
    have hc1 : -1 < c ∧ c < 1 := by
      rcases mem_uIcc.1 hc with h | h <;> constructor <;> linarith [h.1, h.2]
    rcases mul_eq_zero.1 hz with h | h
    · exact hgne c hc1.1 hc1.2 h
    · exact hgne 0 (by norm_num) (by norm_num) h
  have hzero := ho q (by rw [hq]; omega)
  let h : ℝ[X] := w * (p * q) * C (g.eval 0)
  have hI : I h = 0 := by
    simp only [h]
    rw [mul_comm, I_C_mul, hzero, mul_zero]
  have heval : ∀ x, h.eval x = w.eval x * q.eval x ^ 2 * (g.eval x * g.eval 0) := by
    intro x
    simp only [h, eval_mul, eval_C]
    rw [hg, eval_mul]; ring
  have hpos : ∀ x ∈ Ioo (-1 : ℝ) 1, 0 ≤ h.eval x := by
    intro x hx
    rw [heval]
    have h1 := hw x hx.1 hx.2
    have h2 := hsign x hx.1 hx.2
    positivity
  have hposc : ∀ x ∈ Icc (-1 : ℝ) 1, 0 ≤ h.eval x := by
    have hcl : closure (Ioo (-1 : ℝ) 1) ⊆ {x | 0 ≤ h.eval x} :=
      (isClosed_le continuous_const h.continuous).closure_subset_iff.2 hpos
    rw [closure_Ioo (by norm_num)] at hcl
    exact hcl
  obtain ⟨c, hc, hcS⟩ := (Ioo_infinite (show (-1 : ℝ) < 1 by norm_num)).exists_notMem_finset S
  have hstrict : 0 < ∫ x in (-1 : ℝ)..1, h.eval x := by
    apply intervalIntegral.integral_pos (by norm_num) h.continuous.continuousOn
    · intro x hx; exact hposc x ⟨hx.1.le, hx.2⟩
    · refine ⟨c, ⟨hc.1.le, hc.2.le⟩, ?_⟩
      rw [heval]
      have h1 := hw c hc.1 hc.2
      have h2 := hsign c hc.1 hc.2
      have h3 : q.eval c ≠ 0 := fun hz => hcS ((hqroot c).1 hz)
      positivity
  rw [← I_def, hI] at hstrict
  exact lt_irrefl _ hstrict

/-- `Pₙ` has `n` different zeros in `(-1, 1)`. -/
theorem P_roots (n : Nat) : ∃ S : Finset ℝ, S.card = n ∧
    ∀ r, r ∈ S ↔ (-1 < r ∧ r < 1) ∧ (P n : ℝ[X]).eval r = 0 := by
  refine roots_inside n (P n) 1 (P_natDegree n) (P_ne_zero n) (by simp) (fun r => P_simple n r) ?_
  intro q hq
  rw [one_mul]
  exact I_P_lower n q (lt_of_le_of_lt degree_le_natDegree (by exact_mod_cast hq))

/-- Degree of the derivative. -/
theorem P_der_natDegree (n : Nat) : (Polynomial.derivative (P (n + 1) : ℝ[X])).natDegree = n := by
  rw [natDegree_derivative, P_natDegree]; omega

theorem P_der_ne_zero (n : Nat) : Polynomial.derivative (P (n + 1) : ℝ[X]) ≠ 0 := by
  intro h
  have := derivative_eq_zero.1 h
  rw [P_natDegree] at this
  omega

/-- `P'ₙ₊₁` has `n` different zeros in `(-1, 1)`. -/
theorem P_der_roots (n : Nat) : ∃ S : Finset ℝ, S.card = n ∧
    ∀ r, r ∈ S ↔ (-1 < r ∧ r < 1) ∧ (Polynomial.derivative (P (n + 1) : ℝ[X])).eval r = 0 := by
  refine roots_inside n _ (1 - X ^ 2) (P_der_natDegree n) (P_der_ne_zero n) ?_ (fun r => P_der_simple n r) ?_
  · intro x h1 h2
    simp only [eval_sub, eval_one, eval_pow, eval_X]
    nlinarith
  · intro q hq
    -- an antiderivative of `q` has degree at most `n`
    obtain ⟨Q, hQ, hdeg⟩ : ∃ Q : ℝ[X], Polynomial.derivative Q = q ∧ Q.degree < ((n + 1 : Nat) : WithBot Nat) := by
      refine ⟨toPoly (integral (toList n fun k => q.coeff (n - 1 - k))), ?_, ?_⟩
      · rw [toPoly_integral]
        obtain ⟨m, rfl⟩ : ∃ m, n = m + 1 := ⟨n - 1, by omega⟩
        exact toPoly_of_coeff m _ q (by omega) fun k hk => by simp
      · have := toPoly_degree_lt (integral (toList n fun k => q.coeff (n - 1 - k)))
        rwa [length_integral, toList_length] at this
    have hd : Polynomial.derivative ((1 - X ^ 2) * Polynomial.derivative (P (n + 1) : ℝ[X]) * Q) =
        (1 - X ^ 2) * (Polynomial.derivative (P (n + 1)) * q) -
          C (((n + 1 : Nat) : ℝ) * ((n + 1 : Nat) + 1)) * (P (n + 1) * Q) := by
      rw [derivative_mul, P_ode, hQ]; ring
    have hi := I_derivative ((1 - X ^ 2) * Polynomial.derivative (P (n + 1) : ℝ[X]) * Q)
    rw [hd, map_sub, I_C_mul, I_P_lower (n + 1) Q hdeg] at hi
    simpa using hi

end Verif.Poly
