import Verif.Poly.Lemmas
import Mathlib.Tactic.LinearCombination
import Mathlib.Algebra.Polynomial.Degree.Lemmas
import Mathlib.Tactic.NormNum
import Mathlib.Tactic.Positivity

/-!
# Legendre polynomials: the recurrence and what follows from it
-/
namespace Verif.Poly
set_option linter.unusedSectionVars false
open Polynomial

variable {K : Type} [Field K]

/-- The Legendre polynomials by Bonnet's recurrence. -/
noncomputable def P : Nat → K[X]
  | 0 => 1
  | 1 => X
  | n + 2 => C (lcA (n + 2)) * (X * P (n + 1)) - C (lcC (n + 2)) * P n

/-- The arrays hold the polynomial, highest power first. -/
theorem P_degree (n : Nat) : (P n : K[X]).natDegree ≤ n := by
  induction n using Nat.strong_induction_on with
  | _ n ih =>
    match n, ih with
    | 0, _ => simp [P]
    | 1, _ => rw [P]; exact natDegree_X_le
    | n + 2, ih =>
      rw [P]
      refine (natDegree_sub_le _ _).trans (max_le ?_ ?_)
      · refine (natDegree_C_mul_le _ _).trans ?_
        refine natDegree_mul_le.trans ?_
        have := ih (n + 1) (by omega)
        have hx : (X : K[X]).natDegree ≤ 1 := natDegree_X_le
        omega
      · refine (natDegree_C_mul_le _ _).trans ?_
        have := ih n (by omega)
        omega

theorem P_coeff_zero {n k : Nat} (h : n < k) : (P n : K[X]).coeff k = 0 :=
  coeff_eq_zero_of_natDegree_lt (lt_of_le_of_lt (P_degree n) h)

theorem lLoop_spec [CharZero K] (N : Nat) (hN : 2 ≤ N) : ∀ i, i + 2 ≤ N → ∀ k ≤ N,
    (lLoop (K := K) N (i + 2)).coefs k = (P (i + 2)).coeff (N - k) ∧
    (lLoop (K := K) N (i + 2)).p1 k = (P (i + 1)).coeff (N - k)
  | 0, _, k, hk => by
    have h2 : (P 2 : K[X]) = C (3 / 2) * (X * X) - C (1 / 2) := by
      rw [P, P, P, lcA, lcC]; norm_num
    refine ⟨?_, ?_⟩
    · change (if k = N then -(1 / 2) else if k = N - 2 then 3 / 2 else 0) = (P 2 : K[X]).coeff (N - k)
      rw [h2, coeff_sub, coeff_C_mul, ← pow_two, coeff_X_pow, coeff_C]
      by_cases h : k = N
      · subst h; simp
      · rw [if_neg h]
        by_cases h' : k = N - 2
        · rw [if_pos h', if_pos (by omega), if_neg (by omega)]; ring
        · rw [if_neg h', if_neg (by omega), if_neg (by omega)]; ring
    · change (if k = N - 1 then 1 else 0) = (P 1 : K[X]).coeff (N - k)
      rw [P, coeff_X]
      exact if_congr (by omega) rfl rfl
  | i + 1, hi, k, hk => by
    have ih := lLoop_spec N hN i (by omega)
    have e : lLoop (K := K) N (i + 1 + 2) = lStep N (i + 3) (lLoop N (i + 2)) := rfl
    have hp1 : ∀ k ≤ N, (lStep (K := K) N (i + 3) (lLoop N (i + 2))).p1 k = (P (i + 2)).coeff (N - k) := by
      intro k hk
      change (if N - (i + 3) ≤ k then (lLoop (K := K) N (i + 2)).coefs k else (lLoop (K := K) N (i + 2)).p1 k) = _
      by_cases h : N - (i + 3) ≤ k
      · rw [if_pos h, (ih k hk).1]
      · rw [if_neg h, (ih k hk).2, P_coeff_zero (by omega), P_coeff_zero (by omega)]
    have hp2 : ∀ k ≤ N, N - (i + 3) ≤ k →
        (lStep (K := K) N (i + 3) (lLoop N (i + 2))).p2 k = (P (i + 1)).coeff (N - k) := by
      intro k hk h
      change (if N - (i + 3) ≤ k then (lLoop (K := K) N (i + 2)).p1 k else (lLoop (K := K) N (i + 2)).p2 k) = _
      rw [if_pos h, (ih k hk).2]
    rw [e]
    refine ⟨?_, hp1 k hk⟩
    change (if k = N then -lcC (i + 3) * (lStep (K := K) N (i + 3) (lLoop N (i + 2))).p2 N
      else if N - (i + 3) ≤ k ∧ k < N then
        lcA (i + 3) * (lStep (K := K) N (i + 3) (lLoop N (i + 2))).p1 (k + 1) -
          lcC (i + 3) * (lStep (K := K) N (i + 3) (lLoop N (i + 2))).p2 k
        else (lLoop (K := K) N (i + 2)).coefs k) = (P (i + 3)).coeff (N - k)
    rw [P, coeff_sub, coeff_C_mul, coeff_C_mul]
    by_cases h : k = N
    · subst h
      rw [if_pos rfl, hp2 k hk (by omega)]
      simp
    · rw [if_neg h]
      by_cases h' : N - (i + 3) ≤ k ∧ k < N
      · rw [if_pos h', hp1 (k + 1) (by omega), hp2 k hk h'.1,
          show N - k = (N - (k + 1)) + 1 by omega, coeff_X_mul]
      · rw [if_neg h', (ih k hk).1, P_coeff_zero (by omega), P_coeff_zero (n := i + 1) (by omega),
          show N - k = (N - (k + 1)) + 1 by omega, coeff_X_mul, P_coeff_zero (by omega)]
        ring

theorem toPoly_of_coeff (N : Nat) (f : Nat → K) (p : K[X]) (hp : p.natDegree ≤ N)
    (h : ∀ k ≤ N, f k = p.coeff (N - k)) : toPoly (toList (N + 1) f) = p := by
  rw [toPoly_toList, ← Finset.sum_range_reflect]
  conv_rhs => rw [p.as_sum_range_C_mul_X_pow' (Nat.lt_succ_of_le hp)]
  apply Finset.sum_congr rfl
  intro k hk
  have := Finset.mem_range.1 hk
  rw [h _ (by omega)]
  congr 3 <;> omega

/-- The code computes Bonnet's recurrence. -/
theorem toPoly_legendre [CharZero K] (N : Nat) : toPoly (legendre (K := K) N) = P N := by
  unfold legendre
  match N with
  | 0 => simp [toPoly_cons, toPoly_nil, P]
  | 1 => simp [toPoly_cons, toPoly_nil, P]
  | N + 2 =>
    rw [if_neg (by omega), if_neg (by omega)]
    exact toPoly_of_coeff (N + 2) _ _ (P_degree _) fun k hk => (lLoop_spec (N + 2) (by omega) N le_rfl k hk).1

theorem length_legendre (N : Nat) : (legendre (K := K) N).length = N + 1 := by
  unfold legendre
  split
  · subst_vars; rfl
  · split
    · subst_vars; rfl
    · exact toList_length _ _

theorem toPoly_lobatto [CharZero K] (N : Nat) :
    toPoly (lobatto (K := K) N) = Polynomial.derivative (P (N + 1)) := by
  rw [lobatto, toPoly_derivative, toPoly_legendre]

/-! ## Algebraic consequences -/

variable [CharZero K]

theorem P_rec (n : Nat) : C ((n : K) + 2) * P (n + 2) =
    C (2 * (n : K) + 3) * (X * P (n + 1)) - C ((n : K) + 1) * P n := by
  have h : ((n : K) + 2) ≠ 0 := by exact_mod_cast Nat.succ_ne_zero (n + 1)
  have e1 : ((n : K) + 2) * lcA (n + 2) = 2 * (n : K) + 3 := by
    rw [lcA]; push_cast; field_simp; ring
  have e2 : ((n : K) + 2) * lcC (n + 2) = (n : K) + 1 := by
    rw [lcC]; push_cast; field_simp; ring
  rw [P, mul_sub, ← mul_assoc, ← C_mul, e1, ← mul_assoc (C ((n : K) + 2)), ← C_mul, e2]

theorem P_lead (n : Nat) : (P n : K[X]).coeff n ≠ 0 := by
  induction n using Nat.strong_induction_on with
  | _ n ih =>
    match n, ih with
    | 0, _ => simp [P]
    | 1, _ => simp [P]
    | n + 2, ih =>
      rw [P, coeff_sub, coeff_C_mul, coeff_C_mul, coeff_X_mul, P_coeff_zero (n := n) (by omega), mul_zero, sub_zero]
      refine mul_ne_zero ?_ (ih (n + 1) (by omega))
      unfold lcA
      refine div_ne_zero ?_ (by exact_mod_cast Nat.succ_ne_zero (n + 1))
      have : (2 * ((n + 2 : Nat) : K) - 1) = ((2 * n + 3 : Nat) : K) := by push_cast; ring
      rw [this, Nat.cast_ne_zero]; omega

theorem P_natDegree (n : Nat) : (P n : K[X]).natDegree = n :=
  le_antisymm (P_degree n) (le_natDegree_of_ne_zero (P_lead n))

theorem P_ne_zero (n : Nat) : (P n : K[X]) ≠ 0 := fun h => P_lead (K := K) n (by rw [h]; simp)

theorem P_one (n : Nat) : (P n : K[X]).eval 1 = 1 := by
  induction n using Nat.strong_induction_on with
  | _ n ih =>
    match n, ih with
    | 0, _ => simp [P]
    | 1, _ => simp [P]
    | n + 2, ih =>
      rw [P]
      simp only [eval_sub, eval_mul, eval_C, eval_X, ih (n + 1) (by omega), ih n (by omega)]
      have h : (((n + 2 : Nat) : K)) ≠ 0 := by exact_mod_cast Nat.succ_ne_zero (n + 1)
      unfold lcA lcC
      field_simp; ring

theorem P_neg (n : Nat) (x : K) : (P n : K[X]).eval (-x) = (-1) ^ n * (P n).eval x := by
  induction n using Nat.strong_induction_on with
  | _ n ih =>
    match n, ih with
    | 0, _ => simp [P]
    | 1, _ => simp [P]
    | n + 2, ih =>
      rw [P]
      simp only [eval_sub, eval_mul, eval_C, eval_X, ih (n + 1) (by omega), ih n (by omega)]
      ring

theorem P_comp_neg (n : Nat) : (P n : K[X]).comp (-X) = C ((-1) ^ n) * P n := by
  induction n using Nat.strong_induction_on with
  | _ n ih =>
    match n, ih with
    | 0, _ => simp [P]
    | 1, _ => simp [P]
    | n + 2, ih =>
      rw [P]
      simp only [sub_comp, mul_comp, C_comp, X_comp, ih (n + 1) (by omega), ih n (by omega)]
      simp only [C_pow, C_neg, C_1]
      ring

/-- `P'ₙ₊₁ = x P'ₙ + (n+1) Pₙ` and `x P'ₙ₊₁ - P'ₙ = (n+1) Pₙ₊₁`. -/
theorem P_der (n : Nat) :
    Polynomial.derivative (P (n + 1) : K[X]) =
      X * Polynomial.derivative (P n) + C ((n : K) + 1) * P n ∧
    X * Polynomial.derivative (P (n + 1) : K[X]) - Polynomial.derivative (P n) =
      C ((n : K) + 1) * P (n + 1) := by
  induction n with
  | zero => simp [P]
  | succ n ih =>
    obtain ⟨ha, hb⟩ := ih
    have hr := P_rec (K := K) n
    have hd := congrArg Polynomial.derivative hr
    simp only [derivative_mul, derivative_sub, derivative_C, derivative_X, zero_mul, zero_add, one_mul] at hd
    have hne : (C ((n : K) + 2) : K[X]) ≠ 0 := by
      rw [Ne, C_eq_zero]; exact_mod_cast Nat.succ_ne_zero (n + 1)
    simp only [C_add, C_mul, C_1, map_natCast, map_ofNat] at *
    have hA : Polynomial.derivative (P (n + 2) : K[X]) =
        X * Polynomial.derivative (P (n + 1)) + ((n : K[X]) + 2) * P (n + 1) := by
      apply mul_left_cancel₀ hne
      linear_combination hd + ((n : K[X]) + 1) * hb
    refine ⟨?_, ?_⟩
    · rw [hA]; push_cast; ring
    · push_cast
      linear_combination X * hA + X * hb - ha - hr


/-- `(1 - x²) P'ₙ₊₁ = (n+1) (Pₙ - x Pₙ₊₁)`. -/
theorem P_sq (n : Nat) : (1 - X ^ 2) * Polynomial.derivative (P (n + 1) : K[X]) =
    C ((n : K) + 1) * (P n - X * P (n + 1)) := by
  obtain ⟨ha, hb⟩ := P_der (K := K) n
  linear_combination ha - X * hb

/-- Legendre's differential equation. -/
theorem P_ode (n : Nat) : Polynomial.derivative ((1 - X ^ 2) * Polynomial.derivative (P n : K[X])) =
    -(C ((n : K) * (n + 1)) * P n) := by
  cases n with
  | zero => simp [P]
  | succ n =>
    obtain ⟨ha, hb⟩ := P_der (K := K) n
    rw [P_sq, derivative_C_mul, derivative_sub, derivative_mul, derivative_X]
    simp only [C_mul, C_add, C_1, map_natCast, Nat.cast_add, Nat.cast_one] at *
    linear_combination (-((n : K[X]) + 1)) * hb

/-- Neighbouring Legendre polynomials have no common zero. -/
theorem P_no_common (n : Nat) (r : K) (h1 : (P (n + 1) : K[X]).eval r = 0) (h0 : (P n : K[X]).eval r = 0) :
    False := by
  induction n with
  | zero => simp [P] at h0
  | succ n ih =>
    refine ih h0 ?_
    have h := congrArg (eval r) (P_rec (K := K) n)
    simp only [eval_mul, eval_sub, eval_C, eval_X, h1, h0, mul_zero, zero_sub] at h
    have hn : ((n : K) + 1) ≠ 0 := by exact_mod_cast Nat.succ_ne_zero n
    rcases mul_eq_zero.1 (neg_eq_zero.1 h.symm) with h | h
    · exact absurd h hn
    · exact h

/-- Zeros of Legendre polynomials are simple. -/
theorem P_simple (n : Nat) (r : K) (h : (P n : K[X]).eval r = 0) :
    (Polynomial.derivative (P n : K[X])).eval r ≠ 0 := by
  cases n with
  | zero => simp [P] at h
  | succ n =>
    intro hd
    have e := congrArg (eval r) (P_sq (K := K) n)
    simp only [eval_mul, eval_sub, eval_C, eval_X, h, hd, mul_zero, sub_zero] at e
    have hn : ((n : K) + 1) ≠ 0 := by exact_mod_cast Nat.succ_ne_zero n
    rcases mul_eq_zero.1 e.symm with h' | h'
    · exact hn h'
    · exact P_no_common n r h h'

/-- Zeros of the derivative are simple, too. -/
theorem P_der_simple (n : Nat) (r : K) (h : (Polynomial.derivative (P (n + 1) : K[X])).eval r = 0) :
    (Polynomial.derivative (Polynomial.derivative (P (n + 1) : K[X]))).eval r ≠ 0 := by
  intro hd
  have e := congrArg (eval r) (P_ode (K := K) (n + 1))
  rw [derivative_mul] at e
  simp only [eval_mul, eval_add, h, hd, mul_zero, add_zero, eval_neg, eval_C] at e
  have hn : (((n + 1 : Nat) : K) * (((n + 1 : Nat) : K) + 1)) ≠ 0 := by
    refine mul_ne_zero ?_ ?_
    · exact_mod_cast Nat.succ_ne_zero n
    · exact_mod_cast Nat.succ_ne_zero (n + 1)
  rcases mul_eq_zero.1 (neg_eq_zero.1 e.symm) with h' | h'
  · exact hn h'
  · exact P_simple (n + 1) r h' h

/-- A linear functional vanishing on the first Legendre polynomials vanishes on every polynomial of
lower degree. -/
theorem lin_zero (L : K[X] →ₗ[K] K) (m : Nat) (h : ∀ j < m, L (P j) = 0) (q : K[X]) (hq : q.degree < m) :
    L q = 0 := by
  induction m generalizing q with
  | zero =>
    have : q = 0 := by
      by_contra hne
      rw [degree_eq_natDegree hne] at hq
      exact absurd hq (by simp)
    rw [this, map_zero]
  | succ m ih =>
    have hlt : (q - C (q.coeff m / (P m : K[X]).coeff m) * P m).degree < (m : WithBot Nat) := by
      rw [degree_lt_iff_coeff_zero]
      intro k hk
      rw [coeff_sub, coeff_C_mul]
      rcases Nat.lt_or_ge m k with h1 | h1
      · rw [P_coeff_zero h1, mul_zero, sub_zero]
        exact (degree_lt_iff_coeff_zero _ _).1 hq k h1
      · obtain rfl : k = m := le_antisymm h1 hk
        rw [div_mul_cancel₀ _ (P_lead k), sub_self]
    have e := ih (fun j hj => h j (by omega)) _ hlt
    rw [map_sub, ← smul_eq_C_mul, map_smul, h m (by omega), smul_zero, sub_zero] at e
    exact e

end Verif.Poly
