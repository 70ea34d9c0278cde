import Verif.Poly.Model
import Mathlib.Algebra.Polynomial.Derivative
import Mathlib.Algebra.Polynomial.Eval.Degree
import Mathlib.Tactic.Ring
import Mathlib.Tactic.FieldSimp
import Mathlib.Data.List.Induction

/-!
# Lists of coefficients as polynomials
-/
namespace Verif.Poly
set_option linter.unusedSectionVars false
open Polynomial

variable {K : Type} [Field K]

/-- The polynomial with the given coefficients, highest power first. -/
noncomputable def toPoly (l : List K) : K[X] :=
  ∑ i ∈ Finset.range l.length, C (l.getD i 0) * X ^ (l.length - 1 - i)

theorem getD_lt (l : List K) (i : Nat) (h : i < l.length) : l.getD i 0 = l[i] := by simp [h]

theorem toPoly_nil : toPoly ([] : List K) = 0 := by simp [toPoly]

theorem toPoly_cons (c : K) (l : List K) : toPoly (c :: l) = C c * X ^ l.length + toPoly l := by
  unfold toPoly
  rw [List.length_cons, Finset.sum_range_succ', add_comm]
  congr 1
  · apply Finset.sum_congr rfl
    intro i _
    rw [List.getD_cons_succ]
    congr 2; omega

theorem toPoly_append (l m : List K) : toPoly (l ++ m) = toPoly l * X ^ m.length + toPoly m := by
  induction l with
  | nil => simp [toPoly_nil]
  | cons c l ih =>
    rw [List.cons_append, toPoly_cons, ih, toPoly_cons, List.length_append, pow_add]; ring

theorem toPoly_snoc (l : List K) (c : K) : toPoly (l ++ [c]) = toPoly l * X + C c := by
  rw [toPoly_append, toPoly_cons, toPoly_nil]; simp

theorem toPoly_degree_lt (l : List K) : (toPoly l).degree < l.length := by
  induction l with
  | nil => rw [toPoly_nil, degree_zero]; exact WithBot.bot_lt_coe _
  | cons c l ih =>
    rw [toPoly_cons]
    refine lt_of_le_of_lt (degree_add_le _ _) (max_lt ?_ (lt_trans ih ?_))
    · exact lt_of_le_of_lt (degree_C_mul_X_pow_le _ _) (by exact_mod_cast Nat.lt_succ_self _)
    · exact_mod_cast Nat.lt_succ_self _

theorem toPoly_coeff (l : List K) (k : Nat) (hk : k < l.length) :
    (toPoly l).coeff k = l.getD (l.length - 1 - k) 0 := by
  induction l with
  | nil => simp at hk
  | cons c l ih =>
    rw [toPoly_cons, coeff_add, coeff_C_mul_X_pow]
    by_cases h : k = l.length
    · subst h
      rw [if_pos rfl, coeff_eq_zero_of_degree_lt (toPoly_degree_lt l)]
      simp
    · rw [List.length_cons] at hk
      rw [if_neg h, ih (by omega), zero_add, List.length_cons,
        show l.length + 1 - 1 - k = (l.length - 1 - k) + 1 by omega, List.getD_cons_succ]

theorem toPoly_inj {l m : List K} (hl : l.length = m.length) (h : toPoly l = toPoly m) : l = m := by
  apply List.ext_getElem hl
  intro i h1 h2
  have e1 := toPoly_coeff l (l.length - 1 - i) (by omega)
  have e2 := toPoly_coeff m (m.length - 1 - i) (by omega)
  rw [h, hl, e2] at e1
  rw [show m.length - 1 - (m.length - 1 - i) = i by omega, getD_lt _ _ h1, getD_lt _ _ h2] at e1
  exact e1.symm

theorem evaluate_eq (l : List K) (x : K) : evaluate l x = (toPoly l).eval x := by
  induction l using List.reverseRecOn with
  | nil => simp [evaluate, toPoly_nil]
  | append_singleton l c ih =>
    rw [toPoly_snoc, evaluate, List.foldl_append]
    change evaluate l x * x + c = _
    rw [ih]; simp

theorem derCoefs_succ (n : Nat) : derCoefs (K := K) (n + 1) = ((n : K) + 1) :: derCoefs n := by
  simp [derCoefs, List.range_succ]

theorem intCoefs_succ (n : Nat) : intCoefs (K := K) (n + 1) = (1 / ((n : K) + 1)) :: intCoefs n := by
  simp [intCoefs, List.range_succ]

theorem length_derCoefs (n : Nat) : (derCoefs (K := K) n).length = n := by simp [derCoefs]
theorem length_intCoefs (n : Nat) : (intCoefs (K := K) n).length = n := by simp [intCoefs]

/-- The main branch of `derivative`. -/
def der0 (l : List K) : List K := List.zipWith (· * ·) (l.take (l.length - 1)) (derCoefs (l.length - 1))

theorem toPoly_der0 (l : List K) : toPoly (der0 l) = Polynomial.derivative (toPoly l) := by
  induction l with
  | nil => simp [der0, toPoly_nil]
  | cons c l ih =>
    cases l with
    | nil => simp [der0, derCoefs, toPoly_nil, toPoly_cons]
    | cons d l =>
      have e : der0 (c :: d :: l) = c * ((l.length : K) + 1) :: der0 (d :: l) := by
        unfold der0
        simp only [List.length_cons, Nat.add_sub_cancel]
        rw [derCoefs_succ, List.take_succ_cons, List.zipWith_cons_cons]
      have hlen : (der0 (d :: l)).length = l.length := by
        unfold der0; simp [length_derCoefs]
      rw [e, toPoly_cons, ih, toPoly_cons c, hlen, derivative_add, derivative_C_mul_X_pow]
      simp

theorem toPoly_derivative (l : List K) : toPoly (derivative l) = Polynomial.derivative (toPoly l) := by
  unfold derivative
  by_cases h : l.length = 1
  · rw [if_pos h]
    obtain ⟨c, rfl⟩ := List.length_eq_one_iff.1 h
    simp [toPoly_cons, toPoly_nil]
  · rw [if_neg h]; exact toPoly_der0 l

theorem length_derivative (l : List K) (h : 2 ≤ l.length) : (derivative l).length = l.length - 1 := by
  unfold derivative
  rw [if_neg (by omega)]; simp [length_derCoefs]

theorem length_integral (l : List K) : (integral l).length = l.length + 1 := by
  simp [integral, length_intCoefs]

theorem toPoly_integral [CharZero K] (l : List K) : Polynomial.derivative (toPoly (integral l)) = toPoly l := by
  induction l with
  | nil => simp [integral, toPoly_cons, toPoly_nil, intCoefs]
  | cons c l ih =>
    have e : integral (c :: l) = c * (1 / ((l.length : K) + 1)) :: integral l := by
      unfold integral
      rw [List.length_cons, intCoefs_succ]; simp
    rw [e, toPoly_cons, derivative_add, ih, toPoly_cons c, derivative_C_mul_X_pow, length_integral]
    have : ((l.length : K) + 1) ≠ 0 := Nat.cast_add_one_ne_zero _
    simp only [Nat.cast_add, Nat.cast_one, Nat.add_sub_cancel]
    rw [show c * (1 / ((l.length : K) + 1)) * ((l.length : K) + 1) = c by field_simp]

theorem toPoly_integral_zero (l : List K) : (toPoly (integral l)).eval 0 = 0 := by
  unfold integral; rw [toPoly_snoc]; simp

theorem toList_length (n : Nat) (f : Nat → K) : (toList n f).length = n := by simp [toList]

theorem toPoly_toList (n : Nat) (f : Nat → K) :
    toPoly (toList n f) = ∑ i ∈ Finset.range n, C (f i) * X ^ (n - 1 - i) := by
  unfold toPoly
  rw [toList_length]
  apply Finset.sum_congr rfl
  intro i hi
  rw [getD_lt _ _ (by rw [toList_length]; exact Finset.mem_range.1 hi)]
  simp [toList]

end Verif.Poly
