import Verif.Poly.Lemmas
import Mathlib.LinearAlgebra.Lagrange
import Mathlib.Tactic.NormNum

/-!
# C64: Lagrange interpolation
-/
namespace Verif.Poly
open Polynomial

variable {K : Type} [Field K]

/-! ## Lemmas -/

theorem mulRoot_eq (r : K) : ∀ (m : Nat) (l : Nat → K) (i : Nat),
    mulRoot r m l i = if 1 ≤ i ∧ i ≤ m then l i - l (i - 1) * r else l i
  | 0, l, i => by rw [if_neg (by omega)]; rfl
  | m + 1, l, i => by
    rw [mulRoot, mulRoot_eq r m]
    by_cases h1 : 1 ≤ i ∧ i ≤ m
    · rw [if_pos h1, if_pos (by omega), Function.update_of_ne (by omega), Function.update_of_ne (by omega)]
    · rw [if_neg h1]
      by_cases h2 : i = m + 1
      · subst h2
        rw [Function.update_self, if_pos (by omega)]; rfl
      · rw [Function.update_of_ne h2, if_neg (by omega)]

/-- Elements not reached yet are zero. -/
theorem rootPoly_zero (x : Nat → K) (i : Nat) : ∀ m k, m < k → rootPoly x i m k = 0
  | 0, k, h => if_neg (by omega)
  | m + 1, k, h => by
    rw [rootPoly, mulRoot_eq, if_neg (by omega), rootPoly_zero x i m k (by omega)]

/-- After `m` iterations the first `m + 1` elements are the coefficients of the product so far. -/
theorem rootPoly_prod (x : Nat → K) (i m : Nat) :
    toPoly (toList (m + 1) (rootPoly x i m)) = ∏ j ∈ Finset.range m, (X - C (otherRoots x i j)) := by
  induction m with
  | zero => rw [toPoly_toList]; simp [rootPoly]
  | succ m ih =>
    rw [Finset.prod_range_succ, ← ih, toPoly_toList, toPoly_toList]
    have h1 : ∀ k ∈ Finset.range (m + 2), C (rootPoly x i (m + 1) k) * (X : K[X]) ^ (m + 2 - 1 - k) =
        C (rootPoly x i m k) * X ^ (m + 1 - k) -
          if k = 0 then 0 else C (rootPoly x i m (k - 1)) * C (otherRoots x i m) * X ^ (m + 1 - k) := by
      intro k hk
      have := Finset.mem_range.1 hk
      rw [rootPoly, mulRoot_eq, show m + 2 - 1 - k = m + 1 - k by omega]
      by_cases hz : k = 0
      · rw [if_neg (by omega), if_pos hz, sub_zero]
      · rw [if_pos (by omega), if_neg hz, C_sub, C_mul]; ring
    rw [Finset.sum_congr rfl h1, Finset.sum_sub_distrib, Finset.sum_range_succ,
      rootPoly_zero x i m (m + 1) (by omega), C_0, zero_mul, add_zero, Finset.sum_range_succ' _ (m + 1)]
    rw [if_pos rfl, add_zero, mul_sub, Finset.sum_mul, Finset.sum_mul]
    refine congrArg₂ (fun a b : K[X] => a - b) ?_ ?_
    · apply Finset.sum_congr rfl
      intro k hk
      have := Finset.mem_range.1 hk
      rw [show m + 1 - k = (m + 1 - 1 - k) + 1 by omega, pow_succ]; ring
    · apply Finset.sum_congr rfl
      intro k hk
      rw [if_neg (by omega), Nat.add_sub_cancel, show m + 1 - (k + 1) = m + 1 - 1 - k by omega]; ring

theorem prod_otherRoots (f : Nat → K) (t : K) (n i : Nat) (hi : i < n + 1) :
    ∏ j ∈ Finset.range n, (t - otherRoots f i j) = ∏ j ∈ (Finset.range (n + 1)).erase i, (t - f j) := by
  apply Finset.prod_bij (fun j _ => if j < i then j else j + 1)
  · intro j hj
    have := Finset.mem_range.1 hj
    rw [Finset.mem_erase, Finset.mem_range]
    split <;> omega
  · intro a ha b hb h
    split at h <;> split at h <;> omega
  · intro b hb
    rw [Finset.mem_erase, Finset.mem_range] at hb
    by_cases h : b < i
    · exact ⟨b, Finset.mem_range.2 (by omega), if_pos h⟩
    · refine ⟨b - 1, Finset.mem_range.2 (by omega), ?_⟩
      rw [if_neg (by omega)]; omega
  · intro j _
    unfold otherRoots
    split <;> rfl

/-- The sum accumulated so far, as a polynomial. -/
theorem lagCoefs_poly (n : Nat) (x y : Nat → K) : ∀ m, toPoly (toList n (lagCoefs n x y m)) =
    ∑ i ∈ Finset.range m, C (y i / evaluate (toList n (rootPoly x i (n - 1))) (x i)) *
      toPoly (toList n (rootPoly x i (n - 1)))
  | 0 => by rw [toPoly_toList]; simp [lagCoefs]
  | m + 1 => by
    rw [Finset.sum_range_succ, ← lagCoefs_poly n x y m, toPoly_toList, toPoly_toList, toPoly_toList,
      Finset.mul_sum, ← Finset.sum_add_distrib]
    apply Finset.sum_congr rfl
    intro k _
    rw [lagCoefs, C_add, C_mul]; ring

theorem rootPoly_eval (x : Nat → K) (n i : Nat) (hi : i < n + 1) (t : K) :
    evaluate (toList (n + 1) (rootPoly x i n)) t = ∏ j ∈ (Finset.range (n + 1)).erase i, (t - x j) := by
  rw [evaluate_eq, rootPoly_prod, eval_prod, ← prod_otherRoots x t n i hi]
  simp

/-! ## Theorems -/

/-- **C64** (interpolation): for every number of points, all pairwise distinct abscissae and all
ordinates, the returned polynomial takes the prescribed values. -/
theorem C64_interpolates (n : Nat) (x y : Nat → K) (hx : Set.InjOn x (Set.Iio n)) (i : Nat) (hi : i < n) :
    evaluate (lagrangeInterp n x y) (x i) = y i := by
  obtain ⟨n, rfl⟩ : ∃ m, n = m + 1 := ⟨n - 1, by omega⟩
  rw [evaluate_eq, lagrangeInterp, lagCoefs_poly, eval_finset_sum, Nat.add_sub_cancel]
  rw [Finset.sum_eq_single i]
  · rw [eval_mul, eval_C, ← evaluate_eq]
    apply div_mul_cancel₀
    rw [rootPoly_eval x n i hi]
    apply Finset.prod_ne_zero_iff.2
    intro j hj
    rw [Finset.mem_erase, Finset.mem_range] at hj
    rw [sub_ne_zero]
    intro e
    exact hj.1 (hx (Set.mem_Iio.2 hj.2) (Set.mem_Iio.2 hi) e.symm)
  · intro j hj hne
    have hj' := Finset.mem_range.1 hj
    rw [eval_mul, ← evaluate_eq _ (x i), rootPoly_eval x n j hj' (x i)]
    rw [Finset.prod_eq_zero (i := i) (Finset.mem_erase.2 ⟨fun h => hne h.symm, Finset.mem_range.2 hi⟩) (sub_self _),
      mul_zero]
  · intro h; exact absurd (Finset.mem_range.2 hi) h

/-- **C64** (size): the result has as many coefficients as there are points, hence degree below that. -/
theorem C64_degree (n : Nat) (x y : Nat → K) :
    (lagrangeInterp n x y).length = n ∧ (toPoly (lagrangeInterp n x y)).degree < n := by
  have h : (lagrangeInterp n x y).length = n := toList_length _ _
  refine ⟨h, ?_⟩
  have := toPoly_degree_lt (lagrangeInterp n x y)
  rwa [h] at this

/-- **C64** (uniqueness): any coefficient list of that length taking the same values is the returned one. -/
theorem C64_unique (n : Nat) (x y : Nat → K) (hx : Set.InjOn x (Set.Iio n)) (q : List K) (hq : q.length = n)
    (hv : ∀ i < n, evaluate q (x i) = y i) : q = lagrangeInterp n x y := by
  have hl := C64_degree n x y
  apply toPoly_inj (hq.trans hl.1.symm)
  apply Polynomial.eq_of_degrees_lt_of_eval_index_eq (Finset.range n) (v := x)
  · intro a ha b hb e
    exact hx (by simpa using ha) (by simpa using hb) e
  · have := toPoly_degree_lt q
    rw [hq] at this
    simpa using this
  · simpa using hl.2
  · intro i hi
    have hi' := Finset.mem_range.1 hi
    rw [← evaluate_eq, ← evaluate_eq, hv i hi', C64_interpolates n x y hx i hi']

/-- **C64** (polynomial data): interpolating the values of a polynomial with `n` coefficients at `n`
distinct points returns exactly its coefficients. -/
theorem C64_reproduces (n : Nat) (x : Nat → K) (hx : Set.InjOn x (Set.Iio n)) (q : List K)
    (hq : q.length = n) : lagrangeInterp n x (fun i => evaluate q (x i)) = q :=
  (C64_unique n x _ hx q hq fun _ _ => rfl).symm

/-- **C64** (linearity in the ordinates), used for nodal bases. -/
theorem C64_linear (n : Nat) (x y z : Nat → K) (a b : K) (hx : Set.InjOn x (Set.Iio n)) (t : K) :
    evaluate (lagrangeInterp n x fun i => a * y i + b * z i) t =
      a * evaluate (lagrangeInterp n x y) t + b * evaluate (lagrangeInterp n x z) t := by
  have h : toPoly (lagrangeInterp n x fun i => a * y i + b * z i) =
      C a * toPoly (lagrangeInterp n x y) + C b * toPoly (lagrangeInterp n x z) := by
    apply Polynomial.eq_of_degrees_lt_of_eval_index_eq (Finset.range n) (v := x)
    · intro a ha b hb e
      exact hx (by simpa using ha) (by simpa using hb) e
    · simpa using (C64_degree n x _).2
    · rw [Finset.card_range]
      refine lt_of_le_of_lt (degree_add_le _ _) (max_lt ?_ ?_)
      · rw [← smul_eq_C_mul]; exact lt_of_le_of_lt (degree_smul_le _ _) (C64_degree n x y).2
      · rw [← smul_eq_C_mul]; exact lt_of_le_of_lt (degree_smul_le _ _) (C64_degree n x z).2
    · intro i hi
      have hi' := Finset.mem_range.1 hi
      rw [eval_add, eval_mul, eval_mul, eval_C, eval_C, ← evaluate_eq, ← evaluate_eq, ← evaluate_eq,
        C64_interpolates n x _ hx i hi', C64_interpolates n x _ hx i hi', C64_interpolates n x _ hx i hi']
  rw [evaluate_eq, h, evaluate_eq, evaluate_eq]; simp

/-! ## Examples -/

/-- Points 1, 2, 4 and values 1, 4, 16. -/
def exX : Nat → ℚ := fun i => ([1, 2, 4] : List ℚ).getD i 0

example : Set.InjOn exX (Set.Iio 3) := by
  intro a ha b hb
  simp only [Set.mem_Iio] at ha hb
  match a, b, ha, hb with
  | 0, 0, _, _ | 1, 1, _, _ | 2, 2, _, _ => simp
  | 0, 1, _, _ | 0, 2, _, _ | 1, 0, _, _ | 1, 2, _, _ | 2, 0, _, _ | 2, 1, _, _ => norm_num [exX]

example : lagrangeInterp 3 exX (fun i => exX i ^ 2) = [1, 0, 0] := by
  norm_num [lagrangeInterp, lagCoefs, toList, rootPoly, mulRoot, otherRoots, evaluate, exX, List.range_succ,
    Function.update_apply]

end Verif.Poly
