import Verif.SumFact.Lemmas
import Mathlib.Algebra.CharZero.Defs
import Mathlib.Data.List.Induction
import Mathlib.Tactic.LinearCombination
import Mathlib.Tactic.FieldSimp
import Mathlib.Tactic.NormNum
import Mathlib.Algebra.Field.Rat

/-! # C57: odd-even decomposition equals the plain product -/
namespace Verif.SumFact
open Finset

variable {R : Type} [Field R]

theorem sum_pairs (n : Nat) (g : Nat → R) :
    ∑ r ∈ range n, g r = ∑ r ∈ range (n / 2), (g r + g (n - r - 1)) + (if n % 2 = 1 then g (n / 2) else 0) := by
  have hk := Nat.mod_add_div n 2
  set k := n / 2 with hkd
  rw [Finset.sum_add_distrib]
  rcases Nat.mod_two_eq_zero_or_one n with h | h
  · rw [if_neg (by omega), add_zero]
    have hn : n = k + k := by omega
    have h2 : ∑ r ∈ range k, g (n - r - 1) = ∑ r ∈ range k, g (k + r) := by
      rw [← Finset.sum_range_reflect (fun r => g (k + r))]
      refine Finset.sum_congr rfl fun r hr => ?_
      have := Finset.mem_range.1 hr
      congr 1
      omega
    rw [h2]
    conv_lhs => rw [hn]
    exact Finset.sum_range_add _ _ _
  · rw [if_pos h]
    have hn : n = k + 1 + k := by omega
    have h2 : ∑ r ∈ range k, g (n - r - 1) = ∑ r ∈ range k, g (k + 1 + r) := by
      rw [← Finset.sum_range_reflect (fun r => g (k + 1 + r))]
      refine Finset.sum_congr rfl fun r hr => ?_
      have := Finset.mem_range.1 hr
      congr 1
      omega
    rw [h2]
    conv_lhs => rw [hn]
    rw [Finset.sum_range_add, Finset.sum_range_succ]
    ring

theorem ePrime_eq (n : Nat) (M : Nat → Nat → R) (v : Nat → R) (c : Nat) :
    ePrime n M v c = ∑ r ∈ range (n / 2), 1 / 2 * (v r + v (n - r - 1)) * (M r c + M (n - r - 1) c) + (if n % 2 = 1 then v (n / 2) * M (n / 2) c else 0) := by
  unfold ePrime
  have hlow : ∑ r ∈ range (n / 2), evenPart n v r * psiPlus n M r c =
      ∑ r ∈ range (n / 2), 1 / 2 * (v r + v (n - r - 1)) * (M r c + M (n - r - 1) c) := by
    refine Finset.sum_congr rfl fun r hr => ?_
    have := Finset.mem_range.1 hr
    unfold evenPart psiPlus
    rw [if_pos this, if_pos this]
  rcases Nat.mod_two_eq_zero_or_one n with h | h
  · rw [if_neg (by omega), add_zero, show (n + 1) / 2 = n / 2 by omega, hlow]
  · rw [if_pos h, show (n + 1) / 2 = n / 2 + 1 by omega, Finset.sum_range_succ, hlow]
    unfold evenPart psiPlus
    rw [if_neg (Nat.lt_irrefl _), if_neg (Nat.lt_irrefl _)]

variable [CharZero R]

theorem e_add_o (n : Nat) (M : Nat → Nat → R) (v : Nat → R) (c : Nat) : ePrime n M v c + oPrime n M v c = ∑ r ∈ range n, v r * M r c := by
  rw [ePrime_eq, sum_pairs n fun r => v r * M r c]
  unfold oPrime oddPart psiMinus
  have : ∑ r ∈ range (n / 2), (v r * M r c + v (n - r - 1) * M (n - r - 1) c) =
      ∑ r ∈ range (n / 2), 1 / 2 * (v r + v (n - r - 1)) * (M r c + M (n - r - 1) c) +
      ∑ r ∈ range (n / 2), 1 / 2 * (v r - v (n - r - 1)) * (M r c - M (n - r - 1) c) := by
    rw [← Finset.sum_add_distrib]
    refine Finset.sum_congr rfl fun r _ => ?_
    field_simp
    ring
  rw [this]
  ring

theorem e_sub_o (n : Nat) (M : Nat → Nat → R) (v : Nat → R) (c : Nat) :
    ePrime n M v c - oPrime n M v c = ∑ r ∈ range n, v r * M (n - r - 1) c := by
  rw [ePrime_eq, sum_pairs n fun r => v r * M (n - r - 1) c]
  unfold oPrime oddPart psiMinus
  have h1 : ∑ r ∈ range (n / 2), (v r * M (n - r - 1) c + v (n - r - 1) * M (n - (n - r - 1) - 1) c) =
      ∑ r ∈ range (n / 2), 1 / 2 * (v r + v (n - r - 1)) * (M r c + M (n - r - 1) c) -
      ∑ r ∈ range (n / 2), 1 / 2 * (v r - v (n - r - 1)) * (M r c - M (n - r - 1) c) := by
    rw [← Finset.sum_sub_distrib]
    refine Finset.sum_congr rfl fun r hr => ?_
    have := Finset.mem_range.1 hr
    rw [show n - (n - r - 1) - 1 = r by omega]
    field_simp
    ring
  have h2 : (if n % 2 = 1 then v (n / 2) * M (n - n / 2 - 1) c else 0) = if n % 2 = 1 then v (n / 2) * M (n / 2) c else 0 := by
    split
    · rename_i h
      rw [show n - n / 2 - 1 = n / 2 by omega]
    · rfl
  simp only [h1, h2]
  ring

omit [CharZero R] in
/-- The reconstruction combines every column exactly once. -/
theorem reconstruct_spec (m : Nat) (comb : R → R → R) (e o out : Nat → R) (j : Nat) (hj : j < m) :
    reconstruct ((m + 1) / 2) (m / 2) comb e o out j =
      comb (out j) (if j < m / 2 then e j + o j else if m - j - 1 < m / 2 then e (m - j - 1) - o (m - j - 1) else e j) := by
  have hfull : (m + 1) / 2 + m / 2 = m := by omega
  have hfold : ∀ k, k ≤ m / 2 → ∀ j, j < m → (List.range k).foldl (fun (out : Nat → R) c =>
      let o1 := fun j => if j = c then comb (out j) (e c + o c) else out j
      fun j => if j = (m + 1) / 2 + m / 2 - c - 1 then comb (o1 j) (e c - o c) else o1 j) out j =
      if j < k then comb (out j) (e j + o j) else if m - j - 1 < k then comb (out j) (e (m - j - 1) - o (m - j - 1)) else out j := by
    intro k
    induction k with
    | zero => intro _ j _; simp
    | succ k ih =>
      intro hk j hj
      rw [List.range_succ, List.foldl_append]
      simp only [List.foldl_cons, List.foldl_nil, hfull]
      have ihj := ih (by omega) j hj
      simp only [hfull] at ihj
      rw [ihj]
      by_cases h1 : j = m - k - 1
      · rw [if_pos h1, if_neg (by omega), if_neg (by omega), if_neg (by omega), if_neg (by omega), if_pos (by omega)]
        rw [show m - j - 1 = k by omega]
      · rw [if_neg h1]
        by_cases h2 : j = k
        · rw [if_pos h2, if_neg (by omega), if_neg (by omega), if_pos (by omega), h2]
        · rw [if_neg h2]
          by_cases h3 : j < k
          · rw [if_pos h3, if_pos (by omega)]
          · rw [if_neg h3, if_neg (show ¬ j < k + 1 by omega)]
            by_cases h4 : m - j - 1 < k
            · rw [if_pos h4, if_pos (by omega)]
            · rw [if_neg h4, if_neg (by omega)]
  unfold reconstruct
  simp only []
  have hf := hfold (m / 2) (le_refl _)
  by_cases hodd : m / 2 < (m + 1) / 2
  · rw [if_pos hodd]
    by_cases hmid : j = m / 2
    · rw [if_pos hmid, hf j hj, if_neg (by omega), if_neg (by omega), if_neg (by omega), if_neg (by omega)]
      rw [show (m + 1) / 2 - 1 = j by omega]
    · rw [if_neg hmid, hf j hj]
      by_cases h3 : j < m / 2
      · rw [if_pos h3, if_pos h3]
      · rw [if_neg h3, if_neg h3, if_pos (by omega), if_pos (by omega)]
  · rw [if_neg hodd, hf j hj]
    by_cases h3 : j < m / 2
    · rw [if_pos h3, if_pos h3]
    · rw [if_neg h3, if_neg h3, if_pos (by omega), if_pos (by omega)]

theorem half_zero {a b : R} (h : a + b = a - b) : b = 0 := by
  have : (2 : R) * b = 0 := by linear_combination h
  rcases mul_eq_zero.1 this with h | h
  · exact absurd h (by norm_num)
  · exact h

theorem interpOE_spec (n m : Nat) (M : Nat → Nat → R) (comb : R → R → R) (v out : Nat → R)
    (hsym : ∀ r < n, ∀ c < m, M (n - r - 1) (m - c - 1) = M r c) (j : Nat) (hj : j < m) :
    interpOE n m M comb v out j = comb (out j) (∑ r ∈ range n, v r * M r j) := by
  unfold interpOE
  rw [reconstruct_spec m comb _ _ out j hj]
  congr 1
  have hmir : ePrime n M v (m - j - 1) - oPrime n M v (m - j - 1) = ∑ r ∈ range n, v r * M r j := by
    rw [e_sub_o]
    exact Finset.sum_congr rfl fun r hr => by rw [hsym r (Finset.mem_range.1 hr) j hj]
  by_cases h1 : j < m / 2
  · rw [if_pos h1, e_add_o]
  · rw [if_neg h1]
    by_cases h2 : m - j - 1 < m / 2
    · rw [if_pos h2, hmir]
    · rw [if_neg h2]
      have hmid : m - j - 1 = j := by omega
      rw [hmid] at hmir
      have := half_zero ((e_add_o n M v j).trans hmir.symm)
      rw [← e_add_o, this, add_zero]

theorem derOE_spec (n m : Nat) (M : Nat → Nat → R) (comb : R → R → R) (v out : Nat → R)
    (hsym : ∀ r < n, ∀ c < m, M (n - r - 1) (m - c - 1) = - M r c) (j : Nat) (hj : j < m) :
    derOE n m M comb v out j = comb (out j) (∑ r ∈ range n, v r * M r j) := by
  unfold derOE
  rw [reconstruct_spec m comb _ _ out j hj]
  congr 1
  have hmir : oPrime n M v (m - j - 1) - ePrime n M v (m - j - 1) = ∑ r ∈ range n, v r * M r j := by
    rw [← neg_sub, e_sub_o, ← Finset.sum_neg_distrib]
    refine Finset.sum_congr rfl fun r hr => ?_
    rw [hsym r (Finset.mem_range.1 hr) j hj]
    ring
  have hsum : oPrime n M v j + ePrime n M v j = ∑ r ∈ range n, v r * M r j := by rw [add_comm, e_add_o]
  by_cases h1 : j < m / 2
  · rw [if_pos h1, hsum]
  · rw [if_neg h1]
    by_cases h2 : m - j - 1 < m / 2
    · rw [if_pos h2, hmir]
    · rw [if_neg h2]
      have hmid : m - j - 1 = j := by omega
      rw [hmid] at hmir
      have := half_zero (hsum.trans hmir.symm)
      rw [← hsum, this, add_zero]

theorem blockCols_eq (bs cols : Nat) : blockCols bs cols = List.range cols := by
  have h1 : ∀ k, (List.range k).flatMap (fun b => (List.range bs).map fun i => b * bs + i) = List.range (k * bs) := by
    intro k
    induction k with
    | zero => simp
    | succ k ih => rw [List.range_succ, List.flatMap_append, ih, Nat.succ_mul, List.range_add]; simp
  unfold blockCols
  rw [h1]
  have hm := Nat.mod_add_div cols bs
  have hc : cols - cols % bs = cols / bs * bs := by rw [Nat.mul_comm]; omega
  split
  · rw [hc, ← List.range_add]
    congr 1
    rw [Nat.mul_comm]; omega
  · have : cols % bs = 0 := by omega
    rw [List.append_nil]
    congr 1
    rw [Nat.mul_comm]; omega

omit [Field R] [CharZero R] in
theorem fold_rows (kernel : (Nat → R) → (Nat → R) → Nat → R) (inp out : Nat → Nat → R) (cols r : Nat) :
    (List.range cols).foldl (fun out c => fun r => if r = c then kernel (inp c) (out c) else out r) out r =
      if r < cols then kernel (inp r) (out r) else out r := by
  induction cols with
  | zero => simp
  | succ k ih =>
    rw [List.range_succ, List.foldl_append]
    simp only [List.foldl_cons, List.foldl_nil]
    by_cases h : r = k
    · subst h
      rw [if_pos rfl, if_pos (by omega), ih, if_neg (by omega)]
    · rw [if_neg h, ih]
      by_cases h2 : r < k
      · rw [if_pos h2, if_pos (by omega)]
      · rw [if_neg h2, if_neg (by omega)]

/-- C57 (values): for matrices with the point symmetry of symmetric nodes and points, any sizes and parities, any block size and number of
columns, the odd-even sweep assigns (or accumulates, depending on `comb`) exactly the plain product `inᵀ M`. -/
theorem C57_interpolation (bs n m cols : Nat) (M : Nat → Nat → R) (comb : R → R → R) (inp out : Nat → Nat → R)
    (hsym : ∀ r < n, ∀ c < m, M (n - r - 1) (m - c - 1) = M r c) (i j : Nat) (hi : i < cols) (hj : j < m) :
    sweepOE bs cols (interpOE n m M comb) inp out i j = comb (out i j) (∑ r ∈ range n, inp i r * M r j) := by
  unfold sweepOE
  rw [blockCols_eq, fold_rows, if_pos hi]
  exact interpOE_spec n m M comb _ _ hsym j hj

/-- C57 (derivatives): the same for derivative matrices, which are antisymmetric under the reflection. -/
theorem C57_derivative (bs n m cols : Nat) (M : Nat → Nat → R) (comb : R → R → R) (inp out : Nat → Nat → R)
    (hsym : ∀ r < n, ∀ c < m, M (n - r - 1) (m - c - 1) = - M r c) (i j : Nat) (hi : i < cols) (hj : j < m) :
    sweepOE bs cols (derOE n m M comb) inp out i j = comb (out i j) (∑ r ∈ range n, inp i r * M r j) := by
  unfold sweepOE
  rw [blockCols_eq, fold_rows, if_pos hi]
  exact derOE_spec n m M comb _ _ hsym j hj

/-- The interpolation matrix of the linear basis on 3 symmetric points and the derivative matrix of the quadratic basis on 2. -/
example : (∀ r < 2, ∀ c < 3, (fun r c : Nat => ((if r = 0 then 2 - c else c : ℤ) : ℚ)) (2 - r - 1) (3 - c - 1) =
    (fun r c : Nat => ((if r = 0 then 2 - c else c : ℤ) : ℚ)) r c) := by
  intro r hr c hc
  match r, hr with
  | 0, _ => match c, hc with
    | 0, _ => norm_num
    | 1, _ => norm_num
    | 2, _ => norm_num
  | 1, _ => match c, hc with
    | 0, _ => norm_num
    | 1, _ => norm_num
    | 2, _ => norm_num

end Verif.SumFact
