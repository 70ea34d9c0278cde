import Verif.MfCols.Model
import Mathlib.Tactic.Ring
import Mathlib.Tactic.NormNum

/-! # C95: the matrix-free operator handles every admissible number of vectors within its buffers -/
namespace Verif.MfCols

/-- Every column of the operand is handled by exactly one pass, for every number of columns up to the declared one; anything else is
refused. -/
theorem C95_columns (nRhs xCols yCols : Nat) :
    (passes nRhs xCols yCols = none ↔ xCols ≠ yCols ∨ nRhs < xCols) ∧
    ∀ l, passes nRhs xCols yCols = some l → l.flatMap (fun q => (List.range q.2).map (q.1 + ·)) = List.range xCols := by
  unfold passes
  constructor
  · split_ifs <;> simp_all
  · intro l hl
    split_ifs at hl with h1 h2 h3
    · simp only [Option.some.injEq] at hl
      subst hl
      simp [h3]
    · simp only [Option.some.injEq] at hl
      subst hl
      rw [List.flatMap_map]
      simp

theorem fill_bound (n nu k nf : Nat) : ∀ i ∈ fillPositions n nu k, i < fillSize n nu nf k := by
  intro i hi
  obtain ⟨node, hn, hi⟩ := List.mem_flatMap.1 hi
  obtain ⟨d, hd, hi⟩ := List.mem_flatMap.1 hi
  obtain ⟨c, hc, rfl⟩ := List.mem_map.1 hi
  rw [List.mem_range] at hn hd hc
  unfold fillSize
  calc c * (nu * n) + d * n + node < c * (nu * n) + d * n + n := by omega
    _ = c * (nu * n) + (d + 1) * n := by ring
    _ ≤ c * (nu * n) + nu * n := Nat.add_le_add_left (Nat.mul_le_mul_right n hd) _
    _ = (c + 1) * (nu * n) := by ring
    _ ≤ k * (nu * n) := Nat.mul_le_mul_right _ hc
    _ = n * (nu * k) := by ring
    _ ≤ n * (nu * k + nf) := Nat.mul_le_mul_left n (Nat.le_add_right _ _)

theorem res_bound (n nu k : Nat) : ∀ i ∈ resPositions n nu k, i < resSize n nu k := by
  intro i hi
  obtain ⟨node, hn, hi⟩ := List.mem_flatMap.1 hi
  obtain ⟨d, hd, hi⟩ := List.mem_flatMap.1 hi
  obtain ⟨c, hc, rfl⟩ := List.mem_map.1 hi
  rw [List.mem_range] at hn hd hc
  unfold resSize
  calc node * (nu * k) + c * nu + d < node * (nu * k) + c * nu + nu := by omega
    _ = node * (nu * k) + (c + 1) * nu := by ring
    _ ≤ node * (nu * k) + k * nu := Nat.add_le_add_left (Nat.mul_le_mul_right nu hc) _
    _ = (node + 1) * (nu * k) := by ring
    _ ≤ n * (nu * k) := Nat.mul_le_mul_right _ hn

/-- C95, full claim: an application with any kernel accepted by `defineOperator` is within bounds. -/
def C95Statement : Prop := ∀ (sumFact : Bool) (n nu nf nRhs p xCols yCols : Nat), 1 ≤ p → applyOk sumFact n nu nf nRhs p xCols yCols ≠ some false

/-- C95 for kernels declared for the number of vectors of the system, as `assembleProblem` requires: no application leaves its buffers. -/
theorem C95_bounds_partial (sumFact : Bool) (n nu nf nRhs xCols yCols : Nat) (h1 : 1 ≤ nRhs) :
    applyOk sumFact n nu nf nRhs nRhs xCols yCols = if xCols ≠ yCols ∨ nRhs < xCols then none else some true := by
  unfold applyOk
  have hinst : ∀ k, k = nRhs ∨ k = 1 → instRhs nRhs nRhs k = k := by
    intro k hk
    unfold instRhs
    split
    · omega
    · omega
  have hone : ∀ k, k = nRhs ∨ k = 1 → (if sumFact then sumFactOk n nu nf nRhs nRhs k else gatherOk nRhs k) = true := by
    intro k hk
    split
    · unfold sumFactOk
      rw [hinst k hk, Bool.and_eq_true, List.all_eq_true, List.all_eq_true]
      exact ⟨fun i hi => decide_eq_true (fill_bound n nu k nf i hi), fun i hi => decide_eq_true (res_bound n nu k i hi)⟩
    · unfold gatherOk
      exact decide_eq_true (by omega)
  by_cases hbad : xCols ≠ yCols ∨ nRhs < xCols
  · rw [(C95_columns nRhs xCols yCols).1.2 hbad, if_pos hbad]; rfl
  · rw [if_neg hbad]
    unfold passes
    rw [if_neg (by tauto), if_neg (by tauto)]
    by_cases he : xCols = nRhs
    · rw [if_pos he]
      change some (((if sumFact then _ else _) : Bool) && true) = some true
      rw [Bool.and_true]
      exact congrArg some (hone nRhs (Or.inl rfl))
    · rw [if_neg he, Option.map_some]
      congr 1
      rw [List.all_eq_true]
      intro q hq
      obtain ⟨c, _, rfl⟩ := List.mem_map.1 hq
      exact hone 1 (Or.inr rfl)

/-- C95: the full claim is false.  `defineOperator` accepts a kernel declared for one vector in a system declared for two; an
application to two vectors then leaves the buffers, with and without sum factorisation. -/
theorem C95_violated : ¬C95Statement ∧ applyOk true 4 1 0 2 1 2 2 = some false ∧ applyOk false 4 1 0 2 1 2 2 = some false := by
  refine ⟨fun h => h false 4 1 0 2 1 2 2 (le_refl _) (by decide), by decide, by decide⟩

example : applyOk true 4 3 2 2 2 2 2 = some true ∧ applyOk true 4 3 2 5 5 3 3 = some true ∧ applyOk true 4 3 2 2 2 3 3 = none := by decide

example : passes 5 3 3 = some [(0, 1), (1, 1), (2, 1)] := by decide

end Verif.MfCols
