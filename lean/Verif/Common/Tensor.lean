import Mathlib.Data.List.Basic
import Mathlib.Tactic.Ring
import Mathlib.Tactic.Linarith

/-! # Index arithmetic of nested loops -/
namespace Verif.Tensor

/-- Joining equally long pieces: position `k` is position `k % w` of piece `k / w`. -/
theorem flatMap_getElem? {α β : Type _} (w : Nat) (hw : 0 < w) (f : α → List β) (l : List α)
    (hf : ∀ x ∈ l, (f x).length = w) (k : Nat) :
    (l.flatMap f)[k]? = (l[k / w]?).bind fun x => (f x)[k % w]? := by
  induction l generalizing k with
  | nil => simp
  | cons a l ih =>
    have ha := hf a (by simp)
    rw [List.flatMap_cons, List.getElem?_append]
    by_cases hk : k < (f a).length
    · rw [if_pos hk]
      rw [ha] at hk
      rw [Nat.div_eq_of_lt hk, Nat.mod_eq_of_lt hk]; simp
    · rw [if_neg hk, ih (fun x hx => hf x (by simp [hx])), ha]
      rw [ha] at hk
      have hk' : w ≤ k := by omega
      obtain ⟨m, rfl⟩ := Nat.exists_eq_add_of_le hk'
      have e1 : (w + m) / w = m / w + 1 := by rw [Nat.add_div_left _ hw]
      have e2 : (w + m) % w = m % w := by rw [Nat.add_mod_left]
      rw [e1, e2, Nat.add_sub_cancel_left]; simp

theorem length_flatMap_uniform {α β : Type _} (w : Nat) (f : α → List β) (l : List α)
    (hf : ∀ x ∈ l, (f x).length = w) : (l.flatMap f).length = l.length * w := by
  induction l with
  | nil => simp
  | cons a l ih =>
    rw [List.flatMap_cons, List.length_append, ih (fun x hx => hf x (by simp [hx])), hf a (by simp)]
    simp; ring

/-- The pairs `(i, j)` in the order of two nested loops, outer `i < m`, inner `j < n`. -/
def pairs (m n : Nat) : List (Nat × Nat) := (List.range m).flatMap fun i => (List.range n).map fun j => (i, j)

theorem length_pairs (m n : Nat) : (pairs m n).length = m * n := by
  rw [pairs, length_flatMap_uniform n] <;> simp

theorem pairs_getElem? (m n k : Nat) (h : k < m * n) : (pairs m n)[k]? = some (k / n, k % n) := by
  have hn : 0 < n := by
    rcases Nat.eq_zero_or_pos n with rfl | h'
    · simp at h
    · exact h'
  rw [pairs, flatMap_getElem? n hn _ _ (by simp)]
  have h1 : k / n < m := Nat.div_lt_of_lt_mul (by rw [Nat.mul_comm]; exact h)
  have h2 := Nat.mod_lt k hn
  simp [h1, h2]

theorem pairs_eq (m n : Nat) : pairs m n = (List.range (m * n)).map fun k => (k / n, k % n) := by
  apply List.ext_getElem?
  intro k
  by_cases hk : k < m * n
  · rw [pairs_getElem? m n k hk]; simp [hk]
  · rw [List.getElem?_eq_none (by rw [length_pairs]; omega), List.getElem?_eq_none (by simp; omega)]

theorem mem_pairs {m n : Nat} {p : Nat × Nat} : p ∈ pairs m n ↔ p.1 < m ∧ p.2 < n := by
  obtain ⟨a, b⟩ := p
  simp [pairs]

/-- A loop body using the running counter as well as both loop variables. -/
theorem pairs_zipIdx_map {γ : Type _} (m n : Nat) (g : (Nat × Nat) × Nat → γ) :
    (pairs m n).zipIdx.map g = (List.range (m * n)).map fun k => g ((k / n, k % n), k) := by
  apply List.ext_getElem?
  intro k
  by_cases hk : k < m * n
  · rw [List.getElem?_map, List.getElem?_zipIdx, pairs_getElem? m n k hk]; simp [hk]
  · rw [List.getElem?_eq_none (by simp [length_pairs]; omega), List.getElem?_eq_none (by simp; omega)]

theorem two_digits {n x y : Nat} (hx : x < n) : (x + n * y) % n = x ∧ (x + n * y) / n = y := by
  have hn : 0 < n := by omega
  constructor
  · rw [Nat.add_mul_mod_self_left, Nat.mod_eq_of_lt hx]
  · rw [Nat.add_mul_div_left _ _ hn, Nat.div_eq_of_lt hx]; omega

theorem lt_mul_of_digits {n m x y : Nat} (hx : x < n) (hy : y < m) : x + n * y < n * m := by
  have : n * (y + 1) ≤ n * m := Nat.mul_le_mul_left n (by omega)
  rw [Nat.mul_succ] at this
  omega

theorem digits_lt_iff {n m k : Nat} (hn : 0 < n) : k < n * m ↔ k / n < m := by
  rw [Nat.mul_comm]; exact (Nat.div_lt_iff_lt_mul hn).symm

theorem eq_digits (n k : Nat) : k = k % n + n * (k / n) := by
  have := Nat.mod_add_div k n; omega

/-- Lexicographic order of digits is the order of numbers. -/
theorem digits_lt {n x y x' y' : Nat} (hx : x < n) (h : y < y' ∨ (y = y' ∧ x < x')) : x + n * y < x' + n * y' := by
  rcases h with h | ⟨rfl, h⟩
  · have : n * (y + 1) ≤ n * y' := Nat.mul_le_mul_left n h
    rw [Nat.mul_succ] at this
    omega
  · omega

end Verif.Tensor
