import Verif.Coll.Model
import Mathlib.Data.List.TakeDrop
import Mathlib.Tactic.Ring

namespace Verif.Coll

variable {U : Type} {w : Nat}

theorem cInt_small {n : Nat} (h : n < 2147483648) : cInt n = n := by
  unfold cInt; omega

@[simp] theorem units_nil : units ([] : List (Elem U w)) = [] := rfl

@[simp] theorem units_cons (e : Elem U w) (b : List (Elem U w)) :
    units (e :: b) = List.ofFn e ++ units b := by simp [units]

@[simp] theorem units_append (a b : List (Elem U w)) : units (a ++ b) = units a ++ units b := by
  simp [units]

@[simp] theorem units_length (b : List (Elem U w)) : (units b).length = b.length * w := by
  induction b with
  | nil => simp
  | cons e b ih => simp [ih, Nat.succ_mul]; omega

theorem units_take (b : List (Elem U w)) (k : Nat) : units (b.take k) = (units b).take (k * w) := by
  induction b generalizing k with
  | nil => simp
  | cons e b ih =>
    cases k with
    | zero => simp
    | succ k =>
      rw [List.take_succ_cons, units_cons, ih, units_cons, List.take_append]
      congr 1
      · rw [List.take_of_length_le]; simp [Nat.succ_mul]
      · congr 1; simp [Nat.succ_mul]

theorem units_drop (b : List (Elem U w)) (k : Nat) : units (b.drop k) = (units b).drop (k * w) := by
  induction b generalizing k with
  | nil => simp
  | cons e b ih =>
    cases k with
    | zero => simp
    | succ k =>
      rw [List.drop_succ_cons, ih, units_cons, List.drop_append,
        List.drop_of_length_le (l := List.ofFn e) (by simp [Nat.succ_mul])]
      simp [Nat.succ_mul]

theorem units_flatten (l : List (List (Elem U w))) : units l.flatten = (l.map units).flatten := by
  induction l with
  | nil => simp
  | cons a l ih => simp [ih]

/-- Memory determines the elements. -/
theorem units_injective (hw : 0 < w) {a b : List (Elem U w)} (h : units a = units b) : a = b := by
  have hl : a.length = b.length := by
    have := congrArg List.length h
    simp only [units_length] at this
    exact Nat.eq_of_mul_eq_mul_right hw this
  induction a generalizing b with
  | nil => cases b with
    | nil => rfl
    | cons => simp at hl
  | cons e a ih =>
    cases b with
    | nil => simp at hl
    | cons f b =>
      simp only [units_cons] at h
      have := List.append_inj h (by simp)
      rw [List.ofFn_injective this.1, ih this.2 (by simpa using hl)]

theorem parse_count {b : List (Elem U w)} (h : b.length * w < 2147483648) :
    (parse b).count = (b.length * w : Nat) := by
  simp only [parse, units_length]; exact cInt_small h

/-- A block of memory aligned with elements. -/
theorem block_units (b : List (Elem U w)) (k i : Nat) :
    block (units b) (k * w) i = units (block b k i) := by
  unfold block
  rw [units_take, units_drop, Nat.mul_assoc]

theorem map_flatten_length {α : Type} (l : List (List α)) (n : Nat) (h : ∀ x ∈ l, x.length = n) :
    l.flatten.length = l.length * n := by
  induction l with
  | nil => simp
  | cons a l ih =>
    simp only [List.flatten_cons, List.length_append, List.length_cons, Nat.succ_mul]
    rw [ih (fun x hx => h x (by simp [hx])), h a (by simp)]; omega

theorem any_not_derefable {α : Type} {outs : List (Option (List α))}
    (h : ∀ o ∈ outs, ∃ x l, o = some (x :: l)) : outs.any (fun o => !derefable o) = false := by
  rw [List.any_eq_false]
  intro o ho
  obtain ⟨x, l, rfl⟩ := h o ho
  simp [derefable]

theorem getD_mem' {α : Type} (l : List α) (d : α) {i : Nat} (h : i < l.length) : l.getD i d ∈ l := by
  rw [List.getD_eq_getElem?_getD, List.getElem?_eq_getElem h]; simp

theorem le_sum_of_mem' {l : List Nat} {t : Nat} (h : t ∈ l) : t ≤ l.sum := by
  induction l with
  | nil => cases h
  | cons a l ih =>
    rcases List.mem_cons.1 h with rfl | h
    · simp
    · have := ih h; simp; omega

end Verif.Coll
