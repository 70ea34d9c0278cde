import Verif.Merge.Model
import Mathlib.Order.Interval.Finset.Nat

/-! # Closing the gaps left by removed numbers -/
namespace Verif.Merge
open Verif

theorem lowerBound_eq_countP {l : List Nat} (h : l.Pairwise (· < ·)) (x : Nat) : Std.lowerBound l x = l.countP fun a => decide (a < x) := by
  unfold Std.lowerBound
  induction l with
  | nil => rfl
  | cons a l ih =>
    rw [List.pairwise_cons] at h
    rw [List.findIdx_cons, List.countP_cons]
    by_cases hc : a < x
    · simp [hc, ih h.2]
    · have h0 : l.countP (fun a => decide (a < x)) = 0 := by
        rw [List.countP_eq_zero]
        intro b hb
        have := h.1 b hb
        simp only [decide_eq_true_eq]; omega
      simp [hc, h0]

/-- Numbers below `x` which were not removed. -/
theorem count_add_lowerBound {l : List Nat} (h : l.Pairwise (· < ·)) (x : Nat) :
    Nat.count (fun y => y ∉ l) x + Std.lowerBound l x = x := by
  rw [lowerBound_eq_countP h]
  induction x with
  | zero => simp
  | succ x ih =>
    rw [Nat.count_succ]
    have h1 : l.countP (fun a => decide (a < x + 1)) = l.countP (fun a => decide (a < x)) + l.count x := by
      clear ih
      induction l with
      | nil => rfl
      | cons a l ih =>
        rw [List.pairwise_cons] at h
        have := ih h.2
        simp only [List.countP_cons, List.count_cons, decide_eq_true_eq, beq_iff_eq]
        by_cases h1 : a < x
        · have : ¬ a = x := by omega
          simp only [if_pos h1, if_pos (show a < x + 1 by omega), if_neg this]; omega
        · by_cases h2 : a = x
          · simp only [if_neg h1, if_pos (show a < x + 1 by omega), if_pos h2]; omega
          · simp only [if_neg h1, if_neg (show ¬ a < x + 1 by omega), if_neg h2]; omega
    rw [h1]
    by_cases hx : x ∈ l
    · rw [List.count_eq_one_of_mem (Std.nodup_of_strict h) hx, if_neg (by simpa using hx)]; omega
    · rw [List.count_eq_zero_of_not_mem hx, if_pos hx]; omega

theorem lowerBound_all {l : List Nat} (h : l.Pairwise (· < ·)) {n : Nat} (hn : ∀ a ∈ l, a < n) : Std.lowerBound l n = l.length := by
  rw [lowerBound_eq_countP h, List.countP_eq_length]
  intro a ha
  simpa using hn a ha

/-- Subtracting the number of removed smaller numbers maps the remaining numbers below `n` one-to-one and
in order onto an initial segment. -/
theorem compress_bijOn {l : List Nat} (h : l.Pairwise (· < ·)) {n : Nat} (hn : ∀ a ∈ l, a < n) :
    Set.BijOn (fun x => x - Std.lowerBound l x) {x | x < n ∧ x ∉ l} (Set.Iio (n - l.length)) ∧
    StrictMonoOn (fun x => x - Std.lowerBound l x) {x | x < n ∧ x ∉ l} := by
  have hc : ∀ x, x - Std.lowerBound l x = Nat.count (fun y => y ∉ l) x := fun x => by
    have := count_add_lowerBound h x; omega
  have hlen : n - l.length = Nat.count (fun y => y ∉ l) n := by rw [← lowerBound_all h hn, hc]
  have hm : StrictMonoOn (fun x => x - Std.lowerBound l x) {x | x < n ∧ x ∉ l} := by
    intro x hx y _ hxy
    simp only [hc]
    exact Nat.count_strict_mono (p := fun y => y ∉ l) hx.2 hxy
  refine ⟨⟨fun x hx => ?_, hm.injOn, fun j hj => ?_⟩, hm⟩
  · simp only [hc, Set.mem_Iio, hlen]
    exact Nat.count_strict_mono (p := fun y => y ∉ l) hx.2 hx.1
  · rw [Set.mem_Iio, hlen] at hj
    have hlt := Nat.nth_lt_of_lt_count hj
    have hmem : Nat.nth (fun y => y ∉ l) j ∉ l := by
      apply Nat.nth_mem (p := fun y => y ∉ l)
      intro hf
      have hsub : (Finset.filter (fun y => y ∉ l) (Finset.range n)) ⊆ hf.toFinset := by
        intro y hy
        rw [Set.Finite.mem_toFinset]
        exact (Finset.mem_filter.1 hy).2
      have := Finset.card_le_card hsub
      rw [← Nat.count_eq_card_filter_range] at this
      omega
    refine ⟨_, ⟨hlt, hmem⟩, ?_⟩
    simp only [hc]
    apply Nat.count_nth
    intro hf
    have hsub : (Finset.filter (fun y => y ∉ l) (Finset.range n)) ⊆ hf.toFinset := by
      intro y hy
      rw [Set.Finite.mem_toFinset]
      exact (Finset.mem_filter.1 hy).2
    have := Finset.card_le_card hsub
    rw [← Nat.count_eq_card_filter_range] at this
    omega

end Verif.Merge
