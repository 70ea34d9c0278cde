import Mathlib.Order.Basic
import Mathlib.Data.List.Sort
import Mathlib.Data.List.Perm.Basic
/-!
# Standard library algorithms used by the code base

Functional models of `std::sort`, `std::unique`, `std::lower_bound`, `std::upper_bound`,
`std::inclusive_scan`, with the facts guaranteed by the C++ standard proved about them.
-/
namespace Verif.Std

/-- `std::sort` with operator `<` (any correct algorithm gives the same list for a linear order;
insertion sort keeps the definition reducible in the kernel). -/
def sort {α} [LinearOrder α] (l : List α) : List α := l.insertionSort (· ≤ ·)

theorem sort_perm {α} [LinearOrder α] (l : List α) : (sort l).Perm l := List.perm_insertionSort _ _

theorem sort_sorted {α} [LinearOrder α] (l : List α) : (sort l).Pairwise (· ≤ ·) :=
  List.pairwise_insertionSort _ _

theorem mem_sort {α} [LinearOrder α] {l : List α} {a : α} : a ∈ sort l ↔ a ∈ l :=
  (sort_perm l).mem_iff

theorem length_sort {α} [LinearOrder α] (l : List α) : (sort l).length = l.length :=
  (sort_perm l).length_eq

theorem sort_nodup {α} [LinearOrder α] {l : List α} (h : l.Nodup) : (sort l).Nodup :=
  (sort_perm l).nodup_iff.2 h

/-- Two sorted lists with the same elements (as multisets) are equal. -/
theorem eq_of_perm_of_sorted {α} [LinearOrder α] {l₁ l₂ : List α} (h : l₁.Perm l₂)
    (h1 : l₁.Pairwise (· ≤ ·)) (h2 : l₂.Pairwise (· ≤ ·)) : l₁ = l₂ :=
  h.eq_of_pairwise (fun _ _ _ _ => le_antisymm) h1 h2

theorem sort_eq_of_sorted {α} [LinearOrder α] {l : List α} (h : l.Pairwise (· ≤ ·)) : sort l = l :=
  eq_of_perm_of_sorted (sort_perm l) (sort_sorted l) h

theorem sort_congr {α} [LinearOrder α] {l₁ l₂ : List α} (h : l₁.Perm l₂) : sort l₁ = sort l₂ :=
  eq_of_perm_of_sorted ((sort_perm _).trans (h.trans (sort_perm _).symm)) (sort_sorted _) (sort_sorted _)

theorem lt_of_le_nodup {α} [LinearOrder α] {l : List α} (h : l.Pairwise (· ≤ ·)) (hn : l.Nodup) :
    l.Pairwise (· < ·) := by
  induction l with
  | nil => exact .nil
  | cons a l ih =>
    rw [List.pairwise_cons] at h ⊢
    rw [List.nodup_cons] at hn
    refine ⟨fun b hb => lt_of_le_of_ne (h.1 b hb) ?_, ih h.2 hn.2⟩
    rintro rfl; exact hn.1 hb

theorem sort_strict {α} [LinearOrder α] {l : List α} (h : l.Nodup) : (sort l).Pairwise (· < ·) :=
  lt_of_le_nodup (sort_sorted l) (sort_nodup h)

theorem nodup_of_strict {α} [Preorder α] {l : List α} (h : l.Pairwise (· < ·)) : l.Nodup :=
  h.imp fun h => ne_of_lt h

theorem eq_of_mem_of_strict {α} [LinearOrder α] {l₁ l₂ : List α} (h1 : l₁.Pairwise (· < ·))
    (h2 : l₂.Pairwise (· < ·)) (h : ∀ a, a ∈ l₁ ↔ a ∈ l₂) : l₁ = l₂ :=
  eq_of_perm_of_sorted ((List.perm_ext_iff_of_nodup (nodup_of_strict h1) (nodup_of_strict h2)).2 h)
    (h1.imp le_of_lt) (h2.imp le_of_lt)

/-- `std::unique` followed by erasing the tail: keeps the first of each run of equal elements. -/
def uniq {α} [DecidableEq α] : List α → List α
  | [] => []
  | [a] => [a]
  | a :: b :: l => if a = b then uniq (b :: l) else a :: uniq (b :: l)

theorem mem_uniq {α} [DecidableEq α] {l : List α} {x : α} : x ∈ uniq l ↔ x ∈ l := by
  induction l using uniq.induct with
  | case1 => simp [uniq]
  | case2 => simp [uniq]
  | case3 b l ih => rw [uniq, if_pos rfl, ih]; simp
  | case4 a b l h ih => rw [uniq, if_neg h, List.mem_cons, ih]; simp

theorem uniq_head {α} [DecidableEq α] (a : α) (l : List α) : ∃ t, uniq (a :: l) = a :: t := by
  induction l generalizing a with
  | nil => exact ⟨[], rfl⟩
  | cons b l ih =>
    rw [uniq]
    split
    · rename_i h; subst h; exact ih a
    · exact ⟨_, rfl⟩

theorem uniq_strict {α} [LinearOrder α] {l : List α} (h : l.Pairwise (· ≤ ·)) :
    (uniq l).Pairwise (· < ·) := by
  induction l using uniq.induct with
  | case1 => exact .nil
  | case2 => simp [uniq]
  | case3 b l ih => rw [uniq, if_pos rfl]; exact ih (List.pairwise_cons.1 h).2
  | case4 a b l hab ih =>
    rw [uniq, if_neg hab, List.pairwise_cons]
    rw [List.pairwise_cons] at h
    refine ⟨fun c hc => ?_, ih h.2⟩
    rw [mem_uniq] at hc
    have hlt : a < b := lt_of_le_of_ne (h.1 b (by simp)) hab
    rcases List.mem_cons.1 hc with rfl | hc
    · exact hlt
    · exact lt_of_lt_of_le hlt ((List.pairwise_cons.1 h.2).1 c hc)

/-- `sortRemoveDup`-style composition. -/
def sortUniq {α} [LinearOrder α] (l : List α) : List α := uniq (sort l)

theorem mem_sortUniq {α} [LinearOrder α] {l : List α} {x : α} : x ∈ sortUniq l ↔ x ∈ l := by
  rw [sortUniq, mem_uniq, mem_sort]

theorem sortUniq_strict {α} [LinearOrder α] (l : List α) : (sortUniq l).Pairwise (· < ·) :=
  uniq_strict (sort_sorted l)

theorem sortUniq_nodup {α} [LinearOrder α] (l : List α) : (sortUniq l).Nodup :=
  nodup_of_strict (sortUniq_strict l)

/-- `std::lower_bound(l, x)` as an index: the first position whose element is not less than `x`. -/
def lowerBound {α} [LinearOrder α] (l : List α) (x : α) : Nat := l.findIdx fun a => !decide (a < x)

/-- `std::upper_bound(l, x)` as an index: the first position whose element is greater than `x`. -/
def upperBound {α} [LinearOrder α] (l : List α) (x : α) : Nat := l.findIdx fun a => decide (x < a)

theorem lowerBound_getElem {α} [LinearOrder α] {l : List α} (h : l.Pairwise (· < ·)) {i : Nat}
    (hi : i < l.length) : lowerBound l l[i] = i := by
  unfold lowerBound
  rw [List.findIdx_eq hi]
  refine ⟨by simp, fun j hj => ?_⟩
  simp only [Bool.not_eq_false', decide_eq_true_eq]
  exact List.pairwise_iff_getElem.1 h j i (by omega) hi hj

theorem getElem_lowerBound {α} [LinearOrder α] {l : List α} (h : l.Pairwise (· < ·)) {x : α}
    (hx : x ∈ l) : l[lowerBound l x]? = some x := by
  obtain ⟨i, hi, rfl⟩ := List.mem_iff_getElem.1 hx
  rw [lowerBound_getElem h hi, List.getElem?_eq_getElem hi]

theorem lowerBound_lt {α} [LinearOrder α] {l : List α} (h : l.Pairwise (· < ·)) {x : α}
    (hx : x ∈ l) : lowerBound l x < l.length := by
  obtain ⟨i, hi, rfl⟩ := List.mem_iff_getElem.1 hx
  rw [lowerBound_getElem h hi]; exact hi

/-- For a sorted list the element at `lowerBound` equals `x` exactly if `x` occurs. -/
theorem mem_iff_lowerBound {α} [LinearOrder α] {l : List α} (h : l.Pairwise (· < ·)) (x : α) :
    x ∈ l ↔ l[lowerBound l x]? = some x := by
  refine ⟨getElem_lowerBound h, fun e => List.mem_of_getElem? e⟩

/-- `std::binary_search`. -/
def binarySearch {α} [LinearOrder α] (l : List α) (x : α) : Bool :=
  match l[lowerBound l x]? with
  | some y => !decide (x < y)
  | none => false

theorem binarySearch_iff {α} [LinearOrder α] {l : List α} (h : l.Pairwise (· ≤ ·)) (x : α) :
    binarySearch l x = true ↔ x ∈ l := by
  unfold binarySearch
  constructor
  · intro hb
    split at hb
    · rename_i y e
      obtain ⟨hlt, ey⟩ := List.getElem?_eq_some_iff.1 e
      have h1 : ¬ y < x := by
        have := List.findIdx_getElem (p := fun a => !decide (a < x)) (xs := l) (w := hlt)
        simp only [Bool.not_eq_true', decide_eq_false_iff_not] at this
        rw [← ey]; exact this
      have h2 : ¬ x < y := by simpa using hb
      have : x = y := le_antisymm (not_lt.1 h1) (not_lt.1 h2)
      rw [this, ← ey]; exact List.getElem_mem _
    · simp at hb
  · intro hx
    obtain ⟨i, hi, rfl⟩ := List.mem_iff_getElem.1 hx
    have hle : lowerBound l l[i] ≤ i := by
      unfold lowerBound
      by_contra hc
      have hc : i < _ := Nat.lt_of_not_le hc
      have := List.not_of_lt_findIdx hc
      simp at this
    have hlt : lowerBound l l[i] < l.length := by omega
    rw [List.getElem?_eq_getElem hlt]
    simp only [Bool.not_eq_true', decide_eq_false_iff_not, not_lt]
    rcases Nat.lt_or_ge (lowerBound l l[i]) i with hh | hh
    · exact List.pairwise_iff_getElem.1 h _ _ hlt hi hh
    · have : lowerBound l l[i] = i := by omega
      simp [this]

/-- `std::inclusive_scan` with `+`. -/
def inclusiveScan (l : List Nat) : List Nat := (List.range l.length).map fun i => (l.take (i + 1)).sum

/-- The array of offsets `0, l₀, l₀+l₁, …` (length one more than `l`). -/
def offsets (l : List Nat) : List Nat := 0 :: inclusiveScan l

theorem length_inclusiveScan (l : List Nat) : (inclusiveScan l).length = l.length := by
  simp [inclusiveScan]

theorem length_offsets (l : List Nat) : (offsets l).length = l.length + 1 := by
  simp [offsets, length_inclusiveScan]

theorem offsets_getElem? (l : List Nat) (i : Nat) :
    (offsets l)[i]? = if i ≤ l.length then some (l.take i).sum else none := by
  cases i with
  | zero => simp [offsets]
  | succ i =>
    rw [offsets, List.getElem?_cons_succ, inclusiveScan, List.getElem?_map]
    by_cases h : i < l.length
    · rw [List.getElem?_range h, if_pos (by omega)]; rfl
    · rw [List.getElem?_eq_none (by simp; omega), if_neg (by omega)]; rfl

theorem sum_take_le (l : List Nat) {i j : Nat} (h : i ≤ j) : (l.take i).sum ≤ (l.take j).sum := by
  obtain ⟨k, rfl⟩ := Nat.exists_eq_add_of_le h
  rw [List.take_add, List.sum_append]; omega

theorem sum_take_le_sum (l : List Nat) (i : Nat) : (l.take i).sum ≤ l.sum := by
  conv_rhs => rw [← List.take_append_drop i l, List.sum_append]
  omega

theorem sum_take_succ (l : List Nat) {i : Nat} (h : i < l.length) :
    (l.take (i + 1)).sum = (l.take i).sum + l[i] := by
  rw [List.take_succ, List.sum_append, List.getElem?_eq_getElem h]; simp

/-- A strictly sorted list equals the range of its length starting at its head exactly if it has no
gaps. -/
theorem strict_range_iff {l : List Nat} (hs : l.Pairwise (· < ·)) :
    (∀ x, l.head?.getD 0 ≤ x ∧ x < l.head?.getD 0 + l.length ↔ x ∈ l) ↔
      ∀ a b c, a ∈ l → c ∈ l → a ≤ b → b ≤ c → b ∈ l := by
  constructor
  · intro h a b c ha hc hab hbc
    rw [← h] at ha hc ⊢
    omega
  · intro h x
    cases l with
    | nil => simp
    | cons f t =>
      set l := f :: t
      have hlen : 0 < l.length := by simp [l]
      have h0 : l.head?.getD 0 = l[0] := by simp [l]
      rw [h0]
      -- elements are l[0] + i
      have hmono : ∀ i (hi : i < l.length), l[0] + i ≤ l[i] := by
        intro i
        induction i with
        | zero => intro hi; omega
        | succ i ih =>
          intro hi
          have a := ih (by omega)
          have b := List.pairwise_iff_getElem.1 hs i (i + 1) (by omega) hi (by omega)
          omega
      have hexact : ∀ i (hi : i < l.length), l[i] = l[0] + i := by
        intro i
        induction i with
        | zero => intro hi; omega
        | succ i ih =>
          intro hi
          have a := ih (by omega)
          have b := hmono (i + 1) hi
          have hm := h l[i] (l[i] + 1) l[i + 1] (List.getElem_mem _) (List.getElem_mem _) (by omega) (by omega)
          obtain ⟨j, hj, e⟩ := List.mem_iff_getElem.1 hm
          have hij : i < j := by
            by_contra hc
            have : l[j] ≤ l[i] := by
              rcases Nat.eq_or_lt_of_le (Nat.not_lt.1 hc) with e' | e'
              · subst e'; exact Nat.le_refl _
              · exact Nat.le_of_lt (List.pairwise_iff_getElem.1 hs j i hj (by omega) e')
            omega
          have : l[i + 1] ≤ l[j] := by
            rcases Nat.eq_or_lt_of_le (Nat.succ_le_of_lt hij) with e' | e'
            · have : i + 1 = j := e'
              subst this; exact Nat.le_refl _
            · exact Nat.le_of_lt (List.pairwise_iff_getElem.1 hs (i + 1) j (by omega) hj e')
          omega
      constructor
      · rintro ⟨h1, h2⟩
        have := hexact (x - l[0]) (by omega)
        rw [show x = l[x - l[0]]'(by omega) by omega]
        exact List.getElem_mem _
      · intro hx
        obtain ⟨i, hi, rfl⟩ := List.mem_iff_getElem.1 hx
        have := hexact i hi
        omega

end Verif.Std
