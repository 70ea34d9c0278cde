import Verif.Algo.Model
import Mathlib.Data.List.FinRange
import Mathlib.Data.List.Nodup

/-! # Property C15: sorting permutation and index-map helpers -/
namespace Verif.Algo

theorem copyPermuted_eq {α} (l : List α) (p : List (Fin l.length)) (hp : p.length = l.length) :
    copyPermuted l (p.map (·.val)) = some (p.map fun i => l[i]) := by
  unfold copyPermuted
  have : ∀ n ≤ p.length, (List.range n).mapM (fun k => ((p.map (·.val))[k]?).bind fun i => l[i]?) =
      some ((p.take n).map fun i => l[i]) := by
    intro n
    induction n with
    | zero => intro _; rfl
    | succ n ih =>
      intro hn
      rw [List.range_succ, List.mapM_append, ih (by omega)]
      have hb : ((p.map (·.val))[n]?).bind (fun i => l[i]?) = some l[p[n]'(by omega)] := by
        rw [List.getElem?_map, List.getElem?_eq_getElem (show n < p.length by omega)]
        simp only [Option.map_some, Option.bind_some]
        rw [List.getElem?_eq_getElem (p[n]'(by omega)).2]; rfl
      rw [List.take_add_one, List.getElem?_eq_getElem (show n < p.length by omega)]
      simp only [List.mapM_cons, List.mapM_nil, hb, List.map_append, Option.toList]
      rfl
  have h2 := this l.length (by omega)
  rw [h2, List.take_of_length_le (by omega)]

/-- **C15** (sortingPermutation + copyPermuted): whatever valid result `std::sort` produces, the
returned index list is a permutation of all positions, and applying it with `copyPermuted`
succeeds and yields the same elements in non-decreasing order. -/
theorem C15_sorting_permutation {α} (lt : α → α → Bool) (l : List α) (out : List (Fin l.length))
    (h : SortingPermutation lt l out) :
    (out.map (·.val)).Perm (List.range l.length) ∧
    ∃ r, copyPermuted l (out.map (·.val)) = some r ∧ r.Perm l ∧ r.Pairwise fun a b => lt b a = false := by
  have hperm := h.perm
  have hlen : out.length = l.length := by rw [hperm.length_eq, List.length_finRange]
  refine ⟨?_, _, copyPermuted_eq l out hlen, ?_, ?_⟩
  · have := hperm.map (·.val)
    simpa using this
  · have := hperm.map (fun i : Fin l.length => l[i])
    refine this.trans ?_
    rw [show (List.finRange l.length).map (fun i : Fin l.length => l[i]) = l by
      apply List.ext_getElem <;> simp]
  · rw [List.pairwise_map]; exact h.sorted

/-- The merge-sort instance is a valid result for every strict weak order, so the hypothesis of
`C15_sorting_permutation` is satisfiable for every input. -/
theorem C15_sorting_permutation_exec {α} (lt : α → α → Bool) (l : List α)
    (hirr : ∀ a b, lt a b = true → lt b a = false)
    (htr : ∀ a b c, lt b a = false → lt c b = false → lt c a = false) :
    SortingPermutation lt l (sortingPermutation lt l) := by
  refine ⟨List.mergeSort_perm _ _, ?_⟩
  have := List.pairwise_mergeSort (le := fun a b : Fin l.length => !lt l[b] l[a])
    (fun a b c h1 h2 => by simp at *; exact htr _ _ _ h1 h2)
    (fun a b => by
      simp only [Bool.or_eq_true, Bool.not_eq_true']
      cases hab : lt l[b] l[a] with
      | false => exact .inl rfl
      | true => exact .inr (hirr _ _ hab)) (List.finRange l.length)
  unfold sortingPermutation
  exact this.imp fun h => by simpa using h

example : SortingPermutation (fun a b : Nat => decide (a < b)) [3, 1, 2, 1]
    (sortingPermutation (fun a b : Nat => decide (a < b)) [3, 1, 2, 1]) :=
  C15_sorting_permutation_exec _ _ (by simp; omega) (by simp; omega)

/-- **C15** (matchingPermutation): entry `k` is the least index of the pattern matching the `k`-th
element, or the pattern's length if none matches. -/
theorem C15_matching_permutation {α β} (pattern : List α) (mtch : List β) (pred : α → β → Bool)
    (k : Nat) (hk : k < mtch.length) :
    ∃ i, (matchingPermutation pattern mtch pred)[k]? = some i ∧ i ≤ pattern.length ∧
      (∀ h : i < pattern.length, pred pattern[i] mtch[k] = true) ∧
      ∀ j (h : j < pattern.length), j < i → pred pattern[j] mtch[k] = false := by
  refine ⟨pattern.findIdx fun a => pred a mtch[k], ?_, List.findIdx_le_length, ?_, ?_⟩
  · simp [matchingPermutation, List.getElem?_eq_getElem hk]
  · intro h; exact List.findIdx_getElem (w := h)
  · intro j h hj; simpa using List.not_of_lt_findIdx hj

example : matchingPermutation [5, 7, 9] [9, 5, 1] (fun a b : Nat => a == b) = [2, 0, 3] := by decide

/-- **C15** (matchingPermutation of a rearrangement): with equality as predicate and a duplicate
free pattern, the result inverts the rearrangement. -/
theorem C15_matching_permutation_inverts {α} [DecidableEq α] (pattern mtch : List α)
    (h : mtch.Perm pattern) (k : Nat) (hk : k < mtch.length) :
    ∃ i, (matchingPermutation pattern mtch (fun a b => a == b))[k]? = some i ∧
      pattern[i]? = some mtch[k] := by
  obtain ⟨i, e, hle, hf, _⟩ := C15_matching_permutation pattern mtch (fun a b => a == b) k hk
  refine ⟨i, e, ?_⟩
  have hm : mtch[k] ∈ pattern := h.mem_iff.1 (List.getElem_mem _)
  have hlt : i < pattern.length := by
    have : i = pattern.findIdx fun a => a == mtch[k] := by
      simp [matchingPermutation, List.getElem?_eq_getElem hk] at e; exact e.symm
    rw [this]
    apply List.findIdx_lt_length_of_exists
    exact ⟨_, hm, by simp⟩
  rw [List.getElem?_eq_getElem hlt]
  have := hf hlt
  simp at this
  rw [this]

/-- **C15** (sortRemoveDup): the result is strictly increasing and has exactly the given values. -/
theorem C15_sort_remove_dup {α} [LinearOrder α] (l : List α) :
    (sortRemoveDup l).Pairwise (· < ·) ∧ ∀ x, x ∈ sortRemoveDup l ↔ x ∈ l :=
  ⟨Std.sortUniq_strict l, fun _ => Std.mem_sortUniq⟩

theorem uniq_length_le {α} [DecidableEq α] (l : List α) : (Std.uniq l).length ≤ l.length := by
  induction l using Std.uniq.induct with
  | case1 => simp [Std.uniq]
  | case2 => simp [Std.uniq]
  | case3 b l ih => rw [Std.uniq, if_pos rfl]; simp at ih ⊢; omega
  | case4 a b l h ih => rw [Std.uniq, if_neg h]; simp at ih ⊢; omega

theorem uniq_eq_of_length {α} [DecidableEq α] (l : List α) (h : (Std.uniq l).length = l.length) :
    Std.uniq l = l := by
  induction l using Std.uniq.induct with
  | case1 => simp [Std.uniq]
  | case2 => simp [Std.uniq]
  | case3 b l ih =>
    rw [Std.uniq, if_pos rfl] at h
    have := uniq_length_le (b :: l)
    simp at h this; omega
  | case4 a b l hab ih =>
    rw [Std.uniq, if_neg hab] at h ⊢
    rw [ih (by simpa using h)]

/-- **C15** (getUniqueCopy): same as `sortRemoveDup` in both branches of the code. -/
theorem C15_get_unique_copy {α} [LinearOrder α] (l : List α) :
    (getUniqueCopy l).Pairwise (· < ·) ∧ ∀ x, x ∈ getUniqueCopy l ↔ x ∈ l := by
  have : getUniqueCopy l = sortRemoveDup l := by
    unfold getUniqueCopy
    simp only
    split
    · rename_i h
      rw [sortRemoveDup] at h ⊢
      rw [uniq_eq_of_length _ (by rw [h, Std.length_sort])]
    · rw [List.take_length]
  rw [this]; exact C15_sort_remove_dup l

example : sortRemoveDup [3, 1, 3, 2, 1] = [1, 2, 3] ∧ getUniqueCopy [3, 1, 2] = [1, 2, 3] := by decide

/-- The intended meaning of `sortedUniqueElements`: the distinct values in increasing order. -/
def SortedUniqueStatement : Prop :=
  ∀ l : List Nat, ∃ r, sortedUniqueElements l = some r ∧ r.Pairwise (· < ·) ∧ ∀ x, x ∈ r ↔ x ∈ l

/-- **C15** (sortedUniqueElements) for arrays that are already sorted.  Missing for the full
statement: unsorted arrays, for which it is false. -/
theorem C15_sorted_unique_partial {α} [LinearOrder α] [Inhabited α] (l : List α)
    (h : l.Pairwise (· ≤ ·)) :
    ∃ r, sortedUniqueElements l = some r ∧ r.Pairwise (· < ·) ∧ ∀ x, x ∈ r ↔ x ∈ l := by
  refine ⟨Std.uniq l, ?_, Std.uniq_strict h, fun _ => Std.mem_uniq⟩
  simp [sortedUniqueElements, Std.sort_eq_of_sorted h]

example : [1, 1, 2, 5, 5].Pairwise (· ≤ ·) := by decide

/-- **C15** is false of `sortedUniqueElements` on unsorted arrays: for `[2, 1]` the values come back
unsorted, for `[1, 2, 1]` the code writes past the end of its result. -/
theorem C15_sorted_unique_violated : ¬ SortedUniqueStatement ∧
    sortedUniqueElements [2, 1] = some [2, 1] ∧ sortedUniqueElements [1, 2, 1] = none := by
  refine ⟨fun h => ?_, by decide, by decide⟩
  obtain ⟨r, e, hs, _⟩ := h [2, 1]
  have : sortedUniqueElements [2, 1] = some [2, 1] := by decide
  rw [this] at e
  obtain rfl := Option.some.inj e
  revert hs; decide

theorem lookup_emplace {κ υ} [DecidableEq κ] (m : AMap κ υ) (k : κ) (v : υ) (x : κ) :
    (m.emplace k v).lookup x = match m.lookup x with
      | some w => some w
      | none => if x = k then some v else none := by
  unfold AMap.emplace
  cases hk : List.lookup k m with
  | some w =>
    simp only
    cases hx : List.lookup x m with
    | some w' => rfl
    | none =>
      have : x ≠ k := by rintro rfl; rw [hk] at hx; cases hx
      simp [this]
  | none =>
    simp only [List.lookup_cons]
    by_cases h : x = k
    · subst h; simp [hk]
    · have : (x == k) = false := by simpa using h
      rw [this]
      cases List.lookup x m <;> simp [h]

theorem indexMap_fold {κ} [DecidableEq κ] (l : List κ) (m : AMap κ Nat) (n : Nat) (x : κ) :
    (l.foldl (fun (p : AMap κ Nat × Nat) v => (p.1.emplace v p.2, p.2 + 1)) (m, n)).1.lookup x =
      match m.lookup x with
      | some w => some w
      | none => if x ∈ l then some (n + l.idxOf x) else none := by
  induction l generalizing m n with
  | nil => cases h : List.lookup x m <;> simp [h]
  | cons a l ih =>
    rw [List.foldl_cons, ih, lookup_emplace]
    cases h : List.lookup x m with
    | some w => rfl
    | none =>
      by_cases hxa : x = a
      · subst hxa; simp
      · have hne : ¬ a = x := fun e => hxa e.symm
        simp only [hxa, if_false, List.mem_cons, false_or]
        by_cases hx : x ∈ l
        · simp [hx, List.idxOf_cons_ne _ hne]; omega
        · simp [hx]

/-- **C15** (IndexMap): every key is mapped to the position of its first occurrence; unknown keys
throw. -/
theorem C15_index_map {κ} [DecidableEq κ] (l : List κ) (k : κ) :
    (k ∈ l → ∃ i, indexMapAt l k = some i ∧ l[i]? = some k ∧ ∀ j, j < i → l[j]? ≠ some k) ∧
    (k ∉ l → indexMapAt l k = none) := by
  have e : indexMapAt l k = if k ∈ l then some (l.idxOf k) else none := by
    have := indexMap_fold l [] 0 k
    simpa [indexMapAt, indexMap, AMap.find] using this
  constructor
  · intro h
    refine ⟨l.idxOf k, by rw [e, if_pos h], ?_, ?_⟩
    · rw [List.getElem?_eq_getElem (List.idxOf_lt_length_of_mem h)]; simp
    · intro j hj hc
      obtain ⟨hjl, ej⟩ := List.getElem?_eq_some_iff.1 hc
      have hj' : j < l.findIdx (· == k) := hj
      have := List.not_of_lt_findIdx hj'
      simp [ej] at this
  · intro h; rw [e, if_neg h]

example : indexMapAt [10, 20, 10, 30] 30 = some 3 ∧ indexMapAt [10, 20, 10, 30] 10 = some 0 ∧
    indexMapAt [10, 20] 5 = none := by decide

theorem invertMap_fold {κ} [DecidableEq κ] (m : AMap κ κ) (r : AMap κ κ) (v : κ) :
    (m.foldl (fun r p => r.emplace p.2 p.1) r).lookup v =
      match r.lookup v with
      | some w => some w
      | none => (m.find? fun p => p.2 == v).map (·.1) := by
  induction m generalizing r with
  | nil => cases h : List.lookup v r <;> simp [h]
  | cons a m ih =>
    rw [List.foldl_cons, ih, lookup_emplace]
    cases h : List.lookup v r with
    | some w => rfl
    | none =>
      by_cases hv : v = a.2
      · subst hv; simp
      · have : (a.2 == v) = false := by simpa using fun e => hv e.symm
        simp [hv, List.find?_cons, this]

/-- **C15** (invertMap): for an injective map (distinct values) the inverse map sends each value to
its key and knows no other value, whatever the iteration order. -/
theorem C15_invert_map {κ} [DecidableEq κ] (m : AMap κ κ)
    (hinj : (m.map (·.2)).Nodup) (k v : κ) :
    (invertMap m).find v = some k ↔ (k, v) ∈ m := by
  have e : (invertMap m).find v = (m.find? fun p => p.2 == v).map (·.1) := by
    have := invertMap_fold m [] v
    simpa [invertMap, AMap.find] using this
  rw [e, Option.map_eq_some_iff]
  constructor
  · rintro ⟨p, hp, rfl⟩
    have h1 := List.mem_of_find?_eq_some hp
    have h2 := List.find?_some hp
    simp at h2
    rw [← h2]; exact h1
  · intro h
    cases hf : m.find? fun p => p.2 == v with
    | none =>
      rw [List.find?_eq_none] at hf
      exact absurd (hf _ h) (by simp)
    | some p =>
      refine ⟨p, rfl, ?_⟩
      have h1 := List.mem_of_find?_eq_some hf
      have h2 := List.find?_some hf
      simp at h2
      have := List.inj_on_of_nodup_map hinj h1 h h2
      rw [this]

example : ([(1, 10), (2, 20), (3, 5)].map (·.2) : List Nat).Nodup ∧
    (invertMap [(1, 10), (2, 20), (3, 5)]).find 20 = some 2 := by decide

end Verif.Algo
