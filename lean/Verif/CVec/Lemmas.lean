import Verif.CVec.Spec

namespace Verif.CVec

variable {α : Type}

/-! ### Single cells -/

theorem getElem?_lt {β : Type} {l : List β} {i : Nat} {x : β} (h : l[i]? = some x) : i < l.length := by
  rcases Nat.lt_or_ge i l.length with h' | h'
  · exact h'
  · rw [List.getElem?_eq_none h'] at h; cases h

theorem set_self {β : Type} (l : List β) (i : Nat) (x y : β) (h : l[i]? = some y) : (l.set i x)[i]? = some x := by
  simp [List.getElem?_set, getElem?_lt h]

theorem set_ne {β : Type} (l : List β) (i j : Nat) (x : β) (h : i ≠ j) : (l.set i x)[j]? = l[j]? := by
  simp [List.getElem?_set, h]

theorem construct_eq {h : Heap α} {p i : Nat} {b : Block α} (v : α) (hp : h[p]? = some (some b))
    (hi : b[i]? = some none) : construct h p i v = some (h.set p (some (b.set i (some v)))) := by
  simp only [construct, hp, hi]

theorem destroy_eq {h : Heap α} {p i : Nat} {b : Block α} {v : α} (hp : h[p]? = some (some b))
    (hi : b[i]? = some (some v)) : destroy h p i = some (h.set p (some (b.set i none))) := by
  simp only [destroy, hp, hi]

theorem assign_eq {h : Heap α} {p i : Nat} {b : Block α} {v : α} (x : α) (hp : h[p]? = some (some b))
    (hi : b[i]? = some (some v)) : assign h p i x = some (h.set p (some (b.set i (some x)))) := by
  simp only [assign, hp, hi]

theorem read_eq {h : Heap α} {p i : Nat} {b : Block α} {v : α} (hp : h[p]? = some (some b))
    (hi : b[i]? = some (some v)) : read h p i = some v := by
  simp only [read, hp, hi]

theorem dealloc_eq {h : Heap α} {p n : Nat} (hp : h[p]? = some (some (List.replicate n none))) :
    dealloc h p n = some (h.set p none) := by
  simp only [dealloc, hp]
  rw [if_pos]
  simp

/-! ### Shapes of blocks -/

theorem cell_mid {β : Type} (a : List β) (x : β) (c : List β) : (a ++ x :: c)[a.length]? = some x := by
  simp

theorem set_mid {β : Type} (a : List β) (x y : β) (c : List β) :
    (a ++ x :: c).set a.length y = a ++ y :: c := by
  simp

theorem replicate_snoc {β : Type} (n : Nat) (x : β) (l : List β) :
    List.replicate n x ++ x :: l = List.replicate (n + 1) x ++ l := by
  rw [List.replicate_succ', List.append_assoc]; rfl

/-! ### Loops -/

theorem constructAll_eq (l pre : List α) (k : Nat) (h : Heap α) (p : Nat) (hk : l.length ≤ k)
    (hp : h[p]? = some (some (pre.map some ++ List.replicate k none))) :
    constructAll h p pre.length l =
      some (h.set p (some ((pre ++ l).map some ++ List.replicate (k - l.length) none))) := by
  induction l generalizing pre k h with
  | nil =>
    have : h.set p (some (pre.map some ++ List.replicate k none)) = h := by
      apply List.ext_getElem?
      intro j
      rcases Decidable.em (p = j) with rfl | hj
      · rw [set_self _ _ _ _ hp, hp]
      · rw [set_ne _ _ _ _ hj]
    simp [constructAll, this]
  | cons x xs ih =>
    obtain ⟨k, rfl⟩ : ∃ m, k = m + 1 := ⟨k - 1, by simp at hk; omega⟩
    have hc : (pre.map some ++ List.replicate (k + 1) none)[pre.length]? = some (none : Option α) := by
      have := cell_mid (pre.map some) (none : Option α) (List.replicate k none)
      simpa [List.replicate_succ] using this
    have hs : (pre.map some ++ List.replicate (k + 1) (none : Option α)).set pre.length (some x) =
        (pre ++ [x]).map some ++ List.replicate k none := by
      have := set_mid (pre.map some) (none : Option α) (some x) (List.replicate k none)
      simpa [List.replicate_succ] using this
    rw [constructAll, construct_eq x hp hc, hs]
    simp only [Option.bind_some]
    have hl : pre.length + 1 = (pre ++ [x]).length := by simp
    rw [hl, ih (pre ++ [x]) k _ (by simp at hk; omega) (set_self _ _ _ _ hp)]
    simp [List.set_set]

theorem set_same {β : Type} (l : List β) (i : Nat) (x : β) (h : l[i]? = some x) : l.set i x = l := by
  apply List.ext_getElem?
  intro j
  rcases Decidable.em (i = j) with rfl | hj
  · rw [set_self _ _ _ _ h, h]
  · rw [set_ne _ _ _ _ hj]

theorem destroyAll_eq (l : List α) (i k : Nat) (h : Heap α) (p : Nat)
    (hp : h[p]? = some (some (List.replicate i none ++ (l.map some ++ List.replicate k none)))) :
    destroyAll h p i l.length = some (h.set p (some (List.replicate (i + l.length + k) none))) := by
  induction l generalizing i h with
  | nil =>
    simp only [List.length_nil, destroyAll, Nat.add_zero]
    rw [set_same _ _ _ (by rw [hp]; simp)]
  | cons x xs ih =>
    have hc : (List.replicate i none ++ ((x :: xs).map some ++ List.replicate k none))[i]? = some (some x) := by
      have := cell_mid (List.replicate i none) (some x) (xs.map some ++ List.replicate k none)
      simpa using this
    have hs : (List.replicate i none ++ ((x :: xs).map some ++ List.replicate k none)).set i none =
        List.replicate (i + 1) none ++ (xs.map some ++ List.replicate k none) := by
      have := set_mid (List.replicate i none) (some x) none (xs.map some ++ List.replicate k none)
      rw [← replicate_snoc]
      simpa using this
    rw [List.length_cons, destroyAll, destroy_eq hp hc, hs]
    simp only [Option.bind_some]
    rw [ih (i + 1) _ (set_self _ _ _ _ hp), List.set_set]
    congr 5
    omega

theorem copyAll_eq (l pre : List α) (k : Nat) (tail : Block α) (h : Heap α) (src p : Nat) (hne : src ≠ p)
    (hk : l.length ≤ k) (hs : h[src]? = some (some ((pre ++ l).map some ++ tail)))
    (hp : h[p]? = some (some (pre.map some ++ List.replicate k none))) :
    copyAll h src p pre.length l.length =
      some (h.set p (some ((pre ++ l).map some ++ List.replicate (k - l.length) none))) := by
  induction l generalizing pre k h with
  | nil =>
    simp only [List.length_nil, copyAll, List.append_nil, Nat.sub_zero]
    rw [set_same _ _ _ hp]
  | cons x xs ih =>
    obtain ⟨k, rfl⟩ : ∃ m, k = m + 1 := ⟨k - 1, by simp at hk; omega⟩
    have hr : ((pre ++ x :: xs).map some ++ tail)[pre.length]? = some (some x) := by
      have := cell_mid (pre.map some) (some x) (xs.map some ++ tail)
      simpa using this
    have hc : (pre.map some ++ List.replicate (k + 1) none)[pre.length]? = some (none : Option α) := by
      have := cell_mid (pre.map some) (none : Option α) (List.replicate k none)
      simpa [List.replicate_succ] using this
    have hst : (pre.map some ++ List.replicate (k + 1) (none : Option α)).set pre.length (some x) =
        (pre ++ [x]).map some ++ List.replicate k none := by
      have := set_mid (pre.map some) (none : Option α) (some x) (List.replicate k none)
      simpa [List.replicate_succ] using this
    rw [List.length_cons, copyAll, read_eq hs hr]
    simp only [Option.bind_some]
    rw [construct_eq x hp hc, hst]
    simp only [Option.bind_some]
    have hl : pre.length + 1 = (pre ++ [x]).length := by simp
    rw [hl, ih (pre ++ [x]) k _ (by simp at hk; omega) (by rw [set_ne _ _ _ _ hne.symm, hs]; simp)
      (set_self _ _ _ _ hp)]
    simp [List.set_set]

theorem moveAll_eq (l pre : List α) (k : Nat) (tail : Block α) (h : Heap α) (old p : Nat) (hne : old ≠ p)
    (hk : l.length ≤ k)
    (hs : h[old]? = some (some (List.replicate pre.length none ++ (l.map some ++ tail))))
    (hp : h[p]? = some (some (pre.map some ++ List.replicate k none))) :
    moveAll h old p pre.length l.length =
      some ((h.set p (some ((pre ++ l).map some ++ List.replicate (k - l.length) none))).set old
        (some (List.replicate (pre.length + l.length) none ++ tail))) := by
  induction l generalizing pre k h with
  | nil =>
    simp only [List.length_nil, moveAll, List.append_nil, Nat.sub_zero]
    rw [set_same h _ _ hp, set_same _ _ _ (by rw [hs]; simp)]
  | cons x xs ih =>
    obtain ⟨k, rfl⟩ : ∃ m, k = m + 1 := ⟨k - 1, by simp at hk; omega⟩
    have hr : (List.replicate pre.length none ++ ((x :: xs).map some ++ tail))[pre.length]? = some (some x) := by
      have := cell_mid (List.replicate pre.length none) (some x) (xs.map some ++ tail)
      simpa using this
    have hrs : (List.replicate pre.length none ++ ((x :: xs).map some ++ tail)).set pre.length none =
        List.replicate (pre.length + 1) none ++ (xs.map some ++ tail) := by
      have := set_mid (List.replicate pre.length none) (some x) none (xs.map some ++ tail)
      rw [← replicate_snoc]
      simpa using this
    have hc : (pre.map some ++ List.replicate (k + 1) none)[pre.length]? = some (none : Option α) := by
      have := cell_mid (pre.map some) (none : Option α) (List.replicate k none)
      simpa [List.replicate_succ] using this
    have hst : (pre.map some ++ List.replicate (k + 1) (none : Option α)).set pre.length (some x) =
        (pre ++ [x]).map some ++ List.replicate k none := by
      have := set_mid (pre.map some) (none : Option α) (some x) (List.replicate k none)
      simpa [List.replicate_succ] using this
    rw [List.length_cons, moveAll, read_eq hs hr]
    simp only [Option.bind_some]
    rw [construct_eq x hp hc, hst]
    simp only [Option.bind_some]
    have hs' : (h.set p (some ((pre ++ [x]).map some ++ List.replicate k none)))[old]? =
        some (some (List.replicate pre.length none ++ ((x :: xs).map some ++ tail))) := by
      rw [set_ne _ _ _ _ hne.symm, hs]
    rw [destroy_eq hs' hr, hrs]
    simp only [Option.bind_some]
    have hl : pre.length + 1 = (pre ++ [x]).length := by simp
    rw [hl, ih (pre ++ [x]) k _ (by simp at hk; omega) ?_ ?_]
    · congr 1
      apply List.ext_getElem?
      intro j
      rcases Decidable.em (old = j) with rfl | hj
      · rw [set_self _ _ _ (some (List.replicate (pre ++ [x]).length none ++ (xs.map some ++ tail))),
          set_self _ _ _ (some (List.replicate pre.length none ++ ((x :: xs).map some ++ tail)))]
        · simp; omega
        · rw [set_ne _ _ _ _ hne.symm, hs]
        · rw [set_ne _ _ _ _ hne.symm, set_self _ _ _ _ hs', List.length_append]
      · rw [set_ne _ _ _ _ hj, set_ne _ _ _ _ hj]
        rcases Decidable.em (p = j) with rfl | hj'
        · rw [set_self _ _ _ (some ((pre ++ [x]).map some ++ List.replicate k none)), set_self _ _ _ _ hp]
          · simp
          · rw [set_ne _ _ _ _ hj, set_self _ _ _ _ hp]
        · rw [set_ne _ _ _ _ hj', set_ne _ _ _ _ hj, set_ne _ _ _ _ hj', set_ne _ _ _ _ hj']
    · rw [set_self _ _ _ _ hs', List.length_append]; try rfl
    · rw [set_ne _ _ _ _ hne, set_self _ _ _ _ hp]

end Verif.CVec
