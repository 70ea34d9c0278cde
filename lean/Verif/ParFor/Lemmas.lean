import Verif.ParFor.Model
import Mathlib.Data.List.Nodup
import Mathlib.Data.List.Perm.Subperm

/-! # Subranges cover the range once; the invariant of the loop -/
namespace Verif.ParFor

theorem Leaves.le {lo hi : Nat} {l : List (Nat × Nat)} (h : Leaves lo hi l) : lo ≤ hi := by
  induction h with
  | leaf h => exact h
  | split _ _ h1 h2 => omega

/-- Subrange `k` lies within the range, every index is in a subrange, and in one only. -/
theorem Leaves.spec {lo hi : Nat} {l : List (Nat × Nat)} (h : Leaves lo hi l) :
    (∀ (k x y : Nat), l[k]? = some (x, y) → lo ≤ x ∧ x ≤ y ∧ y ≤ hi) ∧ (∀ i, lo ≤ i → i < hi → ∃ k x y : Nat, l[k]? = some (x, y) ∧ x ≤ i ∧ i < y) ∧
      ∀ (k k' x y x' y' i : Nat), l[k]? = some (x, y) → l[k']? = some (x', y') → x ≤ i → i < y → x' ≤ i → i < y' → k = k' := by
  induction h with
  | @leaf lo hi h =>
    have one : ∀ (k x y : Nat), [(lo, hi)][k]? = some (x, y) → k = 0 ∧ x = lo ∧ y = hi := by
      intro k x y hk
      rcases k with _ | k
      · cases hk; exact ⟨rfl, rfl, rfl⟩
      · simp at hk
    refine ⟨?_, ?_, ?_⟩
    · intro k x y hk
      obtain ⟨-, rfl, rfl⟩ := one k x y hk
      omega
    · intro i h1 h2
      exact ⟨0, lo, hi, rfl, h1, h2⟩
    · intro k k' x y x' y' i hk hk' _ _ _ _
      rw [(one k x y hk).1, (one k' x' y' hk').1]
  | @split lo mid hi l r hl hr ihl ihr =>
    obtain ⟨a1, a2, a3⟩ := ihl
    obtain ⟨b1, b2, b3⟩ := ihr
    have h1 := hl.le
    have h2 := hr.le
    have get : ∀ (k x y : Nat), (l ++ r)[k]? = some (x, y) → (k < l.length ∧ l[k]? = some (x, y)) ∨ (l.length ≤ k ∧ r[k - l.length]? = some (x, y)) := by
      intro k x y hk
      rcases Nat.lt_or_ge k l.length with h | h
      · rw [List.getElem?_append_left h] at hk; exact .inl ⟨h, hk⟩
      · rw [List.getElem?_append_right h] at hk; exact .inr ⟨h, hk⟩
    refine ⟨?_, ?_, ?_⟩
    · intro k x y hk
      rcases get k x y hk with ⟨-, h⟩ | ⟨-, h⟩
      · have := a1 _ _ _ h; omega
      · have := b1 _ _ _ h; omega
    · intro i hi1 hi2
      rcases Nat.lt_or_ge i mid with h | h
      · obtain ⟨k, x, y, hk, hx⟩ := a2 i hi1 h
        refine ⟨k, x, y, ?_, hx⟩
        rw [List.getElem?_append_left (List.getElem?_eq_some_iff.1 hk).1]; exact hk
      · obtain ⟨k, x, y, hk, hx⟩ := b2 i h hi2
        refine ⟨l.length + k, x, y, ?_, hx⟩
        rw [List.getElem?_append_right (by omega), Nat.add_sub_cancel_left]; exact hk
    · intro k k' x y x' y' i hk hk' e1 e2 e3 e4
      rcases get k x y hk with ⟨c, h⟩ | ⟨c, h⟩ <;> rcases get k' x' y' hk' with ⟨c', h'⟩ | ⟨c', h'⟩
      · exact a3 _ _ _ _ _ _ i h h' e1 e2 e3 e4
      · have := a1 _ _ _ h; have := b1 _ _ _ h'; omega
      · have := b1 _ _ _ h; have := a1 _ _ _ h'; omega
      · have := b3 _ _ _ _ _ _ i h h' e1 e2 e3 e4; omega

variable {α : Type} {f : α → Option α} {a b n : Nat} {leaves : List (Nat × Nat)} {m0 : Nat → α}

/-- The invariant. -/
structure Inv (f : α → Option α) (a b n : Nat) (leaves : List (Nat × Nat)) (m0 : Nat → α) (s : St α) : Prop where
  pos : ∀ (k lo hi : Nat), leaves[k]? = some (lo, hi) → lo ≤ s.next k ∧ s.next k ≤ hi
  reg : ∀ (k lo hi : Nat) v, leaves[k]? = some (lo, hi) → s.reg k = some v → s.next k < hi ∧ f (m0 (a + s.next k)) = some v
  dead : ∀ (k lo hi : Nat), leaves[k]? = some (lo, hi) → s.dead k = true → s.next k < hi ∧ s.reg k = none ∧ f (m0 (a + s.next k)) = none
  done : ∀ (k lo hi : Nat), leaves[k]? = some (lo, hi) → ∀ i, lo ≤ i → i < s.next k → f (m0 (a + i)) = some (s.mem (b + i))
  todo : ∀ (k lo hi : Nat), leaves[k]? = some (lo, hi) → ∀ i, s.next k ≤ i → i < hi → s.mem (b + i) = m0 (b + i)
  out : ∀ p, ¬ (b ≤ p ∧ p < b + n) → s.mem p = m0 p
  callsNodup : s.calls.Nodup
  calls : ∀ i, i ∈ s.calls ↔ ∃ k lo hi : Nat, leaves[k]? = some (lo, hi) ∧ lo ≤ i ∧ (i < s.next k ∨ i = s.next k ∧ ((s.reg k).isSome ∨ s.dead k = true))
  storesNodup : s.stores.Nodup
  stores : ∀ i, i ∈ s.stores ↔ ∃ k lo hi : Nat, leaves[k]? = some (lo, hi) ∧ lo ≤ i ∧ i < s.next k

theorem inv_start (hL : Leaves 0 n leaves) : Inv f a b n leaves m0 (start leaves m0) := by
  obtain ⟨h1, -, -⟩ := hL.spec
  have hn : ∀ (k lo hi : Nat), leaves[k]? = some (lo, hi) → (start leaves m0).next k = lo := by
    intro k lo hi hk
    change (leaves.getD k (0, 0)).1 = lo
    rw [List.getD_eq_getElem?_getD, hk]; rfl
  refine ⟨?_, ?_, ?_, ?_, fun _ _ _ _ _ _ _ => rfl, fun _ _ => rfl, List.nodup_nil, ?_, List.nodup_nil, ?_⟩
  · intro k lo hi hk
    rw [hn k lo hi hk]
    have := h1 k lo hi hk; omega
  · intro k lo hi v _ h; cases h
  · intro k lo hi _ h; cases h
  · intro k lo hi hk i h1 h2
    rw [hn k lo hi hk] at h2; omega
  · intro i
    refine ⟨fun h => absurd h List.not_mem_nil, ?_⟩
    rintro ⟨k, lo, hi, hk, h2, h3 | ⟨-, h3 | h3⟩⟩
    · rw [hn k lo hi hk] at h3; omega
    · cases h3
    · cases h3
  · intro i
    refine ⟨fun h => absurd h List.not_mem_nil, ?_⟩
    rintro ⟨k, lo, hi, hk, h2, h3⟩
    rw [hn k lo hi hk] at h3; omega

/-- Arguments of the kernel are as they were before the loop. -/
theorem Inv.arg {s : St α} (I : Inv f a b n leaves m0 s) (hL : Leaves 0 n leaves) (hab : a = b ∨ a + n ≤ b ∨ b + n ≤ a) {k lo hi : Nat} (hk : leaves[k]? = some (lo, hi)) (hn : s.next k < hi) :
    s.mem (a + s.next k) = m0 (a + s.next k) := by
  rcases hab with rfl | h
  · exact I.todo k lo hi hk _ (Nat.le_refl _) hn
  · have := hL.spec.1 k lo hi hk
    exact I.out _ (by omega)

theorem Inv.call {s : St α} (I : Inv f a b n leaves m0 s) (hL : Leaves 0 n leaves) {k lo hi : Nat} (hk : leaves[k]? = some (lo, hi)) (hr : s.reg k = none) (hd : s.dead k = false) (hn : s.next k < hi) :
    s.next k ∉ s.calls := by
  rw [I.calls]
  rintro ⟨k', lo', hi', hk', h1, h2⟩
  have hp := I.pos k lo hi hk
  have hp' := I.pos k' lo' hi' hk'
  by_cases hkk : k' = k
  · subst hkk
    rcases h2 with h2 | ⟨-, h2 | h2⟩
    · omega
    · rw [hr] at h2; cases h2
    · rw [hd] at h2; cases h2
  · refine hkk (hL.spec.2.2 k' k lo' hi' lo hi (s.next k) hk' hk h1 ?_ hp.1 hn)
    rcases h2 with h2 | ⟨h2, h3⟩
    · omega
    · rcases h3 with h3 | h3
      · obtain ⟨v, hv⟩ := Option.isSome_iff_exists.1 h3
        have := (I.reg k' lo' hi' v hk' hv).1; omega
      · have := (I.dead k' lo' hi' hk' h3).1; omega

theorem Inv.step {s t : St α} (I : Inv f a b n leaves m0 s) (hL : Leaves 0 n leaves) (hab : a = b ∨ a + n ≤ b ∨ b + n ≤ a) (h : Step f a b leaves s t) : Inv f a b n leaves m0 t := by
  cases h with
  | call k lo hi v hk hd hr hn hv =>
    rw [I.arg hL hab hk hn] at hv
    refine ⟨I.pos, ?_, ?_, I.done, I.todo, I.out, List.nodup_cons.2 ⟨I.call hL hk hr hd hn, I.callsNodup⟩, ?_, I.storesNodup, I.stores⟩
    · intro k' lo' hi' v' hk' h'
      simp only [Function.update_apply] at h'
      split at h'
      · subst k'
        cases h'
        rw [hk] at hk'; cases hk'
        exact ⟨hn, hv⟩
      · exact I.reg k' lo' hi' v' hk' h'
    · intro k' lo' hi' hk' h'
      obtain ⟨e1, e2, e3⟩ := I.dead k' lo' hi' hk' h'
      have hne : k' ≠ k := by rintro rfl; simp only at h'; rw [hd] at h'; cases h'
      exact ⟨e1, by simpa [Function.update_apply, hne] using e2, e3⟩
    · intro i
      rw [List.mem_cons, I.calls]
      constructor
      · rintro (rfl | ⟨k', lo', hi', hk', h1, h2⟩)
        · exact ⟨k, lo, hi, hk, (I.pos k lo hi hk).1, .inr ⟨rfl, .inl (by simp)⟩⟩
        · refine ⟨k', lo', hi', hk', h1, h2.imp id fun h => ⟨h.1, h.2.imp (fun h => ?_) id⟩⟩
          simp only [Function.update_apply]
          split
          · rfl
          · exact h
      · rintro ⟨k', lo', hi', hk', h1, h2⟩
        by_cases hkk : k' = k
        · subst hkk
          rcases h2 with h2 | ⟨h2, -⟩
          · exact .inr ⟨k', lo', hi', hk', h1, .inl h2⟩
          · exact .inl h2
        · refine .inr ⟨k', lo', hi', hk', h1, h2.imp id fun h => ⟨h.1, h.2.imp (fun h => ?_) id⟩⟩
          simpa [Function.update_apply, hkk] using h
  | throw k lo hi hk hd hr hn hv =>
    rw [I.arg hL hab hk hn] at hv
    refine ⟨I.pos, I.reg, ?_, I.done, I.todo, I.out, List.nodup_cons.2 ⟨I.call hL hk hr hd hn, I.callsNodup⟩, ?_, I.storesNodup, I.stores⟩
    · intro k' lo' hi' hk' h'
      simp only [Function.update_apply] at h'
      split at h'
      · subst k'
        rw [hk] at hk'; cases hk'
        exact ⟨hn, hr, hv⟩
      · exact I.dead k' lo' hi' hk' h'
    · intro i
      rw [List.mem_cons, I.calls]
      constructor
      · rintro (rfl | ⟨k', lo', hi', hk', h1, h2⟩)
        · exact ⟨k, lo, hi, hk, (I.pos k lo hi hk).1, .inr ⟨rfl, .inr (by simp)⟩⟩
        · refine ⟨k', lo', hi', hk', h1, h2.imp id fun h => ⟨h.1, h.2.imp id fun h => ?_⟩⟩
          simp only [Function.update_apply]
          split
          · rfl
          · exact h
      · rintro ⟨k', lo', hi', hk', h1, h2⟩
        by_cases hkk : k' = k
        · subst hkk
          rcases h2 with h2 | ⟨h2, -⟩
          · exact .inr ⟨k', lo', hi', hk', h1, .inl h2⟩
          · exact .inl h2
        · refine .inr ⟨k', lo', hi', hk', h1, h2.imp id fun h => ⟨h.1, h.2.imp id fun h => ?_⟩⟩
          simpa [Function.update_apply, hkk] using h
  | store k lo hi v hk hr =>
    obtain ⟨hn, hv⟩ := I.reg k lo hi v hk hr
    have hp := I.pos k lo hi hk
    have hb := hL.spec.1 k lo hi hk
    have hdk : s.dead k = false := by
      cases hd : s.dead k with
      | false => rfl
      | true => rw [(I.dead k lo hi hk hd).2.1] at hr; cases hr
    have other : ∀ (k' lo' hi' i : Nat), leaves[k']? = some (lo', hi') → k' ≠ k → lo' ≤ i → i < hi' → i ≠ s.next k := by
      rintro k' lo' hi' i hk' hne h1 h2 rfl
      exact hne (hL.spec.2.2 k' k lo' hi' lo hi _ hk' hk h1 h2 hp.1 hn)
    refine ⟨?_, ?_, ?_, ?_, ?_, ?_, I.callsNodup, ?_, ?_, ?_⟩
    · intro k' lo' hi' hk'
      simp only [Function.update_apply]
      split
      · subst k'; rw [hk] at hk'; cases hk'; omega
      · exact I.pos k' lo' hi' hk'
    · intro k' lo' hi' v' hk' h'
      simp only [Function.update_apply] at h' ⊢
      split at h'
      · cases h'
      · rename_i hne
        simpa [hne] using I.reg k' lo' hi' v' hk' h'
    · intro k' lo' hi' hk' h'
      have hne : k' ≠ k := by rintro rfl; simp only at h'; rw [hdk] at h'; cases h'
      simpa [Function.update_apply, hne] using I.dead k' lo' hi' hk' h'
    · intro k' lo' hi' hk' i h1 h2
      by_cases hkk : k' = k
      · subst hkk
        rw [hk] at hk'; cases hk'
        simp only [Function.update_self] at h2
        rcases Nat.lt_or_ge i (s.next k') with h | h
        · dsimp only; rw [Function.update_of_ne (show b + i ≠ b + _ by omega)]
          exact I.done k' lo hi hk i h1 h
        · obtain rfl : i = s.next k' := by omega
          simpa using hv
      · simp only [Function.update_of_ne hkk] at h2
        have := other k' lo' hi' i hk' hkk h1 (by have := (I.pos k' lo' hi' hk').2; omega)
        dsimp only; rw [Function.update_of_ne (show b + i ≠ b + _ by omega)]
        exact I.done k' lo' hi' hk' i h1 h2
    · intro k' lo' hi' hk' i h1 h2
      by_cases hkk : k' = k
      · subst hkk
        simp only [Function.update_self] at h1
        dsimp only; rw [Function.update_of_ne (show b + i ≠ b + _ by omega)]
        exact I.todo k' lo' hi' hk' i (by omega) h2
      · simp only [Function.update_of_ne hkk] at h1
        have := other k' lo' hi' i hk' hkk (by have := (I.pos k' lo' hi' hk').1; omega) h2
        dsimp only; rw [Function.update_of_ne (show b + i ≠ b + _ by omega)]
        exact I.todo k' lo' hi' hk' i h1 h2
    · intro p hp'
      change Function.update s.mem _ v p = _
      rw [Function.update_of_ne (by omega)]
      exact I.out p hp'
    · intro i
      rw [I.calls]
      constructor
      · rintro ⟨k', lo', hi', hk', h1, h2⟩
        refine ⟨k', lo', hi', hk', h1, ?_⟩
        by_cases hkk : k' = k
        · subst hkk
          simp only [Function.update_self]
          left; rcases h2 with h2 | h2 <;> omega
        · simpa [Function.update_apply, hkk] using h2
      · rintro ⟨k', lo', hi', hk', h1, h2⟩
        refine ⟨k', lo', hi', hk', h1, ?_⟩
        by_cases hkk : k' = k
        · subst hkk
          simp only [Function.update_self, Option.isSome_none, Bool.false_eq_true, hdk, and_false, or_false] at h2
          rcases Nat.lt_or_ge i (s.next k') with h | h
          · exact .inl h
          · exact .inr ⟨by omega, .inl (by rw [hr]; rfl)⟩
        · simpa [Function.update_apply, hkk] using h2
    · refine List.nodup_cons.2 ⟨?_, I.storesNodup⟩
      rw [I.stores]
      rintro ⟨k', lo', hi', hk', h1, h2⟩
      by_cases hkk : k' = k
      · subst hkk; omega
      · exact other k' lo' hi' _ hk' hkk h1 (by have := (I.pos k' lo' hi' hk').2; omega) rfl
    · intro i
      rw [List.mem_cons, I.stores]
      constructor
      · rintro (rfl | ⟨k', lo', hi', hk', h1, h2⟩)
        · exact ⟨k, lo, hi, hk, hp.1, by simp⟩
        · refine ⟨k', lo', hi', hk', h1, ?_⟩
          simp only [Function.update_apply]
          split
          · subst k'; omega
          · exact h2
      · rintro ⟨k', lo', hi', hk', h1, h2⟩
        by_cases hkk : k' = k
        · subst hkk
          simp only [Function.update_self] at h2
          rcases Nat.lt_or_ge i (s.next k') with h | h
          · exact .inr ⟨k', lo', hi', hk', h1, h⟩
          · exact .inl (by omega)
        · simp only [Function.update_of_ne hkk] at h2
          exact .inr ⟨k', lo', hi', hk', h1, h2⟩

theorem inv_run {m : Nat} {s : St α} (hL : Leaves 0 n leaves) (hab : a = b ∨ a + n ≤ b ∨ b + n ≤ a) (h : Run f a b leaves (start leaves m0) m s) : Inv f a b n leaves m0 s := by
  induction h with
  | zero => exact inv_start hL
  | step _ hs ih => exact ih.step hL hab hs

theorem run_count {m : Nat} {s : St α} (h : Run f a b leaves (start leaves m0) m s) : m = s.calls.length + s.stores.length := by
  induction h with
  | zero => rfl
  | step _ hs ih => cases hs <;> simp only [List.length_cons] <;> omega

theorem length_le {l : List Nat} (hd : l.Nodup) (h : ∀ i ∈ l, i < n) : l.length ≤ n := by
  have := (List.subperm_of_subset hd (l₂ := List.range n) fun i hi => List.mem_range.2 (h i hi)).length_le
  simpa using this

end Verif.ParFor
