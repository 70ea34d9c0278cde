import Verif.ParFor.Lemmas

/-!
# Property C142: parallel loops

The output may be the input, or not overlap it.  However the range is split and whatever the order in which the threads get on, `parallelTransform` gives what a sequential loop gives.
-/
namespace Verif.ParFor

variable {α : Type} {f : α → Option α} {a b n m : Nat} {leaves : List (Nat × Nat)} {m0 : Nat → α} {s : St α}

/-- **C142** (result).  When the loop returns, every element of the output is the kernel's result for the element of the input as it was before the loop, no kernel has thrown, and nothing else was changed. -/
theorem C142_result (hL : Leaves 0 n leaves) (hab : a = b ∨ a + n ≤ b ∨ b + n ≤ a) (h : Run f a b leaves (start leaves m0) m s) (hr : Returned leaves s) :
    (∀ i, i < n → f (m0 (a + i)) = some (s.mem (b + i))) ∧ ∀ p, ¬ (b ≤ p ∧ p < b + n) → s.mem p = m0 p := by
  have I := inv_run hL hab h
  refine ⟨fun i hi => ?_, I.out⟩
  obtain ⟨k, lo, hi', hk, h1, h2⟩ := hL.spec.2.1 i (Nat.zero_le _) hi
  exact I.done k lo hi' hk i h1 (by rw [hr k lo hi' hk]; exact h2)

/-- **C142** (any moment).  At every moment, so also when an exception stops the loop, each element of the output is as before or final, and nothing else was changed. -/
theorem C142_any_moment (hL : Leaves 0 n leaves) (hab : a = b ∨ a + n ≤ b ∨ b + n ≤ a) (h : Run f a b leaves (start leaves m0) m s) :
    (∀ i, i < n → s.mem (b + i) = m0 (b + i) ∨ f (m0 (a + i)) = some (s.mem (b + i))) ∧ ∀ p, ¬ (b ≤ p ∧ p < b + n) → s.mem p = m0 p := by
  have I := inv_run hL hab h
  refine ⟨fun i hi => ?_, I.out⟩
  obtain ⟨k, lo, hi', hk, h1, h2⟩ := hL.spec.2.1 i (Nat.zero_le _) hi
  rcases Nat.lt_or_ge i (s.next k) with h | h
  · exact .inr (I.done k lo hi' hk i h1 h)
  · exact .inl (I.todo k lo hi' hk i h h2)

/-- **C142** (once).  The kernel is called at most once for every element, only for elements of the range, and exactly once for each when the loop returns. -/
theorem C142_once (hL : Leaves 0 n leaves) (hab : a = b ∨ a + n ≤ b ∨ b + n ≤ a) (h : Run f a b leaves (start leaves m0) m s) :
    s.calls.Nodup ∧ (∀ i ∈ s.calls, i < n) ∧ (Returned leaves s → s.calls.Perm (List.range n)) := by
  have I := inv_run hL hab h
  have lt : ∀ i ∈ s.calls, i < n := by
    intro i hi
    obtain ⟨k, lo, hi', hk, h1, h2⟩ := (I.calls i).1 hi
    have h3 := hL.spec.1 k lo hi' hk
    have h4 := I.pos k lo hi' hk
    rcases h2 with h2 | ⟨h2, h5 | h5⟩
    · omega
    · obtain ⟨v, hv⟩ := Option.isSome_iff_exists.1 h5
      have := (I.reg k lo hi' v hk hv).1; omega
    · have := (I.dead k lo hi' hk h5).1; omega
  refine ⟨I.callsNodup, lt, fun hr => ?_⟩
  refine (List.perm_ext_iff_of_nodup I.callsNodup List.nodup_range).2 fun i => ⟨fun hi => List.mem_range.2 (lt i hi), fun hi => ?_⟩
  obtain ⟨k, lo, hi', hk, h1, h2⟩ := hL.spec.2.1 i (Nat.zero_le _) (List.mem_range.1 hi)
  exact (I.calls i).2 ⟨k, lo, hi', hk, h1, .inl (by rw [hr k lo hi' hk]; exact h2)⟩

/-- **C142** (end).  The loop takes at most `2 n` steps.  When no step is left, it has returned if the kernel throws on no element, and otherwise some kernel has thrown. -/
theorem C142_ends (hL : Leaves 0 n leaves) (hab : a = b ∨ a + n ≤ b ∨ b + n ≤ a) (h : Run f a b leaves (start leaves m0) m s) :
    m ≤ 2 * n ∧ ((∀ t, ¬ Step f a b leaves s t) →
      ((∀ i, i < n → (f (m0 (a + i))).isSome) → Returned leaves s) ∧ ((∃ i, i < n ∧ f (m0 (a + i)) = none) → ∃ k, s.dead k = true ∧ ¬ Returned leaves s)) := by
  have I := inv_run hL hab h
  have h1 := C142_once hL hab h
  refine ⟨?_, fun hstop => ?_⟩
  · have a1 := length_le h1.1 h1.2.1
    have a2 := length_le (n := n) I.storesNodup fun i hi => by
      obtain ⟨k, lo, hi', hk, -, h2⟩ := (I.stores i).1 hi
      have h3 := hL.spec.1 k lo hi' hk
      have h4 := I.pos k lo hi' hk
      omega
    rw [run_count h]; omega
  · have key : ∀ (k lo hi : Nat), leaves[k]? = some (lo, hi) → s.next k = hi ∨ (s.dead k = true ∧ s.next k < hi ∧ f (m0 (a + s.next k)) = none) := by
      intro k lo hi hk
      have hp := I.pos k lo hi hk
      rcases Nat.lt_or_ge (s.next k) hi with hn | hn
      · right
        cases hr : s.reg k with
        | some v => exact absurd (Step.store k lo hi v hk hr) (hstop _)
        | none =>
          cases hd : s.dead k with
          | true => exact ⟨rfl, hn, (I.dead k lo hi hk hd).2.2⟩
          | false =>
            cases hv : f (s.mem (a + s.next k)) with
            | some v => exact absurd (Step.call k lo hi v hk hd hr hn hv) (hstop _)
            | none => exact absurd (Step.throw k lo hi hk hd hr hn hv) (hstop _)
      · left; omega
    refine ⟨fun hf k lo hi hk => ?_, ?_⟩
    · rcases key k lo hi hk with h | ⟨-, h2, h3⟩
      · exact h
      · have := hf (s.next k) (by have := hL.spec.1 k lo hi hk; omega)
        rw [h3] at this; cases this
    · rintro ⟨i, hi, hf⟩
      obtain ⟨k, lo, hi', hk, e1, e2⟩ := hL.spec.2.1 i (Nat.zero_le _) hi
      rcases key k lo hi' hk with h | ⟨h2, h3, -⟩
      · have := I.done k lo hi' hk i e1 (by omega)
        rw [hf] at this; cases this
      · exact ⟨k, h2, fun hr => by have := hr k lo hi' hk; omega⟩

/-- Two elements handled by two threads, the output one place after the input. -/
theorem ex_leaves : Leaves 0 2 [(0, 1), (1, 2)] := .split (l := [(0, 1)]) (r := [(1, 2)]) (.leaf (by decide)) (.leaf (by decide))

theorem returned_two {α : Type} {s : St α} (h0 : s.next 0 = 1) (h1 : s.next 1 = 2) : Returned [(0, 1), (1, 2)] s := by
  intro k lo hi hk
  rcases k with _ | _ | k
  · cases hk; exact h0
  · cases hk; exact h1
  · simp at hk

/-- **C142** (needed).  With an output overlapping the input otherwise, the result depends on the schedule. -/
theorem C142_needed : ∃ (f : Nat → Option Nat) (m0 : Nat → Nat) (leaves : List (Nat × Nat)) (m m' : Nat) (s s' : St Nat), Leaves 0 2 leaves ∧
    Run f 0 1 leaves (start leaves m0) m s ∧ Returned leaves s ∧ Run f 0 1 leaves (start leaves m0) m' s' ∧ Returned leaves s' ∧ s.mem 2 ≠ s'.mem 2 := by
  refine ⟨fun x => some (x + 1), fun _ => 0, [(0, 1), (1, 2)], _, _, _, _, ex_leaves,
    .step (.step (.step (.step .zero (.call 0 0 1 1 rfl rfl rfl (by decide) rfl)) (.store 0 0 1 1 rfl rfl)) (.call 1 1 2 2 rfl rfl rfl (by decide) rfl)) (.store 1 1 2 2 rfl rfl), returned_two rfl rfl,
    .step (.step (.step (.step .zero (.call 1 1 2 1 rfl rfl rfl (by decide) rfl)) (.store 1 1 2 1 rfl rfl)) (.call 0 0 1 1 rfl rfl rfl (by decide) rfl)) (.store 0 0 1 1 rfl rfl), returned_two rfl rfl, ?_⟩
  decide

/-! ## Examples -/

/-- Two threads doubling the elements 3 and 4 in place; the second calls its kernel while the first has not stored yet. -/
theorem ex_run : ∃ s, Run (fun x : Nat => some (2 * x)) 0 0 [(0, 1), (1, 2)] (start [(0, 1), (1, 2)] (· + 3)) 4 s ∧ Returned [(0, 1), (1, 2)] s :=
  ⟨_, .step (.step (.step (.step .zero (.call 0 0 1 6 rfl rfl rfl (by decide) rfl)) (.call 1 1 2 8 rfl rfl rfl (by decide) rfl)) (.store 1 1 2 8 rfl rfl)) (.store 0 0 1 6 rfl rfl), returned_two rfl rfl⟩

example : ∃ s, Run (fun x : Nat => some (2 * x)) 0 0 [(0, 1), (1, 2)] (start [(0, 1), (1, 2)] (· + 3)) 4 s ∧ s.mem 0 = 6 ∧ s.mem 1 = 8 ∧ s.mem 2 = 5 ∧ s.calls.Perm [0, 1] := by
  obtain ⟨s, h, hr⟩ := ex_run
  obtain ⟨h1, h2⟩ := C142_result ex_leaves (.inl rfl) h hr
  exact ⟨s, h, (Option.some.inj (h1 0 (by decide))).symm, (Option.some.inj (h1 1 (by decide))).symm, h2 2 (by decide), (C142_once ex_leaves (.inl rfl) h).2.2 hr⟩

/-- The kernel throws on 3, while the other thread has done its element. -/
example : ∃ s, Run (fun x : Nat => if x = 3 then none else some (2 * x)) 0 0 [(0, 1), (1, 2)] (start [(0, 1), (1, 2)] (· + 3)) 3 s ∧ s.dead 0 = true ∧ s.mem 0 = 3 := by
  refine ⟨_, .step (.step (.step .zero (.call 1 1 2 8 rfl rfl rfl (by decide) rfl)) (.throw 0 0 1 rfl rfl rfl (by decide) rfl)) (.store 1 1 2 8 rfl rfl), rfl, rfl⟩

example {s : St Nat} (h : Run (fun x : Nat => if x = 3 then none else some (2 * x)) 0 0 [(0, 1), (1, 2)] (start [(0, 1), (1, 2)] (· + 3)) 3 s) : (s.mem 1 = 4 ∨ s.mem 1 = 8) ∧
    ((∀ t, ¬ Step (fun x : Nat => if x = 3 then none else some (2 * x)) 0 0 [(0, 1), (1, 2)] s t) → ∃ k, s.dead k = true) := by
  refine ⟨?_, fun hs => ?_⟩
  · rcases (C142_any_moment ex_leaves (.inl rfl) h).1 1 (by decide) with h | h
    · exact .inl h
    · exact .inr (Option.some.inj h).symm
  · obtain ⟨k, hk, -⟩ := ((C142_ends ex_leaves (.inl rfl) h).2 hs).2 ⟨0, by decide, rfl⟩
    exact ⟨k, hk⟩

end Verif.ParFor
