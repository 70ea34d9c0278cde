import Verif.Erased.Model
import Mathlib.Tactic.SplitIfs
import Mathlib.Tactic.Basic
import Mathlib.Tactic.Convert

/-! # Property C18: type-erased callables -/
namespace Verif.Erased

variable {V : Type}

theorem upd_same {α : Type} (f : Nat → α) (k : Nat) (v : α) : upd f k v k = v := by simp [upd]
theorem upd_ne {α : Type} (f : Nat → α) {k x : Nat} (v : α) (h : x ≠ k) : upd f k v x = f x := by simp [upd, h]

/-- The target a slot is responsible for. -/
def Slot.target (s : Slot) : Option Nat :=
  match s.special, s.buf with
  | some .sso, .inl id => some id
  | some .heap, .ptr p => p
  | _, _ => none

/-- The buffer fits the special-member pointer. -/
def Slot.Wf (s : Slot) : Prop :=
  match s.special, s.buf with
  | none, _ => True
  | some .sso, .inl _ => True
  | some .heap, .ptr _ => True
  | _, _ => False

def World.tgt (w : World V) (i : Nat) : Option Nat := (w.slots i).bind Slot.target

/-- Objects outside slots have been destroyed exactly once, those inside slots not at all; each lives in one slot. -/
structure Inv (w : World V) : Prop where
  wf : ∀ i s, w.slots i = some s → s.Wf
  inj : ∀ i j id, w.tgt i = some id → w.tgt j = some id → i = j
  alive : ∀ id, (w.alive id).isSome ↔ ∃ i, w.tgt i = some id
  lt : ∀ id, (w.alive id).isSome → id < w.next
  cnt : ∀ id, w.count id = if id < w.next ∧ w.alive id = none then 1 else 0

theorem Inv.init : Inv (World.init : World V) := by
  constructor <;> simp [World.init, World.tgt]

theorem tgt_setSlot (w : World V) (i : Nat) (s : Option Slot) (k : Nat) :
    (w.setSlot i s).tgt k = if k = i then s.bind Slot.target else w.tgt k := by
  unfold World.tgt World.setSlot upd
  by_cases h : k = i <;> simp [h]

/-- Destroying the contents of slot `i` and ending its lifetime. -/
theorem dtor_spec {w : World V} (h : Inv w) {i : Nat} {s : Slot} (hs : w.slots i = some s) :
    ∃ w', dtorImpl s w = some w' ∧ w'.slots = w.slots ∧ w'.next = w.next ∧
      (∀ id, w'.alive id = if s.target = some id then none else w.alive id) ∧
      (∀ id, w'.count id = if s.target = some id then w.count id + 1 else w.count id) ∧
      Inv (w'.setSlot i none) := by
  have hwf := h.wf i s hs
  have htgt : w.tgt i = s.target := by simp [World.tgt, hs]
  -- the result in terms of the target
  have hex : ∃ w', dtorImpl s w = some w' ∧ w'.slots = w.slots ∧ w'.next = w.next ∧
      (∀ id, w'.alive id = if s.target = some id then none else w.alive id) ∧
      (∀ id, w'.count id = if s.target = some id then w.count id + 1 else w.count id) := by
    have kill : ∀ id, s.target = some id → ∃ w', w.kill id = some w' ∧ w'.slots = w.slots ∧ w'.next = w.next ∧
        (∀ k, w'.alive k = if s.target = some k then none else w.alive k) ∧
        (∀ k, w'.count k = if s.target = some k then w.count k + 1 else w.count k) := by
      intro id hid
      have hal := (h.alive id).2 ⟨i, by rw [htgt, hid]⟩
      obtain ⟨v, hv⟩ := Option.isSome_iff_exists.1 hal
      refine ⟨{ w with alive := upd w.alive id none, count := upd w.count id (w.count id + 1) }, by simp only [World.kill, hv], rfl, rfl, ?_, ?_⟩
      · intro k; by_cases hk : k = id
        · subst hk; simp [upd, hid]
        · have : ¬ id = k := fun e => hk e.symm
          simp [upd, hid, hk, this]
      · intro k; by_cases hk : k = id
        · subst hk; simp [upd, hid]
        · have : ¬ id = k := fun e => hk e.symm
          simp [upd, hid, hk, this]
    obtain ⟨sp, b⟩ := s
    cases sp with
    | none => exact ⟨w, rfl, rfl, rfl, by simp [Slot.target], by simp [Slot.target]⟩
    | some k =>
      cases k <;> cases b <;> simp only [Slot.Wf] at hwf
      · exact kill _ rfl
      · rename_i p
        cases p with
        | none => exact ⟨w, rfl, rfl, rfl, by simp [Slot.target], by simp [Slot.target]⟩
        | some id => exact kill _ rfl
  obtain ⟨w', e, hsl, hn, ha, hc⟩ := hex
  refine ⟨w', e, hsl, hn, ha, hc, ?_⟩
  have ht : ∀ k, (w'.setSlot i none).tgt k = if k = i then none else w.tgt k := by
    intro k; rw [tgt_setSlot]; simp [World.tgt, hsl]
  constructor
  · intro j t ht'
    simp only [World.setSlot, upd, hsl] at ht'
    split_ifs at ht'
    exact h.wf j t ht'
  · intro j k id h1 h2
    rw [ht] at h1 h2
    split_ifs at h1 h2
    exact h.inj j k id h1 h2
  · intro id
    show (w'.alive id).isSome ↔ _
    rw [ha]
    by_cases hid : s.target = some id
    · simp only [hid, if_true, Option.isSome_none, Bool.false_eq_true, false_iff]
      rintro ⟨j, hj⟩
      rw [ht] at hj
      split_ifs at hj with hji
      exact hji (h.inj j i id hj (by rw [htgt, hid]))
    · simp only [hid, if_false]
      rw [h.alive]
      constructor
      · rintro ⟨j, hj⟩
        refine ⟨j, ?_⟩
        rw [ht, if_neg]; · exact hj
        rintro rfl; exact hid (htgt ▸ hj)
      · rintro ⟨j, hj⟩
        rw [ht] at hj
        split_ifs at hj
        exact ⟨j, hj⟩
  · intro id hid
    show id < w'.next
    rw [hn]
    have hid : (w'.alive id).isSome := hid
    rw [ha] at hid
    split_ifs at hid
    · simp at hid
    · exact h.lt id hid
  · intro id
    show w'.count id = if id < w'.next ∧ w'.alive id = none then 1 else 0
    rw [hc, hn, ha, h.cnt]
    by_cases hid : s.target = some id
    · have hal := (h.alive id).2 ⟨i, by rw [htgt, hid]⟩
      have hlt := h.lt id hal
      have hne : ¬ w.alive id = none := by
        intro e; rw [e] at hal; simp at hal
      simp [hid, hlt, hne]
    · simp [hid]

/-- Moving the contents of slot `src` into a slot `dst` that holds nothing. -/
theorem move_spec {w : World V} (h : Inv w) {dst src : Nat} {s : Slot} (self : Slot) (hs : w.slots src = some s)
    (hd : w.slots dst = none) :
    ∃ r, moveImpl self s w = some r ∧ Inv ((r.2.2.setSlot src (some r.2.1)).setSlot dst (some r.1)) ∧
      r.2.2.slots = w.slots ∧
      (∀ v, invoke w s = some (some v) → invoke r.2.2 r.1 = some (some v)) ∧
      (∀ k, (∀ id, w.tgt src = some id → k ≠ id) → k < w.next → r.2.2.alive k = w.alive k) := by
  have hne : dst ≠ src := by rintro rfl; rw [hs] at hd; simp at hd
  have hwf := h.wf src s hs
  have htgt : w.tgt src = s.target := by simp [World.tgt, hs]
  have htd : w.tgt dst = none := by simp [World.tgt, hd]
  obtain ⟨sp, b⟩ := s
  cases sp with
  | none =>
    refine ⟨({ self with special := none }, ⟨none, b⟩, w), rfl, ?_, rfl, by simp [invoke], fun _ _ _ => rfl⟩
    have ht : ∀ k, ((w.setSlot src (some ⟨none, b⟩)).setSlot dst (some { self with special := none })).tgt k = w.tgt k := by
      intro k; rw [tgt_setSlot, tgt_setSlot]
      by_cases h1 : k = dst
      · subst h1; simp [htd, Slot.target]
      · by_cases h2 : k = src
        · subst h2; simp [h1, htgt, Slot.target]
        · simp [h1, h2]
    constructor
    · intro j t hj
      simp only [World.setSlot, upd] at hj
      split_ifs at hj
      · cases hj; simp [Slot.Wf]
      · cases hj; simp [Slot.Wf]
      · exact h.wf j t hj
    · intro i j id; rw [ht, ht]; exact h.inj i j id
    · intro id; simp only [ht]; exact h.alive id
    · exact h.lt
    · exact h.cnt
  | some k =>
    cases k <;> cases b <;> simp only [Slot.Wf] at hwf
    · rename_i id
      have hal := (h.alive id).2 ⟨src, by rw [htgt]; rfl⟩
      obtain ⟨v, hv⟩ := Option.isSome_iff_exists.1 hal
      have hlt := h.lt id hal
      have hlne : id ≠ w.next := by omega
      refine ⟨_, by simp only [moveImpl, hv]; rfl, ?_, rfl, ?_, ?_⟩
      · simp only [World.alloc]
        generalize hw' : ({ next := w.next + 1, alive := upd (upd w.alive w.next (some v)) id (some none), count := w.count, slots := w.slots } : World V) = w'
        have hn : w'.next = w.next + 1 := by rw [← hw']
        have ha : ∀ k, w'.alive k = if k = id then some none else if k = w.next then some v else w.alive k := by
          intro k; rw [← hw']; rfl
        have hc : w'.count = w.count := by rw [← hw']
        have hsl : w'.slots = w.slots := by rw [← hw']
        have ht : ∀ k, ((w'.setSlot src (some ⟨some .sso, .inl id⟩)).setSlot dst (some ⟨some .sso, .inl w.next⟩)).tgt k =
            if k = dst then some w.next else w.tgt k := by
          intro k; rw [tgt_setSlot, tgt_setSlot]
          by_cases h1 : k = dst
          · simp [h1, Slot.target]
          · by_cases h2 : k = src
            · subst h2; simp [h1, htgt, Slot.target]
            · simp [h1, h2, World.tgt, hsl]
        have hfresh : w.alive w.next = none := by
          cases e : w.alive w.next with
          | none => rfl
          | some x => have := h.lt w.next (by simp [e]); omega
        have hnofresh : ∀ j, w.tgt j ≠ some w.next := by
          intro j e
          have := (h.alive w.next).2 ⟨j, e⟩
          rw [hfresh] at this; simp at this
        constructor
        · intro j t hj
          simp only [World.setSlot, upd, hsl] at hj
          split_ifs at hj
          · cases hj; simp [Slot.Wf]
          · cases hj; simp [Slot.Wf]
          · exact h.wf j t hj
        · intro i j k h1 h2
          rw [ht] at h1 h2
          split_ifs at h1 h2 with c1 c2 c2
          · rw [c1, c2]
          · cases h1; exact absurd h2 (hnofresh j)
          · cases h2; exact absurd h1 (hnofresh i)
          · exact h.inj i j k h1 h2
        · intro k
          show (w'.alive k).isSome ↔ _
          rw [ha]
          constructor
          · intro hk
            by_cases c1 : k = id
            · subst c1; exact ⟨src, by rw [ht, if_neg (Ne.symm hne), htgt]; rfl⟩
            · by_cases c2 : k = w.next
              · exact ⟨dst, by rw [ht, if_pos rfl, c2]⟩
              · simp only [c1, c2, if_false] at hk
                obtain ⟨j, hj⟩ := (h.alive k).1 hk
                refine ⟨j, ?_⟩
                rw [ht, if_neg]; · exact hj
                rintro rfl; rw [htd] at hj; simp at hj
          · rintro ⟨j, hj⟩
            rw [ht] at hj
            split_ifs at hj with c
            · cases hj; simp [Ne.symm hlne]
            · have := (h.alive k).2 ⟨j, hj⟩
              split_ifs <;> simp_all
        · intro k hk
          show k < w'.next
          have hk : (w'.alive k).isSome := hk
          rw [ha] at hk
          rw [hn]
          split_ifs at hk with c1 c2
          · omega
          · omega
          · have := h.lt k hk; omega
        · intro k
          show w'.count k = if k < w'.next ∧ w'.alive k = none then 1 else 0
          rw [hc, h.cnt, hn, ha]
          by_cases c1 : k = id
          · subst c1; simp [hv]
          · by_cases c2 : k = w.next
            · subst c2; simp [c1]
            · have : (k < w.next ↔ k < w.next + 1) := by omega
              simp only [c1, c2, if_false, this]
      · intro x hx
        simp only [invoke] at hx
        rw [hv] at hx
        cases hx
        simp only [World.alloc, invoke]
        rw [upd_ne _ _ (Ne.symm hlne), upd_same]
      · intro k hk hlk
        simp only [World.alloc]
        rw [upd_ne _ _ (hk id (by rw [htgt]; rfl)), upd_ne _ _ (by omega)]
    · rename_i p
      refine ⟨(⟨some .heap, .ptr p⟩, ⟨some .heap, .ptr none⟩, w), rfl, ?_, rfl, fun v hv => hv, fun _ _ _ => rfl⟩
      have htp : w.tgt src = p := by rw [htgt]; rfl
      have ht : ∀ k, ((w.setSlot src (some ⟨some .heap, .ptr none⟩)).setSlot dst (some ⟨some .heap, .ptr p⟩)).tgt k =
          if k = dst then p else if k = src then none else w.tgt k := by
        intro k; rw [tgt_setSlot, tgt_setSlot]; rfl
      constructor
      · intro j t hj
        simp only [World.setSlot, upd] at hj
        split_ifs at hj
        · cases hj; simp [Slot.Wf]
        · cases hj; simp [Slot.Wf]
        · exact h.wf j t hj
      · intro i j id h1 h2
        rw [ht] at h1 h2
        by_cases c1 : i = dst
        · by_cases c2 : j = dst
          · rw [c1, c2]
          · rw [if_neg c2] at h2
            rw [if_pos c1] at h1
            split_ifs at h2 with c3
            exact absurd (h.inj j src id h2 (by rw [htp, h1])) c3
        · rw [if_neg c1] at h1
          split_ifs at h1 with c3
          by_cases c2 : j = dst
          · rw [if_pos c2] at h2
            exact absurd (h.inj i src id h1 (by rw [htp, h2])) c3
          · rw [if_neg c2] at h2
            split_ifs at h2
            exact h.inj i j id h1 h2
      · intro id
        show (w.alive id).isSome ↔ _
        rw [h.alive]
        constructor
        · rintro ⟨j, hj⟩
          by_cases c : j = src
          · subst c; exact ⟨dst, by rw [ht, if_pos rfl, ← htp, hj]⟩
          · refine ⟨j, ?_⟩
            rw [ht, if_neg, if_neg c]; · exact hj
            rintro rfl; rw [htd] at hj; simp at hj
        · rintro ⟨j, hj⟩
          rw [ht] at hj
          split_ifs at hj
          · exact ⟨src, by rw [htp, hj]⟩
          · exact ⟨j, hj⟩
      · exact h.lt
      · exact h.cnt

theorem moveImpl_congr_slots (self s : Slot) (w : World V) (f : Nat → Option Slot) :
    moveImpl self s { w with slots := f } = (moveImpl self s w).map fun r => (r.1, r.2.1, { r.2.2 with slots := f }) := by
  obtain ⟨sp, b⟩ := s
  cases sp with
  | none => rfl
  | some k =>
    cases k <;> cases b <;> try rfl
    rename_i id
    simp only [moveImpl]
    cases w.alive id <;> rfl

theorem step_spec {w : World V} (h : Inv w) (op : Op V) : step w op = .misuse ∨ ∃ w', step w op = .ok w' ∧ Inv w' := by
  cases op with
  | mkEmpty i =>
    simp only [step]
    cases hi : w.slots i with
    | some _ => exact Or.inl rfl
    | none =>
      refine Or.inr ⟨_, rfl, ?_⟩
      have hti : w.tgt i = none := by simp [World.tgt, hi]
      have ht : ∀ k, (w.setSlot i (some ⟨none, .raw⟩)).tgt k = w.tgt k := by
        intro k; rw [tgt_setSlot]; by_cases hk : k = i
        · subst hk; simp [hti, Slot.target]
        · simp [hk]
      constructor
      · intro j t hj
        simp only [World.setSlot, upd] at hj
        split_ifs at hj
        · cases hj; simp [Slot.Wf]
        · exact h.wf j t hj
      · intro i j id; rw [ht, ht]; exact h.inj i j id
      · intro id; simp only [ht]; exact h.alive id
      · exact h.lt
      · exact h.cnt
  | mk i k v =>
    simp only [step]
    cases hi : w.slots i with
    | some _ => exact Or.inl rfl
    | none =>
      refine Or.inr ⟨_, rfl, ?_⟩
      have hti : w.tgt i = none := by simp [World.tgt, hi]
      have hfresh : w.alive w.next = none := by
        cases e : w.alive w.next with
        | none => rfl
        | some x => have := h.lt w.next (by simp [e]); omega
      have hnofresh : ∀ j, w.tgt j ≠ some w.next := by
        intro j e
        have := (h.alive w.next).2 ⟨j, e⟩
        rw [hfresh] at this; simp at this
      have ht : ∀ j, ((mkSlot k v w).2.setSlot i (some (mkSlot k v w).1)).tgt j = if j = i then some w.next else w.tgt j := by
        intro j; rw [tgt_setSlot]; cases k <;> rfl
      have ha : ∀ j, ((mkSlot k v w).2.setSlot i (some (mkSlot k v w).1)).alive j = if j = w.next then some (some v) else w.alive j := by
        intro j; rfl
      constructor
      · intro j t hj
        simp only [World.setSlot, upd] at hj
        split_ifs at hj
        · cases hj; cases k <;> simp [Slot.Wf, mkSlot]
        · exact h.wf j t hj
      · intro a b id h1 h2
        rw [ht] at h1 h2
        split_ifs at h1 h2 with c1 c2 c2
        · rw [c1, c2]
        · cases h1; exact absurd h2 (hnofresh b)
        · cases h2; exact absurd h1 (hnofresh a)
        · exact h.inj a b id h1 h2
      · intro id
        rw [ha]
        constructor
        · intro hid
          by_cases c : id = w.next
          · exact ⟨i, by rw [ht, if_pos rfl, c]⟩
          · rw [if_neg c] at hid
            obtain ⟨j, hj⟩ := (h.alive id).1 hid
            refine ⟨j, ?_⟩
            rw [ht, if_neg]; · exact hj
            rintro rfl; rw [hti] at hj; simp at hj
        · rintro ⟨j, hj⟩
          rw [ht] at hj
          split_ifs at hj
          · cases hj; simp
          · have := (h.alive id).2 ⟨j, hj⟩
            split_ifs <;> simp_all
      · intro id hid
        rw [ha] at hid
        show id < w.next + 1
        split_ifs at hid with c
        · omega
        · have := h.lt id hid; omega
      · intro id
        show w.count id = if id < w.next + 1 ∧ _ = none then 1 else 0
        rw [ha, h.cnt]
        by_cases c : id = w.next
        · subst c; simp
        · have : (id < w.next ↔ id < w.next + 1) := by omega
          simp only [c, if_false, this]
  | moveCtor dst src =>
    simp only [step]
    cases hd : w.slots dst with
    | some _ => exact Or.inl rfl
    | none =>
      cases hs : w.slots src with
      | none => exact Or.inl rfl
      | some s =>
        obtain ⟨r, e, hi, _⟩ := move_spec h ⟨none, .raw⟩ hs hd
        exact Or.inr ⟨_, by simp only [e, Option.map_some, Out.ofOption], hi⟩
  | moveAssign dst src =>
    simp only [step]
    cases hd : w.slots dst with
    | none => exact Or.inl rfl
    | some d =>
      cases hs : w.slots src with
      | none => exact Or.inl rfl
      | some s =>
        simp only
        by_cases hne : dst = src
        · exact Or.inr ⟨w, by simp [hne], h⟩
        · rw [if_neg hne]
          obtain ⟨w1, e1, hsl, hn, ha, hc, hi⟩ := dtor_spec h hd
          have hs' : (w1.setSlot dst none).slots src = some s := by
            simp [World.setSlot, upd, hsl, Ne.symm hne, hs]
          have hd' : (w1.setSlot dst none).slots dst = none := by simp [World.setSlot, upd]
          obtain ⟨r, e2, hi2, _⟩ := move_spec hi d hs' hd'
          have e3 := moveImpl_congr_slots d s w1 (upd w1.slots dst none)
          rw [show ({ w1 with slots := upd w1.slots dst none } : World V) = w1.setSlot dst none from rfl, e2] at e3
          cases e4 : moveImpl d s w1 with
          | none => rw [e4] at e3; simp at e3
          | some r' =>
            rw [e4] at e3
            simp only [Option.map_some, Option.some.injEq] at e3
            refine Or.inr ⟨(r'.2.2.setSlot src (some r'.2.1)).setSlot dst (some r'.1), by simp only [assignImpl, e1, Option.bind_some, e4, Option.map_some, Out.ofOption], ?_⟩
            have hslr : r'.2.2.slots = w1.slots := by
              unfold moveImpl at e4
              split at e4 <;> try (cases e4; rfl)
              · split at e4
                · simp at e4
                · cases e4; rfl
              · simp at e4
            have hw : (r'.2.2.setSlot src (some r'.2.1)).setSlot dst (some r'.1) = (r.2.2.setSlot src (some r.2.1)).setSlot dst (some r.1) := by
              subst e3
              simp only [World.setSlot, World.mk.injEq, true_and]
              funext k
              simp only [upd, hslr]
              by_cases c1 : k = dst
              · simp [c1]
              · simp [c1]
            rw [hw]; exact hi2
  | destroy i =>
    simp only [step]
    cases hi : w.slots i with
    | none => exact Or.inl rfl
    | some s =>
      obtain ⟨w', e, _, _, _, _, hinv⟩ := dtor_spec h hi
      exact Or.inr ⟨_, by simp only [e, Option.map_some, Out.ofOption], hinv⟩

theorem run_spec (ops : List (Op V)) : ∀ {w : World V}, Inv w → run w ops = .misuse ∨ ∃ w', run w ops = .ok w' ∧ Inv w' := by
  induction ops with
  | nil => intro w h; exact Or.inr ⟨w, rfl, h⟩
  | cons op ops ih =>
    intro w h
    rcases step_spec h op with e | ⟨w', e, h'⟩
    · left; simp [run, e]
    · rcases ih h' with e' | ⟨w'', e', h''⟩
      · left; simp [run, e, e']
      · right; exact ⟨w'', by simp [run, e, e'], h''⟩

/-- **C18** (no undefined behaviour): no sequence of constructions, moves, assignments (also to
itself) and destructions of overload objects that respects object lifetimes makes the class touch a
dead target. -/
theorem C18_no_undefined_behaviour (ops : List (Op V)) :
    (match run World.init ops with | .ub => False | _ => True) := by
  rcases run_spec ops (Inv.init (V := V)) with e | ⟨w', e, _⟩ <;> simp [e]

/-- **C18** (exactly once): at every point each target ever created is either alive, undestroyed and
inside exactly one overload object, or has been destroyed exactly once. -/
theorem C18_destroyed_once (ops : List (Op V)) (w : World V) (hr : run World.init ops = .ok w) (id : Nat) (hid : id < w.next) :
    ((w.alive id).isSome ∧ w.count id = 0 ∧ ∃ i s, w.slots i = some s ∧ s.target = some id ∧
        ∀ j t, w.slots j = some t → t.target = some id → j = i) ∨
    (w.alive id = none ∧ w.count id = 1 ∧ ∀ i s, w.slots i = some s → s.target ≠ some id) := by
  have h : Inv w := by
    rcases run_spec ops (Inv.init (V := V)) with e | ⟨w', e, hi⟩
    · rw [e] at hr; cases hr
    · rw [e] at hr; cases hr; exact hi
  by_cases ha : (w.alive id).isSome
  · left
    obtain ⟨i, hi⟩ := (h.alive id).1 ha
    have hne : ¬ w.alive id = none := by intro e; rw [e] at ha; simp at ha
    refine ⟨ha, by rw [h.cnt]; simp [hne], ?_⟩
    cases hs : w.slots i with
    | none => simp [World.tgt, hs] at hi
    | some s =>
      refine ⟨i, s, hs, by simpa [World.tgt, hs] using hi, fun j t hj ht => ?_⟩
      exact h.inj j i id (by simp [World.tgt, hj, ht]) hi
  · right
    have ha' : w.alive id = none := by simpa using ha
    refine ⟨ha', by rw [h.cnt]; simp [ha', hid], fun i s hs e => ha ((h.alive id).2 ⟨i, by simp [World.tgt, hs, e]⟩)⟩

/-- **C18** (no leaks): once all overload objects are gone every target has been destroyed exactly once. -/
theorem C18_no_leak (ops : List (Op V)) (w : World V) (hr : run World.init ops = .ok w)
    (hdone : ∀ i, w.slots i = none) : ∀ id, id < w.next → w.alive id = none ∧ w.count id = 1 := by
  intro id hid
  rcases C18_destroyed_once ops w hr id hid with ⟨_, _, i, s, hs, _⟩ | ⟨h1, h2, _⟩
  · rw [hdone i] at hs; simp at hs
  · exact ⟨h1, h2⟩

/-- What the program may expect of each overload object: `none` no object, `some none` an object
that is empty or moved from, `some (some v)` an object that behaves like `v`. -/
def abs : (Nat → Option (Option V)) → Op V → (Nat → Option (Option V))
  | f, .mkEmpty i => upd f i (some none)
  | f, .mk i _ v => upd f i (some (some v))
  | f, .moveCtor dst src => upd (upd f src (some none)) dst (f src)
  | f, .moveAssign dst src => if dst = src then f else upd (upd f src (some none)) dst (f src)
  | f, .destroy i => upd f i none

/-- The concrete world behaves as expected: invoking an object that should hold `v` runs `v`. -/
def Agrees (f : Nat → Option (Option V)) (w : World V) : Prop :=
  (∀ i, (f i).isSome ↔ (w.slots i).isSome) ∧
  ∀ i v s, f i = some (some v) → w.slots i = some s → invoke w s = some (some v) ∧ s.toBool = true

theorem invoke_target {w : World V} {s : Slot} {v : Option V} (h : invoke w s = some v) : ∃ id, s.target = some id ∧ w.alive id = some v := by
  unfold invoke at h
  split at h
  · rename_i id h1 h2; exact ⟨id, by simp [Slot.target, h1, h2], h⟩
  · rename_i id h1 h2; exact ⟨id, by simp [Slot.target, h1, h2], h⟩
  · simp at h

theorem invoke_congr {w w' : World V} {s : Slot} {v : Option V} (h : invoke w s = some v)
    (ha : ∀ id, s.target = some id → w'.alive id = w.alive id) : invoke w' s = some v := by
  obtain ⟨id, ht, _⟩ := invoke_target h
  have := ha id ht
  unfold invoke at h ⊢
  split at h
  · rename_i id' h1 h2; simp [Slot.target, h1, h2] at ht; subst ht; rw [this]; exact h
  · rename_i id' h1 h2; simp [Slot.target, h1, h2] at ht; subst ht; rw [this]; exact h
  · simp at h

theorem toBool_of_invoke {w : World V} {s : Slot} {v : Option V} (h : invoke w s = some v) : s.toBool = true := by
  unfold invoke at h
  split at h
  · rename_i h1 _; simp [Slot.toBool, h1]
  · rename_i h1 _; simp [Slot.toBool, h1]
  · simp at h

theorem step_agrees {f : Nat → Option (Option V)} {w w' : World V} (h : Inv w) (hag : Agrees f w) (op : Op V)
    (hs : step w op = .ok w') : Agrees (abs f op) w' := by
  obtain ⟨hd, hv⟩ := hag
  cases op with
  | mkEmpty i =>
    simp only [step] at hs
    split at hs
    · cases hs
    cases hs
    refine ⟨fun k => ?_, fun k v s hk hsk => ?_⟩
    · simp only [abs, upd, World.setSlot]; split_ifs <;> simp [hd]
    · simp only [abs, upd, World.setSlot] at hk hsk
      split_ifs at hk hsk
      · cases hk
      · exact ⟨(hv k v s hk hsk).1, (hv k v s hk hsk).2⟩
  | mk i kd v =>
    simp only [step] at hs
    split at hs
    · cases hs
    cases hs
    refine ⟨fun k => ?_, fun k x s hk hsk => ?_⟩
    · simp only [abs, upd, World.setSlot]
      split_ifs
      · simp
      · exact hd k
    · simp only [abs, upd, World.setSlot] at hk hsk
      split_ifs at hk hsk
      · cases hk; cases hsk
        cases kd <;> simp [invoke, mkSlot, World.alloc, World.setSlot, upd, Slot.toBool]
      · have hsk : w.slots k = some s := hsk
        obtain ⟨h1, h2⟩ := hv k x s hk hsk
        refine ⟨invoke_congr h1 fun id hid => ?_, h2⟩
        have := h.lt id ((h.alive id).2 ⟨k, by simp only [World.tgt, hsk, Option.bind_some, hid]⟩)
        exact upd_ne _ _ (by omega)
  | moveCtor dst src =>
    simp only [step] at hs
    cases hdst : w.slots dst with
    | some _ => rw [hdst] at hs; cases hs
    | none =>
      cases hsrc : w.slots src with
      | none => rw [hdst, hsrc] at hs; cases hs
      | some s =>
        rw [hdst, hsrc] at hs
        obtain ⟨r, e, hinv, hsl, hmv, hal⟩ := move_spec h ⟨none, .raw⟩ hsrc hdst
        simp only [e, Option.map_some, Out.ofOption] at hs
        cases hs
        refine ⟨fun k => ?_, fun k x t hk hsk => ?_⟩
        · have h1 := hd src
          simp only [abs, upd, World.setSlot, hsl]
          split_ifs
          · simp [h1, hsrc]
          · simp
          · exact hd k
        · simp only [abs, upd, World.setSlot, hsl] at hk hsk
          split_ifs at hk hsk with c1 c2
          · cases hsk
            have := hmv x (hv src x s hk hsrc).1
            exact ⟨this, toBool_of_invoke this⟩
          · cases hk
          · obtain ⟨a, b⟩ := hv k x t hk hsk
            refine ⟨invoke_congr a fun id hid => ?_, b⟩
            have htk : w.tgt k = some id := by simp only [World.tgt, hsk, Option.bind_some, hid]
            exact hal id (fun id' h' e' => c2 (h.inj k src id htk (e' ▸ h'))) (h.lt id ((h.alive id).2 ⟨k, htk⟩))
  | moveAssign dst src =>
    simp only [step] at hs
    cases hdst : w.slots dst with
    | none => rw [hdst] at hs; cases hs
    | some d =>
      cases hsrc : w.slots src with
      | none => rw [hdst, hsrc] at hs; cases hs
      | some s =>
        rw [hdst, hsrc] at hs
        simp only at hs
        by_cases hne : dst = src
        · rw [if_pos hne] at hs; cases hs
          simp only [abs, hne, if_true]; exact ⟨hd, hv⟩
        · rw [if_neg hne] at hs
          simp only [abs, hne, if_false]
          obtain ⟨w1, e1, hsl1, hn1, ha1, hc1, hi1⟩ := dtor_spec h hdst
          have hs' : (w1.setSlot dst none).slots src = some s := by
            simp [World.setSlot, upd, hsl1, Ne.symm hne, hsrc]
          have hd' : (w1.setSlot dst none).slots dst = none := by simp [World.setSlot, upd]
          obtain ⟨r, e2, hi2, hsl2, hmv, hal⟩ := move_spec hi1 d hs' hd'
          have e3 := moveImpl_congr_slots d s w1 (upd w1.slots dst none)
          rw [show ({ w1 with slots := upd w1.slots dst none } : World V) = w1.setSlot dst none from rfl, e2] at e3
          cases e4 : moveImpl d s w1 with
          | none => rw [e4] at e3; simp at e3
          | some r' =>
            rw [e4] at e3
            simp only [Option.map_some, Option.some.injEq] at e3
            simp only [assignImpl, e1, Option.bind_some, e4, Option.map_some, Out.ofOption] at hs
            cases hs
            have hslr : r'.2.2.slots = w.slots := by
              rw [← hsl1]
              unfold moveImpl at e4
              split at e4 <;> try (cases e4; rfl)
              · split at e4
                · simp at e4
                · cases e4; rfl
              · simp at e4
            have har : ∀ k, r'.2.2.alive k = r.2.2.alive k := by intro k; rw [e3]
            have hr1 : r'.1 = r.1 := by rw [e3]
            have hr2 : r'.2.1 = r.2.1 := by rw [e3]
            have hdt : w.tgt dst = d.target := by simp [World.tgt, hdst]
            refine ⟨fun k => ?_, fun k x t hk hsk => ?_⟩
            · have h1 := hd src
              simp only [upd, World.setSlot, hslr]
              split_ifs
              · simp [h1, hsrc]
              · simp
              · exact hd k
            · simp only [upd, World.setSlot, hslr] at hk hsk
              split_ifs at hk hsk with c1 c2
              · cases hsk
                have a0 := (hv src x s hk hsrc).1
                have a1 : invoke (w1.setSlot dst none) s = some (some x) := invoke_congr a0 fun id hid => by
                  show w1.alive id = w.alive id
                  rw [ha1, if_neg]
                  intro hdi
                  exact hne (h.inj dst src id (by rw [hdt, hdi]) (by simp [World.tgt, hsrc, hid]))
                have := hmv x a1
                rw [← hr1] at this
                refine ⟨invoke_congr this fun id hid => ?_, toBool_of_invoke this⟩
                exact har id
              · cases hk
              · obtain ⟨a, b⟩ := hv k x t hk hsk
                refine ⟨invoke_congr a fun id hid => ?_, b⟩
                have htk : w.tgt k = some id := by simp only [World.tgt, hsk, Option.bind_some, hid]
                have hlt := h.lt id ((h.alive id).2 ⟨k, htk⟩)
                show r'.2.2.alive id = w.alive id
                rw [har, hal id]
                · show w1.alive id = w.alive id
                  rw [ha1, if_neg]
                  intro hdi
                  exact c1 (h.inj k dst id htk (by rw [hdt, hdi]))
                · intro id' h' e'
                  have h'' : w.tgt src = some id' := by
                    rw [tgt_setSlot, if_neg (Ne.symm hne)] at h'
                    simpa [World.tgt, hsl1] using h'
                  exact c2 (h.inj k src id htk (e' ▸ h''))
                · show id < w1.next
                  omega
  | destroy i =>
    simp only [step] at hs
    cases hi : w.slots i with
    | none => rw [hi] at hs; cases hs
    | some s =>
      rw [hi] at hs
      obtain ⟨w1, e, hsl, hn, ha, hc, hinv⟩ := dtor_spec h hi
      simp only [e, Option.map_some, Out.ofOption] at hs
      cases hs
      refine ⟨fun k => ?_, fun k x t hk hsk => ?_⟩
      · simp only [abs, upd, World.setSlot, hsl]
        split_ifs
        · simp
        · exact hd k
      · simp only [abs, upd, World.setSlot, hsl] at hk hsk
        split_ifs at hk hsk with c1
        obtain ⟨a, b⟩ := hv k x t hk hsk
        refine ⟨invoke_congr a fun id hid => ?_, b⟩
        show w1.alive id = w.alive id
        rw [ha, if_neg]
        intro hdi
        exact c1 (h.inj k i id (by simp only [World.tgt, hsk, Option.bind_some, hid]) (by simp only [World.tgt, hi, Option.bind_some, hdi]))

theorem run_agrees (ops : List (Op V)) : ∀ {f : Nat → Option (Option V)} {w w' : World V}, Inv w → Agrees f w →
    run w ops = .ok w' → Agrees (ops.foldl abs f) w' := by
  induction ops with
  | nil => intro f w w' _ h e; cases e; exact h
  | cons op ops ih =>
    intro f w w' hi ha e
    rcases step_spec hi op with e1 | ⟨w1, e1, hi1⟩
    · rw [run, e1] at e; cases e
    · rw [run, e1] at e
      exact ih hi1 (step_agrees hi ha op e1) e

/-- **C18** (never used after destruction, right callable): after any history, invoking an overload
object that has been given a callable — directly or through any chain of moves — and not been moved
from since, runs exactly that callable, which is alive. -/
theorem C18_invoke (ops : List (Op V)) (w : World V) (hr : run World.init ops = .ok w) (i : Nat) (v : V) (s : Slot)
    (hs : w.slots i = some s) (hi : (ops.foldl abs fun _ => none) i = some (some v)) :
    invoke w s = some (some v) ∧ s.toBool = true := by
  have := run_agrees ops Inv.init (f := fun _ => none) ⟨fun i => by simp [World.init], fun i v s h => by simp at h⟩ hr
  exact this.2 i v s hi hs

/-- A history mixing both storage kinds. -/
def exOps : List (Op Nat) :=
  [.mk 0 .sso 10, .mk 1 .heap 11, .moveCtor 2 0, .moveAssign 0 1, .moveAssign 0 0, .mkEmpty 3, .moveAssign 3 2]

example : (match run World.init exOps with
    | .ok w => decide (w.next = 4) && ((w.slots 0).bind (invoke w) == some (some 11)) && ((w.slots 3).bind (invoke w) == some (some 10))
    | _ => false) = true := by decide

/-- Side finding: `operator bool` still answers true after the object was moved from, although
invoking it (heap target) dereferences a null pointer. -/
theorem C18_bool_after_move_violated :
    ∃ (w : World Nat) (s : Slot), run World.init [.mk 0 .heap 7, .moveCtor 1 0] = .ok w ∧ w.slots 0 = some s ∧
      s.toBool = true ∧ invoke w s = none :=
  ⟨_, ⟨some .heap, .ptr none⟩, rfl, rfl, rfl, rfl⟩

end Verif.Erased
