import Mathlib.Order.Basic
import Mathlib.Data.List.Basic
/-!
# `std::map` with integer keys

An ordered association list with `operator[]`-style update, kept sorted by key (iteration order
of `std::map`).
-/
namespace Verif.OMap

/-- `m[k]` followed by an in-place modification: `f none` for a new entry, `f (some v)` for an
existing one. -/
def upd {β} (m : List (Nat × β)) (k : Nat) (f : Option β → β) : List (Nat × β) :=
  match m with
  | [] => [(k, f none)]
  | (k', v) :: m' =>
    if k < k' then (k, f none) :: (k', v) :: m'
    else if k = k' then (k, f (some v)) :: m'
    else (k', v) :: upd m' k f

/-- Keys are strictly increasing. -/
def Sorted {β} (m : List (Nat × β)) : Prop := m.Pairwise fun a b => a.1 < b.1

theorem mem_keys_upd {β} (m : List (Nat × β)) (k : Nat) (f : Option β → β) (x : Nat) :
    x ∈ (upd m k f).map (·.1) ↔ x = k ∨ x ∈ m.map (·.1) := by
  induction m with
  | nil => simp [upd]
  | cons p m ih =>
    obtain ⟨k', v⟩ := p
    simp only [upd]
    split
    · simp
    · split
      · subst_vars; simp
      · simp only [List.map_cons, List.mem_cons, ih]
        tauto

theorem sorted_upd {β} {m : List (Nat × β)} (h : Sorted m) (k : Nat) (f : Option β → β) :
    Sorted (upd m k f) := by
  induction m with
  | nil => simp [upd, Sorted]
  | cons p m ih =>
    obtain ⟨k', v⟩ := p
    unfold Sorted at h ⊢
    have h' := h
    rw [List.pairwise_cons] at h
    simp only [upd]
    split
    · rename_i hk
      rw [List.pairwise_cons]
      refine ⟨fun b hb => ?_, h'⟩
      rcases List.mem_cons.1 hb with rfl | hb
      · exact hk
      · exact Nat.lt_trans hk (h.1 b hb)
    · split
      · subst_vars
        rw [List.pairwise_cons]
        exact h
      · rw [List.pairwise_cons]
        refine ⟨fun b hb => ?_, ih h.2⟩
        have : b.1 ∈ (upd m k f).map (·.1) := List.mem_map_of_mem hb
        rw [mem_keys_upd] at this
        rcases this with e | hm
        · rw [e]; show k' < k; omega
        · obtain ⟨c, hc, e⟩ := List.mem_map.1 hm
          rw [← e]; exact h.1 c hc

theorem lookup_none_of_lt {β} {m : List (Nat × β)} (k : Nat) (h : ∀ p ∈ m, k < p.1) : m.lookup k = none := by
  induction m with
  | nil => rfl
  | cons p m ih =>
    obtain ⟨k', v⟩ := p
    rw [List.lookup_cons]
    have : (k == k') = false := by
      have := h (k', v) (by simp)
      simp at this ⊢; omega
    rw [this]; exact ih fun q hq => h q (by simp [hq])

theorem lookup_upd {β} {m : List (Nat × β)} (h : Sorted m) (k : Nat) (f : Option β → β) (x : Nat) :
    (upd m k f).lookup x = if x = k then some (f (m.lookup k)) else m.lookup x := by
  induction m with
  | nil =>
    simp only [upd, List.lookup_cons, List.lookup_nil]
    by_cases hx : x = k
    · simp [hx]
    · have : (x == k) = false := by simpa using hx
      simp [this, hx]
  | cons p m ih =>
    obtain ⟨k', v⟩ := p
    have hs := List.pairwise_cons.1 h
    simp only [upd]
    split
    · rename_i hk
      rw [List.lookup_cons]
      by_cases hx : x = k
      · subst hx
        have : List.lookup x ((k', v) :: m) = none := by
          apply lookup_none_of_lt
          intro q hq
          rcases List.mem_cons.1 hq with rfl | hq
          · exact hk
          · exact Nat.lt_trans hk (hs.1 q hq)
        simp [this]
      · have : (x == k) = false := by simpa using hx
        simp [this, hx]
    · split
      · subst_vars
        simp only [List.lookup_cons]
        by_cases hx : x = k'
        · subst hx; simp
        · have : (x == k') = false := by simpa using hx
          simp [this, hx]
      · rename_i h1 h2
        simp only [List.lookup_cons]
        have hk : (k == k') = false := by simpa using h2
        rw [hk]
        by_cases hx : x = k'
        · subst hx
          have : ¬ x = k := fun e => h2 e.symm
          simp [this]
        · have : (x == k') = false := by simpa using hx
          simp only [this]
          exact ih hs.2

theorem lookup_isSome_iff {β} (m : List (Nat × β)) (k : Nat) : (m.lookup k).isSome ↔ k ∈ m.map (·.1) := by
  induction m with
  | nil => simp
  | cons p m ih =>
    obtain ⟨k', v⟩ := p
    rw [List.lookup_cons]
    by_cases h : k = k'
    · subst h; simp
    · have : (k == k') = false := by simpa using h
      rw [this]; simp [ih, h]

theorem mem_iff_lookup {β} {m : List (Nat × β)} (h : Sorted m) (k : Nat) (v : β) :
    (k, v) ∈ m ↔ m.lookup k = some v := by
  induction m with
  | nil => simp
  | cons p m ih =>
    obtain ⟨k', v'⟩ := p
    have hs := List.pairwise_cons.1 h
    rw [List.lookup_cons, List.mem_cons]
    by_cases hk : k = k'
    · subst hk
      simp only [beq_self_eq_true, Prod.mk.injEq, true_and, Option.some.injEq]
      constructor
      · rintro (e | hm)
        · exact e.symm
        · exact absurd (hs.1 _ hm) (by simp)
      · intro e; exact .inl e.symm
    · have : (k == k') = false := by simpa using hk
      rw [this, ← ih hs.2]
      simp [hk]

end Verif.OMap
