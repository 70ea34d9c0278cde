import Verif.Dofs.Model
import Verif.Permute.Props
import Verif.NativeIO.Lemmas

/-! # Property C39: numbering of degrees of freedom -/
namespace Verif.Dofs
open Verif Verif.Own

/-- Node `n` belongs to rank `r`, as owned or as ghost node of its mesh part. -/
def Setup.Knows (s : Setup) (r n : Nat) : Prop := s.owns r n = true ∨ n ∈ s.ghosts r

/-- Consistent input: ghosts exist and are not owned, elements refer to local nodes and existing components, periodic
information is kept by the owner, refers to nodes known to it, and representatives are not redirected. -/
structure Setup.Ok (s : Setup) : Prop where
  ghosts : ∀ r < s.counts.length, (s.ghosts r ++ s.pghosts r).Nodup ∧ ∀ n ∈ s.ghosts r ++ s.pghosts r, n < s.counts.sum ∧ s.owns r n = false
  visits : ∀ r < s.counts.length, ∀ v ∈ s.visits r, (∀ n ∈ v.nodes, s.Knows r n) ∧ ∀ j ∈ v.active, j < s.dpn
  keys : ∀ r < s.counts.length, ((s.per r).map (·.1)).Nodup ∧ ∀ e ∈ s.per r, s.owns r e.1 = true ∧ e.2.length = s.dpn
  target : ∀ r < s.counts.length, ∀ n j a, s.lookup r n j = some a → s.owns r a = true ∨ a ∈ s.ghosts r ++ s.pghosts r
  root : ∀ r < s.counts.length, ∀ n j a, s.lookup r n j = some a → s.lookup (s.owner a) a j = none

/-- The node whose numbers node `n` uses in component `j`. -/
def Setup.rep (s : Setup) (n j : Nat) : Nat := (s.lookup (s.owner n) n j).getD n

/-- Total number of degrees of freedom. -/
def Setup.total (s : Setup) : Nat := ((List.range s.counts.length).map s.numOwned).sum

/-! ### Numbering one rank -/

theorem number_keys {α : Type} (v : α → Bool) : ∀ (l : List α) (b : Nat), (number v b l).map (·.1) = l
  | [], _ => rfl
  | a :: l, b => by
    unfold number
    split <;> simp [number_keys v l]

theorem number_spec {α : Type} [BEq α] [LawfulBEq α] (v : α → Bool) : ∀ (l : List α) (b : Nat), l.Nodup → ∀ a k,
    ((number v b l).lookup a).join = some k ↔ b ≤ k ∧ (l.filter v)[k - b]? = some a
  | [], b, _, a, k => by simp [number]
  | x :: l, b, hnd, a, k => by
    have hx := (List.nodup_cons.1 hnd).1
    have ih := fun b => number_spec v l b (List.nodup_cons.1 hnd).2 a k
    unfold number
    have hdec : Decidable (a = x) := decidable_of_iff ((a == x) = true) beq_iff_eq
    by_cases hv : v x
    · rw [if_pos hv, List.filter_cons_of_pos hv, List.lookup_cons]
      by_cases ha : a = x
      · subst ha
        simp only [beq_self_eq_true, Option.join_some, Option.some.injEq]
        constructor
        · rintro rfl; exact ⟨le_refl _, by simp⟩
        · rintro ⟨h1, h2⟩
          by_cases h3 : k - b = 0
          · omega
          · obtain ⟨m, hm⟩ := Nat.exists_eq_succ_of_ne_zero h3
            rw [hm, List.getElem?_cons_succ] at h2
            exact absurd (List.mem_of_mem_filter (List.mem_of_getElem? h2)) hx
      · rw [show (a == x) = false by simpa using ha]
        simp only
        rw [ih (b + 1)]
        constructor
        · rintro ⟨h1, h2⟩
          refine ⟨by omega, ?_⟩
          rw [show k - b = (k - (b + 1)) + 1 by omega, List.getElem?_cons_succ]; exact h2
        · rintro ⟨h1, h2⟩
          by_cases h3 : k - b = 0
          · rw [h3] at h2; simp only [List.getElem?_cons_zero, Option.some.injEq] at h2; exact absurd h2.symm ha
          · refine ⟨by omega, ?_⟩
            rw [show k - b = (k - (b + 1)) + 1 by omega, List.getElem?_cons_succ] at h2; exact h2
    · rw [if_neg hv, List.filter_cons_of_neg hv, List.lookup_cons]
      by_cases ha : a = x
      · subst ha
        simp only [beq_self_eq_true, Option.join_some]
        constructor
        · intro h; simp at h
        · rintro ⟨_, h2⟩
          have := (List.mem_filter.1 (List.mem_of_getElem? h2)).2
          exact absurd this hv
      · rw [show (a == x) = false by simpa using ha]
        exact ih b

theorem foldl_count {α : Type} (v : α → Bool) (l : List α) : ∀ a, l.foldl (fun a p => a + if v p then 1 else 0) a = a + (l.filter v).length := by
  induction l with
  | nil => simp
  | cons x l ih =>
    intro a
    rw [List.foldl_cons, ih]
    by_cases h : v x
    · rw [if_pos h, List.filter_cons_of_pos h, List.length_cons]; omega
    · rw [if_neg h, List.filter_cons_of_neg h]; omega

/-- The numbered pairs of rank `r`. -/
def Setup.V (s : Setup) (r : Nat) : List (Nat × Nat) := (s.pairs r).filter (s.valid r)

theorem numOwned_eq (s : Setup) (r : Nat) : s.numOwned r = (s.V r).length := by
  unfold Setup.numOwned Setup.V
  rw [foldl_count]; omega

theorem base_eq (s : Setup) (r : Nat) : s.base r = ((List.range r).map fun r => (s.V r).length).sum := by
  unfold Setup.base
  rw [show s.numOwned = fun r => (s.V r).length from funext (numOwned_eq s)]
  split
  · next h => subst h; rfl
  · rfl

theorem mem_pairs {s : Setup} {r n j : Nat} : (n, j) ∈ s.pairs r ↔ s.owns r n = true ∧ j < s.dpn := by
  unfold Setup.pairs Setup.owns
  simp only [List.mem_flatMap, List.mem_range, List.mem_map, Prod.mk.injEq, decide_eq_true_eq]
  constructor
  · rintro ⟨i, hi, j', hj, rfl, rfl⟩; exact ⟨by omega, hj⟩
  · rintro ⟨⟨h1, h2⟩, h3⟩; exact ⟨n - s.world.begin r, by omega, j, h3, by omega, rfl⟩

theorem pairs_nodup (s : Setup) (r : Nat) : (s.pairs r).Nodup := by
  unfold Setup.pairs
  rw [List.nodup_iff_pairwise_ne, List.pairwise_flatMap]
  constructor
  · intro i _
    rw [List.pairwise_map]
    exact List.nodup_range.imp fun h => by simpa using h
  · refine List.nodup_range.imp fun h => ?_
    intro x hx y hy hxy
    obtain ⟨j, _, rfl⟩ := List.mem_map.1 hx
    obtain ⟨j', _, rfl⟩ := List.mem_map.1 hy
    simp only [Prod.mk.injEq] at hxy
    omega

theorem ownedDofs_iff (s : Setup) (r n j k : Nat) : s.ownedDofs r n j = some k ↔ s.base r ≤ k ∧ (s.V r)[k - s.base r]? = some (n, j) :=
  number_spec _ _ _ (pairs_nodup s r) _ _

/-- All numbered pairs, rank after rank. -/
def Setup.all (s : Setup) : List (Nat × Nat) := (List.range s.counts.length).flatMap s.V

theorem owns_iff {s : Setup} {r n : Nat} : s.owns r n = true ↔ Permute.Owns s.world r n := by
  unfold Setup.owns Permute.Owns
  exact decide_eq_true_iff

theorem owns_owner {s : Setup} {n : Nat} (h : n < s.counts.sum) : s.owner n < s.counts.length ∧ s.owns (s.owner n) n = true := by
  obtain ⟨p, h1, h2, h3⟩ := Permute.owner_of (w := s.world) h
  unfold Setup.owner
  rw [show getOwner (ownDist s.counts) n = p from h3]
  exact ⟨h1, owns_iff.2 h2⟩

theorem owner_eq {s : Setup} {r n : Nat} (h : s.owns r n = true) : s.owner n = r ∧ n < s.counts.sum ∧ r < s.counts.length := by
  have h' := owns_iff.1 h
  obtain ⟨h1, h2⟩ := Permute.owns_lt h'
  exact ⟨(s.world.owner_iff n h1 r).2 h', h1, h2⟩

theorem all_nodup (s : Setup) : s.all.Nodup := by
  unfold Setup.all
  rw [List.nodup_iff_pairwise_ne, List.pairwise_flatMap]
  constructor
  · intro r _
    exact (pairs_nodup s r).filter _
  · refine List.nodup_range.imp fun {a b} h => ?_
    rintro ⟨n, j⟩ hx _ hy rfl
    have h1 := owner_eq (mem_pairs.1 (List.mem_of_mem_filter hx)).1
    have h2 := owner_eq (mem_pairs.1 (List.mem_of_mem_filter hy)).1
    exact h (h1.1.symm.trans h2.1)

theorem all_get {s : Setup} {r : Nat} (hr : r < s.counts.length) {i : Nat} (hi : i < (s.V r).length) : s.all[s.base r + i]? = (s.V r)[i]? := by
  unfold Setup.all
  rw [base_eq, ← NativeIO.flatMap_getElem? (List.range s.counts.length) s.V r i r (by simp [hr]) hi, List.take_range, Nat.min_eq_left (by omega)]

theorem all_length (s : Setup) : s.all.length = s.total := by
  unfold Setup.all Setup.total
  rw [List.length_flatMap, show s.numOwned = fun r => (s.V r).length from funext (numOwned_eq s)]

/-- Numbers are positions in the concatenated list. -/
theorem num_iff {s : Setup} {n j k : Nat} (hn : n < s.counts.sum) : s.ownedDofs (s.owner n) n j = some k ↔ s.all[k]? = some (n, j) := by
  obtain ⟨h1, h2⟩ := owns_owner hn
  rw [ownedDofs_iff]
  constructor
  · rintro ⟨h3, h4⟩
    have := all_get h1 (List.getElem?_eq_some_iff.1 h4).1
    rw [show s.base (s.owner n) + (k - s.base (s.owner n)) = k by omega] at this
    rw [this]; exact h4
  · intro h3
    have hm := List.mem_of_getElem? h3
    obtain ⟨r, hr, hv⟩ := List.mem_flatMap.1 hm
    obtain rfl := (owner_eq (mem_pairs.1 (List.mem_of_mem_filter hv)).1).1
    obtain ⟨i, hi, he⟩ := List.mem_iff_getElem.1 hv
    have h4 := all_get h1 hi
    rw [List.getElem?_eq_getElem hi, he] at h4
    have : k = s.base (s.owner n) + i := by
      obtain ⟨a1, a2⟩ := List.getElem?_eq_some_iff.1 h3
      obtain ⟨b1, b2⟩ := List.getElem?_eq_some_iff.1 h4
      exact (List.Nodup.getElem_inj_iff (all_nodup s)).1 (a2.trans b2.symm)
    subst this
    exact ⟨by omega, by rw [show s.base (s.owner n) + i - s.base (s.owner n) = i by omega, List.getElem?_eq_getElem hi, he]⟩

/-! ### Redirection -/

theorem fold_redirect (ops : List (Nat × Nat × Nat)) : ∀ t : Nat → Nat → Option Nat,
    (∀ o ∈ ops, ∀ o' ∈ ops, ¬ (o'.1 = o.2.2 ∧ o'.2.1 = o.2.1)) → (∀ o ∈ ops, ∀ o' ∈ ops, o.1 = o'.1 → o.2.1 = o'.2.1 → o = o') →
    (∀ n j, (∀ o ∈ ops, ¬ (o.1 = n ∧ o.2.1 = j)) → ops.foldl redirect t n j = t n j) ∧
      ∀ n j a, (n, j, a) ∈ ops → ops.foldl redirect t n j = t a j := by
  induction ops with
  | nil => intro t _ _; exact ⟨fun _ _ _ => rfl, fun _ _ _ h => by simp at h⟩
  | cons o ops ih =>
    intro t hroot hfun
    have ih' := ih (redirect t o) (fun a ha b hb => hroot a (by simp [ha]) b (by simp [hb])) (fun a ha b hb => hfun a (by simp [ha]) b (by simp [hb]))
    constructor
    · intro n j hno
      rw [List.foldl_cons, ih'.1 n j fun o' ho' => hno o' (by simp [ho'])]
      unfold redirect
      rw [if_neg fun h => hno o (by simp) ⟨h.1.symm, h.2.symm⟩]
    · intro n j a hm
      rw [List.foldl_cons]
      by_cases hin : (n, j, a) ∈ ops
      · rw [ih'.2 n j a hin]
        unfold redirect
        rw [if_neg fun h => hroot (n, j, a) (by simp [hin]) o (by simp) ⟨h.1.symm, h.2.symm⟩]
      · obtain rfl : (n, j, a) = o := by simpa [hin] using hm
        rw [ih'.1 n j fun o' ho' h => hin (by
          have := hfun (n, j, a) (by simp) o' (by simp [ho']) h.1.symm h.2.symm
          rw [this]; exact ho')]
        unfold redirect
        rw [if_pos ⟨rfl, rfl⟩]

theorem mem_of_lookup {α : Type} {l : List (Nat × α)} {n : Nat} {d : α} (h : l.lookup n = some d) : (n, d) ∈ l := by
  induction l with
  | nil => simp at h
  | cons p l ih =>
    rw [List.lookup_cons] at h
    by_cases hp : n = p.1
    · subst hp
      simp only [beq_self_eq_true, Option.some.injEq] at h
      subst h; simp
    · rw [show (n == p.1) = false by simpa using hp] at h
      exact List.mem_cons_of_mem _ (ih h)

theorem lookup_of_mem {α : Type} {l : List (Nat × α)} (hk : (l.map (·.1)).Nodup) {n : Nat} {d : α} (h : (n, d) ∈ l) : l.lookup n = some d := by
  induction l with
  | nil => simp at h
  | cons p l ih =>
    rw [List.map_cons, List.nodup_cons] at hk
    rw [List.lookup_cons]
    rcases List.mem_cons.1 h with rfl | h
    · simp
    · have : n ≠ p.1 := fun he => hk.1 (he ▸ List.mem_map.2 ⟨_, h, rfl⟩)
      rw [show (n == p.1) = false by simpa using this]
      exact ih hk.2 h

theorem mem_redirects {s : Setup} (h : s.Ok) {r : Nat} (hr : r < s.counts.length) {n j a : Nat} : (n, j, a) ∈ redirects (s.per r) ↔ s.lookup r n j = some a := by
  unfold redirects Setup.lookup
  simp only [List.mem_flatMap, List.mem_filterMap, List.mem_range, Option.map_eq_some_iff, Prod.mk.injEq]
  constructor
  · rintro ⟨⟨n', d⟩, he, i, hi, a', ha, rfl, rfl, rfl⟩
    rw [lookup_of_mem (h.keys r hr).1 he, Option.bind_some]; exact ha
  · intro hl
    cases hd : (s.per r).lookup n with
    | none => rw [hd] at hl; simp at hl
    | some d =>
      rw [hd, Option.bind_some] at hl
      refine ⟨(n, d), mem_of_lookup hd, j, ?_, a, hl, rfl, rfl, rfl⟩
      by_contra hc
      rw [List.getElem?_eq_none (by simpa using hc)] at hl
      simp at hl

theorem lookup_owned {s : Setup} (h : s.Ok) {r : Nat} (hr : r < s.counts.length) {n j a : Nat} (hl : s.lookup r n j = some a) : s.owns r n = true ∧ j < s.dpn := by
  unfold Setup.lookup at hl
  cases hd : (s.per r).lookup n with
  | none => rw [hd] at hl; simp at hl
  | some d =>
    rw [hd, Option.bind_some] at hl
    obtain ⟨h1, h2⟩ := (h.keys r hr).2 _ (mem_of_lookup hd)
    refine ⟨h1, ?_⟩
    simp only at h2
    by_contra hc
    rw [List.getElem?_eq_none (by omega)] at hl
    simp at hl

theorem fix_spec {s : Setup} (h : s.Ok) {r : Nat} (hr : r < s.counts.length) (t : Nat → Nat → Nat → Option Nat) (n j : Nat) :
    s.fixPeriodic t r n j = t r ((s.lookup r n j).getD n) j := by
  have hf := fold_redirect (redirects (s.per r)) (t r)
    (by
      rintro ⟨n, j, a⟩ ho ⟨n', j', a'⟩ ho' ⟨rfl, rfl⟩
      rw [mem_redirects h hr] at ho ho'
      have h1 := h.root r hr _ _ _ ho
      have h2 := (owner_eq (lookup_owned h hr ho').1).1
      simp only at h1
      rw [h2, ho'] at h1
      simp at h1)
    (by
      rintro ⟨n, j, a⟩ ho ⟨n', j', a'⟩ ho' h1 h2
      simp only at h1 h2
      subst h1 h2
      rw [mem_redirects h hr] at ho ho'
      rw [ho] at ho'
      rw [Option.some.inj ho'])
  unfold Setup.fixPeriodic
  cases hl : s.lookup r n j with
  | none =>
    rw [hf.1 n j (by
      rintro ⟨n', j', a⟩ ho ⟨h1, h2⟩
      simp only at h1 h2
      subst h1 h2
      rw [mem_redirects h hr, hl] at ho
      simp at ho)]
    rfl
  | some a => exact hf.2 n j a ((mem_redirects h hr).2 hl)

theorem ghost_owner {s : Setup} (h : s.Ok) {r : Nat} (hr : r < s.counts.length) {n : Nat} (hn : n ∈ s.ghosts r ++ s.pghosts r) : n < s.counts.sum ∧ s.owns r n = false :=
  (h.ghosts r hr).2 n hn

/-- First import: every local node has the number computed by its owner. -/
theorem import_spec {s : Setup} (h : s.Ok) {r : Nat} (hr : r < s.counts.length) (t : Nat → Nat → Nat → Option Nat) {n : Nat} (j : Nat)
    (hn : s.owns r n = true ∨ n ∈ s.ghosts r ++ s.pghosts r) : s.import_ t r n j = t (s.owner n) n j := by
  unfold Setup.import_
  rcases hn with ho | hg
  · rw [if_pos ho, (owner_eq ho).1]
  · rw [if_neg (by rw [(ghost_owner h hr hg).2]; simp), if_pos hg]

theorem local_lt {s : Setup} (h : s.Ok) {r : Nat} (hr : r < s.counts.length) {n : Nat} (hn : s.owns r n = true ∨ n ∈ s.ghosts r ++ s.pghosts r) : n < s.counts.sum := by
  rcases hn with ho | hg
  · exact (owner_eq ho).2.1
  · exact (ghost_owner h hr hg).1

theorem rep_lt {s : Setup} (h : s.Ok) {n : Nat} (hn : n < s.counts.sum) (j : Nat) : s.rep n j < s.counts.sum := by
  obtain ⟨h1, _⟩ := owns_owner hn
  unfold Setup.rep
  cases hl : s.lookup (s.owner n) n j with
  | none => exact hn
  | some a => exact local_lt h h1 (h.target _ h1 _ _ _ hl)

/-- The final tables. -/
theorem dofs_spec {s : Setup} (h : s.Ok) {r : Nat} (hr : r < s.counts.length) {n : Nat} (j : Nat) (hn : s.owns r n = true ∨ n ∈ s.ghosts r ++ s.pghosts r) :
    s.dofs r n j = s.ownedDofs (s.owner (s.rep n j)) (s.rep n j) j := by
  obtain ⟨h1, h2⟩ := owns_owner (local_lt h hr hn)
  unfold Setup.dofs
  rw [import_spec h hr _ j hn, fix_spec h h1]
  refine import_spec h h1 _ j ?_
  cases hl : s.lookup (s.owner n) n j with
  | none => exact Or.inl h2
  | some a => exact h.target _ h1 _ _ _ hl

theorem dofs_iff {s : Setup} (h : s.Ok) {r : Nat} (hr : r < s.counts.length) {n : Nat} (j k : Nat) (hn : s.owns r n = true ∨ n ∈ s.ghosts r ++ s.pghosts r) :
    s.dofs r n j = some k ↔ s.all[k]? = some (s.rep n j, j) := by
  rw [dofs_spec h hr j hn, num_iff (rep_lt h (local_lt h hr hn) j)]

theorem knows_local {s : Setup} {r n : Nat} (h : s.Knows r n) : s.owns r n = true ∨ n ∈ s.ghosts r ++ s.pghosts r :=
  h.imp_right fun h => List.mem_append_left _ h

theorem mem_all {s : Setup} {n j : Nat} : (n, j) ∈ s.all ↔ n < s.counts.sum ∧ j < s.dpn ∧ s.lookup (s.owner n) n j = none ∧ s.bmp (s.owner n) (n, j) = true := by
  unfold Setup.all Setup.V
  simp only [List.mem_flatMap, List.mem_range, List.mem_filter, mem_pairs, Setup.valid, Bool.and_eq_true, Option.isNone_iff_eq_none]
  constructor
  · rintro ⟨r, hr, ⟨ho, hj⟩, hl, hb⟩
    obtain ⟨rfl, h2, _⟩ := owner_eq ho
    exact ⟨h2, hj, hl, hb⟩
  · rintro ⟨h1, h2, h3, h4⟩
    obtain ⟨h5, h6⟩ := owns_owner h1
    exact ⟨_, h5, ⟨h6, h2⟩, h3, h4⟩

end Verif.Dofs
