import Verif.Dofs.Number

/-! # Properties C39 and C40: numbering of degrees of freedom and element queries -/
namespace Verif.Dofs
open Verif Verif.Own

/-- Component `j` is active at node `n`: some element on some rank with the node lies in a domain where it is. -/
def Setup.Active (s : Setup) (n j : Nat) : Prop := ∃ r < s.counts.length, ∃ v ∈ s.visits r, n ∈ v.nodes ∧ j ∈ v.active

/-- **C39** (agreement): all ranks knowing a node have the same numbers for it. -/
theorem C39_agree {s : Setup} (h : s.Ok) {r r' : Nat} (hr : r < s.counts.length) (hr' : r' < s.counts.length) {n : Nat} (hn : s.Knows r n) (hn' : s.Knows r' n) :
    s.map r n = s.map r' n ∧ s.map r n = some ((List.range s.dpn).map (s.dofs r n)) := by
  have key : ∀ r < s.counts.length, s.Knows r n → s.map r n = some ((List.range s.dpn).map (s.dofs r n)) := by
    intro r hr hn
    unfold Setup.map
    rw [if_pos]
    rcases hn with ho | hg
    · rw [ho]; rfl
    · have hnd := (h.ghosts r hr).1
      have : n ∉ s.pghosts r := fun hp => (List.nodup_append.1 hnd).2.2 n hg n hp rfl
      simp [hg, this]
  refine ⟨?_, key r hr hn⟩
  rw [key r hr hn, key r' hr' hn']
  congr 1
  apply List.map_congr_left
  intro j _
  rw [dofs_spec h hr j (knows_local hn), dofs_spec h hr' j (knows_local hn')]

/-- **C39** (uniqueness): a number identifies the component and the node, up to periodic identification. -/
theorem C39_unique {s : Setup} (h : s.Ok) {r r' : Nat} (hr : r < s.counts.length) (hr' : r' < s.counts.length) {n n' j j' k : Nat} (hn : s.Knows r n)
    (hn' : s.Knows r' n') (hk : s.dofs r n j = some k) (hk' : s.dofs r' n' j' = some k) : j = j' ∧ s.rep n j = s.rep n' j' := by
  rw [dofs_iff h hr j k (knows_local hn)] at hk
  rw [dofs_iff h hr' j' k (knows_local hn'), hk] at hk'
  have := Option.some.inj hk'
  simp only [Prod.mk.injEq] at this
  exact ⟨this.2, this.1⟩

/-- **C39** (no gaps): the numbers in use are exactly those below the total. -/
theorem C39_fill {s : Setup} (h : s.Ok) (k : Nat) :
    k < s.total ↔ ∃ r < s.counts.length, ∃ n j, s.Knows r n ∧ j < s.dpn ∧ s.dofs r n j = some k := by
  constructor
  · intro hk
    rw [← all_length] at hk
    obtain ⟨⟨n, j⟩, he⟩ : ∃ p, s.all[k] = p := ⟨_, rfl⟩
    have hm := List.getElem_mem hk
    rw [he] at hm
    obtain ⟨h1, h2, h3, _⟩ := mem_all.1 hm
    obtain ⟨h4, h5⟩ := owns_owner h1
    refine ⟨_, h4, n, j, Or.inl h5, h2, ?_⟩
    rw [dofs_iff h h4 j k (Or.inl h5), List.getElem?_eq_getElem hk, he]
    unfold Setup.rep
    rw [h3]; rfl
  · rintro ⟨r, hr, n, j, hn, _, hk⟩
    rw [dofs_iff h hr j k (knows_local hn)] at hk
    rw [← all_length]
    exact (List.getElem?_eq_some_iff.1 hk).1

/-- **C39** (blocks): the numbers of components carried by nodes of rank `p` form the `p`-th consecutive block. -/
theorem C39_blocks {s : Setup} (h : s.Ok) {r p : Nat} (hr : r < s.counts.length) (hp : p < s.counts.length) {n j k : Nat} (hn : s.Knows r n) (hk : s.dofs r n j = some k) :
    s.base 0 = 0 ∧ s.base (p + 1) = s.base p + s.numOwned p ∧ (s.owns p (s.rep n j) = true ↔ s.base p ≤ k ∧ k < s.base p + s.numOwned p) := by
  refine ⟨rfl, ?_, ?_⟩
  · rw [base_eq, base_eq, List.range_succ, numOwned_eq]
    simp
  · rw [dofs_iff h hr j k (knows_local hn)] at hk
    have hlt := rep_lt h (local_lt h hr (knows_local hn)) j
    constructor
    · intro ho
      have hko := (num_iff hlt).2 hk
      rw [(owner_eq ho).1] at hko
      obtain ⟨h1, h2⟩ := (ownedDofs_iff s _ _ _ _).1 hko
      have := (List.getElem?_eq_some_iff.1 h2).1
      rw [numOwned_eq]; omega
    · rintro ⟨h1, h2⟩
      rw [numOwned_eq] at h2
      have hi : k - s.base p < (s.V p).length := by omega
      have := all_get hp hi
      rw [show s.base p + (k - s.base p) = k by omega, hk] at this
      have hm := List.mem_of_getElem? this.symm
      exact (mem_pairs.1 (List.mem_of_mem_filter hm)).1

theorem mem_localBmp {s : Setup} {r a j : Nat} : (a, j) ∈ s.localBmp r ↔ ∃ v ∈ s.visits r, ∃ m ∈ v.nodes, j ∈ v.active ∧ (s.lookup r m j).getD m = a := by
  unfold Setup.localBmp
  simp only [List.mem_flatMap, List.mem_map, Prod.mk.injEq]
  constructor
  · rintro ⟨v, hv, m, hm, i, hi, h1, rfl⟩; exact ⟨v, hv, m, hm, hi, h1⟩
  · rintro ⟨v, hv, m, hm, hi, h1⟩; exact ⟨v, hv, m, hm, j, hi, h1, rfl⟩

theorem bmp_iff {s : Setup} (h : s.Ok) {a j : Nat} (ha : a < s.counts.sum) : s.bmp (s.owner a) (a, j) = true ↔ ∃ r < s.counts.length, (a, j) ∈ s.localBmp r := by
  unfold Setup.bmp
  simp only [Bool.or_eq_true, decide_eq_true_eq, List.any_eq_true, List.mem_range, Bool.and_eq_true]
  constructor
  · rintro (h1 | ⟨r, hr, _, h1⟩)
    · exact ⟨_, (owns_owner ha).1, h1⟩
    · exact ⟨r, hr, h1⟩
  · rintro ⟨r, hr, h1⟩
    by_cases he : r = s.owner a
    · exact Or.inl (he ▸ h1)
    · refine Or.inr ⟨r, hr, ⟨he, ?_⟩, h1⟩
      obtain ⟨v, hv, m, hm, hj, hl⟩ := mem_localBmp.1 h1
      have hk : s.owns r a = true ∨ a ∈ s.ghosts r ++ s.pghosts r := by
        cases hc : s.lookup r m j with
        | none => rw [hc] at hl; obtain rfl : m = a := hl; exact knows_local ((h.visits r hr v hv).1 m hm)
        | some b => rw [hc] at hl; obtain rfl : b = a := hl; exact h.target r hr _ _ _ hc
      rcases hk with ho | hg
      · exact absurd (owner_eq ho).1.symm he
      · exact hg

/-- When exactly a component of a node has a number: some element marks its representative, either directly or through a
periodic node *owned by the rank of that element*. -/
theorem C39_active_exact {s : Setup} (h : s.Ok) {r : Nat} (hr : r < s.counts.length) {n j : Nat} (hn : s.Knows r n) (hj : j < s.dpn) :
    (s.dofs r n j).isSome = true ↔ ∃ r' < s.counts.length, ∃ v ∈ s.visits r', ∃ m ∈ v.nodes, j ∈ v.active ∧ (s.lookup r' m j).getD m = s.rep n j := by
  have hlt := local_lt h hr (knows_local hn)
  have hrl := rep_lt h hlt j
  have hroot : s.lookup (s.owner (s.rep n j)) (s.rep n j) j = none := by
    cases hc : s.lookup (s.owner n) n j with
    | none =>
      have : s.rep n j = n := by unfold Setup.rep; rw [hc]; rfl
      rw [this]; exact hc
    | some a =>
      have : s.rep n j = a := by unfold Setup.rep; rw [hc]; rfl
      rw [this]; exact h.root _ (owns_owner hlt).1 _ _ _ hc
  have h1 : (s.dofs r n j).isSome = true ↔ (s.rep n j, j) ∈ s.all := by
    rw [Option.isSome_iff_exists, List.mem_iff_getElem?]
    exact exists_congr fun k => dofs_iff h hr j k (knows_local hn)
  rw [h1, mem_all, bmp_iff h hrl]
  simp only [hrl, hj, hroot, true_and, mem_localBmp]

/-- **C39** (activity) for components without periodic conditions: a component has a number exactly if it is active. -/
theorem C39_active {s : Setup} (h : s.Ok) {r : Nat} (hr : r < s.counts.length) {n j : Nat} (hn : s.Knows r n) (hj : j < s.dpn)
    (hper : ∀ r < s.counts.length, ∀ m, s.lookup r m j = none) : (s.dofs r n j).isSome = true ↔ s.Active n j := by
  rw [C39_active_exact h hr hn hj]
  have hrep : s.rep n j = n := by
    unfold Setup.rep
    rw [hper _ (owns_owner (local_lt h hr (knows_local hn))).1]; rfl
  rw [hrep]
  unfold Setup.Active
  refine exists_congr fun r' => and_congr_right fun hr' => exists_congr fun v => and_congr_right fun hv => ?_
  constructor
  · rintro ⟨m, hm, hj, he⟩
    rw [hper r' hr'] at he
    obtain rfl : m = n := he
    exact ⟨hm, hj⟩
  · rintro ⟨hm, hj⟩
    exact ⟨n, hm, hj, by rw [hper r' hr']; rfl⟩

/-- C39 (activity) for periodic components: a node has a number exactly if the component is active at one of the nodes identified
with it. -/
def C39ActiveStatement : Prop := ∀ (s : Setup), s.Ok → ∀ r n j, r < s.counts.length → s.Knows r n → j < s.dpn →
  ((s.dofs r n j).isSome = true ↔ ∃ m < s.counts.sum, s.Active m j ∧ s.rep m j = s.rep n j)

/-- Rank 0 owns nodes 0 and 1, rank 1 has node 1 as a ghost; node 1 is redirected to node 0; the only element in a domain
with active component 0 is on rank 1 and has node 1. -/
def exPeriodic : Setup where
  dpn := 1
  counts := [2, 1]
  ghosts := fun r => if r = 1 then [1] else []
  pghosts := fun _ => []
  per := fun r => if r = 0 then [(1, [some 0])] else []
  visits := fun r => if r = 0 then [⟨[0, 1], []⟩] else [⟨[1, 2], [0]⟩]

theorem exPeriodic_lookup {r n j a : Nat} (h : exPeriodic.lookup r n j = some a) : r = 0 ∧ n = 1 ∧ j = 0 ∧ a = 0 := by
  unfold Setup.lookup exPeriodic at h
  simp only at h
  by_cases hr : r = 0
  · rw [if_pos hr, List.lookup_cons] at h
    by_cases hn : n = 1
    · rw [show (n == 1) = true by simpa using hn] at h
      simp only [Option.bind_some] at h
      cases j with
      | zero => simp at h; exact ⟨hr, hn, rfl, h.symm⟩
      | succ j => simp at h
    · rw [show (n == 1) = false by simpa using hn] at h; simp at h
  · rw [if_neg hr] at h; simp at h

theorem exPeriodic_ok : exPeriodic.Ok := by
  have hlen : exPeriodic.counts.length = 2 := rfl
  refine ⟨?_, ?_, ?_, ?_, ?_⟩
  · rw [hlen]; decide
  · rw [hlen]
    intro r hr
    have : ∀ r < 2, ∀ v ∈ exPeriodic.visits r, (∀ n ∈ v.nodes, exPeriodic.owns r n = true ∨ n ∈ exPeriodic.ghosts r) ∧ ∀ j ∈ v.active, j < exPeriodic.dpn := by
      intro r hr
      interval_cases r <;> simp [exPeriodic] <;> decide
    exact this r hr
  · rw [hlen]; decide
  · intro r _ n j a hl
    obtain ⟨rfl, rfl, rfl, rfl⟩ := exPeriodic_lookup hl
    exact Or.inl (by decide)
  · intro r _ n j a hl
    obtain ⟨rfl, rfl, rfl, rfl⟩ := exPeriodic_lookup hl
    decide +kernel

/-- **C39** (activity) fails for periodic components: an element on a rank which has the periodic node only as a ghost does
not activate its representative. -/
theorem C39_active_violated : ¬ C39ActiveStatement := by
  intro h
  have := (h exPeriodic exPeriodic_ok 0 1 0 (by decide) (Or.inl (by decide)) (by decide)).2
    ⟨1, by decide, ⟨1, by decide, ⟨[1, 2], [0]⟩, by simp [exPeriodic], by simp, by simp⟩, rfl⟩
  revert this
  decide +kernel

/-- **C39** (activity) for periodic components, when every redirected node at which the component is active is also marked on its
owner. -/
theorem C39_active_partial {s : Setup} (h : s.Ok) {r : Nat} (hr : r < s.counts.length) {n j : Nat} (hn : s.Knows r n) (hj : j < s.dpn)
    (hmark : ∀ m, s.Active m j → s.lookup (s.owner m) m j ≠ none → ∃ v ∈ s.visits (s.owner m), m ∈ v.nodes ∧ j ∈ v.active) :
    (s.dofs r n j).isSome = true ↔ ∃ m < s.counts.sum, s.Active m j ∧ s.rep m j = s.rep n j := by
  rw [C39_active_exact h hr hn hj]
  constructor
  · rintro ⟨r', hr', v, hv, m, hm, hjv, he⟩
    have hk := (h.visits r' hr' v hv).1 m hm
    have hml := local_lt h hr' (knows_local hk)
    have hact : s.Active m j := ⟨r', hr', v, hv, hm, hjv⟩
    cases hc : s.lookup r' m j with
    | some a =>
      refine ⟨m, hml, hact, ?_⟩
      have := (owner_eq (lookup_owned h hr' hc).1).1
      rw [← he]
      unfold Setup.rep
      rw [this]
    | none =>
      rw [hc] at he
      obtain rfl : m = s.rep n j := he
      refine ⟨_, hml, hact, ?_⟩
      -- the representative is not redirected
      have hlt := local_lt h hr (knows_local hn)
      cases hc' : s.lookup (s.owner n) n j with
      | none =>
        have : s.rep n j = n := by unfold Setup.rep; rw [hc']; rfl
        rw [this, this]
      | some a =>
        have : s.rep n j = a := by unfold Setup.rep; rw [hc']; rfl
        rw [this]
        unfold Setup.rep
        rw [h.root _ (owns_owner hlt).1 _ _ _ hc']; rfl
  · rintro ⟨m, hml, hact, he⟩
    cases hc : s.lookup (s.owner m) m j with
    | some a =>
      obtain ⟨v, hv, hm, hjv⟩ := hmark m hact (by rw [hc]; simp)
      exact ⟨_, (owns_owner hml).1, v, hv, m, hm, hjv, he⟩
    | none =>
      obtain ⟨r', hr', v, hv, hm, hjv⟩ := hact
      refine ⟨r', hr', v, hv, m, hm, hjv, ?_⟩
      have : s.lookup r' m j = none := by
        cases hc' : s.lookup r' m j with
        | none => rfl
        | some a =>
          have := (owner_eq (lookup_owned h hr' hc').1).1
          rw [this, hc'] at hc; simp at hc
      rw [this, ← he]
      unfold Setup.rep
      rw [hc]

/-- **C39** (ownership of numbers): the ownership object of a rank exists; it owns the rank's block; every number in its table is owned or
shared; and the local number of the solver maps back to it. -/
theorem C39_ownership {s : Setup} {r : Nat} :
    ∃ o, s.dofOwn r = some o ∧ (∀ k, o.isOwned k = true ↔ s.base r ≤ k ∧ k < s.base r + s.numOwned r) ∧
      ∀ n ∈ s.localNodes r, ∀ j < s.dpn, ∀ k, s.dofs r n j = some k →
        ∃ l, s.localDof r n j = some (some l) ∧ l < o.localSize ∧ o.getGlobal l = some k ∧ (l < s.numOwned r ↔ s.base r ≤ k ∧ k < s.base r + s.numOwned r) := by
  have hsh : ∀ k, k ∈ s.sharedDofs r ↔ ¬ (s.base r ≤ k ∧ k < s.base r + s.numOwned r) ∧ ∃ n ∈ s.localNodes r, ∃ j < s.dpn, s.dofs r n j = some k := by
    intro k
    unfold Setup.sharedDofs
    rw [Std.mem_sortUniq]
    simp only [List.mem_flatMap, List.mem_filterMap, List.mem_range, Option.bind_eq_some_iff]
    constructor
    · rintro ⟨n, hn, j, hj, d, hd, h1⟩
      split at h1
      · simp at h1
      · next hc => obtain rfl := Option.some.inj h1; exact ⟨hc, n, hn, j, hj, hd⟩
    · rintro ⟨hc, n, hn, j, hj, hd⟩
      exact ⟨n, hn, j, hj, k, hd, if_neg hc⟩
  cases ho : s.dofOwn r with
  | none =>
    obtain ⟨k, hk, hc⟩ := (C08_constructor _ _ _).1 ho
    exact absurd hc ((hsh k).1 hk).1
  | some o =>
    have ho' : SegOwn.make (s.base r) (s.numOwned r) (s.sharedDofs r) = some o := ho
    refine ⟨o, rfl, ?_, ?_⟩
    · intro k
      rw [(make_some ho').1]
      exact decide_eq_true_iff
    · intro n hn j hj k hk
      have hkn : (s.base r ≤ k ∧ k < s.base r + s.numOwned r) ∨ k ∈ s.sharedDofs r := by
        by_cases hc : s.base r ≤ k ∧ k < s.base r + s.numOwned r
        · exact Or.inl hc
        · exact Or.inr ((hsh k).2 ⟨hc, n, hn, j, hj, hk⟩)
      obtain ⟨h1, h2, h3⟩ := C08_global_local_global _ _ _ (Std.sortUniq_nodup _) o ho' k hkn
      exact ⟨o.getLocal k, by unfold Setup.localDof; rw [ho, hk]; rfl, h2, h1, h3⟩

/-- A two-rank mesh of two linear line elements with two components, the second one active on the second element only. -/
def exPlain : Setup where
  dpn := 2
  counts := [2, 1]
  ghosts := fun r => if r = 1 then [1] else []
  pghosts := fun _ => []
  per := fun _ => []
  visits := fun r => if r = 0 then [⟨[0, 1], [0]⟩] else [⟨[1, 2], [0, 1]⟩]

example : exPlain.Ok ∧ exPlain.map 0 0 = some [some 0, none] ∧ exPlain.map 0 1 = some [some 1, some 2] ∧
    exPlain.map 1 1 = some [some 1, some 2] ∧ exPlain.map 1 2 = some [some 3, some 4] ∧ exPlain.total = 5 := by
  refine ⟨⟨by decide, ?_, by decide, ?_, ?_⟩, by decide +kernel⟩
  · intro r hr
    have : ∀ r < 2, ∀ v ∈ exPlain.visits r, (∀ n ∈ v.nodes, exPlain.owns r n = true ∨ n ∈ exPlain.ghosts r) ∧ ∀ j ∈ v.active, j < exPlain.dpn := by
      intro r hr
      interval_cases r <;> simp [exPlain] <;> decide
    exact this r hr
  · intro r _ n j a h; simp [Setup.lookup, exPlain] at h
  · intro r _ n j a h; simp [Setup.lookup, exPlain] at h

/-! ## C40 -/

/-- **C40** (sorted query): each valid number at the requested components of the nodes, once, ascending, and nothing else. -/
theorem C40_sorted (dofs : Nat → List (Option Nat)) (nodes inds : List Nat) :
    (getDofsCopy dofs nodes inds).Pairwise (· < ·) ∧ (getDofsCopy dofs nodes inds).Nodup ∧
      ∀ d, d ∈ getDofsCopy dofs nodes inds ↔ ∃ n ∈ nodes, ∃ i ∈ inds, (dofs n)[i]? = some (some d) := by
  unfold getDofsCopy
  refine ⟨Std.sortUniq_strict _, Std.sortUniq_nodup _, fun d => ?_⟩
  rw [Std.mem_sortUniq]
  simp only [List.mem_flatMap, List.mem_filterMap, Option.join_eq_some_iff]

theorem length_flatMap_le {α β : Type} (f : α → List β) (k : Nat) : ∀ l : List α, (∀ a ∈ l, (f a).length ≤ k) → (l.flatMap f).length ≤ l.length * k
  | [], _ => by simp
  | a :: l, h => by
    have := length_flatMap_le f k l fun b hb => h b (by simp [hb])
    have h1 := h a (by simp)
    rw [List.flatMap_cons, List.length_append, List.length_cons, Nat.succ_mul]; omega

/-- **C40** (no overflow): with distinct component indices below the table width the values fit the fixed-capacity vector. -/
theorem C40_capacity (dofs : Nat → List (Option Nat)) (nodes inds : List Nat) (dpn : Nat) (hi : inds.Nodup) (hlt : ∀ i ∈ inds, i < dpn) :
    (nodes.flatMap fun n => inds.filterMap fun i => ((dofs n)[i]?).join).length ≤ nodes.length * dpn := by
  have hlen : inds.length ≤ dpn := by
    have hsub : inds ⊆ List.range dpn := fun i h => List.mem_range.2 (hlt i h)
    have := (List.subperm_of_subset hi hsub).length_le
    simpa using this
  exact length_flatMap_le _ _ _ fun n _ => le_trans (List.length_filterMap_le _ _) hlen

/-- **C40** (node-major order): entry `b` of node number `a` is at position `a * inds + b`. -/
theorem C40_order (dofs : Nat → List (Option Nat)) (nodes inds : List Nat) :
    (getDofsAt dofs nodes inds).length = nodes.length * inds.length ∧
      ∀ (a b n i : Nat), nodes[a]? = some n → inds[b]? = some i → (getDofsAt dofs nodes inds)[a * inds.length + b]? = some (((dofs n)[i]?).join) := by
  unfold getDofsAt
  constructor
  · rw [List.length_flatMap]
    simp
  · intro a b n i ha hb
    have hbl := (List.getElem?_eq_some_iff.1 hb).1
    have := NativeIO.flatMap_getElem? nodes (fun n => inds.map fun i => ((dofs n)[i]?).join) a b n ha (by simpa using hbl)
    simp only [List.length_map] at this
    have hal := (List.getElem?_eq_some_iff.1 ha).1
    rw [show ((nodes.take a).map fun _ => inds.length).sum = a * inds.length by
      rw [List.map_const', List.sum_replicate]; simp [Nat.min_eq_left (Nat.le_of_lt hal)]] at this
    rw [this, List.getElem?_map, hb]; rfl

theorem filterMap_range_getElem? {α : Type} (l : List (Option α)) : (List.range l.length).filterMap (fun i => (l[i]?).join) = l.filterMap id := by
  have : l = (List.range l.length).map fun i => (l[i]?).join := by
    apply List.ext_getElem (by simp)
    intro i h1 h2
    simp only [List.getElem_map, List.getElem_range, List.getElem?_eq_getElem h1, Option.join_some]
  conv_rhs => rw [this, List.filterMap_map]
  rfl

/-- **C40** (all components): valid numbers in node-major order, i.e. the unsorted query over all components without its invalid
entries. -/
theorem C40_all (dofs : Nat → List (Option Nat)) (dpn : Nat) (nodes : List Nat) (hd : ∀ n ∈ nodes, (dofs n).length = dpn) :
    getDofsAll dofs nodes = (getDofsAt dofs nodes (List.range dpn)).filterMap id ∧
      Std.sortUniq (getDofsAll dofs nodes) = getDofsCopy dofs nodes (List.range dpn) := by
  have key : getDofsAll dofs nodes = nodes.flatMap fun n => (List.range dpn).filterMap fun i => ((dofs n)[i]?).join := by
    unfold getDofsAll
    rw [List.filterMap_flatMap]
    apply List.flatMap_congr
    intro n hn
    rw [← hd n hn, filterMap_range_getElem?]
  refine ⟨?_, by rw [key]; rfl⟩
  rw [key]
  unfold getDofsAt
  rw [List.filterMap_flatMap]
  apply List.flatMap_congr
  intro n _
  rw [List.filterMap_map]; rfl

example : getDofsCopy (fun n => [[some 7, none], [some 3, some 7], [none, none]].getD n []) [0, 1, 2] [0, 1] = [3, 7] ∧
    getDofsAt (fun n => [[some 7, none], [some 3, some 7], [none, none]].getD n []) [0, 1] [1, 0] = [none, some 7, some 7, some 3] ∧
    getDofsAll (fun n => [[some 7, none], [some 3, some 7], [none, none]].getD n []) [0, 1, 2] = [7, 3, 7] := by decide

end Verif.Dofs
