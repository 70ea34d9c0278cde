import Verif.LocView.Model
import Verif.Mesh.Props

/-! # Property C25: the cache-aware reordering is a permutation -/
namespace Verif.LocView
open Verif Verif.Elem Verif.Mesh

variable {α : Type}

theorem mem_row {nodesOf : α → List Nat} {els : List α} {x e : Nat} :
    e ∈ row nodesOf els x ↔ ∃ a, els[e]? = some a ∧ x ∈ nodesOf a := by
  unfold row
  rw [Std.mem_sortUniq, List.mem_filterMap]
  constructor
  · rintro ⟨q, hq, he⟩
    rw [List.mem_flatMap] at hq
    obtain ⟨p, hp, hq⟩ := hq
    obtain ⟨y, hy, rfl⟩ := List.mem_map.1 hq
    split_ifs at he with hx
    simp only [Option.some.injEq] at he hx
    subst hx he
    exact ⟨p.1, List.mem_zipIdx_iff_getElem?.1 hp, hy⟩
  · rintro ⟨a, ha, hx⟩
    exact ⟨(x, e), List.mem_flatMap.2 ⟨(a, e), List.mem_zipIdx_iff_getElem?.2 ha, List.mem_map.2 ⟨x, hx, rfl⟩⟩, by simp⟩

theorem row_length (nodesOf : α → List Nat) (els : List α) (x : Nat) :
    (row nodesOf els x).length = els.countP fun a => decide (x ∈ nodesOf a) := by
  have h : row nodesOf els x = (List.range els.length).filter fun i => (els[i]?).any fun a => decide (x ∈ nodesOf a) := by
    refine Std.eq_of_mem_of_strict (Std.sortUniq_strict _) (List.Pairwise.filter _ List.pairwise_lt_range) fun e => ?_
    rw [mem_row, List.mem_filter, List.mem_range]
    constructor
    · rintro ⟨a, ha, hx⟩
      exact ⟨(List.getElem?_eq_some_iff.1 ha).1, by simp [ha, hx]⟩
    · rintro ⟨hl, h⟩
      rw [List.getElem?_eq_getElem hl] at h ⊢
      exact ⟨_, rfl, by simpa using h⟩
  rw [h, ← List.countP_eq_length_filter]
  have h1 : els = els.zipIdx.map Prod.fst := by simp
  have h2 : List.range els.length = els.zipIdx.map Prod.snd := by simp [List.range_eq_range']
  rw [h2]
  conv_rhs => rw [h1]
  rw [List.countP_map, List.countP_map]
  refine List.countP_congr fun p hp => ?_
  have := List.mem_zipIdx_iff_getElem?.1 hp
  simp [this]

theorem foldl_u32 (l : List Nat) (f : Nat → Nat) (s : Nat) (hs : s + (l.map f).sum < 2 ^ 32) :
    l.foldl (fun s x => u32 (s + f x)) s = s + (l.map f).sum := by
  induction l generalizing s with
  | nil => simp
  | cons a l ih =>
    simp only [List.map_cons, List.sum_cons] at hs
    rw [List.foldl_cons, u32, Nat.mod_eq_of_lt (by omega), ih _ (by omega)]
    simp only [List.map_cons, List.sum_cons]; omega

/-- Sum over the nodes of `a` of the number of elements sharing the node. -/
def incidences (nodesOf : α → List Nat) (els : List α) (a : α) : Nat :=
  ((nodesOf a).map fun x => els.countP fun b => decide (x ∈ nodesOf b)).sum

theorem connect_eq {nodesOf : α → List Nat} {els : List α} {a : α} (h : incidences nodesOf els a < 2 ^ 32 - 1) :
    connect nodesOf els a = incidences nodesOf els a := by
  unfold connect
  have e : (nodesOf a).map (fun x => (row nodesOf els x).length) = (nodesOf a).map fun x => els.countP fun b => decide (x ∈ nodesOf b) :=
    List.map_congr_left fun x _ => row_length nodesOf els x
  rw [foldl_u32 _ (fun x => (row nodesOf els x).length) 0 (by rw [e]; unfold incidences at h; omega), e, Nat.zero_add]
  rfl

theorem mem_addHot {h : List (Nat × Nat)} {e hot : Nat} {p : Nat × Nat} (hp : p ∈ addHot h e hot) :
    p.1 = e ∨ ∃ q ∈ h, q.1 = p.1 := by
  unfold addHot at hp
  split at hp
  · obtain ⟨q, hq, rfl⟩ := List.mem_map.1 hp
    split
    · exact .inl rfl
    · exact .inr ⟨q, hq, rfl⟩
  · rcases List.mem_append.1 hp with h1 | h1
    · exact .inr ⟨p, h1, rfl⟩
    · simp only [List.mem_singleton] at h1; subst h1; exact .inl rfl

theorem mem_hotElems {nodesOf : α → List Nat} {els : List α} {done : List Nat} {c : Cache} {p : Nat × Nat}
    (hp : p ∈ hotElems nodesOf els done c) : p.1 < els.length ∧ p.1 ∉ done := by
  suffices H : ∀ (c : Cache) (h : List (Nat × Nat)), (∀ q ∈ h, q.1 < els.length ∧ q.1 ∉ done) →
      ∀ q ∈ c.foldl (fun h p => if nRows nodesOf els ≤ p.1 then h
        else ((row nodesOf els p.1).filter fun e => e ∉ done).foldl (fun h e => addHot h e p.2) h) h,
        q.1 < els.length ∧ q.1 ∉ done from H c [] (by simp) p hp
  intro c
  induction c with
  | nil => intro h hh; exact hh
  | cons n c ih =>
    intro h hh
    rw [List.foldl_cons]
    refine ih _ ?_
    split
    · exact hh
    · have hr : ∀ e ∈ (row nodesOf els n.1).filter (fun e => e ∉ done), e < els.length ∧ e ∉ done := by
        intro e he
        rw [List.mem_filter, mem_row] at he
        obtain ⟨⟨a, ha, _⟩, hd⟩ := he
        exact ⟨(List.getElem?_eq_some_iff.1 ha).1, by simpa using hd⟩
      revert hr
      generalize (row nodesOf els n.1).filter (fun e => e ∉ done) = l
      intro hr
      induction l generalizing h with
      | nil => exact hh
      | cons e l ih2 =>
        rw [List.foldl_cons]
        refine ih2 _ ?_ (fun x hx => hr x (by simp [hx]))
        intro q hq
        rcases mem_addHot hq with h1 | ⟨q', h1, h2⟩
        · rw [h1]; exact hr e (by simp)
        · rw [← h2]; exact hh q' h1

theorem foldl_pick_mem {β : Type} (f : β → β → Bool) (l : List β) (a : β) :
    l.foldl (fun b x => if f b x then x else b) a ∈ a :: l := by
  induction l generalizing a with
  | nil => simp
  | cons x l ih =>
    rw [List.foldl_cons]
    split
    · have := ih x; simp only [List.mem_cons] at this ⊢; tauto
    · have := ih a; simp only [List.mem_cons] at this ⊢; tauto

theorem argMax_mem {crit : Nat × Nat → Nat × Nat} {a : Nat × Nat} {l : List (Nat × Nat)} :
    ∃ p ∈ a :: l, argMax crit (a :: l) = some p :=
  ⟨_, foldl_pick_mem (fun b x => lt2 (crit b) (crit x)) l a, rfl⟩

theorem argMin_spec (key : Nat → Nat) (l : List Nat) (hl : l ≠ []) :
    ∃ e ∈ l, argMin key l = some e ∧ ∀ x ∈ l, key e ≤ key x := by
  cases l with
  | nil => exact absurd rfl hl
  | cons a l =>
    refine ⟨_, by simpa using foldl_pick_mem (fun b x => decide (key x < key b)) l a, by simp [argMin], ?_⟩
    clear hl
    induction l generalizing a with
    | nil => simp
    | cons y l ih =>
      intro x hx
      rw [List.foldl_cons]
      rcases List.mem_cons.1 hx with rfl | hx
      · have := ih (if key y < key x then y else x) _ (List.mem_cons_self ..)
        refine Nat.le_trans this ?_
        split <;> omega
      · rcases List.mem_cons.1 hx with rfl | hx
        · have := ih (if key x < key a then x else a) _ (List.mem_cons_self ..)
          refine Nat.le_trans this ?_
          split <;> omega
        · exact ih _ x (by simp [hx])

/-- Each loop pass appends an element index not yet used. -/
theorem step_spec {nodesOf : α → List Nat} {els : List α} (hcon : ∀ a ∈ els, incidences nodesOf els a < 2 ^ 32 - 1)
    {ordC ordH : List (Nat × Nat) → List (Nat × Nat)} (hH : ∀ l, (ordH l).Perm l) (s : RState)
    (hn : s.perm.Nodup) (hb : ∀ e ∈ s.perm, e < els.length) (hlt : s.perm.length < els.length) :
    ∃ e c, step nodesOf els ordC ordH s = some ⟨s.perm ++ [e], c⟩ ∧ e < els.length ∧ e ∉ s.perm := by
  suffices H : ∃ e, e < els.length ∧ e ∉ s.perm ∧
      nextElem els.length (fun e => (els[e]?).elim 0 (connect nodesOf els)) s.perm
        (ordH (hotElems nodesOf els s.perm (ordC s.cache))) = some e by
    obtain ⟨e, h1, h2, h3⟩ := H
    refine ⟨e, tick ((nodesOf els[e]).foldl touch s.cache), ?_, h1, h2⟩
    unfold step
    simp only
    rw [h3, Option.bind_some, List.getElem?_eq_getElem h1]
    rfl
  cases hh : ordH (hotElems nodesOf els s.perm (ordC s.cache)) with
  | nil =>
    rw [nextElem]
    obtain ⟨e, h1, h2, h3⟩ := argMin_spec (fun e => if e ∈ s.perm then maxU else (els[e]?).elim 0 (connect nodesOf els))
      (List.range els.length) (by intro hc; rw [List.range_eq_nil] at hc; omega)
    rw [List.mem_range] at h1
    refine ⟨e, h1, fun hmem => ?_, h2⟩
    have hex : ∃ x ∈ List.range els.length, x ∉ s.perm := by
      by_contra hc
      push Not at hc
      have hsub : List.range els.length ⊆ s.perm := hc
      have := (List.subperm_of_subset List.nodup_range hsub).length_le
      rw [List.length_range] at this; omega
    obtain ⟨x, hx, hxn⟩ := hex
    have h4 := h3 x hx
    rw [if_pos hmem, if_neg hxn, List.getElem?_eq_getElem (List.mem_range.1 hx)] at h4
    simp only [Option.elim] at h4
    have h5 := hcon _ (List.getElem_mem (List.mem_range.1 hx))
    rw [connect_eq h5] at h4
    unfold maxU at h4; omega
  | cons h hs =>
    rw [nextElem]
    obtain ⟨p, hp, e⟩ := argMax_mem (crit := fun p : Nat × Nat => (p.2, maxU - (els[p.1]?).elim 0 (connect nodesOf els))) (a := h) (l := hs)
    rw [← hh] at hp
    have := mem_hotElems ((hH _).mem_iff.1 hp)
    exact ⟨p.1, this.1, this.2, by rw [e]; rfl⟩

theorem loop_spec {nodesOf : α → List Nat} {els : List α} (hcon : ∀ a ∈ els, incidences nodesOf els a < 2 ^ 32 - 1)
    {ord : Orders} (hord : ∀ k l, ((ord k).2 l).Perm l) (c : Cache) (k : Nat) (hk : k ≤ els.length) :
    ∃ s, loop nodesOf els ord k ⟨[], c⟩ = some s ∧ s.perm.Nodup ∧ (∀ e ∈ s.perm, e < els.length) ∧ s.perm.length = k := by
  induction k with
  | zero => exact ⟨⟨[], c⟩, rfl, by simp, by simp, rfl⟩
  | succ k ih =>
    obtain ⟨s, h1, h2, h3, h4⟩ := ih (by omega)
    obtain ⟨e, c', h5, h6, h7⟩ := step_spec hcon (ordC := (ord k).1) (hord k) s h2 h3 (by omega)
    refine ⟨⟨s.perm ++ [e], c'⟩, by rw [loop, h1, Option.bind_some, h5], ?_, ?_, by simp [h4]⟩
    · simp only
      rw [List.nodup_append]
      refine ⟨h2, by simp, fun x hx y hy => ?_⟩
      simp only [List.mem_singleton] at hy; subst hy
      rintro rfl; exact h7 hx
    · simp only [List.mem_append, List.mem_singleton]
      rintro x (hx | rfl)
      · exact h3 x hx
      · exact h6

theorem foldl_max_le (l : List Nat) (a M : Nat) (ha : a ≤ M) (h : ∀ x ∈ l, x ≤ M) : l.foldl max a ≤ M := by
  induction l generalizing a with
  | nil => exact ha
  | cons x l ih =>
    rw [List.foldl_cons]
    exact ih _ (by have := h x (by simp); omega) fun y hy => h y (by simp [hy])

/-- **C25**: whatever the iteration orders of the hash tables (and hence the resolution of ties), and
whatever is in the cache model at the start, the reordering succeeds and returns the same elements in
another order. -/
theorem C25_reorder_perm (nodesOf : α → List Nat) (ord : Orders) (hord : ∀ k l, ((ord k).2 l).Perm l)
    (els : List α) (c : Cache) (hnodes : ∀ a ∈ els, ∀ x ∈ nodesOf a, x < 2 ^ 32 - 1)
    (hcon : ∀ a ∈ els, incidences nodesOf els a < 2 ^ 32 - 1) :
    ∃ out c', reorder nodesOf ord els c = some (out, c') ∧ out.Perm els := by
  obtain ⟨s, h1, h2, h3, h4⟩ := loop_spec hcon hord c els.length (Nat.le_refl _)
  have hrows : ¬ (els ≠ [] ∧ nRows nodesOf els = 0) := by
    rintro ⟨_, h0⟩
    unfold nRows u32 at h0
    have := foldl_max_le (els.flatMap nodesOf) 0 (2 ^ 32 - 2) (by omega) (fun x hx => by
      obtain ⟨a, ha, hx⟩ := List.mem_flatMap.1 hx
      have := hnodes a ha x hx; omega)
    rw [Nat.mod_eq_of_lt (by omega)] at h0; omega
  have hperm : s.perm.Perm (List.range els.length) := by
    refine (List.subperm_of_subset h2 fun e he => List.mem_range.2 (h3 e he)).perm_of_length_le ?_
    rw [List.length_range]; omega
  have hm : s.perm.mapM (fun e => els[e]?) = some (s.perm.filterMap fun e => els[e]?) := by
    have : ∀ l : List Nat, (∀ e ∈ l, e < els.length) → l.mapM (fun e => els[e]?) = some (l.filterMap fun e => els[e]?) := by
      intro l hl
      induction l with
      | nil => rfl
      | cons e l ih =>
        rw [List.mapM_cons, List.getElem?_eq_getElem (hl e (by simp)), ih fun x hx => hl x (by simp [hx]),
          List.filterMap_cons_some (List.getElem?_eq_getElem (hl e (by simp)))]
        rfl
    exact this _ h3
  refine ⟨s.perm.filterMap fun e => els[e]?, s.cache, ?_, ?_⟩
  · unfold reorder
    rw [if_neg hrows, h1, Option.bind_some, hm]; rfl
  · refine (hperm.filterMap _).trans (List.Perm.of_eq ?_)
    apply List.ext_getElem?
    intro i
    have : (List.range els.length).filterMap (fun e => els[e]?) = els := by
      have h2 : List.range els.length = els.zipIdx.map Prod.snd := by simp [List.range_eq_range']
      rw [h2, List.filterMap_map]
      have : ∀ p ∈ els.zipIdx, ((fun e => els[e]?) ∘ Prod.snd) p = (some ∘ Prod.fst) p := fun p hp => by
        simpa using List.mem_zipIdx_iff_getElem?.1 hp
      rw [List.filterMap_congr this, List.filterMap_eq_map]; simp
    rw [this]

/-- Three line elements in a row, listed out of order; node 7 is left in the cache by another domain. -/
example : reorder (fun l : List Nat => l) (fun _ => (id, List.reverse)) [[0, 1], [2, 3], [1, 2]] [(7, 16), (3, 2)] =
    some ([[2, 3], [1, 2], [0, 1]], [(7, 2), (3, 2), (2, 4), (0, 8), (1, 8)]) := by decide +kernel

example : ∀ a ∈ [[0, 1], [2, 3], [1, 2]], incidences (fun l : List Nat => l) [[0, 1], [2, 3], [1, 2]] a < 2 ^ 32 - 1 := by decide +kernel

end Verif.LocView
