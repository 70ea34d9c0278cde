import Verif.Sparsity.Lemmas

/-! # C51: sparsity pattern -/
namespace Verif.Sparsity

/-- `rows` is a local graph that `computeLocalGraph` (25-81) can return on a rank with local dofs `locals` and the given elements:
row sizes counted in some order, slots reserved and filled in some interleaving, rows sorted and repetitions removed. -/
def IsLocalGraph (g2l : Nat → Nat) (locals : List Nat) (elems : List (List Nat)) (rows : Nat → List Nat) : Prop :=
  ∃ order es s, order.Perm (tasks g2l elems) ∧ frun (tasks g2l elems) (countRows order) (Fill.init (countRows order)) es = some s ∧
    Complete (tasks g2l elems) es ∧ (∀ g ∈ locals, ∃ row, readRow (countRows order) s (g2l g) = some row ∧ rows g = finishRow row) ∧
    ∀ g, g ∉ locals → rows g = []

theorem size_eq {ts order : List Task} (h : order.Perm ts) (r : Nat) : countRows order r = used ts r (List.range ts.length) := by
  rw [countRows_eq, used_range]
  exact (h.map _).sum_eq

/-- C51 (no undefined behaviour): at any moment of any interleaving a task that has not reserved its slot can do so without
driving the counter below zero, and a task that has reserved copies inside of its row. -/
theorem C51_defined {ts order : List Task} (hp : order.Perm ts) {es : List Ev} {s : Fill}
    (hs : frun ts (countRows order) (Fill.init (countRows order)) es = some s) (i : Nat) (t : Task) (ht : ts[i]? = some t) :
    (s.pos i = none → fstep ts (countRows order) s (.reserve i) ≠ none) ∧
    (s.pos i ≠ none → ∀ k < t.dofs.length, fstep ts (countRows order) s (.write i k) ≠ none) := by
  obtain ⟨ord, ho⟩ := finv_run es hs
  have hi : i < ts.length := (List.getElem?_eq_some_iff.1 ht).1
  constructor
  · intro hn
    have hni : i ∉ ord := fun hm => (ho.mem i).1 hm hn
    have hle : used ts t.row (ord ++ [i]) ≤ used ts t.row (List.range ts.length) := by
      refine used_le ?_ ?_
      · rw [List.nodup_append]
        refine ⟨ho.nodup, by simp, ?_⟩
        intro a ha b hb
        rw [List.mem_singleton.1 hb]; rintro rfl; exact hni ha
      · intro j hj
        rcases List.mem_append.1 hj with hj | hj
        · exact List.mem_range.2 (ho.lt j hj)
        · rw [List.mem_singleton.1 hj]; exact List.mem_range.2 hi
    rw [← size_eq hp, used_append, used_cons, rowOf_eq ht, if_pos rfl, dofsOf_eq ht] at hle
    have := ho.rem t.row
    simp only [fstep, ht]
    rw [if_pos ⟨hn, by omega⟩]
    simp
  · intro hn k hk
    have him := (ho.mem i).2 hn
    obtain ⟨a, b, hab⟩ := List.append_of_mem him
    have hpos := ho.pos a i b hab
    have hle : used ts t.row ord ≤ used ts t.row (List.range ts.length) :=
      used_le ho.nodup fun j hj => List.mem_range.2 (ho.lt j hj)
    rw [← size_eq hp, hab, used_append, used_cons, rowOf_eq ht, if_pos rfl, dofsOf_eq ht] at hle
    rw [rowOf_eq ht] at hpos
    simp only [fstep, ht, hpos, List.getElem?_eq_getElem hk]
    rw [if_pos (by omega)]
    simp

/-- C51 (local graph): for every interleaving the loop ends with all counters zero (the assertion on line 69 holds), every row is
completely initialised, and the row of a dof is ascending without repetition and contains exactly the dofs that share an element
with it. -/
theorem C51_local {g2l : Nat → Nat} {locals : List Nat} {elems : List (List Nat)} (hinj : ∀ a ∈ locals, ∀ b ∈ locals, g2l a = g2l b → a = b)
    (hel : ∀ el ∈ elems, ∀ d ∈ el, d ∈ locals) {order : List Task} (hp : order.Perm (tasks g2l elems)) {es : List Ev} {s : Fill}
    (hs : frun (tasks g2l elems) (countRows order) (Fill.init (countRows order)) es = some s) (hc : Complete (tasks g2l elems) es) :
    (∀ r, s.rem r = 0) ∧ ∀ g ∈ locals, ∃ row, readRow (countRows order) s (g2l g) = some row ∧ (finishRow row).Pairwise (· < ·) ∧
      ∀ h, h ∈ finishRow row ↔ ∃ el ∈ elems, g ∈ el ∧ h ∈ el := by
  obtain ⟨ord, h1, h2, h3⟩ := row_filled (size_eq hp) hs hc
  refine ⟨h2, fun g hg => ⟨_, h3 (g2l g), Std.sortUniq_strict _, fun h => ?_⟩⟩
  rw [finishRow, Std.mem_sortUniq, mem_flat h1]
  constructor
  · rintro ⟨t, ht, hr, hh⟩
    obtain ⟨el, he, ht⟩ := List.mem_flatMap.1 ht
    obtain ⟨d, hd, rfl⟩ := List.mem_map.1 ht
    have := hinj d (hel el he d hd) g hg hr
    subst this
    exact ⟨el, he, hd, hh⟩
  · rintro ⟨el, he, hgel, hh⟩
    exact ⟨⟨g2l g, el⟩, List.mem_flatMap.2 ⟨el, he, List.mem_map.2 ⟨g, hgel, rfl⟩⟩, rfl, hh⟩

theorem localGraph_spec {g2l : Nat → Nat} {locals : List Nat} {elems : List (List Nat)} {rows : Nat → List Nat} (hinj : ∀ a ∈ locals, ∀ b ∈ locals, g2l a = g2l b → a = b)
    (hel : ∀ el ∈ elems, ∀ d ∈ el, d ∈ locals) (h : IsLocalGraph g2l locals elems rows) (g : Nat) :
    (rows g).Pairwise (· < ·) ∧ ∀ x, x ∈ rows g ↔ ∃ el ∈ elems, g ∈ el ∧ x ∈ el := by
  obtain ⟨order, es, s, hp, hs, hc, h1, h2⟩ := h
  obtain ⟨-, h3⟩ := C51_local hinj hel hp hs hc
  by_cases hg : g ∈ locals
  · obtain ⟨row, hr, hrow⟩ := h1 g hg
    obtain ⟨row', hr', h4, h5⟩ := h3 g hg
    rw [hr] at hr'
    obtain rfl := Option.some.inj hr'
    rw [hrow]
    exact ⟨h4, h5⟩
  · rw [h2 g hg]
    refine ⟨List.Pairwise.nil, fun x => ⟨fun hx => absurd hx (by simp), ?_⟩⟩
    rintro ⟨el, he, hgel, -⟩
    exact absurd (hel el he g hgel) hg

/-- C51 (exchange format): what a rank sends is read back exactly by the owner and passes its assertions. -/
theorem C51_exchange (rows : List Nat) (ent : Nat → List Nat) (hn : rows.Nodup) : parse (serialize rows ent) = some (rows.map fun r => (r, ent r)) :=
  parse_serialize rows ent hn

/-- C51 (whole graph): with local graphs built in any interleaving on every rank, and messages received in any order, the row of an
owned dof — local entries followed by the entries of the neighbours — has no repetition and contains exactly the dofs that share an
element with it on any rank. -/
theorem C51_global (w : World) (g2l : Nat → Nat → Nat) (locals : Nat → List Nat) (rows : Nat → Nat → List Nat)
    (hinj : ∀ r, ∀ a ∈ locals r, ∀ b ∈ locals r, g2l r a = g2l r b → a = b) (hel : ∀ r, ∀ el ∈ w.elems r, ∀ d ∈ el, d ∈ locals r)
    (hsh : ∀ r, (w.shared r).Nodup) (hshared : ∀ r < w.nr, ∀ d, d ∈ w.shared r ↔ d ∈ locals r ∧ w.owner d ≠ r)
    (hgraph : ∀ r, IsLocalGraph (g2l r) (locals r) (w.elems r) (rows r))
    (me : Nat) (hme : me < w.nr) (order : List Nat) (horder : order.Perm (w.inNbrs me)) :
    ∃ extra, w.receive rows me order = some extra ∧ ∀ g, w.owner g = me →
      (rows me g).Pairwise (· < ·) ∧ (extra g).Pairwise (· < ·) ∧ (rows me g ++ extra g).Nodup ∧
      ∀ h, h ∈ rows me g ++ extra g ↔ ∃ r < w.nr, ∃ el ∈ w.elems r, g ∈ el ∧ h ∈ el := by
  have hspec := fun r g => localGraph_spec (hinj r) (hel r) (hgraph r) g
  obtain ⟨out, h1, h2, h3⟩ := receive_spec w rows me (fun r g => (hspec r g).1) hsh order (cur := fun _ => []) (fun g => ⟨List.Pairwise.nil, by simp⟩)
  refine ⟨out, h1, fun g hg => ⟨(hspec me g).1, (h2 g).1, ?_, fun h => ?_⟩⟩
  · rw [List.nodup_append]
    refine ⟨Std.nodup_of_strict (hspec me g).1, Std.nodup_of_strict (h2 g).1, ?_⟩
    intro a ha b hb
    rintro rfl
    exact (h2 g).2 a hb ha
  · rw [List.mem_append, h3, (hspec me g).2]
    constructor
    · rintro (⟨el, he, h4⟩ | h | ⟨r, hr, h4, h5, -⟩)
      · exact ⟨me, hme, el, he, h4⟩
      · simp at h
      · have hr := (List.mem_filter.1 (horder.mem_iff.1 hr)).1
        obtain ⟨el, he, h6⟩ := ((hspec r g).2 h).1 h5
        exact ⟨r, List.mem_range.1 hr, el, he, h6⟩
    · rintro ⟨r, hr, el, he, hgel, hhel⟩
      by_cases hrm : r = me
      · subst hrm; exact Or.inl ⟨el, he, hgel, hhel⟩
      · by_cases hin : ∃ el ∈ w.elems me, g ∈ el ∧ h ∈ el
        · exact Or.inl hin
        · right; right
          have hgs : g ∈ w.rowsFor r me := by
            refine List.mem_filter.2 ⟨(hshared r hr g).2 ⟨hel r el he g hgel, ?_⟩, by simp [hg]⟩
            rw [hg]; exact Ne.symm hrm
          refine ⟨r, horder.mem_iff.2 (List.mem_filter.2 ⟨List.mem_range.2 hr, ?_⟩), hgs, ((hspec r g).2 h).2 ⟨el, he, hgel, hhel⟩, ?_⟩
          · cases hl : w.rowsFor r me with
            | nil => rw [hl] at hgs; cases hgs
            | cons _ _ => rfl
          · exact hin

/-- Two elements sharing dof 1; the tasks of the second element reserve first and copies interleave. -/
example : ∃ s, frun (tasks id [[0, 1], [1, 2]]) (countRows (tasks id [[0, 1], [1, 2]])) (Fill.init (countRows (tasks id [[0, 1], [1, 2]])))
    [.reserve 2, .reserve 1, .write 1 0, .write 2 0, .reserve 3, .write 1 1, .write 2 1, .reserve 0, .write 0 1, .write 3 0, .write 0 0, .write 3 1] = some s ∧
    (readRow (countRows (tasks id [[0, 1], [1, 2]])) s 1) = some [1, 2, 0, 1] ∧ finishRow [1, 2, 0, 1] = [0, 1, 2] := by
  refine ⟨_, rfl, by decide, by decide⟩

example : append (fun _ => [1, 2]) (fun _ => []) (serialize [7, 9] fun r => if r = 7 then [1, 3, 5] else [2]) ≠ none ∧
    (append (fun _ => [1, 2]) (fun _ => []) (serialize [7, 9] fun r => if r = 7 then [1, 3, 5] else [2])).map (· 7) = some [3, 5] := by
  unfold append
  rw [C51_exchange _ _ (by decide)]
  refine ⟨by simp, ?_⟩
  simp [insertRow, setDiff, Function.update_apply]

end Verif.Sparsity
