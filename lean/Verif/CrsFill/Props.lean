import Verif.CrsFill.Setup

/-! # C132: what is handed to Tpetra -/
namespace Verif.CrsFill

open Verif Own Sparsity

section
variable {w : Own.World} {own : Nat → SegOwn} {elems : Nat → List (List Nat)} {rows : Nat → Nat → List Nat}

/-- C132: on every rank, whatever the order in which messages arrive and hash maps are iterated, everything handed to Tpetra is accepted: shared columns are not owned, all rows and columns have local indices, and the rows get
exactly as many entries as was reserved for them, ascending and without repetition. The row of an owned dof contains, by the column map, exactly the dofs with which it shares an element on any rank; the row of a shared dof those with
which it does on this rank. -/
theorem C132_graph (S : Setup w own elems rows) (me : Nat) (hme : me < w.counts.length) (order : List Nat) (horder : order.Perm ((exchange w own elems).inNbrs me)) :
    ∃ extra, (exchange w own elems).receive rows me order = some extra ∧
      ∀ keys keys', IsKeys (exchange w own elems) me order keys → IsKeys (exchange w own elems) me order keys' →
      ∃ col sizes graph, makeGraph (own me) (rows me) extra keys keys' = some (col, graph) ∧ rowSizes (own me) (rows me) extra keys' = some sizes ∧
        graph.length = (own me).localSize ∧
        ∀ lid g : Nat, (mapAll (own me))[lid]? = some g → ∃ row, graph[lid]? = some row ∧ row.Pairwise (· < ·) ∧ sizes[lid]? = some row.length ∧
          ∀ h, (∃ c ∈ row, (mapAll col)[c]? = some h) ↔
            if lid < (own me).cnt then ∃ r < w.counts.length, ∃ el ∈ elems r, g ∈ el ∧ h ∈ el else ∃ el ∈ elems me, g ∈ el ∧ h ∈ el := by
  obtain ⟨extra, he, hn, hx⟩ := S.receive me order
  refine ⟨extra, he, fun keys keys' hk hk' => ?_⟩
  have W := S.wf me
  have hempty : ∀ ks, IsKeys (exchange w own elems) me order ks → ∀ g, g ∉ ks → extra g = [] := by
    intro ks hks g hg
    rw [List.eq_nil_iff_forall_not_mem]
    intro x hxg
    obtain ⟨r, hr, h1, -⟩ := (hx g x).1 hxg
    exact hg ((hks.2 g).2 ⟨r, hr, h1⟩)
  obtain ⟨col, hcol, Wc, hcnt, -, hmem⟩ := colOwn_spec W extra keys
  obtain ⟨sizes, hs, hsz⟩ := rowSizes_spec W (rows me) extra keys' hk'.1 (fun g hg => by
    obtain ⟨r, -, h⟩ := (hk'.2 g).1 hg
    exact mem_mapAll.2 (.inl (S.sent h).2)) (hempty keys' hk')
  have hin : ∀ g, ∀ h ∈ rows me g ++ extra g, h ∈ mapAll col := by
    intro g h hh
    rcases List.mem_append.1 hh with hh | hh
    · obtain ⟨el, hel, -, hd⟩ := ((S.local me g).2 h).1 hh
      exact (hmem h).2 (.inl (S.dofs me el hel h hd))
    · refine (hmem h).2 (.inr ⟨g, ?_, hh⟩)
      by_contra hg
      rw [hempty keys hk g hg] at hh
      simp at hh
  -- each row
  have hrow : ∀ lid g : Nat, (mapAll (own me))[lid]? = some g → ∃ row,
      ((sizes[lid]?).bind fun cap => (rowLids (own me) col (rows me) extra lid).bind (insertRow cap col.localSize)) = some row ∧
      row.Pairwise (· < ·) ∧ sizes[lid]? = some row.length ∧ ∀ h, h ∈ rows me g ++ extra g ↔ ∃ c ∈ row, (mapAll col)[c]? = some h := by
    intro lid g hg
    obtain ⟨row, e1, e2, e3, e4, e5⟩ := rowLids_spec Wc hg (hn g) (hin g)
    refine ⟨row, ?_, e2, by rw [hsz lid g hg, e3], e5⟩
    rw [hsz lid g hg, Option.bind_some, e1, Option.bind_some, insertRow, if_pos]
    exact ⟨by omega, List.all_eq_true.2 fun c hc => by simpa using e4 c hc⟩
  have hall : ∀ lid, lid < (own me).localSize → ∃ g, (mapAll (own me))[lid]? = some g := fun lid hl =>
    ⟨_, List.getElem?_eq_getElem (by rw [length_mapAll]; exact hl)⟩
  have hM : ((List.range (own me).localSize).mapM fun lid => (sizes[lid]?).bind fun cap => (rowLids (own me) col (rows me) extra lid).bind (insertRow cap col.localSize)) =
      some ((List.range (own me).localSize).map fun lid => ((sizes[lid]?).bind fun cap => (rowLids (own me) col (rows me) extra lid).bind (insertRow cap col.localSize)).getD []) := by
    refine Own.mapM_some _ _ _ fun lid hl => ?_
    obtain ⟨g, hg⟩ := hall lid (List.mem_range.1 hl)
    obtain ⟨row, hr, -⟩ := hrow lid g hg
    rw [hr]; rfl
  refine ⟨col, sizes, _, by rw [makeGraph, hcol, Option.bind_some, hs, Option.bind_some, hM]; rfl, hs, by simp, fun lid g hg => ?_⟩
  have hl : lid < (own me).localSize := by rw [← length_mapAll]; exact (List.getElem?_eq_some_iff.1 hg).1
  obtain ⟨row, hr, h1, h2, h3⟩ := hrow lid g hg
  refine ⟨row, ?_, h1, h2, fun h => ?_⟩
  · rw [List.getElem?_map, List.getElem?_range hl, Option.map_some, hr]; rfl
  · rw [← h3]
    have hgm := List.mem_of_getElem? hg
    have howned : lid < (own me).cnt ↔ (own me).first ≤ g ∧ g < (own me).first + (own me).cnt := by
      rw [← getGlobal_eq] at hg
      unfold SegOwn.getGlobal at hg
      constructor
      · intro hlt; rw [if_pos hlt] at hg; injection hg with hg; omega
      · intro ho
        by_contra hlt
        rw [if_neg hlt] at hg
        exact W.apart g (List.mem_of_getElem? hg) ho
    rw [List.mem_append, (S.local me g).2, hx]
    by_cases ho : lid < (own me).cnt
    · rw [if_pos ho]
      have hog := (S.owner hgm me).2 (howned.1 ho)
      constructor
      · rintro (⟨el, h4⟩ | ⟨r, hr, -, h5, -⟩)
        · exact ⟨me, hme, el, h4⟩
        · have hr := (List.mem_filter.1 (horder.mem_iff.1 hr)).1
          exact ⟨r, List.mem_range.1 hr, ((S.local r g).2 h).1 h5⟩
      · rintro ⟨r, hr, el, hel, hgel, hhel⟩
        by_cases hloc : ∃ el ∈ elems me, g ∈ el ∧ h ∈ el
        · exact .inl hloc
        · right
          have hrm : r ≠ me := fun e => hloc ⟨el, e ▸ hel, hgel, hhel⟩
          have hgs : g ∈ (exchange w own elems).rowsFor r me := by
            refine List.mem_filter.2 ⟨(S.shared r g).2 ⟨S.dofs r el hel g hgel, ?_⟩, beq_iff_eq.2 hog⟩
            rw [hog]; exact Ne.symm hrm
          refine ⟨r, horder.mem_iff.2 (List.mem_filter.2 ⟨List.mem_range.2 hr, ?_⟩), hgs, ((S.local r g).2 h).2 ⟨el, hel, hgel, hhel⟩, fun hh => hloc (((S.local me g).2 h).1 hh)⟩
          cases hlr : (exchange w own elems).rowsFor r me with
          | nil => rw [hlr] at hgs; cases hgs
          | cons _ _ => rfl
    · rw [if_neg ho]
      refine ⟨fun h4 => h4.resolve_right ?_, .inl⟩
      rintro ⟨r, -, h5, -⟩
      exact ho (howned.2 (S.sent h5).2)

/-- C132 (maps): the column map has every index once and begins with the owned ones, which are those that Tpetra gives to the rank from the counts alone; so does the map of all rows. -/
theorem C132_maps (S : Setup w own elems rows) (me : Nat) (extra : Extra) (keys : List Nat) :
    ∃ col, colOwn (own me) extra keys = some col ∧ (mapAll col).Nodup ∧ (mapAll (own me)).Nodup ∧ (mapAll col).take col.cnt = mapOwned w.counts me ∧
      (mapAll (own me)).take (own me).cnt = mapOwned w.counts me ∧ ∀ g ∈ mapAll (own me), g ∈ mapAll col := by
  obtain ⟨col, h1, h2, -, h4, h5⟩ := colOwn_spec (S.wf me) extra keys
  have h6 : (mapAll (own me)).take (own me).cnt = mapOwned w.counts me := by
    rw [mapAll, List.take_append_of_le_length (by simp), List.take_of_length_le (by simp), S.shape me]
    rfl
  exact ⟨col, h1, h2.nodup, (S.wf me).nodup, h4.trans h6, h6, fun g hg => (h5 g).2 (.inl hg)⟩

end

/-! ### Two ranks: dofs 0 and 1 belong to the first, 2 to the second; elements {0, 1} and {1, 2} -/

def sampleW : Own.World := ⟨[2, 1], [[], [1]]⟩
def sampleOwn (r : Nat) : SegOwn := if r = 0 then ⟨0, 2, []⟩ else if r = 1 then ⟨2, 1, [1]⟩ else ⟨3, 0, []⟩
def sampleElems (r : Nat) : List (List Nat) := if r = 0 then [[0, 1]] else if r = 1 then [[1, 2]] else []
def sampleRows (r g : Nat) : List Nat :=
  if r = 0 ∧ (g = 0 ∨ g = 1) then [0, 1] else if r = 1 ∧ (g = 1 ∨ g = 2) then [1, 2] else []

theorem sample_setup : Setup sampleW sampleOwn sampleElems sampleRows := by
  refine ⟨⟨rfl, by decide, ?_⟩, by decide, ?_, ?_, ?_⟩
  · intro r h
    have : r = 0 ∨ r = 1 := by simp [sampleW] at h; omega
    rcases this with rfl | rfl <;> simp [sampleW, Own.World.begin]
  · intro r
    match r with
    | 0 => decide
    | 1 => decide
    | r + 2 => simp [Own.World.own, sampleW, sampleOwn, Own.World.begin, SegOwn.make, Std.sort]
  · intro r
    match r with
    | 0 => decide
    | 1 => decide
    | r + 2 => simp [sampleElems]
  · intro r
    match r with
    | 0 =>
      refine ⟨tasks (sampleOwn 0).getLocal (sampleElems 0), [.reserve 1, .reserve 0, .write 0 1, .write 1 0, .write 1 1, .write 0 0], _, List.Perm.refl _, rfl, ?_, ?_, ?_⟩
      · intro i t ht
        have : i = 0 ∨ i = 1 := by have := (List.getElem?_eq_some_iff.1 ht).1; simp [tasks, sampleElems] at this; omega
        rcases this with rfl | rfl <;> (injection ht with ht; subst ht; decide)
      · intro g hg
        have : g = 0 ∨ g = 1 := by simpa [mapAll, sampleOwn, List.range'] using hg
        rcases this with rfl | rfl <;> exact ⟨[0, 1], by decide +kernel, by decide +kernel⟩
      · intro g hg
        have : ¬ (g = 0 ∨ g = 1) := by simpa [mapAll, sampleOwn, List.range'] using hg
        simp [sampleRows, this]
    | 1 =>
      refine ⟨tasks (sampleOwn 1).getLocal (sampleElems 1), [.reserve 1, .reserve 0, .write 0 1, .write 1 0, .write 1 1, .write 0 0], _, List.Perm.refl _, rfl, ?_, ?_, ?_⟩
      · intro i t ht
        have : i = 0 ∨ i = 1 := by have := (List.getElem?_eq_some_iff.1 ht).1; simp [tasks, sampleElems] at this; omega
        rcases this with rfl | rfl <;> (injection ht with ht; subst ht; decide)
      · intro g hg
        have : g = 2 ∨ g = 1 := by simpa [mapAll, sampleOwn, List.range'] using hg
        rcases this with rfl | rfl <;> exact ⟨[1, 2], by decide +kernel, by decide +kernel⟩
      · intro g hg
        have : ¬ (g = 2 ∨ g = 1) := by simpa [mapAll, sampleOwn, List.range'] using hg
        simp [sampleRows]; omega
    | r + 2 =>
      refine ⟨[], [], _, List.Perm.refl _, rfl, ?_, ?_, ?_⟩
      · intro i t ht; simp [tasks, sampleElems] at ht
      · intro g hg; simp [mapAll, sampleOwn] at hg
      · intro g _; simp [sampleRows]

/-- Rank 1 sends its row of dof 1 to rank 0, which then has a column for dof 2. -/
example : (exchange sampleW sampleOwn sampleElems).inNbrs 0 = [1] ∧ IsKeys (exchange sampleW sampleOwn sampleElems) 0 [1] [1] ∧
    makeGraph (sampleOwn 0) (sampleRows 0) (fun g => if g = 1 then [2] else []) [1] [1] = some (⟨0, 2, [2]⟩, [[0, 1], [0, 1, 2]]) ∧
    makeGraph (sampleOwn 1) (sampleRows 1) (fun _ => []) [] [] = some (⟨2, 1, [1]⟩, [[0, 1], [0, 1]]) := by
  refine ⟨by decide +kernel, ⟨by decide, fun g => ?_⟩, by decide +kernel, by decide +kernel⟩
  have : (exchange sampleW sampleOwn sampleElems).rowsFor 1 0 = [1] := by decide +kernel
  simp [this]

end Verif.CrsFill
