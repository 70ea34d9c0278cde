import Verif.Dirichlet.Model
import Mathlib.Data.List.Induction
import Mathlib.Tactic.Ring
import Mathlib.Tactic.LinearCombination

namespace Verif.Dirichlet
open Verif

variable {K : Type} [Field K]

theorem slice_flatten {α} (L : List (List α)) {r : Nat} (h : r < L.length) :
    (L.flatten.take (L.take (r + 1)).flatten.length).drop (L.take r).flatten.length = L[r] := by
  have h1 : L.flatten = (L.take (r + 1)).flatten ++ (L.drop (r + 1)).flatten := by
    rw [← List.flatten_append, List.take_append_drop]
  have h2 : (L.take (r + 1)).flatten = (L.take r).flatten ++ L[r] := by
    rw [List.take_succ_eq_append_getElem h, List.flatten_append]; simp
  rw [h1, List.take_left', h2, List.drop_left']
  · rfl
  · rfl

/-- Positions of row `r` of the list of rows. -/
def posOf (bc : Nat → Bool) (sub : Nat → List Nat) (q : Row K × Nat) : List Nat := if bc q.2 then [] else rowInds (sub q.2) q.1

omit [Field K] in
theorem construct_spec (bc : Nat → Bool) (sub : Nat → List Nat) (rows : List (Row K)) :
    (construct bc sub rows).owned = (List.range rows.length).filter bc ∧
    (construct bc sub rows).inds = (rows.zipIdx.map (posOf bc sub)).flatten ∧
    (construct bc sub rows).offsets = (List.range (rows.length + 1)).map
      (fun r => ((rows.zipIdx.map (posOf bc sub)).take r).flatten.length) := by
  induction rows using List.reverseRecOn with
  | nil => simp [construct]
  | append_singleton l row ih =>
    obtain ⟨h1, h2, h3⟩ := ih
    have hstep : construct bc sub (l ++ [row]) =
        if bc l.length then ⟨(construct bc sub l).owned ++ [l.length], (construct bc sub l).inds,
          (construct bc sub l).offsets ++ [(construct bc sub l).offsets.getLastD 0]⟩
        else ⟨(construct bc sub l).owned, (construct bc sub l).inds ++ rowInds (sub l.length) row,
          (construct bc sub l).offsets ++ [(construct bc sub l).offsets.getLastD 0 + (sub l.length).length]⟩ := by
      unfold construct; rw [List.zipIdx_append, List.foldl_append]; simp
    have hlast : (construct bc sub l).offsets.getLastD 0 = (l.zipIdx.map (posOf bc sub)).flatten.length := by
      rw [h3, List.range_succ, List.map_append, List.getLastD_eq_getLast?]
      rw [List.map_singleton, List.getLast?_concat, Option.getD_some, List.take_of_length_le (by simp)]
    have hz : (l ++ [row]).zipIdx.map (posOf bc sub) = l.zipIdx.map (posOf bc sub) ++ [posOf bc sub (row, l.length)] := by
      rw [List.zipIdx_append]; simp
    have hoff : (List.range ((l ++ [row]).length + 1)).map
        (fun r => (((l ++ [row]).zipIdx.map (posOf bc sub)).take r).flatten.length) =
        (construct bc sub l).offsets ++ [(construct bc sub l).offsets.getLastD 0 + (posOf bc sub (row, l.length)).length] := by
      rw [hlast, h3, hz, List.length_append, List.length_singleton, List.range_succ, List.map_append, List.map_singleton]
      congr 1
      · apply List.map_congr_left
        intro r hr
        rw [List.mem_range] at hr
        rw [List.take_append_of_le_length (by simp; omega)]
      · rw [List.take_of_length_le (by simp)]; simp
    have hpl : (posOf bc sub (row, l.length)).length = if bc l.length then 0 else (sub l.length).length := by
      unfold posOf rowInds; split <;> simp
    rw [hoff, hz, hpl, hstep, List.length_append, List.length_singleton, List.range_succ, List.filter_append, List.flatten_append,
      ← h1, ← h2]
    by_cases hb : bc l.length
    · simp [hb, posOf]
    · simp [hb, posOf]

omit [Field K] in
theorem colInds_eq (bc : Nat → Bool) (sub : Nat → List Nat) (rows : List (Row K)) {r : Nat} (h : r < rows.length) :
    (construct bc sub rows).colInds r = posOf bc sub (rows[r], r) := by
  obtain ⟨-, h2, h3⟩ := construct_spec bc sub rows
  unfold Data.colInds
  rw [h2, h3]
  have e : ∀ i, i ≤ rows.length → ((List.range (rows.length + 1)).map
      (fun r => ((rows.zipIdx.map (posOf bc sub)).take r).flatten.length)).getD i 0 =
      ((rows.zipIdx.map (posOf bc sub)).take i).flatten.length := by
    intro i hi
    rw [List.getD_eq_getElem?_getD, List.getElem?_eq_getElem (by simp; omega)]; simp
  rw [e _ (by omega), e _ (by omega), slice_flatten _ (by simpa using h)]
  simp

omit [Field K] in
theorem owned_iff (bc : Nat → Bool) (sub : Nat → List Nat) (rows : List (Row K)) {r : Nat} (h : r < rows.length) :
    Std.binarySearch (construct bc sub rows).owned r = true ↔ bc r = true := by
  rw [(construct_spec bc sub rows).1, Std.binarySearch_iff]
  · simp [h]
  · exact (List.pairwise_lt_range.imp fun h => le_of_lt h).filter _

omit [Field K] in
theorem getElem_findIdx {row : Row K} {c : Nat} (h : c ∈ row.map (·.1)) :
    ∃ hl : row.findIdx (fun e => decide (e.1 = c)) < row.length, (row[row.findIdx (fun e => decide (e.1 = c))]).1 = c := by
  have hl : row.findIdx (fun e => decide (e.1 = c)) < row.length := by
    rw [List.findIdx_lt_length]
    obtain ⟨e, he, rfl⟩ := List.mem_map.1 h
    exact ⟨e, he, by simp⟩
  refine ⟨hl, ?_⟩
  have := List.findIdx_getElem (w := hl)
  simpa using this

theorem zero_foldl (cols : List Nat) (row : Row K) :
    cols.foldl (fun row c => row.map fun e => if e.1 = c then (e.1, 0) else e) row =
      row.map fun e => if e.1 ∈ cols then (e.1, 0) else e := by
  induction cols generalizing row with
  | nil => simp
  | cons c t ih =>
    rw [List.foldl_cons, ih, List.map_map]
    apply List.map_congr_left
    rintro ⟨a, v⟩ -
    by_cases h1 : a = c <;> by_cases h2 : a ∈ t <;> simp [h1, h2]
    all_goals (subst h1; simp [h2])

theorem zeroCols_eq {cols : List Nat} {row : Row K} (h : ∀ c ∈ cols, c ∈ row.map (·.1)) :
    zeroCols (rowInds cols row) row = row.map fun e => if e.1 ∈ cols then (e.1, 0) else e := by
  unfold zeroCols rowInds
  rw [zero_foldl, List.map_map]
  have : cols.map ((fun i => ((row[i]?).map (·.1)).getD 0) ∘ fun c => row.findIdx fun e => decide (e.1 = c)) = cols := by
    conv_rhs => rw [← List.map_id cols]
    apply List.map_congr_left
    intro c hc
    obtain ⟨hl, he⟩ := getElem_findIdx (h c hc)
    simp only [Function.comp, List.getElem?_eq_getElem hl, Option.map_some, Option.getD_some, he, id]
  rw [this]

/-- The entry of a row in column `c` (0 if not stored). -/
def entry (row : Row K) (c : Nat) : K := ((row.filter fun e => decide (e.1 = c)).map (·.2)).sum

theorem entry_of_not_mem {row : Row K} {c : Nat} (h : c ∉ row.map (·.1)) : entry row c = 0 := by
  unfold entry
  rw [List.filter_eq_nil_iff.2]
  · rfl
  · intro e he hc
    exact h (List.mem_map.2 ⟨e, he, by simpa using hc⟩)

theorem entry_of_mem {row : Row K} (hn : (row.map (·.1)).Nodup) {e : Nat × K} (h : e ∈ row) : entry row e.1 = e.2 := by
  induction row with
  | nil => simp at h
  | cons a t ih =>
    rw [List.map_cons, List.nodup_cons] at hn
    rcases List.mem_cons.1 h with rfl | h
    · have : entry (e :: t) e.1 = e.2 + entry t e.1 := by simp [entry]
      rw [this, entry_of_not_mem hn.1, add_zero]
    · have hne : a.1 ≠ e.1 := fun hh => hn.1 (hh ▸ List.mem_map.2 ⟨e, h, rfl⟩)
      have : entry (a :: t) e.1 = entry t e.1 := by simp [entry, hne]
      rw [this, ih hn.2 h]

theorem dot_cons (a : Nat × K) (t : Row K) (x) : dot (a :: t) x = a.2 * x a.1 + dot t x := by simp [dot]

theorem subRow_eq {cols : List Nat} {row : Row K} (hn : (row.map (·.1)).Nodup) (h : ∀ c ∈ cols, c ∈ row.map (·.1)) :
    subRow cols (rowInds cols row) row = cols.map fun c => (c, entry row c) := by
  unfold subRow rowInds
  rw [List.map_map]
  have : cols.map ((fun i => ((row[i]?).map (·.2)).getD 0) ∘ fun c => row.findIdx fun e => decide (e.1 = c)) = cols.map (entry row) := by
    apply List.map_congr_left
    intro c hc
    obtain ⟨hl, he⟩ := getElem_findIdx (h c hc)
    simp only [Function.comp, List.getElem?_eq_getElem hl, Option.map_some, Option.getD_some]
    rw [← entry_of_mem hn (List.getElem_mem hl), he]
  rw [this, List.zip_map_right]
  induction cols with
  | nil => rfl
  | cons a t ih =>
    have := ih (fun c hc => h c (List.mem_cons_of_mem _ hc)) (by
      apply List.map_congr_left
      intro c hc
      obtain ⟨hl, he⟩ := getElem_findIdx (h c (List.mem_cons_of_mem _ hc))
      simp only [Function.comp, List.getElem?_eq_getElem hl, Option.map_some, Option.getD_some]
      rw [← entry_of_mem hn (List.getElem_mem hl), he])
    simpa using this

theorem dot_perm {a b : Row K} (h : a.Perm b) (x : Nat → K) : dot a x = dot b x := (h.map _).sum_eq

theorem dot_sub {row : Row K} (hn : (row.map (·.1)).Nodup) (bc : Nat → Bool) (x : Nat → K) :
    dot (((row.map (·.1)).filter bc).map fun c => (c, entry row c)) x = dot (row.filter fun e => bc e.1) x := by
  have : (((row.map (·.1)).filter bc).map fun c => (c, entry row c)) = row.filter fun e => bc e.1 := by
    rw [List.filter_map, List.map_map]
    conv_rhs => rw [← List.map_id (row.filter fun e => bc e.1)]
    apply List.map_congr_left
    intro e he
    simp only [Function.comp, id]
    rw [entry_of_mem hn (List.mem_filter.1 he).1]
  rw [this]

theorem dot_zero_split (row : Row K) (bc : Nat → Bool) (x : Nat → K) :
    dot (row.map fun e => if bc e.1 = true then (e.1, 0) else e) x + dot (row.filter fun e => bc e.1) x = dot row x := by
  induction row with
  | nil => simp [dot]
  | cons a t ih =>
    rw [List.map_cons, dot_cons, dot_cons, ← ih]
    by_cases h : bc a.1
    · rw [List.filter_cons_of_pos (by simpa using h), dot_cons]; simp only [h, if_true]; ring
    · rw [List.filter_cons_of_neg (by simpa using h)]; simp only [h]; simp; ring

/-- The result for one row. -/
def newRow (bc : Nat → Bool) (g : Nat → Nat → K) (rhs : Nat → Nat → K) (r : Nat) (row : Row K) : Row K × (Nat → K) :=
  if bc r then (row.map fun e => (e.1, if e.1 = r then 1 else 0), g r)
  else (row.map fun e => if bc e.1 = true then (e.1, 0) else e, fun k => rhs r k - dot (row.filter fun e => bc e.1) fun c => g c k)

theorem dbcRow_eq {r : Nat} {row : Row K} (hn : (row.map (·.1)).Nodup) (h : r ∈ row.map (·.1)) :
    dbcRow r row = some (row.map fun e => (e.1, if e.1 = r then 1 else 0)) := by
  obtain ⟨hl, he⟩ := getElem_findIdx h
  unfold dbcRow
  rw [if_pos hl]
  congr 1
  apply List.ext_getElem
  · simp
  · intro i h1 h2
    simp only [List.getElem_map, List.getElem_zipIdx, Nat.zero_add, Prod.mk.injEq, true_and]
    refine if_congr ⟨fun hi => ?_, fun hi => ?_⟩ rfl rfl
    · subst hi; exact he
    · have hi' : i < row.length := by simpa using h2
      have := (List.nodup_iff_injective_get.1 hn)
        (a₁ := ⟨i, by simpa using hi'⟩) (a₂ := ⟨row.findIdx (fun e => decide (e.1 = r)), by simpa using hl⟩) (by
          simp only [List.get_eq_getElem, List.getElem_map]; rw [he, hi])
      simpa using this

end Verif.Dirichlet
