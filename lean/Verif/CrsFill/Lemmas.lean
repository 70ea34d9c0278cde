import Verif.CrsFill.Model
import Verif.Sparsity.Props
import Verif.Own.Props
import Verif.Algo.Props

namespace Verif.CrsFill

open Verif Own Sparsity

/-- Ownership as constructed: shared indices ascending, none of them owned. -/
structure WfOwn (o : SegOwn) : Prop where
  strict : o.shared.Pairwise (· < ·)
  apart : ∀ s ∈ o.shared, ¬ (o.first ≤ s ∧ s < o.first + o.cnt)

theorem mem_mapAll {o : SegOwn} {g : Nat} : g ∈ mapAll o ↔ (o.first ≤ g ∧ g < o.first + o.cnt) ∨ g ∈ o.shared := by
  rw [mapAll, List.mem_append, List.mem_range'_1]

theorem length_mapAll (o : SegOwn) : (mapAll o).length = o.localSize := by simp [mapAll, SegOwn.localSize]

theorem getGlobal_eq (o : SegOwn) (lid : Nat) : o.getGlobal lid = (mapAll o)[lid]? := by
  unfold SegOwn.getGlobal mapAll
  by_cases h : lid < o.cnt
  · rw [if_pos h, List.getElem?_append_left (by simpa using h)]
    simp [h]
  · rw [if_neg h, List.getElem?_append_right (by simpa using h)]
    simp

theorem WfOwn.nodup {o : SegOwn} (W : WfOwn o) : (mapAll o).Nodup := by
  rw [mapAll, List.nodup_append]
  refine ⟨List.nodup_range', Std.nodup_of_strict W.strict, fun a ha b hb => ?_⟩
  rintro rfl
  exact W.apart a hb (List.mem_range'_1.1 ha)

theorem isOwned_iff {o : SegOwn} {g : Nat} : o.isOwned g = true ↔ o.first ≤ g ∧ g < o.first + o.cnt := by simp [SegOwn.isOwned]

theorem getElem_getLocal {o : SegOwn} (W : WfOwn o) {g : Nat} (hg : g ∈ mapAll o) : (mapAll o)[o.getLocal g]? = some g := by
  rw [← getGlobal_eq]
  unfold SegOwn.getLocal SegOwn.getGlobal
  by_cases h : o.isOwned g = true
  · have h' := isOwned_iff.1 h
    rw [if_pos h, if_pos (by omega)]
    congr 1; omega
  · have hm : g ∈ o.shared := (mem_mapAll.1 hg).resolve_left fun h' => h (isOwned_iff.2 h')
    rw [if_neg h, if_neg (by omega), Nat.add_sub_cancel_left]
    exact Std.getElem_lowerBound W.strict hm

theorem getLocal_lt {o : SegOwn} (W : WfOwn o) {g : Nat} (hg : g ∈ mapAll o) : o.getLocal g < o.localSize := by
  rw [← length_mapAll]
  exact (List.getElem?_eq_some_iff.1 (getElem_getLocal W hg)).1

theorem getLocal_inj {o : SegOwn} (W : WfOwn o) : ∀ a ∈ mapAll o, ∀ b ∈ mapAll o, o.getLocal a = o.getLocal b → a = b := by
  intro a ha b hb e
  have h1 := getElem_getLocal W ha
  rw [e, getElem_getLocal W hb] at h1
  exact (Option.some.inj h1).symm

theorem getLocal_eq {o : SegOwn} (W : WfOwn o) {g lid : Nat} (h : (mapAll o)[lid]? = some g) : o.getLocal g = lid := by
  obtain ⟨hl, e⟩ := List.getElem?_eq_some_iff.1 h
  obtain ⟨hl', e'⟩ := List.getElem?_eq_some_iff.1 (getElem_getLocal W (List.mem_of_getElem? h))
  exact (List.Nodup.getElem_inj_iff W.nodup).1 (e'.trans e.symm)

theorem colLocal_eq {o : SegOwn} (W : WfOwn o) {g : Nat} (hg : g ∈ mapAll o) : colLocal o g = some (o.getLocal g) := by
  unfold colLocal
  by_cases h : o.isOwned g = true
  · rw [if_pos h]
  · have hm : g ∈ o.shared := (mem_mapAll.1 hg).resolve_left fun h' => h (isOwned_iff.2 h')
    rw [if_neg h]
    obtain ⟨i, hi, hs, -⟩ := (Algo.C15_index_map o.shared g).1 hm
    rw [hi, Option.map_some]
    congr 1
    refine (getLocal_eq W ?_).symm
    rw [mapAll, List.getElem?_append_right (by simp)]
    simpa using hs

/-- Indices of dofs of a row. -/
theorem rowLids_spec {own col : SegOwn} (W : WfOwn col) {rows : Nat → List Nat} {extra : Extra} {lid g : Nat} (hlid : (mapAll own)[lid]? = some g)
    (hn : (rows g ++ extra g).Nodup) (hin : ∀ h ∈ rows g ++ extra g, h ∈ mapAll col) :
    ∃ row, rowLids own col rows extra lid = some row ∧ row.Pairwise (· < ·) ∧ row.length = (rows g ++ extra g).length ∧ (∀ c ∈ row, c < col.localSize) ∧
      ∀ h, h ∈ rows g ++ extra g ↔ ∃ c ∈ row, (mapAll col)[c]? = some h := by
  have hmap : (rows g ++ extra g).mapM (colLocal col) = some ((rows g ++ extra g).map col.getLocal) :=
    Own.mapM_some _ _ _ fun h hh => colLocal_eq W (hin h hh)
  refine ⟨Std.sort ((rows g ++ extra g).map col.getLocal), by rw [rowLids, getGlobal_eq, hlid, Option.bind_some, hmap]; rfl, ?_, ?_, ?_, ?_⟩
  · refine Std.sort_strict (List.Nodup.map_on ?_ hn)
    intro a ha b hb e
    exact getLocal_inj W a (hin a ha) b (hin b hb) e
  · rw [Std.length_sort, List.length_map]
  · intro c hc
    obtain ⟨h, hh, rfl⟩ := List.mem_map.1 (Std.mem_sort.1 hc)
    exact getLocal_lt W (hin h hh)
  · intro h
    constructor
    · intro hh
      exact ⟨_, Std.mem_sort.2 (List.mem_map_of_mem hh), getElem_getLocal W (hin h hh)⟩
    · rintro ⟨c, hc, hc'⟩
      obtain ⟨h', hh, rfl⟩ := List.mem_map.1 (Std.mem_sort.1 hc)
      rw [getElem_getLocal W (hin h' hh)] at hc'
      rwa [← Option.some.inj hc']

/-- Adding the sizes of what was received. -/
theorem addSizes {own : SegOwn} (W : WfOwn own) (extra : Extra) : ∀ (keys : List Nat), keys.Nodup → (∀ g ∈ keys, g ∈ mapAll own) → ∀ (s : List Nat), s.length = own.localSize →
    ∃ s', keys.foldlM (addSize own extra) s = some s' ∧ s'.length = own.localSize ∧
      ∀ g ∈ mapAll own, s'[own.getLocal g]? = (s[own.getLocal g]?).map fun n => n + if g ∈ keys then (extra g).length else 0
  | [], _, _, s, hs => ⟨s, rfl, hs, fun g _ => by simp⟩
  | k :: keys, hn, hk, s, hs => by
    have hkm := hk k (List.mem_cons_self ..)
    have hl : own.getLocal k < s.length := by rw [hs]; exact getLocal_lt W hkm
    have e : addSize own extra s k = some (s.set (own.getLocal k) (s[own.getLocal k] + (extra k).length)) := by
      rw [addSize, List.getElem?_eq_getElem hl]; rfl
    obtain ⟨s', h1, h2, h3⟩ := addSizes W extra keys (List.nodup_cons.1 hn).2 (fun g hg => hk g (List.mem_cons_of_mem _ hg))
      (s.set (own.getLocal k) (s[own.getLocal k] + (extra k).length)) (by rw [List.length_set, hs])
    refine ⟨s', by rw [List.foldlM_cons, e]; exact h1, h2, fun g hg => ?_⟩
    rw [h3 g hg]
    by_cases hgk : g = k
    · subst hgk
      have hnot := (List.nodup_cons.1 hn).1
      rw [List.getElem?_set_self hl, List.getElem?_eq_getElem hl]
      simp [hnot]
    · have hne : own.getLocal k ≠ own.getLocal g := fun q => hgk (getLocal_inj W g hg k hkm q.symm)
      rw [List.getElem?_set_ne hne]
      simp [hgk]

theorem rowSizes_spec {own : SegOwn} (W : WfOwn own) (rows : Nat → List Nat) (extra : Extra) (keys : List Nat) (hn : keys.Nodup) (hk : ∀ g ∈ keys, g ∈ mapAll own)
    (hx : ∀ g, g ∉ keys → extra g = []) :
    ∃ s, rowSizes own rows extra keys = some s ∧ ∀ lid g : Nat, (mapAll own)[lid]? = some g → s[lid]? = some (rows g ++ extra g).length := by
  have h0 : ((List.range own.localSize).mapM fun lid => (own.getGlobal lid).map fun g => (rows g).length) =
      some ((List.range own.localSize).map fun lid => (rows (((mapAll own)[lid]?).getD 0)).length) := by
    refine Own.mapM_some _ _ _ fun lid hl => ?_
    have : lid < (mapAll own).length := by rw [length_mapAll]; exact List.mem_range.1 hl
    rw [getGlobal_eq, List.getElem?_eq_getElem this]
    rfl
  obtain ⟨s, h1, h2, h3⟩ := addSizes W extra keys hn hk ((List.range own.localSize).map fun lid => (rows (((mapAll own)[lid]?).getD 0)).length) (by simp)
  refine ⟨s, by rw [rowSizes, h0]; exact h1, fun lid g hg => ?_⟩
  have hgm := List.mem_of_getElem? hg
  have e := getLocal_eq W hg
  have hl : lid < own.localSize := by rw [← length_mapAll]; exact (List.getElem?_eq_some_iff.1 hg).1
  have := h3 g hgm
  rw [e] at this
  rw [this, List.getElem?_map, List.getElem?_range hl]
  simp only [Option.map_some, hg, Option.getD_some, List.length_append]
  by_cases hkk : g ∈ keys
  · rw [if_pos hkk]
  · rw [if_neg hkk, hx g hkk]; rfl

theorem colOwn_spec {own : SegOwn} (W : WfOwn own) (extra : Extra) (keys : List Nat) :
    ∃ col, colOwn own extra keys = some col ∧ WfOwn col ∧ col.cnt = own.cnt ∧ (mapAll col).take col.cnt = (mapAll own).take own.cnt ∧
      ∀ h, h ∈ mapAll col ↔ h ∈ mapAll own ∨ ∃ g ∈ keys, h ∈ extra g := by
  have hfirst : ∀ g, ((if own.cnt ≠ 0 then own.first else 0) ≤ g ∧ g < (if own.cnt ≠ 0 then own.first else 0) + own.cnt) ↔ own.first ≤ g ∧ g < own.first + own.cnt := by
    intro g; split <;> omega
  have hS : ∀ x, x ∈ Std.sortUniq (own.shared ++ (keys.flatMap extra).filter fun e => !own.isOwned e) ↔
      x ∈ own.shared ∨ ((∃ g ∈ keys, x ∈ extra g) ∧ ¬ (own.first ≤ x ∧ x < own.first + own.cnt)) := by
    intro x
    rw [Std.mem_sortUniq, List.mem_append, List.mem_filter, List.mem_flatMap]
    have : (!own.isOwned x) = true ↔ ¬ (own.first ≤ x ∧ x < own.first + own.cnt) := by rw [← isOwned_iff]; simp
    rw [this]
  have hstrict := Std.sortUniq_strict (own.shared ++ (keys.flatMap extra).filter fun e => !own.isOwned e)
  have hno : ∀ x ∈ Std.sortUniq (own.shared ++ (keys.flatMap extra).filter fun e => !own.isOwned e), ¬ (own.first ≤ x ∧ x < own.first + own.cnt) := by
    intro x hx
    rcases (hS x).1 hx with h | h
    · exact W.apart x h
    · exact h.2
  have hmk : colOwn own extra keys = some ⟨if own.cnt ≠ 0 then own.first else 0, own.cnt, Std.sortUniq (own.shared ++ (keys.flatMap extra).filter fun e => !own.isOwned e)⟩ := by
    unfold colOwn
    cases e : SegOwn.make (if own.cnt ≠ 0 then own.first else 0) own.cnt (Std.sortUniq (own.shared ++ (keys.flatMap extra).filter fun e => !own.isOwned e)) with
    | none =>
      obtain ⟨x, hx, hx'⟩ := (C08_constructor _ _ _).1 e
      exact absurd ((hfirst x).1 hx') (hno x hx)
    | some o =>
      rw [(make_some e).1, Std.sort_eq_of_sorted (hstrict.imp fun h => Nat.le_of_lt h)]
  refine ⟨_, hmk, ⟨hstrict, fun s hs h => hno s hs ((hfirst s).1 h)⟩, rfl, ?_, fun h => ?_⟩
  · have t : ∀ o : SegOwn, (mapAll o).take o.cnt = List.range' o.first o.cnt := fun o => by
      rw [mapAll, List.take_append_of_le_length (by simp)]; exact List.take_of_length_le (by simp)
    rw [t ⟨_, _, _⟩, t own]
    by_cases hc : own.cnt = 0
    · simp [hc]
    · simp [hc]
  · rw [mem_mapAll, mem_mapAll]
    simp only
    rw [hfirst, hS]
    by_cases ho : own.first ≤ h ∧ h < own.first + own.cnt
    · simp [ho]
    · simp only [ho, false_or, not_false_eq_true, and_true]

end Verif.CrsFill
