import Verif.CrsFill.Lemmas

namespace Verif.CrsFill

open Verif Own Sparsity

/-- A distributed problem: ownership of all ranks with existing, different shared dofs; dofs of elements are owned or shared; every rank has computed its local graph, in any interleaving (C51). -/
structure Setup (w : Own.World) (own : Nat → SegOwn) (elems : Nat → List (List Nat)) (rows : Nat → Nat → List Nat) : Prop where
  valid : w.Valid
  nodup : ∀ l ∈ w.shared, l.Nodup
  made : ∀ r, w.own r = some (own r)
  dofs : ∀ r, ∀ el ∈ elems r, ∀ d ∈ el, d ∈ mapAll (own r)
  graph : ∀ r, IsLocalGraph (own r).getLocal (mapAll (own r)) (elems r) (rows r)

/-- The rows received by rank `me`, each once, in any order. -/
def IsKeys (W : Sparsity.World) (me : Nat) (order keys : List Nat) : Prop := keys.Nodup ∧ ∀ g, g ∈ keys ↔ ∃ r ∈ order, g ∈ W.rowsFor r me

section
variable {w : Own.World} {own : Nat → SegOwn} {elems : Nat → List (List Nat)} {rows : Nat → Nat → List Nat}

theorem Setup.shape (S : Setup w own elems rows) (r : Nat) : own r = ⟨w.begin r, (w.counts[r]?).getD 0, Std.sort ((w.shared[r]?).getD [])⟩ := (make_some (S.made r)).1

theorem Setup.wf (S : Setup w own elems rows) (r : Nat) : WfOwn (own r) := by
  rw [S.shape r]
  refine ⟨Std.sort_strict ?_, fun s hs => (make_some (S.made r)).2 s (Std.mem_sort.1 hs)⟩
  cases e : w.shared[r]? with
  | none => simp
  | some l => exact S.nodup l (List.mem_of_getElem? e)

/-- Who owns a dof. -/
theorem Setup.owner (S : Setup w own elems rows) {r g : Nat} (hg : g ∈ mapAll (own r)) (b : Nat) :
    getOwner (ownDist w.counts) g = b ↔ (own b).first ≤ g ∧ g < (own b).first + (own b).cnt := by
  have hsum : g < w.counts.sum := by
    rcases mem_mapAll.1 hg with h | h
    · rw [S.shape r] at h
      dsimp only [Own.World.begin] at h
      by_cases hr : r < w.counts.length
      · rw [List.getElem?_eq_getElem hr, Option.getD_some, ← Std.sum_take_succ w.counts hr] at h
        exact lt_of_lt_of_le h.2 (Std.sum_take_le_sum _ _)
      · rw [List.getElem?_eq_none (by omega)] at h
        simp only [Option.getD_none] at h
        omega
    · rw [S.shape r] at h
      have h := Std.mem_sort.1 h
      cases e : w.shared[r]? with
      | none => rw [e] at h; simp at h
      | some l => rw [e] at h; exact S.valid.exist l (List.mem_of_getElem? e) g h
  rw [Own.World.owner_iff w g hsum b, S.shape b]

theorem Setup.shared (S : Setup w own elems rows) (r d : Nat) :
    d ∈ (own r).shared ↔ d ∈ mapAll (own r) ∧ getOwner (ownDist w.counts) d ≠ r := by
  constructor
  · intro h
    have hm : d ∈ mapAll (own r) := mem_mapAll.2 (.inr h)
    exact ⟨hm, fun e => (S.wf r).apart d h ((S.owner hm r).1 e)⟩
  · rintro ⟨hm, hne⟩
    exact (mem_mapAll.1 hm).resolve_left fun h => hne ((S.owner hm r).2 h)

theorem Setup.local (S : Setup w own elems rows) (r g : Nat) : (rows r g).Pairwise (· < ·) ∧ ∀ x, x ∈ rows r g ↔ ∃ el ∈ elems r, g ∈ el ∧ x ∈ el :=
  localGraph_spec (getLocal_inj (S.wf r)) (S.dofs r) (S.graph r) g

/-- What `receive` gives, for rows of any rank. -/
theorem Setup.receive (S : Setup w own elems rows) (me : Nat) (order : List Nat) :
    ∃ extra, (exchange w own elems).receive rows me order = some extra ∧
      (∀ g, (rows me g ++ extra g).Nodup) ∧ ∀ g x, x ∈ extra g ↔ ∃ r ∈ order, g ∈ (exchange w own elems).rowsFor r me ∧ x ∈ rows r g ∧ x ∉ rows me g := by
  obtain ⟨out, h1, h2, h3⟩ := receive_spec (exchange w own elems) rows me (fun r g => (S.local r g).1) (fun r => Std.nodup_of_strict (S.wf r).strict) order (cur := fun _ => [])
    (fun g => ⟨List.Pairwise.nil, by simp⟩)
  refine ⟨out, h1, fun g => ?_, fun g x => ?_⟩
  · rw [List.nodup_append]
    refine ⟨Std.nodup_of_strict (S.local me g).1, Std.nodup_of_strict (h2 g).1, fun a ha b hb => ?_⟩
    rintro rfl
    exact (h2 g).2 a hb ha
  · rw [h3]; simp

/-- A row sent to a rank is owned by it. -/
theorem Setup.sent (S : Setup w own elems rows) {r me g : Nat} (h : g ∈ (exchange w own elems).rowsFor r me) :
    g ∈ (own r).shared ∧ (own me).first ≤ g ∧ g < (own me).first + (own me).cnt := by
  rw [Sparsity.World.rowsFor, List.mem_filter, beq_iff_eq] at h
  exact ⟨h.1, (S.owner (mem_mapAll.2 (.inr h.1)) me).1 h.2⟩

end

end Verif.CrsFill
