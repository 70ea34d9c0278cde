import Verif.Common.Bytes
import Mathlib.Data.List.Basic
/-!
# Files written at explicit offsets

A file is its list of bytes.  Writes of several processes at explicit offsets are applied in some
order; bytes never written below the end of the file are zero.
-/
namespace Verif.File
open Verif

/-- `pwrite(fd, xs, off)`; writing nothing does not extend the file. -/
def pwrite (f : List Byte) (w : Nat × List Byte) : List Byte :=
  if w.2.isEmpty then f
  else (f ++ List.replicate (w.1 - f.length) 0).take w.1 ++ w.2 ++ f.drop (w.1 + w.2.length)

/-- A sequence of writes. -/
def run (f : List Byte) (ws : List (Nat × List Byte)) : List Byte := ws.foldl pwrite f

theorem pwrite_in (f : List Byte) (w : Nat × List Byte) (j : Nat) (h : j < w.2.length) : (pwrite f w)[w.1 + j]? = w.2[j]? := by
  unfold pwrite
  have hne : w.2.isEmpty = false := by cases hw : w.2 with
    | nil => rw [hw] at h; simp at h
    | cons _ _ => rfl
  rw [hne]
  have hl : ((f ++ List.replicate (w.1 - f.length) (0 : Byte)).take w.1).length = w.1 := by
    simp; omega
  rw [if_neg (by simp), List.append_assoc, List.getElem?_append_right (by omega), hl, List.getElem?_append_left (by omega)]
  congr 1; omega

theorem pwrite_out (f : List Byte) (w : Nat × List Byte) (i : Nat) (b : Byte) (h : i < w.1 ∨ w.1 + w.2.length ≤ i) (hf : f[i]? = some b) :
    (pwrite f w)[i]? = some b := by
  unfold pwrite
  split
  · exact hf
  · obtain ⟨hi, _⟩ := List.getElem?_eq_some_iff.1 hf
    have hl : ((f ++ List.replicate (w.1 - f.length) (0 : Byte)).take w.1).length = w.1 := by
      simp; omega
    rcases h with h | h
    · rw [List.append_assoc, List.getElem?_append_left (by omega), List.getElem?_take_of_lt h, List.getElem?_append_left hi, hf]
    · rw [List.getElem?_append_right (by simp only [List.length_append]; omega), List.getElem?_drop, List.length_append, hl]
      rw [show w.1 + w.2.length + (i - (w.1 + w.2.length)) = i from by omega, hf]

/-- Writes which all agree with the content `T` and together cover it leave `T` at the beginning of
the file, whatever their order and the previous content of the file. -/
theorem run_spec (T : List Byte) (ws : List (Nat × List Byte)) (hag : ∀ w ∈ ws, ∀ j < w.2.length, T[w.1 + j]? = w.2[j]?)
    (hcov : ∀ i < T.length, ∃ w ∈ ws, w.1 ≤ i ∧ i < w.1 + w.2.length) (f : List Byte) :
    ∃ rest, run f ws = T ++ rest := by
  have key : ∀ (ws : List (Nat × List Byte)) (f : List Byte), (∀ w ∈ ws, ∀ j < w.2.length, T[w.1 + j]? = w.2[j]?) →
      ∀ i < T.length, (f[i]? = T[i]? ∨ ∃ w ∈ ws, w.1 ≤ i ∧ i < w.1 + w.2.length) → (run f ws)[i]? = T[i]? := by
    intro ws
    induction ws with
    | nil =>
      intro f _ i hi h
      simpa [run] using h
    | cons w ws ih =>
      intro f hag i hi h
      refine ih (pwrite f w) (fun w' hw' => hag w' (by simp [hw'])) i hi ?_
      by_cases hin : w.1 ≤ i ∧ i < w.1 + w.2.length
      · left
        obtain ⟨j, rfl⟩ := Nat.exists_eq_add_of_le hin.1
        rw [pwrite_in f w j (by omega), hag w (by simp) j (by omega)]
      · rcases h with h | ⟨w', hw', h1, h2⟩
        · left
          rw [List.getElem?_eq_getElem hi] at h ⊢
          exact pwrite_out f w i _ (by omega) h
        · rcases List.mem_cons.1 hw' with rfl | hw'
          · exact absurd ⟨h1, h2⟩ hin
          · exact Or.inr ⟨w', hw', h1, h2⟩
  have hT : (run f ws).take T.length = T := by
    apply List.ext_getElem?
    intro i
    by_cases hi : i < T.length
    · rw [List.getElem?_take_of_lt hi]
      exact key ws f hag i hi (Or.inr (hcov i hi))
    · rw [List.getElem?_eq_none (by simp; omega), List.getElem?_eq_none (by omega)]
  exact ⟨(run f ws).drop T.length, by conv_lhs => rw [← List.take_append_drop T.length (run f ws), hT]⟩

/-- Two writes touch disjoint byte ranges. -/
def Disjoint (a b : Nat × List Byte) : Prop := a.1 + a.2.length ≤ b.1 ∨ b.1 + b.2.length ≤ a.1

/-- Consecutive blocks starting at `o`. -/
def blocks (o : Nat) : List (List Byte) → List (Nat × List Byte)
  | [] => []
  | b :: bs => (o, b) :: blocks (o + b.length) bs

theorem blocks_eq (o : Nat) (bs : List (List Byte)) :
    blocks o bs = bs.zipIdx.map fun p => (o + ((bs.take p.2).map List.length).sum, p.1) := by
  induction bs generalizing o with
  | nil => rfl
  | cons b bs ih =>
    rw [blocks, ih, List.zipIdx_cons, List.map_cons]
    congr 1
    rw [List.zipIdx_succ, List.map_map]
    apply List.map_congr_left
    rintro ⟨x, i⟩ _
    simp only [Function.comp, List.take_succ_cons, List.map_cons, List.sum_cons, Prod.mk.injEq, and_true]
    omega

theorem blocks_ge {o : Nat} {bs : List (List Byte)} {w : Nat × List Byte} (h : w ∈ blocks o bs) : o ≤ w.1 := by
  induction bs generalizing o with
  | nil => simp [blocks] at h
  | cons b bs ih =>
    rcases List.mem_cons.1 h with rfl | h
    · exact Nat.le_refl _
    · have := ih h; omega

theorem blocks_disjoint (o : Nat) (bs : List (List Byte)) : (blocks o bs).Pairwise Disjoint := by
  induction bs generalizing o with
  | nil => exact .nil
  | cons b bs ih =>
    rw [blocks, List.pairwise_cons]
    exact ⟨fun w hw => Or.inl (blocks_ge hw), ih _⟩

theorem blocks_agree {pre : List Byte} {bs : List (List Byte)} {w : Nat × List Byte} (h : w ∈ blocks pre.length bs) :
    ∀ j < w.2.length, (pre ++ bs.flatten)[w.1 + j]? = w.2[j]? := by
  induction bs generalizing pre with
  | nil => simp [blocks] at h
  | cons b bs ih =>
    intro j hj
    rcases List.mem_cons.1 h with rfl | h
    · rw [List.getElem?_append_right (by simp), List.flatten_cons, List.getElem?_append_left (by simpa using hj)]
      simp
    · rw [List.flatten_cons, ← List.append_assoc]
      exact ih (pre := pre ++ b) (by rw [List.length_append]; exact h) j hj

theorem blocks_cover {o i : Nat} {bs : List (List Byte)} (h1 : o ≤ i) (h2 : i < o + bs.flatten.length) :
    ∃ w ∈ blocks o bs, w.1 ≤ i ∧ i < w.1 + w.2.length := by
  induction bs generalizing o with
  | nil => simp at h2; omega
  | cons b bs ih =>
    rw [List.flatten_cons, List.length_append] at h2
    by_cases h : i < o + b.length
    · exact ⟨(o, b), by simp [blocks], h1, h⟩
    · obtain ⟨w, hw, h3⟩ := ih (o := o + b.length) (by omega) (by omega)
      exact ⟨w, List.mem_cons_of_mem _ hw, h3⟩

/-- Consecutive blocks written in any order to any file leave their concatenation at its beginning. -/
theorem run_blocks {bs : List (List Byte)} {ws : List (Nat × List Byte)} (h : ws.Perm (blocks 0 bs)) (f : List Byte) :
    ∃ rest, run f ws = bs.flatten ++ rest := by
  refine run_spec _ _ (fun w hw => ?_) (fun i hi => ?_) f
  · have := blocks_agree (pre := []) (bs := bs) (w := w) (h.mem_iff.1 hw)
    simpa using this
  · obtain ⟨w, hw, h3⟩ := blocks_cover (o := 0) (i := i) (bs := bs) (by omega) (by omega)
    exact ⟨w, h.mem_iff.2 hw, h3⟩

end Verif.File
