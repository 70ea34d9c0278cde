import Verif.Common.Bytes
/-!
# Slice writes in arbitrary order

Parallel loops of the library write disjoint slices of a preallocated buffer.  A schedule
is the order in which the slices are completed.
-/
namespace Verif

/-- Overwrite `buf[pos, pos + xs.length)` by `xs` (out-of-range part of `xs` is dropped;
callers state that the slice fits). -/
def writeAt {α : Type _} (buf : List α) (pos : Nat) (xs : List α) : List α :=
  buf.take pos ++ xs.take (buf.length - pos) ++ buf.drop (pos + xs.length)

theorem writeAt_length {α : Type _} (buf : List α) (pos : Nat) (xs : List α)
    (h : pos + xs.length ≤ buf.length) : (writeAt buf pos xs).length = buf.length := by
  simp [writeAt]; omega

theorem writeAt_getElem? {α : Type _} (buf : List α) (pos : Nat) (xs : List α)
    (h : pos + xs.length ≤ buf.length) (i : Nat) :
    (writeAt buf pos xs)[i]? =
      if pos ≤ i ∧ i < pos + xs.length then xs[i - pos]? else buf[i]? := by
  unfold writeAt
  rw [List.take_of_length_le (show xs.length ≤ buf.length - pos by omega)]
  by_cases h1 : i < pos
  · rw [if_neg (by omega), List.append_assoc, List.getElem?_append_left (by simp; omega),
      List.getElem?_take_of_lt h1]
  · have hl : (buf.take pos).length = pos := by simp; omega
    rw [List.append_assoc, List.getElem?_append_right (by omega), hl]
    by_cases h2 : i < pos + xs.length
    · rw [if_pos (by omega), List.getElem?_append_left (by omega)]
    · rw [if_neg (by omega), List.getElem?_append_right (by omega), List.getElem?_drop]
      congr 1; omega

/-- Execute the slice writes `f k` at `w * k` for the `k` of the schedule. -/
def runSlices {α : Type _} (w : Nat) (f : Nat → List α) (buf : List α) (sched : List Nat) : List α :=
  sched.foldl (fun b k => writeAt b (w * k) (f k)) buf

theorem runSlices_spec {α : Type _} (w n : Nat) (hw : 0 < w) (f : Nat → List α)
    (hf : ∀ k, k < n → (f k).length = w) (sched : List Nat) :
    ∀ buf : List α, buf.length = w * n → (∀ k ∈ sched, k < n) →
      (runSlices w f buf sched).length = w * n ∧
      ∀ i, i < w * n → (runSlices w f buf sched)[i]? =
        if i / w ∈ sched then (f (i / w))[i % w]? else buf[i]? := by
  induction sched with
  | nil => intro buf hb _; exact ⟨hb, fun i _ => by simp [runSlices]⟩
  | cons k ks ih =>
    intro buf hb hk
    have hkn : k < n := hk k (by simp)
    have hfit : w * k + (f k).length ≤ buf.length := by
      rw [hf k hkn, hb]
      calc w * k + w = w * (k + 1) := by rw [Nat.mul_add, Nat.mul_one]
        _ ≤ w * n := Nat.mul_le_mul_left _ hkn
    obtain ⟨hl, hi⟩ := ih (writeAt buf (w * k) (f k)) (by rw [writeAt_length _ _ _ hfit, hb])
      (fun k' hk' => hk k' (by simp [hk']))
    refine ⟨hl, fun i hin => ?_⟩
    have hrun : runSlices w f buf (k :: ks) = runSlices w f (writeAt buf (w * k) (f k)) ks := rfl
    rw [hrun, hi i hin, writeAt_getElem? _ _ _ hfit, hf k hkn]
    have hdm := Nat.div_add_mod i w
    have hml := Nat.mod_lt i hw
    by_cases hmem : i / w ∈ ks
    · simp [hmem]
    · rw [if_neg hmem]
      by_cases hek : i / w = k
      · subst hek
        rw [if_pos (by omega), if_pos (by simp)]
        congr 1; omega
      · rw [if_neg, if_neg (by simp [hmem, hek])]
        rintro ⟨h1, h2⟩
        apply hek
        have : k ≤ i / w := (Nat.le_div_iff_mul_le hw).2 (by rw [Nat.mul_comm]; exact h1)
        have : i / w < k + 1 := (Nat.div_lt_iff_lt_mul hw).2 (by
          rw [Nat.mul_comm, Nat.mul_add, Nat.mul_one]; exact h2)
        omega

theorem flatMap_range_getElem? {α : Type _} (w : Nat) (hw : 0 < w) (f : Nat → List α) (n : Nat)
    (hf : ∀ k, k < n → (f k).length = w) :
    ((List.range n).flatMap f).length = w * n ∧
    ∀ i, i < w * n → ((List.range n).flatMap f)[i]? = (f (i / w))[i % w]? := by
  induction n with
  | zero => simp
  | succ n ih =>
    obtain ⟨hl, hi⟩ := ih (fun k hk => hf k (by omega))
    rw [List.range_succ, List.flatMap_append, List.flatMap_singleton]
    refine ⟨by rw [List.length_append, hl, hf n (by omega), Nat.mul_add, Nat.mul_one], fun i hin => ?_⟩
    by_cases h : i < w * n
    · rw [List.getElem?_append_left (by omega), hi i h]
    · have hdm := Nat.div_add_mod i w
      have hml := Nat.mod_lt i hw
      have hq : i / w = n := by
        have h1 : n ≤ i / w := (Nat.le_div_iff_mul_le hw).2 (by rw [Nat.mul_comm]; omega)
        have h2 : i / w < n + 1 := (Nat.div_lt_iff_lt_mul hw).2 (by rw [Nat.mul_comm]; exact hin)
        omega
      rw [List.getElem?_append_right (by omega), hl, hq]
      congr 1
      rw [hq] at hdm; omega

/-- Any schedule that runs every slice writes the concatenation of the slices. -/
theorem runSlices_eq_flatMap {α : Type _} (w n : Nat) (hw : 0 < w) (f : Nat → List α)
    (hf : ∀ k, k < n → (f k).length = w) (buf : List α) (hb : buf.length = w * n)
    (sched : List Nat) (hs : ∀ k, k ∈ sched ↔ k < n) :
    runSlices w f buf sched = (List.range n).flatMap f := by
  obtain ⟨hl, hi⟩ := runSlices_spec w n hw f hf sched buf hb (fun k hk => (hs k).1 hk)
  obtain ⟨hl', hi'⟩ := flatMap_range_getElem? w hw f n hf
  apply List.ext_getElem?
  intro i
  by_cases h : i < w * n
  · rw [hi i h, hi' i h, if_pos ((hs _).2 ((Nat.div_lt_iff_lt_mul hw).2 (by rw [Nat.mul_comm]; exact h)))]
  · rw [List.getElem?_eq_none (by omega), List.getElem?_eq_none (by omega)]

end Verif
