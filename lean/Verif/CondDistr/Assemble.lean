import Verif.CondDistr.Model

/-! # Sums over assembled elements -/
namespace Verif.CondDistr
open Verif Verif.Lsq Verif.Distr Finset

noncomputable section

/-- The matrix after assembly, for any elements. -/
theorem globalMat_eq {nr : Nat} (maps : Nat → AMaps) (elems : Nat → List AElem) (rows cols : Nat → List Nat)
    (hnd : ∀ q < nr, (rows q).Nodup ∧ (cols q).Nodup) (hl : ∀ q < nr, ∀ a ∈ elems q, a.col.length = a.row.length)
    (hin : ∀ q < nr, ∀ a ∈ elems q, (∀ i < a.row.length, a.row.getD i 0 ∈ rows q) ∧ ∀ i < a.row.length, a.col.getD i 0 ∈ cols q)
    (um : Nat → List ((Nat × Nat) × ℝ)) (hm : ∀ q < nr, (um q).Perm ((elems q).flatMap scatterMat)) (g h : Nat) :
    globalMat nr maps rows cols um g h = ∑ q ∈ range nr, ((elems q).map fun a => ∑ i ∈ range a.row.length, ∑ j ∈ range a.row.length,
      if (maps q).row (a.row.getD i 0) = g ∧ (maps q).col (a.col.getD j 0) = h then a.mat i j else 0).sum := by
  unfold globalMat
  refine sum_congr rfl fun q hq => ?_
  have hq := mem_range.1 hq
  rw [sum_positions (rows q) (cols q) (hnd q hq).1 (hnd q hq).2 (um q) ?_ fun a b => (maps q).row a = g ∧ (maps q).col b = h]
  · rw [((hm q hq).map _).sum_eq, Lsq.sum_flatMap]
    congr 1
    refine List.map_congr_left fun a _ => ?_
    unfold scatterMat
    rw [Lsq.sum_flatMap, sum_range_list]
    refine sum_congr rfl fun i _ => ?_
    rw [List.map_map, sum_range_list]
    rfl
  · intro u hu
    have hu := (hm q hq).subset hu
    obtain ⟨a, ha, hu⟩ := List.mem_flatMap.1 hu
    obtain ⟨i, hi, hu⟩ := List.mem_flatMap.1 hu
    obtain ⟨j, hj, rfl⟩ := List.mem_map.1 hu
    exact ⟨(hin q hq a ha).1 i (List.mem_range.1 hi), (hin q hq a ha).2 j (List.mem_range.1 hj)⟩

/-- The right-hand side after assembly, for any elements. -/
theorem globalVec_eq {nr : Nat} (maps : Nat → AMaps) (elems : Nat → List AElem) (vecs : Nat → List Nat)
    (hnd : ∀ q < nr, (vecs q).Nodup) (hin : ∀ q < nr, ∀ a ∈ elems q, ∀ i < a.row.length, a.vec.getD i 0 ∈ vecs q)
    (nc : Nat) (uv : Nat → List ((Nat × Nat) × ℝ)) (hv : ∀ q < nr, (uv q).Perm ((elems q).flatMap (scatterVec nc))) (g c : Nat) (hc : c < nc) :
    globalVec nr maps vecs uv g c = ∑ q ∈ range nr, ((elems q).map fun a => ∑ i ∈ range a.row.length,
      if (maps q).vec (a.vec.getD i 0) = g then a.rhs i c else 0).sum := by
  unfold globalVec
  refine sum_congr rfl fun q hq => ?_
  have hq := mem_range.1 hq
  have hpos := sum_positions (vecs q) (List.range nc) (hnd q hq) List.nodup_range (uv q) (by
    intro u hu
    have hu := (hv q hq).subset hu
    obtain ⟨a, ha, hu⟩ := List.mem_flatMap.1 hu
    obtain ⟨i, hi, hu⟩ := List.mem_flatMap.1 hu
    obtain ⟨c', hc', rfl⟩ := List.mem_map.1 hu
    exact ⟨hin q hq a ha i (List.mem_range.1 hi), hc'⟩) fun a b => (maps q).vec a = g ∧ b = c
  have h1 : ((vecs q).map fun a => if (maps q).vec a = g then rankSum (uv q) (a, c) else 0) =
      (vecs q).map fun a => ((List.range nc).map fun b => if (maps q).vec a = g ∧ b = c then rankSum (uv q) (a, b) else 0).sum := by
    refine List.map_congr_left fun a _ => ?_
    rw [sum_range_list]
    by_cases ha : (maps q).vec a = g
    · rw [if_pos ha, sum_eq_single c]
      · rw [if_pos ⟨ha, rfl⟩]
      · intro b _ hb; rw [if_neg fun h => hb h.2]
      · intro h; exact absurd (mem_range.2 hc) h
    · rw [if_neg ha]
      symm
      exact sum_eq_zero fun b _ => if_neg fun h => ha h.1
  rw [h1, hpos, ((hv q hq).map _).sum_eq, Lsq.sum_flatMap]
  congr 1
  refine List.map_congr_left fun a _ => ?_
  unfold scatterVec
  rw [Lsq.sum_flatMap, sum_range_list]
  refine sum_congr rfl fun i _ => ?_
  rw [List.map_map, sum_range_list]
  simp only [Function.comp]
  by_cases ha : (maps q).vec (a.vec.getD i 0) = g
  · rw [if_pos ha, sum_eq_single c]
    · rw [if_pos ⟨ha, rfl⟩]
    · intro b _ hb; rw [if_neg fun h => hb h.2]
    · intro h; exact absurd (mem_range.2 hc) h
  · rw [if_neg ha]
    exact sum_eq_zero fun b _ => if_neg fun h => ha h.1

/-- One element times a vector. -/
theorem elem_row {N n : Nat} (d d' : Nat → Nat) (m : Nat → Nat → ℝ) (z : Nat → ℝ) (hd : ∀ j < n, d' j < N) (g : Nat) :
    ∑ h ∈ range N, (∑ i ∈ range n, ∑ j ∈ range n, if d i = g ∧ d' j = h then m i j else 0) * z h =
      ∑ i ∈ range n, if d i = g then ∑ j ∈ range n, m i j * z (d' j) else 0 := by
  simp only [sum_mul]
  rw [sum_comm]
  refine sum_congr rfl fun i _ => ?_
  rw [sum_comm]
  by_cases hi : d i = g
  · rw [if_pos hi]
    refine sum_congr rfl fun j hj => ?_
    rw [sum_eq_single (d' j)]
    · rw [if_pos ⟨hi, rfl⟩]
    · intro h _ hh; rw [if_neg fun e => hh e.2.symm, zero_mul]
    · intro h; exact absurd (mem_range.2 (hd j (mem_range.1 hj))) h
  · rw [if_neg hi]
    exact sum_eq_zero fun j _ => sum_eq_zero fun h _ => by rw [if_neg fun e => hi e.1, zero_mul]

/-- A list of elements times a vector. -/
theorem list_row {α : Type} {N : Nat} (l : List α) (n : α → Nat) (d d' : α → Nat → Nat) (m : α → Nat → Nat → ℝ) (z : Nat → ℝ)
    (hd : ∀ a ∈ l, ∀ j < n a, d' a j < N) (g : Nat) :
    ∑ h ∈ range N, (l.map fun a => ∑ i ∈ range (n a), ∑ j ∈ range (n a), if d a i = g ∧ d' a j = h then m a i j else 0).sum * z h =
      (l.map fun a => ∑ i ∈ range (n a), if d a i = g then ∑ j ∈ range (n a), m a i j * z (d' a j) else 0).sum := by
  induction l with
  | nil => simp
  | cons a l ih =>
    simp only [List.map_cons, List.sum_cons, add_mul, sum_add_distrib]
    rw [elem_row (d a) (d' a) (m a) z (hd a (by simp)) g, ih fun b hb => hd b (by simp [hb])]

/-- What an element adds to the residual of row `g`. -/
def resid (n : Nat) (d : Nat → Nat) (m : Nat → Nat → ℝ) (b : Nat → ℝ) (z : Nat → ℝ) (g : Nat) : ℝ :=
  ∑ i ∈ range n, if d i = g then ∑ j ∈ range n, m i j * z (d j) - b i else 0

theorem resid_split (n : Nat) (d d' d'' : Nat → Nat) (m : Nat → Nat → ℝ) (b : Nat → ℝ) (z : Nat → ℝ) (g : Nat) (h1 : ∀ i < n, d' i = d i) (h2 : ∀ i < n, d'' i = d i) :
    (∑ i ∈ range n, if d i = g then ∑ j ∈ range n, m i j * z (d' j) else 0) - (∑ i ∈ range n, if d'' i = g then b i else 0) = resid n d m b z g := by
  unfold resid
  rw [← sum_sub_distrib]
  refine sum_congr rfl fun i hi => ?_
  rw [h2 i (mem_range.1 hi)]
  by_cases h : d i = g
  · simp only [if_pos h]
    congr 1
    exact sum_congr rfl fun j hj => by rw [h1 j (mem_range.1 hj)]
  · simp [if_neg h]

theorem list_map_sub {α : Type} (l : List α) (f g : α → ℝ) : (l.map f).sum - (l.map g).sum = (l.map fun a => f a - g a).sum := by
  induction l with
  | nil => simp
  | cons a l ih => simp only [List.map_cons, List.sum_cons]; rw [← ih]; ring

/-- Rows of the system with conditions imposed. -/
theorem solvesSys_iff {N : Nat} {D : Nat → Prop} [DecidablePred D] (A : Nat → Nat → ℝ) (B v x : Nat → ℝ) :
    SolvesSys N D A B v x ↔ (∀ g < N, D g → x g = v g) ∧ ∀ g < N, ¬D g → ∑ h ∈ range N, A g h * x h = B g := by
  unfold SolvesSys
  have hcon : ∀ g < N, D g → ∑ h ∈ range N, MatFree.withBC D A g h * x h = x g := by
    intro g hg hD
    rw [sum_eq_single g]
    · simp [MatFree.withBC, hD]
    · intro h _ hh
      simp [MatFree.withBC, hD, Ne.symm hh]
    · intro h; exact absurd (mem_range.2 hg) h
  have hfree : (∀ g < N, D g → x g = v g) → ∀ g < N, ¬D g → ((∑ h ∈ range N, MatFree.withBC D A g h * x h =
      B g - ∑ h ∈ range N, if D h then A g h * v h else 0) ↔ ∑ h ∈ range N, A g h * x h = B g) := by
    intro hx g hg hD
    have h1 : ∑ h ∈ range N, A g h * x h = ∑ h ∈ range N, MatFree.withBC D A g h * x h + ∑ h ∈ range N, if D h then A g h * v h else 0 := by
      rw [← sum_add_distrib]
      refine sum_congr rfl fun h hh => ?_
      by_cases hDh : D h
      · have : g ≠ h := fun e => hD (e ▸ hDh)
        simp [MatFree.withBC, hDh, this, hx h (mem_range.1 hh) hDh]
      · simp [MatFree.withBC, hD, hDh]
    rw [h1]
    constructor
    · intro h; rw [h]; ring
    · intro h; rw [← h]; ring
  constructor
  · intro h
    have hx : ∀ g < N, D g → x g = v g := by
      intro g hg hD
      have := h g hg
      rwa [hcon g hg hD, if_pos hD] at this
    refine ⟨hx, fun g hg hD => ?_⟩
    have := h g hg
    rw [if_neg hD] at this
    exact (hfree hx g hg hD).1 this
  · rintro ⟨hx, h⟩ g hg
    by_cases hD : D g
    · rw [hcon g hg hD, if_pos hD, hx g hg hD]
    · rw [if_neg hD]
      exact (hfree hx g hg hD).2 (h g hg hD)

end

end Verif.CondDistr
