import Verif.Cyl.Blocks

/-! # Edges of the blocks -/
namespace Verif.Cyl
open Verif.Prim Verif.Grid Verif.Elem Verif.Mapping Finset

/-- The four families of edges of a block with `n × m` cells. -/
theorem mem_line {F : Pt → Pt} {xs ys : List ℝ} {n m : Nat} {ids : SquareIds} (hx : xs.length = n + 1) (hy : ys.length = m + 1)
    {e : Emit Pt} (he : e ∈ deform F (square xs ys ids)) (hq : e.ty = .line) :
    (∃ i, i < n ∧ e.dom = ids.bottom ∧ e.verts = [v0 F xs ys i 0, v0 F xs ys (i + 1) 0]) ∨
    (∃ i, i < n ∧ e.dom = ids.top ∧ e.verts = [v0 F xs ys i m, v0 F xs ys (i + 1) m]) ∨
    (∃ j, j < m ∧ e.dom = ids.left ∧ e.verts = [v0 F xs ys 0 j, v0 F xs ys 0 (j + 1)]) ∨
    (∃ j, j < m ∧ e.dom = ids.right ∧ e.verts = [v0 F xs ys n j, v0 F xs ys n (j + 1)]) := by
  obtain ⟨e0, h0, h1, h2, h3, h4⟩ := mem_deform he
  unfold square squareEmits at h0
  rw [hx, hy] at h0
  rcases List.mem_append.1 h0 with h0 | h0
  · rcases List.mem_append.1 h0 with h0 | h0
    · simp only [squareArea, List.mem_flatMap, List.mem_map, List.mem_range] at h0
      obtain ⟨iy, hy, ix, hx, rfl⟩ := h0
      simp [hq] at h2
    · simp only [squareY, List.mem_flatMap, List.mem_range] at h0
      obtain ⟨ix, hi, h0⟩ := h0
      simp only [List.mem_cons, List.not_mem_nil, or_false] at h0
      rcases h0 with rfl | rfl
      · exact Or.inl ⟨ix, by omega, h1, h4⟩
      · exact Or.inr (Or.inl ⟨ix, by omega, h1, h4⟩)
  · simp only [squareX, List.mem_flatMap, List.mem_range] at h0
    obtain ⟨ix, hi, h0⟩ := h0
    simp only [List.mem_cons, List.not_mem_nil, or_false] at h0
    rcases h0 with rfl | rfl
    · exact Or.inr (Or.inr (Or.inl ⟨ix, by omega, h1, h4⟩))
    · exact Or.inr (Or.inr (Or.inr ⟨ix, by omega, h1, h4⟩))

/-- A block has an edge with the given vertices. -/
def HasLine (b : List (Emit Pt)) (vs : List Pt) : Prop := ∃ e ∈ b, e.ty = .line ∧ e.verts = vs

theorem has_bottom {F : Pt → Pt} {xs ys : List ℝ} {n m : Nat} {ids : SquareIds} (hx : xs.length = n + 1) (hy : ys.length = m + 1)
    {i : Nat} (hi : i < n) : HasLine (deform F (square xs ys ids)) [v0 F xs ys i 0, v0 F xs ys (i + 1) 0] := by
  refine ⟨_, List.mem_map_of_mem (a := ⟨ids.bottom, .line, [i, i + 1], [(xs.getD i 0, ys.getD 0 0, 0), (xs.getD (i + 1) 0, ys.getD 0 0, 0)]⟩) ?_, rfl, rfl⟩
  refine List.mem_append_left _ (List.mem_append_right _ ?_)
  simp only [squareY, List.mem_flatMap, List.mem_range]
  exact ⟨i, by omega, by simp⟩

theorem has_top {F : Pt → Pt} {xs ys : List ℝ} {n m : Nat} {ids : SquareIds} (hx : xs.length = n + 1) (hy : ys.length = m + 1)
    {i : Nat} (hi : i < n) : HasLine (deform F (square xs ys ids)) [v0 F xs ys i m, v0 F xs ys (i + 1) m] := by
  refine ⟨_, List.mem_map_of_mem (a := ⟨ids.top, .line, [i + (n + 1) * m, i + 1 + (n + 1) * m], [(xs.getD i 0, ys.getD m 0, 0), (xs.getD (i + 1) 0, ys.getD m 0, 0)]⟩) ?_, rfl, rfl⟩
  refine List.mem_append_left _ (List.mem_append_right _ ?_)
  simp only [squareY, List.mem_flatMap, List.mem_range]
  exact ⟨i, by omega, by simp [hx, hy]⟩

theorem has_left {F : Pt → Pt} {xs ys : List ℝ} {n m : Nat} {ids : SquareIds} (hx : xs.length = n + 1) (hy : ys.length = m + 1)
    {j : Nat} (hj : j < m) : HasLine (deform F (square xs ys ids)) [v0 F xs ys 0 j, v0 F xs ys 0 (j + 1)] := by
  refine ⟨_, List.mem_map_of_mem (a := ⟨ids.left, .line, [j * (n + 1), (j + 1) * (n + 1)], [(xs.getD 0 0, ys.getD j 0, 0), (xs.getD 0 0, ys.getD (j + 1) 0, 0)]⟩) ?_, rfl, rfl⟩
  refine List.mem_append_right _ ?_
  simp only [squareX, List.mem_flatMap, List.mem_range]
  exact ⟨j, by omega, by simp [hx]⟩

theorem has_right {F : Pt → Pt} {xs ys : List ℝ} {n m : Nat} {ids : SquareIds} (hx : xs.length = n + 1) (hy : ys.length = m + 1)
    {j : Nat} (hj : j < m) : HasLine (deform F (square xs ys ids)) [v0 F xs ys n j, v0 F xs ys n (j + 1)] := by
  refine ⟨_, List.mem_map_of_mem (a := ⟨ids.right, .line, [j * (n + 1) + n, (j + 1) * (n + 1) + n], [(xs.getD n 0, ys.getD j 0, 0), (xs.getD n 0, ys.getD (j + 1) 0, 0)]⟩) ?_, rfl, rfl⟩
  refine List.mem_append_right _ ?_
  simp only [squareX, List.mem_flatMap, List.mem_range]
  exact ⟨j, by omega, by simp [hx]⟩

/-! ## Rotations -/

noncomputable def polar (r φ : ℝ) : Pt := (r * Real.cos φ, r * Real.sin φ, 0)

theorem rotate_polar (a r φ : ℝ) : rotate a (polar r φ) = polar r (φ + a) := by
  unfold rotate polar
  rw [Real.cos_add, Real.sin_add]
  ext <;> simp <;> ring

theorem polar_two_pi (r φ : ℝ) : polar r (φ + 2 * Real.pi) = polar r φ := by
  unfold polar
  rw [Real.cos_add_two_pi, Real.sin_add_two_pi]

theorem rotate_rotate (a b : ℝ) (p : Pt) : rotate a (rotate b p) = rotate (a + b) p := by
  unfold rotate
  rw [Real.cos_add, Real.sin_add]
  ext <;> simp <;> ring

theorem rotate_zero {p : Pt} (h : p.2.2 = 0) : rotate 0 p = p := by
  unfold rotate
  ext <;> simp [h]

theorem rotate_two_pi (a : ℝ) (p : Pt) : rotate (a + 2 * Real.pi) p = rotate a p := by
  unfold rotate
  rw [Real.cos_add_two_pi, Real.sin_add_two_pi]

/-- Angle of the `k`-th quarter. -/
noncomputable def ang (k : Nat) : ℝ := k * (Real.pi / 2)

theorem ang_cases : ang 0 = 0 ∧ ang 1 = Real.pi / 2 ∧ ang 2 = Real.pi ∧ ang 3 = 3 / 2 * Real.pi := by
  refine ⟨?_, ?_, ?_, ?_⟩ <;> unfold ang <;> push_cast <;> ring

theorem cos_three : Real.cos (3 / 2 * Real.pi) = 0 := by
  rw [show 3 / 2 * Real.pi = Real.pi / 2 + Real.pi by ring, Real.cos_add_pi, Real.cos_pi_div_two, neg_zero]

theorem sin_three : Real.sin (3 / 2 * Real.pi) = -1 := by
  rw [show 3 / 2 * Real.pi = Real.pi / 2 + Real.pi by ring, Real.sin_add_pi, Real.sin_pi_div_two]

theorem rotate_ang_succ (k : Nat) (hk : k < 4) (p : Pt) : rotate (ang ((k + 1) % 4)) p = rotate (ang k) (rotate (Real.pi / 2) p) := by
  rw [rotate_rotate]
  interval_cases k
  · simp only [Nat.zero_add, Nat.reduceMod]; congr 1; unfold ang; push_cast; ring
  · simp only [Nat.reduceAdd, Nat.reduceMod]; congr 1; unfold ang; push_cast; ring
  · simp only [Nat.reduceAdd, Nat.reduceMod]; congr 1; unfold ang; push_cast; ring
  · simp only [Nat.reduceAdd, Nat.reduceMod]
    rw [← rotate_two_pi (ang 0)]
    congr 1; unfold ang; push_cast; ring

/-! ## Vertices -/

theorem ring_v0 (a : ℝ) (xs ys : List ℝ) (i j : Nat) :
    v0 (fun p => rotate a (ringMap p)) xs ys i j = polar (xs.getD i 0) (ys.getD j 0 * Real.pi + a) := by
  rw [← rotate_polar]; rfl

theorem wake_v0_left {r L : ℝ} (a : ℝ) (xs ys : List ℝ) (j : Nat) (h : xs.getD 0 0 = 0) :
    v0 (fun p => rotate a (wakeMap r L p)) xs ys 0 j = polar r (ys.getD j 0 + a) := by
  rw [← rotate_polar]
  unfold v0 wakeMap polar
  rw [h]
  simp

theorem wake_v0_right {r L : ℝ} (hL : L ≠ 0) (a : ℝ) (xs ys : List ℝ) (n j : Nat) (h : xs.getD n 0 = L) :
    v0 (fun p => rotate a (wakeMap r L p)) xs ys n j = rotate a (L, r * Real.sin (ys.getD j 0), 0) := by
  unfold v0 wakeMap
  rw [h]
  simp [div_self hL]

theorem wake_v0_top {r L : ℝ} (a : ℝ) (xs ys : List ℝ) (i j : Nat) (h : ys.getD j 0 = Real.pi / 4) :
    v0 (fun p => rotate a (wakeMap r L p)) xs ys i j = rotate a (cornerDist r L (xs.getD i 0), r * (Real.sqrt 2 / 2), 0) := by
  unfold v0 wakeMap cornerDist
  rw [h]
  simp only [Real.cos_pi_div_four, Real.sin_pi_div_four]

theorem wake_v0_bottom {r L : ℝ} (a : ℝ) (xs ys : List ℝ) (i j : Nat) (h : ys.getD j 0 = -Real.pi / 4) :
    v0 (fun p => rotate a (wakeMap r L p)) xs ys i j = rotate a (cornerDist r L (xs.getD i 0), -(r * (Real.sqrt 2 / 2)), 0) := by
  unfold v0 wakeMap cornerDist
  rw [h, show -Real.pi / 4 = -(Real.pi / 4) by ring]
  simp only [Real.cos_neg, Real.sin_neg, Real.cos_pi_div_four, Real.sin_pi_div_four, mul_neg]

theorem corner_v0 {r Lx Ly : ℝ} (a : ℝ) (xs ys : List ℝ) (i j : Nat) (hi : i < xs.length) (hj : j < ys.length) :
    v0 (rotate a) (xs.map (cornerDist r Lx)) (ys.map (cornerDist r Ly)) i j =
      rotate a (cornerDist r Lx (xs.getD i 0), cornerDist r Ly (ys.getD j 0), 0) := by
  unfold v0
  rw [getD_of (by simpa using hi), getD_of (by simpa using hj), List.getElem_map, List.getElem_map, getD_of hi, getD_of hj]

theorem cornerDist_zero (r L : ℝ) : cornerDist r L 0 = r * (Real.sqrt 2 / 2) := by simp [cornerDist]

theorem cornerDist_self {r L : ℝ} (hL : L ≠ 0) : cornerDist r L L = L := by simp [cornerDist, div_self hL]

/-- The bottom of a wake, turned by a quarter. -/
theorem quarter (x y : ℝ) : rotate (Real.pi / 2) (x, -y, 0) = (y, x, 0) := by
  unfold rotate; simp

end Verif.Cyl
