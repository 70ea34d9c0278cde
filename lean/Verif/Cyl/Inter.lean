import Verif.Cyl.Layout

/-! # Where the edges of the blocks meet -/
namespace Verif.Cyl
open Verif.Prim Verif.Grid Verif.Elem Verif.Mapping Finset

/-- Side `k` of the channel (0 right, 1 top, 2 left, 3 bottom). -/
def Geom.onSide (g : Geom) (k : Nat) (p : Pt) : Prop := match k with
  | 0 => p.1 = g.rightOffset
  | 1 => p.2.1 = g.topOffset
  | 2 => p.1 = -g.leftOffset
  | _ => p.2.1 = -g.bottomOffset

def Geom.onCyl (g : Geom) (p : Pt) : Prop := p.1 ^ 2 + p.2.1 ^ 2 = g.rInner ^ 2

theorem onSide_right (g : Geom) (k : Nat) (hk : k < 4) (a : ℝ) : g.onSide k (rotate (ang k) (g.L k, a, 0)) := by
  have := Real.cos_pi_div_two
  have := Real.sin_pi_div_two
  obtain ⟨a0, a1, a2, a3⟩ := ang_cases
  interval_cases k <;> unfold Geom.onSide rotate Geom.L <;> simp [a0, a1, a2, a3, cos_three, sin_three]

theorem onSide_top (g : Geom) (k : Nat) (hk : k < 4) (a : ℝ) : g.onSide ((k + 1) % 4) (rotate (ang k) (a, g.L ((k + 1) % 4), 0)) := by
  obtain ⟨a0, a1, a2, a3⟩ := ang_cases
  interval_cases k <;> unfold Geom.onSide rotate Geom.L <;> simp [a0, a1, a2, a3, cos_three, sin_three]

theorem onCyl_polar (g : Geom) (φ : ℝ) : g.onCyl (polar g.rInner φ) := by
  unfold Geom.onCyl polar
  have := Real.sin_sq_add_cos_sq φ
  simp only
  linear_combination g.rInner ^ 2 * this

theorem cornB_edges {r Lx Ly : ℝ} {xs ys : List ℝ} {n m k : Nat} {ids : SquareIds} (hx : Dist xs 0 Lx n) (hy : Dist ys 0 Ly m)
    (hLx : Lx ≠ 0) (hLy : Ly ≠ 0) {e : Emit Pt} (he : e ∈ cornB r Lx Ly xs ys ids k) (hq : e.ty = .line) :
    (∃ i, i < n ∧ e.dom = ids.bottom ∧ e.verts = [rotate (ang k) (cornerDist r Lx (xs.getD i 0), r * (Real.sqrt 2 / 2), 0),
      rotate (ang k) (cornerDist r Lx (xs.getD (i + 1) 0), r * (Real.sqrt 2 / 2), 0)]) ∨
    (e.dom = ids.top ∧ ∀ v ∈ e.verts, ∃ a, v = rotate (ang k) (a, Ly, 0)) ∨
    (∃ j, j < m ∧ e.dom = ids.left ∧ e.verts = [rotate (ang k) (r * (Real.sqrt 2 / 2), cornerDist r Ly (ys.getD j 0), 0),
      rotate (ang k) (r * (Real.sqrt 2 / 2), cornerDist r Ly (ys.getD (j + 1) 0), 0)]) ∨
    (e.dom = ids.right ∧ ∀ v ∈ e.verts, ∃ a, v = rotate (ang k) (Lx, a, 0)) := by
  have hxl := hx.len
  have hyl := hy.len
  unfold cornB at he
  rcases mem_line (n := n) (m := m) (by simpa using hx.len) (by simpa using hy.len) he hq with ⟨i, hi, h1, h2⟩ | ⟨i, hi, h1, h2⟩ | ⟨i, hi, h1, h2⟩ | ⟨i, hi, h1, h2⟩
  · refine Or.inl ⟨i, hi, h1, ?_⟩
    rw [h2, corner_v0 _ _ _ _ _ (by omega) (by omega), corner_v0 _ _ _ _ _ (by omega) (by omega), hy.first, cornerDist_zero]
  · refine Or.inr (Or.inl ⟨h1, fun v hv => ?_⟩)
    rw [h2, corner_v0 _ _ _ _ _ (by omega) (by omega), corner_v0 _ _ _ _ _ (by omega) (by omega), hy.last, cornerDist_self hLy] at hv
    simp only [List.mem_cons, List.not_mem_nil, or_false] at hv
    rcases hv with rfl | rfl <;> exact ⟨_, rfl⟩
  · refine Or.inr (Or.inr (Or.inl ⟨i, hi, h1, ?_⟩))
    rw [h2, corner_v0 _ _ _ _ _ (by omega) (by omega), corner_v0 _ _ _ _ _ (by omega) (by omega), hx.first, cornerDist_zero]
  · refine Or.inr (Or.inr (Or.inr ⟨h1, fun v hv => ?_⟩))
    rw [h2, corner_v0 _ _ _ _ _ (by omega) (by omega), corner_v0 _ _ _ _ _ (by omega) (by omega), hx.last, cornerDist_self hLx] at hv
    simp only [List.mem_cons, List.not_mem_nil, or_false] at hv
    rcases hv with rfl | rfl <;> exact ⟨_, rfl⟩

theorem cornB_has_bottom {r Lx Ly : ℝ} {xs ys : List ℝ} {n m k : Nat} {ids : SquareIds} (hx : Dist xs 0 Lx n) (hy : Dist ys 0 Ly m)
    {i : Nat} (hi : i < n) : HasLine (cornB r Lx Ly xs ys ids k) [rotate (ang k) (cornerDist r Lx (xs.getD i 0), r * (Real.sqrt 2 / 2), 0),
      rotate (ang k) (cornerDist r Lx (xs.getD (i + 1) 0), r * (Real.sqrt 2 / 2), 0)] := by
  have hxl := hx.len
  have hyl := hy.len
  have := has_bottom (F := rotate (ang k)) (ids := ids) (xs := xs.map (cornerDist r Lx)) (ys := ys.map (cornerDist r Ly)) (n := n) (m := m)
    (by simpa using hx.len) (by simpa using hy.len) hi
  rwa [corner_v0 _ _ _ _ _ (by omega) (by omega), corner_v0 _ _ _ _ _ (by omega) (by omega), hy.first, cornerDist_zero] at this

theorem cornB_has_left {r Lx Ly : ℝ} {xs ys : List ℝ} {n m k : Nat} {ids : SquareIds} (hx : Dist xs 0 Lx n) (hy : Dist ys 0 Ly m)
    {j : Nat} (hj : j < m) : HasLine (cornB r Lx Ly xs ys ids k) [rotate (ang k) (r * (Real.sqrt 2 / 2), cornerDist r Ly (ys.getD j 0), 0),
      rotate (ang k) (r * (Real.sqrt 2 / 2), cornerDist r Ly (ys.getD (j + 1) 0), 0)] := by
  have hxl := hx.len
  have hyl := hy.len
  have := has_left (F := rotate (ang k)) (ids := ids) (xs := xs.map (cornerDist r Lx)) (ys := ys.map (cornerDist r Ly)) (n := n) (m := m)
    (by simpa using hx.len) (by simpa using hy.len) hj
  rwa [corner_v0 _ _ _ _ _ (by omega) (by omega), corner_v0 _ _ _ _ _ (by omega) (by omega), hx.first, cornerDist_zero] at this

/-- Edges of a wake between the angles `lo` and `lo + l δ`. -/
theorem wakeB_edges {r L lo δ : ℝ} {xs ys : List ℝ} {n l k : Nat} {ids : SquareIds} (hx : Dist xs 0 L n) (hy : Lin ys lo δ l)
    (hL : L ≠ 0) {e : Emit Pt} (he : e ∈ wakeB r L xs ys ids k) (hq : e.ty = .line) :
    (∃ i, i < n ∧ e.dom = ids.bottom ∧ e.verts = [v0 (fun p => rotate (ang k) (wakeMap r L p)) xs ys i 0,
      v0 (fun p => rotate (ang k) (wakeMap r L p)) xs ys (i + 1) 0]) ∨
    (∃ i, i < n ∧ e.dom = ids.top ∧ e.verts = [v0 (fun p => rotate (ang k) (wakeMap r L p)) xs ys i l,
      v0 (fun p => rotate (ang k) (wakeMap r L p)) xs ys (i + 1) l]) ∨
    (∃ j, j < l ∧ e.dom = ids.left ∧ e.verts = [polar r (lo + j * δ + ang k), polar r (lo + (j + 1 : Nat) * δ + ang k)]) ∨
    (e.dom = ids.right ∧ ∀ v ∈ e.verts, ∃ a, v = rotate (ang k) (L, a, 0)) := by
  unfold wakeB at he
  rcases mem_line (n := n) (m := l) hx.len hy.len he hq with ⟨i, hi, h1, h2⟩ | ⟨i, hi, h1, h2⟩ | ⟨j, hj, h1, h2⟩ | ⟨j, hj, h1, h2⟩
  · exact Or.inl ⟨i, hi, h1, h2⟩
  · exact Or.inr (Or.inl ⟨i, hi, h1, h2⟩)
  · refine Or.inr (Or.inr (Or.inl ⟨j, hj, h1, ?_⟩))
    rw [h2, wake_v0_left _ _ _ _ hx.first, wake_v0_left _ _ _ _ hx.first, hy.val j (by omega), hy.val (j + 1) hj]
  · refine Or.inr (Or.inr (Or.inr ⟨h1, fun v hv => ?_⟩))
    rw [h2, wake_v0_right hL _ _ _ _ _ hx.last, wake_v0_right hL _ _ _ _ _ hx.last] at hv
    simp only [List.mem_cons, List.not_mem_nil, or_false] at hv
    rcases hv with rfl | rfl <;> exact ⟨_, rfl⟩

theorem wakeB_has_left {r L lo δ : ℝ} {xs ys : List ℝ} {n l k : Nat} {ids : SquareIds} (hx : Dist xs 0 L n) (hy : Lin ys lo δ l)
    {j : Nat} (hj : j < l) : HasLine (wakeB r L xs ys ids k) [polar r (lo + j * δ + ang k), polar r (lo + (j + 1 : Nat) * δ + ang k)] := by
  have := has_left (F := fun p => rotate (ang k) (wakeMap r L p)) (ids := ids) hx.len hy.len hj
  rwa [wake_v0_left _ _ _ _ hx.first, wake_v0_left _ _ _ _ hx.first, hy.val j (by omega), hy.val (j + 1) hj] at this

theorem wakeB_has_top {r L lo δ : ℝ} {xs ys : List ℝ} {n l k : Nat} {ids : SquareIds} (hx : Dist xs 0 L n) (hy : Lin ys lo δ l)
    (ht : lo + l * δ = Real.pi / 4) {i : Nat} (hi : i < n) : HasLine (wakeB r L xs ys ids k)
      [rotate (ang k) (cornerDist r L (xs.getD i 0), r * (Real.sqrt 2 / 2), 0),
       rotate (ang k) (cornerDist r L (xs.getD (i + 1) 0), r * (Real.sqrt 2 / 2), 0)] := by
  have := has_top (F := fun p => rotate (ang k) (wakeMap r L p)) (ids := ids) hx.len hy.len hi
  have hv := (hy.val l le_rfl).trans ht
  rwa [wake_v0_top _ _ _ _ _ hv, wake_v0_top _ _ _ _ _ hv] at this

/-- The bottom of the wake of the next quarter, seen from quarter `k`. -/
theorem wakeB_has_bottom {r L δ : ℝ} {xs ys : List ℝ} {n l k : Nat} {ids : SquareIds} (hk : k < 4) (hx : Dist xs 0 L n) (hy : Lin ys (-Real.pi / 4) δ l)
    {i : Nat} (hi : i < n) : HasLine (wakeB r L xs ys ids ((k + 1) % 4))
      [rotate (ang k) (r * (Real.sqrt 2 / 2), cornerDist r L (xs.getD i 0), 0),
       rotate (ang k) (r * (Real.sqrt 2 / 2), cornerDist r L (xs.getD (i + 1) 0), 0)] := by
  have := has_bottom (F := fun p => rotate (ang ((k + 1) % 4)) (wakeMap r L p)) (ids := ids) hx.len hy.len hi
  have hv : ys.getD 0 0 = -Real.pi / 4 := by rw [hy.val 0 (by omega)]; simp
  rwa [wake_v0_bottom _ _ _ _ _ hv, wake_v0_bottom _ _ _ _ _ hv, rotate_ang_succ k hk, rotate_ang_succ k hk, quarter, quarter] at this

theorem wake_bottom_verts {r L δ : ℝ} {xs ys : List ℝ} {l k : Nat} (hk : k < 4) (hy : Lin ys (-Real.pi / 4) δ l) (i : Nat) :
    v0 (fun p => rotate (ang ((k + 1) % 4)) (wakeMap r L p)) xs ys i 0 = rotate (ang k) (r * (Real.sqrt 2 / 2), cornerDist r L (xs.getD i 0), 0) := by
  have hv : ys.getD 0 0 = -Real.pi / 4 := by rw [hy.val 0 (by omega)]; simp
  rw [wake_v0_bottom _ _ _ _ _ hv, rotate_ang_succ k hk, quarter]

theorem wake_top_verts {r L lo δ : ℝ} {xs ys : List ℝ} {l k : Nat} (hy : Lin ys lo δ l) (ht : lo + l * δ = Real.pi / 4) (i : Nat) :
    v0 (fun p => rotate (ang k) (wakeMap r L p)) xs ys i l = rotate (ang k) (cornerDist r L (xs.getD i 0), r * (Real.sqrt 2 / 2), 0) :=
  wake_v0_top _ _ _ _ _ ((hy.val l le_rfl).trans ht)

/-- Edges of a half ring. -/
theorem ringB_edges {a b : ℝ} {rad cir : List ℝ} {n m h : Nat} {ids : SquareIds} (hm : 0 < m) (hx : Dist rad a b n)
    (hc : Lin cir 0 (1 / (4 * m)) (4 * m)) {e : Emit Pt} (he : e ∈ ringB rad cir ids h) (hq : e.ty = .line) :
    (∃ i, i < n ∧ e.dom = ids.bottom ∧ e.verts = [polar (rad.getD i 0) (h * Real.pi), polar (rad.getD (i + 1) 0) (h * Real.pi)]) ∨
    (∃ i, i < n ∧ e.dom = ids.top ∧ e.verts = [polar (rad.getD i 0) ((h + 1 : Nat) * Real.pi), polar (rad.getD (i + 1) 0) ((h + 1 : Nat) * Real.pi)]) ∨
    (e.dom = ids.left ∧ ∀ v ∈ e.verts, ∃ φ, v = polar a φ) ∨
    (∃ j, j < 4 * m ∧ e.dom = ids.right ∧ e.verts = [polar b (j * step m + h * Real.pi), polar b ((j + 1 : Nat) * step m + h * Real.pi)]) := by
  have hv : ∀ j, j ≤ 4 * m → cir.getD j 0 * Real.pi = j * step m := by
    intro j hj; rw [hc.val j hj]; unfold step; ring
  have h4 : ((4 * m : Nat) : ℝ) * step m = Real.pi := by
    have := m_step hm
    push_cast
    linarith
  unfold ringB at he
  rcases mem_line (n := n) (m := 4 * m) hx.len hc.len he hq with ⟨i, hi, h1, h2⟩ | ⟨i, hi, h1, h2⟩ | ⟨j, hj, h1, h2⟩ | ⟨j, hj, h1, h2⟩
  · refine Or.inl ⟨i, hi, h1, ?_⟩
    rw [h2, ring_v0, ring_v0, hv 0 (by omega)]
    simp
  · refine Or.inr (Or.inl ⟨i, hi, h1, ?_⟩)
    rw [h2, ring_v0, ring_v0, hv _ le_rfl, h4]
    push_cast
    rw [show Real.pi + (h : ℝ) * Real.pi = ((h : ℝ) + 1) * Real.pi by ring]
  · refine Or.inr (Or.inr (Or.inl ⟨h1, fun v hv' => ?_⟩))
    rw [h2, ring_v0, ring_v0, hx.first] at hv'
    simp only [List.mem_cons, List.not_mem_nil, or_false] at hv'
    rcases hv' with rfl | rfl <;> exact ⟨_, rfl⟩
  · refine Or.inr (Or.inr (Or.inr ⟨j, hj, h1, ?_⟩))
    rw [h2, ring_v0, ring_v0, hx.last, hv j (by omega), hv (j + 1) hj]

theorem ringB_has {a b : ℝ} {rad cir : List ℝ} {n m h : Nat} {ids : SquareIds} (hm : 0 < m) (hx : Dist rad a b n)
    (hc : Lin cir 0 (1 / (4 * m)) (4 * m)) :
    (∀ i, i < n → HasLine (ringB rad cir ids h) [polar (rad.getD i 0) (h * Real.pi), polar (rad.getD (i + 1) 0) (h * Real.pi)]) ∧
    (∀ i, i < n → HasLine (ringB rad cir ids h) [polar (rad.getD i 0) ((h + 1 : Nat) * Real.pi), polar (rad.getD (i + 1) 0) ((h + 1 : Nat) * Real.pi)]) ∧
    (∀ j, j < 4 * m → HasLine (ringB rad cir ids h) [polar b (j * step m + h * Real.pi), polar b ((j + 1 : Nat) * step m + h * Real.pi)]) := by
  have hv : ∀ j, j ≤ 4 * m → cir.getD j 0 * Real.pi = j * step m := by
    intro j hj; rw [hc.val j hj]; unfold step; ring
  have h4 : ((4 * m : Nat) : ℝ) * step m = Real.pi := by
    have := m_step hm
    push_cast
    linarith
  refine ⟨fun i hi => ?_, fun i hi => ?_, fun j hj => ?_⟩
  · have := has_bottom (F := fun p => rotate (h * Real.pi) (ringMap p)) (ids := ids) hx.len hc.len hi
    rwa [ring_v0, ring_v0, hv 0 (by omega), Nat.cast_zero, zero_mul, zero_add] at this
  · have := has_top (F := fun p => rotate (h * Real.pi) (ringMap p)) (ids := ids) hx.len hc.len hi
    rw [ring_v0, ring_v0, hv _ le_rfl, h4] at this
    push_cast
    rwa [show Real.pi + (h : ℝ) * Real.pi = ((h : ℝ) + 1) * Real.pi by ring] at this
  · have := has_right (F := fun p => rotate (h * Real.pi) (ringMap p)) (ids := ids) hx.len hc.len hj
    rwa [ring_v0, ring_v0, hx.last, hv j (by omega), hv (j + 1) hj] at this

/-- Both ends of an edge of the circle shift alike. -/
theorem arc {r s t s' t' δ : ℝ} {j j' : Nat} (h : s + j * δ + t = s' + j' * δ + t' ∨ s + j * δ + t = s' + j' * δ + t' + 2 * Real.pi ∨
    s + j * δ + t + 2 * Real.pi = s' + j' * δ + t') :
    [polar r (s + j * δ + t), polar r (s + (j + 1 : Nat) * δ + t)] = [polar r (s' + j' * δ + t'), polar r (s' + (j' + 1 : Nat) * δ + t')] := by
  rcases h with h | h | h
  · have h' : s + (j + 1 : Nat) * δ + t = s' + (j' + 1 : Nat) * δ + t' := by push_cast; linarith
    rw [h, h']
  · have h' : s + (j + 1 : Nat) * δ + t = s' + (j' + 1 : Nat) * δ + t' + 2 * Real.pi := by push_cast; linarith
    rw [h, h', polar_two_pi, polar_two_pi]
  · have h' : s + (j + 1 : Nat) * δ + t + 2 * Real.pi = s' + (j' + 1 : Nat) * δ + t' := by push_cast; linarith
    rw [← h, ← h', polar_two_pi, polar_two_pi]

end Verif.Cyl
