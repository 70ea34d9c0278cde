import Verif.Cyl.Lemmas

/-! # The three kinds of blocks -/
namespace Verif.Cyl
open Verif.Prim Verif.Grid Verif.Elem Verif.Mapping Finset

/-- Sum of the areas of the quadrilaterals of a block. -/
noncomputable def areaOf (l : List (Emit Pt)) : ℝ := (l.map fun e => if e.ty = .quad then area e else 0).sum

theorem sum_range_list (f : Nat → ℝ) (n : Nat) : ((List.range n).map f).sum = ∑ i ∈ range n, f i := by
  induction n with
  | zero => rfl
  | succ n ih => rw [List.range_succ, List.map_append, List.sum_append, ih, Finset.sum_range_succ]; simp

/-- Vertices of cell `(ix, iy)`. -/
def v0 (F : Pt → Pt) (xs ys : List ℝ) (ix iy : Nat) : Pt := F (xs.getD ix 0, ys.getD iy 0, 0)

/-- Orientation and area of the cells of a block with `n × m` cells. -/
structure Good (F : Pt → Pt) (xs ys : List ℝ) (n m : Nat) (ar : Nat → Nat → ℝ) : Prop where
  nx : xs.length = n + 1
  ny : ys.length = m + 1
  c0 : ∀ i j, i < n → j < m → 0 < cross (v0 F xs ys i j) (v0 F xs ys (i + 1) j) (v0 F xs ys i j) (v0 F xs ys i (j + 1))
  c1 : ∀ i j, i < n → j < m → 0 < cross (v0 F xs ys i j) (v0 F xs ys (i + 1) j) (v0 F xs ys (i + 1) j) (v0 F xs ys (i + 1) (j + 1))
  c2 : ∀ i j, i < n → j < m → 0 < cross (v0 F xs ys i (j + 1)) (v0 F xs ys (i + 1) (j + 1)) (v0 F xs ys i j) (v0 F xs ys i (j + 1))
  c3 : ∀ i j, i < n → j < m →
    0 < cross (v0 F xs ys i (j + 1)) (v0 F xs ys (i + 1) (j + 1)) (v0 F xs ys (i + 1) j) (v0 F xs ys (i + 1) (j + 1))
  ar : ∀ i j, i < n → j < m →
    (cross (v0 F xs ys i j) (v0 F xs ys (i + 1) j) (v0 F xs ys i j) (v0 F xs ys i (j + 1)) +
     cross (v0 F xs ys i j) (v0 F xs ys (i + 1) j) (v0 F xs ys (i + 1) j) (v0 F xs ys (i + 1) (j + 1)) +
     cross (v0 F xs ys i (j + 1)) (v0 F xs ys (i + 1) (j + 1)) (v0 F xs ys i j) (v0 F xs ys i (j + 1)) +
     cross (v0 F xs ys i (j + 1)) (v0 F xs ys (i + 1) (j + 1)) (v0 F xs ys (i + 1) j) (v0 F xs ys (i + 1) (j + 1))) / 4 = ar i j

theorem Good.rotate {F : Pt → Pt} {xs ys : List ℝ} {n m : Nat} {ar} (h : Good F xs ys n m ar) (α : ℝ) :
    Good (fun p => rotate α (F p)) xs ys n m ar where
  nx := h.nx
  ny := h.ny
  c0 := fun i j hi hj => by simp only [v0, cross_rotate]; exact h.c0 i j hi hj
  c1 := fun i j hi hj => by simp only [v0, cross_rotate]; exact h.c1 i j hi hj
  c2 := fun i j hi hj => by simp only [v0, cross_rotate]; exact h.c2 i j hi hj
  c3 := fun i j hi hj => by simp only [v0, cross_rotate]; exact h.c3 i j hi hj
  ar := fun i j hi hj => by simp only [v0, cross_rotate]; exact h.ar i j hi hj

theorem mem_deform {F : Pt → Pt} {l : List (Emit Pt)} {e : Emit Pt} (h : e ∈ deform F l) :
    ∃ e0 ∈ l, e.dom = e0.dom ∧ e.ty = e0.ty ∧ e.nodes = e0.nodes ∧ e.verts = e0.verts.map F := by
  obtain ⟨e0, h0, rfl⟩ := List.mem_map.1 h
  exact ⟨e0, h0, rfl, rfl, rfl, rfl⟩

theorem deform_deform (F G : Pt → Pt) (l : List (Emit Pt)) : deform F (deform G l) = deform (fun p => F (G p)) l := by
  unfold deform
  rw [List.map_map]
  refine List.map_congr_left fun e _ => ?_
  simp [Function.comp_def]

theorem Good.pos {F : Pt → Pt} {xs ys : List ℝ} {n m : Nat} {ar} (h : Good F xs ys n m ar) (ids : SquareIds) (e : Emit Pt)
    (he : e ∈ deform F (square xs ys ids)) (hq : e.ty = .quad) (ξ η : ℝ) (a : -1 ≤ ξ) (b : ξ ≤ 1) (c : -1 ≤ η) (d : η ≤ 1) :
    0 < jac e ξ η := by
  obtain ⟨e0, h0, h1, h2, h3, h4⟩ := mem_deform he
  unfold square squareEmits at h0
  rcases List.mem_append.1 h0 with h0 | h0
  · rcases List.mem_append.1 h0 with h0 | h0
    · simp only [squareArea, List.mem_flatMap, List.mem_map, List.mem_range] at h0
      obtain ⟨iy, hy, ix, hx, rfl⟩ := h0
      rw [h.ny] at hy
      rw [h.nx] at hx
      have hx' : ix < n := by omega
      have hy' : iy < m := by omega
      obtain ⟨dd, tt, nn, vv⟩ := e
      simp only at h4 h2 hq
      subst h4
      subst hq
      exact jac_pos _ _ _ _ _ _ (h.c0 ix iy hx' hy') (h.c1 ix iy hx' hy') (h.c2 ix iy hx' hy') (h.c3 ix iy hx' hy') ξ η a b c d
    · simp only [squareY, List.mem_flatMap] at h0
      obtain ⟨ix, _, h0⟩ := h0
      simp only [List.mem_cons, List.not_mem_nil, or_false] at h0
      rcases h0 with rfl | rfl <;> simp [hq] at h2
  · simp only [squareX, List.mem_flatMap] at h0
    obtain ⟨ix, _, h0⟩ := h0
    simp only [List.mem_cons, List.not_mem_nil, or_false] at h0
    rcases h0 with rfl | rfl <;> simp [hq] at h2

theorem areaOf_append (l l' : List (Emit Pt)) : areaOf (l ++ l') = areaOf l + areaOf l' := by
  simp [areaOf]

theorem areaOf_zero (l : List (Emit Pt)) (h : ∀ e ∈ l, e.ty ≠ .quad) : areaOf l = 0 := by
  unfold areaOf
  refine List.sum_eq_zero fun x hx => ?_
  obtain ⟨e, he, rfl⟩ := List.mem_map.1 hx
  rw [if_neg (h e he)]

theorem Good.area {F : Pt → Pt} {xs ys : List ℝ} {n m : Nat} {ar} (h : Good F xs ys n m ar) (ids : SquareIds) :
    areaOf (deform F (square xs ys ids)) = ∑ j ∈ range m, ∑ i ∈ range n, ar i j := by
  unfold square squareEmits deform
  rw [List.map_append, List.map_append, areaOf_append, areaOf_append, areaOf_zero (List.map _ (squareX _ _ _ _ _)),
    areaOf_zero (List.map _ (squareY _ _ _ _ _)), add_zero, add_zero]
  · unfold areaOf squareArea
    rw [h.nx, h.ny, Nat.add_sub_cancel, Nat.add_sub_cancel, List.map_map, List.map_flatMap, Quad.sum_flatMap, sum_range_list]
    refine Finset.sum_congr rfl fun j hj => ?_
    rw [List.map_map, sum_range_list]
    refine Finset.sum_congr rfl fun i hi => ?_
    rw [← h.ar i j (Finset.mem_range.1 hi) (Finset.mem_range.1 hj)]
    show (if ElType.quad = ElType.quad then Verif.Cyl.area _ else 0) = _
    rw [if_pos rfl]
    exact area_eq _ _ _ _ _ _
  · intro e he
    obtain ⟨e0, h0, rfl⟩ := List.mem_map.1 he
    simp only [squareY, List.mem_flatMap] at h0
    obtain ⟨ix, _, h0⟩ := h0
    simp only [List.mem_cons, List.not_mem_nil, or_false] at h0
    rcases h0 with rfl | rfl <;> simp
  · intro e he
    obtain ⟨e0, h0, rfl⟩ := List.mem_map.1 he
    simp only [squareX, List.mem_flatMap] at h0
    obtain ⟨ix, _, h0⟩ := h0
    simp only [List.mem_cons, List.not_mem_nil, or_false] at h0
    rcases h0 with rfl | rfl <;> simp

/-! ## The ring -/

theorem ring_good {xs ys : List ℝ} {a b δ : ℝ} {n m : Nat} (hx : Dist xs a b n) (ha : 0 < a) (hl : ys.length = m + 1)
    (hy : ∀ j, j ≤ m → ys.getD j 0 * Real.pi = j * δ) (hδ : 0 < δ) (hδ' : δ < Real.pi) :
    Good ringMap xs ys n m fun i _ => (xs.getD (i + 1) 0 ^ 2 - xs.getD i 0 ^ 2) / 2 * Real.sin δ := by
  have hs : 0 < Real.sin δ := Real.sin_pos_of_pos_of_lt_pi hδ hδ'
  have hpos : ∀ i, i ≤ n → 0 < xs.getD i 0 := by
    intro i
    induction i with
    | zero => intro _; rw [hx.first]; exact ha
    | succ i ih => intro hi; exact (ih (by omega)).trans (hx.inc i (by omega))
  have hsin : ∀ j, j < m → Real.sin δ = Real.sin (ys.getD (j + 1) 0 * Real.pi) * Real.cos (ys.getD j 0 * Real.pi) -
      Real.cos (ys.getD (j + 1) 0 * Real.pi) * Real.sin (ys.getD j 0 * Real.pi) := by
    intro j hj
    rw [← Real.sin_sub, hy (j + 1) hj, hy j (by omega)]
    congr 1
    push_cast
    ring
  have e0 : ∀ i j, j < m → cross (v0 ringMap xs ys i j) (v0 ringMap xs ys (i + 1) j) (v0 ringMap xs ys i j) (v0 ringMap xs ys i (j + 1)) =
      (xs.getD (i + 1) 0 - xs.getD i 0) * xs.getD i 0 * Real.sin δ := by
    intro i j hj
    rw [hsin j hj]
    unfold cross v0 ringMap
    simp only
    ring
  have e1 : ∀ i j, j < m → cross (v0 ringMap xs ys i j) (v0 ringMap xs ys (i + 1) j) (v0 ringMap xs ys (i + 1) j) (v0 ringMap xs ys (i + 1) (j + 1)) =
      (xs.getD (i + 1) 0 - xs.getD i 0) * xs.getD (i + 1) 0 * Real.sin δ := by
    intro i j hj
    rw [hsin j hj]
    unfold cross v0 ringMap
    simp only
    ring
  have e2 : ∀ i j, j < m → cross (v0 ringMap xs ys i (j + 1)) (v0 ringMap xs ys (i + 1) (j + 1)) (v0 ringMap xs ys i j) (v0 ringMap xs ys i (j + 1)) =
      (xs.getD (i + 1) 0 - xs.getD i 0) * xs.getD i 0 * Real.sin δ := by
    intro i j hj
    rw [hsin j hj]
    unfold cross v0 ringMap
    simp only
    ring
  have e3 : ∀ i j, j < m → cross (v0 ringMap xs ys i (j + 1)) (v0 ringMap xs ys (i + 1) (j + 1)) (v0 ringMap xs ys (i + 1) j)
      (v0 ringMap xs ys (i + 1) (j + 1)) = (xs.getD (i + 1) 0 - xs.getD i 0) * xs.getD (i + 1) 0 * Real.sin δ := by
    intro i j hj
    rw [hsin j hj]
    unfold cross v0 ringMap
    simp only
    ring
  refine ⟨hx.len, hl, ?_, ?_, ?_, ?_, ?_⟩
  · intro i j hi hj
    rw [e0 i j hj]
    exact mul_pos (mul_pos (sub_pos.2 (hx.inc i hi)) (hpos i (by omega))) hs
  · intro i j hi hj
    rw [e1 i j hj]
    exact mul_pos (mul_pos (sub_pos.2 (hx.inc i hi)) (hpos (i + 1) hi)) hs
  · intro i j hi hj
    rw [e2 i j hj]
    exact mul_pos (mul_pos (sub_pos.2 (hx.inc i hi)) (hpos i (by omega))) hs
  · intro i j hi hj
    rw [e3 i j hj]
    exact mul_pos (mul_pos (sub_pos.2 (hx.inc i hi)) (hpos (i + 1) hi)) hs
  · intro i j hi hj
    rw [e0 i j hj, e1 i j hj, e2 i j hj, e3 i j hj]
    ring

/-! ## A wake -/

theorem wake_good {xs ys : List ℝ} {L r lo δ : ℝ} {n m : Nat} (hx : Dist xs 0 L n) (hr : 0 < r) (hL : r < L) (hl : ys.length = m + 1)
    (hy : ∀ j, j ≤ m → ys.getD j 0 = lo + j * δ) (hδ : 0 < δ) (hlo : -(Real.pi / 2) ≤ lo) (hhi : lo + m * δ ≤ Real.pi / 2) :
    Good (wakeMap r L) xs ys n m fun i j => (xs.getD (i + 1) 0 - xs.getD i 0) *
      ((1 - r * Real.cos (lo + j * δ) / L) + (1 - r * Real.cos (lo + (j + 1 : Nat) * δ) / L)) / 2 *
      (r * (Real.sin (lo + (j + 1 : Nat) * δ) - Real.sin (lo + j * δ))) := by
  have hLp : 0 < L := hr.trans hL
  have hw : ∀ θ : ℝ, 0 < 1 - r * Real.cos θ / L := by
    intro θ
    rw [sub_pos, div_lt_one hLp]
    have := Real.cos_le_one θ
    nlinarith
  have hmd : ∀ j : Nat, j ≤ m → (j : ℝ) * δ ≤ m * δ := fun j hj => mul_le_mul_of_nonneg_right (by exact_mod_cast hj) hδ.le
  have hjd : ∀ j : Nat, 0 ≤ (j : ℝ) * δ := fun j => mul_nonneg (Nat.cast_nonneg j) hδ.le
  have hsin : ∀ j : Nat, j < m → 0 < Real.sin (lo + (j + 1 : Nat) * δ) - Real.sin (lo + j * δ) := by
    intro j hj
    rw [sub_pos]
    refine Real.sin_lt_sin_of_lt_of_le_pi_div_two ?_ ?_ ?_
    · have := hjd j; linarith
    · have := hmd (j + 1) hj; linarith
    · push_cast; linarith
  have hv : ∀ i j, j ≤ m → v0 (wakeMap r L) xs ys i j =
      (xs.getD i 0 + (1 - xs.getD i 0 / L) * r * Real.cos (lo + j * δ), r * Real.sin (lo + j * δ), 0) := by
    intro i j hj
    unfold v0 wakeMap
    rw [hy j hj]
  have hc : ∀ i i' j, j < m → ∀ k, k ≤ m → ∀ X Y : Pt, X.2.1 = r * Real.sin (lo + j * δ) → Y.2.1 = r * Real.sin (lo + (j + 1 : Nat) * δ) →
      cross (v0 (wakeMap r L) xs ys i k) (v0 (wakeMap r L) xs ys i' k) X Y =
      (xs.getD i' 0 - xs.getD i 0) * (1 - r * Real.cos (lo + k * δ) / L) * (r * (Real.sin (lo + (j + 1 : Nat) * δ) - Real.sin (lo + j * δ))) := by
    intro i i' j hj k hk X Y hX hY
    unfold cross
    rw [hX, hY, hv i k hk, hv i' k hk]
    simp only
    ring
  have hp : ∀ i j k, i < n → j < m → 0 < (xs.getD (i + 1) 0 - xs.getD i 0) * (1 - r * Real.cos (lo + (k : Nat) * δ) / L) *
      (r * (Real.sin (lo + (j + 1 : Nat) * δ) - Real.sin (lo + j * δ))) := fun i j k hi hj =>
    mul_pos (mul_pos (sub_pos.2 (hx.inc i hi)) (hw _)) (mul_pos hr (hsin j hj))
  have hY0 : ∀ i j, j ≤ m → (v0 (wakeMap r L) xs ys i j).2.1 = r * Real.sin (lo + j * δ) := fun i j hj => by rw [hv i j hj]
  refine ⟨hx.len, hl, ?_, ?_, ?_, ?_, ?_⟩
  · intro i j hi hj
    rw [hc i (i + 1) j hj j (by omega) _ _ (hY0 i j (by omega)) (hY0 i (j + 1) hj)]
    exact hp i j j hi hj
  · intro i j hi hj
    rw [hc i (i + 1) j hj j (by omega) _ _ (hY0 (i + 1) j (by omega)) (hY0 (i + 1) (j + 1) hj)]
    exact hp i j j hi hj
  · intro i j hi hj
    rw [hc i (i + 1) j hj (j + 1) hj _ _ (hY0 i j (by omega)) (hY0 i (j + 1) hj)]
    exact hp i j (j + 1) hi hj
  · intro i j hi hj
    rw [hc i (i + 1) j hj (j + 1) hj _ _ (hY0 (i + 1) j (by omega)) (hY0 (i + 1) (j + 1) hj)]
    exact hp i j (j + 1) hi hj
  · intro i j hi hj
    rw [hc i (i + 1) j hj j (by omega) _ _ (hY0 i j (by omega)) (hY0 i (j + 1) hj),
      hc i (i + 1) j hj j (by omega) _ _ (hY0 (i + 1) j (by omega)) (hY0 (i + 1) (j + 1) hj),
      hc i (i + 1) j hj (j + 1) hj _ _ (hY0 i j (by omega)) (hY0 i (j + 1) hj),
      hc i (i + 1) j hj (j + 1) hj _ _ (hY0 (i + 1) j (by omega)) (hY0 (i + 1) (j + 1) hj)]
    ring

/-! ## A corner -/

theorem cornerDist_dist {xs : List ℝ} {L r : ℝ} {n : Nat} (hx : Dist xs 0 L n) (hr : 0 < r) (hL : r < L) :
    Dist (xs.map (cornerDist r L)) (r * (Real.sqrt 2 / 2)) L n := by
  have hLp : 0 < L := hr.trans hL
  have hq : Real.sqrt 2 / 2 < 1 := by
    have : Real.sqrt 2 < 2 := by
      rw [Real.sqrt_lt' (by norm_num)]; norm_num
    linarith
  have hg : ∀ i, i ≤ n → (xs.map (cornerDist r L)).getD i 0 = cornerDist r L (xs.getD i 0) := by
    intro i hi
    have h1 : i < xs.length := by rw [hx.len]; omega
    rw [getD_of (by simpa using h1), getD_of h1, List.getElem_map]
  refine ⟨by rw [List.length_map, hx.len], ?_, ?_, ?_⟩
  · rw [hg 0 (by omega), hx.first]; simp [cornerDist]
  · rw [hg n le_rfl, hx.last]; simp [cornerDist, div_self hLp.ne']
  · intro i hi
    rw [hg i (by omega), hg (i + 1) hi]
    have h := hx.inc i hi
    have hf : r * (Real.sqrt 2 / 2) / L < 1 := by
      rw [div_lt_one hLp]
      have : r * (Real.sqrt 2 / 2) < r * 1 := mul_lt_mul_of_pos_left hq hr
      linarith
    have e : ∀ x, cornerDist r L x = r * (Real.sqrt 2 / 2) + x * (1 - r * (Real.sqrt 2 / 2) / L) := by
      intro x; unfold cornerDist; ring
    rw [e, e]
    have := mul_lt_mul_of_pos_right h (sub_pos.2 hf)
    linarith

theorem corner_good {xs ys : List ℝ} {a b c d : ℝ} {n m : Nat} (hx : Dist xs a b n) (hy : Dist ys c d m) :
    Good (fun p => p) xs ys n m fun i j => (xs.getD (i + 1) 0 - xs.getD i 0) * (ys.getD (j + 1) 0 - ys.getD j 0) := by
  have hc : ∀ i j k, cross (v0 (fun p => p) xs ys i j) (v0 (fun p => p) xs ys (i + 1) j) (v0 (fun p => p) xs ys k j) (v0 (fun p => p) xs ys k (j + 1)) =
      (xs.getD (i + 1) 0 - xs.getD i 0) * (ys.getD (j + 1) 0 - ys.getD j 0) := by
    intro i j k; unfold cross v0; simp only; ring
  have hc' : ∀ i j k, cross (v0 (fun p => p) xs ys i (j + 1)) (v0 (fun p => p) xs ys (i + 1) (j + 1)) (v0 (fun p => p) xs ys k j) (v0 (fun p => p) xs ys k (j + 1)) =
      (xs.getD (i + 1) 0 - xs.getD i 0) * (ys.getD (j + 1) 0 - ys.getD j 0) := by
    intro i j k; unfold cross v0; simp only; ring
  have hp : ∀ i j, i < n → j < m → 0 < (xs.getD (i + 1) 0 - xs.getD i 0) * (ys.getD (j + 1) 0 - ys.getD j 0) := fun i j hi hj =>
    mul_pos (sub_pos.2 (hx.inc i hi)) (sub_pos.2 (hy.inc j hj))
  refine ⟨hx.len, hy.len, ?_, ?_, ?_, ?_, ?_⟩
  · intro i j hi hj; rw [hc]; exact hp i j hi hj
  · intro i j hi hj; rw [hc]; exact hp i j hi hj
  · intro i j hi hj; rw [hc']; exact hp i j hi hj
  · intro i j hi hj; rw [hc']; exact hp i j hi hj
  · intro i j hi hj; rw [hc, hc, hc', hc']; ring

/-! ## Areas of the blocks -/

theorem tele (xs : List ℝ) (f : ℝ → ℝ) (n : Nat) : ∑ i ∈ range n, (f (xs.getD (i + 1) 0) - f (xs.getD i 0)) = f (xs.getD n 0) - f (xs.getD 0 0) :=
  Finset.sum_range_sub (fun i => f (xs.getD i 0)) n

theorem ring_area {xs : List ℝ} {a b : ℝ} {n : Nat} (hx : Dist xs a b n) (m : Nat) (s : ℝ) :
    ∑ _j ∈ range m, ∑ i ∈ range n, (xs.getD (i + 1) 0 ^ 2 - xs.getD i 0 ^ 2) / 2 * s = m * ((b ^ 2 - a ^ 2) / 2 * s) := by
  have := tele xs (fun x => x ^ 2) n
  simp only [hx.first, hx.last] at this
  rw [Finset.sum_const, Finset.card_range, nsmul_eq_mul]
  congr 1
  rw [← this, ← Finset.sum_mul, ← Finset.sum_div]

theorem corner_area {xs ys : List ℝ} {a b c d : ℝ} {n m : Nat} (hx : Dist xs a b n) (hy : Dist ys c d m) :
    ∑ j ∈ range m, ∑ i ∈ range n, (xs.getD (i + 1) 0 - xs.getD i 0) * (ys.getD (j + 1) 0 - ys.getD j 0) = (b - a) * (d - c) := by
  have h1 := tele xs (fun x => x) n
  have h2 := tele ys (fun x => x) m
  simp only [hx.first, hx.last] at h1
  simp only [hy.first, hy.last] at h2
  rw [← h1, ← h2, Finset.mul_sum]
  refine Finset.sum_congr rfl fun j _ => ?_
  rw [Finset.sum_mul]

/-- Product formula used for the trapezia of a wake. -/
theorem trap (a b : ℝ) : (Real.cos a + Real.cos b) * (Real.sin b - Real.sin a) = Real.sin (b - a) + (Real.sin (2 * b) - Real.sin (2 * a)) / 2 := by
  rw [Real.sin_sub, Real.sin_two_mul, Real.sin_two_mul]; ring

theorem wake_area {xs : List ℝ} {L r lo δ : ℝ} {n : Nat} (hx : Dist xs 0 L n) (hL : L ≠ 0) (m : Nat) :
    ∑ j ∈ range m, ∑ i ∈ range n, (xs.getD (i + 1) 0 - xs.getD i 0) *
      ((1 - r * Real.cos (lo + j * δ) / L) + (1 - r * Real.cos (lo + (j + 1 : Nat) * δ) / L)) / 2 *
      (r * (Real.sin (lo + (j + 1 : Nat) * δ) - Real.sin (lo + j * δ))) =
    L * r * (Real.sin (lo + m * δ) - Real.sin lo) - r ^ 2 / 2 * (m * Real.sin δ + (Real.sin (2 * (lo + m * δ)) - Real.sin (2 * lo)) / 2) := by
  have h1 := tele xs (fun x => x) n
  simp only [hx.first, hx.last, sub_zero] at h1
  have h2 : ∀ j : Nat, ∑ i ∈ range n, (xs.getD (i + 1) 0 - xs.getD i 0) *
      ((1 - r * Real.cos (lo + j * δ) / L) + (1 - r * Real.cos (lo + (j + 1 : Nat) * δ) / L)) / 2 *
      (r * (Real.sin (lo + (j + 1 : Nat) * δ) - Real.sin (lo + j * δ))) =
      L * r * (Real.sin (lo + (j + 1 : Nat) * δ) - Real.sin (lo + j * δ)) - r ^ 2 / 2 * (Real.sin δ +
        (Real.sin (2 * (lo + (j + 1 : Nat) * δ)) - Real.sin (2 * (lo + j * δ))) / 2) := by
    intro j
    have ht := trap (lo + j * δ) (lo + (j + 1 : Nat) * δ)
    have hd : lo + (j + 1 : Nat) * δ - (lo + j * δ) = δ := by push_cast; ring
    rw [hd] at ht
    rw [← ht, ← Finset.sum_mul, ← Finset.sum_div, ← Finset.sum_mul, h1]
    field_simp
    ring
  simp only [h2]
  rw [Finset.sum_sub_distrib, ← Finset.mul_sum, ← Finset.mul_sum, Finset.sum_add_distrib, ← Finset.sum_div,
    Finset.sum_range_sub (fun j => Real.sin (lo + (j : Nat) * δ)) m, Finset.sum_range_sub (fun j => Real.sin (2 * (lo + (j : Nat) * δ))) m]
  simp

end Verif.Cyl
