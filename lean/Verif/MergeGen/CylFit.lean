import Verif.MergeGen.Region

/-! # The blocks of the cylinder meshes lie in their regions -/
namespace Verif.MergeGen
open Verif Verif.Elem Verif.Mesh Verif.Split Verif.Partition Verif.Merge Verif.Gen Verif.Pipeline Verif.Prim Verif.Cyl

theorem dist_lt {xs : List ℝ} {a b : ℝ} {n : Nat} (h : Dist xs a b n) {i j : Nat} (hij : i < j) (hj : j ≤ n) : xs.getD i 0 < xs.getD j 0 := by
  induction j with
  | zero => omega
  | succ j ih =>
    rcases Nat.lt_or_ge i j with c | c
    · exact (ih c (by omega)).trans (h.inc j (by omega))
    · obtain rfl : i = j := by omega
      exact h.inc i (by omega)

theorem dist_inj {xs : List ℝ} {a b : ℝ} {n : Nat} (h : Dist xs a b n) {i j : Nat} (hi : i ≤ n) (hj : j ≤ n) (he : xs.getD i 0 = xs.getD j 0) : i = j := by
  rcases Nat.lt_trichotomy i j with c | c | c
  · exact absurd he (dist_lt h c hj).ne
  · exact c
  · exact absurd he.symm (dist_lt h c hi).ne

theorem dist_le {xs : List ℝ} {a b : ℝ} {n : Nat} (h : Dist xs a b n) {i : Nat} (hi : i ≤ n) : xs.getD i 0 ≤ b := by
  rcases Nat.lt_or_ge i n with c | c
  · exact h.last ▸ (dist_lt h c le_rfl).le
  · obtain rfl : i = n := by omega
    exact h.last.le

theorem fu_rotate {k : Nat} (hk : k < 4) (u v : ℝ) : fu k (rotate (ang k) (u, v, 0)) = u ∧ fv k (rotate (ang k) (u, v, 0)) = v := by
  obtain ⟨a0, a1, a2, a3⟩ := ang_cases
  interval_cases k <;> simp [fu, fv, rotate, a0, a1, a2, a3, cos_three, sin_three]

theorem sq_rotate {k : Nat} (hk : k < 4) (u v : ℝ) : (rotate (ang k) (u, v, 0)).1 ^ 2 + (rotate (ang k) (u, v, 0)).2.1 ^ 2 = u ^ 2 + v ^ 2 := by
  rw [← fuv k, (fu_rotate hk u v).1, (fu_rotate hk u v).2]

/-! ## Rings -/

/-- A half ring. -/
noncomputable def ringQ (rad cir : List ℝ) (ids : SquareIds) (n m h : Nat) : Sq := ⟨fun p => rotate (h * Real.pi) (ringMap p), rad, cir, ids, n, 4 * m⟩

section ring
variable {a r s : ℝ} {rad cir : List ℝ} {ids : SquareIds} {n m h : Nat}

theorem ring_at (hc : Lin cir 0 (1 / (4 * m)) (4 * m)) (i j : Nat) (hj : j ≤ 4 * m) : (ringQ rad cir ids n m h).at i j = polar (rad.getD i 0) (j * step m + h * Real.pi) := by
  show v0 (fun p => rotate (h * Real.pi) (ringMap p)) rad cir i j = _
  rw [ring_v0, hc.val j hj]
  congr 1
  unfold step
  ring

theorem polar_sq (ρ φ : ℝ) : (polar ρ φ).1 ^ 2 + (polar ρ φ).2.1 ^ 2 = ρ ^ 2 := by
  have := Real.sin_sq_add_cos_sq φ
  unfold polar
  simp only
  linear_combination ρ ^ 2 * this

theorem four_step (hm : 0 < m) : ((4 * m : Nat) : ℝ) * step m = Real.pi := by
  have := m_step hm
  push_cast
  linarith

theorem ang_range (hm : 0 < m) {j : Nat} (hj : j ≤ 4 * m) : 0 ≤ (j : ℝ) * step m ∧ (j : ℝ) * step m ≤ Real.pi := by
  have h1 := step_pos hm
  refine ⟨by positivity, ?_⟩
  rw [← four_step hm]
  exact mul_le_mul_of_nonneg_right (by exact_mod_cast hj) h1.le

theorem step_inj (hm : 0 < m) {i j : Nat} (h : (i : ℝ) * step m = j * step m) : i = j := by
  exact_mod_cast mul_right_cancel₀ (step_pos hm).ne' h

/-- Sine and cosine on the two halves. -/
theorem half_trig {h : Nat} (hh : h < 2) (x : ℝ) : ∃ ε : ℝ, (ε = 1 ∧ h = 0 ∨ ε = -1 ∧ h = 1) ∧ Real.sin (x + h * Real.pi) = ε * Real.sin x ∧ Real.cos (x + h * Real.pi) = ε * Real.cos x := by
  interval_cases h
  · exact ⟨1, .inl ⟨rfl, rfl⟩, by simp, by simp⟩
  · refine ⟨-1, .inr ⟨rfl, rfl⟩, ?_, ?_⟩
    · push_cast; rw [one_mul, Real.sin_add_pi]; ring
    · push_cast; rw [one_mul, Real.cos_add_pi]; ring

theorem ring_early (hm : 0 < m) (ha : 0 < a) (hx : Dist rad a r n) (hc : Lin cir 0 (1 / (4 * m)) (4 * m)) (hh : h < 2) (i j : Nat) (hi : i ≤ n) (hj : j ≤ 4 * m)
    (ho : ((ringQ rad cir ids n m h).at i j).2.1 = 0) : j = 0 ∨ j = 4 * m := by
  rw [ring_at hc i j hj] at ho
  obtain ⟨ε, he, h1, h2⟩ := half_trig hh ((j : ℝ) * step m)
  replace ho : rad.getD i 0 * Real.sin (j * step m + h * Real.pi) = 0 := ho
  rw [h1] at ho
  have hε : ε ≠ 0 := by rcases he with ⟨rfl, _⟩ | ⟨rfl, _⟩ <;> norm_num
  have h3 : Real.sin (j * step m) = 0 := by
    rcases mul_eq_zero.1 ho with h3 | h3
    · exact absurd h3 (ha.trans_le (hx.ge i hi)).ne'
    · exact (mul_eq_zero.1 h3).resolve_left hε
  obtain ⟨h4, h5⟩ := ang_range hm hj
  by_contra hcon
  push Not at hcon
  have h6 : 0 < (j : ℝ) * step m := by
    have : 0 < j := by omega
    have := step_pos hm
    positivity
  have h7 : (j : ℝ) * step m < Real.pi := by
    refine lt_of_le_of_ne h5 fun e => hcon.2 ?_
    exact step_inj hm (e.trans (four_step hm).symm)
  exact (Real.sin_pos_of_pos_of_lt_pi h6 h7).ne' h3
theorem ring_on (hm : 0 < m) (ha : 0 < a) (hr : a < r) (hx : Dist rad a r n) (hc : Lin cir 0 (1 / (4 * m)) (4 * m)) (hh : h < 2) (i j : Nat) (hi : i ≤ n) (hj : j ≤ 4 * m)
    (ho : On r s (.R h) ((ringQ rad cir ids n m h).at i j)) : i = n ∨ j = 0 ∨ j = 4 * m := by
  rcases ho with ho | ho
  · rw [ring_at hc i j hj, polar_sq] at ho
    left
    refine dist_inj hx hi le_rfl ?_
    rw [hx.last]
    have h1 := ha.trans_le (hx.ge i hi)
    nlinarith
  · exact .inr (ring_early hm ha hx hc hh i j hi hj ho)

theorem ring_fit (hm : 0 < m) (hn : 0 < n) (ha : 0 < a) (hr : a < r) (hx : Dist rad a r n) (hc : Lin cir 0 (1 / (4 * m)) (4 * m)) (hh : h < 2) :
    FitK r s (.R h) (ringQ rad cir ids n m h) := by
  have hpos : ∀ i, i ≤ n → 0 < rad.getD i 0 := fun i hi => ha.trans_le (hx.ge i hi)
  have idx := ring_on (s := s) (ids := ids) hm ha hr hx hc hh
  refine ⟨hh, ⟨hx.len, hc.len, hn, by show 0 < 4 * m; omega, ?_⟩, ?_, ?_, ?_, ?_⟩
  · intro i j i' j' hi hj hi' hj' he
    rw [ring_at hc i j hj, ring_at hc i' j' hj'] at he
    have h1 : rad.getD i 0 = rad.getD i' 0 := by
      have e1 := polar_sq (rad.getD i 0) (j * step m + h * Real.pi)
      rw [he, polar_sq] at e1
      have p1 := hpos i hi
      have p2 := hpos i' hi'
      nlinarith
    refine ⟨dist_inj hx hi hi' h1, ?_⟩
    have h2 : rad.getD i 0 * Real.cos (j * step m + h * Real.pi) = rad.getD i' 0 * Real.cos (j' * step m + h * Real.pi) := congrArg Prod.fst he
    obtain ⟨ε, he1, _, e1⟩ := half_trig hh ((j : ℝ) * step m)
    obtain ⟨ε', he2, _, e2⟩ := half_trig hh ((j' : ℝ) * step m)
    have hεε : ε' = ε := by
      rcases he1 with ⟨rfl, q1⟩ | ⟨rfl, q1⟩ <;> rcases he2 with ⟨rfl, q2⟩ | ⟨rfl, q2⟩ <;> first | rfl | omega
    have hε : ε ≠ 0 := by rcases he1 with ⟨rfl, _⟩ | ⟨rfl, _⟩ <;> norm_num
    rw [e1, e2, hεε, ← h1] at h2
    have h3 := mul_left_cancel₀ hε (mul_left_cancel₀ (hpos i hi).ne' h2)
    exact step_inj hm (Real.injOn_cos (ang_range hm hj) (ang_range hm hj') h3)
  · intro i j
    rfl
  · intro i j hi hj
    rw [ring_at hc i j hj]
    obtain ⟨ε, he, h1, h2⟩ := half_trig hh ((j : ℝ) * step m)
    obtain ⟨h4, h5⟩ := ang_range hm hj
    have h6 := Real.sin_nonneg_of_nonneg_of_le_pi h4 h5
    have h7 := hpos i hi
    refine ⟨?_, ?_⟩
    · show if h = 0 then 0 ≤ rad.getD i 0 * Real.sin _ else rad.getD i 0 * Real.sin _ ≤ 0
      rw [h1]
      rcases he with ⟨rfl, rfl⟩ | ⟨rfl, rfl⟩
      · rw [if_pos rfl]; positivity
      · rw [if_neg (by omega)]; nlinarith [mul_nonneg h7.le h6]
    · rw [polar_sq]
      have := dist_le hx hi
      nlinarith
  · rintro p q hg h1 h2
    rcases hg with ⟨i, j, hi, hj, rfl, rfl⟩ | ⟨i, j, hi, hj, rfl, rfl⟩
    · replace hi : i < n := hi
      replace hj : j ≤ 4 * m := hj
      rcases idx i j (by omega) hj h1 with c | rfl | rfl
      · omega
      · exact .inl ⟨i, hi, .inl ⟨rfl, rfl⟩⟩
      · exact .inl ⟨i, hi, .inr ⟨rfl, rfl⟩⟩
    · replace hi : i ≤ n := hi
      replace hj : j < 4 * m := hj
      rcases idx i j hi (by omega) h1 with rfl | c
      · exact .inr ⟨j, hj, .inr ⟨rfl, rfl⟩⟩
      · rcases idx i (j + 1) hi (by omega) h2 with rfl | c'
        · exact .inr ⟨j, hj, .inr ⟨rfl, rfl⟩⟩
        · omega
  · intro i j hi hj
    replace hi : i < n := hi
    replace hj : j < 4 * m := hj
    by_cases hc0 : j = 0
    · refine ⟨(ringQ rad cir ids n m h).at i (j + 1), by simp [Sq.corners], fun ho => ?_⟩
      rcases idx i (j + 1) (by omega) (by omega) ho with c | c | c <;> omega
    · refine ⟨(ringQ rad cir ids n m h).at i j, by simp [Sq.corners], fun ho => ?_⟩
      rcases idx i j (by omega) (by omega) ho with c | c | c <;> omega

end ring

/-! ## Wakes -/

/-- A wake. -/
noncomputable def wakeQ (r L : ℝ) (xs ys : List ℝ) (ids : SquareIds) (n l k : Nat) : Sq := ⟨fun p => rotate (ang k) (wakeMap r L p), xs, ys, ids, n, l⟩

section wake
variable {r L lo : ℝ} {xs ys : List ℝ} {ids : SquareIds} {n m l k : Nat}

/-- Half of the side of the square inscribed in the circle. -/
noncomputable def half (r : ℝ) : ℝ := r * (Real.sqrt 2 / 2)

theorem half_pos (hr : 0 < r) : 0 < half r := by unfold half; positivity

theorem half_sq (r : ℝ) : r ^ 2 = 2 * half r ^ 2 := by
  have h2 : Real.sqrt 2 * Real.sqrt 2 = 2 := Real.mul_self_sqrt (by norm_num)
  unfold half
  linear_combination (- r ^ 2 / 2) * h2

/-- Coordinates of a point of the wake. -/
noncomputable def wu (r L x θ : ℝ) : ℝ := x + (1 - x / L) * r * Real.cos θ

theorem wake_at (i j : Nat) : (wakeQ r L xs ys ids n l k).at i j = rotate (ang k) (wu r L (xs.getD i 0) (ys.getD j 0), r * Real.sin (ys.getD j 0), 0) := rfl

theorem wu_ge {x θ : ℝ} (hr : 0 < r) (hL : r < L) (hx : 0 ≤ x) : r * Real.cos θ ≤ wu r L x θ := by
  have hLp : 0 < L := hr.trans hL
  have h1 : wu r L x θ = r * Real.cos θ + x * (1 - r * Real.cos θ / L) := by unfold wu; field_simp; ring
  have h2 : 0 ≤ 1 - r * Real.cos θ / L := by
    rw [sub_nonneg, div_le_one hLp]
    have := Real.cos_le_one θ
    nlinarith
  rw [h1]
  have := mul_nonneg hx h2
  linarith

theorem wu_inj {x x' θ : ℝ} (hr : 0 < r) (hL : r < L) (h : wu r L x θ = wu r L x' θ) : x = x' := by
  have hLp : 0 < L := hr.trans hL
  have h1 : ∀ x, wu r L x θ = r * Real.cos θ + x * (1 - r * Real.cos θ / L) := by intro x; unfold wu; field_simp; ring
  have h2 : 0 < 1 - r * Real.cos θ / L := by
    rw [sub_pos, div_lt_one hLp]
    have := Real.cos_le_one θ
    nlinarith
  rw [h1, h1] at h
  have h3 : x * (1 - r * Real.cos θ / L) = x' * (1 - r * Real.cos θ / L) := by linarith
  exact mul_right_cancel₀ h2.ne' h3

theorem cos_ge {θ : ℝ} (h1 : -Real.pi / 4 ≤ θ) (h2 : θ ≤ Real.pi / 4) : Real.sqrt 2 / 2 ≤ Real.cos θ := by
  have hp := Real.pi_pos
  rw [← Real.cos_pi_div_four, ← Real.cos_abs θ]
  exact Real.cos_le_cos_of_nonneg_of_le_pi (abs_nonneg _) (by linarith) (abs_le.2 ⟨by linarith, h2⟩)

theorem sin_range {θ : ℝ} (h1 : -Real.pi / 4 ≤ θ) (h2 : θ ≤ Real.pi / 4) : -(Real.sqrt 2 / 2) ≤ Real.sin θ ∧ Real.sin θ ≤ Real.sqrt 2 / 2 := by
  have hp := Real.pi_pos
  rw [← Real.sin_pi_div_four, ← Real.sin_neg]
  exact ⟨Real.sin_le_sin_of_le_of_le_pi_div_two (by linarith) (by linarith) (by linarith), Real.sin_le_sin_of_le_of_le_pi_div_two (by linarith) (by linarith) h2⟩

theorem sin_inj {θ θ' : ℝ} (h1 : -Real.pi / 4 ≤ θ) (h2 : θ ≤ Real.pi / 4) (h3 : -Real.pi / 4 ≤ θ') (h4 : θ' ≤ Real.pi / 4) (h : Real.sin θ = Real.sin θ') : θ = θ' := by
  have hp := Real.pi_pos
  exact Real.injOn_sin ⟨by linarith, by linarith⟩ ⟨by linarith, by linarith⟩ h

theorem lin_range (hm : 0 < m) (hy : Lin ys lo (step m) l) (hlo : -Real.pi / 4 ≤ lo) (hhi : lo + l * step m ≤ Real.pi / 4) {j : Nat} (hj : j ≤ l) :
    -Real.pi / 4 ≤ ys.getD j 0 ∧ ys.getD j 0 ≤ Real.pi / 4 := by
  have h1 := step_pos hm
  rw [hy.val j hj]
  have h2 : (0 : ℝ) ≤ j * step m := by positivity
  have h3 : (j : ℝ) * step m ≤ l * step m := mul_le_mul_of_nonneg_right (by exact_mod_cast hj) h1.le
  exact ⟨by linarith, by linarith⟩

theorem wake_circle (hm : 0 < m) (hr : 0 < r) (hL : r < L) (hx : Dist xs 0 L n) (hy : Lin ys lo (step m) l) (hlo : -Real.pi / 4 ≤ lo) (hhi : lo + l * step m ≤ Real.pi / 4)
    (hk : k < 4) (i j : Nat) (hi : i ≤ n) (hj : j ≤ l)
    (ho : ((wakeQ r L xs ys ids n l k).at i j).1 ^ 2 + ((wakeQ r L xs ys ids n l k).at i j).2.1 ^ 2 = r ^ 2) : i = 0 := by
  rw [wake_at, sq_rotate hk] at ho
  obtain ⟨t1, t2⟩ := lin_range hm hy hlo hhi hj
  have c1 := cos_ge t1 t2
  have c2 := wu_ge (θ := ys.getD j 0) hr hL (hx.ge i hi)
  have c3 := Real.sin_sq_add_cos_sq (ys.getD j 0)
  have c4 : 0 < Real.cos (ys.getD j 0) := lt_of_lt_of_le (by positivity) c1
  have c5 : wu r L (xs.getD i 0) (ys.getD j 0) = r * Real.cos (ys.getD j 0) := by
    have p1 := mul_pos hr c4
    have e1 : wu r L (xs.getD i 0) (ys.getD j 0) ^ 2 = (r * Real.cos (ys.getD j 0)) ^ 2 := by linear_combination ho - r ^ 2 * c3
    nlinarith
  have c6 : wu r L (xs.getD i 0) (ys.getD j 0) = wu r L (xs.getD 0 0) (ys.getD j 0) := by
    rw [c5, hx.first]; unfold wu; simp
  exact dist_inj hx hi (by omega) (wu_inj hr hL c6)

theorem wake_on (hm : 0 < m) (hr : 0 < r) (hL : r < L) (hx : Dist xs 0 L n) (hy : Lin ys lo (step m) l) (hlo : -Real.pi / 4 ≤ lo) (hhi : lo + l * step m ≤ Real.pi / 4)
    (hk : k < 4) (i j : Nat) (hi : i ≤ n) (hj : j ≤ l) (ho : On r (half r) (.W k) ((wakeQ r L xs ys ids n l k).at i j)) :
    i = 0 ∨ (j = l ∧ lo + l * step m = Real.pi / 4) ∨ (j = 0 ∧ lo = -Real.pi / 4) := by
  have hp := Real.pi_pos
  have hst := step_pos hm
  rcases ho with ho | ho | ho
  · exact .inl (wake_circle hm hr hL hx hy hlo hhi hk i j hi hj ho)
  · right; left
    rw [wake_at, (fu_rotate hk _ _).2] at ho
    have h1 : Real.sin (ys.getD j 0) = Real.sin (Real.pi / 4) := by
      rw [Real.sin_pi_div_four]; exact mul_left_cancel₀ hr.ne' ho
    obtain ⟨t1, t2⟩ := lin_range hm hy hlo hhi hj
    have h2 := sin_inj t1 t2 (by linarith) le_rfl h1
    rw [hy.val j hj] at h2
    have h3 : ¬ j < l := by
      intro c
      have : (j : ℝ) * step m < l * step m := mul_lt_mul_of_pos_right (by exact_mod_cast c) hst
      linarith
    obtain rfl : j = l := by omega
    exact ⟨rfl, h2⟩
  · right; right
    rw [wake_at, (fu_rotate hk _ _).2] at ho
    have h1 : Real.sin (ys.getD j 0) = Real.sin (-Real.pi / 4) := by
      rw [show -Real.pi / 4 = -(Real.pi / 4) by ring, Real.sin_neg, Real.sin_pi_div_four]
      refine mul_left_cancel₀ hr.ne' (ho.trans ?_)
      unfold half; ring
    obtain ⟨t1, t2⟩ := lin_range hm hy hlo hhi hj
    have h2 := sin_inj t1 t2 le_rfl (by linarith) h1
    rw [hy.val j hj] at h2
    have h3 : ¬ 0 < j := by
      intro c
      have : 0 < (j : ℝ) * step m := by positivity
      linarith
    obtain rfl : j = 0 := by omega
    refine ⟨rfl, ?_⟩
    simpa using h2

theorem wake_fit (hm : 0 < m) (hn : 0 < n) (hl : 0 < l) (hr : 0 < r) (hL : r < L) (hx : Dist xs 0 L n) (hy : Lin ys lo (step m) l) (hlo : -Real.pi / 4 ≤ lo) (hhi : lo + l * step m ≤ Real.pi / 4)
    (hk : k < 4) : FitK r (half r) (.W k) (wakeQ r L xs ys ids n l k) := by
  have hp := Real.pi_pos
  have hst := step_pos hm
  have idx := wake_on (ids := ids) hm hr hL hx hy hlo hhi hk
  refine ⟨hk, ⟨hx.len, hy.len, hn, hl, ?_⟩, fun _ _ => rfl, ?_, ?_, ?_⟩
  · intro i j i' j' hi hj hi' hj' he
    rw [wake_at, wake_at] at he
    have e1 := congrArg (fu k) he
    have e2 := congrArg (fv k) he
    rw [(fu_rotate hk _ _).1, (fu_rotate hk _ _).1] at e1
    rw [(fu_rotate hk _ _).2, (fu_rotate hk _ _).2] at e2
    obtain ⟨t1, t2⟩ := lin_range hm hy hlo hhi hj
    obtain ⟨t3, t4⟩ := lin_range hm hy hlo hhi hj'
    have e3 := sin_inj t1 t2 t3 t4 (mul_left_cancel₀ hr.ne' e2)
    rw [e3] at e1
    refine ⟨dist_inj hx hi hi' (wu_inj hr hL e1), ?_⟩
    rw [hy.val j hj, hy.val j' hj'] at e3
    exact step_inj hm (add_left_cancel e3)
  · intro i j hi hj
    rw [wake_at]
    obtain ⟨t1, t2⟩ := lin_range hm hy hlo hhi hj
    have c1 := cos_ge t1 t2
    have c2 := wu_ge (θ := ys.getD j 0) hr hL (hx.ge i hi)
    have c3 := Real.sin_sq_add_cos_sq (ys.getD j 0)
    obtain ⟨s1, s2⟩ := sin_range t1 t2
    have c4 : 0 < Real.cos (ys.getD j 0) := lt_of_lt_of_le (by positivity) c1
    refine ⟨?_, ?_, ?_, ?_⟩
    · rw [(fu_rotate hk _ _).1]
      unfold half
      nlinarith
    · rw [(fu_rotate hk _ _).2]
      unfold half
      nlinarith
    · rw [(fu_rotate hk _ _).2]
      unfold half
      nlinarith
    · rw [sq_rotate hk]
      have p1 := mul_pos hr c4
      have e1 : (r * Real.cos (ys.getD j 0)) ^ 2 ≤ wu r L (xs.getD i 0) (ys.getD j 0) ^ 2 := pow_le_pow_left₀ p1.le c2 2
      have e2 : r ^ 2 = (r * Real.cos (ys.getD j 0)) ^ 2 + (r * Real.sin (ys.getD j 0)) ^ 2 := by linear_combination (- r ^ 2) * c3
      linarith
  · rintro p q hg h1 h2
    rcases hg with ⟨i, j, hi, hj, rfl, rfl⟩ | ⟨i, j, hi, hj, rfl, rfl⟩
    · replace hi : i < n := hi
      replace hj : j ≤ l := hj
      rcases idx (i + 1) j (by omega) hj h2 with c | ⟨rfl, _⟩ | ⟨rfl, _⟩
      · omega
      · exact .inl ⟨i, hi, .inr ⟨rfl, rfl⟩⟩
      · exact .inl ⟨i, hi, .inl ⟨rfl, rfl⟩⟩
    · replace hi : i ≤ n := hi
      replace hj : j < l := hj
      rcases idx i j hi (by omega) h1 with rfl | ⟨c, _⟩ | ⟨c, d⟩
      · exact .inr ⟨j, hj, .inl ⟨rfl, rfl⟩⟩
      · omega
      · rcases idx i (j + 1) hi (by omega) h2 with rfl | ⟨c', d'⟩ | ⟨c', _⟩
        · exact .inr ⟨j, hj, .inl ⟨rfl, rfl⟩⟩
        · exfalso
          obtain rfl : l = 1 := by omega
          have h3 := m_step hm
          have h4 : (1 : ℝ) ≤ m := by exact_mod_cast hm
          push_cast at d'
          nlinarith
        · omega
  · intro i j hi hj
    replace hi : i < n := hi
    replace hj : j < l := hj
    by_contra hcon
    push Not at hcon
    rcases idx (i + 1) j (by omega) (by omega) (hcon _ (by simp [Sq.corners])) with c | ⟨c, _⟩ | ⟨c, d⟩
    · omega
    · omega
    · rcases idx (i + 1) (j + 1) (by omega) (by omega) (hcon _ (by simp [Sq.corners])) with c' | ⟨c', d'⟩ | ⟨c', _⟩
      · omega
      · obtain rfl : l = 1 := by omega
        have h3 := m_step hm
        have h4 : (1 : ℝ) ≤ m := by exact_mod_cast hm
        push_cast at d'
        nlinarith
      · omega
end wake

/-! ## Corners -/

/-- A corner. -/
noncomputable def cornQ (r Lx Ly : ℝ) (xs ys : List ℝ) (ids : SquareIds) (n m k : Nat) : Sq :=
  ⟨rotate (ang k), xs.map (cornerDist r Lx), ys.map (cornerDist r Ly), ids, n, m⟩

section corner
variable {r Lx Ly : ℝ} {xs ys : List ℝ} {ids : SquareIds} {n m k : Nat}

theorem corn_at (i j : Nat) : (cornQ r Lx Ly xs ys ids n m k).at i j = rotate (ang k) ((xs.map (cornerDist r Lx)).getD i 0, (ys.map (cornerDist r Ly)).getD j 0, 0) := rfl

theorem corn_on (hr : 0 < r) (hLx : r < Lx) (hLy : r < Ly) (hx : Dist xs 0 Lx n) (hy : Dist ys 0 Ly m) (hk : k < 4) (i j : Nat) (hi : i ≤ n) (hj : j ≤ m)
    (ho : On r (half r) (.C k) ((cornQ r Lx Ly xs ys ids n m k).at i j)) : i = 0 ∨ j = 0 := by
  have dx := cornerDist_dist hx hr hLx
  have dy := cornerDist_dist hy hr hLy
  rcases ho with ho | ho
  · rw [corn_at, (fu_rotate hk _ _).1] at ho
    exact .inl (dist_inj dx hi (by omega) (ho.trans dx.first.symm))
  · rw [corn_at, (fu_rotate hk _ _).2] at ho
    exact .inr (dist_inj dy hj (by omega) (ho.trans dy.first.symm))

theorem corn_fit (hn : 0 < n) (hm : 0 < m) (hr : 0 < r) (hLx : r < Lx) (hLy : r < Ly) (hx : Dist xs 0 Lx n) (hy : Dist ys 0 Ly m) (hk : k < 4) :
    FitK r (half r) (.C k) (cornQ r Lx Ly xs ys ids n m k) := by
  have dx := cornerDist_dist hx hr hLx
  have dy := cornerDist_dist hy hr hLy
  refine ⟨hk, ⟨dx.len, dy.len, hn, hm, ?_⟩, fun _ _ => rfl, ?_, ?_, ?_⟩
  · intro i j i' j' hi hj hi' hj' he
    rw [corn_at, corn_at] at he
    have e1 := congrArg (fu k) he
    have e2 := congrArg (fv k) he
    rw [(fu_rotate hk _ _).1, (fu_rotate hk _ _).1] at e1
    rw [(fu_rotate hk _ _).2, (fu_rotate hk _ _).2] at e2
    exact ⟨dist_inj dx hi hi' e1, dist_inj dy hj hj' e2⟩
  · intro i j hi hj
    rw [corn_at]
    refine ⟨?_, ?_⟩
    · rw [(fu_rotate hk _ _).1]; exact dx.ge i hi
    · rw [(fu_rotate hk _ _).2]; exact dy.ge j hj
  · rintro p q hg h1 h2
    have idx := corn_on (ids := ids) hr hLx hLy hx hy hk
    rcases hg with ⟨i, j, hi, hj, rfl, rfl⟩ | ⟨i, j, hi, hj, rfl, rfl⟩
    · replace hi : i < n := hi
      replace hj : j ≤ m := hj
      rcases idx (i + 1) j (by omega) hj h2 with c | rfl
      · omega
      · exact .inl ⟨i, hi, .inl ⟨rfl, rfl⟩⟩
    · replace hi : i ≤ n := hi
      replace hj : j < m := hj
      rcases idx i (j + 1) hi (by omega) h2 with rfl | c
      · exact .inr ⟨j, hj, .inl ⟨rfl, rfl⟩⟩
      · omega
  · intro i j hi hj
    replace hi : i < n := hi
    replace hj : j < m := hj
    refine ⟨_, List.mem_cons_of_mem _ (List.mem_cons_of_mem _ (List.mem_cons_of_mem _ (List.mem_cons_self ..))), fun ho => ?_⟩
    rcases corn_on (ids := ids) hr hLx hLy hx hy hk (i + 1) (j + 1) (by omega) (by omega) ho with c | c <;> omega
end corner
end Verif.MergeGen
