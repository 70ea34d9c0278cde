import Verif.Cyl.Edges

/-! # The blocks of both meshes in terms of quarter turns -/
namespace Verif.Cyl
open Verif.Prim Verif.Grid Verif.Elem Verif.Mapping Finset

noncomputable def ringB (rad cir : List ℝ) (ids : SquareIds) (h : Nat) : List (Emit Pt) :=
  deform (fun p => rotate (h * Real.pi) (ringMap p)) (square rad cir ids)

noncomputable def wakeB (r L : ℝ) (xs ys : List ℝ) (ids : SquareIds) (k : Nat) : List (Emit Pt) :=
  deform (fun p => rotate (ang k) (wakeMap r L p)) (square xs ys ids)

noncomputable def cornB (r Lx Ly : ℝ) (xs ys : List ℝ) (ids : SquareIds) (k : Nat) : List (Emit Pt) :=
  deform (rotate (ang k)) (square (xs.map (cornerDist r Lx)) (ys.map (cornerDist r Ly)) ids)

/-! Quarter `k`: 0 right, 1 top, 2 left, 3 bottom. -/
def Geom.L (g : Geom) (k : Nat) : ℝ := match k with
  | 0 => g.rightOffset | 1 => g.topOffset | 2 => g.leftOffset | _ => g.bottomOffset
def Geom.N (g : Geom) (k : Nat) : Nat := match k with
  | 0 => g.nRight | 1 => g.nTop | 2 => g.nLeft | _ => g.nBottom
def Geom.q (g : Geom) (k : Nat) : ℝ := match k with
  | 0 => g.qRight | 1 => g.qTop | 2 => g.qLeft | _ => g.qBottom
def Ids.side (i : Ids) (k : Nat) : Nat := match k with
  | 0 => i.right | 1 => i.top | 2 => i.left | _ => i.bottom

theorem square_flat {xs ys : List ℝ} {ids : SquareIds} {e : Emit Pt} (he : e ∈ square xs ys ids) {v : Pt} (hv : v ∈ e.verts) : v.2.2 = 0 := by
  unfold square squareEmits at he
  rcases List.mem_append.1 he with he | he
  · rcases List.mem_append.1 he with he | he
    · simp only [squareArea, List.mem_flatMap, List.mem_map, List.mem_range] at he
      obtain ⟨iy, _, ix, _, rfl⟩ := he
      simp only [List.mem_cons, List.not_mem_nil, or_false] at hv
      rcases hv with rfl | rfl | rfl | rfl <;> rfl
    · simp only [squareY, List.mem_flatMap, List.mem_range] at he
      obtain ⟨ix, _, he⟩ := he
      simp only [List.mem_cons, List.not_mem_nil, or_false] at he
      rcases he with rfl | rfl <;> simp at hv <;> rcases hv with rfl | rfl <;> rfl
  · simp only [squareX, List.mem_flatMap, List.mem_range] at he
    obtain ⟨ix, _, he⟩ := he
    simp only [List.mem_cons, List.not_mem_nil, or_false] at he
    rcases he with rfl | rfl <;> simp at hv <;> rcases hv with rfl | rfl <;> rfl

theorem square_rot0 (xs ys : List ℝ) (ids : SquareIds) : square xs ys ids = deform (rotate (ang 0)) (square xs ys ids) := by
  unfold deform
  conv_lhs => rw [← List.map_id (square xs ys ids)]
  refine List.map_congr_left fun e he => ?_
  obtain ⟨d, t, n, vs⟩ := e
  have : vs.map (rotate (ang 0)) = vs := by
    conv_rhs => rw [← List.map_id vs]
    refine List.map_congr_left fun v hv => ?_
    rw [ang_cases.1, rotate_zero (square_flat he hv)]
    rfl
  simp only [id, this]

theorem wake_rot0 (r L : ℝ) (l : List (Emit Pt)) : deform (wakeMap r L) l = deform (fun p => rotate (ang 0) (wakeMap r L p)) l := by
  congr 1
  funext p
  rw [ang_cases.1, rotate_zero rfl]

theorem ring_rot0 (l : List (Emit Pt)) : deform ringMap l = deform (fun p => rotate ((0 : Nat) * Real.pi) (ringMap p)) l := by
  congr 1
  funext p
  rw [Nat.cast_zero, zero_mul, rotate_zero rfl]

/-- What the assertion of the full mesh gives. -/
structure Facts (g : Geom) (m : Nat) : Prop where
  m_pos : 0 < m
  nc : g.nCircumf = 8 * m
  r_pos : 0 < g.rInner
  r_lt : g.rInner < g.rOuter
  rad : 0 < g.nRadial
  L_gt : ∀ k, k < 4 → g.rOuter < g.L k
  N_pos : ∀ k, k < 4 → 0 < g.N k

theorem correct_facts {g : Geom} (h : g.correct) : g.rInner < g.rOuter ∧ (∀ k, k < 4 → g.rOuter < g.L k) ∧ (∀ k, k < 4 → 0 < g.N k) ∧
    (∀ k, k < 4 → 0 < g.q k) ∧ 0 < g.qRadial ∧ 0 < g.nRadial ∧ ∃ m, 0 < m ∧ g.nCircumf = 8 * m := by
  obtain ⟨⟨h1, h2⟩, ⟨h3, h4, h5, h6, h7, h8, h9⟩, h10⟩ := h
  simp only [gt_iff_lt, lt_min_iff] at h2 h10
  obtain ⟨⟨a, b⟩, c, d⟩ := h2
  obtain ⟨p, ⟨q, r⟩, s, t⟩ := h10
  refine ⟨h1, ?_, ?_, ?_, p, h5, g.nCircumf / 8, by omega, by omega⟩
  · intro k hk; interval_cases k <;> assumption
  · intro k hk; interval_cases k <;> assumption
  · intro k hk; interval_cases k <;> assumption

/-- Distributions of a block. -/
structure Lin (ys : List ℝ) (lo δ : ℝ) (n : Nat) : Prop where
  len : ys.length = n + 1
  val : ∀ j, j ≤ n → ys.getD j 0 = lo + j * δ

theorem lin (lo hi δ : ℝ) (n : Nat) (hn : 0 < n) (hδ : δ = (hi - lo) / n) : ∃ ys, linspace lo hi (n + 1) = some ys ∧ Lin ys lo δ n := by
  obtain ⟨ys, a, b, c⟩ := lin_dist lo hi n hn
  exact ⟨ys, a, b, fun j hj => by rw [c j hj, hδ]⟩

noncomputable def step (m : Nat) : ℝ := Real.pi / (4 * m)

theorem step_pos {m : Nat} (hm : 0 < m) : 0 < step m := div_pos Real.pi_pos (by positivity)

theorem m_step {m : Nat} (hm : 0 < m) : (m : ℝ) * step m = Real.pi / 4 := by
  unfold step
  have : (m : ℝ) ≠ 0 := by exact_mod_cast hm.ne'
  field_simp

theorem step_lt {m : Nat} (hm : 0 < m) : step m < Real.pi := by
  have h1 := m_step hm
  have h2 := step_pos hm
  have h3 : (1 : ℝ) ≤ m := by exact_mod_cast hm
  have := Real.pi_pos
  nlinarith

/-- The ten blocks. -/
theorem blocks_eq {g : Geom} (hg : g.correct) (hr : 0 < g.rInner) (i : Ids) : ∃ m rad cir ys, ∃ X : Nat → List ℝ,
    Facts g m ∧ Dist rad g.rInner g.rOuter g.nRadial ∧ Lin cir 0 (1 / (4 * m)) (4 * m) ∧ Lin ys (-Real.pi / 4) (step m) (2 * m) ∧
    (∀ k, k < 4 → Dist (X k) 0 (g.L k) (g.N k)) ∧
    blocks g i = some [ringB rad cir (ringIds i) 0, ringB rad cir (ringIds i) 1,
      wakeB g.rOuter (g.L 0) (X 0) ys (wakeIds i (i.side 0)) 0, wakeB g.rOuter (g.L 2) (X 2) ys (wakeIds i (i.side 2)) 2,
      wakeB g.rOuter (g.L 3) (X 3) ys (wakeIds i (i.side 3)) 3, wakeB g.rOuter (g.L 1) (X 1) ys (wakeIds i (i.side 1)) 1,
      cornB g.rOuter (g.L 0) (g.L 1) (X 0) (X 1) (cornerIds i (i.side 0) (i.side 1)) 0,
      cornB g.rOuter (g.L 1) (g.L 2) (X 1) (X 2) (cornerIds i (i.side 1) (i.side 2)) 1,
      cornB g.rOuter (g.L 2) (g.L 3) (X 2) (X 3) (cornerIds i (i.side 2) (i.side 3)) 2,
      cornB g.rOuter (g.L 3) (g.L 0) (X 3) (X 0) (cornerIds i (i.side 3) (i.side 0)) 3] := by
  obtain ⟨h1, h2, h3, h4, h5, h6, m, hm, hn⟩ := correct_facts hg
  have hm' : (m : ℝ) ≠ 0 := by exact_mod_cast hm.ne'
  obtain ⟨rad, hrad, drad⟩ := geom_dist g.rInner g.rOuter g.nRadial g.qRadial h6 h5 h1
  obtain ⟨cir, hcir, dcir⟩ := lin 0 1 (1 / (4 * m)) (4 * m) (by omega) (by push_cast; ring)
  obtain ⟨ys, hys, dys⟩ := lin (-Real.pi / 4) (Real.pi / 4) (step m) (2 * m) (by omega) (by unfold step; push_cast; field_simp; ring)
  have hX : ∀ k, k < 4 → ∃ xs, geomSpaceProg 0 (g.L k) (g.N k + 1) (g.q k) = some xs ∧ Dist xs 0 (g.L k) (g.N k) := fun k hk =>
    geom_dist 0 (g.L k) (g.N k) (g.q k) (h3 k hk) (h4 k hk) (by linarith [h2 k hk])
  obtain ⟨x0, e0, d0⟩ := hX 0 (by omega)
  obtain ⟨x1, e1, d1⟩ := hX 1 (by omega)
  obtain ⟨x2, e2, d2⟩ := hX 2 (by omega)
  obtain ⟨x3, e3, d3⟩ := hX 3 (by omega)
  refine ⟨m, rad, cir, ys, fun k => match k with | 0 => x0 | 1 => x1 | 2 => x2 | _ => x3,
    ⟨hm, hn, hr, h1, h6, h2, h3⟩, drad, dcir, dys, ?_, ?_⟩
  · intro k hk; interval_cases k <;> assumption
  · have n2 : g.nCircumf / 2 = 4 * m := by omega
    have n4 : g.nCircumf / 4 = 2 * m := by omega
    simp only [Geom.L, Geom.N, Geom.q] at e0 e1 e2 e3
    simp only [blocks, topHalf, wake, corner, n2, n4, hrad, hcir, hys, e0, e1, e2, e3, Option.bind_some, Option.map_some,
      bind, deform_deform]
    refine congrArg some ?_
    rw [ring_rot0, wake_rot0, square_rot0 (x0.map _)]
    unfold ringB wakeB cornB
    simp only [ang_cases.1, ang_cases.2.1, ang_cases.2.2.1, ang_cases.2.2.2, Geom.L, Ids.side, Nat.cast_one, one_mul]

/-- What the assertion of the half mesh gives. -/
structure HFacts (g : Geom) (m : Nat) : Prop where
  m_pos : 0 < m
  nc : g.nCircumf = 8 * m
  r_pos : 0 < g.rInner
  r_lt : g.rInner < g.rOuter
  rad : 0 < g.nRadial
  L_gt : ∀ k, k < 3 → g.rOuter < g.L k
  N_pos : ∀ k, k < 3 → 0 < g.N k

def HalfIds.side (i : HalfIds) (k : Nat) : Nat := match k with
  | 0 => i.right | 1 => i.top | _ => i.left

theorem half_facts {g : Geom} (h : g.halfCorrect) : g.rInner < g.rOuter ∧ (∀ k, k < 3 → g.rOuter < g.L k) ∧ (∀ k, k < 3 → 0 < g.N k) ∧
    (∀ k, k < 3 → 0 < g.q k) ∧ 0 < g.qRadial ∧ 0 < g.nRadial ∧ ∃ m, 0 < m ∧ g.nCircumf = 8 * m := by
  obtain ⟨⟨h1, h2⟩, ⟨h3, h4, h5, h6, h7, h8⟩, h10⟩ := h
  simp only [gt_iff_lt, lt_min_iff] at h2 h10
  obtain ⟨⟨a, b⟩, c⟩ := h2
  obtain ⟨p, ⟨q, r⟩, s⟩ := h10
  refine ⟨h1, ?_, ?_, ?_, p, h5, g.nCircumf / 8, by omega, by omega⟩
  · intro k hk; interval_cases k <;> assumption
  · intro k hk; interval_cases k <;> assumption
  · intro k hk; interval_cases k <;> assumption

/-- The six blocks of the half mesh. -/
theorem half_eq {g : Geom} (hg : g.halfCorrect) (hr : 0 < g.rInner) (i : HalfIds) : ∃ m rad cir y0 y1 y2, ∃ X : Nat → List ℝ,
    HFacts g m ∧ Dist rad g.rInner g.rOuter g.nRadial ∧ Lin cir 0 (1 / (4 * m)) (4 * m) ∧ Lin y0 0 (step m) m ∧
    Lin y1 (-Real.pi / 4) (step m) (2 * m) ∧ Lin y2 (-Real.pi / 4) (step m) m ∧ (∀ k, k < 3 → Dist (X k) 0 (g.L k) (g.N k)) ∧
    halfBlocks g i = some [ringB rad cir (halfRingIds i) 0,
      wakeB g.rOuter (g.L 0) (X 0) y0 (halfWakeIds i i.right i.bottomRight) 0, wakeB g.rOuter (g.L 2) (X 2) y2 (halfWakeIds i i.left i.bottomLeft) 2,
      wakeB g.rOuter (g.L 1) (X 1) y1 (halfTopIds i) 1,
      cornB g.rOuter (g.L 0) (g.L 1) (X 0) (X 1) (halfCornerIds i i.right i.top i.bottomRight) 0,
      cornB g.rOuter (g.L 1) (g.L 2) (X 1) (X 2) (halfCornerIds i i.top i.left i.bottomLeft) 1] := by
  obtain ⟨h1, h2, h3, h4, h5, h6, m, hm, hn⟩ := half_facts hg
  have hm' : (m : ℝ) ≠ 0 := by exact_mod_cast hm.ne'
  obtain ⟨rad, hrad, drad⟩ := geom_dist g.rInner g.rOuter g.nRadial g.qRadial h6 h5 h1
  obtain ⟨cir, hcir, dcir⟩ := lin 0 1 (1 / (4 * m)) (4 * m) (by omega) (by push_cast; ring)
  obtain ⟨y0, hy0, dy0⟩ := lin 0 (Real.pi / 4) (step m) m (by omega) (by unfold step; push_cast; field_simp; ring)
  obtain ⟨y1, hy1, dy1⟩ := lin (-Real.pi / 4) (Real.pi / 4) (step m) (2 * m) (by omega) (by unfold step; push_cast; field_simp; ring)
  obtain ⟨y2, hy2, dy2⟩ := lin (-Real.pi / 4) 0 (step m) m (by omega) (by unfold step; push_cast; field_simp; ring)
  have hX : ∀ k, k < 3 → ∃ xs, geomSpaceProg 0 (g.L k) (g.N k + 1) (g.q k) = some xs ∧ Dist xs 0 (g.L k) (g.N k) := fun k hk =>
    geom_dist 0 (g.L k) (g.N k) (g.q k) (h3 k hk) (h4 k hk) (by linarith [h2 k hk])
  obtain ⟨x0, e0, d0⟩ := hX 0 (by omega)
  obtain ⟨x1, e1, d1⟩ := hX 1 (by omega)
  obtain ⟨x2, e2, d2⟩ := hX 2 (by omega)
  refine ⟨m, rad, cir, y0, y1, y2, fun k => match k with | 0 => x0 | 1 => x1 | _ => x2,
    ⟨hm, hn, hr, h1, h6, h2, h3⟩, drad, dcir, dy0, dy1, dy2, ?_, ?_⟩
  · intro k hk; interval_cases k <;> assumption
  · have n2 : g.nCircumf / 2 = 4 * m := by omega
    have n4 : g.nCircumf / 4 = 2 * m := by omega
    have n8 : g.nCircumf / 8 = m := by omega
    simp only [Geom.L, Geom.N, Geom.q] at e0 e1 e2
    simp only [halfBlocks, topHalf, wake, corner, n2, n4, n8, hrad, hcir, hy0, hy1, hy2, e0, e1, e2, Option.bind_some, Option.map_some,
      bind, deform_deform]
    refine congrArg some ?_
    rw [ring_rot0, wake_rot0, square_rot0 (x0.map _)]
    unfold ringB wakeB cornB
    simp only [ang_cases.1, ang_cases.2.1, ang_cases.2.2.1, Geom.L]

/-! ## Orientation and area of the blocks -/

section
variable {rad cir ys : List ℝ} {a b : ℝ} {m n : Nat}

theorem ringB_good (hm : 0 < m) (hx : Dist rad a b n) (ha : 0 < a) (hc : Lin cir 0 (1 / (4 * m)) (4 * m)) (h : Nat) :
    Good (fun p => rotate (h * Real.pi) (ringMap p)) rad cir n (4 * m) fun i _ => (rad.getD (i + 1) 0 ^ 2 - rad.getD i 0 ^ 2) / 2 * Real.sin (step m) := by
  refine Good.rotate (ring_good hx ha hc.len (fun j hj => ?_) (step_pos hm) (step_lt hm)) _
  rw [hc.val j hj]
  unfold step
  ring

theorem ringB_area (hm : 0 < m) (hx : Dist rad a b n) (ha : 0 < a) (hc : Lin cir 0 (1 / (4 * m)) (4 * m)) (ids : SquareIds) (h : Nat) :
    areaOf (ringB rad cir ids h) = 4 * m * ((b ^ 2 - a ^ 2) / 2 * Real.sin (step m)) := by
  unfold ringB
  rw [(ringB_good hm hx ha hc h).area ids, ring_area hx]
  push_cast
  ring

theorem wakeB_good {xs : List ℝ} {r L lo : ℝ} (hm : 0 < m) {l : Nat} (hx : Dist xs 0 L n) (hr : 0 < r) (hL : r < L) (hy : Lin ys lo (step m) l)
    (hlo : -(Real.pi / 2) ≤ lo) (hhi : lo + l * step m ≤ Real.pi / 2) (k : Nat) :
    Good (fun p => rotate (ang k) (wakeMap r L p)) xs ys n l fun i j => (xs.getD (i + 1) 0 - xs.getD i 0) *
      ((1 - r * Real.cos (lo + j * step m) / L) + (1 - r * Real.cos (lo + (j + 1 : Nat) * step m) / L)) / 2 *
      (r * (Real.sin (lo + (j + 1 : Nat) * step m) - Real.sin (lo + j * step m))) :=
  Good.rotate (wake_good hx hr hL hy.len hy.val (step_pos hm) hlo hhi) (ang k)

theorem wakeB_area {xs : List ℝ} {r L lo : ℝ} (hm : 0 < m) {l : Nat} (hx : Dist xs 0 L n) (hr : 0 < r) (hL : r < L) (hy : Lin ys lo (step m) l)
    (hlo : -(Real.pi / 2) ≤ lo) (hhi : lo + l * step m ≤ Real.pi / 2) (ids : SquareIds) (k : Nat) : areaOf (wakeB r L xs ys ids k) =
    L * r * (Real.sin (lo + l * step m) - Real.sin lo) -
      r ^ 2 / 2 * (l * Real.sin (step m) + (Real.sin (2 * (lo + l * step m)) - Real.sin (2 * lo)) / 2) := by
  unfold wakeB
  rw [(wakeB_good hm hx hr hL hy hlo hhi k).area ids, wake_area hx (hr.trans hL).ne']

theorem cornB_good {xs ys : List ℝ} {r Lx Ly : ℝ} {n m : Nat} (hx : Dist xs 0 Lx n) (hy : Dist ys 0 Ly m) (hr : 0 < r) (hLx : r < Lx)
    (hLy : r < Ly) (k : Nat) : Good (rotate (ang k)) (xs.map (cornerDist r Lx)) (ys.map (cornerDist r Ly)) n m fun i j =>
      ((xs.map (cornerDist r Lx)).getD (i + 1) 0 - (xs.map (cornerDist r Lx)).getD i 0) *
      ((ys.map (cornerDist r Ly)).getD (j + 1) 0 - (ys.map (cornerDist r Ly)).getD j 0) :=
  Good.rotate (corner_good (cornerDist_dist hx hr hLx) (cornerDist_dist hy hr hLy)) (ang k)

theorem cornB_area {xs ys : List ℝ} {r Lx Ly : ℝ} {n m : Nat} (hx : Dist xs 0 Lx n) (hy : Dist ys 0 Ly m) (hr : 0 < r) (hLx : r < Lx)
    (hLy : r < Ly) (ids : SquareIds) (k : Nat) :
    areaOf (cornB r Lx Ly xs ys ids k) = (Lx - r * (Real.sqrt 2 / 2)) * (Ly - r * (Real.sqrt 2 / 2)) := by
  unfold cornB
  rw [(cornB_good hx hy hr hLx hLy k).area ids, corner_area (cornerDist_dist hx hr hLx) (cornerDist_dist hy hr hLy)]

end

end Verif.Cyl
