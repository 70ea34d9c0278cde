import Verif.Gen.Order

/-! # The generators emplace the boxes of a grid -/
namespace Verif.Gen
open Verif Verif.Elem Verif.Mesh Verif.Convert Verif.Partition Verif.Pipeline Verif.Prim Verif.Basis Verif.Poly

noncomputable section

def wx : Fin 3 → Bool := ![true, false, false]
def wy : Fin 3 → Bool := ![false, true, false]
def wxy : Fin 3 → Bool := ![true, true, false]
def wxz : Fin 3 → Bool := ![true, false, true]
def wyz : Fin 3 → Bool := ![false, true, true]
def wxyz : Fin 3 → Bool := ![true, true, true]

theorem drops : wx = drop wxy 1 ∧ wy = drop wxy 0 ∧ wxy = drop wxyz 2 ∧ wxz = drop wxyz 1 ∧ wyz = drop wxyz 0 := by decide

theorem wne : wxy ≠ wy ∧ wx ≠ wy ∧ wxyz ≠ wxy ∧ wxyz ≠ wxz ∧ wxyz ≠ wyz ∧ wxy ≠ wxz ∧ wxy ≠ wyz ∧ wxz ≠ wyz := by decide

theorem lo_eq (lo : Fin 3 → Nat) : lo = ![lo 0, lo 1, lo 2] := by
  funext c; fin_cases c <;> rfl

/-- Boxes in slices along direction `c`. -/
theorem nodup_slices {k : Nat} {f : Nat → List Box} (c : Fin 3) (hc : ∀ i, ∀ b ∈ f i, b.lo c = i) (hf : ∀ i, (f i).Nodup) :
    ((List.range k).flatMap f).Nodup := by
  rw [List.nodup_flatMap]
  refine ⟨fun i _ => hf i, ?_⟩
  refine List.nodup_range.imp fun {i j} hij => ?_
  intro b h1 h2
  exact hij ((hc i b h1).symm.trans (hc j b h2))

theorem nodup_row {k : Nat} {f : Nat → Box} (c : Fin 3) (hc : ∀ i, (f i).lo c = i) : ((List.range k).map f).Nodup :=
  List.nodup_range.map fun i j h => by rw [← hc i, ← hc j, h]

theorem built_of {Bs : List (Nat × Box)} {n : Fin 3 → Nat} {P : Fin 3 → Nat → ℝ} {W : Fin 3 → Bool} {dom : Nat} (h : IsGrid n W dom Bs) (res : List Nat) :
    ∃ m, build res (number (Bs.map (emitOf n P))) = some m ∧ Built res (number (Bs.map (emitOf n P))) m :=
  build_ok res _ (good_number h.good)

section
variable (n : Fin 3 → Nat) (P : Fin 3 → Nat → ℝ) (d a b c : Nat)

theorem emit_wx : emitOf n P (d, ⟨![a, b, c], wx⟩) =
    ⟨d, .line, [a + n 0 * (b + n 1 * c), (a + 1) + n 0 * (b + n 1 * c)],
      [(P 0 a, P 1 b, P 2 c), (P 0 (a + 1), P 1 b, P 2 c)]⟩ := by with_unfolding_all rfl

theorem emit_wy : emitOf n P (d, ⟨![a, b, c], wy⟩) =
    ⟨d, .line, [a + n 0 * (b + n 1 * c), a + n 0 * ((b + 1) + n 1 * c)],
      [(P 0 a, P 1 b, P 2 c), (P 0 a, P 1 (b + 1), P 2 c)]⟩ := by with_unfolding_all rfl

theorem emit_wxy : emitOf n P (d, ⟨![a, b, c], wxy⟩) =
    ⟨d, .quad, [a + n 0 * (b + n 1 * c), (a + 1) + n 0 * (b + n 1 * c), a + n 0 * ((b + 1) + n 1 * c), (a + 1) + n 0 * ((b + 1) + n 1 * c)],
      [(P 0 a, P 1 b, P 2 c), (P 0 (a + 1), P 1 b, P 2 c), (P 0 a, P 1 (b + 1), P 2 c), (P 0 (a + 1), P 1 (b + 1), P 2 c)]⟩ := by with_unfolding_all rfl

theorem emit_wxz : emitOf n P (d, ⟨![a, b, c], wxz⟩) =
    ⟨d, .quad, [a + n 0 * (b + n 1 * c), (a + 1) + n 0 * (b + n 1 * c), a + n 0 * (b + n 1 * (c + 1)), (a + 1) + n 0 * (b + n 1 * (c + 1))],
      [(P 0 a, P 1 b, P 2 c), (P 0 (a + 1), P 1 b, P 2 c), (P 0 a, P 1 b, P 2 (c + 1)), (P 0 (a + 1), P 1 b, P 2 (c + 1))]⟩ := by with_unfolding_all rfl

theorem emit_wyz : emitOf n P (d, ⟨![a, b, c], wyz⟩) =
    ⟨d, .quad, [a + n 0 * (b + n 1 * c), a + n 0 * ((b + 1) + n 1 * c), a + n 0 * (b + n 1 * (c + 1)), a + n 0 * ((b + 1) + n 1 * (c + 1))],
      [(P 0 a, P 1 b, P 2 c), (P 0 a, P 1 (b + 1), P 2 c), (P 0 a, P 1 b, P 2 (c + 1)), (P 0 a, P 1 (b + 1), P 2 (c + 1))]⟩ := by with_unfolding_all rfl

theorem emit_wxyz : emitOf n P (d, ⟨![a, b, c], wxyz⟩) =
    ⟨d, .hex, [a + n 0 * (b + n 1 * c), (a + 1) + n 0 * (b + n 1 * c), a + n 0 * ((b + 1) + n 1 * c), (a + 1) + n 0 * ((b + 1) + n 1 * c), a + n 0 * (b + n 1 * (c + 1)), (a + 1) + n 0 * (b + n 1 * (c + 1)), a + n 0 * ((b + 1) + n 1 * (c + 1)), (a + 1) + n 0 * ((b + 1) + n 1 * (c + 1))],
      [(P 0 a, P 1 b, P 2 c), (P 0 (a + 1), P 1 b, P 2 c), (P 0 a, P 1 (b + 1), P 2 c), (P 0 (a + 1), P 1 (b + 1), P 2 c), (P 0 a, P 1 b, P 2 (c + 1)), (P 0 (a + 1), P 1 b, P 2 (c + 1)), (P 0 a, P 1 (b + 1), P 2 (c + 1)), (P 0 (a + 1), P 1 (b + 1), P 2 (c + 1))]⟩ := by with_unfolding_all rfl

end

/-! ## Line -/

def lineBoxes (nx dom : Nat) : List (Nat × Box) := (List.range (nx - 1)).map fun i => (dom, ⟨![i, 0, 0], wx⟩)

theorem lineEmits_eq (nx : Nat) (dx : Nat → ℝ) (dom : Nat) :
    lineEmits nx dx dom = (lineBoxes nx dom).map (emitOf ![nx, 1, 1] ![dx, fun _ => 0, fun _ => 0]) := by
  unfold lineEmits lineBoxes
  rw [List.map_map]
  refine List.map_congr_left fun i _ => ?_
  simp [emit_wx]

theorem line_grid {nx : Nat} (hx : 2 ≤ nx) (dom : Nat) : IsGrid ![nx, 1, 1] wx dom (lineBoxes nx dom) := by
  have hmem : ∀ q : Nat × Box, q ∈ lineBoxes nx dom ↔ ∃ i, i < nx - 1 ∧ q = (dom, ⟨![i, 0, 0], wx⟩) := by
    intro q
    simp only [lineBoxes, List.mem_map, List.mem_range, eq_comm]
  refine ⟨?_, by decide, ?_, ?_, ?_, ?_, ?_⟩
  · intro c; fin_cases c <;> simp [wx, hx]
  · intro lo hlo
    have h0 := hlo 0
    have h1 := hlo 1
    have h2 := hlo 2
    simp [wx] at h0 h1 h2
    refine (hmem _).2 ⟨lo 0, by omega, ?_⟩
    conv_lhs => rw [lo_eq lo, h1, h2]
  · intro q hq _
    obtain ⟨i, hi, rfl⟩ := (hmem q).1 hq
    rfl
  · intro q hq hne
    obtain ⟨i, hi, rfl⟩ := (hmem q).1 hq
    exact absurd rfl hne
  · intro q hq
    obtain ⟨i, hi, rfl⟩ := (hmem q).1 hq
    intro c
    fin_cases c <;> simp [wx]
    omega
  · unfold lineBoxes
    rw [List.map_map]
    exact nodup_row 0 fun i => rfl

/-! ## Square -/

def squareBoxes (nx ny : Nat) (ids : SquareIds) : List (Nat × Box) :=
  ((List.range (ny - 1)).flatMap fun iy => (List.range (nx - 1)).map fun ix => (ids.domain, ⟨![ix, iy, 0], wxy⟩)) ++
  ((List.range (nx - 1)).flatMap fun ix => [(ids.bottom, ⟨![ix, 0, 0], wx⟩), (ids.top, ⟨![ix, ny - 1, 0], wx⟩)]) ++
  ((List.range (ny - 1)).flatMap fun iy => [(ids.left, ⟨![0, iy, 0], wy⟩), (ids.right, ⟨![nx - 1, iy, 0], wy⟩)])

theorem flatMap_congr' {α β : Type} {l : List α} {f g : α → List β} (h : ∀ a, f a = g a) : l.flatMap f = l.flatMap g := by
  rw [funext h]

theorem squareEmits_eq (nx ny : Nat) (dx dy : Nat → ℝ) (ids : SquareIds) :
    squareEmits nx ny dx dy ids = (squareBoxes nx ny ids).map (emitOf ![nx, ny, 1] ![dx, dy, fun _ => 0]) := by
  unfold squareEmits squareBoxes squareArea squareY squareX
  rw [List.map_append, List.map_append, List.map_flatMap, List.map_flatMap, List.map_flatMap]
  congr 1
  · congr 1
    · refine flatMap_congr' fun iy => ?_
      rw [List.map_map]
      refine List.map_congr_left fun ix _ => ?_
      simp [emit_wxy]
      and_intros <;> ring
    · refine flatMap_congr' fun ix => ?_
      simp [emit_wx]
  · refine flatMap_congr' fun iy => ?_
    simp [emit_wy]
    and_intros <;> ring

theorem mem_squareBoxes {nx ny : Nat} {ids : SquareIds} (q : Nat × Box) : q ∈ squareBoxes nx ny ids ↔
    (∃ ix iy, ix < nx - 1 ∧ iy < ny - 1 ∧ q = (ids.domain, ⟨![ix, iy, 0], wxy⟩)) ∨
    (∃ ix, ix < nx - 1 ∧ (q = (ids.bottom, ⟨![ix, 0, 0], wx⟩) ∨ q = (ids.top, ⟨![ix, ny - 1, 0], wx⟩))) ∨
    (∃ iy, iy < ny - 1 ∧ (q = (ids.left, ⟨![0, iy, 0], wy⟩) ∨ q = (ids.right, ⟨![nx - 1, iy, 0], wy⟩))) := by
  simp only [squareBoxes, List.mem_append, List.mem_flatMap, List.mem_map, List.mem_range, List.mem_cons, List.not_mem_nil, or_false, or_assoc]
  refine or_congr ?_ Iff.rfl
  constructor
  · rintro ⟨iy, hy, ix, hx, rfl⟩; exact ⟨ix, iy, hx, hy, rfl⟩
  · rintro ⟨ix, iy, hx, hy, rfl⟩; exact ⟨iy, hy, ix, hx, rfl⟩

theorem nodup_pair {c : Fin 3} {a b : Box} (h : a.lo c ≠ b.lo c) : [a, b].Nodup := by
  simp only [List.nodup_cons, List.mem_singleton, List.not_mem_nil, not_false_eq_true, List.nodup_nil, and_true]
  rintro rfl
  exact h rfl

/-- The domain of the square is not one of its boundaries. -/
def SquareIds.Ok (ids : SquareIds) : Prop := ids.domain ∉ [ids.bottom, ids.top, ids.left, ids.right]

theorem square_grid {nx ny : Nat} (hx : 2 ≤ nx) (hy : 2 ≤ ny) {ids : SquareIds} (hd : SquareIds.Ok ids) :
    IsGrid ![nx, ny, 1] wxy ids.domain (squareBoxes nx ny ids) := by
  unfold SquareIds.Ok at hd
  simp only [List.mem_cons, List.not_mem_nil, or_false, not_or] at hd
  obtain ⟨d1, d2, d3, d4⟩ := hd
  refine ⟨?_, by decide, ?_, ?_, ?_, ?_, ?_⟩
  · intro c; fin_cases c <;> simp [wxy, hx, hy]
  · intro lo hlo
    have h0 := hlo 0
    have h1 := hlo 1
    have h2 := hlo 2
    simp [wxy] at h0 h1 h2
    refine (mem_squareBoxes _).2 (.inl ⟨lo 0, lo 1, by omega, by omega, ?_⟩)
    conv_lhs => rw [lo_eq lo, h2]
  · intro q hq he
    rcases (mem_squareBoxes q).1 hq with ⟨ix, iy, _, _, rfl⟩ | ⟨ix, _, rfl | rfl⟩ | ⟨iy, _, rfl | rfl⟩
    · rfl
    · exact absurd he.symm d1
    · exact absurd he.symm d2
    · exact absurd he.symm d3
    · exact absurd he.symm d4
  · intro q hq hne
    refine ⟨by decide, ?_⟩
    rcases (mem_squareBoxes q).1 hq with ⟨ix, iy, _, _, rfl⟩ | ⟨ix, _, rfl | rfl⟩ | ⟨iy, _, rfl | rfl⟩
    · exact absurd rfl hne
    · exact ⟨1, rfl, drops.1, .inl rfl⟩
    · exact ⟨1, rfl, drops.1, .inr (show ny - 1 + 1 = ny by omega)⟩
    · exact ⟨0, rfl, drops.2.1, .inl rfl⟩
    · exact ⟨0, rfl, drops.2.1, .inr (show nx - 1 + 1 = nx by omega)⟩
  · intro q hq
    rcases (mem_squareBoxes q).1 hq with ⟨ix, iy, _, _, rfl⟩ | ⟨ix, _, rfl | rfl⟩ | ⟨iy, _, rfl | rfl⟩ <;> intro c <;> fin_cases c <;>
      simp [wxy, wx, wy] <;> omega
  · unfold squareBoxes
    rw [List.map_append, List.map_append, List.map_flatMap, List.map_flatMap, List.map_flatMap]
    have hW : ∀ {l l' : List Box} {w w' : Fin 3 → Bool}, w ≠ w' → (∀ b ∈ l, b.w = w) → (∀ b ∈ l', b.w = w') → List.Disjoint l l' := by
      intro l l' w w' hne h1 h2 b hb hb'
      exact hne ((h1 b hb).symm.trans (h2 b hb'))
    refine List.Nodup.append (List.Nodup.append ?_ ?_ ?_) ?_ ?_
    · refine nodup_slices 1 ?_ ?_
      · intro i b hb
        simp only [List.mem_map] at hb
        obtain ⟨_, ⟨_, _, rfl⟩, rfl⟩ := hb
        rfl
      · intro i
        rw [List.map_map]
        exact nodup_row 0 fun i => rfl
    · refine nodup_slices 0 ?_ ?_
      · intro i b hb
        simp only [List.map_cons, List.map_nil, List.mem_cons, List.not_mem_nil, or_false] at hb
        rcases hb with rfl | rfl <;> rfl
      · intro i
        exact nodup_pair (c := 1) (show 0 ≠ ny - 1 by omega)
    · refine hW (w := wxy) (w' := wx) (by decide) ?_ ?_
      · intro b hb
        simp only [List.mem_flatMap, List.mem_map] at hb
        obtain ⟨_, _, _, ⟨_, _, rfl⟩, rfl⟩ := hb
        rfl
      · intro b hb
        simp only [List.mem_flatMap, List.map_cons, List.map_nil, List.mem_cons, List.not_mem_nil, or_false] at hb
        obtain ⟨_, _, rfl | rfl⟩ := hb <;> rfl
    · refine nodup_slices 1 ?_ ?_
      · intro i b hb
        simp only [List.map_cons, List.map_nil, List.mem_cons, List.not_mem_nil, or_false] at hb
        rcases hb with rfl | rfl <;> rfl
      · intro i
        exact nodup_pair (c := 0) (show 0 ≠ nx - 1 by omega)
    · intro b hb hb'
      simp only [List.mem_append, List.mem_flatMap, List.map_cons, List.map_nil, List.mem_cons, List.not_mem_nil, or_false, List.mem_map] at hb hb'
      have e : b.w = wy := by obtain ⟨_, _, rfl | rfl⟩ := hb' <;> rfl
      rcases hb with ⟨_, _, _, ⟨_, _, rfl⟩, rfl⟩ | ⟨_, _, rfl | rfl⟩ <;> first | exact wne.1 e | exact wne.2.1 e

/-! ## Cube -/

def cubeBoxes (nx ny nz : Nat) (ids : CubeIds) : List (Nat × Box) :=
  ((List.range (nz - 1)).flatMap fun iz => (List.range (ny - 1)).flatMap fun iy => (List.range (nx - 1)).map fun ix => (ids.domain, ⟨![ix, iy, iz], wxyz⟩)) ++
  ((List.range (ny - 1)).flatMap fun iy => (List.range (nx - 1)).flatMap fun ix => [(ids.back, ⟨![ix, iy, 0], wxy⟩), (ids.front, ⟨![ix, iy, nz - 1], wxy⟩)]) ++
  ((List.range (nz - 1)).flatMap fun iz => (List.range (nx - 1)).flatMap fun ix => [(ids.bottom, ⟨![ix, 0, iz], wxz⟩), (ids.top, ⟨![ix, ny - 1, iz], wxz⟩)]) ++
  ((List.range (nz - 1)).flatMap fun iz => (List.range (ny - 1)).flatMap fun iy => [(ids.left, ⟨![0, iy, iz], wyz⟩), (ids.right, ⟨![nx - 1, iy, iz], wyz⟩)])

theorem cubeEmits_eq (nx ny nz : Nat) (dx dy dz : Nat → ℝ) (ids : CubeIds) :
    cubeEmits nx ny nz dx dy dz ids = (cubeBoxes nx ny nz ids).map (emitOf ![nx, ny, nz] ![dx, dy, dz]) := by
  unfold cubeEmits cubeBoxes cubeVol cubeZ cubeY cubeX
  rw [List.map_append, List.map_append, List.map_append, List.map_flatMap, List.map_flatMap, List.map_flatMap, List.map_flatMap]
  congr 1
  · congr 1
    · congr 1
      · refine flatMap_congr' fun iz => ?_
        rw [List.map_flatMap]
        refine flatMap_congr' fun iy => ?_
        rw [List.map_map]
        refine List.map_congr_left fun ix _ => ?_
        simp [emit_wxyz]
        and_intros <;> ring
      · refine flatMap_congr' fun iy => ?_
        rw [List.map_flatMap]
        refine flatMap_congr' fun ix => ?_
        simp [emit_wxy]
        and_intros <;> ring
    · refine flatMap_congr' fun iz => ?_
      rw [List.map_flatMap]
      refine flatMap_congr' fun ix => ?_
      simp [emit_wxz]
      and_intros <;> ring
  · refine flatMap_congr' fun iz => ?_
    rw [List.map_flatMap]
    refine flatMap_congr' fun iy => ?_
    simp [emit_wyz]
    and_intros <;> ring

theorem mem_cubeBoxes {nx ny nz : Nat} {ids : CubeIds} (q : Nat × Box) : q ∈ cubeBoxes nx ny nz ids ↔
    (∃ ix iy iz, ix < nx - 1 ∧ iy < ny - 1 ∧ iz < nz - 1 ∧ q = (ids.domain, ⟨![ix, iy, iz], wxyz⟩)) ∨
    (∃ ix iy, ix < nx - 1 ∧ iy < ny - 1 ∧ (q = (ids.back, ⟨![ix, iy, 0], wxy⟩) ∨ q = (ids.front, ⟨![ix, iy, nz - 1], wxy⟩))) ∨
    (∃ ix iz, ix < nx - 1 ∧ iz < nz - 1 ∧ (q = (ids.bottom, ⟨![ix, 0, iz], wxz⟩) ∨ q = (ids.top, ⟨![ix, ny - 1, iz], wxz⟩))) ∨
    (∃ iy iz, iy < ny - 1 ∧ iz < nz - 1 ∧ (q = (ids.left, ⟨![0, iy, iz], wyz⟩) ∨ q = (ids.right, ⟨![nx - 1, iy, iz], wyz⟩))) := by
  simp only [cubeBoxes, List.mem_append, List.mem_flatMap, List.mem_map, List.mem_range, List.mem_cons, List.not_mem_nil, or_false, or_assoc]
  refine or_congr ?_ (or_congr ?_ (or_congr ?_ ?_))
  · constructor
    · rintro ⟨iz, hz, iy, hy, ix, hx, rfl⟩; exact ⟨ix, iy, iz, hx, hy, hz, rfl⟩
    · rintro ⟨ix, iy, iz, hx, hy, hz, rfl⟩; exact ⟨iz, hz, iy, hy, ix, hx, rfl⟩
  all_goals
    constructor
    · rintro ⟨i, hi, j, hj, h⟩; exact ⟨j, i, hj, hi, h⟩
    · rintro ⟨j, i, hj, hi, h⟩; exact ⟨i, hi, j, hj, h⟩

/-- The domain of the cube is not one of its boundaries. -/
def CubeIds.Ok (ids : CubeIds) : Prop := ids.domain ∉ [ids.back, ids.front, ids.bottom, ids.top, ids.left, ids.right]

theorem nodup_pairs {k l : Nat} {f g : Nat → Nat → Nat × Box} (c c' d : Fin 3) (hf : ∀ i j, (f i j).2.lo c = i ∧ (f i j).2.lo c' = j)
    (hg : ∀ i j, (g i j).2.lo c = i ∧ (g i j).2.lo c' = j) (h : ∀ i j, (f i j).2.lo d ≠ (g i j).2.lo d) :
    (((List.range k).flatMap fun i => (List.range l).flatMap fun j => [f i j, g i j]).map (·.2)).Nodup := by
  rw [List.map_flatMap]
  refine nodup_slices c ?_ ?_
  · intro i b hb
    simp only [List.mem_map, List.mem_flatMap, List.mem_cons, List.not_mem_nil, or_false] at hb
    obtain ⟨_, ⟨j, _, rfl | rfl⟩, rfl⟩ := hb
    · exact (hf i j).1
    · exact (hg i j).1
  · intro i
    rw [List.map_flatMap]
    refine nodup_slices c' ?_ ?_
    · intro j b hb
      simp only [List.mem_map, List.mem_cons, List.not_mem_nil, or_false] at hb
      obtain ⟨_, rfl | rfl, rfl⟩ := hb
      · exact (hf i j).2
      · exact (hg i j).2
    · intro j
      exact nodup_pair (h i j)

theorem cube_grid {nx ny nz : Nat} (hx : 2 ≤ nx) (hy : 2 ≤ ny) (hz : 2 ≤ nz) {ids : CubeIds} (hd : CubeIds.Ok ids) :
    IsGrid ![nx, ny, nz] wxyz ids.domain (cubeBoxes nx ny nz ids) := by
  unfold CubeIds.Ok at hd
  simp only [List.mem_cons, List.not_mem_nil, or_false, not_or] at hd
  obtain ⟨d1, d2, d3, d4, d5, d6⟩ := hd
  refine ⟨?_, by decide, ?_, ?_, ?_, ?_, ?_⟩
  · intro c; fin_cases c <;> simp [wxyz, hx, hy, hz]
  · intro lo hlo
    have h0 := hlo 0
    have h1 := hlo 1
    have h2 := hlo 2
    simp [wxyz] at h0 h1 h2
    refine (mem_cubeBoxes _).2 (.inl ⟨lo 0, lo 1, lo 2, by omega, by omega, by omega, ?_⟩)
    conv_lhs => rw [lo_eq lo]
  · intro q hq he
    rcases (mem_cubeBoxes q).1 hq with ⟨ix, iy, iz, _, _, _, rfl⟩ | ⟨_, _, _, _, rfl | rfl⟩ | ⟨_, _, _, _, rfl | rfl⟩ | ⟨_, _, _, _, rfl | rfl⟩
    · rfl
    · exact absurd he.symm d1
    · exact absurd he.symm d2
    · exact absurd he.symm d3
    · exact absurd he.symm d4
    · exact absurd he.symm d5
    · exact absurd he.symm d6
  · intro q hq hne
    refine ⟨by decide, ?_⟩
    rcases (mem_cubeBoxes q).1 hq with ⟨ix, iy, iz, _, _, _, rfl⟩ | ⟨_, _, _, _, rfl | rfl⟩ | ⟨_, _, _, _, rfl | rfl⟩ | ⟨_, _, _, _, rfl | rfl⟩
    · exact absurd rfl hne
    · exact ⟨2, rfl, drops.2.2.1, .inl rfl⟩
    · exact ⟨2, rfl, drops.2.2.1, .inr (show nz - 1 + 1 = nz by omega)⟩
    · exact ⟨1, rfl, drops.2.2.2.1, .inl rfl⟩
    · exact ⟨1, rfl, drops.2.2.2.1, .inr (show ny - 1 + 1 = ny by omega)⟩
    · exact ⟨0, rfl, drops.2.2.2.2, .inl rfl⟩
    · exact ⟨0, rfl, drops.2.2.2.2, .inr (show nx - 1 + 1 = nx by omega)⟩
  · intro q hq
    rcases (mem_cubeBoxes q).1 hq with ⟨ix, iy, iz, _, _, _, rfl⟩ | ⟨_, _, _, _, rfl | rfl⟩ | ⟨_, _, _, _, rfl | rfl⟩ | ⟨_, _, _, _, rfl | rfl⟩ <;> intro c <;> fin_cases c <;>
      simp [wxyz, wxy, wxz, wyz] <;> omega
  · unfold cubeBoxes
    rw [List.map_append, List.map_append, List.map_append]
    have hW : ∀ {l l' : List (Nat × Box)} (w : Fin 3 → Bool), (∀ q ∈ l, q.2.w ≠ w) → (∀ q ∈ l', q.2.w = w) → List.Disjoint (l.map (·.2)) (l'.map (·.2)) := by
      intro l l' w h1 h2 b hb hb'
      obtain ⟨q, hq, rfl⟩ := List.mem_map.1 hb
      obtain ⟨q', hq', e⟩ := List.mem_map.1 hb'
      exact h1 q hq (by rw [← e]; exact h2 q' hq')
    rw [← List.map_append, ← List.map_append]
    refine List.Nodup.append ?_ ?_ (hW wyz ?_ ?_)
    · rw [List.map_append]
      refine List.Nodup.append ?_ ?_ (hW wxz ?_ ?_)
      · rw [List.map_append]
        refine List.Nodup.append ?_ ?_ (hW wxy ?_ ?_)
        · rw [List.map_flatMap]
          refine nodup_slices 2 ?_ ?_
          · intro i b hb
            simp only [List.mem_map, List.mem_flatMap] at hb
            obtain ⟨_, ⟨_, _, _, _, rfl⟩, rfl⟩ := hb
            rfl
          · intro i
            rw [List.map_flatMap]
            refine nodup_slices 1 ?_ ?_
            · intro i b hb
              simp only [List.mem_map] at hb
              obtain ⟨_, ⟨_, _, rfl⟩, rfl⟩ := hb
              rfl
            · intro i
              rw [List.map_map]
              exact nodup_row 0 fun i => rfl
        · exact nodup_pairs 1 0 2 (fun _ _ => ⟨rfl, rfl⟩) (fun _ _ => ⟨rfl, rfl⟩) fun _ _ => show 0 ≠ nz - 1 by omega
        · intro q hq
          simp only [List.mem_map, List.mem_flatMap] at hq
          obtain ⟨_, _, _, _, _, _, rfl⟩ := hq
          exact wne.2.2.1
        · intro q hq
          simp only [List.mem_flatMap, List.mem_cons, List.not_mem_nil, or_false] at hq
          obtain ⟨_, _, _, _, rfl | rfl⟩ := hq <;> rfl
      · exact nodup_pairs 2 0 1 (fun _ _ => ⟨rfl, rfl⟩) (fun _ _ => ⟨rfl, rfl⟩) fun _ _ => show 0 ≠ ny - 1 by omega
      · intro q hq
        simp only [List.mem_append, List.mem_map, List.mem_flatMap, List.mem_cons, List.not_mem_nil, or_false] at hq
        obtain ⟨_, _, _, _, _, _, rfl⟩ | ⟨_, _, _, _, rfl | rfl⟩ := hq <;> first | exact wne.2.2.2.1 | exact wne.2.2.2.2.2.1
      · intro q hq
        simp only [List.mem_flatMap, List.mem_cons, List.not_mem_nil, or_false] at hq
        obtain ⟨_, _, _, _, rfl | rfl⟩ := hq <;> rfl
    · exact nodup_pairs 2 1 0 (fun _ _ => ⟨rfl, rfl⟩) (fun _ _ => ⟨rfl, rfl⟩) fun _ _ => show 0 ≠ nx - 1 by omega
    · intro q hq
      simp only [List.mem_append, List.mem_map, List.mem_flatMap, List.mem_cons, List.not_mem_nil, or_false] at hq
      obtain (⟨_, _, _, _, _, _, rfl⟩ | ⟨_, _, _, _, rfl | rfl⟩) | ⟨_, _, _, _, rfl | rfl⟩ := hq <;> first | exact wne.2.2.2.1 | exact wne.2.2.2.2.2.1 | exact wne.2.2.2.2.1 | exact wne.2.2.2.2.2.2.1 | exact wne.2.2.2.2.2.2.2
    · intro q hq
      simp only [List.mem_flatMap, List.mem_cons, List.not_mem_nil, or_false] at hq
      obtain ⟨_, _, _, _, rfl | rfl⟩ := hq <;> rfl

end
end Verif.Gen
