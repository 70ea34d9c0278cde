import Verif.Gen.Boxes
import Verif.Gen.Count
import Verif.Pipeline.Props

/-!
# C119: meshes built by the library are ready for distribution

What C113 and C116-C118 assume of a mesh - `Ready` - holds for every line, square and cube the library builds, of any order, and
conversion to higher order keeps it for any valid conforming mesh.
-/
namespace Verif.Gen
open Verif Verif.Elem Verif.Mesh Verif.Convert Verif.Partition Verif.Pipeline Verif.Prim Verif.Basis Verif.Poly

noncomputable section

/-- Coordinates of the nodes along a direction with grid lines `d 0, ..., d (k - 1)`: the lines, and the nodes between them when each
edge has `N` nodes. -/
def axisNodes (N : Nat) (roots : List ℂ) (k : Nat) (d : Nat → ℝ) : Set ℝ :=
  {x | (∃ i, i < k ∧ x = d i) ∨ ∃ i j, i + 1 < k ∧ j < N ∧
    x = (1 - (lobattoAbsc N roots).getD j 0) / 2 * d i + (1 + (lobattoAbsc N roots).getD j 0) / 2 * d (i + 1)}

/-- Grid lines a mesh can be built on: increasing, and different nodes are not closer than the tolerance with which nodes are matched. -/
structure AxisOk (N : Nat) (roots : List ℂ) (k : Nat) (d : Nat → ℝ) : Prop where
  size : 2 ≤ k
  inc : ∀ i, i + 1 < k → d i < d (i + 1)
  sep : ∀ x ∈ axisNodes N roots k d, ∀ y ∈ axisNodes N roots k d, |x - y| < 1e-12 → x = y

/-- `adj` lists at least the elements having two nodes in common with a given one. (METIS, as in C34) -/
def DualOf (adj : Nat → List Nat) (M : DMap VData) : Prop :=
  ∀ e ∈ (visit M).map (·.2), ∀ e' ∈ (visit M).map (·.2), e.id ≠ e'.id → ShareTwo e e' → e'.id ∈ adj e.id

/-- `n` nodes per edge: what the code can represent, and the eigenvalue routine doing its work (as in C34). -/
structure OrderOk (n : Nat) (roots : List ℂ) (dim : Nat) : Prop where
  two : 2 ≤ n
  bound : n ^ dim < 2 ^ 16
  eig : 4 ≤ n → LobattoRoots n roots

/-- **C119** (any mesh).  Converting a valid conforming mesh which is ready for distribution gives a mesh ready for distribution. -/
theorem C119_conversion {n : Nat} {roots : List ℂ} {adj : Nat → List Nat} {nOld : Nat} {X : Nat → Nat → ℝ} {M : DMap VData} {bnds : List Nat} {dim : Nat}
    (W : Convert.WfMesh M) (G : GeoMesh n roots adj nOld X ((visit M).map (·.2))) (R : Ready 2 (toMesh 2 M) bnds dim nOld) :
    ∃ M' N, generate n (physLoc roots) closeTol adj nOld M = some (M', N) ∧ Ready n (toMesh n M') bnds dim N := by
  unfold generate
  by_cases h2 : n = 2
  · subst h2
    exact ⟨_, _, if_pos rfl, R⟩
  · rw [if_neg h2]
    obtain ⟨ν, N', h1, I⟩ := convert_spec W (geo_of G)
    have hmm : ∀ q ∈ visit M, q.2 ∈ (visit M).map (·.2) := fun q hq => List.mem_map.2 ⟨q, hq, rfl⟩
    refine ⟨_, N', h1, ready_relabel W (geo_of G) ⟨I.len, I.corner, I.iff⟩ I.le ?_ ?_ R⟩
    · intro q hq v hv
      obtain ⟨j, hj, rfl⟩ := (mem_getD (I.len _ (hmm q hq))).1 hv
      exact I.lt _ (hmm q hq) j hj
    · intro v h1 h2
      obtain ⟨e, he, hv⟩ := I.used v h1 h2
      obtain ⟨q, hq, rfl⟩ := List.mem_map.1 he
      exact ⟨q, hq, hv⟩

theorem axisVals_eq (N : Nat) (roots : List ℂ) (n : Fin 3 → Nat) (P : Fin 3 → Nat → ℝ) (c : Fin 3) : axisVals N roots n P c = axisNodes N roots (n c) (P c) := rfl

theorem zero_sep (N : Nat) (roots : List ℂ) : ∀ x ∈ axisNodes N roots 1 (fun _ => 0), ∀ y ∈ axisNodes N roots 1 (fun _ => 0), |x - y| < 1e-12 → x = y := by
  rintro x (⟨_, _, rfl⟩ | ⟨i, _, hi, _⟩) y (⟨_, _, rfl⟩ | ⟨j, _, hj, _⟩) _
  · rfl
  · omega
  · omega
  · omega

variable {n : Nat} {roots : List ℂ} {adj : Nat → List Nat} {nx ny nz : Nat} {dx dy dz : Nat → ℝ}

/-- **C119** (line).  For any grid lines and any order, the line is built and is ready for distribution; its nodes
are the lattice of `n - 1` intervals per element, each counted once. -/
theorem C119_line (ho : OrderOk n roots 1) (hx : AxisOk n roots nx dx) (dom : Nat)
    (hadj : ∀ m, makeLine nx dx dom = some m → DualOf adj (withData (coordsOf (lineEmits nx dx dom)) m)) :
    ∃ M N, lineOfOrder n (physLoc roots) closeTol adj nx dx dom = some (M, N) ∧ Ready n (toMesh n M) [] 0 N ∧ N = (nx - 1) * (n - 1) + 1 := by
  have hg := line_grid hx.size dom
  have he := lineEmits_eq nx dx dom
  obtain ⟨m, h1, h2⟩ := built_of (P := ![dx, fun _ => 0, fun _ => 0]) hg [dom]
  have hm : makeLine nx dx dom = some m := by rw [makeLine, he]; exact h1
  have := generate_grid (N := n) (roots := roots) (adj := adj) (bnds := []) hg h2 ?_ ho.two ho.bound ho.eig ?_ ?_ List.Pairwise.nil (fun _ h => absurd h List.not_mem_nil)
  · obtain ⟨M, N, h3, h4, h5⟩ := this
    refine ⟨M, N, ?_, h4, h5.trans (by simp [cnt, wx])⟩
    rw [lineOfOrder, hm, Option.bind_some, he]
    simpa using h3
  · intro c i hi
    fin_cases c
    · exact hx.inc i hi
    · exact absurd hi (by simp)
    · exact absurd hi (by simp)
  · intro c
    fin_cases c
    · exact hx.sep
    · exact zero_sep n roots
    · exact zero_sep n roots
  · have := hadj m hm
    rw [he] at this
    exact this

/-- **C119** (square).  For any grid lines, any domain ids such that the domain is not one of the boundaries, and any order, the square is
built and is ready for distribution; its nodes are the lattice of `n - 1` intervals per element and direction, each counted once. -/
theorem C119_square (ho : OrderOk n roots 2) (hx : AxisOk n roots nx dx) (hy : AxisOk n roots ny dy) {ids : SquareIds}
    (hd : ids.domain ∉ [ids.bottom, ids.top, ids.left, ids.right])
    (hadj : ∀ m, makeSquare nx ny dx dy ids = some m → DualOf adj (withData (coordsOf (squareEmits nx ny dx dy ids)) m)) :
    ∃ M N, squareOfOrder n (physLoc roots) closeTol adj nx ny dx dy ids = some (M, N) ∧ Ready n (toMesh n M) (squareBnds ids) 1 N ∧
      N = ((nx - 1) * (n - 1) + 1) * ((ny - 1) * (n - 1) + 1) := by
  have hg := square_grid hx.size hy.size hd
  have he := squareEmits_eq nx ny dx dy ids
  obtain ⟨m, h1, h2⟩ := built_of (P := ![dx, dy, fun _ => 0]) hg ids.list
  have hm : makeSquare nx ny dx dy ids = some m := by rw [makeSquare, he]; exact h1
  have := generate_grid (N := n) (roots := roots) (adj := adj) (bnds := squareBnds ids) hg h2 ?_ ho.two ho.bound ho.eig ?_ ?_ (Std.sortUniq_strict _) ?_
  · obtain ⟨M, N, h3, h4, h5⟩ := this
    refine ⟨M, N, ?_, h4, h5.trans (by simp [cnt, wxy])⟩
    rw [squareOfOrder, hm, Option.bind_some, he]
    simpa using h3
  · intro c i hi
    fin_cases c
    · exact hx.inc i hi
    · exact hy.inc i hi
    · exact absurd hi (by simp)
  · intro c
    fin_cases c
    · exact hx.sep
    · exact hy.sep
    · exact zero_sep n roots
  · have := hadj m hm
    rw [he] at this
    exact this
  · intro b hb
    have hb := Std.mem_sortUniq.1 hb
    refine ⟨fun h => hd (h ▸ hb), ?_⟩
    have := hx.size
    have := hy.size
    simp only [List.mem_cons, List.not_mem_nil, or_false] at hb
    rcases hb with rfl | rfl | rfl | rfl
    · exact ⟨_, (mem_squareBoxes _).2 (.inr (.inl ⟨0, by omega, .inl rfl⟩))⟩
    · exact ⟨_, (mem_squareBoxes _).2 (.inr (.inl ⟨0, by omega, .inr rfl⟩))⟩
    · exact ⟨_, (mem_squareBoxes _).2 (.inr (.inr ⟨0, by omega, .inl rfl⟩))⟩
    · exact ⟨_, (mem_squareBoxes _).2 (.inr (.inr ⟨0, by omega, .inr rfl⟩))⟩

/-- **C119** (cube).  For any grid lines, any domain ids such that the domain is not one of the boundaries, and any order, the cube is
built and is ready for distribution; its nodes are the lattice of `n - 1` intervals per element and direction, each counted once. -/
theorem C119_cube (ho : OrderOk n roots 3) (hx : AxisOk n roots nx dx) (hy : AxisOk n roots ny dy) (hz : AxisOk n roots nz dz) {ids : CubeIds}
    (hd : ids.domain ∉ [ids.back, ids.front, ids.bottom, ids.top, ids.left, ids.right])
    (hadj : ∀ m, makeCube nx ny nz dx dy dz ids = some m → DualOf adj (withData (coordsOf (cubeEmits nx ny nz dx dy dz ids)) m)) :
    ∃ M N, cubeOfOrder n (physLoc roots) closeTol adj nx ny nz dx dy dz ids = some (M, N) ∧ Ready n (toMesh n M) (cubeBnds ids) 2 N ∧
      N = ((nx - 1) * (n - 1) + 1) * ((ny - 1) * (n - 1) + 1) * ((nz - 1) * (n - 1) + 1) := by
  have hg := cube_grid hx.size hy.size hz.size hd
  have he := cubeEmits_eq nx ny nz dx dy dz ids
  obtain ⟨m, h1, h2⟩ := built_of (P := ![dx, dy, dz]) hg ids.list
  have hm : makeCube nx ny nz dx dy dz ids = some m := by rw [makeCube, he]; exact h1
  have := generate_grid (N := n) (roots := roots) (adj := adj) (bnds := cubeBnds ids) hg h2 ?_ ho.two ho.bound ho.eig ?_ ?_ (Std.sortUniq_strict _) ?_
  · obtain ⟨M, N, h3, h4, h5⟩ := this
    refine ⟨M, N, ?_, h4, h5.trans (by simp [cnt, wxyz])⟩
    rw [cubeOfOrder, hm, Option.bind_some, he]
    simpa using h3
  · intro c i hi
    fin_cases c
    · exact hx.inc i hi
    · exact hy.inc i hi
    · exact hz.inc i hi
  · intro c
    fin_cases c
    · exact hx.sep
    · exact hy.sep
    · exact hz.sep
  · have := hadj m hm
    rw [he] at this
    exact this
  · intro b hb
    have hb := Std.mem_sortUniq.1 hb
    refine ⟨fun h => hd (h ▸ hb), ?_⟩
    have := hx.size
    have := hy.size
    have := hz.size
    simp only [List.mem_cons, List.not_mem_nil, or_false] at hb
    rcases hb with rfl | rfl | rfl | rfl | rfl | rfl
    · exact ⟨_, (mem_cubeBoxes _).2 (.inr (.inl ⟨0, 0, by omega, by omega, .inl rfl⟩))⟩
    · exact ⟨_, (mem_cubeBoxes _).2 (.inr (.inl ⟨0, 0, by omega, by omega, .inr rfl⟩))⟩
    · exact ⟨_, (mem_cubeBoxes _).2 (.inr (.inr (.inl ⟨0, 0, by omega, by omega, .inl rfl⟩)))⟩
    · exact ⟨_, (mem_cubeBoxes _).2 (.inr (.inr (.inl ⟨0, 0, by omega, by omega, .inr rfl⟩)))⟩
    · exact ⟨_, (mem_cubeBoxes _).2 (.inr (.inr (.inr ⟨0, 0, by omega, by omega, .inl rfl⟩)))⟩
    · exact ⟨_, (mem_cubeBoxes _).2 (.inr (.inr (.inr ⟨0, 0, by omega, by omega, .inr rfl⟩)))⟩

/-- **C119** (boundaries).  The boundaries of the square and of the cube are exactly their sides; each has elements on every mesh that is built. -/
theorem C119_boundaries (si : SquareIds) (ci : CubeIds) :
    (∀ b, b ∈ squareBnds si ↔ b = si.bottom ∨ b = si.top ∨ b = si.left ∨ b = si.right) ∧
    (∀ b, b ∈ cubeBnds ci ↔ b = ci.back ∨ b = ci.front ∨ b = ci.bottom ∨ b = ci.top ∨ b = ci.left ∨ b = ci.right) ∧
    (2 ≤ nx → 2 ≤ ny → ∀ b ∈ squareBnds si, ∃ ev ∈ squareEmits nx ny dx dy si, ev.dom = b) ∧
    (2 ≤ nx → 2 ≤ ny → 2 ≤ nz → ∀ b ∈ cubeBnds ci, ∃ ev ∈ cubeEmits nx ny nz dx dy dz ci, ev.dom = b) := by
  have h1 : ∀ b, b ∈ squareBnds si ↔ b = si.bottom ∨ b = si.top ∨ b = si.left ∨ b = si.right := by
    intro b; simp [squareBnds, Std.mem_sortUniq]
  have h2 : ∀ b, b ∈ cubeBnds ci ↔ b = ci.back ∨ b = ci.front ∨ b = ci.bottom ∨ b = ci.top ∨ b = ci.left ∨ b = ci.right := by
    intro b; simp [cubeBnds, Std.mem_sortUniq]
  refine ⟨h1, h2, ?_, ?_⟩
  · intro hx hy b hb
    rw [squareEmits_eq]
    have key : ∀ d B, (d, B) ∈ squareBoxes nx ny si → ∃ ev ∈ (squareBoxes nx ny si).map (emitOf ![nx, ny, 1] ![dx, dy, fun _ => 0]), ev.dom = d :=
      fun d B h => ⟨_, List.mem_map.2 ⟨_, h, rfl⟩, rfl⟩
    rcases (h1 b).1 hb with rfl | rfl | rfl | rfl
    · exact key _ _ ((mem_squareBoxes _).2 (.inr (.inl ⟨0, by omega, .inl rfl⟩)))
    · exact key _ _ ((mem_squareBoxes _).2 (.inr (.inl ⟨0, by omega, .inr rfl⟩)))
    · exact key _ _ ((mem_squareBoxes _).2 (.inr (.inr ⟨0, by omega, .inl rfl⟩)))
    · exact key _ _ ((mem_squareBoxes _).2 (.inr (.inr ⟨0, by omega, .inr rfl⟩)))
  · intro hx hy hz b hb
    rw [cubeEmits_eq]
    have key : ∀ d B, (d, B) ∈ cubeBoxes nx ny nz ci → ∃ ev ∈ (cubeBoxes nx ny nz ci).map (emitOf ![nx, ny, nz] ![dx, dy, dz]), ev.dom = d :=
      fun d B h => ⟨_, List.mem_map.2 ⟨_, h, rfl⟩, rfl⟩
    rcases (h2 b).1 hb with rfl | rfl | rfl | rfl | rfl | rfl
    · exact key _ _ ((mem_cubeBoxes _).2 (.inr (.inl ⟨0, 0, by omega, by omega, .inl rfl⟩)))
    · exact key _ _ ((mem_cubeBoxes _).2 (.inr (.inl ⟨0, 0, by omega, by omega, .inr rfl⟩)))
    · exact key _ _ ((mem_cubeBoxes _).2 (.inr (.inr (.inl ⟨0, 0, by omega, by omega, .inl rfl⟩))))
    · exact key _ _ ((mem_cubeBoxes _).2 (.inr (.inr (.inl ⟨0, 0, by omega, by omega, .inr rfl⟩))))
    · exact key _ _ ((mem_cubeBoxes _).2 (.inr (.inr (.inr ⟨0, 0, by omega, by omega, .inl rfl⟩))))
    · exact key _ _ ((mem_cubeBoxes _).2 (.inr (.inr (.inr ⟨0, 0, by omega, by omega, .inr rfl⟩))))

/-- A problem set up on the mesh and distributed in any two ways: the systems have the same number of unknowns and, if one of them has at
most one solution, every component at every node gets the same value. -/
def SameAnswer (n : Nat) (m : DomMap) (bnds : List Nat) : Prop :=
  ∀ p : Prog, p.Ok m bnds → ∀ nParts nParts' parts parts' f f',
    Outcome NoReorder (kindsOf n) m bnds nParts parts f → Outcome NoReorder (kindsOf n) m bnds nParts' parts' f' →
    ∀ els els', (∀ r, (els r).Perm (p.rankElems parts r)) → (∀ r, (els' r).Perm (p.rankElems parts' r)) →
    ∀ vals vals' v v', p.Values m parts f v → p.Values m parts' f' v' → ∀ c,
      (p.setup parts).total = (p.setup parts').total ∧
      ((∀ x y, Solution p parts els vals v c x → Solution p parts els vals v c y → ∀ g < (p.setup parts).total, x g = y g) →
        ∀ x x', Solution p parts els vals v c x → Solution p parts' els' vals' v' c x' →
          ∀ k, p.unknown m k → x (p.dof parts (f k.1, k.2)) = x' (p.dof parts' (f' k.1, k.2)))

theorem Ready.answer {m : DomMap} {bnds : List Nat} {D N : Nat} (R : Ready n m bnds D N) : SameAnswer n m bnds := by
  intro p hp nParts nParts' parts parts' f f' ho ho' els els' he he' vals vals' v v' hv hv' c
  obtain ⟨h1, _, h3⟩ := C113_same_answer R.ok R.one R.uni hp ho ho' he he' vals vals' hv hv' c
  exact ⟨h1, h3⟩

/-- **C119** (square, from the generator to the answer).  On every square mesh, of any order, the answer does not depend on the distribution. -/
theorem C119_square_answer (ho : OrderOk n roots 2) (hx : AxisOk n roots nx dx) (hy : AxisOk n roots ny dy) {ids : SquareIds}
    (hd : ids.domain ∉ [ids.bottom, ids.top, ids.left, ids.right])
    (hadj : ∀ m, makeSquare nx ny dx dy ids = some m → DualOf adj (withData (coordsOf (squareEmits nx ny dx dy ids)) m)) :
    ∃ M N, squareOfOrder n (physLoc roots) closeTol adj nx ny dx dy ids = some (M, N) ∧ SameAnswer n (toMesh n M) (squareBnds ids) := by
  obtain ⟨M, N, h1, R, _⟩ := C119_square ho hx hy hd hadj
  exact ⟨M, N, h1, R.answer⟩

/-- **C119** (cube, from the generator to the answer).  On every cube mesh, of any order, the answer does not depend on the distribution. -/
theorem C119_cube_answer (ho : OrderOk n roots 3) (hx : AxisOk n roots nx dx) (hy : AxisOk n roots ny dy) (hz : AxisOk n roots nz dz) {ids : CubeIds}
    (hd : ids.domain ∉ [ids.back, ids.front, ids.bottom, ids.top, ids.left, ids.right])
    (hadj : ∀ m, makeCube nx ny nz dx dy dz ids = some m → DualOf adj (withData (coordsOf (cubeEmits nx ny nz dx dy dz ids)) m)) :
    ∃ M N, cubeOfOrder n (physLoc roots) closeTol adj nx ny nz dx dy dz ids = some (M, N) ∧ SameAnswer n (toMesh n M) (cubeBnds ids) := by
  obtain ⟨M, N, h1, R, _⟩ := C119_cube ho hx hy hz hd hadj
  exact ⟨M, N, h1, R.answer⟩

/-! ## Examples -/

/-- Unit spacing, quadratic elements. -/
theorem ex_axis {k : Nat} (hk : 2 ≤ k) : AxisOk 3 [] k (fun i => (i : ℝ)) := by
  have hh : ∀ x ∈ axisNodes 3 [] k (fun i => (i : ℝ)), ∃ z : ℤ, x = z / 2 := by
    rintro x (⟨i, _, rfl⟩ | ⟨i, j, _, hj, rfl⟩)
    · exact ⟨2 * i, by push_cast; ring⟩
    · have : lobattoAbsc 3 [] = [-1, 0, 1] := by rfl
      rw [this]
      interval_cases j
      · exact ⟨2 * i, by simp⟩
      · exact ⟨2 * i + 1, by simp; ring⟩
      · exact ⟨2 * i + 2, by simp; ring⟩
  refine ⟨hk, fun i _ => by simp, ?_⟩
  intro x hx y hy hxy
  obtain ⟨z, rfl⟩ := hh x hx
  obtain ⟨w, rfl⟩ := hh y hy
  have h1 : |((z - w : ℤ) : ℝ)| < 1 := by
    have : (z : ℝ) / 2 - w / 2 = ((z - w : ℤ) : ℝ) / 2 := by push_cast; ring
    rw [this, abs_div, abs_of_pos (two_pos : (0 : ℝ) < 2)] at hxy
    linarith
  have h2 : |z - w| < 1 := by exact_mod_cast h1
  have : z = w := by
    have := Int.abs_lt_one_iff.1 h2
    omega
  rw [this]

/-- A graph of all pairs of elements. -/
theorem ex_dual {W : Fin 3 → Bool} {dom : Nat} {Bs : List (Nat × Box)} {res : List Nat} {m : DomMap} {n : Fin 3 → Nat} {P : Fin 3 → Nat → ℝ}
    (h : IsGrid n W dom Bs) (hm : build res (number (Bs.map (emitOf n P))) = some m) : DualOf (fun _ => List.range Bs.length) (withData (coordsOf (Bs.map (emitOf n P))) m) := by
  obtain ⟨m', h1, h2⟩ := built_of (P := P) h res
  rw [hm, Option.some.injEq] at h1
  subst h1
  intro e _ e' he' _ _
  obtain ⟨⟨k, e''⟩, hq, rfl⟩ := List.mem_map.1 he'
  obtain ⟨i, b, hi, rfl⟩ := (mem_meshOf h h2).1 hq
  obtain ⟨hi, _⟩ := List.getElem?_eq_some_iff.1 hi
  exact List.mem_range.2 hi

/-- A square of 3 by 2 quadratic elements: built, ready, and the answer does not depend on how it is distributed. -/
example : ∃ M N, squareOfOrder 3 (physLoc []) closeTol (fun _ => List.range (squareBoxes 4 3 ⟨0, 1, 2, 3, 4⟩).length) 4 3 (fun i => (i : ℝ)) (fun i => (i : ℝ)) ⟨0, 1, 2, 3, 4⟩ = some (M, N) ∧
    Ready 3 (toMesh 3 M) (squareBnds ⟨0, 1, 2, 3, 4⟩) 1 N ∧ SameAnswer 3 (toMesh 3 M) (squareBnds ⟨0, 1, 2, 3, 4⟩) ∧ N = 35 := by
  have hg : IsGrid ![4, 3, 1] wxy 0 (squareBoxes 4 3 ⟨0, 1, 2, 3, 4⟩) := square_grid (nx := 4) (ny := 3) (ids := ⟨0, 1, 2, 3, 4⟩) (by decide) (by decide) (by unfold SquareIds.Ok; decide)
  obtain ⟨M, N, h, R, hN⟩ := C119_square (n := 3) (roots := []) (adj := fun _ => List.range (squareBoxes 4 3 ⟨0, 1, 2, 3, 4⟩).length) (ids := ⟨0, 1, 2, 3, 4⟩)
    ⟨by decide, by decide, fun h => absurd h (by decide)⟩ (ex_axis (k := 4) (by decide)) (ex_axis (k := 3) (by decide)) (by decide) (fun m hm => by
      rw [makeSquare, squareEmits_eq] at hm
      rw [squareEmits_eq]
      exact ex_dual hg hm)
  exact ⟨M, N, h, R, R.answer, hN⟩

/-- A cube of 2 by 1 by 1 quadratic elements; front and back are one boundary. -/
example : ∃ M N, cubeOfOrder 3 (physLoc []) closeTol (fun _ => List.range (cubeBoxes 3 2 2 ⟨7, 1, 1, 3, 4, 5, 6⟩).length) 3 2 2 (fun i => (i : ℝ)) (fun i => (i : ℝ)) (fun i => (i : ℝ)) ⟨7, 1, 1, 3, 4, 5, 6⟩ = some (M, N) ∧
    Ready 3 (toMesh 3 M) (cubeBnds ⟨7, 1, 1, 3, 4, 5, 6⟩) 2 N ∧ SameAnswer 3 (toMesh 3 M) (cubeBnds ⟨7, 1, 1, 3, 4, 5, 6⟩) ∧ N = 45 := by
  have hg : IsGrid ![3, 2, 2] wxyz 7 (cubeBoxes 3 2 2 ⟨7, 1, 1, 3, 4, 5, 6⟩) := cube_grid (nx := 3) (ny := 2) (nz := 2) (ids := ⟨7, 1, 1, 3, 4, 5, 6⟩) (by decide) (by decide) (by decide) (by unfold CubeIds.Ok; decide)
  obtain ⟨M, N, h, R, hN⟩ := C119_cube (n := 3) (roots := []) (adj := fun _ => List.range (cubeBoxes 3 2 2 ⟨7, 1, 1, 3, 4, 5, 6⟩).length) (ids := ⟨7, 1, 1, 3, 4, 5, 6⟩)
    ⟨by decide, by decide, fun h => absurd h (by decide)⟩ (ex_axis (k := 3) (by decide)) (ex_axis (k := 2) (by decide)) (ex_axis (k := 2) (by decide)) (by decide) (fun m hm => by
      rw [makeCube, cubeEmits_eq] at hm
      rw [cubeEmits_eq]
      exact ex_dual hg hm)
  exact ⟨M, N, h, R, R.answer, hN⟩

example : 4 ∈ squareBnds ⟨0, 1, 2, 3, 4⟩ ∧ ∃ ev ∈ squareEmits 3 2 (fun i => (i : ℝ)) (fun i => (i : ℝ)) ⟨0, 1, 2, 3, 4⟩, ev.dom = 4 := by
  have h := C119_boundaries (nx := 3) (ny := 2) (nz := 2) (dx := fun i => (i : ℝ)) (dy := fun i => (i : ℝ)) (dz := fun i => (i : ℝ)) ⟨0, 1, 2, 3, 4⟩ ⟨0, 1, 2, 3, 4, 5, 6⟩
  have h4 := (h.1 4).2 (.inr (.inr (.inr rfl)))
  exact ⟨h4, h.2.2.1 (by decide) (by decide) 4 h4⟩

/-- A line of 4 quadratic elements. -/
example : ∃ M N, lineOfOrder 3 (physLoc []) closeTol (fun _ => List.range (lineBoxes 5 2).length) 5 (fun i => (i : ℝ)) 2 = some (M, N) ∧ Ready 3 (toMesh 3 M) [] 0 N ∧ N = 9 :=
  C119_line ⟨by decide, by decide, fun h => absurd h (by decide)⟩ (ex_axis (k := 5) (by decide)) 2 fun m hm => by
    rw [makeLine, lineEmits_eq] at hm
    rw [lineEmits_eq]
    exact ex_dual (line_grid (by decide) 2) hm

/-- C119_conversion for the square of 2 by 2 linear elements. -/
example : ∃ M' N m, makeSquare 3 3 (fun i => (i : ℝ)) (fun i => (i : ℝ)) ⟨0, 1, 2, 3, 4⟩ = some m ∧
    generate 3 (physLoc []) closeTol (fun _ => List.range (squareBoxes 3 3 ⟨0, 1, 2, 3, 4⟩).length) 9 (withData (coordsOf (squareEmits 3 3 (fun i => (i : ℝ)) (fun i => (i : ℝ)) ⟨0, 1, 2, 3, 4⟩)) m) = some (M', N) ∧
    Ready 3 (toMesh 3 M') (squareBnds ⟨0, 1, 2, 3, 4⟩) 1 N := by
  have hg : IsGrid ![3, 3, 1] wxy 0 (squareBoxes 3 3 ⟨0, 1, 2, 3, 4⟩) := square_grid (nx := 3) (ny := 3) (ids := ⟨0, 1, 2, 3, 4⟩) (by decide) (by decide) (by unfold SquareIds.Ok; decide)
  obtain ⟨m, h1, h2⟩ := built_of (P := ![fun i => (i : ℝ), fun i => (i : ℝ), fun _ => 0]) hg (SquareIds.list ⟨0, 1, 2, 3, 4⟩)
  have ax := ex_axis (k := 3) (by decide)
  have hm : makeSquare 3 3 (fun i => (i : ℝ)) (fun i => (i : ℝ)) ⟨0, 1, 2, 3, 4⟩ = some m := by rw [makeSquare, squareEmits_eq]; exact h1
  have R : Ready 2 m (squareBnds ⟨0, 1, 2, 3, 4⟩) 1 9 := by
    refine ready_grid hg h2 (Std.sortUniq_strict _) ?_
    intro b hb
    have hb := Std.mem_sortUniq.1 hb
    simp only [List.mem_cons, List.not_mem_nil, or_false] at hb
    rcases hb with rfl | rfl | rfl | rfl
    · exact ⟨by decide, _, (mem_squareBoxes _).2 (.inr (.inl ⟨0, by omega, .inl rfl⟩))⟩
    · exact ⟨by decide, _, (mem_squareBoxes _).2 (.inr (.inl ⟨0, by omega, .inr rfl⟩))⟩
    · exact ⟨by decide, _, (mem_squareBoxes _).2 (.inr (.inr ⟨0, by omega, .inl rfl⟩))⟩
    · exact ⟨by decide, _, (mem_squareBoxes _).2 (.inr (.inr ⟨0, by omega, .inr rfl⟩))⟩
  have hinc : Increasing ![3, 3, 1] ![fun i => (i : ℝ), fun i => (i : ℝ), fun _ => 0] := by
    intro c i hi
    fin_cases c
    · exact ax.inc i hi
    · exact ax.inc i hi
    · exact absurd hi (by simp)
  have hsep : Separated 3 [] ![3, 3, 1] ![fun i => (i : ℝ), fun i => (i : ℝ), fun _ => 0] := by
    intro c
    fin_cases c
    · exact ax.sep
    · exact ax.sep
    · exact zero_sep 3 []
  have G := geo_grid (N := 3) (roots := []) (adj := fun _ => List.range (squareBoxes 3 3 ⟨0, 1, 2, 3, 4⟩).length) hg h2 hinc (by decide) (by decide) (fun h => absurd h (by decide)) hsep (ex_dual hg h1)
  obtain ⟨M', N, h3, h4⟩ := C119_conversion (wf_meshOf hg h2) G
    (by rw [toMesh_withData _ (fun e he => by obtain ⟨i, q, _, rfl⟩ := (holds_grid hg h2).1 he; rfl)]; exact R)
  refine ⟨M', N, m, hm, ?_, h4⟩
  rw [squareEmits_eq]
  exact h3

end
end Verif.Gen
