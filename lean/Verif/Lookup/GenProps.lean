import Verif.Lookup.Gen
import Verif.Lookup.Props

/-! # C134: elements of generated meshes looked up by id -/

namespace Verif.Lookup

open Verif Verif.Elem Verif.Mesh Verif.Convert Verif.Split Verif.Partition Verif.Pipeline Verif.Prim Verif.Basis Verif.Poly Verif.Gen

noncomputable section

/-- However the mesh is distributed: a rank finds, by their ids, exactly those elements of domains which it has; and unless a reordering of the ranks changes the
order of a rank's ghosts, the id of every element of a domain is found on exactly one rank, with the renumbered nodes. -/
def Found (n : Nat) (m : DomMap) (bnds : List Nat) : Prop :=
  ∀ nParts parts f,
    (∀ Q, Outcome Q (kindsOf n) m bnds nParts parts f → ∀ p ∈ parts, ∀ k e, k ∉ bnds → InDom p.doms k e → findId p.doms e.id = some e) ∧
    (∀ Q, Outcome Q (kindsOf n) m bnds nParts parts f → ∀ p ∈ parts, ∀ k e, k ∉ bnds → InDom m k e → ((findId p.doms e.id).isSome = true ↔ ∃ e', InDom p.doms k e' ∧ e'.id = e.id)) ∧
    (Outcome Monotone (kindsOf n) m bnds nParts parts f → ∀ k e, k ∉ bnds → InDom m k e → ∃! r : Nat, ∃ p, parts[r]? = some p ∧ findId p.doms e.id = some { e with nodes := e.nodes.map f })

theorem Found.of {n : Nat} {m : DomMap} {bnds : List Nat} {D N : Nat} (R : Ready n m bnds D N) (hs : SortedIds m bnds) (ha : Apart m bnds) : Found n m bnds := by
  refine fun nParts parts f => ⟨fun Q ho p hp => ?_, fun Q ho p hp => ?_, fun ho k e hk he => C134_one_rank_partial R.ok R.one hs ha ho hk he⟩ <;> obtain ⟨r, hr⟩ := List.getElem?_of_mem hp
  · exact (C134_found_partial R.ok R.one hs ha ho hr).1
  · exact (C134_found_partial R.ok R.one hs ha ho hr).2

variable {n : Nat} {roots : List ℂ} {adj : Nat → List Nat} {nx ny nz : Nat} {dx dy dz : Nat → ℝ}

/-- **C134** (square).  Every square mesh of at most 2^64 elements, of any order and with any ids of domains such that the domain is not one of the boundaries,
is built, and after any distribution its elements are found by their ids on the ranks which have them. -/
theorem C134_square (ho : OrderOk n roots 2) (hx : AxisOk n roots nx dx) (hy : AxisOk n roots ny dy) {ids : SquareIds}
    (hd : ids.domain ∉ [ids.bottom, ids.top, ids.left, ids.right])
    (hadj : ∀ m, makeSquare nx ny dx dy ids = some m → DualOf adj (withData (coordsOf (squareEmits nx ny dx dy ids)) m))
    (hsz : (squareEmits nx ny dx dy ids).length ≤ 2 ^ 64) :
    ∃ M N, squareOfOrder n (physLoc roots) closeTol adj nx ny dx dy ids = some (M, N) ∧ Found n (toMesh n M) (squareBnds ids) := by
  obtain ⟨M, N, h1, R, _⟩ := C119_square ho hx hy hd hadj
  obtain ⟨hs, ha⟩ := square_lookup ho hx hy hd hadj hsz h1
  exact ⟨M, N, h1, .of R hs ha⟩

/-- **C134** (cube).  Every cube mesh of at most 2^64 elements, of any order and with any ids of domains such that the domain is not one of the boundaries,
is built, and after any distribution its elements are found by their ids on the ranks which have them. -/
theorem C134_cube (ho : OrderOk n roots 3) (hx : AxisOk n roots nx dx) (hy : AxisOk n roots ny dy) (hz : AxisOk n roots nz dz) {ids : CubeIds}
    (hd : ids.domain ∉ [ids.back, ids.front, ids.bottom, ids.top, ids.left, ids.right])
    (hadj : ∀ m, makeCube nx ny nz dx dy dz ids = some m → DualOf adj (withData (coordsOf (cubeEmits nx ny nz dx dy dz ids)) m))
    (hsz : (cubeEmits nx ny nz dx dy dz ids).length ≤ 2 ^ 64) :
    ∃ M N, cubeOfOrder n (physLoc roots) closeTol adj nx ny nz dx dy dz ids = some (M, N) ∧ Found n (toMesh n M) (cubeBnds ids) := by
  obtain ⟨M, N, h1, R, _⟩ := C119_cube ho hx hy hz hd hadj
  obtain ⟨hs, ha⟩ := cube_lookup ho hx hy hz hd hadj hsz h1
  exact ⟨M, N, h1, .of R hs ha⟩

/-- A square of 3 by 2 quadratic elements. -/
example : ∃ M N, squareOfOrder 3 (physLoc []) closeTol (fun _ => List.range (squareBoxes 4 3 ⟨0, 1, 2, 3, 4⟩).length) 4 3 (fun i => (i : ℝ)) (fun i => (i : ℝ)) ⟨0, 1, 2, 3, 4⟩ = some (M, N) ∧
    Found 3 (toMesh 3 M) (squareBnds ⟨0, 1, 2, 3, 4⟩) := by
  have hg : IsGrid ![4, 3, 1] wxy 0 (squareBoxes 4 3 ⟨0, 1, 2, 3, 4⟩) := square_grid (nx := 4) (ny := 3) (ids := ⟨0, 1, 2, 3, 4⟩) (by decide) (by decide) (by unfold SquareIds.Ok; decide)
  refine C134_square (n := 3) (roots := []) (ids := ⟨0, 1, 2, 3, 4⟩)
    ⟨by decide, by decide, fun h => absurd h (by decide)⟩ (ex_axis (k := 4) (by decide)) (ex_axis (k := 3) (by decide)) (by decide) (fun m hm => ?_) ?_
  · rw [makeSquare, squareEmits_eq] at hm
    rw [squareEmits_eq]
    exact ex_dual hg hm
  · rw [squareEmits_eq, List.length_map]
    exact le_trans (by decide : _ ≤ 100) (by norm_num)

/-- A cube of 2 by 1 by 1 quadratic elements; front and back are one boundary. -/
example : ∃ M N, cubeOfOrder 3 (physLoc []) closeTol (fun _ => List.range (cubeBoxes 3 2 2 ⟨7, 1, 1, 3, 4, 5, 6⟩).length) 3 2 2 (fun i => (i : ℝ)) (fun i => (i : ℝ)) (fun i => (i : ℝ)) ⟨7, 1, 1, 3, 4, 5, 6⟩ = some (M, N) ∧
    Found 3 (toMesh 3 M) (cubeBnds ⟨7, 1, 1, 3, 4, 5, 6⟩) := by
  have hg : IsGrid ![3, 2, 2] wxyz 7 (cubeBoxes 3 2 2 ⟨7, 1, 1, 3, 4, 5, 6⟩) := cube_grid (nx := 3) (ny := 2) (nz := 2) (ids := ⟨7, 1, 1, 3, 4, 5, 6⟩) (by decide) (by decide) (by decide) (by unfold CubeIds.Ok; decide)
  refine C134_cube (n := 3) (roots := []) (ids := ⟨7, 1, 1, 3, 4, 5, 6⟩)
    ⟨by decide, by decide, fun h => absurd h (by decide)⟩ (ex_axis (k := 3) (by decide)) (ex_axis (k := 2) (by decide)) (ex_axis (k := 2) (by decide)) (by decide) (fun m hm => ?_) ?_
  · rw [makeCube, cubeEmits_eq] at hm
    rw [cubeEmits_eq]
    exact ex_dual hg hm
  · rw [cubeEmits_eq, List.length_map]
    exact le_trans (by decide : _ ≤ 100) (by norm_num)

end

end Verif.Lookup
