import Verif.Vtk.Lemmas
import Mathlib.Data.List.Nodup
/-!
# C73: the exported cells

`Spec.readCells` is what a reader of the file reconstructs from the three arrays.
-/
namespace Verif.Vtk
open Verif Verif.Elem Spec

/-- **C73**: for every list of elements (all types and orders mixed) a reader sees, element after
element, the `(n-1)^dim` grid cells of the element, each with the type code and the corner order of
VTK, connected to the local indices of the nodes at those grid positions; the arrays are exactly as
long as announced.  Hypotheses: every element has all its nodes, local indices and the total number
of entries fit in `unsigned`. -/
theorem C73_reader (own : Own.SegOwn) (els : List El) (hn : ∀ e ∈ els, e.nodes.length = e.n ^ e.t.dim)
    (hl : ∀ e ∈ els, ∀ i ∈ e.nodes, own.getLocal i < 2 ^ 32) (hb : (localTopoSize els).2 < 2 ^ 32) :
    ∃ topo, buildTopo own els = some topo ∧
      readCells topo.conn 0 topo.offsets topo.types = (els.flatMap fun e => (cells e.t e.n).map fun c =>
        (code e.t, c.map fun i => own.getLocal (e.nodes.getD i 0))) ∧
      topo.offsets.length = (localTopoSize els).1 ∧ topo.types.length = (localTopoSize els).1 ∧
      topo.conn.length = (localTopoSize els).2 := by
  rw [localTopoSize_eq] at hb ⊢
  refine ⟨_, buildTopo_eq own els hn hl [] (by simpa using hb), ?_⟩
  have hlen : ∀ (l : List Nat) (o : Nat), (cum o l).length = l.length := by
    intro l; induction l with
    | nil => intro o; rfl
    | cons a l ih => intro o; simp [cum, ih]
  have hcells : (els.flatMap (elCells own)).length = (els.map fun e => numSubels e.t e.n).sum := by
    rw [List.length_flatMap]
    exact congrArg _ (List.map_congr_left fun e _ => by simp [elCells, cells_length, numSubels_eq])
  refine ⟨readCells_cum (els.flatMap (elCells own)) [], ?_, ?_, ?_⟩
  · rw [List.nil_append, hlen, List.length_map]; exact hcells
  · rw [List.nil_append, List.length_map]; exact hcells
  · simp only [List.nil_append, List.length_flatten, List.map_map]
    clear hb hl hcells
    induction els with
    | nil => rfl
    | cons e els ih =>
      rw [List.flatMap_cons, List.map_append, List.sum_append, ih fun e' he' => hn e' (by simp [he'])]
      simp only [entries, List.map_cons, List.sum_cons]
      congr 1
      have : (elCells own e).map (List.length ∘ Prod.snd) = List.replicate (numSubels e.t e.n) (numSubelNodes e.t) := by
        rw [List.eq_replicate_iff]
        refine ⟨by simp [elCells, cells_length, numSubels_eq], fun b hb => ?_⟩
        obtain ⟨p, hp, rfl⟩ := List.mem_map.1 hb
        obtain ⟨c, hc, rfl⟩ := List.mem_map.1 hp
        simpa using cell_length e.t e.n c hc
      rw [this, List.sum_replicate, smul_eq_mul]

/-- **C73**: positions inside an element are valid. -/
theorem C73_positions (t : ElType) (n : Nat) : ∀ c ∈ cells t n, ∀ i ∈ c, i < n ^ t.dim := cells_lt t n

/-- **C73**: every cell of the `(n-1) × … × (n-1)` grid appears exactly once: the cell number
determines and is determined by its grid coordinates. -/
theorem C73_each_once (m : Nat) (coords : List Nat) (h : ∀ x ∈ coords, x < m) :
    ∃! q, q < m ^ coords.length ∧ cellCoords m coords.length q = coords := by
  refine ⟨gridIndex m coords, ⟨gridIndex_lt coords h, cellCoords_gridIndex coords h⟩, ?_⟩
  rintro q ⟨hq, e⟩
  rw [← e]
  cases hc : coords with
  | nil => subst hc; simp at hq; simp [hq, cellCoords, gridIndex]
  | cons x xs =>
    have hm : 0 < m := by have := h x (by rw [hc]; simp); omega
    rw [← hc]; exact (gridIndex_cellCoords hm _ q hq).symm

/-- **C73**: no cell of an element is written twice. -/
theorem C73_distinct (t : ElType) (n : Nat) : (cells t n).Nodup := by
  refine (List.nodup_map_iff_inj_on List.nodup_range).2 fun a ha b hb hab => ?_
  have ha := List.mem_range.1 ha
  have hb := List.mem_range.1 hb
  have hm : 0 < n - 1 := by
    rcases Nat.eq_zero_or_pos (n - 1) with h | h
    · rw [h] at ha; cases t <;> simp [ElType.dim] at ha
    · exact h
  have h0 : ∀ q, gridIndex n (List.zipWith (· + ·) (cellCoords (n - 1) t.dim q) (List.replicate t.dim 0)) =
      gridIndex n (cellCoords (n - 1) t.dim q) := by
    intro q
    congr 1
    apply List.ext_getElem
    · simp [cellCoords_length]
    · intro k h1 h2; simp
  have hc : ∃ r, corners t = List.replicate t.dim 0 :: r := by cases t <;> exact ⟨_, rfl⟩
  obtain ⟨r, hr⟩ := hc
  rw [hr, List.map_cons, List.map_cons, List.cons.injEq, h0, h0] at hab
  have lt : ∀ q, ∀ x ∈ cellCoords (n - 1) t.dim q, x < n := fun q x hx => by
    have := cellCoords_lt hm t.dim q x hx; omega
  have e1 := cellCoords_gridIndex _ (lt a)
  have e2 := cellCoords_gridIndex _ (lt b)
  rw [cellCoords_length] at e1 e2
  rw [← gridIndex_cellCoords hm t.dim a ha, ← gridIndex_cellCoords hm t.dim b hb, ← e1, ← e2, hab.1]

/-- The VTK corner orders of the quadrilateral and the hexahedron run round the cell: consecutive
corners of each face ring differ in exactly one direction. -/
example : (cells .quad 3) = [[0, 1, 4, 3], [1, 2, 5, 4], [3, 4, 7, 6], [4, 5, 8, 7]] := by decide
example : (cells .hex 2) = [[0, 1, 3, 2, 4, 5, 7, 6]] := by decide

/-- A mesh of a second-order quadrilateral and a line element: hypotheses and outcome. -/
example : let own : Own.SegOwn := ⟨10, 9, [3, 40]⟩
    let els : List El := [⟨.quad, 3, [10, 11, 12, 13, 14, 15, 16, 17, 18]⟩, ⟨.line, 2, [18, 40]⟩]
    (∀ e ∈ els, e.nodes.length = e.n ^ e.t.dim) ∧ (∀ e ∈ els, ∀ i ∈ e.nodes, own.getLocal i < 2 ^ 32) ∧
      (localTopoSize els).2 < 2 ^ 32 ∧ (buildTopo own els).map (fun t => t.offsets) = some [4, 8, 12, 16, 18] := by
  decide +kernel

/-- **C73**: beyond `2^32` connectivity entries on one rank the 32-bit running offset wraps around,
so some cell would be read with a wrong range: the bound in `C73_reader` is needed. -/
theorem C73_offset_wraps (sz off : Nat) (h : off < 2 ^ 32) (h' : 2 ^ 32 ≤ off + sz) (hs : sz ≤ 2 ^ 32) :
    ∃ o, (genOffsets sz 1 off).1 = [o] ∧ o < off + sz ∧ o ≤ off := by
  refine ⟨(off + sz) % 2 ^ 32, rfl, ?_, ?_⟩ <;> omega

example : ∃ o, (genOffsets 8 1 (2 ^ 32 - 8)).1 = [o] ∧ o < 2 ^ 32 - 8 + 8 ∧ o ≤ 2 ^ 32 - 8 :=
  C73_offset_wraps 8 (2 ^ 32 - 8) (by decide) (by decide) (by decide)

end Verif.Vtk
