import Verif.PerMatch.Model
import Verif.Spatial.Props
import Mathlib.Tactic.Linarith
import Mathlib.Tactic.Ring
import Mathlib.Tactic.NormNum
import Mathlib.Tactic.IntervalCases

/-! # Property C42: matching of periodic nodes -/
namespace Verif.PerMatch
open Verif Verif.Spatial

variable {K : Type} [Field K] [LinearOrder K] [IsStrictOrderedRing K] [FloorRing K]

/-- Squared euclidean distance of two points in space. -/
def sqDist (a b : List K) : K := (a.getD 0 0 - b.getD 0 0) ^ 2 + (a.getD 1 0 - b.getD 1 0) ^ 2 + (a.getD 2 0 - b.getD 2 0) ^ 2

omit [LinearOrder K] [IsStrictOrderedRing K] [FloorRing K] in
theorem dist2_eq (a b : List K) : dist2 a b = sqDist a b := by
  unfold dist2 sqDist
  simp [List.range_succ]
  ring

omit [FloorRing K] in
theorem closer_iff (tol : K) (a b : List K) : closer tol a b = true ↔ 0 < tol ∧ sqDist a b < tol ^ 2 := by
  unfold closer
  rw [decide_eq_true_iff, dist2_eq, sq]

/-- Grid spacing of the table built from the nodes `ns`, per dimension. -/
def cell (c : Consts K) (ns : List (List K × Nat)) (i : Nat) : K := max |(if ns = [] then List.replicate 3 c.minDx else spacing c ns).getD i 0| c.minDx

omit [FloorRing K] in
theorem spacing_length (c : Consts K) (ns : List (List K × Nat)) : (spacing c ns).length = 3 := by simp [spacing, span]

omit [FloorRing K] in
theorem coord_lt {tol : K} (h : 0 < tol) {a b : List K} (hd : sqDist a b < tol ^ 2) : ∀ i < 3, |a.getD i 0 - b.getD i 0| < tol := by
  intro i hi
  apply abs_lt_of_sq_lt_sq _ (le_of_lt h)
  unfold sqDist at hd
  have h0 := sq_nonneg (a.getD 0 0 - b.getD 0 0)
  have h1 := sq_nonneg (a.getD 1 0 - b.getD 1 0)
  have h2 := sq_nonneg (a.getD 2 0 - b.getD 2 0)
  interval_cases i <;> linarith

/-- **C42** (soundness): a reported match pairs a source node with a destination node closer than the tolerance; every source
node is matched at most once per destination part. -/
theorem C42_sound (c : Consts K) (tol : K) (src dst : List (List (List K × Nat))) (hsrc : ∀ s ∈ src, ∀ n ∈ s, n.1.length = 3) :
    ∀ a b, (a, b) ∈ matchAll c tol src dst → ∃ s ∈ src, ∃ d ∈ dst, ∃ x y, (x, a) ∈ s ∧ (y, b) ∈ d ∧ 0 < tol ∧ sqDist y x < tol ^ 2 := by
  intro a b h
  unfold matchAll matchNodes matchOne at h
  simp only [List.mem_flatMap, List.mem_filterMap, Option.map_eq_some_iff, Prod.mk.injEq] at h
  obtain ⟨d, hd, s, hs, n, hn, p, hp, rfl, rfl⟩ := h
  have hcl := List.find?_some hp
  have hmem := List.mem_of_find?_eq_some hp
  rw [closer_iff] at hcl
  refine ⟨s, hs, d, hd, n.1, p.1, hn, ?_, hcl⟩
  unfold spaceMap at hmem
  by_cases he : d = []
  · rw [if_pos he] at hmem
    have := (C12_proximate_exact c.minDx (List.replicate 3 c.minDx) (List.replicate 3 0) (by simp) ([] : List (List K × Nat)) n.1 (by simp [hsrc s hs n hn])).mem_iff (a := p)
    simp only [List.filter_nil, List.not_mem_nil, iff_false] at this
    exact absurd hmem this
  · rw [if_neg he] at hmem
    exact (C12_proximate_sound c.minDx (spacing c d) (origin c d) (by simp [spacing_length, origin]) d n.1 (by rw [spacing_length]; exact hsrc s hs n hn)).1.subset hmem

/-- C42 (completeness): every source node with a destination node closer than the tolerance is matched. -/
def C42Statement (c : Consts K) : Prop := ∀ (tol : K) (src dst : List (List (List K × Nat))), (∀ s ∈ src, ∀ n ∈ s, n.1.length = 3) → (∀ d ∈ dst, ∀ n ∈ d, n.1.length = 3) →
  ∀ s ∈ src, ∀ d ∈ dst, ∀ x a y b, (x, a) ∈ s → (y, b) ∈ d → 0 < tol → sqDist y x < tol ^ 2 → ∃ b', (a, b') ∈ matchAll c tol src dst

/-- **C42** (completeness) when the grid spacing of the destination part is not less than the tolerance in any direction; in a direction in
which the part is flat the spacing is `minDx`. -/
theorem C42_complete_partial (c : Consts K) (hmin : 0 < c.minDx) (tol : K) (src dst : List (List (List K × Nat))) (hsrc : ∀ s ∈ src, ∀ n ∈ s, n.1.length = 3)
    (hdst : ∀ d ∈ dst, ∀ n ∈ d, n.1.length = 3) {s d : List (List K × Nat)} (hs : s ∈ src) (hd : d ∈ dst) (hgrid : ∀ i < 3, tol ≤ cell c d i)
    {x y : List K} {a b : Nat} (hx : (x, a) ∈ s) (hy : (y, b) ∈ d) (htol : 0 < tol) (hclose : sqDist y x < tol ^ 2) : ∃ b', (a, b') ∈ matchAll c tol src dst := by
  have hne : d ≠ [] := fun h => by rw [h] at hy; simp at hy
  have hxl : x.length = 3 := hsrc s hs _ hx
  have hyl : y.length = 3 := hdst d hd _ hy
  have hprox : (y, b) ∈ (spaceMap c d).proximate x := by
    unfold spaceMap
    rw [if_neg hne]
    refine C12_proximate_complete c.minDx hmin _ _ (by simp [spacing_length, origin]) d x (by rw [spacing_length, hxl]) y b hy (by rw [spacing_length, hyl]) ?_
    intro i h1 h2 h3
    have := coord_lt htol hclose i (by omega)
    rw [List.getD_eq_getElem?_getD, List.getD_eq_getElem?_getD, List.getElem?_eq_getElem h1, List.getElem?_eq_getElem h2] at this
    have hg := hgrid i (by omega)
    unfold cell at hg
    rw [if_neg hne, List.getD_eq_getElem?_getD, List.getElem?_eq_getElem h3] at hg
    exact lt_of_lt_of_le this hg
  have hfind : ((spaceMap c d).proximate x).find? (fun p => closer tol p.1 x) ≠ none := by
    rw [Ne, List.find?_eq_none]
    intro h
    exact h _ hprox ((closer_iff _ _ _).2 ⟨htol, hclose⟩)
  obtain ⟨p, hp⟩ := Option.ne_none_iff_exists'.1 hfind
  refine ⟨p.2, ?_⟩
  unfold matchAll matchNodes matchOne
  simp only [List.mem_flatMap, List.mem_filterMap, Option.map_eq_some_iff, Prod.mk.injEq]
  exact ⟨d, hd, s, hs, (x, a), hx, p, hp, rfl, rfl⟩

/-- The constants of `double` (the two extreme ones in round figures, which only makes them less extreme). -/
def double : Consts ℚ := ⟨10 ^ 300, 1 / 10 ^ 300, 1 / 10 ^ 15, 1 / 2 ^ 44⟩

/-- Two nodes at x = 0 and x = 1 of the line y = 1. -/
def exDst : List (List ℚ × Nat) := [([0, 1, 0], 0), ([1, 1, 0], 1)]

theorem exDst_spacing : spacing double exDst = [1 / 10, 0, 1 / 10 ^ 301] ∧ origin double exDst = [1 / 2, 1, 1 / (2 * 10 ^ 300)] := by
  decide +kernel

/-- **C42** (completeness) fails with the default tolerance 1e-12: the destination nodes lie on a line of constant y, so the grid spacing across
the line is 2⁻⁴⁴ ≈ 5.7e-14, and a source node which misses its partner by 5e-13 in this direction is not found. -/
theorem C42_complete_violated : ¬ C42Statement double := by
  intro h
  obtain ⟨b', hb⟩ := h (1 / 10 ^ 12) [[([1, 1 + 5 / 10 ^ 13, 0], 7)]] [exDst] (by decide) (by decide) _ (List.mem_singleton.2 rfl) _ (List.mem_singleton.2 rfl)
    [1, 1 + 5 / 10 ^ 13, 0] 7 [1, 1, 0] 1 (by simp) (by simp [exDst]) (by norm_num) (by norm_num [sqDist])
  unfold matchAll matchNodes matchOne at hb
  simp only [List.mem_flatMap, List.mem_singleton, exists_eq_left, List.mem_filterMap, Option.map_eq_some_iff, Prod.mk.injEq] at hb
  obtain ⟨p, hp, _⟩ := hb
  have hmem := List.mem_of_find?_eq_some hp
  unfold spaceMap at hmem
  rw [if_neg (by simp [exDst]), exDst_spacing.1, exDst_spacing.2] at hmem
  rw [(C12_proximate_exact double.minDx [1 / 10, 0, 1 / 10 ^ 301] [1 / 2, 1, 1 / (2 * 10 ^ 300)] rfl exDst [1, 1 + 5 / 10 ^ 13, 0] rfl).mem_iff, List.mem_filter, decide_eq_true_iff] at hmem
  obtain ⟨hin, hnear⟩ := hmem
  have : ∀ q ∈ exDst, ¬ Near ((Table.new double.minDx [1 / 10, 0, 1 / 10 ^ 301] [1 / 2, 1, 1 / (2 * 10 ^ 300)] : Table ℚ Nat).snap [1, 1 + 5 / 10 ^ 13, 0])
      ((Table.new double.minDx [1 / 10, 0, 1 / 10 ^ 301] [1 / 2, 1, 1 / (2 * 10 ^ 300)] : Table ℚ Nat).snap q.1) := by
    unfold Near
    decide +kernel
  exact this p hin hnear

/-- **C42** (missing partners): a source node without destination node within the tolerance is left out silently. -/
theorem C42_missing_ignored (c : Consts K) (tol : K) (src dst : List (List (List K × Nat))) (hsrc : ∀ s ∈ src, ∀ n ∈ s, n.1.length = 3) (a : Nat)
    (hno : ∀ s ∈ src, ∀ d ∈ dst, ∀ x y b, (x, a) ∈ s → (y, b) ∈ d → ¬ (0 < tol ∧ sqDist y x < tol ^ 2)) : ∀ b, (a, b) ∉ matchAll c tol src dst := by
  intro b h
  obtain ⟨s, hs, d, hd, x, y, hx, hy, h1⟩ := C42_sound c tol src dst hsrc a b h
  exact hno s hs d hd x y b hx hy h1

/-- C42 (missing partners) as promised to the user: a failure is reported (here: the list of matches is not empty-handed for any
source node). -/
def C42MissingStatement (c : Consts K) : Prop := ∀ (tol : K) (src dst : List (List (List K × Nat))), (∀ s ∈ src, ∀ n ∈ s, n.1.length = 3) →
  ∀ s ∈ src, ∀ x a, (x, a) ∈ s → ∃ b, (a, b) ∈ matchAll c tol src dst

/-- **C42** (missing partners) fails: with no destination nodes at all nothing is reported. -/
theorem C42_missing_violated : ¬ C42MissingStatement double := by
  intro h
  obtain ⟨b, hb⟩ := h 1 [[([0, 0, 0], 7)]] [] (by decide) _ (List.mem_singleton.2 rfl) [0, 0, 0] 7 (by simp)
  simp [matchAll] at hb

/-- **C42** (translation): matching the source nodes displaced by `dx` reports only pairs whose destination node lies within the tolerance of the
position of the source node plus `dx`. -/
theorem C42_translated (c : Consts K) (tol : K) (dx : List K) (hdx : dx.length = 3) (src dst : List (List (List K × Nat)))
    (hsrc : ∀ s ∈ src, ∀ n ∈ s, n.1.length = 3) :
    ∀ a b, (a, b) ∈ matchAll c tol (src.map fun s => s.map (translate dx)) dst → ∃ s ∈ src, ∃ d ∈ dst, ∃ x y, (x, a) ∈ s ∧ (y, b) ∈ d ∧ 0 < tol ∧
      (y.getD 0 0 - (x.getD 0 0 + dx.getD 0 0)) ^ 2 + (y.getD 1 0 - (x.getD 1 0 + dx.getD 1 0)) ^ 2 + (y.getD 2 0 - (x.getD 2 0 + dx.getD 2 0)) ^ 2
        < tol ^ 2 := by
  intro a b h
  have hlen : ∀ s ∈ src.map (fun s => s.map (translate dx)), ∀ n ∈ s, n.1.length = 3 := by
    intro s hs n hn
    obtain ⟨s', hs', rfl⟩ := List.mem_map.1 hs
    obtain ⟨n', hn', rfl⟩ := List.mem_map.1 hn
    simp [translate, hsrc s' hs' n' hn', hdx]
  obtain ⟨s, hs, d, hd, x, y, hx, hy, h1, h2⟩ := C42_sound c tol _ dst hlen a b h
  obtain ⟨s', hs', rfl⟩ := List.mem_map.1 hs
  obtain ⟨⟨x', a'⟩, hn', hx'⟩ := List.mem_map.1 hx
  have hl := hsrc s' hs' _ hn'
  unfold translate at hx'
  simp only [Prod.mk.injEq] at hx'
  obtain ⟨rfl, rfl⟩ := hx'
  refine ⟨s', hs', d, hd, x', y, hn', hy, h1, ?_⟩
  match x', hl, dx, hdx with
  | [p, q, r], _, [u, v, w], _ => simpa [sqDist] using h2

/-- An ordinary boundary with spacings above the tolerance in all directions. -/
example : (∀ i < 3, (1 / 10 ^ 12 : ℚ) ≤ cell double [([0, 0, 0], 0), ([1, 1, 1], 1)] i) ∧
    sqDist ([1, 1, 1] : List ℚ) [1, 1 + 5 / 10 ^ 13, 1] < (1 / 10 ^ 12) ^ 2 := by
  constructor
  · decide +kernel
  · norm_num [sqDist]

example : roundRoot 2 6 = 2 ∧ roundRoot 2 7 = 3 ∧ roundRoot 3 15 = 2 ∧ roundRoot 3 16 = 3 := by decide +kernel

end Verif.PerMatch
