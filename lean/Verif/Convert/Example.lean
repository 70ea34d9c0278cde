import Verif.Convert.Props
/-! # A concrete mesh: two unit squares and a boundary edge -/
namespace Verif.Convert
open Verif Verif.Elem Verif.Mapping Verif.Basis Verif.Poly

namespace Ex
noncomputable section

/-- Node coordinates: 0 1 4 on the line y = 0, 2 3 5 on y = 1. -/
def X : Nat → Nat → ℝ
  | 1, 0 => 1 | 3, 0 => 1 | 4, 0 => 2 | 5, 0 => 2
  | 2, 1 => 1 | 3, 1 => 1 | 5, 1 => 1
  | _, _ => 0

def mk (t : ElType) (id : Nat) (nodes : List Nat) : El VData := ⟨t, id, nodes, fun k => X (nodes.getD k 0)⟩
def q0 := mk .quad 0 [0, 1, 2, 3]
def q1 := mk .quad 1 [1, 4, 3, 5]
def l2 := mk .line 2 [4, 5]
/-- Domain 0: the squares; domain 7: the right edge. -/
def mesh : DMap VData := [(0, ⟨some 2, [[], [q0, q1], []]⟩), (7, ⟨some 1, [[], [], [l2]]⟩)]
def adj : Nat → List Nat
  | 0 => [1] | 1 => [0, 2] | _ => [1]

theorem wf : WfMesh mesh := by
  constructor
  · simp [OMap.Sorted, mesh]
  · simp [mesh]
  · intro d hd t
    simp only [mesh, List.mem_cons, List.not_mem_nil, or_false] at hd
    rcases hd with rfl | rfl <;> cases t <;> simp [tyIdx, q0, q1, l2, mk]
  · intro d hd t
    simp only [mesh, List.mem_cons, List.not_mem_nil, or_false] at hd
    rcases hd with rfl | rfl <;> cases t <;> simp [tyIdx, q0, q1, l2, mk]
  · intro d hd
    simp only [mesh, List.mem_cons, List.not_mem_nil, or_false] at hd
    rcases hd with rfl | rfl <;> simp [q0, q1, l2, mk, ElType.dim]

theorem els_eq : (visit mesh).map (·.2) = [q0, q1, l2] := by simp [visit, mesh]

theorem im_q0 (ξ : Nat → ℝ) : image q0.ty q0.data ξ = ![(1 + ξ 0) / 2, (1 + ξ 1) / 2, 0] := by
  funext c
  rw [image_eq]
  fin_cases c <;> simp [q0, mk, X, ElType.dim, Finset.sum_range_succ, Finset.prod_range_succ, hat] <;> ring

theorem im_q1 (ξ : Nat → ℝ) : image q1.ty q1.data ξ = ![1 + (1 + ξ 0) / 2, (1 + ξ 1) / 2, 0] := by
  funext c
  rw [image_eq]
  fin_cases c <;> simp [q1, mk, X, ElType.dim, Finset.sum_range_succ, Finset.prod_range_succ, hat] <;> ring

theorem im_l2 (ξ : Nat → ℝ) : image l2.ty l2.data ξ = ![2, (1 + ξ 0) / 2, 0] := by
  funext c
  rw [image_eq]
  fin_cases c <;> simp [l2, mk, X, ElType.dim, Finset.sum_range_succ, Finset.prod_range_succ, hat] <;> ring

theorem vec_eq {a b c a' b' c' : ℝ} (h : (![a, b, c] : Pt) = ![a', b', c']) : a = a' ∧ b = b' :=
  ⟨congrFun h 0, congrFun h 1⟩

theorem meets_q0_q1 : Meets q0 q1 := by
  right
  refine ⟨[some true, none], [some false, none], fun a => a, fun _ => false, ⟨by decide, by decide, by decide, ?_, ?_, ?_⟩, by decide, ?_, ?_⟩
  · intro a h; rcases a with _ | _ | a <;> simp_all
  · intro a b _ _ h; exact h
  · intro a h; rcases a with _ | _ | a <;> simp_all
  · decide
  · intro ξ ξ' h h' e
    rw [im_q0, im_q1] at e
    obtain ⟨e1, e2⟩ := vec_eq e
    have a1 := (h 0 (by decide)).2
    have a2 := (h' 0 (by decide)).1
    constructor <;> intro a b hb <;> rcases a with _ | _ | a <;> simp at hb <;> subst hb <;> simp [endPt] <;> linarith

theorem meets_q1_q0 : Meets q1 q0 := by
  right
  refine ⟨[some false, none], [some true, none], fun a => a, fun _ => false, ⟨by decide, by decide, by decide, ?_, ?_, ?_⟩, by decide, ?_, ?_⟩
  · intro a h; rcases a with _ | _ | a <;> simp_all
  · intro a b _ _ h; exact h
  · intro a h; rcases a with _ | _ | a <;> simp_all
  · decide
  · intro ξ ξ' h h' e
    rw [im_q0, im_q1] at e
    obtain ⟨e1, e2⟩ := vec_eq e
    have a1 := (h 0 (by decide)).1
    have a2 := (h' 0 (by decide)).2
    constructor <;> intro a b hb <;> rcases a with _ | _ | a <;> simp at hb <;> subst hb <;> simp [endPt] <;> linarith

theorem meets_q1_l2 : Meets q1 l2 := by
  right
  refine ⟨[some true, none], [none], fun _ => 1, fun _ => false, ⟨by decide, by decide, by decide, ?_, ?_, ?_⟩, by decide, ?_, ?_⟩
  · intro a h; rcases a with _ | a <;> simp_all
  · intro a b h h' _; rcases a with _ | a <;> rcases b with _ | b <;> simp_all
  · intro a h; rcases a with _ | _ | a <;> simp_all <;> exact ⟨0, rfl⟩
  · decide
  · intro ξ ξ' h h' e
    rw [im_q1, im_l2] at e
    obtain ⟨e1, e2⟩ := vec_eq e
    constructor <;> intro a b hb <;> rcases a with _ | _ | a <;> simp at hb
    subst hb; simp [endPt]; linarith

theorem meets_l2_q1 : Meets l2 q1 := by
  right
  refine ⟨[none], [some true, none], fun _ => 0, fun _ => false, ⟨by decide, by decide, by decide, ?_, ?_, ?_⟩, by decide, ?_, ?_⟩
  · intro a h; rcases a with _ | _ | a <;> simp_all
  · intro a b h h' _; rcases a with _ | _ | a <;> rcases b with _ | _ | b <;> simp_all
  · intro a h; rcases a with _ | a <;> simp_all <;> exact ⟨1, rfl⟩
  · decide
  · intro ξ ξ' h h' e
    rw [im_q1, im_l2] at e
    obtain ⟨e1, e2⟩ := vec_eq e
    constructor <;> intro a b hb <;> rcases a with _ | _ | a <;> simp at hb
    subst hb; simp [endPt]; linarith

theorem meets_q0_l2 : Meets q0 l2 := by
  left
  intro ξ ξ' h h' e
  rw [im_q0, im_l2] at e
  have := (vec_eq e).1
  have := (h 0 (by decide)).2
  linarith

theorem meets_l2_q0 : Meets l2 q0 := by
  left
  intro ξ ξ' h h' e
  rw [im_q0, im_l2] at e
  have := (vec_eq e).1
  have := (h' 0 (by decide)).2
  linarith

/-- A point of the lattice of half integers. -/
def Half (p : Pt) : Prop := ∃ z : Fin 3 → ℤ, ∀ c, 2 * p c = z c

theorem half_sep {p q : Pt} (hp : Half p) (hq : Half q) (h : closeTol p q = true) : p = q := by
  obtain ⟨y, hy⟩ := hp
  obtain ⟨z, hz⟩ := hq
  rw [closeTol, decide_eq_true_eq, Real.sqrt_lt' (by norm_num)] at h
  funext c
  have hc : (p c - q c) ^ 2 < 1e-12 ^ 2 :=
    lt_of_le_of_lt (Finset.single_le_sum (f := fun c => (p c - q c) ^ 2) (fun _ _ => sq_nonneg _) (Finset.mem_univ c)) h
  have hd : |p c - q c| < 1e-12 := by
    have := abs_lt_of_sq_lt_sq hc (by norm_num)
    exact this
  have he : 2 * (p c - q c) = ((y c - z c : ℤ) : ℝ) := by push_cast; rw [← hy, ← hz]; ring
  have h0 : y c - z c = 0 := by
    have : |((y c - z c : ℤ) : ℝ)| < 1 := by
      rw [← he, abs_mul]; norm_num at hd ⊢; linarith
    rw [← Int.cast_abs] at this
    have : |y c - z c| < 1 := by exact_mod_cast this
    exact Int.abs_lt_one_iff.1 this
  rw [h0] at he
  push_cast at he
  linarith

theorem ref_int (roots : List ℂ) (t : ElType) (i a : Nat) : ∃ z : ℤ, refPt t 3 (lobattoAbsc 3 roots) i a = z := by
  unfold refPt
  split
  · have : i / 3 ^ a % 3 < 3 := Nat.mod_lt _ (by omega)
    interval_cases i / 3 ^ a % 3
    · exact ⟨-1, by simp [lobattoAbsc]⟩
    · exact ⟨0, by simp [lobattoAbsc]⟩
    · exact ⟨1, by simp [lobattoAbsc]⟩
  · exact ⟨0, by simp⟩

theorem loc_half (roots : List ℂ) (e : El VData) (he : e ∈ [q0, q1, l2]) (p : Pt) (hp : p ∈ physLoc roots e.ty 3 e.data) : Half p := by
  have L := lob_of 3 (by omega) roots (by omega)
  obtain ⟨i, hi, rfl⟩ := List.mem_iff_getElem.1 hp
  have hi' := hi
  rw [physLoc_length roots e.ty 3 e.data L] at hi'
  have hpos := pos_eq roots 3 L e hi'
  rw [pos, List.getElem?_eq_getElem hi, Option.some.injEq] at hpos
  rw [hpos]
  obtain ⟨z0, h0⟩ := ref_int roots e.ty i 0
  obtain ⟨z1, h1⟩ := ref_int roots e.ty i 1
  simp only [List.mem_cons, List.not_mem_nil, or_false] at he
  rcases he with rfl | rfl | rfl
  · rw [im_q0, h0, h1]
    refine ⟨![1 + z0, 1 + z1, 0], fun c => ?_⟩
    fin_cases c <;> simp <;> ring
  · rw [im_q1, h0, h1]
    refine ⟨![3 + z0, 1 + z1, 0], fun c => ?_⟩
    fin_cases c <;> simp <;> ring
  · rw [im_l2, h0]
    refine ⟨![4, 1 + z0, 0], fun c => ?_⟩
    fin_cases c <;> simp <;> ring

/-- The mesh meets the hypotheses of C34 for the conversion to order 2. -/
theorem geo (roots : List ℂ) : GeoMesh 3 roots adj 6 X ((visit mesh).map (·.2)) := by
  rw [els_eq]
  refine ⟨by omega, ?_, by omega, ?_, ?_, by simp [q0, q1, l2, mk], ?_, ?_, ?_, ?_, ?_⟩
  · simp [q0, q1, l2, mk, ElType.dim]
  · simp only [List.mem_cons, List.not_mem_nil, or_false]
    rintro e (rfl | rfl | rfl) <;> exact ⟨by simp [q0, q1, l2, mk, ElType.dim], by simp [q0, q1, l2, mk]⟩
  · simp [q0, q1, l2, mk]
  · simp only [List.mem_cons, List.not_mem_nil, or_false]
    rintro e (rfl | rfl | rfl) k _ c _ <;> rfl
  · simp only [List.mem_cons, List.not_mem_nil, or_false]
    rintro e (rfl | rfl | rfl) ξ ξ' _ _ h a ha
    · rw [im_q0, im_q0] at h
      have := vec_eq h
      rcases a with _ | _ | a
      · linarith
      · linarith
      · simp [q0, mk, ElType.dim] at ha
    · rw [im_q1, im_q1] at h
      have := vec_eq h
      rcases a with _ | _ | a
      · linarith
      · linarith
      · simp [q1, mk, ElType.dim] at ha
    · rw [im_l2, im_l2] at h
      have := vec_eq h
      rcases a with _ | a
      · linarith
      · simp [l2, mk, ElType.dim] at ha
  · simp only [List.mem_cons, List.not_mem_nil, or_false]
    rintro e (rfl | rfl | rfl) e' (rfl | rfl | rfl) hid
    · exact absurd rfl hid
    · exact meets_q0_q1
    · exact meets_q0_l2
    · exact meets_q1_q0
    · exact absurd rfl hid
    · exact meets_q1_l2
    · exact meets_l2_q0
    · exact meets_l2_q1
    · exact absurd rfl hid
  · simp only [List.mem_cons, List.not_mem_nil, or_false]
    have no : ∀ k k' l l', k < 4 → k' < 4 → k ≠ k' → l < 2 → l' < 2 → ¬ (([0, 1, 2, 3].getD k 0 : Nat) = [4, 5].getD l 0 ∧ ([0, 1, 2, 3].getD k' 0 : Nat) = [4, 5].getD l' 0) := by
      intro k k' l l' h1 h2 h3 h4 h5
      interval_cases k <;> interval_cases l <;> simp
    rintro e (rfl | rfl | rfl) e' (rfl | rfl | rfl) hid hs <;> first | exact absurd rfl hid | skip
    · simp [adj, q0, q1, mk]
    · obtain ⟨k, k', l, l', h1, h2, h3, h4, h5, h6, h7⟩ := hs
      exact absurd ⟨h6, h7⟩ (no k k' l l' h1 h2 h3 h4 h5)
    · simp [adj, q0, q1, mk]
    · simp [adj, l2, q1, mk]
    · obtain ⟨k, k', l, l', h1, h2, h3, h4, h5, h6, h7⟩ := hs
      have : ∀ l < 4, ∀ k < 2, ([4, 5].getD k 0 : Nat) ≠ [0, 1, 2, 3].getD l 0 := by decide
      exact absurd h6 (this l h4 k h1)
    · simp [adj, l2, q1, mk]
  · intro e he e' he' p hp q hq h
    exact half_sep (loc_half roots e he p hp) (loc_half roots e' he' q hq) h

end
end Ex

/-- The hypotheses of C34 hold for two squares with a boundary edge. -/
example (roots : List ℂ) : ∃ ν N, convert 3 (physLoc roots) closeTol Ex.adj 6 Ex.mesh = some (relabel ν Ex.mesh, N) :=
  have ⟨ν, N, h, _⟩ := C34_conversion Ex.wf (Ex.geo roots)
  ⟨ν, N, h⟩

/-! ### The algorithm run on integer positions -/

/-- Unit squares and vertical unit edges with lower left corner `p`; lattice positions times 2. -/
def latLoc : Loc (Nat × Nat) (Nat × Nat)
  | .quad, n, p => (List.range (n * n)).map fun i => (2 * p.1 + 2 / (n - 1) * (i % n), 2 * p.2 + 2 / (n - 1) * (i / n))
  | .line, n, p => (List.range n).map fun i => (2 * p.1, 2 * p.2 + 2 / (n - 1) * i)
  | .hex, _, _ => []

def latClose (p q : Nat × Nat) : Bool := decide (p = q)

/-- Nodes of all elements after the conversion, and the number of nodes. -/
def result (m : Option (DMap (Nat × Nat) × Nat)) : Option (List (List Nat) × Nat) :=
  m.map fun r => ((visit r.1).map (·.2.nodes), r.2)

/-- The same mesh with integer positions: the common edge has one new node, 8, the boundary edge shares node 12. -/
example : result (convert 3 latLoc latClose Ex.adj 6
      [(0, ⟨some 2, [[], [⟨.quad, 0, [0, 1, 2, 3], (0, 0)⟩, ⟨.quad, 1, [1, 4, 3, 5], (1, 0)⟩], []]⟩),
       (7, ⟨some 1, [[], [], [⟨.line, 2, [4, 5], (2, 0)⟩]]⟩)]) =
    some ([[0, 6, 1, 7, 10, 8, 2, 9, 3], [1, 11, 4, 8, 14, 12, 3, 13, 5], [4, 12, 5]], 15) := by decide

/-- **C34** (limit): an element that occurs twice, for example a boundary face belonging to two boundary domains,
is not converted conformingly: `getHighestMatchableDim` lets two elements of equal dimension have at most an edge
in common, and only the first common edge is found. Of the five new nodes one is shared, the others get two ids
each. -/
theorem C34_duplicate_violated :
    result (convert 3 latLoc latClose (fun i => if i = 0 then [1] else [0]) 4
      [(0, ⟨some 2, [[], [⟨.quad, 0, [0, 1, 2, 3], (0, 0)⟩], []]⟩), (1, ⟨some 2, [[], [⟨.quad, 1, [0, 1, 2, 3], (0, 0)⟩], []]⟩)]) =
    some ([[0, 4, 1, 5, 8, 6, 2, 7, 3], [0, 4, 1, 9, 12, 10, 2, 11, 3]], 13) := by decide

end Verif.Convert
