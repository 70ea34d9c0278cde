import Verif.SumOp.Lemmas
import Verif.SumFact.OddEven
import Verif.Quad.Props
import Verif.Basis.Props

/-! # C57 for the matrices which are really used: Lobatto nodes, Gauss-Legendre points

C57 assumes matrices with the point symmetry.  Here it is shown that the interpolation and derivative matrices built from the library's nodes and
quadrature points, and their transposes, have it. -/
namespace Verif.SumOp
open Finset Verif.SumFact Verif.Basis Verif.Poly Verif.Quad

/-- A rule with points mirrored, listed in increasing order again. -/
def mirror (r : Rule1) : Rule1 := (r.map fun p => (-p.1, p.2)).reverse

theorem jacobi_sign (r s : Nat) : jacobi lcA (fun _ => 0) lcC r s * (-1) ^ s = -((-1) ^ r * jacobi lcA (fun _ => 0) lcC r s) := by
  unfold jacobi
  by_cases h : r = s
  · rw [if_pos h]; simp
  · rw [if_neg h]
    by_cases h1 : r = s + 1
    · rw [if_pos h1, h1, pow_succ]; ring
    · rw [if_neg h1]
      by_cases h2 : s = r + 1
      · rw [if_pos h2, h2, pow_succ]; ring
      · rw [if_neg h2]; ring

theorem isEigen_mirror {n : Nat} {ev : Fin n → ℝ} {V : Fin n → Fin n → ℝ} (h : IsEigen n (jacobi lcA (fun _ => 0) lcC) ev V) :
    IsEigen n (jacobi lcA (fun _ => 0) lcC) (fun k => -ev k.rev) fun s k => (-1) ^ (s : Nat) * V s k.rev := by
  refine ⟨?_, ?_, ?_⟩
  · intro i j hij
    have := h.sorted j.rev i.rev (Fin.rev_le_rev.2 hij)
    linarith
  · intro i j
    have := h.orthonormal i.rev j.rev
    rw [show (∑ r : Fin n, (-1 : ℝ) ^ (r : Nat) * V r i.rev * ((-1) ^ (r : Nat) * V r j.rev)) = ∑ r, V r i.rev * V r j.rev from
      Finset.sum_congr rfl fun r _ => by
        have : ((-1 : ℝ) ^ (r : Nat)) * (-1) ^ (r : Nat) = 1 := by rw [← mul_pow]; simp
        linear_combination V r i.rev * V r j.rev * this, this]
    simp only [Fin.rev_inj]
  · intro r k
    have := h.eigen r k.rev
    calc _ = ∑ s : Fin n, -((-1) ^ (r : Nat) * (jacobi lcA (fun _ => 0) lcC r s * V s k.rev)) :=
          Finset.sum_congr rfl fun s _ => by rw [← mul_assoc, jacobi_sign]; ring
      _ = _ := by rw [Finset.sum_neg_distrib, ← Finset.mul_sum, this]; ring

theorem mirror_isRule (qo : Nat) (r : Rule1) (h : IsReferenceRule qo r) : IsReferenceRule qo (mirror r) := by
  obtain ⟨ev, V, h, rfl⟩ := h
  refine ⟨_, _, isEigen_mirror (n := qo / 2 + 1) h, ?_⟩
  unfold mirror gaussRule
  apply List.ext_getElem
  · simp
  intro i h1 h2
  simp only [List.length_map, List.length_finRange] at h2
  rw [List.getElem_reverse, List.getElem_map, List.getElem_map, List.getElem_map]
  simp only [List.getElem_finRange, List.length_map, List.length_finRange]
  have e : ∀ k (hk : k < qo / 2 + 1), k = qo / 2 + 1 - 1 - i → (⟨k, hk⟩ : Fin (qo / 2 + 1)) = (⟨i, h2⟩ : Fin (qo / 2 + 1)).rev :=
    fun k hk hki => Fin.ext (by simp [Fin.rev]; omega)
  rw [show (Fin.cast _ (⟨qo / 2 + 1 - 1 - i, _⟩ : Fin (List.finRange (qo / 2 + 1)).length) : Fin (qo / 2 + 1)) = _ from e _ _ rfl]
  refine Prod.ext rfl ?_
  simp

/-- The Gauss-Legendre rules are symmetric: points and weights. -/
theorem C66_symmetric (qo : Nat) (r : Rule1) (h : IsReferenceRule qo r) : mirror r = r :=
  (C66_unique qo).unique (mirror_isRule qo r h) h

/-- Mirrored Lagrange basis on symmetric nodes. -/
theorem line_mirror (n : Nat) (x : Nat → ℝ) (hx : Set.InjOn x (Set.Iio n)) (hs : ∀ i < n, x (n - i - 1) = -x i) (i : Nat) (hi : i < n) (t : ℝ) :
    line n x (n - i - 1) (-t) = line n x i t := by
  unfold line
  rw [evaluate_eq, evaluate_eq]
  have h : (toPoly (linePoly n x (n - i - 1))).comp (-Polynomial.X) = toPoly (linePoly n x i) := by
    apply Polynomial.eq_of_degrees_lt_of_eval_index_eq (Finset.range n) (v := x)
    · intro a ha b hb e
      exact hx (by simpa using ha) (by simpa using hb) e
    · rw [Finset.card_range]
      by_cases h0 : toPoly (linePoly n x (n - i - 1)) = 0
      · rw [h0, Polynomial.zero_comp, Polynomial.degree_zero]; exact WithBot.bot_lt_coe n
      · refine lt_of_le_of_lt Polynomial.degree_le_natDegree ?_
        rw [Polynomial.natDegree_comp, Polynomial.natDegree_neg, Polynomial.natDegree_X, mul_one, ← Polynomial.degree_eq_natDegree h0]
        exact (C64_degree n x _).2
    · rw [Finset.card_range]; exact (C64_degree n x _).2
    · intro j hj
      have hj := Finset.mem_range.1 hj
      rw [Polynomial.eval_comp, Polynomial.eval_neg, Polynomial.eval_X, ← hs j hj, ← evaluate_eq, ← evaluate_eq]
      unfold linePoly
      rw [C64_interpolates n x _ hx _ (by omega), C64_interpolates n x _ hx _ hj]
      by_cases hji : j = i
      · rw [if_pos hji, if_pos (by omega)]
      · rw [if_neg hji, if_neg (by omega)]
  rw [← h, Polynomial.eval_comp, Polynomial.eval_neg, Polynomial.eval_X]

theorem lineDer_mirror (n : Nat) (x : Nat → ℝ) (hx : Set.InjOn x (Set.Iio n)) (hs : ∀ i < n, x (n - i - 1) = -x i) (i : Nat) (hi : i < n) (t : ℝ) :
    lineDer n x (n - i - 1) (-t) = -lineDer n x i t := by
  have h1 := (C68_derivative n x i).1 t
  have h2 := ((C68_derivative n x (n - i - 1)).1 (-t)).comp t (hasDerivAt_neg t)
  have h3 : line n x (n - i - 1) ∘ Neg.neg = line n x i := funext fun t => line_mirror n x hx hs i hi t
  rw [h3] at h2
  have := h1.unique h2
  linarith

/-- The library's nodes: symmetric and different. -/
noncomputable def nodes (order : Nat) (l : List ℂ) : Nat → ℝ := fun i => (lobattoAbsc (order + 1) l).getD i 0

theorem nodes_symm (order : Nat) (ho : 1 ≤ order) (l : List ℂ) (hl : 4 ≤ order + 1 → LobattoRoots (order + 1) l) :
    ∀ i < order + 1, nodes order l (order + 1 - i - 1) = -nodes order l i := by
  obtain ⟨hlen, -, -, -, hs, -⟩ := C65_lobatto_points (order + 1) (by omega) l hl
  intro i hi
  unfold nodes
  have h1 : i < (lobattoAbsc (order + 1) l).length := by omega
  have h2 : order + 1 - i - 1 < (lobattoAbsc (order + 1) l).length := by omega
  rw [List.getD_eq_getElem?_getD, List.getD_eq_getElem?_getD, List.getElem?_eq_getElem h1, List.getElem?_eq_getElem h2, Option.getD_some, Option.getD_some]
  have h3 : (((lobattoAbsc (order + 1) l).map fun r => -r).reverse)[order + 1 - i - 1]? = (lobattoAbsc (order + 1) l)[order + 1 - i - 1]? := by rw [hs]
  rw [List.getElem?_eq_getElem h2, List.getElem?_eq_getElem (by simpa using h2)] at h3
  have h4 := Option.some.inj h3
  rw [← h4, List.getElem_reverse, List.getElem_map]
  congr 2
  simp only [List.length_map, hlen]
  omega

theorem pts_symm (qo : Nat) (r : Rule1) (h : IsReferenceRule qo r) (c : Nat) (hc : c < r.length) : pts r (r.length - c - 1) = -pts r c := by
  have hm := C66_symmetric qo r h
  unfold pts
  have h2 : r.length - c - 1 < r.length := by omega
  have h3 : (mirror r)[r.length - c - 1]? = r[r.length - c - 1]? := by rw [hm]
  unfold mirror at h3
  rw [List.getElem?_eq_getElem h2, List.getElem?_eq_getElem (by simpa using h2)] at h3
  have h4 := Option.some.inj h3
  rw [List.getD_eq_getElem?_getD, List.getD_eq_getElem?_getD, List.getElem?_eq_getElem hc, List.getElem?_eq_getElem h2, Option.getD_some, Option.getD_some, ← h4, List.getElem_reverse, List.getElem_map]
  simp only [List.length_map]
  congr 3
  omega

/-- The matrices used have the symmetry which the odd-even decomposition needs. -/
theorem C57_matrices (order : Nat) (ho : 1 ≤ order) (l : List ℂ) (hl : 4 ≤ order + 1 → LobattoRoots (order + 1) l) (qo : Nat) (r : Rule1)
    (hr : IsReferenceRule qo r) (b : Nat) (hb : b < order + 1) (q : Nat) (hq : q < r.length) :
    interp (order + 1) (nodes order l) (pts r) (order + 1 - b - 1) (r.length - q - 1) = interp (order + 1) (nodes order l) (pts r) b q ∧
    deriv (order + 1) (nodes order l) (pts r) (order + 1 - b - 1) (r.length - q - 1) = -deriv (order + 1) (nodes order l) (pts r) b q := by
  have hi := (C68_abscissae order ho l hl).1
  have hs := nodes_symm order ho l hl
  unfold interp deriv
  rw [pts_symm qo r hr q hq]
  exact ⟨line_mirror _ _ hi hs b hb _, lineDer_mirror _ _ hi hs b hb _⟩

/-- C57 for the library's matrices: with Lobatto nodes of any order and a Gauss-Legendre rule of any order, the four odd-even sweeps (values and
derivatives, towards the points and back towards the nodes) assign or accumulate the plain products. -/
theorem C57_library (order : Nat) (ho : 1 ≤ order) (l : List ℂ) (hl : 4 ≤ order + 1 → LobattoRoots (order + 1) l) (qo : Nat) (r : Rule1)
    (hr : IsReferenceRule qo r) (bs cols : Nat) (comb : ℝ → ℝ → ℝ) (inp out : Nat → Nat → ℝ) (i j : Nat) (hi : i < cols) :
    let n := order + 1
    let m := r.length
    let B := interp n (nodes order l) (pts r)
    let D := deriv n (nodes order l) (pts r)
    (j < m → sweepOE bs cols (interpOE n m B comb) inp out i j = comb (out i j) (∑ b ∈ range n, inp i b * B b j) ∧
      sweepOE bs cols (derOE n m D comb) inp out i j = comb (out i j) (∑ b ∈ range n, inp i b * D b j)) ∧
    (j < n → sweepOE bs cols (interpOE m n (fun q b => B b q) comb) inp out i j = comb (out i j) (∑ q ∈ range m, inp i q * B j q) ∧
      sweepOE bs cols (derOE m n (fun q b => D b q) comb) inp out i j = comb (out i j) (∑ q ∈ range m, inp i q * D j q)) := by
  intro n m B D
  have h := C57_matrices order ho l hl qo r hr
  exact ⟨fun hj => ⟨C57_interpolation bs n m cols B comb inp out (fun b hb q hq => (h b hb q hq).1) i j hi hj,
      C57_derivative bs n m cols D comb inp out (fun b hb q hq => (h b hb q hq).2) i j hi hj⟩,
    fun hj => ⟨C57_interpolation bs m n cols _ comb inp out (fun q hq b hb => (h b hb q hq).1) i j hi hj,
      C57_derivative bs m n cols _ comb inp out (fun q hq b hb => (h b hb q hq).2) i j hi hj⟩⟩

/-- Quadratic elements with the rule of order 4 (which exists). -/
example : (4 ≤ 2 + 1 → LobattoRoots (2 + 1) []) ∧ ∃ r, IsReferenceRule 4 r := ⟨fun h => by omega, (C66_unique 4).exists⟩

end Verif.SumOp
