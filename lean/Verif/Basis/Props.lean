import Verif.Basis.Lemmas

/-!
# C68: the nodal basis
-/
namespace Verif.Basis
open Verif.Poly Polynomial
variable {K : Type} [Field K]

/-- **C68** (line): basis function `i` is 1 at node `i` and 0 at the other nodes; the functions add up to 1
everywhere, their derivatives to 0; combining them with the values of a polynomial of degree below the
number of nodes gives that polynomial. -/
theorem C68_line (n : Nat) (hn : 0 < n) (x : Nat → K) (hx : Set.InjOn x (Set.Iio n)) :
    (lineNodes n x).length = n ∧
    (∀ i j p, (lineNodes n x)[j]? = some p → line n x i p = if i = j then 1 else 0) ∧
    (∀ t, ∑ i ∈ Finset.range n, line n x i t = 1) ∧
    (∀ t, ∑ i ∈ Finset.range n, lineDer n x i t = 0) ∧
    ∀ q : List K, q.length = n → ∀ t,
      valueAt n (line n x) (fun i => evaluate q (x i)) t = evaluate q t := by
  refine ⟨by simp [lineNodes, absc], ?_, line_sum n hn x hx, lineDer_sum n hn x hx, ?_⟩
  · intro i j p hp
    have hj : j < n := by
      have := (List.getElem?_eq_some_iff.1 hp).1
      simpa [lineNodes, absc] using this
    rw [lineNodes, List.getElem?_map, absc_getElem? n x j hj] at hp
    cases hp
    exact line_node n x hx i j hj
  · intro q hq t
    rw [valueAt, list_range_sum, line_combo n x _ hx, C64_reproduces n x hx q hq]

/-- **C68** (quad): the same, node `k` being `(x (k mod n), x (k div n))`; the two families of derivatives
each add up to 0. -/
theorem C68_quad (n : Nat) (hn : 0 < n) (x : Nat → K) (hx : Set.InjOn x (Set.Iio n)) :
    (quadNodes n x).length = n * n ∧
    (∀ i j p, i < n * n → (quadNodes n x)[j]? = some p → quad n x i p = if i = j then 1 else 0) ∧
    (∀ p, ∑ i ∈ Finset.range (n * n), quad n x i p = 1) ∧
    (∀ p, ∑ i ∈ Finset.range (n * n), quadDerXi n x i p = 0) ∧
    (∀ p, ∑ i ∈ Finset.range (n * n), quadDerEta n x i p = 0) ∧
    ∀ q r : List K, q.length = n → r.length = n → ∀ p : K × K,
      valueAt (n * n) (quad n x) (fun i => evaluate q (x (i % n)) * evaluate r (x (i / n))) p =
        evaluate q p.1 * evaluate r p.2 := by
  refine ⟨quadNodes_length n x, ?_, ?_, ?_, ?_, ?_⟩
  · intro i j p hi hp
    have hj : j < n * n := by
      have := (List.getElem?_eq_some_iff.1 hp).1
      rwa [quadNodes_length] at this
    rw [quadNodes_getElem? n x j hj] at hp
    cases hp
    rw [quad, line_node n x hx _ _ (Nat.mod_lt j hn), line_node n x hx _ _ (Nat.div_lt_of_lt_mul hj)]
    exact mul_ite2 digits_eq
  · intro p
    simp only [quad]
    rw [sum2 n (fun i => line n x i p.1) (fun i => line n x i p.2), line_sum n hn x hx, line_sum n hn x hx]
    simp
  · intro p
    simp only [quadDerXi]
    rw [sum2 n (fun i => lineDer n x i p.1) (fun i => line n x i p.2), lineDer_sum n hn x hx, zero_mul]
  · intro p
    simp only [quadDerEta]
    rw [sum2 n (fun i => line n x i p.1) (fun i => lineDer n x i p.2), lineDer_sum n hn x hx, mul_zero]
  · intro q r hq hr p
    rw [valueAt, list_range_sum]
    have e : ∀ i ∈ Finset.range (n * n), evaluate q (x (i % n)) * evaluate r (x (i / n)) * quad n x i p =
        (evaluate q (x (i % n)) * line n x (i % n) p.1) * (evaluate r (x (i / n)) * line n x (i / n) p.2) := by
      intro i _; rw [quad]; ring
    rw [Finset.sum_congr rfl e,
      sum2 n (fun i => evaluate q (x i) * line n x i p.1) (fun i => evaluate r (x i) * line n x i p.2),
      line_combo n x (fun i => evaluate q (x i)) hx, line_combo n x (fun i => evaluate r (x i)) hx,
      C64_reproduces n x hx q hq, C64_reproduces n x hx r hr]

/-- **C68** (hex). -/
theorem C68_hex (n : Nat) (hn : 0 < n) (x : Nat → K) (hx : Set.InjOn x (Set.Iio n)) :
    (hexNodes n x).length = n * n * n ∧
    (∀ i j p, i < n * n * n → (hexNodes n x)[j]? = some p → hex n x i p = if i = j then 1 else 0) ∧
    (∀ p, ∑ i ∈ Finset.range (n * n * n), hex n x i p = 1) ∧
    (∀ p, ∑ i ∈ Finset.range (n * n * n), hexDerXi n x i p = 0) ∧
    (∀ p, ∑ i ∈ Finset.range (n * n * n), hexDerEta n x i p = 0) ∧
    (∀ p, ∑ i ∈ Finset.range (n * n * n), hexDerZeta n x i p = 0) ∧
    ∀ q r s : List K, q.length = n → r.length = n → s.length = n → ∀ p : K × K × K,
      valueAt (n * n * n) (hex n x) (fun i => evaluate q (x (i % (n * n) % n)) *
        evaluate r (x (i % (n * n) / n)) * evaluate s (x (i / (n * n)))) p =
        evaluate q p.1 * evaluate r p.2.1 * evaluate s p.2.2 := by
  have hnn : 0 < n * n := Nat.mul_pos hn hn
  refine ⟨hexNodes_length n x, ?_, ?_, ?_, ?_, ?_, ?_⟩
  · intro i j p hi hp
    have hj : j < n * n * n := by
      have := (List.getElem?_eq_some_iff.1 hp).1
      rwa [hexNodes_length] at this
    rw [hexNodes_getElem? n x j hj] at hp
    cases hp
    have hm := Nat.mod_lt j hnn
    rw [hex, quad, line_node n x hx _ _ (Nat.mod_lt _ hn), line_node n x hx _ _ (Nat.div_lt_of_lt_mul hm),
      line_node n x hx _ _ (Nat.div_lt_of_lt_mul (by linarith))]
    rw [mul_ite2 (digits_eq (n := n) (i := i % (n * n)) (j := j % (n * n)))]
    exact mul_ite2 digits_eq
  · intro p
    simp only [hex, quad]
    rw [sum3 n (fun i => line n x i p.1) (fun i => line n x i p.2.1) (fun i => line n x i p.2.2),
      line_sum n hn x hx, line_sum n hn x hx, line_sum n hn x hx]; simp
  · intro p
    simp only [hexDerXi, quadDerXi]
    rw [sum3 n (fun i => lineDer n x i p.1) (fun i => line n x i p.2.1) (fun i => line n x i p.2.2),
      lineDer_sum n hn x hx]; simp
  · intro p
    simp only [hexDerEta, quadDerEta]
    rw [sum3 n (fun i => line n x i p.1) (fun i => lineDer n x i p.2.1) (fun i => line n x i p.2.2),
      lineDer_sum n hn x hx]; simp
  · intro p
    simp only [hexDerZeta, quad]
    rw [sum3 n (fun i => line n x i p.1) (fun i => line n x i p.2.1) (fun i => lineDer n x i p.2.2),
      lineDer_sum n hn x hx]; simp
  · intro q r s hq hr hs p
    rw [valueAt, list_range_sum]
    have e : ∀ i ∈ Finset.range (n * n * n), evaluate q (x (i % (n * n) % n)) *
        evaluate r (x (i % (n * n) / n)) * evaluate s (x (i / (n * n))) * hex n x i p =
        (evaluate q (x (i % (n * n) % n)) * line n x (i % (n * n) % n) p.1) *
        (evaluate r (x (i % (n * n) / n)) * line n x (i % (n * n) / n) p.2.1) *
        (evaluate s (x (i / (n * n))) * line n x (i / (n * n)) p.2.2) := by
      intro i _; rw [hex, quad]; ring
    rw [Finset.sum_congr rfl e,
      sum3 n (fun i => evaluate q (x i) * line n x i p.1) (fun i => evaluate r (x i) * line n x i p.2.1)
        (fun i => evaluate s (x i) * line n x i p.2.2),
      line_combo n x (fun i => evaluate q (x i)) hx, line_combo n x (fun i => evaluate r (x i)) hx,
      line_combo n x (fun i => evaluate s (x i)) hx,
      C64_reproduces n x hx q hq, C64_reproduces n x hx r hr, C64_reproduces n x hx s hs]

/-- **C68** (derivatives): the derivative functions really are the (partial) derivatives of the basis
functions. -/
theorem C68_derivative (n : Nat) (x : Nat → ℝ) (i : Nat) :
    (∀ t, HasDerivAt (line n x i) (lineDer n x i t) t) ∧
    (∀ a b, HasDerivAt (fun t => quad n x i (t, b)) (quadDerXi n x i (a, b)) a) ∧
    (∀ a b, HasDerivAt (fun t => quad n x i (a, t)) (quadDerEta n x i (a, b)) b) ∧
    (∀ a b c, HasDerivAt (fun t => hex n x i (t, b, c)) (hexDerXi n x i (a, b, c)) a) ∧
    (∀ a b c, HasDerivAt (fun t => hex n x i (a, t, c)) (hexDerEta n x i (a, b, c)) b) ∧
    ∀ a b c, HasDerivAt (fun t => hex n x i (a, b, t)) (hexDerZeta n x i (a, b, c)) c := by
  have hl : ∀ i t, HasDerivAt (line n x i) (lineDer n x i t) t := fun i t => C63_hasDerivAt _ t
  refine ⟨hl i, ?_, ?_, ?_, ?_, ?_⟩
  · intro a b; exact (hl (i % n) a).mul_const (line n x (i / n) b)
  · intro a b; exact (hl (i / n) b).const_mul (line n x (i % n) a)
  · intro a b c
    exact ((hl (i % (n * n) % n) a).mul_const (line n x (i % (n * n) / n) b)).mul_const (line n x (i / (n * n)) c)
  · intro a b c
    exact ((hl (i % (n * n) / n) b).const_mul (line n x (i % (n * n) % n) a)).mul_const (line n x (i / (n * n)) c)
  · intro a b c
    exact (hl (i / (n * n)) c).const_mul (line n x (i % (n * n) % n) a * line n x (i % (n * n) / n) b)

/-- The abscissae the library uses are distinct for every order, so the theorems above apply. -/
theorem C68_abscissae (order : Nat) (ho : 1 ≤ order) (l : List ℂ) (hl : 4 ≤ order + 1 → LobattoRoots (order + 1) l) :
    Set.InjOn (fun i => (lobattoAbsc (order + 1) l).getD i 0) (Set.Iio (order + 1)) ∧
      absc (order + 1) (fun i => (lobattoAbsc (order + 1) l).getD i 0) = lobattoAbsc (order + 1) l := by
  obtain ⟨hlen, hp, _⟩ := C65_lobatto_points (order + 1) (by omega) l hl
  constructor
  · intro i hi j hj he
    have hi' : i < (lobattoAbsc (order + 1) l).length := by rw [hlen]; exact hi
    have hj' : j < (lobattoAbsc (order + 1) l).length := by rw [hlen]; exact hj
    simp only [getD_lt _ _ hi', getD_lt _ _ hj'] at he
    rcases Nat.lt_trichotomy i j with h | h | h
    · exact absurd he (List.pairwise_iff_getElem.1 hp i j hi' hj' h).ne
    · exact h
    · exact absurd he (List.pairwise_iff_getElem.1 hp j i hj' hi' h).ne'
  · apply List.ext_getElem
    · rw [absc_length, hlen]
    · intro i h1 h2
      simp only [absc, List.getElem_map, List.getElem_range]
      rw [getD_lt _ _ h2]

/-- Order 2 on a line, at the point 1/2: values -1/8, 3/4, 3/8. -/
example : (List.range 3).map (fun i => line 3 (fun k => (k : ℚ) - 1) i (1 / 2)) = [-1 / 8, 3 / 4, 3 / 8] := by
  simp [line, linePoly, lagrangeInterp, lagCoefs, toList, rootPoly, mulRoot, otherRoots, evaluate,
    List.range_succ, Function.update]
  norm_num

example : Set.InjOn (fun k => (k : ℚ) - 1) (Set.Iio 3) := by
  intro a _ b _ h
  have : (a : ℚ) = b := by simpa using h
  exact_mod_cast this

end Verif.Basis
