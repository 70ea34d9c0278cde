import Verif.AsmOrd.Model
import Verif.Quad.Props
import Verif.Poly.Lagrange
import Mathlib.Algebra.MvPolynomial.Variables
import Mathlib.Algebra.MvPolynomial.Degrees

/-! # Polynomials of bounded degree in each variable, and the exactness of the rules for them -/
namespace Verif.AsmOrd
open Finset Verif.Elem Verif.Mapping Verif.Poly Verif.Quad

/-- A polynomial of degree at most `m` in each of the first `d` coordinates. -/
def IsPoly (d m : Nat) (f : (Nat → ℝ) → ℝ) : Prop :=
  ∃ P : MvPolynomial (Fin d) ℝ, (∀ i, P.degreeOf i ≤ m) ∧ ∀ p, f p = P.eval fun i : Fin d => p i

theorem IsPoly.const (d m : Nat) (c : ℝ) : IsPoly d m fun _ => c :=
  ⟨MvPolynomial.C c, fun i => by rw [MvPolynomial.degreeOf_C]; exact Nat.zero_le _, fun p => by simp⟩

theorem IsPoly.mono {d m m' : Nat} {f} (h : IsPoly d m f) (hm : m ≤ m') : IsPoly d m' f := by
  obtain ⟨P, h1, h2⟩ := h
  exact ⟨P, fun i => (h1 i).trans hm, h2⟩

theorem IsPoly.add {d m : Nat} {f g} (hf : IsPoly d m f) (hg : IsPoly d m g) :
    IsPoly d m fun p => f p + g p := by
  obtain ⟨P, h1, h2⟩ := hf
  obtain ⟨Q, k1, k2⟩ := hg
  refine ⟨P + Q, fun i => (MvPolynomial.degreeOf_add_le i P Q).trans (max_le (h1 i) (k1 i)), fun p => ?_⟩
  beta_reduce
  rw [h2, k2, map_add]

theorem IsPoly.mul {d m k : Nat} {f g} (hf : IsPoly d m f) (hg : IsPoly d k g) :
    IsPoly d (m + k) fun p => f p * g p := by
  obtain ⟨P, h1, h2⟩ := hf
  obtain ⟨Q, k1, k2⟩ := hg
  refine ⟨P * Q, fun i => (MvPolynomial.degreeOf_mul_le i P Q).trans (Nat.add_le_add (h1 i) (k1 i)), fun p => ?_⟩
  beta_reduce
  rw [h2, k2, map_mul]

theorem IsPoly.sum {d m : Nat} {ι : Type} (s : Finset ι) {f : ι → (Nat → ℝ) → ℝ} (h : ∀ i ∈ s, IsPoly d m (f i)) :
    IsPoly d m fun p => ∑ i ∈ s, f i p := by
  classical
  induction s using Finset.induction_on with
  | empty => simpa using IsPoly.const d m 0
  | insert a s ha ih =>
    simp only [Finset.sum_insert ha]
    exact (h a (by simp)).add (ih fun i hi => h i (by simp [hi]))

theorem IsPoly.coord_pow (d k e : Nat) (hk : k < d) : IsPoly d e fun p => p k ^ e := by
  refine ⟨MvPolynomial.X ⟨k, hk⟩ ^ e, fun i => ?_, fun p => by simp⟩
  refine (MvPolynomial.degreeOf_pow_le i _ e).trans ?_
  rw [MvPolynomial.degreeOf_X]
  split <;> simp

/-- A polynomial in one of the coordinates. -/
theorem IsPoly.coord (d m k : Nat) (hk : k < d) (c : List ℝ) (hc : c.length ≤ m + 1) :
    IsPoly d m fun p => evaluate c (p k) := by
  have e : ∀ x : ℝ, evaluate c x = ∑ i ∈ range (m + 1), (toPoly c).coeff i * x ^ i := by
    intro x
    rw [evaluate_eq, Polynomial.eval_eq_sum_range' (n := m + 1)]
    by_cases h0 : toPoly c = 0
    · simp [h0]
    · have := toPoly_degree_lt c
      rw [Polynomial.degree_eq_natDegree h0] at this
      have : (toPoly c).natDegree < c.length := by exact_mod_cast this
      omega
  simp only [e]
  refine IsPoly.sum _ fun i hi => ?_
  have hi' : i ≤ m := by simpa [Nat.lt_succ_iff] using hi
  have := (IsPoly.const d 0 ((toPoly c).coeff i)).mul (IsPoly.coord_pow d k i hk)
  exact this.mono (by omega)

/-! ## Exactness -/

noncomputable section

/-- The integral over the reference element. -/
def refIntegral (t : ElType) (f : (Nat → ℝ) → ℝ) : ℝ :=
  match t with
  | .line => ∫ x in (-1 : ℝ)..1, f (coords1 x)
  | .quad => ∫ x in (-1 : ℝ)..1, ∫ y in (-1 : ℝ)..1, f (SumOp.coords2 (x, y))
  | .hex => ∫ x in (-1 : ℝ)..1, ∫ y in (-1 : ℝ)..1, ∫ z in (-1 : ℝ)..1, f (SumOp.coords3 (x, y, z))

end

/-- `c x^k`, coefficients highest power first. -/
def monoList (c : ℝ) (k : Nat) : List ℝ := c :: List.replicate k 0

theorem monoList_eval (c : ℝ) (k : Nat) (x : ℝ) : evaluate (monoList c k) x = c * x ^ k := by
  unfold monoList evaluate
  rw [List.foldl_cons]
  have : ∀ (k : Nat) (a : ℝ), List.foldl (fun ret c => ret * x + c) a (List.replicate k 0) = a * x ^ k := by
    intro k
    induction k with
    | zero => intro a; simp
    | succ k ih => intro a; rw [List.replicate_succ, List.foldl_cons, ih]; ring
  rw [this]; ring

theorem monoList_length (c : ℝ) (k : Nat) : (monoList c k).length = k + 1 := by simp [monoList]

theorem evalQuadrature_map {A B : Type} (f : B → ℝ) (g : A → B) (r : List (A × ℝ)) :
    evalQuadrature f (r.map fun pw => (g pw.1, pw.2)) = evalQuadrature (fun a => f (g a)) r := by
  simp [evalQuadrature_eq, List.map_map, Function.comp_def]

theorem eval_eq_list {d : Nat} (P : MvPolynomial (Fin d) ℝ) (v : Fin d → ℝ) :
    P.eval v = (P.support.toList.map fun s => P.coeff s * ∏ i, v i ^ s i).sum := by
  rw [MvPolynomial.eval_eq', Finset.sum_map_toList]

theorem support_le {d m : Nat} {P : MvPolynomial (Fin d) ℝ} (h : ∀ i, P.degreeOf i ≤ m) {s} (hs : s ∈ P.support.toList)
    (i : Fin d) : s i ≤ m :=
  (MvPolynomial.monomial_le_degreeOf i (Finset.mem_toList.1 hs)).trans (h i)

/-- The rule of order `qo` integrates every polynomial of degree at most `qo` in each variable exactly. -/
theorem exact (t : ElType) (qo : Nat) (r : Rule1) (hr : IsReferenceRule qo r) (f : (Nat → ℝ) → ℝ) (hf : IsPoly t.dim qo f) :
    evalQuadrature f (elemRule t r) = refIntegral t f := by
  obtain ⟨P, hdeg, he⟩ := hf
  cases t with
  | line =>
    show evalQuadrature f (r.map fun pw => (coords1 pw.1, pw.2)) = ∫ x in (-1 : ℝ)..1, f (coords1 x)
    rw [evalQuadrature_map]
    have e : ∀ x : ℝ, f (coords1 x) =
        (P.support.toList.map fun s => evaluate (monoList (P.coeff s) (s (0 : Fin 1))) x).sum := by
      intro x
      rw [he, eval_eq_list]
      congr 1
      refine List.map_congr_left fun s _ => ?_
      rw [monoList_eval]
      exact congrArg _ (Fin.prod_univ_one _)
    simp only [e]
    rw [evalQuadrature_sum, integral_list_sum _ _ fun s _ => evaluate_continuous _]
    congr 1
    refine List.map_congr_left fun s hs => ?_
    exact (C66_line qo r hr _ (by rw [monoList_length]; exact Nat.succ_le_succ (support_le hdeg hs (0 : Fin 1)))).2
  | quad =>
    show evalQuadrature f ((quadRule r).map fun pw => (SumOp.coords2 pw.1, pw.2)) = _
    rw [evalQuadrature_map]
    have e : ∀ p : ℝ × ℝ, f (SumOp.coords2 p) =
        ((P.support.toList.map fun s => (monoList (P.coeff s) (s (0 : Fin 2)), monoList 1 (s (1 : Fin 2)))).map fun t =>
          evaluate t.1 p.1 * evaluate t.2 p.2).sum := by
      intro p
      rw [he, eval_eq_list, List.map_map]
      congr 1
      refine List.map_congr_left fun s _ => ?_
      simp only [Function.comp, monoList_eval, one_mul]
      rw [mul_assoc]
      exact congrArg _ (Fin.prod_univ_two _)
    simp only [e]
    rw [C66_quad qo r hr]
    · show _ = ∫ x in (-1 : ℝ)..1, ∫ y in (-1 : ℝ)..1, f (SumOp.coords2 (x, y))
      simp only [e]
    · intro u hu
      obtain ⟨s, hs, rfl⟩ := List.mem_map.1 hu
      simp only [monoList_length]
      exact ⟨Nat.succ_le_succ (support_le hdeg hs (0 : Fin 2)), Nat.succ_le_succ (support_le hdeg hs (1 : Fin 2))⟩
  | hex =>
    show evalQuadrature f ((hexRule r).map fun pw => (SumOp.coords3 pw.1, pw.2)) = _
    rw [evalQuadrature_map]
    have e : ∀ p : ℝ × ℝ × ℝ, f (SumOp.coords3 p) =
        ((P.support.toList.map fun s =>
          (monoList (P.coeff s) (s (0 : Fin 3)), monoList 1 (s (1 : Fin 3)), monoList 1 (s (2 : Fin 3)))).map fun t =>
          evaluate t.1 p.1 * evaluate t.2.1 p.2.1 * evaluate t.2.2 p.2.2).sum := by
      intro p
      rw [he, eval_eq_list, List.map_map]
      congr 1
      refine List.map_congr_left fun s _ => ?_
      simp only [Function.comp, monoList_eval, one_mul]
      rw [mul_assoc, mul_assoc]
      refine congrArg _ ((Fin.prod_univ_three _).trans ?_)
      rw [mul_assoc]
      rfl
    simp only [e]
    rw [C66_hex qo r hr]
    · show _ = ∫ x in (-1 : ℝ)..1, ∫ y in (-1 : ℝ)..1, ∫ z in (-1 : ℝ)..1, f (SumOp.coords3 (x, y, z))
      simp only [e]
    · intro u hu
      obtain ⟨s, hs, rfl⟩ := List.mem_map.1 hu
      simp only [monoList_length]
      exact ⟨Nat.succ_le_succ (support_le hdeg hs (0 : Fin 3)), Nat.succ_le_succ (support_le hdeg hs (1 : Fin 3)),
        Nat.succ_le_succ (support_le hdeg hs (2 : Fin 3))⟩

/-! ## Basis functions -/

theorem linePoly_length (n : Nat) (x : Nat → ℝ) (i : Nat) : (Basis.linePoly n x i).length = n := by
  simp [Basis.linePoly, lagrangeInterp, Poly.toList]

theorem der_length_le (l : List ℝ) (m : Nat) (h : l.length ≤ m + 1) : (derivative l).length ≤ m + 1 := by
  by_cases h2 : 2 ≤ l.length
  · rw [length_derivative l h2]; omega
  · match l, h2 with
    | [], _ => simp [derivative, derCoefs]
    | [a], _ => simp [derivative, derCoefs]
    | a :: b :: l, h2 => simp at h2

theorem line_poly (d m k : Nat) (hk : k < d) (x : Nat → ℝ) (j : Nat) : IsPoly d m fun p => Basis.line (m + 1) x j (p k) :=
  IsPoly.coord d m k hk _ (by rw [linePoly_length])

theorem lineDer_poly (d m k : Nat) (hk : k < d) (x : Nat → ℝ) (j : Nat) : IsPoly d m fun p => Basis.lineDer (m + 1) x j (p k) :=
  IsPoly.coord d m k hk _ (der_length_le _ _ (by rw [linePoly_length]))

/-- `f` has degree at most `m i` in the variable `i`. -/
def IsPolyV (d : Nat) (m : Fin d → Nat) (f : (Nat → ℝ) → ℝ) : Prop :=
  ∃ P : MvPolynomial (Fin d) ℝ, (∀ i, P.degreeOf i ≤ m i) ∧ ∀ p, f p = P.eval fun i : Fin d => p i

theorem IsPolyV.mul {d : Nat} {m k : Fin d → Nat} {f g} (hf : IsPolyV d m f) (hg : IsPolyV d k g) :
    IsPolyV d (fun i => m i + k i) fun p => f p * g p := by
  obtain ⟨P, h1, h2⟩ := hf
  obtain ⟨Q, k1, k2⟩ := hg
  refine ⟨P * Q, fun i => (MvPolynomial.degreeOf_mul_le i P Q).trans (Nat.add_le_add (h1 i) (k1 i)), fun p => ?_⟩
  beta_reduce
  rw [h2, k2, map_mul]

theorem IsPolyV.toIsPoly {d : Nat} {m : Fin d → Nat} {f} (h : IsPolyV d m f) {k : Nat} (hk : ∀ i, m i ≤ k) : IsPoly d k f := by
  obtain ⟨P, h1, h2⟩ := h
  exact ⟨P, fun i => (h1 i).trans (hk i), h2⟩

theorem IsPolyV.coord (d m k : Nat) (hk : k < d) (c : List ℝ) (hc : c.length ≤ m + 1) :
    IsPolyV d (fun i => if i.val = k then m else 0) fun p => evaluate c (p k) := by
  have e : ∀ x : ℝ, evaluate c x = ∑ i ∈ range (m + 1), (toPoly c).coeff i * x ^ i := by
    intro x
    rw [evaluate_eq, Polynomial.eval_eq_sum_range' (n := m + 1)]
    by_cases h0 : toPoly c = 0
    · simp [h0]
    · have := toPoly_degree_lt c
      rw [Polynomial.degree_eq_natDegree h0] at this
      have : (toPoly c).natDegree < c.length := by exact_mod_cast this
      omega
  refine ⟨∑ i ∈ range (m + 1), MvPolynomial.C ((toPoly c).coeff i) * MvPolynomial.X ⟨k, hk⟩ ^ i, fun j => ?_, fun p => ?_⟩
  · refine (MvPolynomial.degreeOf_sum_le j _ _).trans ?_
    refine Finset.sup_le fun i hi => ?_
    have hi' : i ≤ m := by simpa [Nat.lt_succ_iff] using hi
    refine (MvPolynomial.degreeOf_C_mul_le _ j _).trans ?_
    refine (MvPolynomial.degreeOf_pow_le j _ i).trans ?_
    rw [MvPolynomial.degreeOf_X]
    by_cases hj : j = ⟨k, hk⟩
    · subst hj; simpa using hi'
    · rw [if_neg hj]; simp
  · beta_reduce
    rw [e]; simp

theorem IsPolyV.mono {d : Nat} {m k : Fin d → Nat} {f} (h : IsPolyV d m f) (hk : ∀ i, m i ≤ k i) : IsPolyV d k f := by
  obtain ⟨P, h1, h2⟩ := h
  exact ⟨P, fun i => (h1 i).trans (hk i), h2⟩

theorem lineV (d m k : Nat) (hk : k < d) (x : Nat → ℝ) (j : Nat) :
    IsPolyV d (fun i => if i.val = k then m else 0) fun p => Basis.line (m + 1) x j (p k) :=
  IsPolyV.coord d m k hk _ (by rw [linePoly_length])

theorem lineDerV (d m k : Nat) (hk : k < d) (x : Nat → ℝ) (j : Nat) :
    IsPolyV d (fun i => if i.val = k then m else 0) fun p => Basis.lineDer (m + 1) x j (p k) :=
  IsPolyV.coord d m k hk _ (der_length_le _ _ (by rw [linePoly_length]))

theorem mul2 {m : Nat} {f g : (Nat → ℝ) → ℝ} (hf : IsPolyV 2 (fun i => if i.val = 0 then m else 0) f)
    (hg : IsPolyV 2 (fun i => if i.val = 1 then m else 0) g) : IsPoly 2 m fun p => f p * g p :=
  (hf.mul hg).toIsPoly fun i => by fin_cases i <;> simp

theorem mul3 {m : Nat} {f g h : (Nat → ℝ) → ℝ} (hf : IsPolyV 3 (fun i => if i.val = 0 then m else 0) f)
    (hg : IsPolyV 3 (fun i => if i.val = 1 then m else 0) g) (hh : IsPolyV 3 (fun i => if i.val = 2 then m else 0) h) :
    IsPoly 3 m fun p => f p * g p * h p :=
  ((hf.mul hg).mul hh).toIsPoly fun i => by fin_cases i <;> simp

theorem basis_poly (t : ElType) (m : Nat) (x : Nat → ℝ) (i : Nat) : IsPoly t.dim m (basisFun t (m + 1) x i) := by
  cases t with
  | line => exact line_poly 1 m 0 (by decide) x i
  | quad => exact mul2 (lineV 2 m 0 (by decide) x _) (lineV 2 m 1 (by decide) x _)
  | hex => exact mul3 (lineV 3 m 0 (by decide) x _) (lineV 3 m 1 (by decide) x _) (lineV 3 m 2 (by decide) x _)

theorem basisDer_poly (t : ElType) (m : Nat) (x : Nat → ℝ) (d i : Nat) : IsPoly t.dim m (basisDer t (m + 1) x d i) := by
  cases t with
  | line => exact lineDer_poly 1 m 0 (by decide) x i
  | quad =>
    match d with
    | 0 => exact mul2 (lineDerV 2 m 0 (by decide) x _) (lineV 2 m 1 (by decide) x _)
    | d + 1 => exact mul2 (lineV 2 m 0 (by decide) x _) (lineDerV 2 m 1 (by decide) x _)
  | hex =>
    match d with
    | 0 => exact mul3 (lineDerV 3 m 0 (by decide) x _) (lineV 3 m 1 (by decide) x _) (lineV 3 m 2 (by decide) x _)
    | 1 => exact mul3 (lineV 3 m 0 (by decide) x _) (lineDerV 3 m 1 (by decide) x _) (lineV 3 m 2 (by decide) x _)
    | d + 2 => exact mul3 (lineV 3 m 0 (by decide) x _) (lineV 3 m 1 (by decide) x _) (lineDerV 3 m 2 (by decide) x _)

/-- On a segment a derivative has one degree less. -/
theorem basisDer_poly_line (m : Nat) (x : Nat → ℝ) (d i : Nat) : IsPoly 1 (m - 1) (basisDer .line (m + 1) x d i) := by
  refine IsPoly.coord 1 (m - 1) 0 (by decide) _ ?_
  by_cases h : 1 ≤ m
  · rw [length_derivative _ (by rw [linePoly_length]; omega), linePoly_length]; omega
  · have : m = 0 := by omega
    subst this
    exact der_length_le _ 0 (by rw [linePoly_length])

end Verif.AsmOrd
