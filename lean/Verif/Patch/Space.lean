import Verif.Patch.Props
import Mathlib.Algebra.MvPolynomial.Degrees
import Mathlib.Algebra.MvPolynomial.Eval
import Mathlib.Algebra.MvPolynomial.Monad
import Mathlib.Algebra.BigOperators.Ring.Finset
import Mathlib.Algebra.Polynomial.Degree.Operations

/-!
# C109: what the finite element space contains
-/
namespace Verif.Patch
open Verif.Elem Verif.Mapping Verif.Basis Finset

/-- A polynomial of degree below `n` in each coordinate of the reference element. -/
def PolyOn {d : Nat} (n : Nat) (f : (Fin d → ℝ) → ℝ) : Prop :=
  ∃ ts : List (ℝ × (Fin d → Fin n)), ∀ q ∈ cube d, f q = (ts.map fun m => m.1 * ∏ k, q k ^ (m.2 k : Nat)).sum

theorem PolyOn.add {d n : Nat} {f g : (Fin d → ℝ) → ℝ} (hf : PolyOn n f) (hg : PolyOn n g) : PolyOn n fun q => f q + g q := by
  obtain ⟨a, ha⟩ := hf
  obtain ⟨b, hb⟩ := hg
  exact ⟨a ++ b, fun q hq => by rw [List.map_append, List.sum_append, ← ha q hq, ← hb q hq]⟩

theorem PolyOn.smul {d n : Nat} {f : (Fin d → ℝ) → ℝ} (c : ℝ) (hf : PolyOn n f) : PolyOn n fun q => c * f q := by
  obtain ⟨a, ha⟩ := hf
  refine ⟨a.map fun m => (c * m.1, m.2), fun q hq => ?_⟩
  beta_reduce
  rw [ha q hq, List.map_map, ← List.sum_map_mul_left]
  exact congrArg List.sum (List.map_congr_left fun m _ => by simp [mul_assoc])

theorem PolyOn.zero {d n : Nat} : PolyOn n fun _ : Fin d → ℝ => (0 : ℝ) := ⟨[], fun _ _ => rfl⟩

theorem PolyOn.sum {d n : Nat} {A : Type} (s : Finset A) {f : A → (Fin d → ℝ) → ℝ} (h : ∀ a ∈ s, PolyOn n (f a)) : PolyOn n fun q => ∑ a ∈ s, f a q := by
  classical
  induction s using Finset.induction_on with
  | empty => simpa using PolyOn.zero
  | insert a s ha ih =>
    have := (h a (mem_insert_self _ _)).add (ih fun b hb => h b (mem_insert_of_mem hb))
    simpa only [sum_insert ha] using this

theorem PolyOn.congr {d n : Nat} {f g : (Fin d → ℝ) → ℝ} (hf : PolyOn n f) (h : ∀ q ∈ cube d, g q = f q) : PolyOn n g := by
  obtain ⟨a, ha⟩ := hf
  exact ⟨a, fun q hq => by rw [h q hq, ha q hq]⟩

theorem PolyOn.tensor {d n : Nat} (c : Fin d → Fin n → ℝ) : PolyOn n fun q : Fin d → ℝ => ∏ k, ∑ m : Fin n, c k m * q k ^ (m : Nat) := by
  classical
  refine ⟨(univ : Finset (Fin d → Fin n)).toList.map fun p => (∏ k, c k (p k), p), fun q _ => ?_⟩
  beta_reduce
  rw [List.map_map, Finset.sum_map_toList, Finset.prod_univ_sum]
  simp only [Fintype.piFinset_univ]
  exact sum_congr rfl fun p _ => by simp [prod_mul_distrib]

theorem PolyOn.mv {d n : Nat} (P : MvPolynomial (Fin d) ℝ) (h : ∀ k, P.degreeOf k < n) : PolyOn n fun q => MvPolynomial.eval q P := by
  refine PolyOn.congr (f := fun q => ∑ m ∈ P.support.attach, P.coeff m.1 * ∏ k, q k ^ m.1 k) ?_ fun q _ => ?_
  · refine PolyOn.sum _ fun m _ => PolyOn.smul _ ?_
    have hk : ∀ k, m.1 k < n := fun k => lt_of_le_of_lt (MvPolynomial.monomial_le_degreeOf k m.2) (h k)
    exact ⟨[(1, fun k => ⟨m.1 k, hk k⟩)], fun q _ => by simp⟩
  · rw [MvPolynomial.eval_eq', sum_attach P.support fun m => P.coeff m * ∏ k, q k ^ m k]

/-- A polynomial in one variable with its coefficients listed up to degree `n`. -/
theorem poly_coeffs {n : Nat} (P : Polynomial ℝ) (h : P.natDegree < n) (s : ℝ) : P.eval s = ∑ m : Fin n, P.coeff m * s ^ (m : Nat) := by
  rw [Polynomial.eval_eq_sum_range' h, Fin.sum_univ_eq_sum_range fun m => P.coeff m * s ^ m]

theorem tensor_poly {d n : Nat} (P : Fin d → Polynomial ℝ) (h : ∀ k, (P k).natDegree < n) : PolyOn n fun q : Fin d → ℝ => ∏ k, (P k).eval (q k) :=
  (PolyOn.tensor fun k m => (P k).coeff m).congr fun q _ => prod_congr rfl fun k _ => poly_coeffs (P k) (h k) (q k)

open Polynomial in
/-- The shape functions along one direction. -/
noncomputable def ell (b : Nat) : Polynomial ℝ := if b = 0 then C (1 / 2) - C (1 / 2) * X else C (1 / 2) + C (1 / 2) * X

theorem ell_eval (b : Nat) (hb : b < 2) (s : ℝ) : (ell b).eval s = line 2 absc1 b s := by
  have : b = 0 ∨ b = 1 := by omega
  rcases this with rfl | rfl
  · rw [line_two_zero]; simp [ell]; ring
  · rw [line_two_one]; simp [ell]; ring

theorem ell_degree (b : Nat) {n : Nat} (hn : 2 ≤ n) : (ell b).natDegree < n := by
  refine lt_of_le_of_lt (b := 1) ?_ (by omega)
  unfold ell
  split <;> compute_degree

/-- The shape function of vertex `v` as a product. -/
theorem shape_prod (t : ElType) (v : Nat) (hv : v < nVerts t) (q : Fin t.dim → ℝ) :
    shape t v (emb q) = ∏ k : Fin t.dim, (ell (v / 2 ^ (k : Nat) % 2)).eval (q k) := by
  have he : ∀ k : Fin t.dim, (ell (v / 2 ^ (k : Nat) % 2)).eval (q k) = line 2 absc1 (v / 2 ^ (k : Nat) % 2) (q k) := fun k =>
    ell_eval _ (Nat.mod_lt _ (by decide)) _
  rw [prod_congr rfl fun k _ => he k]
  cases t with
  | line =>
    change v < 2 at hv
    change Fin 1 → ℝ at q
    show line 2 absc1 v (emb q 0) = ∏ k : Fin 1, line 2 absc1 (v / 2 ^ (k : Nat) % 2) (q k)
    rw [Fin.prod_univ_one, Fin.val_zero, pow_zero, Nat.div_one, Nat.mod_eq_of_lt hv]
    rfl
  | quad =>
    change v < 4 at hv
    change Fin 2 → ℝ at q
    show line 2 absc1 (v % 2) (emb q 0) * line 2 absc1 (v / 2) (emb q 1) = ∏ k : Fin 2, line 2 absc1 (v / 2 ^ (k : Nat) % 2) (q k)
    rw [Fin.prod_univ_two, Fin.val_zero, Fin.val_one, pow_zero, pow_one, Nat.div_one, Nat.mod_eq_of_lt (show v / 2 < 2 by omega)]
    rfl
  | hex =>
    change v < 8 at hv
    change Fin 3 → ℝ at q
    show line 2 absc1 (v % (2 * 2) % 2) (emb q 0) * line 2 absc1 (v % (2 * 2) / 2) (emb q 1) * line 2 absc1 (v / (2 * 2)) (emb q 2) =
      ∏ k : Fin 3, line 2 absc1 (v / 2 ^ (k : Nat) % 2) (q k)
    rw [Fin.prod_univ_three, Fin.val_zero, Fin.val_one, Fin.val_two, pow_zero, pow_one, Nat.div_one, show v % (2 * 2) % 2 = v % 2 by omega,
      show v % (2 * 2) / 2 = v / 2 % 2 by omega, show v / 2 ^ 2 % 2 = v / (2 * 2) by omega]
    rfl

theorem phys_poly (t : ElType) (n : Nat) (hn : 2 ≤ n) (vert : Nat → Nat → ℝ) (k : Fin t.dim) : PolyOn n fun q => phys t vert q k := by
  refine PolyOn.congr (f := fun q => ∑ v ∈ range (nVerts t), vert v k * shape t v (emb q)) (PolyOn.sum _ fun v hv => PolyOn.smul _ ?_) fun q _ => ?_
  · exact (tensor_poly _ fun k => ell_degree (v / 2 ^ (k : Nat) % 2) hn).congr fun q _ => shape_prod t v (mem_range.1 hv) q
  · show mapToPhysical t vert (emb q) k = _
    rw [mapToPhysical, valueAt, list_range_sum]

theorem PolyOn.one {d n : Nat} (hn : 0 < n) : PolyOn n fun _ : Fin d → ℝ => (1 : ℝ) := ⟨[(1, fun _ => ⟨0, hn⟩)], fun q _ => by simp⟩

/-- **C109** (every element): linear functions of the physical coordinates belong to the space of every element of order at least one, however
distorted.  With `C109_exact`: linear solutions are reproduced exactly on every mesh. -/
theorem C109_linear (t : ElType) (n : Nat) (hn : 2 ≤ n) (vert : Nat → Nat → ℝ) (a : Fin t.dim → ℝ) (b : ℝ) :
    InSpace t n vert fun y => (∑ k, a k * y k) + b :=
  ((PolyOn.sum univ fun k _ => (phys_poly t n hn vert k).smul (a k)).add ((PolyOn.one (by omega)).smul b)).congr fun q _ => by simp

/-- Corners of the image of the reference element under `q ↦ o + A q`. -/
noncomputable def affineVert (d : Nat) (o : Nat → ℝ) (A : Nat → Nat → ℝ) : Nat → Nat → ℝ :=
  fun i k => o k + ∑ j ∈ range d, A k j * absc1 (i / 2 ^ j % 2)

theorem affine_map (t : ElType) (o : Nat → ℝ) (A : Nat → Nat → ℝ) (q : Fin t.dim → ℝ) (k : Fin t.dim) :
    phys t (affineVert t.dim o A) q k = o k + ∑ j : Fin t.dim, A k j * q j := by
  show mapToPhysical t (affineVert t.dim o A) (emb q) k = _
  unfold mapToPhysical valueAt shape basisFun affineVert
  cases t with
  | line =>
    change Fin 1 → ℝ at q
    show _ = o k + ∑ j : Fin 1, A k j * q j
    generalize (k : Nat) = k'
    simp [nVerts, ElType.dim, List.range_succ, line_two_zero, line_two_one, absc1, emb]
    ring
  | quad =>
    change Fin 2 → ℝ at q
    show _ = o k + ∑ j : Fin 2, A k j * q j
    generalize (k : Nat) = k'
    simp [nVerts, ElType.dim, List.range_succ, sum_range_succ, Basis.quad, line_two_zero, line_two_one, absc1, emb]
    ring
  | hex =>
    change Fin 3 → ℝ at q
    show _ = o k + ∑ j : Fin 3, A k j * q j
    generalize (k : Nat) = k'
    simp [nVerts, ElType.dim, List.range_succ, sum_range_succ, Fin.sum_univ_three, Basis.hex, Basis.quad, line_two_zero, line_two_one, absc1, emb]
    ring

/-- **C109** (parallelograms and parallelepipeds): polynomials of total degree below `n` in the physical coordinates belong to the space. -/
theorem C109_affine (t : ElType) (n : Nat) (o : Nat → ℝ) (A : Nat → Nat → ℝ) (P : MvPolynomial (Fin t.dim) ℝ) (hP : P.totalDegree < n) :
    InSpace t n (affineVert t.dim o A) fun y => MvPolynomial.eval y P := by
  let L : Fin t.dim → MvPolynomial (Fin t.dim) ℝ := fun k => MvPolynomial.C (o k) + ∑ j : Fin t.dim, MvPolynomial.C (A k j) * MvPolynomial.X j
  have hL : ∀ k, (L k).totalDegree ≤ 1 := by
    intro k
    refine (MvPolynomial.totalDegree_add _ _).trans (max_le (by simp) ?_)
    refine MvPolynomial.totalDegree_finsetSum_le fun j _ => (MvPolynomial.totalDegree_mul _ _).trans ?_
    simp
  have hdeg : (MvPolynomial.bind₁ L P).totalDegree ≤ P.totalDegree := by
    rw [MvPolynomial.bind₁, MvPolynomial.aeval_def, MvPolynomial.eval₂_eq']
    refine MvPolynomial.totalDegree_finsetSum_le fun m hm => (MvPolynomial.totalDegree_mul _ _).trans ?_
    rw [show (algebraMap ℝ (MvPolynomial (Fin t.dim) ℝ)) (P.coeff m) = MvPolynomial.C (P.coeff m) from rfl, MvPolynomial.totalDegree_C, zero_add]
    refine (MvPolynomial.totalDegree_finset_prod _ _).trans ?_
    refine le_trans (sum_le_sum fun k _ => (MvPolynomial.totalDegree_pow _ _).trans (Nat.mul_le_mul_left _ (hL k))) ?_
    simp only [mul_one]
    have := MvPolynomial.le_totalDegree hm
    rwa [Finsupp.sum_fintype _ _ fun _ => rfl] at this
  refine (PolyOn.mv (MvPolynomial.bind₁ L P) fun k => ?_).congr fun q _ => ?_
  · exact lt_of_le_of_lt ((MvPolynomial.degreeOf_le_totalDegree _ _).trans hdeg) hP
  · rw [MvPolynomial.eval, MvPolynomial.eval₂Hom_bind₁]
    show MvPolynomial.eval _ P = MvPolynomial.eval _ P
    congr 2
    funext k
    rw [affine_map]
    simp [L]

/-- **C109** (boxes): products of polynomials of degree below `n`, one in each physical coordinate, belong to the space of axis-aligned boxes. -/
theorem C109_box (t : ElType) (n : Nat) (o h : Nat → ℝ) (P : Fin t.dim → Polynomial ℝ) (hP : ∀ k, (P k).natDegree < n) :
    InSpace t n (boxVert o h) fun y => ∏ k, (P k).eval (y k) := by
  have hmap : ∀ (q : Fin t.dim → ℝ) (k : Fin t.dim), phys t (boxVert o h) q k = o k + h k * q k := by
    intro q k
    have e : ∀ i, i < nVerts t → ∀ k : Fin t.dim, boxVert o h i k = affineVert t.dim o (fun a b => if a = b then h a else 0) i k := by
      intro i _ k
      unfold boxVert affineVert
      rw [sum_eq_single (k : Nat) (fun b _ hb => by beta_reduce; rw [if_neg (Ne.symm hb), zero_mul]) fun hk => absurd (mem_range.2 k.2) hk]
      beta_reduce
      rw [if_pos rfl]
    have h1 : phys t (boxVert o h) q k = phys t (affineVert t.dim o (fun a b => if a = b then h a else 0)) q k := by
      show mapToPhysical _ _ _ _ = mapToPhysical _ _ _ _
      unfold mapToPhysical valueAt
      rw [list_range_sum, list_range_sum]
      exact sum_congr rfl fun i hi => by beta_reduce; rw [e i (mem_range.1 hi) k]
    rw [h1, affine_map]
    congr 1
    rw [sum_eq_single k (fun b _ hb => by rw [if_neg (fun e => hb (Fin.ext e.symm)), zero_mul]) (by simp), if_pos rfl]
  refine (tensor_poly (fun k => (P k).comp (Polynomial.C (o k) + Polynomial.C (h k) * Polynomial.X)) fun k => ?_).congr fun q _ => ?_
  · refine lt_of_le_of_lt Polynomial.natDegree_comp_le (lt_of_le_of_lt ?_ (hP k))
    refine (Nat.mul_le_mul_left _ (?_ : _ ≤ 1)).trans (by simp)
    compute_degree
  · exact prod_congr rfl fun k _ => by rw [hmap, Polynomial.eval_comp]; simp

/-- Sums and multiples stay in the space. -/
theorem C109_space_linear (t : ElType) (n : Nat) (vert : Nat → Nat → ℝ) (f g : (Fin t.dim → ℝ) → ℝ) (hf : InSpace t n vert f) (hg : InSpace t n vert g)
    (a b : ℝ) : InSpace t n vert fun y => a * f y + b * g y :=
  (PolyOn.smul a hf).add (PolyOn.smul b hg)

end Verif.Patch
