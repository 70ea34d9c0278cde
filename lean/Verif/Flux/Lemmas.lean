import Verif.Flux.Model
import Verif.Mapping.Sides
import Verif.Mapping.Box
import Verif.Quad.Props
import Verif.AsmOrd.Props
import Mathlib.Analysis.SpecialFunctions.Integrals.Basic
import Mathlib.Algebra.Polynomial.Derivative

/-!
# Lemmas: one-dimensional polynomials along the lines of the reference element
-/
namespace Verif.Flux
open Verif.Elem Verif.Mapping Verif.Quad Verif.Poly Verif.Basis Polynomial

/-- `f` is a polynomial of degree at most `m` and `f'` its derivative. -/
def PolyDer (m : Nat) (f f' : ℝ → ℝ) : Prop :=
  ∃ P : ℝ[X], P.natDegree ≤ m ∧ (∀ t, f t = P.eval t) ∧ ∀ t, f' t = P.derivative.eval t

theorem PolyDer.congr {m : Nat} {f f' g g' : ℝ → ℝ} (h : PolyDer m f f') (e : ∀ t, g t = f t) (e' : ∀ t, g' t = f' t) : PolyDer m g g' := by
  obtain ⟨P, h1, h2, h3⟩ := h
  exact ⟨P, h1, fun t => (e t).trans (h2 t), fun t => (e' t).trans (h3 t)⟩

theorem PolyDer.mono {m k : Nat} {f f' : ℝ → ℝ} (h : PolyDer m f f') (hm : m ≤ k) : PolyDer k f f' := by
  obtain ⟨P, h1, h2⟩ := h; exact ⟨P, h1.trans hm, h2⟩

theorem PolyDer.const (c : ℝ) : PolyDer 0 (fun _ => c) fun _ => 0 := ⟨C c, by simp, by simp, by simp⟩

theorem PolyDer.affine (c d : ℝ) : PolyDer 1 (fun t => c + d * t) fun _ => d :=
  ⟨C c + C d * X, by compute_degree, by simp, by simp⟩

theorem PolyDer.add {m : Nat} {f f' g g' : ℝ → ℝ} (hf : PolyDer m f f') (hg : PolyDer m g g') :
    PolyDer m (fun t => f t + g t) fun t => f' t + g' t := by
  obtain ⟨P, p1, p2, p3⟩ := hf
  obtain ⟨R, q1, q2, q3⟩ := hg
  exact ⟨P + R, (natDegree_add_le _ _).trans (max_le p1 q1), fun t => by simp [p2, q2], fun t => by simp [p3, q3]⟩

theorem PolyDer.sub {m : Nat} {f f' g g' : ℝ → ℝ} (hf : PolyDer m f f') (hg : PolyDer m g g') :
    PolyDer m (fun t => f t - g t) fun t => f' t - g' t := by
  obtain ⟨P, p1, p2, p3⟩ := hf
  obtain ⟨R, q1, q2, q3⟩ := hg
  exact ⟨P - R, (natDegree_sub_le _ _).trans (max_le p1 q1), fun t => by simp [p2, q2], fun t => by simp [p3, q3]⟩

theorem PolyDer.mul {m k : Nat} {f f' g g' : ℝ → ℝ} (hf : PolyDer m f f') (hg : PolyDer k g g') :
    PolyDer (m + k) (fun t => f t * g t) fun t => f' t * g t + f t * g' t := by
  obtain ⟨P, p1, p2, p3⟩ := hf
  obtain ⟨R, q1, q2, q3⟩ := hg
  exact ⟨P * R, natDegree_mul_le.trans (add_le_add p1 q1), fun t => by simp [p2, q2], fun t => by simp [p2, q2, p3, q3]⟩

theorem PolyDer.cmul {m : Nat} {f f' : ℝ → ℝ} (c : ℝ) (hf : PolyDer m f f') : PolyDer m (fun t => c * f t) fun t => c * f' t := by
  have := (PolyDer.const c).mul hf
  rw [Nat.zero_add] at this
  exact this.congr (fun _ => rfl) fun _ => by ring

theorem PolyDer.sum {m : Nat} {ι : Type} (s : Finset ι) {f f' : ι → ℝ → ℝ} (h : ∀ i ∈ s, PolyDer m (f i) (f' i)) :
    PolyDer m (fun t => ∑ i ∈ s, f i t) fun t => ∑ i ∈ s, f' i t := by
  classical
  induction s using Finset.induction_on with
  | empty => simpa using (PolyDer.const 0).mono (Nat.zero_le m)
  | insert a s ha ih =>
    have := (h a (by simp)).add (ih fun i hi => h i (by simp [hi]))
    exact this.congr (fun t => by rw [Finset.sum_insert ha]) fun t => by rw [Finset.sum_insert ha]

theorem line_polyDer (m : Nat) (x : Nat → ℝ) (j : Nat) : PolyDer m (line (m + 1) x j) (lineDer (m + 1) x j) := by
  refine ⟨toPoly (linePoly (m + 1) x j), ?_, fun t => evaluate_eq _ _, fun t => ?_⟩
  · have h := toPoly_degree_le (linePoly (m + 1) x j) (m + 1) (by rw [AsmOrd.linePoly_length])
    exact Nat.lt_succ_iff.1 (by
      rcases eq_or_ne (toPoly (linePoly (m + 1) x j)) 0 with h0 | h0
      · rw [h0]; simp
      · exact (natDegree_lt_iff_degree_lt h0).2 h)
  · rw [lineDer, ← toPoly_derivative]; exact evaluate_eq _ _

/-! ## Rules -/

/-- The weighted sum of a function of one variable. -/
noncomputable def Q (r : Rule1) (f : ℝ → ℝ) : ℝ := (r.map fun pw => f pw.1 * pw.2).sum

theorem Q_congr {r : Rule1} {f g : ℝ → ℝ} (h : ∀ pw ∈ r, f pw.1 = g pw.1) : Q r f = Q r g := by
  unfold Q; congr 1; exact List.map_congr_left fun pw hp => by rw [h pw hp]

theorem Q_add (r : Rule1) (f g : ℝ → ℝ) : Q r (fun a => f a + g a) = Q r f + Q r g := by
  unfold Q; induction r with
  | nil => simp
  | cons a r ih => simp only [List.map_cons, List.sum_cons, ih]; ring

theorem Q_sub (r : Rule1) (f g : ℝ → ℝ) : Q r (fun a => f a - g a) = Q r f - Q r g := by
  unfold Q; induction r with
  | nil => simp
  | cons a r ih => simp only [List.map_cons, List.sum_cons, ih]; ring

theorem Q_mul (r : Rule1) (f : ℝ → ℝ) (c : ℝ) : Q r (fun a => f a * c) = Q r f * c := by
  unfold Q; induction r with
  | nil => simp
  | cons a r ih => simp only [List.map_cons, List.sum_cons, ih]; ring

theorem Q_comm_aux (r r' : Rule1) (f : ℝ → ℝ → ℝ) : Q r (fun a => Q r' fun b => f a b) = Q r' fun b => Q r fun a => f a b := by
  induction r with
  | nil => unfold Q; simp
  | cons p r ih =>
    have e : ∀ g : ℝ → ℝ, Q (p :: r) g = g p.1 * p.2 + Q r g := fun g => by unfold Q; simp
    rw [e, ih]
    simp only [e]
    rw [Q_add, Q_mul]

theorem Q_comm (r : Rule1) (f : ℝ → ℝ → ℝ) : Q r (fun a => Q r fun b => f a b) = Q r fun b => Q r fun a => f a b := Q_comm_aux r r f

theorem quadRule_sum (r : Rule1) (f : ℝ × ℝ → ℝ) : ((quadRule r).map fun pw => f pw.1 * pw.2).sum = Q r fun a => Q r fun b => f (a, b) := by
  have : ∀ l : Rule1, ((l.flatMap fun p => r.map fun q => ((p.1, q.1), p.2 * q.2)).map fun pw => f pw.1 * pw.2).sum =
      Q l fun a => Q r fun b => f (a, b) := by
    intro l
    induction l with
    | nil => unfold Q; simp
    | cons p l ih =>
      rw [List.flatMap_cons, List.map_append, List.sum_append, ih]
      have e : ∀ g : ℝ → ℝ, Q (p :: l) g = g p.1 * p.2 + Q l g := fun g => by unfold Q; simp
      rw [e, List.map_map, ← Q_mul]
      congr 1
      unfold Q
      congr 1
      exact List.map_congr_left fun q _ => by simp only [Function.comp]; ring
  exact this r

theorem hexRule_sum (r : Rule1) (f : ℝ × ℝ × ℝ → ℝ) :
    ((hexRule r).map fun pw => f pw.1 * pw.2).sum = Q r fun a => Q r fun b => Q r fun c => f (a, b, c) := by
  have e2 : ∀ (p : ℝ × ℝ) (l : Rule1), ((l.flatMap fun q => r.map fun s => ((p.1, q.1, s.1), p.2 * q.2 * s.2)).map fun pw => f pw.1 * pw.2).sum =
      (Q l fun b => Q r fun c => f (p.1, b, c)) * p.2 := by
    intro p l
    induction l with
    | nil => unfold Q; simp
    | cons q l ih =>
      rw [List.flatMap_cons, List.map_append, List.sum_append, ih]
      have e : ∀ g : ℝ → ℝ, Q (q :: l) g = g q.1 * q.2 + Q l g := fun g => by unfold Q; simp
      rw [e, List.map_map, add_mul, ← Q_mul r _ q.2, ← Q_mul r _ p.2]
      refine congrArg₂ (· + ·) ?_ rfl
      unfold Q
      refine congrArg List.sum ?_
      exact List.map_congr_left fun q _ => by simp only [Function.comp]; ring
  have : ∀ l : Rule1, ((l.flatMap fun p => r.flatMap fun q => r.map fun s => ((p.1, q.1, s.1), p.2 * q.2 * s.2)).map fun pw => f pw.1 * pw.2).sum =
      Q l fun a => Q r fun b => Q r fun c => f (a, b, c) := by
    intro l
    induction l with
    | nil => unfold Q; simp
    | cons p l ih =>
      rw [List.flatMap_cons, List.map_append, List.sum_append, ih, e2]
      unfold Q; simp
  exact this r

theorem exact1 {qo : Nat} {r : Rule1} (hr : IsReferenceRule qo r) (P : ℝ[X]) (h : P.natDegree ≤ qo) :
    Q r (fun a => P.eval a) = ∫ a in (-1 : ℝ)..1, P.eval a := by
  obtain ⟨c, hc, he⟩ : ∃ c : List ℝ, c.length ≤ qo + 1 ∧ ∀ a, evaluate c a = P.eval a := by
    refine ⟨toList (qo + 1) fun k => P.coeff (qo - k), by simp [toList], fun a => ?_⟩
    rw [evaluate_eq, toPoly_of_coeff qo _ P h fun k _ => rfl]
  have := (C66_line qo r hr c hc).2
  rw [evalQuadrature_eq] at this
  simp only [he] at this
  exact this

/-- A rule of order `qo` applied to the derivative of a polynomial of degree `qo + 1` gives the difference of its end values. -/
theorem Q_der {qo : Nat} {r : Rule1} (hr : IsReferenceRule qo r) {f f' : ℝ → ℝ} (h : PolyDer (qo + 1) f f') : Q r f' = f 1 - f (-1) := by
  obtain ⟨P, h1, h2, h3⟩ := h
  rw [h2, h2, Q_congr (g := fun a => P.derivative.eval a) fun pw _ => h3 pw.1, exact1 hr _ ((natDegree_derivative_le P).trans (by omega))]
  exact intervalIntegral.integral_eq_sub_of_hasDerivAt (fun x _ => P.hasDerivAt x) (P.derivative.continuous.intervalIntegrable _ _)

/-- The rules do not see a reflection. -/
theorem Q_neg {qo : Nat} {r : Rule1} (hr : IsReferenceRule qo r) {f f' : ℝ → ℝ} (h : PolyDer qo f f') : Q r (fun a => f (-a)) = Q r f := by
  obtain ⟨P, h1, h2, _⟩ := h
  have e : ∀ a, f (-a) = (P.comp (-X)).eval a := fun a => by simp [h2]
  rw [Q_congr (f := f) (g := fun a => P.eval a) fun pw _ => h2 pw.1, Q_congr (g := fun a => (P.comp (-X)).eval a) fun pw _ => e pw.1, exact1 hr _ h1,
    exact1 hr _ (natDegree_comp_le.trans (by simpa using h1))]
  simp only [eval_comp, eval_neg, eval_X]
  have := intervalIntegral.integral_comp_neg (a := -1) (b := 1) fun x : ℝ => P.eval x
  simpa using this

end Verif.Flux
