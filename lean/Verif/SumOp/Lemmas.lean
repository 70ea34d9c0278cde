import Verif.SumOp.Model
import Verif.SumFact.Points
import Verif.Batch.Props
import Verif.Mapping.Jacobi

/-! Lemmas for C91. -/
namespace Verif.SumOp
open Finset Verif.SumFact Verif.Elem Verif.Mapping Verif.Basis Matrix

/-- Equation `e` of the operator applied to unknown `u` of node `I`, in reference derivatives. -/
noncomputable def resp {dim : Nat} (A : Nat → Nat → Nat → ℝ) (jinv : Matrix (Fin dim) (Fin dim) ℝ) (ψ : Fin (dim + 1) → Nat → ℝ) (I u e : Nat) : ℝ :=
  ψ 0 I * A 0 e u + ∑ d : Fin dim, (∑ k, jinv k d * ψ k.succ I) * A (d + 1) e u

theorem resp_eq {dim : Nat} (A : Nat → Nat → Nat → ℝ) (jinv : Matrix (Fin dim) (Fin dim) ℝ) (ψ : Fin (dim + 1) → Nat → ℝ) (I u e : Nat) :
    ∑ k, (Fin.cases (A 0) (fun k e u => ∑ d : Fin dim, A (d + 1) e u * jinv k d) k : Nat → Nat → ℝ) e u * ψ k I = resp A jinv ψ I u e := by
  rw [Fin.sum_univ_succ]
  simp only [Fin.cases_zero, Fin.cases_succ]
  unfold resp
  congr 1
  · ring
  · simp only [Finset.sum_mul]
    rw [Finset.sum_comm]
    refine Finset.sum_congr rfl fun d _ => Finset.sum_congr rfl fun k _ => ?_
    ring

/-- One quadrature point: testing the output rows gives the weighted least-squares product. -/
theorem point_identity {dim : Nat} (c : Cfg) (kern : Kern dim c.nfld) (jm : Matrix (Fin dim) (Fin dim) ℝ) (pt : Fin 3 → ℝ) (wgt : ℝ)
    (X : Nat → Nat → ℝ) (N : Nat) (ψ : Fin (dim + 1) → Nat → ℝ) (row : Fin (dim + 1) → Nat → ℝ)
    (hrow : ∀ k f, f < c.total → row k f = ∑ I ∈ range N, X f I * ψ k I) (I u r : Nat) (hu : u < c.nu) (hr : r < c.nrhs)
    (A : Nat → Nat → Nat → ℝ) (hA0 : kern ⟨fun i => ∑ b ∈ range N, X (c.nops + i) b * ψ 0 b,
      fun d i => ∑ b ∈ range N, (∑ k, jm⁻¹ k d * ψ k.succ b) * X (c.nops + i) b, pt⟩ = A) :
    ∑ k, evalQP c kern jm pt wgt row k (u + c.nu * r) * ψ k I =
      wgt * ∑ e ∈ range c.ne, resp A jm⁻¹ ψ I u e * ∑ J ∈ range N, ∑ v ∈ range c.nu, resp A jm⁻¹ ψ J v e * X (v + c.nu * r) J := by
  have hA : kern ⟨fun i => row 0 (c.nops + i), fun d i => ∑ k, jm⁻¹ k d * row k.succ (c.nops + i), pt⟩ = A := by
    rw [← hA0]
    congr 2
    · funext i
      rw [hrow 0 _ (by unfold Cfg.total; omega)]
    · funext d i
      simp only [hrow _ _ (show c.nops + i.1 < c.total by unfold Cfg.total; omega), Finset.mul_sum, Finset.sum_mul]
      rw [Finset.sum_comm]
      refine Finset.sum_congr rfl fun b _ => Finset.sum_congr rfl fun k _ => ?_
      ring
  have hmod : (u + c.nu * r) % c.nu = u := by rw [Nat.add_mul_mod_self_left, Nat.mod_eq_of_lt hu]
  have hdiv : (u + c.nu * r) / c.nu = r := by rw [Nat.add_mul_div_left _ _ (by omega), Nat.div_eq_of_lt hu, Nat.zero_add]
  have hlt : ∀ v < c.nu, v + c.nu * r < c.total := by
    intro v hv
    have := pair_lt hv hr
    unfold Cfg.total Cfg.nops
    rw [Nat.mul_comm c.nu c.nrhs]; omega
  unfold evalQP
  simp only [hA, hmod, hdiv]
  simp only [Finset.sum_mul]
  rw [Finset.sum_comm, Finset.mul_sum]
  refine Finset.sum_congr rfl fun e _ => ?_
  have ht : ∑ k, ∑ v ∈ range c.nu, (Fin.cases (A 0) (fun k e u => ∑ d : Fin dim, A (d + 1) e u * jm⁻¹ k d) k : Nat → Nat → ℝ) e v * row k (v + c.nu * r) =
      ∑ J ∈ range N, ∑ v ∈ range c.nu, resp A jm⁻¹ ψ J v e * X (v + c.nu * r) J := by
    rw [Finset.sum_comm, Finset.sum_comm (s := range N)]
    refine Finset.sum_congr rfl fun v hv => ?_
    have hv := Finset.mem_range.1 hv
    simp only [← resp_eq, hrow _ _ (hlt v hv), Finset.mul_sum, Finset.sum_mul]
    rw [Finset.sum_comm]
    refine Finset.sum_congr rfl fun J _ => Finset.sum_congr rfl fun k _ => ?_
    ring
  rw [ht]
  generalize ∑ J ∈ range N, ∑ v ∈ range c.nu, resp A jm⁻¹ ψ J v e * X (v + c.nu * r) J = T
  rw [← resp_eq, Finset.sum_mul, Finset.mul_sum]
  refine Finset.sum_congr rfl fun k _ => ?_
  ring

theorem list_sum_range {α : Type} (l : List α) (d : α) (f : α → ℝ) : (l.map f).sum = ∑ i ∈ range l.length, f (l.getD i d) := by
  induction l with
  | nil => simp
  | cons a l ih =>
    rw [List.map_cons, List.sum_cons, ih, List.length_cons, Finset.sum_range_succ']
    simp only [List.getD_cons_succ, List.getD_cons_zero]
    ring

theorem sum_flatMap' {α β : Type} (l : List α) (g : α → List β) (f : β → ℝ) : ((l.flatMap g).map f).sum = (l.map fun a => ((g a).map f).sum).sum := by
  induction l with
  | nil => simp
  | cons a l ih => simp [List.flatMap_cons, ih]

/-- Points and weights of a rule as functions of the index. -/
noncomputable def pts (rule : Quad.Rule1) (q : Nat) : ℝ := (rule.getD q (0, 0)).1
noncomputable def wts (rule : Quad.Rule1) (q : Nat) : ℝ := (rule.getD q (0, 0)).2

theorem sum_quadRule (rule : Quad.Rule1) (f : (ℝ × ℝ) × ℝ → ℝ) :
    ((Quad.quadRule rule).map f).sum = ∑ q ∈ range (rule.length * rule.length),
      f ((pts rule (q % rule.length), pts rule (q / rule.length)), wts rule (q % rule.length) * wts rule (q / rule.length)) := by
  rw [sum_grid rule.length rule.length fun i j => f ((pts rule i, pts rule j), wts rule i * wts rule j)]
  unfold Quad.quadRule
  rw [sum_flatMap', list_sum_range rule (0, 0), Finset.sum_comm]
  refine Finset.sum_congr rfl fun i _ => ?_
  rw [List.map_map, list_sum_range rule (0, 0)]
  rfl

theorem sum_hexRule (rule : Quad.Rule1) (f : (ℝ × ℝ × ℝ) × ℝ → ℝ) :
    ((Quad.hexRule rule).map f).sum = ∑ q ∈ range (rule.length * rule.length * rule.length),
      f ((pts rule (q % (rule.length * rule.length) % rule.length), pts rule (q % (rule.length * rule.length) / rule.length),
          pts rule (q / (rule.length * rule.length))),
        wts rule (q % (rule.length * rule.length) % rule.length) * wts rule (q % (rule.length * rule.length) / rule.length) *
          wts rule (q / (rule.length * rule.length))) := by
  rw [sum_grid (rule.length * rule.length) rule.length fun a k =>
    f ((pts rule (a % rule.length), pts rule (a / rule.length), pts rule k), wts rule (a % rule.length) * wts rule (a / rule.length) * wts rule k)]
  have h2 : ∀ k, ∑ a ∈ range (rule.length * rule.length),
      f ((pts rule (a % rule.length), pts rule (a / rule.length), pts rule k), wts rule (a % rule.length) * wts rule (a / rule.length) * wts rule k) =
      ∑ j ∈ range rule.length, ∑ i ∈ range rule.length, f ((pts rule i, pts rule j, pts rule k), wts rule i * wts rule j * wts rule k) := fun k =>
    sum_grid rule.length rule.length fun i j => f ((pts rule i, pts rule j, pts rule k), wts rule i * wts rule j * wts rule k)
  simp only [h2]
  unfold Quad.hexRule
  rw [sum_flatMap', list_sum_range rule (0, 0)]
  have h3 : ∀ i, ((rule.flatMap fun q => rule.map fun s => (((rule.getD i (0, 0)).1, q.1, s.1), (rule.getD i (0, 0)).2 * q.2 * s.2)).map f).sum =
      ∑ j ∈ range rule.length, ∑ k ∈ range rule.length, f ((pts rule i, pts rule j, pts rule k), wts rule i * wts rule j * wts rule k) := by
    intro i
    rw [sum_flatMap', list_sum_range rule (0, 0)]
    refine Finset.sum_congr rfl fun j _ => ?_
    rw [List.map_map, list_sum_range rule (0, 0)]
    rfl
  simp only [h3]
  rw [Finset.sum_congr rfl fun i _ => Finset.sum_comm, Finset.sum_comm]
  refine Finset.sum_congr rfl fun k _ => ?_
  rw [Finset.sum_comm]

/-- The 1D data read off a rule. -/
noncomputable def ofRule (x : Nat → ℝ) (rule : Quad.Rule1) (vert : Nat → Nat → ℝ) : Data := ⟨x, pts rule, wts rule, rule.length, vert⟩

end Verif.SumOp
