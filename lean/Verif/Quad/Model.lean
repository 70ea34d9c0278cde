import Verif.Poly.Model
import Mathlib.Analysis.Real.Sqrt
import Mathlib.Algebra.BigOperators.Fin

/-!
# Model of Gauss quadrature

Sources: `/repo/include/l3ster/math/ComputeGaussRule.hpp` 25-61, `quad/ReferenceQuadrature.hpp` 13-51,
`quad/GenerateQuadrature.hpp` 12-78, `quad/EvalQuadrature.hpp` 40-56.

Arithmetic is exact.  `Eigen::SelfAdjointEigenSolver` is a contract (`IsEigen`): for a symmetric matrix it
returns the eigenvalues in increasing order and an orthonormal basis of eigenvectors.
-/
namespace Verif.Quad
open Verif.Poly

/-- `beta`, ComputeGaussRule.hpp 39. -/
noncomputable def beta (a c : Nat → ℝ) (n : Nat) : ℝ := Real.sqrt (c (n + 1) / (a n * a (n + 1)))

/-- Entries of `J`, 33-44: each entry is assigned at most once. -/
noncomputable def jacobi (a b c : Nat → ℝ) (r s : Nat) : ℝ :=
  if r = s then -b (r + 1) / a (r + 1)
  else if r = s + 1 then beta a c (s + 1)
  else if s = r + 1 then beta a c (r + 1)
  else 0

/-- `eigen_solver.compute(J)`, 46-49: eigenvalues `ev k` and eigenvectors `V · k`. -/
structure IsEigen (n : Nat) (J : Nat → Nat → ℝ) (ev : Fin n → ℝ) (V : Fin n → Fin n → ℝ) : Prop where
  sorted : ∀ i j, i ≤ j → ev i ≤ ev j
  orthonormal : ∀ i j, ∑ r, V r i * V r j = if i = j then 1 else 0
  eigen : ∀ (r k : Fin n), ∑ s : Fin n, J r s * V s k = ev k * V r k

/-- A one-dimensional rule: points and weights. (the pair returned by ComputeGaussRule.hpp 25-61) -/
abbrev Rule1 := List (ℝ × ℝ)

/-- The points and weights, 51-58. -/
def gaussRule {n : Nat} (ev : Fin (n + 1) → ℝ) (V : Fin (n + 1) → Fin (n + 1) → ℝ) : Rule1 :=
  (List.finRange (n + 1)).map fun i => (ev i, 2 * V 0 i * V 0 i)

/-- `getRefQuadSize` for Gauss–Legendre, ReferenceQuadrature.hpp 13-22. -/
def refQuadSize (qo : Nat) : Nat := qo / 2 + 1

/-- `getReferenceQuadrature<GaussLegendre, QO>`, 24-51: the possible results (one per possible answer of
the eigenvalue solver). -/
def IsReferenceRule (qo : Nat) (r : Rule1) : Prop :=
  ∃ (ev : Fin (qo / 2 + 1) → ℝ) (V : Fin (qo / 2 + 1) → Fin (qo / 2 + 1) → ℝ),
    IsEigen (refQuadSize qo) (jacobi lcA (fun _ => 0) lcC) ev V ∧ r = gaussRule ev V

/-- `getQuadrature` for quads, GenerateQuadrature.hpp 18-46. -/
def quadRule (r : Rule1) : List ((ℝ × ℝ) × ℝ) :=
  r.flatMap fun p => r.map fun q => ((p.1, q.1), p.2 * q.2)

/-- `getQuadrature` for hexes, 48-78. -/
def hexRule (r : Rule1) : List ((ℝ × ℝ × ℝ) × ℝ) :=
  r.flatMap fun p => r.flatMap fun q => r.map fun s => ((p.1, q.1, s.1), p.2 * q.2 * s.2)

/-- `evalQuadrature(fun, quad)`, EvalQuadrature.hpp 40-56 and 62-76: sum of value times weight (the first
may associate the sum differently; the arithmetic here is exact). -/
def evalQuadrature {A : Type} (f : A → ℝ) (rule : List (A × ℝ)) : ℝ :=
  rule.foldl (fun acc pw => acc + f pw.1 * pw.2) 0

end Verif.Quad
