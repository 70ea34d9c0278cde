import Verif.Mapping.Jacobi
import Verif.Elem.Props
import Verif.SumOp.Model
import Verif.AsmOrd.Model

/-!
# Model of boundary integrals of finite element fields

Sources: `/repo/include/l3ster/post/Integral.hpp`, `basisfun/ReferenceElementBasisAtQuadrature.hpp`, `mapping/MapReferenceToPhysical.hpp`,
`algsys/AssembleLocalSystem.hpp`.  Exact real arithmetic; one scalar equation.
-/
namespace Verif.Flux
open Verif.Elem Verif.Mapping Verif.Quad Finset

noncomputable section

/-- The points and weights of the reference boundary, ReferenceElementBasisAtQuadrature.hpp 66-81: the rule of the line for quads, of the quad
for hexes, a single point of weight 1 for lines.  The zero appended there is added by `Mapping.pad`. -/
def sideRule (t : ElType) (r : Rule1) : List ((Fin (t.dim - 1) → ℝ) × ℝ) :=
  match t with
  | .line => [(fun _ => 0, 1)]
  | .quad => r.map fun pw => ((fun _ => pw.1 : Fin 1 → ℝ), pw.2)
  | .hex => (quadRule r).map fun pw => ((fun i => if i = 0 then pw.1.1 else pw.1.2 : Fin 2 → ℝ), pw.2)

/-- `compute_value_at_qp` of `evalElementBoundaryIntegral`, Integral.hpp 41-50 (`mapBoundary`, then `jacobian * kernel_result`), at the image of the
point `u` of the reference boundary; `none`: a side number past the tables.  The kernel sees the point and the normal. -/
def sideTerm (t : ElType) (vert : Nat → Nat → ℝ) (s : Nat) (kern : (Nat → ℝ) → (Fin t.dim → ℝ) → ℝ) (u : Fin (t.dim - 1) → ℝ) : Option ℝ :=
  (sidePoint t s u).bind fun p =>
    (boundaryNormal t s (jacobiMat t vert (emb p))).bind fun v =>
      (boundaryJacobian t s (jacobiMat t vert (emb p))).map fun m => m * kern (emb p) v

/-- `evalElementBoundaryIntegral`, 32-53: the weighted sum over the quadrature points of the side. -/
def sideIntegral (t : ElType) (vert : Nat → Nat → ℝ) (kern : (Nat → ℝ) → (Fin t.dim → ℝ) → ℝ) (r : Rule1) (s : Nat) : Option ℝ :=
  ((sideRule t r).mapM fun uw => (sideTerm t vert s kern uw.1).map (· * uw.2)).map List.sum

/-- `transformReduceBoundaries` over all sides of one element, Integral.hpp 83-108. -/
def surfaceIntegral (t : ElType) (vert : Nat → Nat → ℝ) (kern : (Nat → ℝ) → (Fin t.dim → ℝ) → ℝ) (r : Rule1) : Option ℝ :=
  ((List.range (nSides t)).mapM (sideIntegral t vert kern r)).map List.sum

/-- `computeFieldVals`, AssembleLocalSystem.hpp 54-62: component `k` of the field with nodal values `u node component`. -/
def fieldVal (t : ElType) (n : Nat) (x : Nat → ℝ) (u : Nat → Nat → ℝ) (k : Nat) (p : Nat → ℝ) : ℝ :=
  ∑ b ∈ range (n ^ t.dim), u b k * basisFun t n x b p

/-- A domain kernel returning the sum of `field_ders[k][k]` (`computeFieldDers`, 64-76). -/
def divergence (t : ElType) (n : Nat) (x : Nat → ℝ) (vert : Nat → Nat → ℝ) (u : Nat → Nat → ℝ) (p : Nat → ℝ) : ℝ :=
  ∑ k ∈ range t.dim, ∑ b ∈ range (n ^ t.dim), SumOp.physDer t n x vert p k b * u b k

/-- A boundary kernel returning the scalar product of the field with the normal. (a kernel as passed to `computeIntegral`, Integral.hpp 108-122, for boundaries, with the input of KernelInterface.hpp 44-49) -/
def flux (t : ElType) (n : Nat) (x : Nat → ℝ) (u : Nat → Nat → ℝ) (p : Nat → ℝ) (v : Fin t.dim → ℝ) : ℝ :=
  ∑ k : Fin t.dim, v k * fieldVal t n x u k p

end

end Verif.Flux
