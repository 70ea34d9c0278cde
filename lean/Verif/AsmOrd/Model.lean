import Verif.SumOp.Model

/-!
# The order of quadrature used for local systems

Sources: `/repo/include/l3ster/algsys/AssembleLocalSystem.hpp` 24-36 (`AssemblyOptions`), `algsys/AssembleGlobalSystem.hpp` 42, 85,
`algsys/MatrixFreeSystem.hpp` 607, 656 (quadrature order of local systems), `post/Integral.hpp` 68, 95 (quadrature order of integrals).

The quadrature rules, basis functions and mappings are those of `Quad`, `Basis` and `Mapping`; exact real arithmetic.
-/
namespace Verif.AsmOrd
open Finset Verif.Elem Verif.Mapping

/-- `AssemblyOptions::order`, AssembleLocalSystem.hpp 32-35: computed in `int`, converted to `q_o_t` (8 bits). -/
def order (valueOrder derOrder eo : Nat) : Nat := (valueOrder * eo + derOrder * (eo - 1)) % 256

/-- `constexpr q_o_t QO = 2 * asm_opts.order(EO)`, AssembleGlobalSystem.hpp 42 and 85 (an implicit conversion to 8 bits). -/
def quadOrder (valueOrder derOrder eo : Nat) : Nat := 2 * order valueOrder derOrder eo % 256

/-- `constexpr auto QO = options.order(EO)`, Integral.hpp 68 and 95. -/
def integralOrder (valueOrder derOrder eo : Nat) : Nat := order valueOrder derOrder eo

noncomputable section

/-- Coordinates of a point of the reference segment. (Point.hpp; JacobiMat.hpp 19) -/
def coords1 (p : ℝ) : Nat → ℝ := fun _ => p

/-- The quadrature rule of an element type: points as functions of the coordinate number, weights (`getQuadrature`,
GenerateQuadrature.hpp 12-78). -/
def elemRule (t : ElType) (r : Quad.Rule1) : List ((Nat → ℝ) × ℝ) :=
  match t with
  | .line => r.map fun pw => (coords1 pw.1, pw.2)
  | .quad => (Quad.quadRule r).map fun pw => (SumOp.coords2 pw.1, pw.2)
  | .hex => (Quad.hexRule r).map fun pw => (SumOp.coords3 pw.1, pw.2)

/-- Data of one quadrature point in `assembleLocalSystem` (AssembleLocalSystem.hpp 234-275): operators, right-hand sides, basis values
and derivatives, weight.  `ops p` and `rhs p` are what the kernel returns at the image of `p`. -/
def pointUpd (t : ElType) (n : Nat) (x : Nat → ℝ) (vert : Nat → Nat → ℝ) (ops : (Nat → ℝ) → Nat → Nat → Nat → ℝ)
    (rhs : (Nat → ℝ) → Nat → Nat → ℝ) (p : Nat → ℝ) (weight : ℝ) : Batch.Upd where
  op := ops p
  F := rhs p
  bv := fun b => basisFun t n x b p
  bd := fun d b => SumOp.physDer t n x vert p d b
  w := (jacobiMat t vert p).det * weight

/-- All updates of an element. (AssembleLocalSystem.hpp 247-254) -/
def elemUpds (t : ElType) (n : Nat) (x : Nat → ℝ) (vert : Nat → Nat → ℝ) (ops : (Nat → ℝ) → Nat → Nat → Nat → ℝ)
    (rhs : (Nat → ℝ) → Nat → Nat → ℝ) (r : Quad.Rule1) : List Batch.Upd :=
  (elemRule t r).map fun pw => pointUpd t n x vert ops rhs pw.1 pw.2

end

end Verif.AsmOrd
