import Verif.Poly.Model

/-!
# Model of the nodal basis and node locations

Sources: `/repo/include/l3ster/basisfun/ReferenceBasisFunction.hpp` 28-198, `mesh/NodeReferenceLocation.hpp`
11-66, `basisfun/ValueAt.hpp` 8-18, `mapping/MapReferenceToPhysical.hpp` 13-25.

Exact arithmetic over a field.  `x 0 … x (n-1)` stands for `getLobattoRuleAbsc<val_t, O + 1>()`, `n = O + 1`
(the abscissae themselves are C65).
-/
namespace Verif.Basis
open Verif.Poly
variable {K : Type} [Field K]

/-- `computeLagrangeLineBasisPolynomial`, ReferenceBasisFunction.hpp 28-37. -/
def linePoly (n : Nat) (x : Nat → K) (i : Nat) : List K :=
  lagrangeInterp n x fun j => if j = i then 1 else 0

/-- `evaluateLineBasisFun`, 46-50 and 59-64. -/
def line (n : Nat) (x : Nat → K) (i : Nat) (t : K) : K := evaluate (linePoly n x i) t

/-- `evaluateLineBasisFunDer`, 52-57 and 66-71. -/
def lineDer (n : Nat) (x : Nat → K) (i : Nat) (t : K) : K := evaluate (derivative (linePoly n x i)) t

/-- `evaluateQuadBasisFun`, 73-83. -/
def quad (n : Nat) (x : Nat → K) (i : Nat) (p : K × K) : K := line n x (i % n) p.1 * line n x (i / n) p.2

/-- `evaluateQuadBasisFunDerXi`, 85-94. -/
def quadDerXi (n : Nat) (x : Nat → K) (i : Nat) (p : K × K) : K := lineDer n x (i % n) p.1 * line n x (i / n) p.2

/-- `evaluateQuadBasisFunDerEta`, 96-105. -/
def quadDerEta (n : Nat) (x : Nat → K) (i : Nat) (p : K × K) : K := line n x (i % n) p.1 * lineDer n x (i / n) p.2

/-- `evaluateHexBasisFun`, 107-117. -/
def hex (n : Nat) (x : Nat → K) (i : Nat) (p : K × K × K) : K :=
  quad n x (i % (n * n)) (p.1, p.2.1) * line n x (i / (n * n)) p.2.2

/-- `evaluateHexBasisFunDerXi`, 119-129. -/
def hexDerXi (n : Nat) (x : Nat → K) (i : Nat) (p : K × K × K) : K :=
  quadDerXi n x (i % (n * n)) (p.1, p.2.1) * line n x (i / (n * n)) p.2.2

/-- `evaluateHexBasisFunDerEta`, 131-141. -/
def hexDerEta (n : Nat) (x : Nat → K) (i : Nat) (p : K × K × K) : K :=
  quadDerEta n x (i % (n * n)) (p.1, p.2.1) * line n x (i / (n * n)) p.2.2

/-- `evaluateHexBasisFunDerZeta`, 143-153. -/
def hexDerZeta (n : Nat) (x : Nat → K) (i : Nat) (p : K × K × K) : K :=
  quad n x (i % (n * n)) (p.1, p.2.1) * lineDer n x (i / (n * n)) p.2.2

/-- The abscissae in order. (`getLobattoRuleAbsc`, NodeReferenceLocation.hpp 23, 36) -/
def absc (n : Nat) (x : Nat → K) : List K := (List.range n).map x

/-- `makeLineNodeLocations`, NodeReferenceLocation.hpp 11-17. -/
def lineNodes (n : Nat) (x : Nat → K) : List K := (absc n x).map fun xi => xi

/-- `makeQuadNodeLocations`, 19-29: `eta` in the outer loop. -/
def quadNodes (n : Nat) (x : Nat → K) : List (K × K) :=
  (absc n x).flatMap fun eta => (absc n x).map fun xi => (xi, eta)

/-- `makeHexNodeLocations`, 31-43. -/
def hexNodes (n : Nat) (x : Nat → K) : List (K × K × K) :=
  (absc n x).flatMap fun zeta => (absc n x).flatMap fun eta => (absc n x).map fun xi => (xi, eta, zeta)

/-- `valueAt`, ValueAt.hpp 8-18: sum of nodal values times basis functions `f i`. -/
def valueAt {A : Type} (nNodes : Nat) (f : Nat → A → K) (vals : Nat → K) (p : A) : K :=
  ((List.range nNodes).map fun i => vals i * f i p).sum

end Verif.Basis
