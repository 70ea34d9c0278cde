import Verif.Basis.Model
import Verif.Elem.Model
import Mathlib.Analysis.SpecialFunctions.Trigonometric.Basic
import Mathlib.LinearAlgebra.CrossProduct
import Mathlib.LinearAlgebra.Matrix.NonsingularInverse

/-!
# Model of the geometric mappings

Sources: `/repo/include/l3ster/mapping/*.hpp`, `math/RotationMatrix.hpp`, `mesh/NodePhysicalLocation.hpp`.

Exact real arithmetic and trigonometry (`std::numbers::pi` is π).  A point is a function of the coordinate
number; coordinates not below the dimension are ignored.
-/
namespace Verif.Mapping
open Verif.Basis Verif.Elem Matrix

noncomputable section

/-- `getLobattoRuleAbsc<val_t, 2>()`, LobattoRuleAbsc.hpp 14-15. -/
def absc1 (i : Nat) : ℝ := if i = 0 then -1 else 1

/-- `Element<T, 1>::n_nodes`. -/
def nVerts : ElType → Nat
  | .line => 2 | .quad => 4 | .hex => 8

/-- `ReferenceBasisFunction<T, O, I, Lagrange>`, ReferenceBasisFunction.hpp 156-169, with `n = O + 1`. -/
def basisFun (t : ElType) (n : Nat) (x : Nat → ℝ) (i : Nat) (p : Nat → ℝ) : ℝ :=
  match t with
  | .line => line n x i (p 0)
  | .quad => quad n x i (p 0, p 1)
  | .hex => hex n x i (p 0, p 1, p 2)

/-- `ReferenceBasisFunction<T, O, I, Lagrange, derivativeByIndex(d)>`, 171-197. -/
def basisDer (t : ElType) (n : Nat) (x : Nat → ℝ) (d i : Nat) (p : Nat → ℝ) : ℝ :=
  match t, d with
  | .line, _ => lineDer n x i (p 0)
  | .quad, 0 => quadDerXi n x i (p 0, p 1)
  | .quad, _ => quadDerEta n x i (p 0, p 1)
  | .hex, 0 => hexDerXi n x i (p 0, p 1, p 2)
  | .hex, 1 => hexDerEta n x i (p 0, p 1, p 2)
  | .hex, _ => hexDerZeta n x i (p 0, p 1, p 2)

/-- `computeRefBasisDers`, 217-233. -/
def refBasisDers (t : ElType) (n : Nat) (x : Nat → ℝ) (p : Nat → ℝ) : Matrix (Fin t.dim) (Fin (n ^ t.dim)) ℝ :=
  fun d i => basisDer t n x d i p

/-- The shape functions: order 1. -/
def shape (t : ElType) : Nat → (Nat → ℝ) → ℝ := basisFun t 2 absc1

/-- Derivatives of the basis functions of order 1, JacobiMat.hpp 30-35. -/
def shapeDer (t : ElType) : Nat → Nat → (Nat → ℝ) → ℝ := basisDer t 2 absc1

/-- `mapToPhysicalSpace`, MapReferenceToPhysical.hpp 13-25: coordinate `k` of the image; `vert i k` is
coordinate `k` of vertex `i`. -/
def mapToPhysical (t : ElType) (vert : Nat → Nat → ℝ) (p : Nat → ℝ) (k : Nat) : ℝ :=
  valueAt (nVerts t) (shape t) (fun i => vert i k) p

/-- `getNatJacobiMatGenerator`, JacobiMat.hpp 15-45: row = derivative, column = space coordinate, accumulated
over the vertices. -/
def jacobiMat (t : ElType) (vert : Nat → Nat → ℝ) (p : Nat → ℝ) : Matrix (Fin t.dim) (Fin t.dim) ℝ :=
  fun der space => (List.range (nVerts t)).foldl (fun acc i => acc + vert i space * shapeDer t der i p) 0

/-- `computePhysBasisDers`, ComputePhysBasisDer.hpp 9-15. -/
def physBasisDers {d : Nat} {m : Type} [Fintype m] (J : Matrix (Fin d) (Fin d) ℝ)
    (refDers : Matrix (Fin d) m ℝ) : Matrix (Fin d) m ℝ := J⁻¹ * refDers

/-- `Eigen::MatrixBase::normalize` (divides only if the norm is positive). (used in BoundaryNormal.hpp 37, 61) -/
def normalize {d : Nat} (v : Fin d → ℝ) : Fin d → ℝ :=
  if 0 < v ⬝ᵥ v then (Real.sqrt (v ⬝ᵥ v))⁻¹ • v else v

/-- `Eigen::MatrixBase::norm`. (used in BoundaryIntegralJacobian.hpp 18, 23) -/
def norm {d : Nat} (v : Fin d → ℝ) : ℝ := Real.sqrt (v ⬝ᵥ v)

/-- `computeBoundaryNormal` for lines, BoundaryNormal.hpp 15-16. -/
def normalLine (side : Nat) : Fin 1 → ℝ := ![if side = 0 then -1 else 1]

/-- For quads, 17-38; `none`: no case applies and the result is uninitialised. -/
def normalQuad (side : Nat) (J : Matrix (Fin 2) (Fin 2) ℝ) : Option (Fin 2 → ℝ) :=
  match side with
  | 0 => some (normalize ![J 0 1, -J 0 0])
  | 1 => some (normalize ![-J 0 1, J 0 0])
  | 2 => some (normalize ![-J 1 1, J 1 0])
  | 3 => some (normalize ![J 1 1, -J 1 0])
  | _ => none

/-- For hexes, 39-62. -/
def normalHex (side : Nat) (J : Matrix (Fin 3) (Fin 3) ℝ) : Option (Fin 3 → ℝ) :=
  match side with
  | 0 => some (normalize (-(J 0 ⨯₃ J 1)))
  | 1 => some (normalize (J 0 ⨯₃ J 1))
  | 2 => some (normalize (J 0 ⨯₃ J 2))
  | 3 => some (normalize (-(J 0 ⨯₃ J 2)))
  | 4 => some (normalize (-(J 1 ⨯₃ J 2)))
  | 5 => some (normalize (J 1 ⨯₃ J 2))
  | _ => none

/-- `computeBoundaryNormal`, 8-64. -/
def boundaryNormal (t : ElType) (side : Nat) :
    Matrix (Fin t.dim) (Fin t.dim) ℝ → Option (Fin t.dim → ℝ) :=
  match t with
  | .line => fun _ => some (normalLine side)
  | .quad => fun J => normalQuad side J
  | .hex => fun J => normalHex side J

/-- `makeRotationMatrix3DX`, RotationMatrix.hpp 11-27 (rows listed). -/
def rotX (a : ℝ) : Matrix (Fin 3) (Fin 3) ℝ :=
  !![1, 0, 0; 0, Real.cos a, -Real.sin a; 0, Real.sin a, Real.cos a]

/-- `makeRotationMatrix3DY`, 29-45. -/
def rotY (a : ℝ) : Matrix (Fin 3) (Fin 3) ℝ :=
  !![Real.cos a, 0, Real.sin a; 0, 1, 0; -Real.sin a, 0, Real.cos a]

/-- `makeRotationMatrix3DZ`, 47-63. -/
def rotZ (a : ℝ) : Matrix (Fin 3) (Fin 3) ℝ :=
  !![Real.cos a, -Real.sin a, 0; Real.sin a, Real.cos a, 0; 0, 0, 1]

/-- `makeRotationMatrix2D`, 65-76. -/
def rot2 (a : ℝ) : Matrix (Fin 2) (Fin 2) ℝ :=
  !![Real.cos a, Real.sin a; -Real.sin a, Real.cos a]

/-- `getReferenceBoundaryToSideMapping`, ReferenceBoundaryToSideMapping.hpp 14-48; `none` past the table. -/
def sideTable (t : ElType) :
    List (Matrix (Fin t.dim) (Fin t.dim) ℝ × (Fin t.dim → ℝ)) :=
  match t with
  | .hex =>
    [(rotX Real.pi, ![0, 0, -1]), (!![1, 0, 0; 0, 1, 0; 0, 0, 1], ![0, 0, 1]),
     (rotX (-Real.pi / 2), ![0, -1, 0]),
     (rotX (Real.pi / 2), ![0, 1, 0]), (rotY (Real.pi / 2), ![-1, 0, 0]), (rotY (-Real.pi / 2), ![1, 0, 0])]
  | .quad =>
    [(rot2 Real.pi, ![0, -1]), (!![1, 0; 0, 1], ![0, 1]), (rot2 (Real.pi / 2), ![-1, 0]), (rot2 (-Real.pi / 2), ![1, 0])]
  | .line => [(!![-1], ![-1]), (!![1], ![1])]

/-- `getReferenceBoundaryQpCoords`, ReferenceElementBasisAtQuadrature.hpp 23-36 and 74-78: the boundary
point with a zero appended. -/
def pad (d : Nat) (u : Fin (d - 1) → ℝ) : Fin d → ℝ := fun r => if h : r.1 < d - 1 then u ⟨r.1, h⟩ else 0

/-- The side quadrature points, 85-87: rotate, then translate. -/
def sidePoint (t : ElType) (side : Nat) (u : Fin (t.dim - 1) → ℝ) : Option (Fin t.dim → ℝ) :=
  (sideTable t)[side]?.map fun m => m.1.mulVec (pad t.dim u) + m.2

/-- `computeBoundaryIntegralJacobian`, BoundaryIntegralJacobian.hpp 9-28. -/
def boundaryJacobian (t : ElType) (side : Nat) :
    Matrix (Fin t.dim) (Fin t.dim) ℝ → Option ℝ :=
  match t with
  | .line => fun _ => some 0
  | .quad => fun J => (sideTable .quad)[side]?.map fun m =>
      norm (d := 2) ((show Matrix (Fin 2) (Fin 2) ℝ from J)ᵀ.mulVec fun r => (show Matrix (Fin 2) (Fin 2) ℝ from m.1) r 0)
  | .hex => fun J => (sideTable .hex)[side]?.map fun m =>
      norm (((show Matrix (Fin 3) (Fin 3) ℝ from J)ᵀ.mulVec fun r => (show Matrix (Fin 3) (Fin 3) ℝ from m.1) r 0) ⨯₃
        ((show Matrix (Fin 3) (Fin 3) ℝ from J)ᵀ.mulVec fun r => (show Matrix (Fin 3) (Fin 3) ℝ from m.1) r 1))

/-- `nodePhysicalLocation(element, i)`, NodePhysicalLocation.hpp 9-23, for a reference location. -/
def nodePhysicalLocation (t : ElType) (vert : Nat → Nat → ℝ) (loc : Nat → ℝ) (k : Nat) : ℝ :=
  mapToPhysical t vert loc k

end

end Verif.Mapping
