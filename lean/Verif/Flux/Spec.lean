import Verif.Flux.Model
import Verif.AsmOrd.Props

/-!
# C107: the fluxes through the sides of an element balance the divergence inside
-/
namespace Verif.Flux
open Verif.Elem Verif.Mapping Verif.Quad

/-- **C107**, full statement: for every element of order `m`, whatever its vertices, every field of the finite element space and every rule exact
for polynomials of degree `m + dim - 2`, the boundary integral of the normal component over all sides is the domain integral of the divergence. -/
def C107Statement : Prop :=
  ∀ (t : ElType) (m : Nat) (x : Nat → ℝ) (vert u : Nat → Nat → ℝ) (qo : Nat) (r : Rule1), IsReferenceRule qo r → m + t.dim ≤ qo + 2 →
    (∀ pw ∈ AsmOrd.elemRule t r, (jacobiMat t vert pw.1).det ≠ 0) →
    surfaceIntegral t vert (flux t (m + 1) x u) r = some (AsmOrd.elemIntegral t vert (divergence t (m + 1) x vert u) r)

end Verif.Flux
