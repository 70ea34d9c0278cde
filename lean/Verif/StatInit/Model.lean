import Verif.SumFact.Model
import Mathlib.Algebra.Field.Rat

/-!
# Model of the initialisation of the one-dimensional matrices

Source: `/repo/include/l3ster/algsys/SumFactorization.hpp` 24-65 and 88-157.

The matrices are `inline const auto` variable templates.  Their implicit instantiations are non-local variables with *unordered* dynamic
initialisation ([basic.start.dynamic]): the program may initialise the twelve variables of one set of parameters in any order.  A matrix which is
read before it is initialised has the contents of static storage, i.e. zeros (formally the read is outside the lifetime of the object;
zeros is what the usual implementations give).
-/
namespace Verif.StatInit
open Verif.SumFact

variable {K : Type} [Field K]

/-- The twelve variable templates, 58-65 and 142-157. -/
inductive Var where
  | interp | der | interpT | derT
  | plusInterpBack | minusInterpBack | plusInterpFwd | minusInterpFwd
  | plusDerBack | minusDerBack | plusDerFwd | minusDerFwd
  deriving DecidableEq, Repr

/-- The contents of the matrices. (SumFactorization.hpp 58-65, 142-157) -/
abbrev Mem (K : Type) := Var → Nat → Nat → K

/-- Sizes and the values at the points: number of basis functions, of points; `B`, `D` are the results of `makeInterpolationMatrix` and
`makeDerivativeMatrix` (24-49), which read no other variable of this group. -/
structure Par (K : Type) where
  nb : Nat
  nq : Nat
  B : Nat → Nat → K
  D : Nat → Nat → K

/-- `makeTransposed`, 51-56. -/
def transposed (M : Nat → Nat → K) : Nat → Nat → K := fun r c => M c r

/-- The initialiser of each variable, reading the current contents of the variables it mentions, 58-65, 142-157. -/
def initialiser (p : Par K) (m : Mem K) : Var → Nat → Nat → K
  | .interp => p.B
  | .der => p.D
  | .interpT => transposed (m .interp)
  | .derT => transposed (m .der)
  | .plusInterpBack => psiPlus p.nb (m .interp)
  | .minusInterpBack => psiMinus p.nb (m .interp)
  | .plusInterpFwd => psiPlus p.nq (m .interpT)
  | .minusInterpFwd => psiMinus p.nq (m .interpT)
  | .plusDerBack => psiPlus p.nb (m .der)
  | .minusDerBack => psiMinus p.nb (m .der)
  | .plusDerFwd => psiPlus p.nq (m .derT)
  | .minusDerFwd => psiMinus p.nq (m .derT)

/-- Dynamic initialisation in the given order. (SumFactorization.hpp 58-65, 142-157; the order is left open by the language for variable templates) -/
def initialise (p : Par K) (order : List Var) : Mem K :=
  order.foldl (fun m v => Function.update m v (initialiser p m v)) fun _ _ _ => 0

end Verif.StatInit
