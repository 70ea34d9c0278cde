import Mathlib.Algebra.Field.Basic
import Mathlib.Algebra.BigOperators.Group.List.Basic
import Mathlib.Analysis.SpecialFunctions.Pow.Real
/-!
# Model of the grid generators

Source: `/repo/include/l3ster/util/Common.hpp`, lines 187-245, in exact arithmetic (a field for
the rational generators, `ℝ` for the one using `std::pow` with fractional exponents).
A failed assertion is `none`.
-/
namespace Verif.Grid

/-- `linspace` (201-213) and, for `N ≥ 2`, `linspaceArray` (187-199). -/
def linspace {K} [Field K] (lo hi : K) (N : Nat) : Option (List K) :=
  if N ≥ 2 then
    let d := (hi - lo) / ((N - 1 : Nat) : K)
    some ((List.range N).map fun (i : Nat) => lo + (i : K) * d)
  else none

/-- `geomspace`, 215-226. -/
noncomputable def geomspace (lo hi : ℝ) (N : Nat) : Option (List ℝ) :=
  if N ≥ 2 then
    let a := (hi / lo) ^ (1 / ((N - 1 : Nat) : ℝ))
    some ((List.range N).map fun (i : Nat) => lo * a ^ (i : ℝ))
  else none

/-- `std::inclusive_scan` of `q^0, q^1, …` (line 236): entry `k ≥ 1` is `q^0 + … + q^(k-1)`. -/
def scanPow {K} [Field K] (q : K) (k : Nat) : K := ((List.range k).map fun (i : Nat) => q ^ i).sum

/-- `geomSpaceProg`, 228-245: front and back are assigned `lo` and `hi` directly, the entries in
between are the scaled partial sums. -/
def geomSpaceProg {K} [Field K] [LinearOrder K] (lo hi : K) (N : Nat) (q : K) : Option (List K) :=
  if N ≥ 2 ∧ q > 0 then
    let scale := (hi - lo) / scanPow q (N - 1)
    some ((List.range N).map fun (k : Nat) =>
      if k = 0 then lo else if k = N - 1 then hi else scanPow q k * scale + lo)
  else none

end Verif.Grid
