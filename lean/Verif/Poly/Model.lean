import Mathlib.Algebra.Field.Basic
import Mathlib.Algebra.Field.Rat
import Mathlib.LinearAlgebra.Matrix.Defs

/-!
# Model of the polynomial routines

Sources: `/repo/include/l3ster/math/Polynomial.hpp` 55-122, `math/LagrangeInterpolation.hpp` 11-43,
`math/Legendre.hpp` 8-50, `math/Lobatto.hpp` 8-12.

A `Polynomial<T, ORDER>` is the list of its `ORDER + 1` coefficients, highest power first.  Arithmetic is
exact, over a field; floating-point rounding is not modelled.  `operator*` and `operator+` (124-157)
are not modelled: they use members the class does not have (`begin`, `coef`) and cannot be instantiated.
-/
namespace Verif.Poly

variable {K : Type} [Field K]

/-- `evaluate`, 55-65. -/
def evaluate (coefs : List K) (x : K) : K := coefs.foldl (fun ret c => ret * x + c) 0

/-- `int_coefs`, 70-71: generated into the reversed view, so `1/1` is last. -/
def intCoefs (n : Nat) : List K := ((List.range n).map fun (i : Nat) => 1 / ((i : K) + 1)).reverse

/-- `integral`, 67-76. -/
def integral (coefs : List K) : List K := List.zipWith (· * ·) coefs (intCoefs coefs.length) ++ [0]

/-- `views::iota(1, ORDER + 1) | reverse`, 88. -/
def derCoefs (n : Nat) : List K := ((List.range n).map fun (i : Nat) => ((i : K) + 1)).reverse

/-- `derivative`, 78-94; the order-zero polynomial has derivative `{0.}`. -/
def derivative (coefs : List K) : List K :=
  if coefs.length = 1 then [0]
  else List.zipWith (· * ·) (coefs.take (coefs.length - 1)) (derCoefs (coefs.length - 1))

/-- The companion matrix filled in `roots`, 106-114, for a polynomial of order `n + 1`; coefficient `i` is
`coefs i`.  For order 1 this is the number returned at 101-102. -/
def companion (n : Nat) (coefs : Nat → K) : Matrix (Fin (n + 1)) (Fin (n + 1)) K := fun r c =>
  if (r : Nat) = c + 1 then 1
  else if (c : Nat) = n then
    if (r : Nat) = 0 then -coefs (n + 1) / coefs 0 else -coefs (n + 1 - r) / coefs 0
  else 0

/-! ## Lagrange interpolation.  Arrays are functions of the index. -/

/-- The inner loop of `lagrangeInterp`, 32-33: `k` runs from `m` down to 1. -/
def mulRoot (r : K) : Nat → (Nat → K) → Nat → K
  | 0, l => l
  | k + 1, l => mulRoot r k (Function.update l (k + 1) (l (k + 1) - l k * r))

/-- `roots`, 23-25: all abscissae but the `i`-th. -/
def otherRoots (x : Nat → K) (i j : Nat) : K := if j < i then x j else x (j + 1)

/-- `l_i`, 25-34, after `m` iterations of the loop over `j`. -/
def rootPoly (x : Nat → K) (i : Nat) : Nat → Nat → K
  | 0 => fun k => if k = 0 then 1 else 0
  | m + 1 => mulRoot (otherRoots x i m) (m + 1) (rootPoly x i m)

/-- The first `n` elements of an array. (`std::array` read in full, LagrangeInterpolation.hpp 22-28, Legendre.hpp 11-12) -/
def toList (n : Nat) (f : Nat → K) : List K := (List.range n).map f

/-- `lag_coefs`, 22-39, after `m` iterations of the loop over `i`. -/
def lagCoefs (n : Nat) (x y : Nat → K) : Nat → Nat → K
  | 0 => fun _ => 0
  | i + 1 => fun j => lagCoefs n x y i j +
      (y i / evaluate (toList n (rootPoly x i (n - 1))) (x i)) * rootPoly x i (n - 1) j

/-- `lagrangeInterp`, 11-40, for `n` points. -/
def lagrangeInterp (n : Nat) (x y : Nat → K) : List K := toList n (lagCoefs n x y n)

/-! ## Legendre polynomials -/

/-- `a`, Legendre.hpp 29-31. -/
def lcA (i : Nat) : K := (2 * (i : K) - 1) / i

/-- `c`, Legendre.hpp 32-34. -/
def lcC (i : Nat) : K := ((i : K) - 1) / i

/-- The three arrays of `getLegendrePolynomial`. (Legendre.hpp 12, 22-23) -/
structure LState (K : Type) where
  coefs : Nat → K
  p1 : Nat → K
  p2 : Nat → K

/-- Before the loop, 23-27 (arrays of `N + 1` elements, `N ≥ 2`). -/
def lInit (N : Nat) : LState K where
  p1 := fun k => if k = N - 1 then 1 else 0
  p2 := fun _ => 0
  coefs := fun k => if k = N then -(1 / 2) else if k = N - 2 then 3 / 2 else 0

/-- One iteration, 37-46. -/
def lStep (N i : Nat) (s : LState K) : LState K :=
  let index := N - i
  let p2 := fun k => if index ≤ k then s.p1 k else s.p2 k
  let p1 := fun k => if index ≤ k then s.coefs k else s.p1 k
  let coefs := fun k => if index ≤ k ∧ k < N then lcA i * p1 (k + 1) - lcC i * p2 k else s.coefs k
  { p1 := p1, p2 := p2, coefs := fun k => if k = N then -lcC i * p2 N else coefs k }

/-- The loop for `i = 3 … m`. -/
def lLoop (N : Nat) : Nat → LState K
  | 0 => lInit N
  | 1 => lInit N
  | 2 => lInit N
  | i + 3 => lStep N (i + 3) (lLoop N (i + 2))

/-- `getLegendrePolynomial<T, N>`, 8-49. -/
def legendre (N : Nat) : List K :=
  if N = 0 then [1]
  else if N = 1 then [1, 0]
  else toList (N + 1) (lLoop N N).coefs

/-- `getLobattoPolynomial<T, N>`, Lobatto.hpp 8-12. -/
def lobatto (N : Nat) : List K := derivative (legendre (N + 1))

end Verif.Poly
