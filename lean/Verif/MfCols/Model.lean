import Verif.MatFree.Model

/-!
# Model of the number of vectors handled by the matrix-free operator

Source: `/repo/include/l3ster/algsys/MatrixFreeSystem.hpp` lines 393-418 (`gather`), 420-467 (`gatherSumFact`), 494-537
(`scatterSumFact`), 650-708 (`makeEvalKernel`), 1033-1039 and 1121-1139 (`applyImpl`); `/repo/include/l3ster/algsys/SumFactorization.hpp`
lines 822-868 (`sumFactImpl`), 882-917 (`evalLocalOperatorSumFact`); `/repo/include/l3ster/util/EigenUtils.hpp` line 55.

The buffers are followed by size only.  The system is declared for `nRhs` vectors, the kernel for `p` (`Kernel::parameters.n_rhs`).
-/
namespace Verif.MfCols

/-- `applyImpl`, 1033-1039 and 1121-1139: the column ranges `(first, count)` passed to `evaluate`; `none`: an exception. -/
def passes (nRhs xCols yCols : Nat) : Option (List (Nat × Nat)) :=
  if xCols ≠ yCols then none
  else if nRhs < xCols then none
  else if xCols = nRhs then some [(0, nRhs)]
  else some ((List.range xCols).map fun c => (c, 1))

/-- The number of vectors `evalLocalOperatorSumFact` is instantiated for, 678-689, when the view has `k` columns: the default, `p`, or
one. -/
def instRhs (nRhs p k : Nat) : Nat := if k = nRhs then p else 1

/-- Size of the buffer filled by `x_gather` (902-905, `back_bufs`): `n` nodes, `nu` unknowns, `nf` fields. -/
def fillSize (n nu nf m : Nat) : Nat := n * (nu * m + nf)

/-- Size of the part of `forward_bufs` read by `y_scatter` (840, 867). -/
def resSize (n nu m : Nat) : Nat := n * (nu * m)

/-- Positions written by `gatherSumFact` for `k` columns, 428-466. -/
def fillPositions (n nu k : Nat) : List Nat :=
  (List.range n).flatMap fun node => (List.range nu).flatMap fun d => (List.range k).map fun c => c * (nu * n) + d * n + node

/-- Positions read by `scatterSumFact` for `k` columns when no dof is constrained, 503-523. -/
def resPositions (n nu k : Nat) : List Nat :=
  (List.range n).flatMap fun node => (List.range nu).flatMap fun d => (List.range k).map fun c => node * (nu * k) + c * nu + d

/-- All accesses of one evaluation with sum factorisation stay within the buffers. (MatrixFreeSystem.hpp 650-708) -/
def sumFactOk (n nu nf nRhs p k : Nat) : Bool :=
  (fillPositions n nu k).all (fun i => decide (i < fillSize n nu nf (instRhs nRhs p k))) &&
  (resPositions n nu k).all (fun i => decide (i < resSize n nu (instRhs nRhs p k)))

/-- The matrix of `gather` has storage for `p` columns and gets `k` (400). -/
def gatherOk (p k : Nat) : Bool := decide (k ≤ p)

/-- A whole application: `none` for an exception, otherwise whether every access is within bounds. (MatrixFreeSystem.hpp 1033-1039, 1124-1138) -/
def applyOk (sumFact : Bool) (n nu nf nRhs p xCols yCols : Nat) : Option Bool :=
  (passes nRhs xCols yCols).map fun l => l.all fun q => if sumFact then sumFactOk n nu nf nRhs p q.2 else gatherOk p q.2

end Verif.MfCols
