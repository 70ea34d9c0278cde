import Mathlib.Algebra.BigOperators.Ring.Finset
import Mathlib.Algebra.BigOperators.Intervals
import Mathlib.Logic.Function.Basic

/-!
# Model of the application of the matrix-free operator

Sources: `/repo/include/l3ster/algsys/MatrixFreeSystem.hpp` lines 298-311 (`getDofs`), 338-362 (`getDirichletIndsSumFact`), 392-418
(`gather`), 420-467 (`gatherSumFact`), 469-492 (`scatter`), 494-537 (`scatterSumFact`), 633-712 (kernel), 1019-1140 (`applyImpl`).

Values are elements of a commutative ring.  Local vectors are functions of (local dof, column).  The import and the export are taken
to do what C46 and C47 prove: after the import a ghost entry holds the value of the owner, and the export adds every ghost entry to
the entry of the owner.  One element entry stands for one (element, kernel) pair; the evaluation of its kernel is the
multiplication by its local matrix (`evaluateLocalOperator`, `Σ_q w A_qᵀ A_q`, C54).
-/
namespace Verif.MatFree

variable {K : Type} [CommRing K]

/-- One element with its local dofs (`getDofs`, all valid) and its local matrix. (MatrixFreeSystem.hpp 298-311, 650, 704) -/
structure Elem (K : Type) where
  dofs : List Nat
  mat : Nat → Nat → K

/-- One rank: number of owned dofs, local dof ↦ global dof (owned first), elements, `m_dirichlet_bc` as the predicate
`isDirichletDof` (`none`: no conditions) and the list `getOwnedDirichletDofs`. (MatrixFreeSystem.hpp 1059-1086, 1102-1103) -/
structure Rank (K : Type) where
  nOwned : Nat
  l2g : List Nat
  elems : List (Elem K)
  bc : Option (Nat → Bool)
  dirOwned : List Nat

/-- Is the dof excluded from gather and scatter. (MatrixFreeSystem.hpp 400, 409, 477, 486) -/
def Rank.con (r : Rank K) (dof : Nat) : Bool := match r.bc with | none => false | some p => p dof

/-- `gather`, 392-418: entry `i` of column `c`. -/
def gather (r : Rank K) (e : Elem K) (x : Nat → Nat → K) (i c : Nat) : K :=
  if r.con (e.dofs.getD i 0) then 0 else x (e.dofs.getD i 0) c

/-- `y_local`: local operator applied to `x_local`. (MatrixFreeSystem.hpp 707) -/
def evalLocal (e : Elem K) (xl : Nat → Nat → K) (i c : Nat) : K := ∑ j ∈ Finset.range e.dofs.length, e.mat i j * xl j c

/-- `scatter`, 469-492: the atomic additions made, as ((dof, column), increment). -/
def scatter (r : Rank K) (e : Elem K) (yl : Nat → Nat → K) (nc : Nat) (scale : K) : List ((Nat × Nat) × K) :=
  ((List.range e.dofs.length).filter fun i => !r.con (e.dofs.getD i 0)).flatMap fun i =>
    (List.range nc).map fun c => ((e.dofs.getD i 0, c), yl i c * scale)

/-- All additions made by the elements of a rank in program order. (MatrixFreeSystem.hpp 1058-1086) -/
def increments (r : Rank K) (x : Nat → Nat → K) (nc : Nat) (alpha : K) : List ((Nat × Nat) × K) :=
  r.elems.flatMap fun e => scatter r e (evalLocal e (gather r e x)) nc alpha

/-- The additions of `handle_dirichlet_dof`, 1086-1097. -/
def dirIncrements (r : Rank K) (x : Nat → Nat → K) (nc : Nat) (alpha : K) : List ((Nat × Nat) × K) :=
  if r.bc.isSome then r.dirOwned.flatMap fun d => (List.range nc).map fun c => ((d, c), x d c * alpha) else []

/-- An atomic addition. (MatrixFreeSystem.hpp 481) -/
def addAt (m : Nat × Nat → K) (u : (Nat × Nat) × K) : Nat × Nat → K := Function.update m u.1 (m u.1 + u.2)

/-- Memory of a rank before the elements are evaluated: `beta * y` in the owned part (1041), zeros in the export buffer (1051). -/
def initMem (r : Rank K) (y : Nat → Nat → K) (beta : K) : Nat × Nat → K :=
  fun k => if k.1 < r.nOwned then beta * y (r.l2g.getD k.1 0) k.2 else 0

/-- `x` as seen by a rank, after the import: by local dof. (MatrixFreeSystem.hpp 1046-1057, 760-765) -/
def localX (r : Rank K) (x : Nat → Nat → K) : Nat → Nat → K := fun loc c => x (r.l2g.getD loc 0) c

/-- Memory of a rank after its elements and constrained dofs are processed, the additions being made in the order `ups`. (MatrixFreeSystem.hpp 1058-1105) -/
def rankMem (r : Rank K) (y : Nat → Nat → K) (beta : K) (ups : List ((Nat × Nat) × K)) : Nat × Nat → K := ups.foldl addAt (initMem r y beta)

/-- The orders of additions that can occur: any permutation. (MatrixFreeSystem.hpp 1068, 1070, 1085, 1100) -/
def IsOrder (r : Rank K) (x : Nat → Nat → K) (nc : Nat) (alpha : K) (ups : List ((Nat × Nat) × K)) : Prop :=
  ups.Perm (increments r (localX r x) nc alpha ++ dirIncrements r (localX r x) nc alpha)

/-- The owned entry `loc` of rank `me` after the export, C47. -/
def result (nr : Nat) (ranks : Nat → Rank K) (mem : Nat → Nat × Nat → K) (me loc c : Nat) : K :=
  mem me (loc, c) + ∑ q ∈ Finset.range nr, ∑ g ∈ Finset.range (ranks q).l2g.length,
    if (ranks q).nOwned ≤ g ∧ (ranks q).l2g.getD g 0 = (ranks me).l2g.getD loc 0 then mem q (g, c) else 0

/-! ### Sum factorisation layouts -/

/-- Writes of `gatherSumFact`, 428-466, in order, as (position, value); `con node dof` tells whether the dof is constrained.  The
branch without constrained dofs (442-448) makes the same writes as the general branch with empty sets. -/
def gatherSF (n dpn nc : Nat) (dofs : List Nat) (con : Nat → Nat → Bool) (x : Nat → Nat → K) : List (Nat × K) :=
  (List.range n).flatMap fun node =>
    (((List.range dpn).filter fun d => !con node d).flatMap fun d =>
      (List.range nc).map fun c => (c * (dpn * n) + d * n + node, x (dofs.getD (node * dpn + d) 0) c)) ++
    (((List.range dpn).filter fun d => con node d).flatMap fun d =>
      (List.range nc).map fun c => (c * (dpn * n) + d * n + node, 0))

/-- `scatterSumFact`, 494-537: additions made, reading position `node * (dpn * nc) + c * dpn + d`. -/
def scatterSF (n dpn nc : Nat) (dofs : List Nat) (con : Nat → Nat → Bool) (src : Nat → K) (scale : K) : List ((Nat × Nat) × K) :=
  (List.range n).flatMap fun node =>
    ((List.range dpn).filter fun d => !con node d).flatMap fun d =>
      (List.range nc).map fun c => ((dofs.getD (node * dpn + d) 0, c), src (node * (dpn * nc) + c * dpn + d) * scale)

end Verif.MatFree
