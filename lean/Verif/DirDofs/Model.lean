import Verif.Algo.Model
import Mathlib.Algebra.BigOperators.Group.List.Basic
import Mathlib.Data.Rat.Defs

/-!
# Model of the definition of boundary conditions and of the search for constrained degrees of freedom

Sources: `/repo/include/l3ster/bcs/BCDefinition.hpp` lines 11-39 and 77-120, `/repo/include/l3ster/bcs/GetDirichletDofs.hpp` lines
53-100, `/repo/include/l3ster/dofs/DofsFromNodes.hpp` lines 46-56, `/repo/include/l3ster/bcs/LocalDirichletBC.hpp` lines 74-138,
`/repo/include/l3ster/algsys/MatrixFreeSystem.hpp` lines 969-980.

Degrees of freedom to be normalised are data here (their choice is the subject of C44).  The exchange between ranks is that of C46 and
C47 (matrix-free system) and of Tpetra (assembled system): values of the same global dof are added up at its owner, then
copied to all ranks that have the dof.  Marking stores the same value from every thread, so its order does not matter.
-/
namespace Verif.DirDofs
open Verif

/-! ## Definition -/

/-- `DirichletBCDefinition::Def`, 14-18. -/
structure Def where
  doms : List Nat
  inds : List Nat
  deriving DecidableEq, Repr

/-- `DirichletBCDefinition`, 36-38; the bitset is the list of its bits. -/
structure Bc where
  defs : List Def
  norm : List Bool
  deriving DecidableEq, Repr

/-- BCDefinition.hpp 82-83, 119-121 -/
def Bc.new (nd : Nat) : Bc := ⟨[], List.replicate nd false⟩

/-- `BCDefinition::defineDirichlet` (88-92) and `normalize` (111-117). -/
inductive Call where
  | dirichlet (doms inds : List Nat)
  | normalize (inds : List Nat)

/-- One call with `nd` components per node; `none`: the assertion throws (23, 114). -/
def apply (nd : Nat) (b : Bc) : Call → Option Bc
  | .dirichlet doms inds =>
    if inds.all (fun i => decide (i < nd)) then
      some { b with defs := b.defs ++ [⟨Algo.getUniqueCopy doms, Algo.getUniqueCopy inds⟩] }
    else none
  | .normalize inds =>
    if inds.all (fun i => decide (i < nd)) then some { b with norm := inds.foldl (fun n i => n.set i true) b.norm } else none

/-- A sequence of calls; a call that throws leaves the object as it was. (member functions BCDefinition.hpp 86-90, 108-114) -/
def run (nd : Nat) (calls : List Call) : Bc := calls.foldl (fun b c => (apply nd b c).getD b) (Bc.new nd)

/-- `getNormalized`, 33 (`getTrueInds`, Meta.hpp 92-98). -/
def trueInds (b : List Bool) : List Nat := (List.range b.length).filter fun i => b.getD i false

/-! ## Assembled system -/

/-- What one rank has: elements of its partition (domain, nodes), the map from nodes to global dofs, the global dofs of its domain
map and of its column map, and the dofs it pins for normalisation. (GetDirichletDofs.hpp 53-66) -/
structure Rank where
  elems : List (Nat × List Nat)
  map : Nat → Option (List (Option Nat))
  owned : List Nat
  cols : List Nat
  norm : List Nat

/-- Result of a call. (auxiliary; `throwingAssert` BCDefinition.hpp 23, 111) -/
inductive Out (α : Type) where
  | ok (a : α)
  | throws
  | ub
  deriving DecidableEq

/-- Auxiliary: sequencing of outcomes (`throwingAssert` BCDefinition.hpp 23, 111). -/
def Out.bind {α β : Type} : Out α → (α → Out β) → Out β
  | .ok a, f => f a
  | .throws, _ => .throws
  | .ub, _ => .ub

/-- `mesh.visit(process_element, domains)`, 66. -/
def visited (r : Rank) (doms : List Nat) : List (Nat × List Nat) := r.elems.filter fun e => decide (e.1 ∈ doms)

/-- The pairs (node, component) of all calls of `getDofsFromNodes(element.nodes, node_to_dof_map, dof_inds)`, 63. -/
def visitedPairs (b : Bc) (r : Rank) : List (Nat × Nat) :=
  b.defs.flatMap fun d => (visited r d.doms).flatMap fun e => e.2.flatMap fun n => d.inds.map fun i => (n, i)

/-- Their dofs, DofsFromNodes.hpp 46-56: `at` throws for a node that is not in the map (`none`); a component which does not exist at the node gives
`invalid_global_dof` (inner `none`). -/
def visitedDofs (b : Bc) (r : Rank) : Option (List (Option Nat)) :=
  (visitedPairs b r).mapM fun p => (r.map p.1).map fun a => a.getD p.2 none

/-- `replaceGlobalValue(dof, 0, 1.)`, 64 and 69: a dof outside of the column map is not checked in a release build. -/
def mark (cols : List Nat) (v : Nat → ℚ) : List (Option Nat) → Out (Nat → ℚ)
  | [] => .ok v
  | none :: _ => .ub
  | some g :: l => if g ∈ cols then mark cols (Function.update v g 1) l else .ub

/-- `mark_owned_dirichlet_dofs` on one rank up to `endAssembly`, 53-69. -/
def rankMarks (b : Bc) (r : Rank) : Out (Nat → ℚ) :=
  match visitedDofs b r with
  | some l => mark r.cols (fun _ => 0) (l ++ r.norm.map some)
  | none => .throws

/-- On all ranks. (GetDirichletDofs.hpp 56-67) -/
def allMarks (b : Bc) : List Rank → Out (List (Nat → ℚ))
  | [] => .ok []
  | r :: rs => (rankMarks b r).bind fun v => (allMarks b rs).bind fun vs => .ok (v :: vs)

/-- `endAssembly` of the finite element multivector, 70: contributions are added up at the owner. -/
def total (vs : List (Nat → ℚ)) (g : Nat) : ℚ := (vs.map fun v => v g).sum

/-- `doImport` to the column map, 73-78: a dof that no rank owns keeps its initial value. -/
def imported (rs : List Rank) (vs : List (Nat → ℚ)) (g : Nat) : ℚ := if rs.any (fun r => decide (g ∈ r.owned)) then total vs g else 0

/-- `extract_marked_dofs`, 79-97. -/
def extract (gids : List Nat) (v : Nat → ℚ) : List Nat := Std.sort (gids.filter fun g => decide (1 / 2 < v g))

/-- `getDirichletDofs`, 16-103: per rank `owned` and `shared`. -/
def getDirichletDofs (b : Bc) (rs : List Rank) : Out (List (List Nat × List Nat)) :=
  (allMarks b rs).bind fun vs => .ok (rs.map fun r => (extract r.owned (total vs), extract r.cols (imported rs vs)))

/-! ## Matrix-free system -/

/-- A local element: its nodes, and for every side on a boundary the nodes of the side and the id of the boundary (`getBoundaries`,
`getSideNodeIndices`). (LocalDirichletBC.hpp 86-96) -/
structure MfElem where
  nodes : List Nat
  sides : List (List Nat × Nat)

/-- One rank: elements, local dofs of local nodes, the global number of each local dof (owned ones first), and the local dofs it pins
for normalisation. (LocalDirichletBC.hpp 76-85, 111-113) -/
structure MfRank where
  elems : List MfElem
  loc : Nat → List (Option Nat)
  l2g : List Nat
  nOwned : Nat
  norm : List Nat

/-- `dof_bmp`, 88-93: components constrained on boundary `dom`. -/
def sideInds (nd : Nat) (b : Bc) (dom : Nat) : List Nat :=
  trueInds (b.defs.foldl (fun m d => if Std.binarySearch d.doms dom then d.inds.foldl (fun m i => m.set i true) m else m)
    (List.replicate nd false))

/-- `mark_side_dofs`, 84-103: the local dofs marked for one element; components which do not exist are left out. -/
def elemMarks (nd : Nat) (b : Bc) (r : MfRank) (e : MfElem) : List Nat :=
  e.sides.flatMap fun s => s.1.flatMap fun n => (sideInds nd b s.2).filterMap fun i => (r.loc n).getD i none

/-- `is_interior`, MatrixFreeSystem.hpp 974-978. -/
def MfRank.interior (r : MfRank) (e : MfElem) : Bool :=
  e.nodes.all fun n => (r.loc n).all fun o => o.all fun l => decide (l < r.nOwned)

/-- Flags set by normalisation and the elements of the border, when the sends are posted (110-122). -/
def sentFlags (nd : Nat) (b : Bc) (r : MfRank) (l : Nat) : Bool :=
  decide (l ∈ r.norm) || decide (l ∈ (r.elems.filter fun e => !r.interior e).flatMap (elemMarks nd b r))

/-- Flags after the interior elements (123). -/
def ownFlags (nd : Nat) (b : Bc) (r : MfRank) (l : Nat) : Bool :=
  sentFlags nd b r l || decide (l ∈ (r.elems.filter r.interior).flatMap (elemMarks nd b r))

/-- `dirichlet_dofs_bmp.at(dof)`: every index is in range. (LocalDirichletBC.hpp 102, 113) -/
def inRange (nd : Nat) (b : Bc) (r : MfRank) : Bool :=
  (r.norm ++ r.elems.flatMap (elemMarks nd b r)).all fun l => decide (l < r.l2g.length)

/-- Local index of a ghost on rank `q` with the given global dof that was flagged when the sends were posted. (LocalDirichletBC.hpp 122-126) -/
def ghostFlag (nd : Nat) (b : Bc) (q : MfRank) (g : Nat) : Bool :=
  (List.range q.l2g.length).any fun j => decide (q.nOwned ≤ j) && decide (q.l2g.getD j 0 = g) && sentFlags nd b q j

/-- Flag of owned dof `l` after `exporter.wait(fetch_or)` (124). -/
def exported (nd : Nat) (b : Bc) (rs : List MfRank) (r : MfRank) (l : Nat) : Bool :=
  ownFlags nd b r l || rs.any fun q => ghostFlag nd b q (r.l2g.getD l 0)

/-- Position of a global dof among those owned by a rank. (LocalDirichletBC.hpp 117-120) -/
def ownedPos (q : MfRank) (g : Nat) : Option Nat := (List.range q.nOwned).find? fun j => decide (q.l2g.getD j 0 = g)

/-- The rank that owns a dof, and its position there. (LocalDirichletBC.hpp 117-120) -/
def ownerOf (rs : List MfRank) (g : Nat) : Option (MfRank × Nat) := rs.findSome? fun q => (ownedPos q g).map fun j => (q, j)

/-- Flags after the import (125-126). -/
def flags (nd : Nat) (b : Bc) (rs : List MfRank) (r : MfRank) (l : Nat) : Bool :=
  if l < r.nOwned then exported nd b rs r l
  else match ownerOf rs (r.l2g.getD l 0) with
    | some q => exported nd b rs q.1 q.2
    | none => ownFlags nd b r l

/-- The constructor, 74-138: per rank `m_dofs_set` and `m_dofs_sorted`; `none`: an exception. -/
def localDirichlet (nd : Nat) (b : Bc) (rs : List MfRank) : Option (List (List Nat × List Nat)) :=
  if rs.all (inRange nd b) then
    some (rs.map fun r => ((List.range r.l2g.length).filter fun l => flags nd b rs r l,
      Std.sort (((List.range r.l2g.length).filter fun l => flags nd b rs r l).filter fun l => decide (l < r.nOwned))))
  else none

end Verif.DirDofs
