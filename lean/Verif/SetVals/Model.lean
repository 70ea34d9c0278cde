import Verif.NodeVals.Model
import Verif.Reach.Model
import Verif.Pipeline.Model

/-!
# Model of calls to `setValues` and `setDirichletBCValues` with kernels on a distributed mesh

Sources: `/repo/include/l3ster/algsys/ComputeValuesAtNodes.hpp` 316-592, `/repo/include/l3ster/algsys/AssembledSystem.hpp` 158-263,
`/repo/include/l3ster/algsys/MatrixFreeSystem.hpp` (the calls of `computeValuesAtNodes`).

The points at which a kernel is evaluated are those of `Reach` (C123), the local numbers of dofs those of `Dofs` (C39), averaging and
communication those of `NodeVals` (C59).  Here the three are put together: what one call does to the array of values kept by the ranks.
What a kernel returns at a point is a function of the element's type, order and id, of the side and of the position of the node: the id
stands for the coordinates of the vertices and for the values of fields at the nodes.
-/
namespace Verif.SetVals
open Verif Verif.Elem Verif.Mesh Verif.Dofs Verif.Reach Verif.NodeVals Verif.Pipeline

/-- What a kernel returns: type, order, id, side, position of the node, equation, right-hand side. (ComputeValuesAtNodes.hpp 424-425, 570-571) -/
abbrev Kern (K : Type) := ElType → Nat → Nat → Option Nat → Nat → Nat → Nat → K

/-- The kernel at a point: equation, right-hand side. (ComputeValuesAtNodes.hpp 420-425, 565-571) -/
def Kern.at {K : Type} (F : Kern K) (pt : Pt) : Nat → Nat → K := F pt.ty pt.n pt.id pt.side pt.ind

/-- A call: for a domain or boundary kernel, on these domains or boundaries, equation `i` being for component `inds[i]`; dimension of the kernel. (ComputeValuesAtNodes.hpp 371-387, 508-524) -/
structure Call (K : Type) where
  boundary : Bool
  ids : List Nat
  inds : List Nat
  dim : Nat
  kern : Kern K

/-- Points visited in a mesh. (ComputeValuesAtNodes.hpp 339-368 for domains, 473-505 for boundaries) -/
def Call.pts {K : Type} (c : Call K) (m : DomMap) : Option (List Pt) := if c.boundary then asmBnd m c.ids c.dim else asmDom m c.ids c.dim

/-- The same for the two halves of the mesh of a rank of the matrix-free system. (ComputeValuesAtNodes.hpp 371-447, 508-592) -/
def Call.mfPts {K : Type} (c : Call K) (vi vb : View) : Option (List Pt × List Pt) := if c.boundary then mfBnd vi vb c.ids c.dim else mfDom vi vb c.ids c.dim

/-- What is done at the points: for each component the dof and the values of the kernel's equation. (ComputeValuesAtNodes.hpp 426-432, 572-578; `getNodeDofsAtInds`, 76-90) -/
def entriesOf {K : Type} (dofs : Nat → Nat → Option Nat) (inds : List Nat) (F : Kern K) (L : List Pt) : List (Entry K) :=
  L.flatMap fun pt => inds.zipIdx.map fun q => ((dofs pt.node q.1).getD 0, F.at pt q.2)

/-- Number of dofs owned by each rank. (gathered in `getOwnershipDist`, SegmentedOwnership.hpp 53-61) -/
def dofCounts (s : Setup) : List Nat := (List.range s.counts.length).map s.numOwned

/-- Rank which owns a dof and the position of the dof there. (ImportExport.hpp 254-262, SegmentedOwnership.hpp 63-73; the same for the maps of Tpetra) -/
def dofHome (s : Setup) (g : Nat) : Nat × Nat := (Own.getOwner (Own.ownDist (dofCounts s)) g, g - s.base (Own.getOwner (Own.ownDist (dofCounts s)) g))

/-- Numbers of owned dofs and homes of ghosts of rank `r`, with what the rank does on elements at the border and in the interior. (NodeToDofMap.hpp 298-308, 332) -/
def mkRank {K : Type} (s : Setup) (border interior : Nat → List (Entry K)) (r : Nat) : NodeVals.Rank K :=
  ⟨s.numOwned r, (Std.sort (s.sharedDofs r)).map (dofHome s), border r, interior r⟩

/-- All ranks. (the processes of the communicator) -/
def mkWorld {K : Type} (s : Setup) (border interior : Nat → List (Entry K)) : List (NodeVals.Rank K) := (List.range s.counts.length).map (mkRank s border interior)

section
variable {K : Type} [Field K]

/-- A call on the assembled system takes the values `old` (rank, owned dof, right-hand side) to `new`: no rank throws; every rank zeroes the values at all nodes of the
elements of the listed domains or boundaries (`zeroOut`, ComputeValuesAtNodes.hpp 92-110) and adds the kernel's, in any order. (AssembledSystem.hpp 209-228, 242-263) -/
def AsmCall (p : Prog) (parts : List Split.Part) (c : Call K) (old new : Nat → Nat → Nat → K) : Prop :=
  ∃ (L : Nat → List Pt) (ord zero : Nat → List (Entry K)),
    (∀ r < parts.length, c.pts (part parts r).doms = some (L r) ∧
      (ord r).Perm (entriesOf (fun n j => ((p.setup parts).localDof r n j).join) c.inds c.kern (L r)) ∧
      (zero r).Perm (entriesOf (fun n j => ((p.setup parts).localDof r n j).join) c.inds c.kern (asmConst (part parts r).doms c.ids))) ∧
    new = assembledKernel (mkWorld (p.setup parts) ord fun _ => []) old zero

/-- A call on the matrix-free system: `q r` is the mesh of rank `r` with its boundary views, `vi r` and `vb r` its halves; elements are processed in any order, MPI reads the buffers at
any time (`tc`, `tv`). (ComputeValuesAtNodes.hpp 371-447, 508-592) -/
def MfCall (kinds : List (ElType × Nat)) (bnds : List Nat) (p : Prog) (parts : List Split.Part) (c : Call K) (old new : Nat → Nat → Nat → K) : Prop :=
  ∃ (ordM : Nat → Nat → List Element → List Element) (ord : Nat → Bool → Nat → List Element → List Element) (ords : Nat → Bool → Nat → LocView.Orders)
    (border interior init : Nat → List (Entry K)) (tc tv : Nat → Nat → Nat),
    (∀ r k l, (ordM r k l).Perm l) ∧ (∀ r s k l, (ord r s k l).Perm l) ∧ (∀ r s j k l, ((ords r s j k).2 l).Perm l) ∧
    (∀ r < parts.length, ∃ q vi vb a b, MfPipe.rankMesh parts bnds (ordM r) r = some q ∧
      views kinds q (MfPipe.isInterior (p.setup parts) r) (ord r) (ords r) = some (vi, vb) ∧ c.mfPts vi vb = some (a, b) ∧
      (interior r).Perm (entriesOf (MfPipe.nodeDofs (p.setup parts) q.own r) c.inds c.kern a) ∧
      (border r).Perm (entriesOf (MfPipe.nodeDofs (p.setup parts) q.own r) c.inds c.kern b) ∧
      (init r).Perm (border r ++ interior r)) ∧
    new = kernelValues (mkWorld (p.setup parts) border interior) old init tc tv

/-- Calls one after the other on the assembled system. (the user's program; AssembledSystem.hpp 209-228, 242-263) -/
def AsmCalls (p : Prog) (parts : List Split.Part) : List (Call K) → (Nat → Nat → Nat → K) → (Nat → Nat → Nat → K) → Prop
  | [], old, new => new = old
  | c :: cs, old, new => ∃ mid, AsmCall p parts c old mid ∧ AsmCalls p parts cs mid new

/-- Calls one after the other on the matrix-free system. (the user's program; ComputeValuesAtNodes.hpp 371-447, 508-592) -/
def MfCalls (kinds : List (ElType × Nat)) (bnds : List Nat) (p : Prog) (parts : List Split.Part) : List (Call K) → (Nat → Nat → Nat → K) → (Nat → Nat → Nat → K) → Prop
  | [], old, new => new = old
  | c :: cs, old, new => ∃ mid, MfCall kinds bnds p parts c old mid ∧ MfCalls kinds bnds p parts cs mid new

end
end Verif.SetVals
