import Verif.Distr.Props
import Verif.Partition.Props
import Verif.Permute.Props

/-!
# Model of the way from a mesh to the algebraic systems of all ranks

Sources: `/repo/include/l3ster/mesh/PartitionMesh.hpp` (`Partition.partitionImpl`; the answer of METIS is arbitrary),
`/repo/include/l3ster/dofs/NodeToDofMap.hpp` 144-357 (`Dofs.Setup`, here with the parts as input),
`/repo/include/l3ster/dofs/DofsFromNodes.hpp` 72-88, `/repo/include/l3ster/algsys/AssembleGlobalSystem.hpp` (each rank visits the elements
of the kernel's domains in its part).

What a kernel gives at the quadrature points of an element is a function of the element's type, order and id (which stands for the
coordinates of its vertices; node numbers do not enter), and of the side for kernels on boundaries.  No periodic boundaries, no
condensation.  Constrained dofs are those C105 proves to be found.  Elements may be assembled in any order.
-/
namespace Verif.Pipeline
open Verif Verif.Elem Verif.Mesh Verif.Dofs Verif.Lsq Verif.Distr

noncomputable section

/-- A kernel with the domains it is assembled on: components, sizes and data at the quadrature points. (`DomainEquationKernel` and `domain_ids`, AssembleGlobalSystem.hpp 20-31; data used in 42-45) -/
structure Kernel where
  doms : List Nat
  inds : List Nat
  dims : ElType → Nat → Batch.Dims
  pts : ElType → Nat → Nat → List Batch.Upd

/-- A kernel with the boundaries it is assembled on; the data depend on the parent element and its side. (`BoundaryEquationKernel` and `boundary_ids`, AssembleGlobalSystem.hpp 62-73; data used in 85-88) -/
structure BKernel where
  bnds : List Nat
  inds : List Nat
  dims : ElType → Nat → Batch.Dims
  pts : ElType → Nat → Nat → Nat → List Batch.Upd

/-- What the user states: number of components, problem definition (domains with active components), kernels, Dirichlet conditions
(boundaries with components) and prescribed values by (node, component). (arguments of `makeAlgebraicSystem`, MakeAlgebraicSystem.hpp, and of `assembleProblem`) -/
structure Prog where
  dpn : Nat
  pdef : List (List Nat × List Nat)
  kernels : List Kernel
  bkernels : List BKernel
  dirichlet : List (List Nat × List Nat)
  val : Nat × Nat → Nat → ℝ

/-- The elements of a kernel in a mesh, in visiting order. (AssembleGlobalSystem.hpp 37-52) -/
def Kernel.elems (K : Kernel) (m : DomMap) : List MElem :=
  (visitIds m K.doms).map fun e => ⟨e.nodes, K.inds, K.dims e.ty e.n, K.pts e.ty e.n e.id⟩

/-- The boundary elements of a kernel in a mesh: the parents and sides found by `makeBoundaryElementViews` (C23). -/
def BKernel.elems (K : BKernel) (m : DomMap) : List MElem :=
  ((visitIds m K.bnds).filterMap (viewOf m)).map fun v => ⟨v.1.nodes, K.inds, K.dims v.1.ty v.1.n, K.pts v.1.ty v.1.n v.1.id v.2⟩

/-- Everything assembled on a mesh. (AssembleGlobalSystem.hpp 37-52 and 79-95, once per kernel) -/
def Prog.melems (p : Prog) (m : DomMap) : List MElem := (p.kernels.flatMap fun K => K.elems m) ++ p.bkernels.flatMap fun K => K.elems m

/-- Elements visited for the problem definition (`makeLocalDofBmp`, NodeToDofMap.hpp 188-207). -/
def Prog.visits (p : Prog) (m : DomMap) : List Visit := p.pdef.flatMap fun d => (visitIds m d.1).map fun e => ⟨e.nodes, d.2⟩

/-- The problem on the undistributed mesh with nodes `0 … N-1`. -/
def Prog.problem (p : Prog) (m : DomMap) (N : Nat) : MProblem where
  dpn := p.dpn
  node n := n < N
  elems := p.melems m
  visits := p.visits m
  ident _ n n' := n = n'
  dir k := ∃ d ∈ p.dirichlet, k.2 ∈ d.2 ∧ ∃ e ∈ visitIds m d.1, k.1 ∈ e.nodes
  val := p.val

/-- Part `r` (an empty one for ranks which do not exist). (return value of `distributeMesh`, DistributeMesh.hpp 229-248) -/
def part (parts : List Split.Part) (r : Nat) : Split.Part := (parts[r]?).getD ⟨[], ⟨0, 0, []⟩, []⟩

/-- Input of the numbering when rank `r` holds part `r`. (NodeToDofMap.hpp 165-207) -/
def Prog.setup (p : Prog) (parts : List Split.Part) : Setup where
  dpn := p.dpn
  counts := parts.map fun q => q.own.cnt
  ghosts r := (part parts r).own.shared
  pghosts _ := []
  per _ := []
  visits r := p.visits (part parts r).doms

/-- Local to global dofs of a rank. (NodeToDofMap.hpp 144-163 read backwards; `ownership()`) -/
def Prog.l2g (p : Prog) (parts : List Split.Part) (r : Nat) : List Nat :=
  (List.range ((p.setup parts).numOwned r)).map ((p.setup parts).base r + ·) ++ Std.sort ((p.setup parts).sharedDofs r)

/-- The elements a rank assembles: those of its part, with the local dofs its map gives. (AssembleGlobalSystem.hpp 37-52, DofsFromNodes.hpp 72-88) -/
def Prog.rankElems (p : Prog) (parts : List Split.Part) (r : Nat) : List LElem :=
  (p.melems (part parts r).doms).map fun e =>
    ⟨e.nodes.flatMap fun n => e.inds.map fun j => (((p.setup parts).localDof r n j).join).getD 0, e.dims, e.pts⟩

/-- Global dof of component `k.2` at node `k.1` of the distributed mesh. -/
def Prog.dof (p : Prog) (parts : List Split.Part) (k : Nat × Nat) : Nat :=
  ((p.setup parts).dofs ((p.setup parts).owner k.1) k.1 k.2).getD 0

/-- Constrained global dofs: components named on a boundary, at the nodes of its elements in the part of some rank (C105). -/
def Prog.constrained (p : Prog) (parts : List Split.Part) (g : Nat) : Prop :=
  ∃ r < parts.length, ∃ d ∈ p.dirichlet, ∃ e ∈ visitIds (part parts r).doms d.1, ∃ n ∈ e.nodes, ∃ j ∈ d.2, (p.setup parts).dofs r n j = some g

open Classical in
/-- What rank `r` puts into the system, elements in the order `els`. (AssembleGlobalSystem.hpp 20-96, MatrixFreeSystem.hpp 1102-1103) -/
def Prog.rank (p : Prog) (parts : List Split.Part) (els : Nat → List LElem) (vals : Nat → Nat → Nat → ℝ) (r : Nat) : LRank where
  nOwned := (p.setup parts).numOwned r
  l2g := p.l2g parts r
  elems := els r
  bc := some fun d => decide (p.constrained parts ((p.l2g parts r).getD d 0))
  dirOwned := (List.range ((p.setup parts).numOwned r)).filter fun d => decide (p.constrained parts ((p.l2g parts r).getD d 0))
  vals := vals r

/-- A sensible program for the mesh: components exist, kernels live where their components are active and have sizes that fit the
elements, weights are not negative, boundary kernels are on boundaries. (precondition; the sizes are those of the kernel's template parameters, AssembleGlobalSystem.hpp 20-31; dimensions checked in 34-35 and 76-77) -/
structure Prog.Ok (p : Prog) (m : DomMap) (bnds : List Nat) : Prop where
  comps : ∀ d ∈ p.pdef, ∀ j ∈ d.2, j < p.dpn
  active : ∀ K ∈ p.kernels, ∀ k ∈ K.doms, ∃ d ∈ p.pdef, k ∈ d.1 ∧ K.inds ⊆ d.2
  sized : ∀ K ∈ p.kernels, ∀ e ∈ visitIds m K.doms, e.nodes.length = (K.dims e.ty e.n).nb ∧ K.inds.length = (K.dims e.ty e.n).nu
  weights : ∀ K ∈ p.kernels, ∀ t n i, ∀ U ∈ K.pts t n i, 0 ≤ U.w
  bnds : ∀ K ∈ p.bkernels, K.bnds ⊆ bnds
  bactive : ∀ K ∈ p.bkernels, ∀ x ∈ visitIds m K.bnds, ∀ e s, viewOf m x = some (e, s) → ∀ k, Partition.InDom m k e → ∃ d ∈ p.pdef, k ∈ d.1 ∧ K.inds ⊆ d.2
  bsized : ∀ K ∈ p.bkernels, ∀ x ∈ visitIds m K.bnds, ∀ e s, viewOf m x = some (e, s) →
    e.nodes.length = (K.dims e.ty e.n).nb ∧ K.inds.length = (K.dims e.ty e.n).nu
  bweights : ∀ K ∈ p.bkernels, ∀ t n i s, ∀ U ∈ K.pts t n i s, 0 ≤ U.w

/-- Boundary elements are sides of one element only (not faces inside a domain). (precondition on the mesh; the search is BoundaryView.hpp, area Mesh, C23) -/
def UniqueParent (m : DomMap) (bnds : List Nat) : Prop :=
  ∀ b ∈ bnds, ∀ x, Partition.InDom m b x → ∀ e s e' s', IsParent m x e s → IsParent m x e' s' → e = e' ∧ s = s'

/-- Component `k.2` at node `k.1` of the mesh is an unknown: some element of a domain where the component is active has the node. -/
def Prog.unknown (p : Prog) (m : DomMap) (k : Nat × Nat) : Prop := ∃ d ∈ p.pdef, k.2 ∈ d.2 ∧ ∃ e ∈ visitIds m d.1, k.1 ∈ e.nodes

/-- Component `k.2` at node `k.1` is prescribed. -/
def Prog.prescribed (p : Prog) (m : DomMap) (k : Nat × Nat) : Prop := ∃ d ∈ p.dirichlet, k.2 ∈ d.2 ∧ ∃ e ∈ visitIds m d.1, k.1 ∈ e.nodes

/-- Nodes owned and ghosts of all parts. (arguments of Permute, DistributeMesh.hpp 78-92) -/
def world (parts : List Split.Part) : Own.World := ⟨parts.map fun q => q.own.cnt, parts.map fun q => q.own.shared⟩

/-- Part `p` as its new rank gets it (`permuteMesh`, `/repo/include/l3ster/comm/DistributeMesh.hpp` 107-120; `reindexNodes`, `MeshPartition.hpp` 168-182).
Elements have only nodes the part knows, for which `old2new` is defined.  Boundary views refer to the elements and are not needed here. -/
def reindexed (parts : List Split.Part) (src : List Nat) (p : Nat) : Option Split.Part :=
  (Permute.reindexedOwn (world parts) src p).map fun o =>
    ⟨Partition.mapDoms (fun g => (Permute.old2new (world parts) src p g).getD 0) (part parts p).doms, o, []⟩

/-- Rank `q` receives part `src[q]`. (DistributeMesh.hpp 107-120 on all ranks) -/
def reorder (parts : List Split.Part) (src : List Nat) : Option (List Split.Part) := src.mapM (reindexed parts src)

/-- What `distributeMesh` may return on `nParts` ranks (`/repo/include/l3ster/comm/DistributeMesh.hpp` 229-248): the mesh itself on one rank,
else the parts made from whatever labels the partitioner gives; then possibly the parts reordered (207-213, if asked for), by permutations
allowed by `Q`.  `f` is the new number of a node. -/
inductive Outcome (Q : List Split.Part → List Nat → Prop) (kinds : List (ElType × Nat)) (m : DomMap) (bnds : List Nat) : Nat → List Split.Part → (Nat → Nat) → Prop
  | whole (N : Nat) (hN : ∀ x, NodeIn m x ↔ x < N) (views : List (Nat × List (Element × Nat))) : Outcome Q kinds m bnds 1 [⟨m, ⟨0, N, []⟩, views⟩] id
  | parts (nParts : Nat) (epart npart perm : List Nat) (hl : Partition.Labels m bnds nParts epart npart perm)
      (shuffle : List (Nat × Nat × Element) → List (Nat × Nat × Element)) (ord : Nat → Nat → List Element → List Element)
      (hshuf : ∀ l, (shuffle l).Perm l) (hord : ∀ i k l, (ord i k l).Perm l) (parts : List Split.Part) (φ : Algo.AMap Nat Nat)
      (h : Partition.partitionImpl kinds m bnds nParts epart npart perm shuffle ord = some (parts, φ)) :
      Outcome Q kinds m bnds nParts parts fun x => (φ.find x).getD 0
  | reordered (nParts : Nat) (parts : List Split.Part) (f : Nat → Nat) (h : Outcome Q kinds m bnds nParts parts f) (src : List Nat)
      (hsrc : src.Perm (List.range nParts)) (hQ : Q parts src) (parts' : List Split.Part) (h' : reorder parts src = some parts') :
      Outcome Q kinds m bnds nParts parts' fun x => Permute.newId (world parts) src (f x)

/-- No reordering (`optimize = false`, the default). (DistributeMesh.hpp 15) -/
def NoReorder (_ : List Split.Part) (_ : List Nat) : Prop := False

/-- Reordering under which the ghosts of every part keep their order. (condition under which 100-104 of DistributeMesh.hpp give a sorted list, C38) -/
def Monotone (parts : List Split.Part) (src : List Nat) : Prop :=
  ∀ p < parts.length, ((part parts p).own.shared.map (Permute.newId (world parts) src)).Pairwise (· < ·)

/-- Any reordering. (DistributeMesh.hpp 47-53: whatever MPI returns) -/
def AnyReorder (_ : List Split.Part) (_ : List Nat) : Prop := True

/-- The values `v` by global dof are those prescribed. (precondition; what C105 proves of DirichletBC.hpp) -/
def Prog.Values (p : Prog) (m : DomMap) (parts : List Split.Part) (f : Nat → Nat) (v : Nat → Nat → ℝ) : Prop :=
  ∀ k, p.unknown m k → p.prescribed m k → ∀ c, v (p.dof parts (f k.1, k.2)) c = p.val k c

end

end Verif.Pipeline
