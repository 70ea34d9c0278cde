import Verif.Distr.Spec
import Verif.Dofs.Props

/-!
# Model of a run of the program on a distributed mesh, up to the algebraic system

Sources: `/repo/include/l3ster/dofs/NodeToDofMap.hpp` lines 144-357 (numbering; `Dofs.Setup`), `/repo/include/l3ster/dofs/DofsFromNodes.hpp`
lines 32-56, 72-88 (dofs of an element: nodes outside, components inside), `/repo/include/l3ster/algsys/AssembleGlobalSystem.hpp`
(`assembleGlobalSystem`: every rank the elements of its own part).

A run is described by what distribution makes of the mesh: the new number of each node, the elements of each rank, the ghosts.  The
constrained dofs are those C105 proves to be found; the data at quadrature points does not depend on node numbers.
-/
namespace Verif.Distr
open Verif Verif.Dofs Verif.Lsq Finset

noncomputable section

/-- An (element, kernel) pair of the mesh before distribution: nodes, components of the kernel, sizes, data of the quadrature points. (AssembleGlobalSystem.hpp, arguments of `assembleGlobalSystem` 20-31; Element.hpp 17-32) -/
structure MElem where
  nodes : List Nat
  inds : List Nat
  dims : Batch.Dims
  pts : List Batch.Upd

/-- The unknowns of an element in the order of `getDofsFromNodes`, DofsFromNodes.hpp 72-88. -/
def MElem.keyed (e : MElem) : KElem (Nat × Nat) := ⟨e.nodes.flatMap fun n => e.inds.map fun j => (n, j), e.dims, e.pts⟩

/-- The problem on the mesh before distribution: nodes, elements with kernels, elements visited for the problem definition with the
components active there, nodes identified in a component (periodic boundaries; equality where there are none), Dirichlet
conditions. (the arguments of AssembledSystem.hpp 321-325 and 408-414) -/
structure MProblem where
  dpn : Nat
  node : Nat → Prop
  elems : List MElem
  visits : List Visit
  ident : Nat → Nat → Nat → Prop
  dir : Nat × Nat → Prop
  val : Nat × Nat → Nat → ℝ

/-- Unknowns are pairs of a node and a component, in use if the component is active at the node or one identified with it. (specification; unknowns as in NodeToDofMap.hpp 144-208) -/
def MProblem.toProblem (P : MProblem) : Problem (Nat × Nat) where
  elems := P.elems.map MElem.keyed
  used k := P.node k.1 ∧ k.2 < P.dpn ∧ ∃ v ∈ P.visits, ∃ m ∈ v.nodes, k.2 ∈ v.active ∧ P.ident k.2 m k.1
  same k k' := k.2 = k'.2 ∧ P.ident k.2 k.1 k'.1
  dir := P.dir
  val := P.val

/-- A run: input of the numbering on all ranks, new numbers of the nodes, elements of each rank, and the Dirichlet data. (AssembledSystem.hpp 329-331, 350-352) -/
structure Run where
  s : Setup
  new : Nat → Nat
  part : Nat → List MElem
  vpart : Nat → List Visit
  bc : Nat → Option (Nat → Bool)
  dirOwned : Nat → List Nat
  vals : Nat → Nat → Nat → ℝ
  v : Nat → Nat → ℝ

/-- Global dofs of a rank by local index: its block, then the shared ones (SegmentedOwnership.hpp 42-45). -/
def Run.l2g (R : Run) (r : Nat) : List Nat := (List.range (R.s.numOwned r)).map (R.s.base r + ·) ++ Std.sort (R.s.sharedDofs r)

/-- The element on rank `r`: local dofs from the map of the rank (NodeToDofMap.hpp 152-162, DofsFromNodes.hpp 72-88). -/
def Run.elem (R : Run) (r : Nat) (e : MElem) : LElem :=
  ⟨(e.nodes.map R.new).flatMap fun n => e.inds.map fun j => ((R.s.localDof r n j).join).getD 0, e.dims, e.pts⟩

/-- What a rank puts into the algebraic system. (AssembledSystem.hpp 408-436) -/
def Run.rank (R : Run) (r : Nat) : LRank :=
  ⟨R.s.numOwned r, R.l2g r, (R.part r).map (R.elem r), R.bc r, R.dirOwned r, R.vals r⟩

/-- Number of ranks. (NodeToDofMap.hpp 144-357, `comm.getSize()`) -/
def Run.nr (R : Run) : Nat := R.s.counts.length

/-- Global number of component `k.2` at the node which was `k.1` before distribution, in the table of its owner. -/
def Run.num (R : Run) (k : Nat × Nat) : Nat := (R.s.dofs (R.s.owner (R.new k.1)) (R.new k.1) k.2).getD 0

/-- The constrained numbers. (AssembledSystem.hpp 346-354) -/
def Run.D (R : Run) (P : MProblem) (g : Nat) : Prop := ∃ k, P.toProblem.used k ∧ P.dir k ∧ R.num k = g

/-- Rank `r` visits the nodes and components of `ws`, possibly in other portions, and knows the nodes. (NodeToDofMap.hpp 186-208) -/
def Run.Sees (R : Run) (r : Nat) (ws : List Visit) : Prop :=
  (∀ m j, (∃ w ∈ R.s.visits r, m ∈ w.nodes ∧ j ∈ w.active) ↔ ∃ w ∈ ws, m ∈ w.nodes.map R.new ∧ j ∈ w.active) ∧ ∀ w ∈ ws, ∀ n ∈ w.nodes, R.s.Knows r (R.new n)

/-- The run is one of the problem: the numbering gets consistent input (`Setup.Ok`), nodes are renumbered onto `[0, n)`, every element is
on one rank, with its nodes known there, identified nodes have one representative. -/
structure Run.Of (R : Run) (P : MProblem) : Prop where
  ok : R.s.Ok
  dpn : R.s.dpn = P.dpn
  nodes : ∀ m, m < R.s.counts.sum ↔ ∃ n, P.node n ∧ R.new n = m
  elems : ((List.range R.nr).flatMap R.part).Perm P.elems
  visits : ((List.range R.nr).flatMap R.vpart).Perm P.visits
  setup : ∀ r < R.nr, R.Sees r (R.vpart r)
  covered : ∀ r < R.nr, ∀ e ∈ R.part r, ∃ w ∈ R.vpart r, e.nodes ⊆ w.nodes ∧ e.inds ⊆ w.active
  ident : ∀ j n n', P.node n → P.node n' → (R.s.rep (R.new n) j = R.s.rep (R.new n') j ↔ P.ident j n n')
  con : ∀ r < R.nr, ∀ d < (R.l2g r).length, (R.rank r).toI.toRank.con d = true ↔ R.D P ((R.l2g r).getD d 0)
  dir : ∀ r < R.nr, (R.dirOwned r).Nodup ∧ ∀ d, d ∈ R.dirOwned r ↔ d < R.s.numOwned r ∧ (R.rank r).toI.toRank.con d = true
  val : ∀ k, P.toProblem.used k → P.dir k → ∀ c, R.v (R.num k) c = P.val k c

/-- A redirected node at which a component is active is visited with that component on the rank owning it (always so on one rank and
without periodic conditions). (condition on the input of NodeToDofMap.hpp 178-208) -/
def Run.Marked (R : Run) : Prop :=
  ∀ j m, R.s.Active m j → R.s.lookup (R.s.owner m) m j ≠ none → ∃ w ∈ R.s.visits (R.s.owner m), m ∈ w.nodes ∧ j ∈ w.active

/-- Well-posed input: one unknown per local position, elements visited with the components of their kernels, no negative weight. (condition on the input of AssembledSystem.hpp 321-325, 408-414) -/
structure MProblem.Ok (P : MProblem) : Prop where
  sized : ∀ e ∈ P.elems, e.nodes.length = e.dims.nb ∧ e.inds.length = e.dims.nu
  covered : ∀ e ∈ P.elems, ∃ w ∈ P.visits, e.nodes ⊆ w.nodes ∧ e.inds ⊆ w.active
  node : ∀ w ∈ P.visits, (∀ n ∈ w.nodes, P.node n) ∧ ∀ j ∈ w.active, j < P.dpn
  refl : ∀ j n, P.node n → P.ident j n n
  weights : ∀ e ∈ P.elems, ∀ U ∈ e.pts, 0 ≤ U.w

end

end Verif.Distr
