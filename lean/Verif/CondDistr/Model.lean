import Verif.Distr.Props
import Verif.CondRace.Props
import Verif.Condense.Props

/-!
# Model of a condensed solve on a distributed mesh

Sources: `/repo/include/l3ster/algsys/StaticCondensationManager.hpp` 321-473 (`condenseSystemImpl`, `endAssemblyImpl`,
`recoverSolutionImpl`), `/repo/include/l3ster/dofs/NodeToDofMap.hpp` 144-357 (numbering; only primary nodes are visited with
`ElementBoundary`, 188-207), `/repo/include/l3ster/dofs/DofsFromNodes.hpp` 24-88, `/repo/include/l3ster/algsys/ScatterLocalSystem.hpp`,
`/repo/include/l3ster/algsys/AssembledSystem.hpp` 360-453.

Composed from the models of the numbering (area Dofs, via `Distr.Run`), of the index bookkeeping (Condense), of the parallel additions to
the blocks of the elements (CondRace: the sums, under the conditions of C115) and of the global assembly (Lsq).  Exact real arithmetic;
`inverse()` is the inverse matrix.  An element visited for several definitions of the problem has the union of their components.
-/
namespace Verif.CondDistr
open Verif Verif.Dofs Verif.Lsq Verif.Distr Verif.Condense Verif.CondInit Verif.CondRace Finset

noncomputable section

/-- A kernel applied to an element: components, sizes, data at the quadrature points. (AssembleGlobalSystem.hpp 37-48, 79-91) -/
structure CKer where
  inds : List Nat
  dims : Batch.Dims
  pts : List Batch.Upd

/-- An element with the components the problem defines in its domain and the kernels applied to it or its sides. (StaticCondensationManager.hpp 288-305; AssembleGlobalSystem.hpp 37-48, 79-91) -/
structure CEl where
  el : El
  active : List Nat
  kernels : List CKer

/-- The problem on the mesh before distribution. (AssembledSystem.hpp 321-325, 408-414) -/
structure CProblem where
  dpn : Nat
  node : Nat → Prop
  els : List CEl
  ident : Nat → Nat → Nat → Prop
  dir : Nat × Nat → Prop
  val : Nat × Nat → Nat → ℝ

/-- The problem as solved without condensation. (AssembledSystem.hpp 408-436 with `CondensationPolicy::None`) -/
def CProblem.full (C : CProblem) : MProblem where
  dpn := C.dpn
  node := C.node
  elems := C.els.flatMap fun e => e.kernels.map fun k => ⟨e.el.nodes, k.inds, k.dims, k.pts⟩
  visits := C.els.map fun e => ⟨e.el.nodes, e.active⟩
  ident := C.ident
  dir := C.dir
  val := C.val

/-- What the numbering sees with condensation: the primary nodes of the elements. (NodeToDofMap.hpp 188-207, `getPrimaryNodesArray`) -/
def CProblem.prim (C : CProblem) : MProblem where
  dpn := C.dpn
  node := C.node
  elems := []
  visits := C.els.map fun e => ⟨e.el.bndNodes, e.active⟩
  ident := C.ident
  dir := C.dir
  val := C.val

/-- A condensed run: the numbering of the primary dofs, the elements of each rank, and global dofs by local index in the row map, the
column map and the map of the right-hand side of each rank. (AssembledSystem.hpp 329-345; NodeToDofMap.hpp 30-75) -/
structure CRun where
  R : Run
  parts : Nat → List CEl
  rowM : Nat → List Nat
  colM : Nat → List Nat
  vecM : Nat → List Nat

variable (Q : CRun)

/-- Component `j` of (original) node `n` has a dof in the map of rank `r`. (NodeToDofMap.hpp 25-40, `isValid`) -/
def CRun.valid (r n j : Nat) : Bool := (Q.R.s.dofs r (Q.R.new n) j).isSome

/-- Global dof of a (node, component) pair in the map of rank `r`. (NodeToDofMap.hpp 25-40) -/
def CRun.gdof (r : Nat) (k : Nat × Nat) : Nat := (Q.R.s.dofs r (Q.R.new k.1) k.2).getD 0

/-- What the index bookkeeping of rank `r` knows about the element. (StaticCondensationManager.hpp 482-508) -/
def CRun.info (r : Nat) (e : CEl) : ElInfo := e.el.info Q.R.s.dpn (Q.valid r)

/-- The (node, component) pair at a position of the element. (Element.hpp 17-32) -/
def CEl.key (e : CEl) (q : Nat × Nat) : Nat × Nat := (e.el.nodes.getD q.1 0, q.2)

/-- A local system scattered by rank `r` at the dofs of `keys`: local indices by the three maps. (DofsFromNodes.hpp 24-88, NodeToDofMap.hpp 60-75, ScatterLocalSystem.hpp 40-52) -/
def CRun.scat (r : Nat) (keys : List (Nat × Nat)) (mat rhs : Nat → Nat → ℝ) : AElem :=
  ⟨keys.map fun k => (Q.rowM r).idxOf (Q.gdof r k), keys.map fun k => (Q.colM r).idxOf (Q.gdof r k), keys.map fun k => (Q.vecM r).idxOf (Q.gdof r k), mat, rhs⟩

/-- Position in the kernel's local system of the `i`-th primary unknown, `primary_src_inds`. (StaticCondensationManager.hpp 482-535) -/
def CRun.src (r : Nat) (e : CEl) (k : CKer) (i : Nat) : Nat := ((computeInds (Q.info r e) k.inds).prim.getD i (0, 0)).1

/-- Primary part of a local system, 366-382. -/
def CRun.kerEvent (r : Nat) (e : CEl) (k : CKer) : AElem :=
  Q.scat r (e.el.bndNodes.flatMap fun n => k.inds.map fun j => (n, j)) (fun i j => Batch.directMat k.dims k.pts (Q.src r e k i) (Q.src r e k j))
    fun i c => Batch.directRhs k.dims k.pts (Q.src r e k i) c

/-- The calls of `condenseSystemImpl` for an element. (AssembleGlobalSystem.hpp 45-47, 88-90) -/
def CRun.tasks (nc r : Nat) (e : CEl) : List (CondRace.Task ℝ) :=
  e.kernels.map fun k => ⟨e.el.id, Q.info r e, k.inds, nc, Batch.directMat k.dims k.pts, Batch.directRhs k.dims k.pts⟩

/-- Number of condensed unknowns of the element. (StaticCondensationManager.hpp 298-303) -/
def CRun.nI (r : Nat) (e : CEl) : Nat := (condDofs (Q.info r e)).length
/-- Number of primary unknowns of the element. (StaticCondensationManager.hpp 298-303) -/
def CRun.nB (r : Nat) (e : CEl) : Nat := (primaryDofs (Q.info r e)).length

/-- `diag_block` at the end of the assembly: C115. (StaticCondensationManager.hpp 385-392) -/
def CRun.diag (nc r : Nat) (e : CEl) : Matrix (Fin (Q.nI r e)) (Fin (Q.nI r e)) ℝ := fun a b => ((Q.tasks nc r e).map fun t => t.wanted (.diag a b)).sum
/-- `upper_block` at the end of the assembly: C115. (StaticCondensationManager.hpp 398-406) -/
def CRun.upper (nc r : Nat) (e : CEl) : Matrix (Fin (Q.nB r e)) (Fin (Q.nI r e)) ℝ := fun a b => ((Q.tasks nc r e).map fun t => t.wanted (.upper a b)).sum
/-- `rhs` at the end of the assembly, column `c`: C115. (StaticCondensationManager.hpp 393-394) -/
def CRun.rhsI (nc r : Nat) (e : CEl) (c : Nat) : Fin (Q.nI r e) → ℝ := fun a => ((Q.tasks nc r e).map fun t => t.wanted (.rhs a c)).sum

/-- `primary_upd_mat`, 338. -/
def CRun.updMat (nc r : Nat) (e : CEl) : Matrix (Fin (Q.nB r e)) (Fin (Q.nB r e)) ℝ :=
  -(Q.upper nc r e * (Q.diag nc r e)⁻¹ * (Q.upper nc r e).transpose)
/-- `primary_upd_rhs`, column `c`, 339. -/
def CRun.updRhs (nc r : Nat) (e : CEl) (c : Nat) : Fin (Q.nB r e) → ℝ := -((Q.upper nc r e * (Q.diag nc r e)⁻¹).mulVec (Q.rhsI nc r e c))

/-- What `endAssemblyImpl` scatters for the element, 335-342. -/
def CRun.finalEvent (nc r : Nat) (e : CEl) : AElem :=
  Q.scat r ((primaryDofs (Q.info r e)).map e.key)
    (fun i j => if h : i < Q.nB r e ∧ j < Q.nB r e then Q.updMat nc r e ⟨i, h.1⟩ ⟨j, h.2⟩ else 0)
    (fun i c => if h : i < Q.nB r e then Q.updRhs nc r e c ⟨i, h⟩ else 0)

/-- Everything a rank scatters. (StaticCondensationManager.hpp 382, 342) -/
def CRun.events (nc r : Nat) : List AElem := (Q.parts r).flatMap fun e => e.kernels.map (Q.kerEvent r e) ++ [Q.finalEvent nc r e]

/-- Maps of a rank: global index by local index. (`getGlobalElement` of the Tpetra maps) -/
def CRun.maps (r : Nat) : AMaps := ⟨fun a => (Q.rowM r).getD a 0, fun a => (Q.colM r).getD a 0, fun a => (Q.vecM r).getD a 0⟩

/-- The condensed matrix after `endAssembly`, when rank `q` makes its additions in the order `um q`. (AssembledSystem.hpp 374-397) -/
def CRun.mat (um : Nat → List ((Nat × Nat) × ℝ)) (g h : Nat) : ℝ :=
  globalMat Q.R.nr Q.maps (fun q => List.range (Q.rowM q).length) (fun q => List.range (Q.colM q).length) um g h
/-- The condensed right-hand side. (AssembledSystem.hpp 374-397) -/
def CRun.rhs (uv : Nat → List ((Nat × Nat) × ℝ)) (g c : Nat) : ℝ :=
  globalVec Q.R.nr Q.maps (fun q => List.range (Q.vecM q).length) uv g c

/-- The system handed to the solver: Dirichlet conditions imposed on the condensed system. (AssembledSystem.hpp 395-396, 439-453, DirichletBC.hpp; C43) -/
def SolvesSys (N : Nat) (D : Nat → Prop) [DecidablePred D] (A : Nat → Nat → ℝ) (B v x : Nat → ℝ) : Prop :=
  ∀ g < N, ∑ h ∈ range N, MatFree.withBC D A g h * x h = if D g then v g else B g - ∑ h ∈ range N, if D h then A g h * v h else 0

/-- Internal values of the element computed from the primary solution, 439. -/
def CRun.recover (nc r : Nat) (e : CEl) (c : Nat) (x : Nat → ℝ) : Fin (Q.nI r e) → ℝ :=
  (Q.diag nc r e)⁻¹.mulVec (Q.rhsI nc r e c - (Q.upper nc r e).transpose.mulVec fun b => x (Q.gdof r (e.key ((primaryDofs (Q.info r e)).get b))))

/-- The field `updateSolution` leaves when the condensed system has been solved by `x`: the primary values, and the recovered ones at
internal nodes. (StaticCondensationManager.hpp 409-473; C99, C75) -/
structure CRun.Gives (C : CProblem) (nc c : Nat) (x : Nat → ℝ) (f : Nat × Nat → ℝ) : Prop where
  prim : ∀ k, C.prim.toProblem.used k → f k = x (Q.R.num k)
  int : ∀ r < Q.R.nr, ∀ e ∈ Q.parts r, ∀ a : Fin (Q.nI r e), f (e.key ((condDofs (Q.info r e)).get a)) = Q.recover nc r e c x a

/-- The run is one of the problem: consistent numbering of the primary nodes (`Run.Of`), every element on one rank, maps injective and
holding the dofs of the elements of the rank. (AssembledSystem.hpp 329-345; C39, C40, C42) -/
structure CRun.Of (C : CProblem) : Prop where
  run : Q.R.Of C.prim
  marked : Q.R.Marked
  els : ((List.range Q.R.nr).flatMap Q.parts).Perm C.els
  vpart : ∀ r < Q.R.nr, Q.R.vpart r = (Q.parts r).map fun e => ⟨e.el.bndNodes, e.active⟩
  nodup : ∀ r < Q.R.nr, (Q.rowM r).Nodup ∧ (Q.colM r).Nodup ∧ (Q.vecM r).Nodup
  held : ∀ r < Q.R.nr, ∀ e ∈ Q.parts r, ∀ n ∈ e.el.bndNodes, ∀ j g, Q.R.s.dofs r (Q.R.new n) j = some g → g ∈ Q.rowM r ∧ g ∈ Q.colM r ∧ g ∈ Q.vecM r

/-- A sensible problem: components exist; kernels have components which the problem has, each once, sizes which fit and no negative
weight; elements have nodes; internal nodes belong to one element and are neither identified with others nor prescribed. (conditions on the input of AssembledSystem.hpp 321-325, 408-414) -/
structure CProblem.Sensible (C : CProblem) : Prop where
  nodes : ∀ e ∈ C.els, ∀ n ∈ e.el.nodes, C.node n
  active : ∀ e ∈ C.els, ∀ j ∈ e.active, j < C.dpn
  subset : ∀ e ∈ C.els, ∀ k ∈ e.kernels, k.inds ⊆ e.active ∧ k.inds.Nodup
  sized : ∀ e ∈ C.els, ∀ k ∈ e.kernels, e.el.nodes.length = k.dims.nb ∧ k.inds.length = k.dims.nu
  weights : ∀ e ∈ C.els, ∀ k ∈ e.kernels, ∀ U ∈ k.pts, 0 ≤ U.w
  refl : ∀ j n, C.node n → C.ident j n n
  distinct : (C.els.flatMap fun e => e.el.intNodes).Nodup
  apart : ∀ e ∈ C.els, ∀ n ∈ e.el.intNodes, ∀ e' ∈ C.els, n ∉ e'.el.bndNodes
  single : ∀ e ∈ C.els, ∀ n ∈ e.el.intNodes, ∀ j n', (C.ident j n n' ∨ C.ident j n' n) → n = n'
  free : ∀ e ∈ C.els, ∀ n ∈ e.el.intNodes, ∀ j, ¬ C.dir (n, j)

/-- Moreover kernels list their components in increasing order (C53), and the components at all boundary nodes of an element are those
of its domain (C99). (conditions on the input of AssembledSystem.hpp 321-325, 408-414) -/
structure CProblem.Ok (C : CProblem) : Prop extends C.Sensible where
  sorted : ∀ e ∈ C.els, ∀ k ∈ e.kernels, k.inds.Pairwise (· < ·)
  tight : ∀ e ∈ C.els, ∀ j < C.dpn, (∀ n ∈ e.el.bndNodes, C.prim.toProblem.used (n, j)) → j ∈ e.active

theorem CProblem.Ok.inds {C : CProblem} (h : C.Ok) : ∀ e ∈ C.els, ∀ k ∈ e.kernels, k.inds ⊆ e.active ∧ k.inds.Pairwise (· < ·) :=
  fun e he k hk => ⟨(h.subset e he k hk).1, h.sorted e he k hk⟩

end

end Verif.CondDistr
