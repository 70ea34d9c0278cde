import Verif.PerPipe.Props
import Verif.CondDistr.Props

/-!
# Model of the way from a mesh to the solution with static condensation

Sources: `/repo/include/l3ster/algsys/AssembledSystem.hpp` 321-453 with `CondensationPolicy::ElementBoundary`,
`/repo/include/l3ster/algsys/StaticCondensationManager.hpp` 258-473, `/repo/include/l3ster/dofs/NodeToDofMap.hpp` 144-357,
`/repo/include/l3ster/mesh/ElementTraits.hpp` 22-59 (boundary and internal nodes), on top of the models of partitioning (area Pipeline),
periodic boundaries (PerPipe) and condensation on given ranks (CondDistr).

The condensed elements of a rank are those of the domains of the problem definition in its part.  Kernels on a boundary are applied to
the parent elements of its sides.
-/
namespace Verif.CondPipe
open Verif Verif.Elem Verif.Mesh Verif.Dofs Verif.Lsq Verif.Distr Verif.Pipeline Verif.Partition Verif.Split Verif.PerPipe Verif.CondInit Verif.CondDistr

noncomputable section

/-- An element of domain `k` as the manager sees it. (Element.hpp 17-47, ElementTraits.hpp 22-59) -/
def toEl (k : Nat) (e : Element) : El := ⟨e.id, k, e.nodes, fun v => decide (v ∈ boundaryInds e.ty e.n)⟩

/-- Is domain `k` one of the problem definition? (`getDomains`, ProblemDefinition.hpp; StaticCondensationManager.hpp 305) -/
def hasDom (p : Prog) (k : Nat) : Bool := p.pdef.any fun d => decide (k ∈ d.1)

/-- Components active in domain `k`. (ProblemDefinition.hpp; NodeToDofMap.hpp 186-208) -/
def activeIn (p : Prog) (k : Nat) : List Nat := (List.range p.dpn).filter fun j => p.pdef.any fun d => decide (k ∈ d.1) && decide (j ∈ d.2)

/-- Local systems computed for element `e` of domain `k`: one per kernel of the domain, one per side on a boundary with a kernel. (AssembleGlobalSystem.hpp 37-52, 79-95) -/
def kersOf (p : Prog) (m : DomMap) (k : Nat) (e : Element) : List CKer :=
  (p.kernels.flatMap fun K => (K.doms.filter fun k' => decide (k' = k)).map fun _ => ⟨K.inds, K.dims e.ty e.n, K.pts e.ty e.n e.id⟩) ++
  p.bkernels.flatMap fun K => (((visitIds m K.bnds).filterMap (viewOf m)).filter fun v => decide (v.1 = e)).map fun v =>
    ⟨K.inds, K.dims e.ty e.n, K.pts e.ty e.n e.id v.2⟩

/-- Elements of the domains of the problem definition with their domains. (StaticCondensationManager.hpp 305) -/
def entries (p : Prog) (m : DomMap) : List (Nat × Element) := tagged m ((m.map (·.1)).filter (hasDom p))

/-- The condensed elements of a mesh. (StaticCondensationManager.hpp 288-305) -/
def cels (p : Prog) (m : DomMap) : List CEl := (entries p m).map fun q => ⟨toEl q.1 q.2, activeIn p q.1, kersOf p m q.1 q.2⟩

/-- What the numbering visits: the primary nodes of the elements, once for every definition. (NodeToDofMap.hpp 186-208) -/
def cvisits (p : Prog) (m : DomMap) : List Visit := p.pdef.flatMap fun d => (visitIds m d.1).map fun e => ⟨(toEl 0 e).bndNodes, d.2⟩

/-- Input of the numbering of the primary dofs. (NodeToDofMap.hpp 165-207) -/
def csetup (p : Prog) (parts : List Part) : Setup := { p.setup parts with visits := fun r => cvisits p (part parts r).doms }

/-- … with periodic boundaries; `none`: the constructor of `PeriodicBC` throws. (PeriodicBC.hpp 325-358, NodeToDofMap.hpp 165-207) -/
def pcsetup (p : PProg) (o : Orders) (pos : Nat → List ℝ) (parts : List Part) : Option Setup :=
  (p.groups o pos parts).map fun gs => (csetup p.toProg parts).withPeriodic (strip gs)

/-- The element with other names for its nodes. (only names change) -/
def CEl.rename (g : Nat → Nat) (e : CEl) : CEl := ⟨⟨e.el.id, e.el.dom, e.el.nodes.map g, e.el.bnd⟩, e.active, e.kernels⟩

/-- The condensed run on a distributed mesh.  `f` gives the new name of a node and `g` the old one; `rowM`, `colM`, `vecM` are the maps of
the ranks, `v` the prescribed values. (AssembledSystem.hpp 321-345) -/
def crun (p : Prog) (s : Setup) (parts : List Part) (f g : Nat → Nat) (v : Nat → Nat → ℝ) (rowM colM vecM : Nat → List Nat) : CRun where
  R := {
    s := s
    new := f
    part := fun _ => []
    vpart := fun r => (((cels p (part parts r).doms).map (CEl.rename g))).map fun e => ⟨e.el.bndNodes, e.active⟩
    bc := fun r => (rank p s parts (fun _ => []) (fun _ _ _ => 0) r).bc
    dirOwned := fun r => (rank p s parts (fun _ => []) (fun _ _ _ => 0) r).dirOwned
    vals := fun _ _ _ => 0
    v := v }
  parts := fun r => (cels p (part parts r).doms).map (CEl.rename g)
  rowM := rowM
  colM := colM
  vecM := vecM

/-- The maps of a rank are injective and hold the dofs its nodes have. (AssembledSystem.hpp 329-345; C40, C42) -/
def MapsOk (s : Setup) (parts : List Part) (rowM colM vecM : Nat → List Nat) : Prop :=
  ∀ r < parts.length, (rowM r).Nodup ∧ (colM r).Nodup ∧ (vecM r).Nodup ∧
    ∀ y, NodeIn (part parts r).doms y → ∀ j d, s.dofs r y j = some d → d ∈ rowM r ∧ d ∈ colM r ∧ d ∈ vecM r

open Classical in
/-- `x` solves the condensed system of the run, assembled with the additions `um`, `uv` in the order of the ranks, with the Dirichlet conditions
found on the parts. (AssembledSystem.hpp 374-397, 439-453) -/
def CSolution (p : Prog) (s : Setup) (parts : List Part) (Q : CRun) (um uv : Nat → List ((Nat × Nat) × ℝ)) (v : Nat → Nat → ℝ) (c : Nat) (x : Nat → ℝ) : Prop :=
  SolvesSys s.total (constrained p s parts) (Q.mat um) (fun g => Q.rhs uv g c) (fun g => v g c) x

/-! ### What the user means -/

/-- Component `k.2` at node `k.1` is a primary unknown: it is active in an element which has the node, or one joined with it, on its boundary. (specification) -/
def primary (p : PProg) (m : DomMap) (pos : Nat → List ℝ) (k : Nat × Nat) : Prop :=
  NodeIn m k.1 ∧ ∃ d ∈ p.pdef, k.2 ∈ d.2 ∧ ∃ e ∈ visitIds m d.1, ∃ n ∈ (toEl 0 e).bndNodes, p.ident m pos k.2 n k.1

/-- The field left by `updateSolution`: values at primary unknowns from the solution of the condensed system, others recovered element by
element. (StaticCondensationManager.hpp 409-473) -/
structure Field (p : PProg) (m : DomMap) (pos : Nat → List ℝ) (s : Setup) (f : Nat → Nat) (Q : CRun) (nc c : Nat) (x : Nat → ℝ) (F : Nat × Nat → ℝ) : Prop where
  prim : ∀ k, primary p m pos k → F k = x (dof s (f k.1, k.2))
  int : ∀ r < Q.R.nr, ∀ e ∈ Q.parts r, ∀ a : Fin (Q.nI r e), F (e.key ((Condense.condDofs (Q.info r e)).get a)) = Q.recover nc r e c x a

/-- A program which can be condensed: domains of the problem definition are no boundaries, Dirichlet conditions are on boundaries, an internal
node belongs to one element and once, kernels list their components in increasing order (C53), components which all boundary nodes of an element have are
active in its domain (C99). (conditions on the input of AssembledSystem.hpp 321-325, 408-414) -/
structure Condensable (p : PProg) (m : DomMap) (bnds : List Nat) (pos : Nat → List ℝ) : Prop where
  apart : ∀ d ∈ p.pdef, ∀ k ∈ d.1, k ∉ bnds
  dir : ∀ d ∈ p.dirichlet, ∀ k ∈ d.1, k ∈ bnds
  nodup : ∀ d ∈ p.pdef, ∀ e ∈ visitIds m d.1, e.nodes.Nodup
  own : ∀ d ∈ p.pdef, ∀ e ∈ visitIds m d.1, ∀ n ∈ (toEl 0 e).intNodes, ∀ e', Holds m e' → n ∈ e'.nodes → e' = e
  sorted : (∀ K ∈ p.kernels, K.inds.Pairwise (· < ·)) ∧ ∀ K ∈ p.bkernels, K.inds.Pairwise (· < ·)
  tight : ∀ d ∈ p.pdef, ∀ k ∈ d.1, ∀ e, InDom m k e → ∀ j < p.dpn, (∀ n ∈ (toEl 0 e).bndNodes, primary p m pos (n, j)) → ∃ d' ∈ p.pdef, k ∈ d'.1 ∧ j ∈ d'.2

end

end Verif.CondPipe
