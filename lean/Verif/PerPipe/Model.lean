import Verif.Pipeline.Props
import Verif.PerMatch.Props
import Verif.Dofs.Periodic
import Mathlib.Data.Prod.Lex
import Mathlib.Data.List.Lex

/-!
# Model of the way from a mesh with periodic boundaries to the algebraic systems of all ranks

Sources: `/repo/include/l3ster/bcs/PeriodicBC.hpp` (all of it: `PerMatch` for the geometric matching, `Dofs` for components, pairs and what
each rank is told), `/repo/include/l3ster/dofs/NodeToDofMap.hpp` 144-357 and `/repo/include/l3ster/algsys/AssembleGlobalSystem.hpp` as in `Pipeline`.

Coordinates are exact real numbers, and all elements with a node agree on where it is.  Node data come out of a hash table: in any order.
-/
namespace Verif.PerPipe
open Verif Verif.Elem Verif.Mesh Verif.Dofs Verif.Lsq Verif.Distr Verif.Pipeline Verif.Partition Verif.Split

noncomputable section

/-- `BoundaryGroup`, PeriodicBC.hpp 53-60: source boundaries, destination boundaries, translation, ordered lexicographically. -/
abbrev BGroup : Type := List Nat ×ₗ (List Nat ×ₗ List ℝ)

/-- `boundary_ids_src`. (PeriodicBC.hpp 55) -/
def BGroup.src (g : BGroup) : List Nat := (ofLex g).1

/-- `boundary_ids_dest`. (PeriodicBC.hpp 55) -/
def BGroup.dst (g : BGroup) : List Nat := (ofLex (ofLex g).2).1

/-- `translation`. (PeriodicBC.hpp 56) -/
def BGroup.dx (g : BGroup) : List ℝ := (ofLex (ofLex g).2).2

/-- A periodic program: a program, definitions of periodic boundaries with the components they apply to, the tolerance, and what the
platform decides: constants of floating point and content of uninitialised memory. (`PeriodicBCDefinition`, PeriodicBC.hpp; `makeCrsGraph`, Graph.hpp) -/
structure PProg extends Prog where
  defs : List (BGroup × List Nat)
  tol : ℝ
  consts : PerMatch.Consts ℝ
  junk : Nat → Nat

/-- Orders in which hash tables of the ranks deliver their content: of node data by rank, of the edges of the graph. (PeriodicBC.hpp 90-109, 258-260) -/
structure Orders where
  node : Nat → List Nat → List Nat
  iter : List (Nat × List Nat) → List (Nat × List Nat)

/-- The orders are orders of what is in the tables. -/
structure Orders.Ok (o : Orders) : Prop where
  node : ∀ r l, (o.node r l).Perm l
  iter : ∀ m, ∃ m', m'.Perm m ∧ List.Forall₂ (fun a b => a.1 = b.1 ∧ a.2.Perm b.2) (o.iter m) m'

/-- Nodes of the sides visited by `visitBoundaries`, in visiting order. (PeriodicBC.hpp 91-104; MeshPartition.hpp 358-370, 548-594) -/
def bndNodes (m : DomMap) (ids : List Nat) : List Nat :=
  ((visitIds m ids).filterMap (viewOf m)).flatMap fun v => (sideNodes v.1 v.2).getD []

/-- `getNodeLocationData`, PeriodicBC.hpp 86-109: every node once, in the order of the hash map. -/
def nodeData (pos : Nat → List ℝ) (ord : List Nat → List Nat) (m : DomMap) (ids : List Nat) : List (List ℝ × Nat) :=
  (ord (bndNodes m ids).dedup).map fun n => (pos n, n)

/-- `getDestNodeData`, PeriodicBC.hpp 111-119. -/
def destData (pos : Nat → List ℝ) (ord : List Nat → List Nat) (m : DomMap) (gs : List BGroup) : List (List ℝ × Nat) :=
  nodeData pos ord m (gs.flatMap BGroup.dst).dedup

/-- `getSourceNodeData`, PeriodicBC.hpp 121-134. -/
def srcData (pos : Nat → List ℝ) (ord : List Nat → List Nat) (m : DomMap) (gs : List BGroup) : List (List ℝ × Nat) :=
  gs.flatMap fun g => (nodeData pos ord m g.src).map (PerMatch.translate g.dx)

/-- All matches of one group of components. (PeriodicBC.hpp 336-342) -/
def PProg.matches (p : PProg) (o : Orders) (pos : Nat → List ℝ) (parts : List Part) (gs : List BGroup) : List (Nat × Nat) :=
  PerMatch.matchAll p.consts p.tol ((List.range parts.length).map fun r => srcData pos (o.node r) (part parts r).doms gs)
    ((List.range parts.length).map fun r => destData pos (o.node r) (part parts r).doms gs)

/-- Matches and pairs of one group of components; `none`: a node is matched with itself only. (PeriodicBC.hpp 336-344) -/
def PProg.group (p : PProg) (o : Orders) (pos : Nat → List ℝ) (parts : List Part) (g : List Nat × List BGroup) :
    Option (List Nat × List Nat × List Nat × List (Nat × Nat)) :=
  ((components p.junk o.iter ((p.matches o pos parts g.2).map (·.1)) ((p.matches o pos parts g.2).map (·.2))).bind matched).map fun ps =>
    (g.1, (p.matches o pos parts g.2).map (·.1), (p.matches o pos parts g.2).map (·.2), ps)

/-- All groups. (PeriodicBC.hpp 331-356) -/
def PProg.groups (p : PProg) (o : Orders) (pos : Nat → List ℝ) (parts : List Part) : Option (List (List Nat × List Nat × List Nat × List (Nat × Nat))) :=
  (processDef p.dpn p.defs).mapM (p.group o pos parts)

/-- Input of the numbering with periodic information; `none`: the constructor of `PeriodicBC` throws. (PeriodicBC.hpp 325-358, NodeToDofMap.hpp 165-207) -/
def PProg.psetup (p : PProg) (o : Orders) (pos : Nat → List ℝ) (parts : List Part) : Option Setup :=
  (p.groups o pos parts).map fun gs => (p.toProg.setup parts).withPeriodic (strip gs)

/-! ### The systems of all ranks, from the numbering -/

/-- Local to global dofs of a rank. (NodeToDofMap.hpp 144-163 read backwards) -/
def l2g (s : Setup) (r : Nat) : List Nat := (List.range (s.numOwned r)).map (s.base r + ·) ++ Std.sort (s.sharedDofs r)

/-- The elements a rank assembles, with the local dofs its map gives. (AssembleGlobalSystem.hpp 37-52, DofsFromNodes.hpp 72-88) -/
def rankElems (p : Prog) (s : Setup) (parts : List Part) (r : Nat) : List LElem :=
  (p.melems (part parts r).doms).map fun e => ⟨e.nodes.flatMap fun n => e.inds.map fun j => ((s.localDof r n j).join).getD 0, e.dims, e.pts⟩

/-- Global dof of component `k.2` at node `k.1` of the distributed mesh, in the table of its owner. (NodeToDofMap.hpp 343-354) -/
def dof (s : Setup) (k : Nat × Nat) : Nat := (s.dofs (s.owner k.1) k.1 k.2).getD 0

/-- Constrained global dofs: components named on a boundary, at the nodes of its elements in the part of some rank. (GetDirichletDofs.hpp, C105) -/
def constrained (p : Prog) (s : Setup) (parts : List Part) (g : Nat) : Prop :=
  ∃ r < parts.length, ∃ d ∈ p.dirichlet, ∃ e ∈ visitIds (part parts r).doms d.1, ∃ n ∈ e.nodes, ∃ j ∈ d.2, s.dofs r n j = some g

open Classical in
/-- What rank `r` puts into the system, elements in the order `els`. (AssembleGlobalSystem.hpp 20-96, MatrixFreeSystem.hpp 1102-1103) -/
def rank (p : Prog) (s : Setup) (parts : List Part) (els : Nat → List LElem) (vals : Nat → Nat → Nat → ℝ) (r : Nat) : LRank where
  nOwned := s.numOwned r
  l2g := l2g s r
  elems := els r
  bc := some fun d => decide (constrained p s parts ((l2g s r).getD d 0))
  dirOwned := (List.range (s.numOwned r)).filter fun d => decide (constrained p s parts ((l2g s r).getD d 0))
  vals := vals r

open Classical in
/-- `x` solves the system assembled from the parts for right-hand side `c`. -/
def Solution (p : Prog) (s : Setup) (parts : List Part) (els : Nat → List LElem) (vals : Nat → Nat → Nat → ℝ) (v : Nat → Nat → ℝ) (c : Nat) (x : Nat → ℝ) : Prop :=
  Solves s.total parts.length (constrained p s parts) (rank p s parts els vals) (fun g => v g c) x c

/-! ### What the user means -/

/-- Node `x` lies on one of the boundaries. (specification) -/
def OnBnd (m : DomMap) (ids : List Nat) (x : Nat) : Prop := ∃ e ∈ visitIds m ids, x ∈ e.nodes

/-- A point displaced. (PeriodicBC.hpp 130) -/
def shift (dx x : List ℝ) : List ℝ := (x.zip dx).map fun q => q.1 + q.2

/-- Node `b` is the image of node `a` under a definition naming component `j`. (specification of periodic boundaries) -/
def PProg.Image (p : PProg) (m : DomMap) (pos : Nat → List ℝ) (j a b : Nat) : Prop :=
  j < p.dpn ∧ ∃ d ∈ p.defs, j ∈ d.2 ∧ OnBnd m d.1.src a ∧ OnBnd m d.1.dst b ∧ pos b = shift d.1.dx (pos a)

/-- Nodes joined by a chain of images. (specification) -/
def PProg.ident (p : PProg) (m : DomMap) (pos : Nat → List ℝ) (j : Nat) : Nat → Nat → Prop := Relation.EqvGen (p.Image m pos j)

/-- The problem on the undistributed mesh. (specification) -/
def PProg.problem (p : PProg) (m : DomMap) (pos : Nat → List ℝ) (N : Nat) : MProblem :=
  { p.toProg.problem m N with ident := p.ident m pos }

/-- Component `k.2` at node `k.1` is an unknown: the component is active at the node or one joined with it. (specification) -/
def PProg.unknown (p : PProg) (m : DomMap) (pos : Nat → List ℝ) (k : Nat × Nat) : Prop :=
  NodeIn m k.1 ∧ ∃ n, p.toProg.unknown m (n, k.2) ∧ p.ident m pos k.2 n k.1

/-- Sensible periodic boundaries: the definitions name boundaries of the mesh; positions are points of space and different nodes are at
different ones; translations are not zero; a destination node of the same component within the tolerance of the displaced position of a
source node is exactly there and belongs to a definition which takes one to the other. (precondition; PeriodicBC.hpp 182-192) -/
structure PProg.Exact (p : PProg) (m : DomMap) (bnds : List Nat) (pos : Nat → List ℝ) : Prop where
  bnd : ∀ d ∈ p.defs, d.1.src ⊆ bnds ∧ d.1.dst ⊆ bnds
  tol : 0 < p.tol
  dim : ∀ x, (pos x).length = 3
  inj : ∀ x y, NodeIn m x → NodeIn m y → pos x = pos y → x = y
  dx : ∀ d ∈ p.defs, d.1.dx.length = 3 ∧ ∃ i < 3, d.1.dx.getD i 0 ≠ 0
  near : ∀ j, ∀ d ∈ p.defs, j ∈ d.2 → ∀ d' ∈ p.defs, j ∈ d'.2 → ∀ a b, OnBnd m d.1.src a → OnBnd m d'.1.dst b →
    PerMatch.sqDist (pos b) (shift d.1.dx (pos a)) < p.tol ^ 2 → pos b = shift d.1.dx (pos a) ∧ OnBnd m d.1.dst b

/-- Periodic components are active in all domains which are not boundaries. (condition under which C112 holds; NodeToDofMap.hpp 178-208) -/
def PProg.Everywhere (p : PProg) (m : DomMap) (bnds : List Nat) : Prop :=
  ∀ d ∈ p.defs, ∀ j ∈ d.2, ∀ k ∉ bnds, ∀ e, InDom m k e → ∃ q ∈ p.pdef, k ∈ q.1 ∧ j ∈ q.2

/-- The nodes of the distributed mesh are where they were. (elements keep their vertices, Element.hpp 17-32) -/
def Located (m : DomMap) (pos npos : Nat → List ℝ) (f : Nat → Nat) : Prop := (∀ x, (npos x).length = 3) ∧ ∀ x, NodeIn m x → npos (f x) = pos x

/-- The values `v` by global dof are those prescribed. (precondition; what C105 proves of DirichletBC.hpp) -/
def PProg.Values (p : PProg) (m : DomMap) (pos : Nat → List ℝ) (s : Setup) (f : Nat → Nat) (v : Nat → Nat → ℝ) : Prop :=
  ∀ k, p.unknown m pos k → p.toProg.prescribed m k → ∀ c, v (dof s (f k.1, k.2)) c = p.val k c

end

end Verif.PerPipe
