import Verif.Condense.Model
import Verif.CondInit.Model
import Verif.Common.Interleave
import Verif.Partition.Props

/-!
# Model of parallel assembly into the blocks of static condensation

Sources: `/repo/include/l3ster/algsys/StaticCondensationManager.hpp` 348-407 (`condenseSystemImpl`),
`/repo/include/l3ster/algsys/AssembleGlobalSystem.hpp` 37-52 (domain kernels) and 79-95 (boundary kernels): the elements, or the sides of
elements, are processed in parallel, and every one adds its local system to the blocks of its element.

`x += v` on a plain `double` is a load followed by a store.  The interleavings of these are sequentially consistent; C++ allows more
(two unordered accesses of which one writes are a data race, i.e. undefined behaviour).
-/
namespace Verif.CondRace
open Verif.Condense Verif.Elem Verif.Mesh

/-- A place in the data of an element: `diag_block(r, c)`, `rhs(r, i)`, `upper_block(r, c)`. (StaticCondensationManager.hpp 298-303) -/
inductive Pos where
  | diag (r c : Nat)
  | rhs (r i : Nat)
  | upper (r c : Nat)
deriving DecidableEq, Repr

/-- A place of the whole manager: element id and place, `m_elem_data_map.at(element.id)`. (StaticCondensationManager.hpp 364) -/
abbrev Cell := Nat × Pos

/-- One call of `condenseSystemImpl`: element, list of field indices, local system with `nrhs` right-hand sides. (StaticCondensationManager.hpp 354-361) -/
structure Task (R : Type) where
  id : Nat
  info : ElInfo
  fi : List Nat
  nrhs : Nat
  mat : Nat → Nat → R
  rhs : Nat → Nat → R

variable {R : Type}

/-- The additions to the blocks of the element in program order, 385-406. -/
def Task.updates (t : Task R) : List (Pos × R) :=
  ((computeInds t.info t.fi).cond.flatMap fun p =>
    ((computeInds t.info t.fi).cond.map fun q => (Pos.diag p.2 q.2, t.mat p.1 q.1)) ++
      (List.range t.nrhs).map fun i => (Pos.rhs p.2 i, t.rhs p.1 i)) ++
  (computeInds t.info t.fi).prim.flatMap fun p => (computeInds t.info t.fi).cond.map fun q => (Pos.upper p.2 q.2, t.mat p.1 q.1)

/-- The two halves of `+=`, 391, 394, 404. -/
inductive Act (R : Type) where
  | load (c : Cell)
  | store (c : Cell) (v : R)

/-- One `+=` of task number `i`. (StaticCondensationManager.hpp 391, 394, 404) -/
def addTo (i : Nat) (id : Nat) (u : Pos × R) : List (Nat × Act R) := [(i, .load (id, u.1)), (i, .store (id, u.1) u.2)]

/-- All steps of task number `i`. (StaticCondensationManager.hpp 385-406) -/
def Task.code (t : Task R) (i : Nat) : List (Nat × Act R) := t.updates.flatMap (addTo i t.id)

/-- The tasks of a parallel loop, numbered. (UniVector.hpp 98-100, 113-115) -/
def codes : Nat → List (Task R) → List (List (Nat × Act R))
  | _, [] => []
  | i, t :: ts => t.code i :: codes (i + 1) ts

/-- Memory, and the register of every task. (StaticCondensationManager.hpp 385-406) -/
structure State (R : Type) where
  mem : Cell → R
  reg : Nat → R

/-- (StaticCondensationManager.hpp 391, 394, 404: read, then add and write) -/
def step [Add R] (σ : State R) : Nat × Act R → State R
  | (i, .load c) => ⟨σ.mem, Function.update σ.reg i (σ.mem c)⟩
  | (i, .store c v) => ⟨Function.update σ.mem c (σ.reg i + v), σ.reg⟩

/-- An execution. (AssembleGlobalSystem.hpp 52, 95) -/
def run [Add R] (σ : State R) (tr : List (Nat × Act R)) : State R := tr.foldl step σ

/-- The effect of one parallel loop on the blocks: any interleaving of its tasks. (AssembleGlobalSystem.hpp 52, 95) -/
def Loop [Add R] (ts : List (Task R)) (μ μ' : Cell → R) : Prop :=
  ∃ reg tr, Interleaves (codes 0 ts) tr ∧ (run ⟨μ, reg⟩ tr).mem = μ'

/-- The calls of `assembleProblem` after `beginAssembly`, one after the other. (AssembledSystem.hpp 360-371, 408-436) -/
inductive Assembly [Add R] : List (List (Task R)) → (Cell → R) → (Cell → R) → Prop
  | nil (μ : Cell → R) : Assembly [] μ μ
  | cons (ts : List (Task R)) (rest : List (List (Task R))) (μ μ' μ'' : Cell → R) (h : Loop ts μ μ') (h' : Assembly rest μ' μ'') :
      Assembly (ts :: rest) μ μ''

/-- Element of the mesh as the manager sees it. (StaticCondensationManager.hpp 482-508, `boundary_node_inds`, ElementTraits.hpp 103) -/
def elOf (e : Element) : CondInit.El := ⟨e.id, 0, e.nodes, fun v => (boundaryInds e.ty e.n).contains v⟩

/-- What a kernel is assembled with: dofs per node, valid dofs, field indices, number of right-hand sides. (AssembleGlobalSystem.hpp 62-72) -/
structure Setting where
  nd : Nat
  valid : Nat → Nat → Bool
  fi : List Nat
  nrhs : Nat

/-- The call for an element (or side of an element) with its local system. (AssembleGlobalSystem.hpp 45-47, 88-90) -/
def Setting.task (s : Setting) (e : Element) (sys : (Nat → Nat → R) × (Nat → Nat → R)) : Task R :=
  ⟨e.id, (elOf e).info s.nd s.valid, s.fi, s.nrhs, sys.1, sys.2⟩

/-- Domain kernel: the elements of the domains. (AssembleGlobalSystem.hpp 37-52) -/
def Setting.domainLoop (s : Setting) (m : DomMap) (doms : List Nat) (sys : Element → (Nat → Nat → R) × (Nat → Nat → R)) : List (Task R) :=
  (visitIds m doms).map fun e => s.task e (sys e)

/-- Boundary kernel: the sides which are boundary elements, with the element they belong to. (AssembleGlobalSystem.hpp 79-95) -/
def Setting.boundaryLoop (s : Setting) (m : DomMap) (bnds : List Nat) (sys : Element × Nat → (Nat → Nat → R) × (Nat → Nat → R)) : List (Task R) :=
  ((visitIds m bnds).filterMap (viewOf m)).map fun v => s.task v.1 (sys v)

/-- Data race: two tasks write to one place (none of the accesses is atomic). (StaticCondensationManager.hpp 391, 394, 404) -/
def Races (ts : List (Task R)) : Prop :=
  ∃ i j : Nat, i ≠ j ∧ ∃ t t' : Task R, ts[i]? = some t ∧ ts[j]? = some t' ∧ t.id = t'.id ∧ ∃ p, p ∈ t.updates.map (·.1) ∧ p ∈ t'.updates.map (·.1)

end Verif.CondRace
