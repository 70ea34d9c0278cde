import Verif.Pipeline.Props
import Verif.SolUpd.Props
import Verif.Integral.Props

/-!
# Model of what is computed from a solution: from the vector of unknowns to integrals and norms

Sources: `/repo/include/l3ster/algsys/AssembledSystem.hpp` 141-156 and `MatrixFreeSystem.hpp` 1231-1273 (`updateSolution`, area SolUpd),
`/repo/include/l3ster/post/SolutionManager.hpp`, `FieldAccess.hpp` (area Fields), `/repo/include/l3ster/post/Integral.hpp`, `NormL2.hpp` (area
Integral), put together for a mesh distributed as in area Pipeline.

The kernel's results at the quadrature points of an element are a function of the element (its type, order and id, which stands for the
coordinates of its vertices), the side for integrals over boundaries, and what the kernel reads from the fields at the element's nodes.
-/
namespace Verif.Report
open Verif Verif.Elem Verif.Mesh Verif.Dofs Verif.Fields Verif.SolUpd Verif.Pipeline

noncomputable section

/-- A call of `updateSolution` followed by `computeIntegral`: number of right-hand sides, components copied, fields they are copied to, fields the kernel reads,
its number of equations and dimension, the groups integrated over, and the kernel with its quadrature. (the arguments of Integral.hpp 108-122, NormL2.hpp) -/
structure Query where
  nRhs : Nat
  src : List Nat
  dst : List Nat
  reads : List Nat
  nEq : Nat
  dim : Nat
  ids : List Nat
  pts : ElType → Nat → Nat → Nat → List (List (Out ℝ)) → List (Integral.QPoint ℝ)

/-- What `updateSolution` of rank `r` works with. (the system whose `updateSolution` is called: AssembledSystem.hpp 141-156, MatrixFreeSystem.hpp 1231-1273) -/
def sysOf (p : Prog) (q : Query) (parts : List Split.Part) (r : Nat) : Sys where
  nodeOwn := (part parts r).own
  dofOwn := ((p.setup parts).dofOwn r).getD ⟨0, 0, []⟩
  nd := p.dpn
  nRhs := q.nRhs
  gdof := (p.setup parts).dofs r
  elems := (visitAll (part parts r).doms).map (·.nodes)

/-- The solution vectors as rank `r` has them: by local dof. (the local part of the solution vector after the solve, read by AssembledSystem.hpp 141-156, MatrixFreeSystem.hpp 1244-1245) -/
def localSol (p : Prog) (parts : List Split.Part) (x : Nat → Nat → ℝ) (r d c : Nat) : ℝ := x ((p.l2g parts r).getD d 0) c

/-- `updateSolution` on rank `r` took the fields from `s` to `s'`: of an assembled system with the stores in some order, or of a matrix-free one, with the stores of
both loops in some order and anything in the import buffer before the import completed. (AssembledSystem.hpp 141-156; MatrixFreeSystem.hpp 1231-1273) -/
inductive Updated (p : Prog) (q : Query) (parts : List Split.Part) (x : Nat → Nat → ℝ) (r : Nat) (s s' : Sol ℝ) : Prop
  | assembled (ord : List (Option (Op ℝ))) (ho : ord.Perm (assembledStores (sysOf p q parts r) (localSol p parts x r) q.src q.dst))
      (h : asmUpdate (sysOf p q parts r) q.src q.dst ord s = .ok s') : Updated p q parts x r s s'
  | matrixFree (stale : Nat → Nat → ℝ) (ordI ordB : List (Option (Op ℝ)))
      (small : q.nRhs * (sysOf p q parts r).dofOwn.cnt ≤ 2 ^ 31 ∧ q.nRhs * (sysOf p q parts r).dofOwn.shared.length ≤ 2 ^ 31)
      (hI : ordI.Perm (interiorStores (sysOf p q parts r) (localSol p parts x r) stale q.src q.dst))
      (hB : ordB.Perm (borderStores (sysOf p q parts r) (localSol p parts x r)
        (fun i => localSol p parts x r ((p.setup parts).numOwned r + i)) q.src q.dst))
      (h : mfUpdate (sysOf p q parts r) q.src q.dst ordI ordB s = .ok s') : Updated p q parts x r s s'

/-- `getGloballyIndexed`, FieldAccess.hpp 40-47: rows are nodes, columns are fields. -/
def valuesAt (s : Sol ℝ) (nodes reads : List Nat) : List (List (Out ℝ)) := nodes.map fun n => reads.map fun f => accessRead s f (s.own.getLocal n)

/-- The element as the integral sees it, seen from side `side` (0 in domains). -/
def elOf (q : Query) (s : Sol ℝ) (e : Element) (side : Nat) : Integral.El ℝ := ⟨e.ty.dim, q.pts e.ty e.n e.id side (valuesAt s e.nodes q.reads)⟩

/-- The domains of a part with the fields of its rank. (the per-domain reductions of MeshPartition.hpp 372-389) -/
def domGroups (q : Query) (s : Sol ℝ) (m : DomMap) : Integral.Groups (Integral.El ℝ) := m.map fun d => (d.1, d.2.vecs.map (·.map fun e => elOf q s e 0))

/-- The boundaries of a part: the views found by `makeBoundaryElementViews` (C23). -/
def bndGroups (q : Query) (s : Sol ℝ) (m : DomMap) : Integral.Groups (Integral.El ℝ) :=
  m.map fun d => (d.1, [((d.2.elems).filterMap (viewOf m)).map fun v => elOf q s v.1 v.2])

/-- The kernel of the norm (NormL2.hpp 24-31): squared. -/
def Query.squared (q : Query) : Query :=
  { q with pts := fun t n i side vals => (q.pts t n i side vals).map fun w => { w with result := fun j => if j < q.nEq then w.result j * w.result j else w.result j } }

/-- Components read are unknowns on the domains integrated over, fields are distinct. (preconditions of Integral.hpp 108-122) -/
structure Query.Ok (q : Query) (p : Prog) (m : DomMap) : Prop where
  nodup : q.dst.Nodup
  reads : q.reads ⊆ q.dst
  active : ∀ k ∈ q.ids, ∃ d ∈ p.pdef, k ∈ d.1 ∧ q.src ⊆ d.2

/-- The same for boundaries: components read are unknowns on the domains of the parents. (preconditions of Integral.hpp 108-122) -/
structure Query.BndOk (q : Query) (p : Prog) (m : DomMap) (bnds : List Nat) : Prop where
  nodup : q.dst.Nodup
  reads : q.reads ⊆ q.dst
  bnds : q.ids ⊆ bnds
  active : ∀ b ∈ q.ids, ∀ x, Partition.InDom m b x → ∀ e s, viewOf m x = some (e, s) → ∀ k, Partition.InDom m k e → ∃ d ∈ p.pdef, k ∈ d.1 ∧ q.src ⊆ d.2

end

end Verif.Report
