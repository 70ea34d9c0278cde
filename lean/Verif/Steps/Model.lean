import Verif.Report.Props
import Verif.SetVals.Props
import Verif.MfPipe.Props

/-!
# Model of programs which solve again and again, feeding solutions back into kernels

Sources: `/repo/include/l3ster/post/FieldAccess.hpp` (area Fields), `/repo/include/l3ster/algsys/AssembleGlobalSystem.hpp` 43-45 and 86-88,
`/repo/include/l3ster/algsys/MatrixFreeSystem.hpp` 562-581 and 618-627, 698-707, `/repo/include/l3ster/algsys/ComputeValuesAtNodes.hpp` 345, 418, 479, 559
(kernels get the values of fields at the nodes of the element), and those of Pipeline, MfPipe, SetVals and Report (areas of C113, C121, C124, C114).

One step of a program: values are prescribed by calls of `setDirichletBCValues` with kernels, the kernels of the equations are assembled (or
evaluated, in matrix-free systems), the system is solved, and `updateSolution` copies components of the solution into fields, on all ranks.
All kernels may read fields, which is how non-linear and unsteady problems are solved.  The prescribed values of a system are kept from step to
step; a program may use several systems.  The fields are not changed between `assembleProblem` and the end of the solve.
-/
namespace Verif.Steps
open Verif Verif.Elem Verif.Mesh Verif.Dofs Verif.Fields Verif.SolUpd Verif.Pipeline Verif.Report Verif.SetVals

noncomputable section

/-- What a kernel is given of the fields: rows are nodes, columns are fields. (`getGloballyIndexed`, `getLocallyIndexed`, FieldAccess.hpp 32-47) -/
abbrev Vals := List (List (Out ℝ))

/-- A kernel reading the fields `reads`. (`DomainEquationKernel` with a `FieldAccess`, AssembleGlobalSystem.hpp 20-31, 42-45) -/
structure FKernel where
  doms : List Nat
  inds : List Nat
  dims : ElType → Nat → Batch.Dims
  reads : List Nat
  pts : ElType → Nat → Nat → Vals → List Batch.Upd

/-- A boundary kernel reading the fields `reads`. (`BoundaryEquationKernel`, AssembleGlobalSystem.hpp 62-73, 85-88) -/
structure FBKernel where
  bnds : List Nat
  inds : List Nat
  dims : ElType → Nat → Batch.Dims
  reads : List Nat
  pts : ElType → Nat → Nat → Nat → Vals → List Batch.Upd

/-- A call of `setDirichletBCValues` with a kernel reading the fields `reads`. (ComputeValuesAtNodes.hpp 316-331, 449-464; values used in 345, 418, 479, 559) -/
structure FCall where
  boundary : Bool
  ids : List Nat
  inds : List Nat
  dim : Nat
  reads : List Nat
  kern : ElType → Nat → Nat → Option Nat → Nat → Vals → Nat → Nat → ℝ

/-- What a system is made with. (arguments of `makeAlgebraicSystem`, MakeAlgebraicSystem.hpp 10-30) -/
structure SysDef where
  dpn : Nat
  pdef : List (List Nat × List Nat)
  dirichlet : List (List Nat × List Nat)
  nRhs : Nat

/-- A step: the system it uses, prescribed values, equations, components copied and fields they are copied to. (the user's program: calls of `setDirichletBCValues`, AssembledSystem.hpp 46-52,
`assembleProblem` 35-43, `updateSolution` 141-156) -/
structure Step where
  sys : Nat
  calls : List FCall
  kernels : List FKernel
  bkernels : List FBKernel
  src : List Nat
  dst : List Nat

/-- Value of a field at a node. (FieldAccess.hpp 20-30) -/
abbrev Reader := Nat → Nat → Out ℝ

/-- Nodes of the element with the given id.  Ids are unique (C119); the code has the element itself at hand. (Element.hpp, `nodes`; AssembleGlobalSystem.hpp 43, 86) -/
def nodesOf (m : DomMap) (id : Nat) : List Nat := (((visitAll m).find? fun e => e.id == id).map (·.nodes)).getD []

/-- Values of fields at the nodes of an element. (FieldAccess.hpp 32-47) -/
def valsOf (m : DomMap) (rd : Reader) (reads : List Nat) (id : Nat) : Vals := (nodesOf m id).map fun n => reads.map (rd n)

/-- The kernel with the values of the fields put in. (AssembleGlobalSystem.hpp 43-45) -/
def FKernel.at (K : FKernel) (m : DomMap) (rd : Reader) : Kernel := ⟨K.doms, K.inds, K.dims, fun t n i => K.pts t n i (valsOf m rd K.reads i)⟩

/-- The same on boundaries. (AssembleGlobalSystem.hpp 86-88) -/
def FBKernel.at (K : FBKernel) (m : DomMap) (rd : Reader) : BKernel := ⟨K.bnds, K.inds, K.dims, fun t n i s => K.pts t n i s (valsOf m rd K.reads i)⟩

/-- The same for prescribed values. (ComputeValuesAtNodes.hpp 345-352, 418-425, 479-486, 559-571) -/
def FCall.at (c : FCall) (m : DomMap) (rd : Reader) : Call ℝ :=
  ⟨c.boundary, c.ids, c.inds, c.dim, fun t n i s l => c.kern t n i s l (valsOf m rd c.reads i)⟩

/-- What a system is before anything is assembled. (MakeAlgebraicSystem.hpp 10-30) -/
def SysDef.prog (S : SysDef) : Prog := ⟨S.dpn, S.pdef, [], [], S.dirichlet, fun _ _ => 0⟩

/-- The system with the step's kernels, fields read from `rd`. (`assembleProblem`, AssembledSystem.hpp 408-437, MatrixFreeSystem.hpp 787-830) -/
def Step.prog (st : Step) (S : SysDef) (m : DomMap) (rd : Reader) : Prog :=
  ⟨S.dpn, S.pdef, st.kernels.map (·.at m rd), st.bkernels.map (·.at m rd), S.dirichlet, fun _ _ => 0⟩

/-- What the ranks have: fields by rank, prescribed values by system, rank, owned dof and right-hand side. (`SolutionManager`; `m_dirichlet_values`, AssembledSystem.hpp 105, MatrixFreeSystem.hpp 243) -/
structure State where
  fields : Nat → Sol ℝ
  dir : Nat → Nat → Nat → Nat → ℝ

/-- Reading fields on a rank by global node. (FieldAccess.hpp 40-47) -/
def State.reader (s : State) (r : Nat) : Reader := fun n fl => accessRead (s.fields r) fl ((s.fields r).own.getLocal n)

/-- A call on the assembled system with the kernel as each rank sees it. (AssembledSystem.hpp 242-263) -/
def AsmCallR (p : Prog) (parts : List Split.Part) (c : Nat → Call ℝ) (old new : Nat → Nat → Nat → ℝ) : Prop :=
  ∃ (L : Nat → List Reach.Pt) (ord zero : Nat → List (NodeVals.Entry ℝ)),
    (∀ r < parts.length, (c r).pts (part parts r).doms = some (L r) ∧
      (ord r).Perm (entriesOf (fun n j => ((p.setup parts).localDof r n j).join) (c r).inds (c r).kern (L r)) ∧
      (zero r).Perm (entriesOf (fun n j => ((p.setup parts).localDof r n j).join) (c r).inds (c r).kern (Reach.asmConst (part parts r).doms (c r).ids))) ∧
    new = NodeVals.assembledKernel (mkWorld (p.setup parts) ord fun _ => []) old zero

/-- A call on the matrix-free system with the kernel as each rank sees it. (ComputeValuesAtNodes.hpp 371-447, 508-592) -/
def MfCallR (kinds : List (ElType × Nat)) (bnds : List Nat) (p : Prog) (parts : List Split.Part) (c : Nat → Call ℝ) (old new : Nat → Nat → Nat → ℝ) : Prop :=
  ∃ (ordM : Nat → Nat → List Element → List Element) (ord : Nat → Bool → Nat → List Element → List Element) (ords : Nat → Bool → Nat → LocView.Orders)
    (border interior init : Nat → List (NodeVals.Entry ℝ)) (tc tv : Nat → Nat → Nat),
    (∀ r k l, (ordM r k l).Perm l) ∧ (∀ r s k l, (ord r s k l).Perm l) ∧ (∀ r s j k l, ((ords r s j k).2 l).Perm l) ∧
    (∀ r < parts.length, ∃ q vi vb a b, MfPipe.rankMesh parts bnds (ordM r) r = some q ∧
      Reach.views kinds q (MfPipe.isInterior (p.setup parts) r) (ord r) (ords r) = some (vi, vb) ∧ (c r).mfPts vi vb = some (a, b) ∧
      (interior r).Perm (entriesOf (MfPipe.nodeDofs (p.setup parts) q.own r) (c r).inds (c r).kern a) ∧
      (border r).Perm (entriesOf (MfPipe.nodeDofs (p.setup parts) q.own r) (c r).inds (c r).kern b) ∧
      (init r).Perm (border r ++ interior r)) ∧
    new = NodeVals.kernelValues (mkWorld (p.setup parts) border interior) old init tc tv

/-- Calls one after the other, `one` being a call of the system. (the user's program; AssembledSystem.hpp 242-263, MatrixFreeSystem.hpp 1183-1205) -/
def Calls (one : (Nat → Call ℝ) → (Nat → Nat → Nat → ℝ) → (Nat → Nat → Nat → ℝ) → Prop) : List (Nat → Call ℝ) → (Nat → Nat → Nat → ℝ) → (Nat → Nat → Nat → ℝ) → Prop
  | [], old, new => new = old
  | c :: cs, old, new => ∃ mid, one c old mid ∧ Calls one cs mid new

/-- The calls of a step as the ranks see them. (ComputeValuesAtNodes.hpp 345, 418, 479, 559) -/
def Step.rankCalls (st : Step) (parts : List Split.Part) (s : State) : List (Nat → Call ℝ) := st.calls.map fun c r => c.at (part parts r).doms (s.reader r)

/-- The prescribed values by global dof: those kept at the owner. (AssembledSystem.hpp 439-447; `importDirichletBCs`, MatrixFreeSystem.hpp 279-296) -/
def dirAt (p : Prog) (parts : List Split.Part) (d : Nat → Nat → Nat → ℝ) (g c : Nat) : ℝ := d (dofHome (p.setup parts) g).1 (dofHome (p.setup parts) g).2 c

/-- The arguments of `updateSolution`. (AssembledSystem.hpp 141-156, MatrixFreeSystem.hpp 1231-1273) -/
def Step.query (st : Step) (S : SysDef) : Query := ⟨S.nRhs, st.src, st.dst, [], 0, 0, [], fun _ _ _ _ _ => []⟩

/-- The systems of all right-hand sides have at most one solution. -/
def OneSolution (p : Prog) (nRhs : Nat) (parts : List Split.Part) (els : Nat → List Lsq.LElem) (vals : Nat → Nat → Nat → ℝ) (v : Nat → Nat → ℝ) : Prop :=
  ∀ c < nRhs, ∀ x y, Solution p parts els vals v c x → Solution p parts els vals v c y → ∀ g < (p.setup parts).total, x g = y g

/-- A step takes the ranks from `s` to `s'`, with an assembled system or a matrix-free one; elements in any order, additions in any order, MPI at any time.  With `u` the
problem solved must have one solution only. (AssembledSystem.hpp 242-263, 379-447, 141-156; MatrixFreeSystem.hpp 860-945, 1019-1140, 1231-1273) -/
inductive StepRun (u : Bool) (defs : Nat → SysDef) (kinds : List (ElType × Nat)) (bnds : List Nat) (parts : List Split.Part) (st : Step) (s s' : State) : Prop
  | assembled (els : Nat → List Lsq.LElem) (vals : Nat → Nat → Nat → ℝ) (x : Nat → Nat → ℝ) (d : Nat → Nat → Nat → ℝ)
      (hcalls : Calls (AsmCallR (defs st.sys).prog parts) (st.rankCalls parts s) (s.dir st.sys) d)
      (hels : ∀ r, (els r).Perm ((st.prog (defs st.sys) (part parts r).doms (s.reader r)).rankElems parts r))
      (hsol : ∀ c < (defs st.sys).nRhs, Solution (defs st.sys).prog parts els vals (dirAt (defs st.sys).prog parts d) c fun g => x g c)
      (hone : u = true → OneSolution (defs st.sys).prog (defs st.sys).nRhs parts els vals (dirAt (defs st.sys).prog parts d))
      (hupd : ∀ r < parts.length, Updated (defs st.sys).prog (st.query (defs st.sys)) parts x r (s.fields r) (s'.fields r))
      (hdir : s'.dir = Function.update s.dir st.sys d) : StepRun u defs kinds bnds parts st s s'
  | matrixFree (a b : Nat → List Lsq.LElem) (vals : Nat → Nat → Nat → ℝ) (x y : Nat → Nat → ℝ) (d : Nat → Nat → Nat → ℝ)
      (ordM : Nat → Nat → List Element → List Element) (ord : Nat → Bool → Nat → List Element → List Element) (ords : Nat → Bool → Nat → LocView.Orders)
      (hordM : ∀ r k l, (ordM r k l).Perm l) (hord : ∀ r s k l, (ord r s k l).Perm l) (hords : ∀ r s j k l, ((ords r s j k).2 l).Perm l)
      (hcalls : Calls (MfCallR kinds bnds (defs st.sys).prog parts) (st.rankCalls parts s) (s.dir st.sys) d)
      (hab : ∀ r < parts.length, MfPipe.rankEvals kinds (st.prog (defs st.sys) (part parts r).doms (s.reader r)) parts bnds r (ordM r) (ord r) (ords r) = some (a r, b r))
      (hrest : ∀ r, parts.length ≤ r → a r = [] ∧ b r = [])
      (hvals : ∀ q < parts.length, ∀ k < ((defs st.sys).prog.l2g parts q).length, (defs st.sys).prog.constrained parts (((defs st.sys).prog.l2g parts q).getD k 0) → ∀ c,
        vals q k c = dirAt (defs st.sys).prog parts d (((defs st.sys).prog.l2g parts q).getD k 0) c)
      (ups ups' : Nat → List ((Nat × Nat) × ℝ))
      (hups : ∀ q < parts.length, MatFree.IsOrder ((defs st.sys).prog.rank parts (fun r => a r ++ b r) vals q).toI.toRank x (defs st.sys).nRhs 1 (ups q))
      (hups' : ∀ q < parts.length, (ups' q).Perm (MfInit.rhsIncs ((defs st.sys).prog.rank parts (fun r => a r ++ b r) vals q).toI (defs st.sys).nRhs))
      (hsol : ∀ c < (defs st.sys).nRhs, ∀ me < parts.length, ∀ loc < ((defs st.sys).prog.setup parts).numOwned me,
        MatFree.result parts.length (fun q => ((defs st.sys).prog.rank parts (fun r => a r ++ b r) vals q).toI.toRank)
            (fun q => MatFree.rankMem ((defs st.sys).prog.rank parts (fun r => a r ++ b r) vals q).toI.toRank y 0 (ups q)) me loc c =
          MfInit.finalRhs parts.length (fun q => ((defs st.sys).prog.rank parts (fun r => a r ++ b r) vals q).toI) ups' me loc c)
      (hone : u = true → OneSolution (defs st.sys).prog (defs st.sys).nRhs parts (fun r => a r ++ b r) vals (dirAt (defs st.sys).prog parts d))
      (hupd : ∀ r < parts.length, Updated (defs st.sys).prog (st.query (defs st.sys)) parts x r (s.fields r) (s'.fields r))
      (hdir : s'.dir = Function.update s.dir st.sys d) : StepRun u defs kinds bnds parts st s s'

/-- A program: steps one after the other. (the user's program) -/
def Run (u : Bool) (defs : Nat → SysDef) (kinds : List (ElType × Nat)) (bnds : List Nat) (parts : List Split.Part) : List Step → State → State → Prop
  | [], s, s' => s' = s
  | st :: sts, s, s' => ∃ mid, StepRun u defs kinds bnds parts st s mid ∧ Run u defs kinds bnds parts sts mid s'

end
end Verif.Steps
