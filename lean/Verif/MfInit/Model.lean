import Verif.MatFree.Model

/-!
# Model of the right-hand side and the diagonal of the matrix-free system

Source: `/repo/include/l3ster/algsys/MatrixFreeSystem.hpp` lines 279-293 (`importDirichletBCs`), 313-325 (`getDirichletDofInds`), 364-376
(`gatherDirichletVals`), 378-390 (`scatterInit`), 586-632 (init kernels), 888-941 (`computeDiagAndRhs`), 1143-1149 (`copyDiagImpl`).

Values are elements of a commutative ring.  The local right-hand side and diagonal are the ones C54 proves
`precomputeOperatorDiagonalAndRhs` to compute.  The import and the export are taken to do what C46 and C47 prove.  As in the model of
the application one entry of `elems` stands for one (element, kernel) pair, border or interior.
-/
namespace Verif.MfInit
open MatFree

variable {K : Type} [CommRing K]

/-- One rank: the data of `MatFree.Rank`, every element with its local right-hand side `rhs i column`, and `m_dirichlet_values` by
(local dof, column) as they are after `importDirichletBCs`. (MatrixFreeSystem.hpp 378-390, 586-632) -/
structure IRank (K : Type) where
  nOwned : Nat
  l2g : List Nat
  elems : List (Elem K × (Nat → Nat → K))
  bc : Option (Nat → Bool)
  dirOwned : List Nat
  vals : Nat → Nat → K

/-- The rank as the application of the operator sees it. (MatrixFreeSystem.hpp 888-941) -/
def IRank.toRank (r : IRank K) : Rank K := ⟨r.nOwned, r.l2g, r.elems.map (·.1), r.bc, r.dirOwned⟩

/-- `getDirichletDofInds`, 313-325: positions of the constrained dofs of an element. -/
def dirInds (r : IRank K) (e : Elem K) : List Nat := (List.range e.dofs.length).filter fun i => r.toRank.con (e.dofs.getD i 0)

/-- `gatherDirichletVals`, 364-376. -/
def dirVals (r : IRank K) (e : Elem K) (k c : Nat) : K := r.vals (e.dofs.getD ((dirInds r e).getD k 0) 0) c

/-- The local right-hand side with the constrained unknowns moved over (`precomputeDiagRhsImpl`, C54). -/
def locRhs (r : IRank K) (e : Elem K × (Nat → Nat → K)) (i c : Nat) : K :=
  e.2 i c - ∑ k ∈ Finset.range (dirInds r e.1).length, e.1.mat i ((dirInds r e.1).getD k 0) * dirVals r e.1 k c

/-- Additions of `scatterInit` to the right-hand side, 388-389, as ((dof, column), increment). -/
def scatterRhs (r : IRank K) (nc : Nat) (e : Elem K × (Nat → Nat → K)) : List ((Nat × Nat) × K) :=
  (List.range e.1.dofs.length).flatMap fun i => (List.range nc).map fun c => ((e.1.dofs.getD i 0, c), locRhs r e i c)

/-- Additions of `scatterInit` to the diagonal, 387; one column. -/
def scatterDiag (e : Elem K × (Nat → Nat → K)) : List ((Nat × Nat) × K) :=
  (List.range e.1.dofs.length).flatMap fun i => (List.range 1).map fun c => ((e.1.dofs.getD i 0, c), e.1.mat i i)

/-- All additions to the right-hand side of a rank, program order. (MatrixFreeSystem.hpp 586-632) -/
def rhsIncs (r : IRank K) (nc : Nat) : List ((Nat × Nat) × K) := r.elems.flatMap (scatterRhs r nc)

/-- All additions to the diagonal, MatrixFreeSystem.hpp 586-632. -/
def diagIncs (r : IRank K) : List ((Nat × Nat) × K) := r.elems.flatMap scatterDiag

/-- Memory (owned part and export buffer) after all elements: it is zeroed first, 920-922. -/
def mem (ups : List ((Nat × Nat) × K)) : Nat × Nat → K := ups.foldl addAt fun _ => 0

/-- `handle_dirichlet_dof` for all owned constrained dofs, 908-912 and 939-940: stores, after the export is complete. -/
def store (r : IRank K) (v : Nat → K) (old : Nat → K) : Nat → K :=
  if r.bc.isSome then r.dirOwned.foldl (fun m d => Function.update m d (v d)) old else old

/-- Owned entry `loc`, column `c`, of the right-hand side at the end; `ups q` is the order of additions on rank `q`. (MatrixFreeSystem.hpp 920-941) -/
def finalRhs (nr : Nat) (ranks : Nat → IRank K) (ups : Nat → List ((Nat × Nat) × K)) (me loc c : Nat) : K :=
  store (ranks me) (fun d => (ranks me).vals d c)
    (fun l => result nr (fun q => (ranks q).toRank) (fun q => mem (ups q)) me l c) loc

/-- Owned entry `loc` of the diagonal (`copyDiagImpl`). (MatrixFreeSystem.hpp 1143-1149) -/
def finalDiag (nr : Nat) (ranks : Nat → IRank K) (ups : Nat → List ((Nat × Nat) × K)) (me loc : Nat) : K :=
  store (ranks me) (fun _ => 1)
    (fun l => result nr (fun q => (ranks q).toRank) (fun q => mem (ups q)) me l 0) loc

end Verif.MfInit
