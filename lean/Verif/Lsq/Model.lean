import Verif.MfInit.Props
import Verif.Batch.Props

/-!
# Model of the global assembly of a least-squares system

Sources: `/repo/include/l3ster/algsys/ScatterLocalSystem.hpp` (`scatterLocalSystem`), `/repo/include/l3ster/algsys/AssembleGlobalSystem.hpp`
(`assembleGlobalSystem`), `/repo/include/l3ster/algsys/AssembledSystem.hpp` lines 335-345, 374-400 (`beginAssembly`, `endAssembly`).

Exact real arithmetic.  Local systems are the ones C54 proves `assembleLocalSystem` to compute.  Not modelled: Tpetra itself.
`sumIntoLocalValues` is taken to add to the named entries (all are present in the graph by C42), atomically; `endAssembly` of the
matrix and of the right-hand side is taken to add the entries of the shared rows to the rows of their owners (export with `ADD`).
Static condensation is off (C52 covers it).
-/
namespace Verif.Lsq
open MatFree MfInit Finset

noncomputable section

/-- One (element, kernel) pair: local dofs, sizes and the data of the quadrature points. (AssembleGlobalSystem.hpp 20-31, 62-74; AssembleLocalSystem.hpp 234-280) -/
structure LElem where
  dofs : List Nat
  dims : Batch.Dims
  pts : List Batch.Upd

/-- The local system, C54. -/
def LElem.sys (e : LElem) : Elem ℝ × (Nat → Nat → ℝ) := (⟨e.dofs, Batch.directMat e.dims e.pts⟩, Batch.directRhs e.dims e.pts)

/-- One rank of the matrix-free system with such elements. (AssembledSystem.hpp 374-397) -/
structure LRank where
  nOwned : Nat
  l2g : List Nat
  elems : List LElem
  bc : Option (Nat → Bool)
  dirOwned : List Nat
  vals : Nat → Nat → ℝ

/-- AssembledSystem.hpp 374-397 -/
def LRank.toI (r : LRank) : IRank ℝ := ⟨r.nOwned, r.l2g, r.elems.map LElem.sys, r.bc, r.dirOwned, r.vals⟩

/-- The maps of `NodeToLocalDofMap<_, 3>`: local row, column and right-hand side indices have numberings of their own, each taken to
the global dof by its map (row map, column map, map of the multivector). -/
structure AMaps where
  row : Nat → Nat
  col : Nat → Nat
  vec : Nat → Nat

/-- An element of the assembled system: `row_dofs`, `col_dofs`, `rhs_dofs`, local matrix and right-hand side. (ScatterLocalSystem.hpp 24-55) -/
structure AElem where
  row : List Nat
  col : List Nat
  vec : List Nat
  mat : Nat → Nat → ℝ
  rhs : Nat → Nat → ℝ

/-- `scatterLocalSystem`, 37-44: additions to matrix entries (local row, local column). -/
def scatterMat (e : AElem) : List ((Nat × Nat) × ℝ) :=
  (List.range e.row.length).flatMap fun i => (List.range e.row.length).map fun j => ((e.row.getD i 0, e.col.getD j 0), e.mat i j)

/-- `scatterLocalSystem`, 46-51: additions to the right-hand side (local index, column). -/
def scatterVec (nc : Nat) (e : AElem) : List ((Nat × Nat) × ℝ) :=
  (List.range e.row.length).flatMap fun i => (List.range nc).map fun c => ((e.vec.getD i 0, c), e.rhs i c)

/-- The local matrix (or vector) of a rank after the additions `ups`. (ScatterLocalSystem.hpp 40-52) -/
def rankSum (ups : List ((Nat × Nat) × ℝ)) : Nat × Nat → ℝ := ups.foldl addAt fun _ => 0

/-- Entry `(g, h)` of the matrix after `endAssembly`: over all ranks the local entries at global row `g`, column `h`; `rows q`,
`cols q` list the local indices of rank `q`. (AssembledSystem.hpp 374-397: export with addition after assembly) -/
def globalMat (nr : Nat) (maps : Nat → AMaps) (rows cols : Nat → List Nat) (ups : Nat → List ((Nat × Nat) × ℝ)) (g h : Nat) : ℝ :=
  ∑ q ∈ range nr, ((rows q).map fun a => ((cols q).map fun b =>
    if (maps q).row a = g ∧ (maps q).col b = h then rankSum (ups q) (a, b) else 0).sum).sum

/-- Entry `(g, c)` of the right-hand side after `endAssembly`. (AssembledSystem.hpp 374-397: export with addition after assembly) -/
def globalVec (nr : Nat) (maps : Nat → AMaps) (rows : Nat → List Nat) (ups : Nat → List ((Nat × Nat) × ℝ)) (g c : Nat) : ℝ :=
  ∑ q ∈ range nr, ((rows q).map fun a => if (maps q).vec a = g then rankSum (ups q) (a, c) else 0).sum

end

end Verif.Lsq
