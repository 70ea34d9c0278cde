import Verif.Fields.Model

/-!
# Model of copying a solution vector into nodal fields

Sources: `/repo/include/l3ster/algsys/AssembledSystem.hpp` 141-156 (`updateSolution`),
`/repo/include/l3ster/algsys/StaticCondensationManager.hpp` 211-256 (`validateSolutionUpdateInds`,
`updateSolutionPrimaryDofs`), `/repo/include/l3ster/algsys/MatrixFreeSystem.hpp` 967-997 (splitting the mesh), 1231-1273
(`updateSolution`), `/repo/include/l3ster/algsys/ComputeValuesAtNodes.hpp` 21-50 (`BorderAccessor`),
`/repo/include/l3ster/dofs/NodeToDofMap.hpp` 124-163 (local dof maps).

One rank.  The communication is the subject of area ImpExp; here its effect enters as two states of the import buffer, the one before
`waitReceive` (arbitrary) and the one after.  The parallel loops execute their stores in an arbitrary order.
-/
namespace Verif.SolUpd
open Verif.Own Verif.Fields

/-- What `updateSolution` of one rank works with: node ownership of the mesh, dof ownership, `max_dofs_per_node`, `n_rhs`, the
global dof of component `j` of global node `n` (`none`: invalid), and the nodes of the elements of the partition. (AssembledSystem.hpp 141-156; StaticCondensationManager.hpp 226-257; MatrixFreeSystem.hpp 1231-1273) -/
structure Sys where
  nodeOwn : SegOwn
  dofOwn : SegOwn
  nd : Nat
  nRhs : Nat
  gdof : Nat → Nat → Option Nat
  elems : List (List Nat)

/-- The nodes of the partition: owned, then ghosts. (the keys of `node_dof_map`, NodeToDofMap.hpp 71-73, 102-104) -/
def Sys.nodes (u : Sys) : List Nat := (List.range u.nodeOwn.cnt).map (u.nodeOwn.first + ·) ++ u.nodeOwn.shared

/-- One line of the map: `translate_dof` of every component (NodeToDofMap.hpp 153-160, `get_node_dofs` 132-139). -/
def Sys.row (u : Sys) (n : Nat) : Nat → Option Nat := fun j => (u.gdof n j).map u.dofOwn.getLocal

/-- `LocalDofMap` constructor, NodeToDofMap.hpp 144-163: the line of global node `n` goes to position `getLocalIndex(n)`.  `at` is
in range because all nodes of the map are nodes of the mesh. -/
def Sys.localDofs (u : Sys) : List (Nat → Option Nat) :=
  u.nodes.foldl (fun m n => m.set (u.nodeOwn.getLocal n) (u.row n)) (List.replicate u.nodeOwn.localSize fun _ => none)

/-- The checks at the start of both functions (MatrixFreeSystem.hpp 1237-1242, AssembledSystem.hpp 146-151). -/
def checks (u : Sys) (nFields : Nat) (src dst : List Nat) : Bool :=
  dst.length == src.length * u.nRhs && src.all (· < u.nd) && dst.all (· < nFields)

/-- `BorderAccessor::operator()`, ComputeValuesAtNodes.hpp 39-44, on owned rows `own` and ghost rows `buf`.  The position is computed in
`local_dof_t` (32 bit, signed); overflow is undefined (`none`).  The strides are the numbers of rows. -/
def access {V : Type} (u : Sys) (own buf : Nat → Nat → V) (row col : Nat) : Option V :=
  if row < u.dofOwn.cnt then
    if col * u.dofOwn.cnt + row < 2 ^ 31 then some (own row col) else none
  else
    if col * u.dofOwn.shared.length + (row - u.dofOwn.cnt) < 2 ^ 31 then some (buf (row - u.dofOwn.cnt) col) else none

/-- A store to (node, field); `none` when the value could not be read. (StaticCondensationManager.hpp 252; MatrixFreeSystem.hpp 1260) -/
def rawStore {V : Type} (n f : Nat) (v : Option V) : Option (Op V) := v.map (Op.raw n f)

/-- The stores for one local node in `save_elem_vals` (MatrixFreeSystem.hpp 1248-1264). -/
def nodeStores {V : Type} (u : Sys) (acc : Nat → Nat → Option V) (src dst : List Nat) (line : Nat → Option Nat) (lid : Nat) :
    List (Option (Op V)) :=
  (List.range src.length).flatMap fun i => ((line (src.getD i 0)).toList).flatMap fun dof =>
    (List.range u.nRhs).map fun rhs => rawStore lid (dst.getD (i * u.nRhs + rhs) 0) (acc dof rhs)

/-- `save_elem_vals` for one element; the local nodes of a `LocalElementView` are `getLocalIndex` of its nodes. (`save_elem_vals`, MatrixFreeSystem.hpp 1247-1264) -/
def elemStores {V : Type} (u : Sys) (acc : Nat → Nat → Option V) (src dst : List Nat) (e : List Nat) : List (Option (Op V)) :=
  e.flatMap fun n => nodeStores u acc src dst (u.localDofs.getD (u.nodeOwn.getLocal n) fun _ => none) (u.nodeOwn.getLocal n)

/-- `is_interior`, MatrixFreeSystem.hpp 974-978. -/
def isInterior (u : Sys) (e : List Nat) : Bool :=
  e.all fun n => (List.range u.nd).all fun j => (u.gdof n j).all u.dofOwn.isOwned

/-- Stores of the elements on the interior, done before the import has completed (1269). -/
def interiorStores {V : Type} (u : Sys) (own stale : Nat → Nat → V) (src dst : List Nat) : List (Option (Op V)) :=
  (u.elems.filter (isInterior u)).flatMap (elemStores u (access u own stale) src dst)

/-- Stores of the elements on the border, done after `waitReceive` (1271). -/
def borderStores {V : Type} (u : Sys) (own fresh : Nat → Nat → V) (src dst : List Nat) : List (Option (Op V)) :=
  (u.elems.filter fun e => !isInterior u e).flatMap (elemStores u (access u own fresh) src dst)

/-- A sequence of stores; a value which could not be read is undefined behaviour. (MatrixFreeSystem.hpp 1269-1271; StaticCondensationManager.hpp 256) -/
def runStores {V : Type} : List (Option (Op V)) → Sol V → Out (Sol V)
  | [], s => .ok s
  | none :: _, _ => .ub
  | some o :: l, s => (step s o).bind (runStores l)

/-- `MatrixFreeSystem::updateSolution` when the loops execute their stores in the orders `ordI` and `ordB`. (MatrixFreeSystem.hpp 1231-1273) -/
def mfUpdate {V : Type} (u : Sys) (src dst : List Nat) (ordI ordB : List (Option (Op V))) (s : Sol V) : Out (Sol V) :=
  if checks u s.nFields src dst then (runStores ordI s).bind (runStores ordB) else .throws

/-- The stores for one entry of the map in `updateSolutionPrimaryDofs` (StaticCondensationManager.hpp 239-254); `dofs` are the local
dofs in the owned-plus-shared numbering, `sol` the local solution vectors. -/
def entryStores {V : Type} (u : Sys) (sol : Nat → Nat → V) (src dst : List Nat) (n : Nat) : List (Option (Op V)) :=
  (List.range src.length).flatMap fun i => (List.range u.nRhs).flatMap fun rhs =>
    ((u.row n (src.getD i 0)).toList).map fun dof =>
      some (Op.view (dst.getD (i * u.nRhs + rhs) 0) (u.nodeOwn.getLocal n) (sol dof rhs))

/-- All stores of `updateSolutionPrimaryDofs` (255): the map has one entry per node of the partition. -/
def assembledStores {V : Type} (u : Sys) (sol : Nat → Nat → V) (src dst : List Nat) : List (Option (Op V)) :=
  u.nodes.flatMap (entryStores u sol src dst)

/-- `AssembledSystem::updateSolution` without condensation. (AssembledSystem.hpp 141-156; StaticCondensationManager.hpp 208-257) -/
def asmUpdate {V : Type} (u : Sys) (src dst : List Nat) (ord : List (Option (Op V))) (s : Sol V) : Out (Sol V) :=
  if checks u s.nFields src dst then runStores ord s else .throws

end Verif.SolUpd
