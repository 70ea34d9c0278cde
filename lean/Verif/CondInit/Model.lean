import Verif.SolUpd.Model
import Verif.Condense.Model

/-!
# Model of the set-up of static condensation and of the recovery of condensed unknowns

Source: `/repo/include/l3ster/algsys/StaticCondensationManager.hpp` 259-309 (constructor for `ElementBoundary`), 409-473
(`recoverSolutionImpl`), 474-479 (`getInternalDofInds`); `/repo/include/l3ster/dofs/NodeToDofMap.hpp` 178-208 (where dofs exist),
`/repo/include/l3ster/common/ProblemDefinition.hpp` 99-150.  The index bookkeeping of the assembly (482-535) is in area Condense, the
update of the primary dofs in area SolUpd.
-/
namespace Verif.CondInit
open Verif.Own Verif.Fields Verif.SolUpd Verif.Condense

/-- An element: id, domain, nodes, and which positions are on its boundary (`boundary_node_inds`, ElementTraits.hpp 103). -/
structure El where
  id : Nat
  dom : Nat
  nodes : List Nat
  bnd : Nat → Bool

/-- `getBoundaryNodes`, `getInternalNodes`, Element.hpp 35-47: positions in increasing order. -/
def El.bndPos (e : El) : List Nat := (List.range e.nodes.length).filter e.bnd
/-- `internal_node_inds` (Element.hpp 35-39). -/
def El.intPos (e : El) : List Nat := (List.range e.nodes.length).filter fun v => !e.bnd v
/-- `getBoundaryNodes` (Element.hpp 42-46). -/
def El.bndNodes (e : El) : List Nat := e.bndPos.map fun v => e.nodes.getD v 0
/-- `getInternalNodes` (Element.hpp 35-39). -/
def El.intNodes (e : El) : List Nat := e.intPos.map fun v => e.nodes.getD v 0

/-! ## Constructor -/

/-- `get_invalid_dof_bmp`, 271-276; `ok i`: dof `i` of the node is valid. -/
def invalidBmp (nd : Nat) (ok : Nat → Bool) : List Bool := (List.range nd).map fun i => !ok i

/-- `add_unset`, 277-279. -/
def addUnset (b : List Bool) : Nat × List Bool := (b.length - b.count true, b)

/-- One step of the fold, 283-285. -/
def foldStep (p q : Nat × List Bool) : Nat × List Bool := (p.1 + q.1, List.zipWith (· || ·) p.2 q.2)

/-- `compute_elem_dof_info`, 267-287: number of boundary dofs, bitmap of internal dofs. -/
def elemDofInfo (nd : Nat) (valid : Nat → Nat → Bool) (e : El) : Nat × List Bool :=
  let r := (e.bndNodes.map fun n => addUnset (invalidBmp nd (valid n))).foldl foldStep (0, List.replicate nd false)
  (r.1, r.2.map not)

/-- `ElementCondData`: offset and number of internal dofs, sizes of the blocks. (StaticCondensationManager.hpp 298-303) -/
structure Data where
  offs : Nat
  size : Nat
  nInt : Nat
  nBnd : Nat
deriving DecidableEq, Repr

/-- `m_internal_dof_inds` and `m_elem_data_map`. (StaticCondensationManager.hpp 292-297) -/
structure Mgr where
  inds : List Nat := []
  map : List (Nat × Data) := []
deriving DecidableEq, Repr

/-- `for (std::uint8_t i = 0; i != internal_dof_bmp.size(); ++i)`, 292-294.  An 8-bit counter never reaches 256: with more than 255
dofs per node the loop does not end (`none`). -/
def pushInds (bmp : List Bool) : Option (List Nat) :=
  if bmp.length ≤ 255 then some ((List.range bmp.length).filter fun i => bmp.getD i false) else none

/-- `unordered_map::emplace`: an existing entry stays. (StaticCondensationManager.hpp 297) -/
def emplace (m : List (Nat × Data)) (k : Nat) (d : Data) : List (Nat × Data) :=
  if (m.lookup k).isSome then m else m ++ [(k, d)]

/-- `insert_elem_info`, 288-304. -/
def insertElem (nd : Nat) (valid : Nat → Nat → Bool) (m : Mgr) (e : El) : Option Mgr :=
  (pushInds (elemDofInfo nd valid e).2).map fun is =>
    let cnt := (elemDofInfo nd valid e).2.count true
    { inds := m.inds ++ is
      map := emplace m.map e.id ⟨m.inds.length, cnt, e.intPos.length * cnt, (elemDofInfo nd valid e).1⟩ }

/-- The constructor, 305: elements of the domains of the problem, one after the other. -/
def construct (nd : Nat) (valid : Nat → Nat → Bool) (els : List El) : Option Mgr := els.foldlM (insertElem nd valid) {}

/-- `getInternalDofInds`, 474-479. -/
def Mgr.internal (m : Mgr) (d : Data) : List Nat := (m.inds.drop d.offs).take d.size

/-! ## Where dofs exist -/

/-- `makeLocalDofBmp`, NodeToDofMap.hpp 178-208, after the export to the owners, without periodic conditions: component `i` exists at
node `n` iff an element of a domain for which `i` is defined has `n` as a primary (boundary) node.  `defs` is the problem definition,
pairs of domains and components. -/
def validAt (els : List El) (defs : List (List Nat × List Nat)) (n i : Nat) : Bool :=
  els.any fun e => e.bndNodes.contains n && defs.any fun d => d.1.contains e.dom && d.2.contains i

/-! ## Recovery -/

/-- One step of the loop building `int_dof_lookup`, 446-448.  The list is sorted, so `binary_search` is membership. -/
def lookupStep (ints : List Nat) (st : Nat × List (Option Nat)) (i : Nat) : Nat × List (Option Nat) :=
  if ints.contains i then (st.1 + 1, st.2 ++ [some st.1]) else (st.1, st.2 ++ [none])

/-- `int_dof_lookup`, 442-450. -/
def dofLookup (ints : List Nat) (nd : Nat) : List (Option Nat) := ((List.range nd).foldl (lookupStep ints) (0, [])).2

/-- The stores for one element, 453-469; `vals` is `internal_vals`, which has `nInt` rows. -/
def recoverStores {V : Type} (u : SolUpd.Sys) (m : Mgr) (d : Data) (vals : Nat → Nat → V) (src dst : List Nat) (e : El) :
    List (Option (Op V)) :=
  (List.range e.intNodes.length).flatMap fun k => (List.range src.length).flatMap fun i => (List.range u.nRhs).flatMap fun rhs =>
    ((((dofLookup (m.internal d) u.nd)[src.getD i 0]?).join).toList).map fun l =>
      if k * d.size + l < d.nInt then
        some (Op.view (dst.getD (i * u.nRhs + rhs) 0) (u.nodeOwn.getLocal (e.intNodes.getD k 0)) (vals (k * d.size + l) rhs))
      else none

/-- All stores of the loop over elements (the order is arbitrary); `at(id)` fails if the element is not in the map. (StaticCondensationManager.hpp 426-472) -/
def elementStores {V : Type} (u : SolUpd.Sys) (m : Mgr) (els : List El) (vals : El → Nat → Nat → V) (src dst : List Nat) :
    List (Option (Op V)) :=
  els.flatMap fun e => match m.map.lookup e.id with
    | some d => recoverStores u m d (vals e) src dst e
    | none => [none]

/-- `recoverSolutionImpl`, 409-473, when the loops execute their stores in the orders `ordP` and `ordE`. -/
def condUpdate {V : Type} (u : SolUpd.Sys) (src dst : List Nat) (ordP ordE : List (Option (Op V))) (s : Sol V) : Out (Sol V) :=
  if checks u s.nFields src dst then (runStores ordP s).bind (runStores ordE) else .throws

/-! ## The block of the condensed unknowns -/

/-- `diag_block` after kernels have been assembled on the element, 385-392: each kernel has its list of dof indices and its local
matrix. -/
def diagBlock {R : Type} [AddCommMonoid R] (E : ElInfo) (ks : List (List Nat × (Nat → Nat → R))) (r c : Nat) : R :=
  (ks.map fun k => (((computeInds E k.1).cond).map fun p => (((computeInds E k.1).cond).map fun q =>
    if p.2 = r ∧ q.2 = c then k.2 p.1 q.1 else 0).sum).sum).sum

/-- What the bookkeeping of the assembly knows about an element. (StaticCondensationManager.hpp 482-508) -/
def El.info (e : El) (nd : Nat) (valid : Nat → Nat → Bool) : ElInfo :=
  ⟨e.nodes.length, e.bnd, nd, fun v i => valid (e.nodes.getD v 0) i, fun i => e.bndNodes.all fun n => valid n i⟩

end Verif.CondInit
