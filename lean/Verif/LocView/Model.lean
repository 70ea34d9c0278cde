import Verif.Mesh.Model
import Verif.Common.OMap

/-!
# Model of local mesh views

Source: `/repo/include/l3ster/mesh/LocalMeshView.hpp`.

Hash tables are lists of entries; wherever the code iterates over one, the order is supplied by an
arbitrary oracle.  `unsigned` arithmetic is modulo `2^32`.
-/
namespace Verif.LocView
open Verif Verif.Elem Verif.Mesh

/-! ## Reordering (277-404) -/

/-- `hotness_t` is `unsigned` (LocalMeshView.hpp 310, 336). -/
def u32 (x : Nat) : Nat := x % 2 ^ 32

/-- `max_unsigned`. (LocalMeshView.hpp 369) -/
def maxU : Nat := 2 ^ 32 - 1

/-- Row of `computeNodeToElementMap`, 278-304: the set of indices of the elements containing node
`x`, sorted. -/
def row {α : Type} (nodesOf : α → List Nat) (els : List α) (x : Nat) : List Nat :=
  Std.sortUniq ((els.zipIdx.flatMap fun p => (nodesOf p.1).map fun y => (y, p.2)).filterMap
    fun q => if q.1 = x then some q.2 else none)

/-- `max_node + 1`, 282-293: number of rows (32-bit; a wrap to 0 makes `node_degs.at` throw). -/
def nRows {α : Type} (nodesOf : α → List Nat) (els : List α) : Nat :=
  u32 ((els.flatMap nodesOf).foldl max 0 + 1)

/-- `NodeCacheHotnessModel`, 307-331: contents of `m_cache_model`. -/
abbrev Cache := List (Nat × Nat)

/-- `touch`, 313. -/
def touch (c : Cache) (x : Nat) : Cache := (c.filter fun p => p.1 ≠ x) ++ [(x, 16)]

/-- `tick`, 314-325. -/
def tick (c : Cache) : Cache := (c.map fun p => (p.1, p.2 / 2)).filter fun p => p.2 ≠ 0

/-- `computeElementConnectedness`, 333-347. -/
def connect {α : Type} (nodesOf : α → List Nat) (els : List α) (a : α) : Nat :=
  (nodesOf a).foldl (fun s x => u32 (s + (row nodesOf els x).length)) 0

/-- `hot_elems[elem] += hotness`. (LocalMeshView.hpp 366) -/
def addHot (h : List (Nat × Nat)) (e hot : Nat) : List (Nat × Nat) :=
  if h.any (·.1 == e) then h.map fun p => if p.1 = e then (e, u32 (p.2 + hot)) else p else h ++ [(e, u32 hot)]

/-- `populate_hot_elems`, 360-368; `c` in iteration order. -/
def hotElems {α : Type} (nodesOf : α → List Nat) (els : List α) (done : List Nat) (c : Cache) : List (Nat × Nat) :=
  c.foldl (fun h p => if nRows nodesOf els ≤ p.1 then h
    else ((row nodesOf els p.1).filter fun e => e ∉ done).foldl (fun h e => addHot h e p.2) h) []

/-- `std::ranges::min` with a projection: the first minimum. (LocalMeshView.hpp 380) -/
def argMin (key : Nat → Nat) : List Nat → Option Nat
  | [] => none
  | a :: l => some (l.foldl (fun b x => if key x < key b then x else b) a)

/-- Lexicographic comparison of `std::array<unsigned, 2>`. -/
def lt2 (a b : Nat × Nat) : Bool := decide (a.1 < b.1 ∨ a.1 = b.1 ∧ a.2 < b.2)

/-- `std::ranges::max` with projection `elem_crit`, 373-377: the first maximum. -/
def argMax (crit : Nat × Nat → Nat × Nat) : List (Nat × Nat) → Option (Nat × Nat)
  | [] => none
  | a :: l => some (l.foldl (fun b x => if lt2 (crit b) (crit x) then x else b) a)

/-- State of the main loop: the permutation so far (which also says what is done) and the cache. (LocalMeshView.hpp 355-359) -/
structure RState where
  perm : List Nat
  cache : Cache

/-- `get_next_elem`, 378-383; `hot` in iteration order. -/
def nextElem (N : Nat) (con : Nat → Nat) (done : List Nat) : List (Nat × Nat) → Option Nat
  | [] => argMin (fun e => if e ∈ done then maxU else con e) (List.range N)
  | h :: hs => (argMax (fun p => (p.2, maxU - con p.1)) (h :: hs)).map Prod.fst

/-- One pass of the loop, 390-397; `none` = `at` throws or an empty range is reduced. -/
def step {α : Type} (nodesOf : α → List Nat) (els : List α) (ordC ordH : List (Nat × Nat) → List (Nat × Nat))
    (s : RState) : Option RState :=
  let hot := ordH (hotElems nodesOf els s.perm (ordC s.cache))
  let con := fun e => (els[e]?).elim 0 (connect nodesOf els)
  (nextElem els.length con s.perm hot).bind fun e =>
    (els[e]?).map fun a => ⟨s.perm ++ [e], tick ((nodesOf a).foldl touch s.cache)⟩

/-- Oracles for the iteration orders, one pair per loop pass. (LocalMeshView.hpp 361, 382) -/
abbrev Orders := Nat → (List (Nat × Nat) → List (Nat × Nat)) × (List (Nat × Nat) → List (Nat × Nat))

/-- The main loop (LocalMeshView.hpp 390-397). -/
def loop {α : Type} (nodesOf : α → List Nat) (els : List α) (ord : Orders) : Nat → RState → Option RState
  | 0, s => some s
  | k + 1, s => (loop nodesOf els ord k s).bind (step nodesOf els (ord k).1 (ord k).2)

/-- `reorderByAdjacency`, 350-404. -/
def reorder {α : Type} (nodesOf : α → List Nat) (ord : Orders) (els : List α) (c : Cache) : Option (List α × Cache) :=
  if els ≠ [] ∧ nRows nodesOf els = 0 then none else
  (loop nodesOf els ord els.length ⟨[], c⟩).bind fun s => (s.perm.mapM fun e => els[e]?).map fun l => (l, s.cache)

/-! ## Local elements (11-56, 205-275) -/

/-- `LocalElementView`: stored nodes and sides (vertex data left out). (LocalMeshView.hpp 54-56) -/
structure LocElem where
  ty : ElType
  n : Nat
  stored : List Nat
  sides : List Nat
  deriving DecidableEq, Repr, Inhabited

/-- `invalid_domain_id`. (LocalMeshView.hpp 227) -/
def invalidDom : Nat := 2 ^ 16 - 1

/-- `g2l`, 212-214: the 32-bit local index. -/
def g2l (o : Own.SegOwn) (x : Nat) : Nat := u32 (o.getLocal x)

/-- `std::ranges::is_sorted`. (LocalMeshView.hpp 219) -/
def isSorted : List Nat → Bool
  | a :: b :: l => decide (a ≤ b) && isSorted (b :: l)
  | _ => true

/-- Node storage, 215-226; `none` = the assertion. -/
def storeNodes (o : Own.SegOwn) (e : Element) : Option (List Nat) :=
  let ii := internalInds e.ty e.n
  if 1 < ii.length then
    let internal := ii.map fun i => g2l o (e.nodes.getD i 0)
    let front := internal.headD 0
    if isSorted internal && decide (front + internal.length - 1 = internal.getLastD 0) then
      some ((boundaryInds e.ty e.n).map (fun i => g2l o (e.nodes.getD i 0)) ++ [front])
    else none
  else some (e.nodes.map (g2l o))

/-- Sides, 228-230; `none` = `at` throws. -/
def storeSides (nS : Nat) (sides : List (Nat × Nat)) : Option (List Nat) :=
  sides.foldlM (fun a p => if p.1 < nS then some (a.set p.1 p.2) else none) (List.replicate nS invalidDom)

/-- Constructor, 205-231. -/
def LocElem.make (o : Own.SegOwn) (e : Element) (sides : List (Nat × Nat)) : Option LocElem :=
  (storeNodes o e).bind fun st => (storeSides (nSides e) sides).map fun sd => ⟨e.ty, e.n, st, sd⟩

/-- `retval[dest] = val` for a sequence of assignments. (LocalMeshView.hpp 236-240) -/
def assign (init : List Nat) (w : List (Nat × Nat)) : List Nat := w.foldl (fun a p => a.set p.1 p.2) init

/-- `getLocalNodes`, 233-247. -/
def LocElem.nodes (v : LocElem) : List Nat :=
  let ii := internalInds v.ty v.n
  if 1 < ii.length then
    let r := assign (List.replicate (nNodes v.ty v.n) 0) ((boundaryInds v.ty v.n).zip v.stored)
    assign r (ii.zip ((List.range ii.length).map fun k => u32 (v.stored.getLastD 0 + k)))
  else v.stored

/-- `getBoundaries`, 249-260. -/
def LocElem.boundaries (v : LocElem) : List (Nat × Nat) :=
  (v.sides.zipIdx.filter fun p => p.1 ≠ invalidDom).map fun p => (p.2, p.1)

/-- `hasBoundaries`, 262-274. -/
def LocElem.hasBoundaries (v : LocElem) : Bool := v.sides.any fun d => d ≠ invalidDom

/-! ## The view (406-422, 460-497) -/

/-- Boundary views of a partition: id to (parent, side) pairs, ids increasing (`std::map`). (LocalMeshView.hpp 411-420) -/
abbrev BndViews := List (Nat × List (Element × Nat))

/-- `makeElementIdToSidesMap`, 406-422. -/
def sidesMap (bv : BndViews) : List (Nat × List (Nat × Nat)) :=
  (bv.flatMap fun b => b.2.map fun v => (v.1.id, v.2, b.1)).foldl
    (fun m q => OMap.upd m q.1 fun l => l.getD [] ++ [q.2]) []

/-- `element_to_local`, 470-474. -/
def toLocal (o : Own.SegOwn) (sm : List (Nat × List (Nat × Nat))) (e : Element) : Option LocElem :=
  LocElem.make o e ((sm.lookup e.id).getD [])

/-- `make_vec_view`, 484-490, over the vectors of a domain, threading the cache. -/
def viewVecs (o : Own.SegOwn) (sm : List (Nat × List (Nat × Nat))) (ord : Nat → Orders) :
    List (List Element) → Nat → Cache → Option (List (List LocElem) × Nat × Cache)
  | [], k, c => some ([], k, c)
  | v :: vs, k, c =>
    (v.mapM (toLocal o sm)).bind fun lv =>
    (if v = [] then some ([], c) else reorder LocElem.nodes (ord k) lv c).bind fun r =>
    (viewVecs o sm ord vs (k + 1) r.2).map fun t => (r.1 :: t.1, t.2)

/-- The loop over domains, 477-493. -/
def viewDomains (o : Own.SegOwn) (sm : List (Nat × List (Nat × Nat))) (bnds : List Nat) (ord : Nat → Orders) :
    DomMap → Nat → Cache → Option (List (Nat × List (List LocElem)))
  | [], _, _ => some []
  | d :: ds, k, c =>
    if Std.binarySearch bnds d.1 then viewDomains o sm bnds ord ds k c
    else (viewVecs o sm ord d.2.vecs k c).bind fun r =>
      (viewDomains o sm bnds ord ds r.2.1 r.2.2).map fun t => (d.1, r.1) :: t

/-- Constructor of `LocalMeshView`, 460-497: domains of `part`, numbering of the full mesh. -/
def makeView (full : Own.SegOwn) (part : DomMap) (bv : BndViews) (ord : Nat → Orders) :
    Option (List (Nat × List (List LocElem))) :=
  viewDomains full (sidesMap bv) (bv.map (·.1)) ord part 0 []

/-- `visitBoundaries(visitor, domains)`, 179-196: the (element, side) pairs visited. -/
def visitBnd (view : List (Nat × List (List LocElem))) (ids : List Nat) : List (LocElem × Nat) :=
  (view.flatMap fun d => d.2.flatten).flatMap fun v =>
    if v.hasBoundaries then (v.boundaries.filter fun p => p.2 ∈ ids).map fun p => (v, p.1) else []

end Verif.LocView
