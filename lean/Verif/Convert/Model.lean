import Verif.Elem.Model
import Verif.Common.OMap
/-!
# Model of the conversion of a mesh to higher order

Sources: `/repo/include/l3ster/mesh/ConvertMeshToOrder.hpp` and
`/repo/include/l3ster/mesh/ElementIntersecting.hpp`.

`n` is the target order plus one.  Element data (vertex coordinates) have an abstract type `D`; the list of
physical node locations of an element of a given type and order is `loc` (NodePhysicalLocation.hpp 9-23),
points have an abstract type `P` and are compared with `close` (`getPointMatcher`, ElementIntersecting.hpp
181-187: distance below 1e-12).  The dual graph (`computeMeshDual`, MeshUtils.hpp 44-94, METIS) is the list of neighbour ids of every
element.  The pair of `mask` and `nodes` is a list of optional node ids.  `none`: an exception or undefined
behaviour (no match found, neighbour not found, dimension mismatch).
-/
namespace Verif.Convert
open Verif Verif.Elem

/-! ### Features of an element (ElementIntersecting.hpp 14-102) -/

/-- `std::set_intersection` of two sorted sequences. (ElementIntersecting.hpp 27) -/
def setInter : List Nat → List Nat → List Nat
  | [], _ => []
  | _, [] => []
  | a :: as, b :: bs =>
    if a < b then setInter as (b :: bs) else if b < a then setInter (a :: as) bs else a :: setInter as bs
termination_by a b => a.length + b.length

/-- `intersectElementSides`/`getSideIntersection`, 16-37. -/
def sideInter (t : ElType) (n s s' : Nat) : List Nat :=
  setInter (Std.sort ((table t n).getD s [])) (Std.sort ((table t n).getD s' []))

/-- Pairs (S, S') of sides in the order visited by `intersectSidesWithSubseqSides`, 46-66, six sides. -/
def sidePairs : List (Nat × Nat) := (List.range 5).flatMap fun s => (List.range' (s + 1) (5 - s)).map fun s' => (s, s')

/-- `makeElementEdgeTable`, 68-76 (three-dimensional elements); intersections with fewer than two nodes are dropped. -/
def edgeTable (t : ElType) (n : Nat) : List (List Nat) :=
  (sidePairs.map fun p => sideInter t n p.1 p.2).filter fun l => 2 ≤ l.length

/-- `getElementOuterFeatures`, 84-99. -/
def features (t : ElType) (n d : Nat) : List (List Nat) :=
  if d = 0 ∨ t.dim < d then []
  else if t.dim = d then [List.range (nNodes t n)]
  else if d = t.dim - 1 then table t n
  else edgeTable t n

/-- `getHighestMatchableDim`, 107-114. -/
def highestDim (t1 t2 : ElType) : Nat := if t1.dim = t2.dim then t1.dim - 1 else min t1.dim t2.dim

/-- An element: order 1 before, order `n - 1` after the conversion. -/
structure El (D : Type) where
  ty : ElType
  id : Nat
  nodes : List Nat
  data : D

/-- `arrayAtInds` followed by `sort`, 133-138. -/
def nodesAt (nodes inds : List Nat) : List Nat := Std.sort (inds.map fun i => nodes.getD i 0)

/-- `elementIntersectionSpansAtDim`, 116-156: the first pair of features with the same nodes; both empty if none. -/
def interAt {D : Type} (n d : Nat) (e1 e2 : El D) : List Nat × List Nat :=
  (((features e1.ty 2 d).zip (features e1.ty n d)).findSome? fun f1 =>
    ((features e2.ty 2 d).zip (features e2.ty n d)).findSome? fun f2 =>
      if nodesAt e1.nodes f1.1 = nodesAt e2.nodes f2.1 then some (f1.2, f2.2) else none).getD ([], [])

/-- `elementIntersection`, 158-179. -/
def inter {D : Type} (n : Nat) (e1 e2 : El D) : List Nat × List Nat :=
  if highestDim e1.ty e2.ty = 0 then ([], [])
  else if highestDim e1.ty e2.ty = 1 then interAt n 1 e1 e2
  else if (interAt n 2 e1 e2).1 ≠ [] then interAt n 2 e1 e2
  else interAt n 1 e1 e2

/-! ### Matching of nodes -/

variable {P D : Type}

/-- Physical locations of all nodes of an element of the given type with `n` nodes per edge. (`nodePhysicalLocations`, NodePhysicalLocation.hpp 9-23) -/
abbrev Loc (P D : Type) := ElType → Nat → D → List P

/-- Position of the first pattern point close to `p`; `none` if there is none (`matchingPermutation` then
delivers the end position, an out-of-range index). (ElementIntersecting.hpp 181-187 (`getPointMatcher`); Algorithm.hpp 106-128) -/
def findClose (close : P → P → Bool) (pattern : List P) (p : P) : Option Nat := pattern.findIdx? fun q => close q p

/-- `updateMatchMask(el, mask, nodes)`, 190-204. -/
def matchVerts (n : Nat) (loc : Loc P D) (close : P → P → Bool) (el : El D) : Option (List (Option Nat)) :=
  ((loc el.ty 2 el.data).zipIdx.foldlM fun slots pk =>
    (findClose close (loc el.ty n el.data) pk.1).map fun ind => slots.set ind (some (el.nodes.getD pk.2 0)))
    (List.replicate (nNodes el.ty n) none)

/-- `match_buffer` entry and its use for one index, 218-228. -/
def matchOne (close : P → P → Bool) (patLocs : List (Nat × P)) (patNodes : List Nat) (p : P) : Option Nat :=
  (findClose close (patLocs.map (·.2)) p).bind fun k => (patLocs[k]?).bind fun q => patNodes[q.1]?

/-- `updateMatchMask(pattern_o1, pattern_oN, match_o1, mask, nodes)`, 206-229. The filtered view is re-evaluated
lazily in the code; the index list has no repetitions, so setting the mask of the current entry does not change
what follows. -/
def matchNbr (n : Nat) (loc : Loc P D) (close : P → P → Bool) (nbr nbrN el : El D) (slots : List (Option Nat)) :
    Option (List (Option Nat)) :=
  let pl := (inter n nbr el).1.map fun i => (i, (loc nbr.ty n nbr.data)[i]?)
  if pl.all (fun q => q.2.isSome) then
    ((inter n nbr el).2.filter fun i => slots.getD i none = none).foldlM (fun s i =>
      ((loc el.ty n el.data)[i]?).bind fun p =>
        (matchOne close (pl.filterMap fun q => q.2.map fun x => (q.1, x)) nbrN.nodes p).map fun id => s.set i (some id)) slots
  else none

/-- Assign a fresh node to slot `i` unless it has one, ConvertMeshToOrder.hpp 86-91. -/
def assignFresh (s : List (Option Nat) × Nat) (i : Nat) : List (Option Nat) × Nat :=
  if s.1.getD i none = none then (s.1.set i (some s.2), s.2 + 1) else s

/-- A domain; one vector per element type in the order hex, quad, line. (Domain.hpp 24-68; `initNewDomains`, ConvertMeshToOrder.hpp 36-46) -/
structure Dom (D : Type) where
  dim : Option Nat
  vecs : List (List (El D))

/-- Position of an element type among the vectors of a domain (ElementType.hpp 11; Domain.hpp 24-68). -/
def tyIdx : ElType → Nat
  | .hex => 0 | .quad => 1 | .line => 2

/-- `emplaceInDomain`, Domain.hpp 59-68. -/
def emplace (d : Dom D) (e : El D) : Option (Dom D) :=
  if d.dim.getD e.ty.dim ≠ e.ty.dim then none
  else some ⟨some e.ty.dim, d.vecs.set (tyIdx e.ty) (d.vecs.getD (tyIdx e.ty) [] ++ [e])⟩

/-- `domain_map_t`, MeshPartition.hpp 49. -/
abbrev DMap (D : Type) := List (Nat × Dom D)

/-- Elements with their domain, in visiting order (domains by id, then vector by vector). (ConvertMeshToOrder.hpp 97; UniVector.hpp 90-118) -/
def visit (m : DMap D) : List (Nat × El D) := m.flatMap fun d => d.2.vecs.flatten.map fun e => (d.1, e)

/-- State of the conversion, 58-61. -/
structure St (D : Type) where
  doms : DMap D
  maxNode : Nat
  converted : List Nat

/-- `initNewDomains`, 36-48. -/
def initDomains (m : DMap D) : DMap D := m.map fun d => (d.1, ⟨d.2.dim, [[], [], []]⟩)

/-- `match_nbr_nodes`, 70-83. `nbr_info_map` (21-34) keeps the first element with a given id; the converted
neighbour is searched with `lower_bound` in the vector of its type. -/
def useNbr (n : Nat) (loc : Loc P D) (close : P → P → Bool) (m : DMap D) (st : St D) (el : El D)
    (slots : List (Option Nat)) (nbrId : Nat) : Option (List (Option Nat)) :=
  if nbrId ∈ st.converted then
    ((visit m).find? fun q => q.2.id = nbrId).bind fun info =>
    (st.doms.lookup info.1).bind fun dom =>
    ((dom.vecs.getD (tyIdx info.2.ty) []).find? fun c => ¬ c.id < nbrId).bind fun nbrN =>
    matchNbr n loc close info.2 nbrN el slots
  else some slots

/-- Node ids of the converted element and the new `max_node`, 65-91. -/
def newNodes (n : Nat) (loc : Loc P D) (close : P → P → Bool) (m : DMap D) (adj : Nat → List Nat) (st : St D) (el : El D) :
    Option (List Nat × Nat) :=
  (matchVerts n loc close el).bind fun s0 =>
  ((adj el.id).foldlM (useNbr n loc close m st el) s0).map fun s1 =>
    let s2 := (internalInds el.ty n).foldl assignFresh ((boundaryInds el.ty n).foldl assignFresh (s1, st.maxNode))
    (s2.1.map (·.getD 0), s2.2)

/-- `convert_element`, 64-96. -/
def convertElement (n : Nat) (loc : Loc P D) (close : P → P → Bool) (m : DMap D) (adj : Nat → List Nat) (st : St D)
    (q : Nat × El D) : Option (St D) :=
  (newNodes n loc close m adj st q.2).bind fun r =>
  (st.doms.lookup q.1).bind fun dom =>
  (emplace dom ⟨q.2.ty, q.2.id, r.1, q.2.data⟩).map fun dom' =>
    ⟨OMap.upd st.doms q.1 fun _ => dom', r.2, st.converted ++ [q.2.id]⟩

/-- `convertMeshToOrder`, 51-104: domains and number of nodes of the new mesh. `nOld` is the number of nodes of
the mesh. -/
def convert (n : Nat) (loc : Loc P D) (close : P → P → Bool) (adj : Nat → List Nat) (nOld : Nat) (m : DMap D) :
    Option (DMap D × Nat) :=
  ((visit m).foldlM (convertElement n loc close m adj) ⟨initDomains m, nOld, []⟩).map fun st => (st.doms, st.maxNode)

end Verif.Convert
