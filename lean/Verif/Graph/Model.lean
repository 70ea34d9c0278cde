import Verif.Common.Std
import Verif.Common.ParWrite
/-!
# Model of CRS graphs and graph algorithms

Sources: `/repo/include/l3ster/util/CrsGraph.hpp` (lines 13-84) and
`/repo/include/l3ster/util/Algorithm.hpp` (lines 305-393).  Vertices are natural numbers
(unsigned vertex types).  A failed bounds check (`at`) is `none`.
-/
namespace Verif.Graph

/-- `m_adj_offsets`, `m_adjacent` (CrsGraph.hpp 35-36). -/
structure Crs (α : Type) where
  offsets : List Nat
  adj : List α
deriving DecidableEq, Repr

/-- Default constructed graph: offsets `{0}`, no entries (35-36). -/
def Crs.empty {α} : Crs α := ⟨[0], []⟩

/-- Constructor from the row sizes (67-83); the entries are left uninitialised (`junk`). -/
def Crs.ofSizes {α} (junk : Nat → α) (sizes : List Nat) : Crs α :=
  ⟨Std.offsets sizes, (List.range sizes.sum).map junk⟩

/-- `getNRows`, line 25. -/
def Crs.nRows {α} (g : Crs α) : Nat := g.offsets.length - 1

/-- `getNEntries`, line 26. -/
def Crs.nEntries {α} (g : Crs α) : Nat := g.adj.length

/-- `operator()(begin, end)`, lines 53-65: both offsets are accessed with `at`. -/
def Crs.rows {α} (g : Crs α) (b e : Nat) : Option (List α) :=
  match g.offsets[b]?, g.offsets[e]? with
  | some lo, some hi => some ((g.adj.drop lo).take (hi - lo))
  | _, _ => none

/-- `operator()(vertex_ind)`, lines 39-51. -/
def Crs.row {α} (g : Crs α) (i : Nat) : Option (List α) := g.rows i (i + 1)

/-- Writing through the span `operator()(i)` from its beginning. (`std::ranges::copy` into a row, Algorithm.hpp 389-390; CrsGraph.hpp 39-44) -/
def Crs.writeRow {α} (g : Crs α) (i : Nat) (xs : List α) : Option (Crs α) :=
  match g.offsets[i]?, g.offsets[i + 1]? with
  | some lo, some hi => if xs.length ≤ hi - lo then some ⟨g.offsets, writeAt g.adj lo xs⟩ else none
  | _, _ => none

/-- `vert_map[v].insert(w)` on a map of sets (370-381): an association list of duplicate-free
lists. -/
def insertEdge (m : List (Nat × List Nat)) (v w : Nat) : List (Nat × List Nat) :=
  match m with
  | [] => [(v, [w])]
  | (k, s) :: m' => if k = v then (k, if w ∈ s then s else w :: s) :: m' else (k, s) :: insertEdge m' v w

/-- Loop over the edges, Algorithm.hpp 372-381. -/
def edgeMap (undirected : Bool) (edges : List (Nat × Nat)) : List (Nat × List Nat) :=
  edges.foldl (fun m e =>
    let m := insertEdge m e.1 e.2
    if undirected then insertEdge m e.2 e.1 else m) []

/-- `max_vert` (371-377). -/
def maxVert (edges : List (Nat × Nat)) : Nat := edges.foldl (fun a e => max (max a e.1) e.2) 0

/-- `makeCrsGraph`, Algorithm.hpp 357-393.  `iter` is the order in which the hash map enumerates
its entries and the sets their elements; any re-ordering is possible. -/
def makeCrsGraph (undirected : Bool) (frm dst : List Nat) (junk : Nat → Nat)
    (iter : List (Nat × List Nat) → List (Nat × List Nat)) : Option (Crs Nat) :=
  if frm = [] then some Crs.empty
  else
    let edges := frm.zip dst
    let m := edgeMap undirected edges
    let degrees := (List.range (maxVert edges + 1)).map fun v => ((m.lookup v).getD []).length
    (iter m).foldlM (fun g p => g.writeRow p.1 (Std.sort p.2)) (Crs.ofSizes junk degrees)

/-- One pass of the `while` loop of `depthFirstSearch` (313-325).  The stack's top is the head of
the list; `visited` is in order of visiting (the order in which `op` is invoked). -/
def dfsStep (g : Crs Nat) (visited stack : List Nat) : Option (List Nat × List Nat) :=
  match stack with
  | [] => some (visited, [])
  | c :: rest =>
    if c ∈ visited then some (visited, rest)
    else match g.row c with
      | none => none
      | some r => some (visited ++ [c], (r.filter fun w => w ∉ visited ++ [c]) ++ rest)

/-- The loop, with a bound on the number of passes; running out of passes is `none`. (the loop of `depthFirstSearch`, Algorithm.hpp 313-325) -/
def dfsLoop (g : Crs Nat) : Nat → List Nat → List Nat → Option (List Nat)
  | _, visited, [] => some visited
  | 0, _, _ :: _ => none
  | fuel + 1, visited, c :: rest =>
    match dfsStep g visited (c :: rest) with
    | none => none
    | some (v', s') => dfsLoop g fuel v' s'

/-- `depthFirstSearch`, Algorithm.hpp 305-327: the vertices in the order of the `op` calls. The
bound `nEntries + 1` on the number of passes is shown to be sufficient. -/
def depthFirstSearch (g : Crs Nat) (start : Nat) : Option (List Nat) :=
  dfsLoop g (g.nEntries + 1) [] [start]

/-- Loop of `getComponentsUndirected` (337-346) over the vertices `vs`. -/
def compLoop (g : Crs Nat) : List Nat → List Nat → List (List Nat) → Option (List (List Nat))
  | [], _, acc => some acc
  | v :: vs, visited, acc =>
    if v ∈ visited then compLoop g vs visited acc
    else match depthFirstSearch g v with
      | none => none
      | some c => compLoop g vs (visited ++ c) (acc ++ [Std.sort c])

/-- `getComponentsUndirected`, Algorithm.hpp 329-348 (the bitset is a set of vertices). -/
def getComponents (g : Crs Nat) : Option (List (List Nat)) := compLoop g (List.range g.nRows) [] []

end Verif.Graph
