import Verif.Split.Model
import Verif.Algo.Model

/-!
# Model of mesh partitioning

Source: `/repo/include/l3ster/mesh/PartitionMesh.hpp`.  The graph partitioner (METIS) is not modelled:
its answer is an arbitrary list of labels.  Labels, counts and ids are natural numbers (`idx_t` is a
signed integer; METIS labels are non-negative).  `none` = an exception, or an access out of bounds.
-/
namespace Verif.Partition
open Verif Verif.Elem Verif.Mesh

/-! ## Condensation of the nodes -/

/-- `getBoundaryNodes(element)` (MeshUtils/ElementTraits: the nodes at `boundary_node_inds`). (Element.hpp 42-46) -/
def boundaryNodes (e : Element) : List Nat := (boundaryInds e.ty e.n).map fun i => e.nodes.getD i 0

/-- `getInternalNodes(element)`. (Element.hpp 35-39) -/
def internalNodes (e : Element) : List Nat := (internalInds e.ty e.n).map fun i => e.nodes.getD i 0

/-- `getDomainIds`, 60-66. -/
def domainIds (m : DomMap) (bnds : List Nat) : List Nat := (m.map (·.1)).filter fun k => k ∉ bnds

/-- First pass of `makeNodeCondensationMaps`, 112-118: store 1 for the boundary nodes (atomic stores of
the same value, the order is immaterial). -/
def markNodes (nodes : List Nat) (fwd : List Nat) : List Nat := nodes.foldl (fun f x => f.set x 1) fwd

/-- Second pass, 120-129: `(node_full, node_cond, reverse_map)`, rewriting the forward map. -/
def condLoop : List Nat → Nat → Nat → List Nat × List Nat
  | [], _, _ => ([], [])
  | f :: fs, full, cond =>
    if f ≠ 0 then
      let r := condLoop fs (full + 1) (cond + 1)
      (cond :: r.1, full :: r.2)
    else
      let r := condLoop fs (full + 1) cond
      (f :: r.1, r.2)

/-- `makeNodeCondensationMaps`, 108-131: forward and reverse map. -/
def condMaps (m : DomMap) (nNodes : Nat) : List Nat × List Nat :=
  condLoop (markNodes ((visitAll m).flatMap boundaryNodes) (List.replicate nNodes 0)) 0 0

/-- `condenseNodeWeights`, 133-140: in place, front to back. -/
def condenseWeights (w : List Nat) (reverse : List Nat) : List Nat :=
  if w.isEmpty then w
  else (reverse.foldl (fun (st : List Nat × Nat) x => (st.1.set st.2 (st.1.getD x 0), st.2 + 1)) (w, 0)).1

/-- `prepMetisInput`, 86-105: `e_ind`, `e_ptr` for the elements in visiting order. -/
def metisInput (els : List Element) (fwd : List Nat) : List Nat × List Nat :=
  els.foldl (fun st e => (st.1 ++ (boundaryNodes e).map (fun x => fwd.getD x 0), st.2 ++ [st.2.getLastD 0 + (boundaryNodes e).length])) ([], [0])

/-- `uncondenseNodes`, 184-205; `init` is the uninitialised array. -/
def uncondense (init epart npartCond reverse : List Nat) (els : List Element) : List Nat :=
  let r := reverse.zipIdx.foldl (fun r p => r.set p.1 (npartCond.getD p.2 0)) init
  els.zipIdx.foldl (fun r p => (internalNodes p.1).foldl (fun r x => r.set x (epart.getD p.2 0)) r) r

/-! ## Distribution of the elements -/

/-- One push into the domain map of part `ev.1`. (PartitionMesh.hpp 237-239) -/
def pushPart (kinds : List (ElType × Nat)) (maps : List DomMap) (ev : Nat × Nat × Element) : Option (List DomMap) :=
  (maps[ev.1]?).bind fun m => (pushTo kinds m ev.2).map fun m' => maps.set ev.1 m'

/-- All elements in visiting order (PartitionMesh.hpp 234-242). -/
def pushParts (kinds : List (ElType × Nat)) (maps : List DomMap) (evs : List (Nat × Nat × Element)) : Option (List DomMap) :=
  evs.foldlM (pushPart kinds) maps

/-- The events of `makeDomainMaps`, 227-244: `epart.at(index++)` for the elements in visiting order. -/
def domainEvents (m : DomMap) (ids epart : List Nat) : Option (List (Nat × Nat × Element)) :=
  ((Split.tagged m ids).zipIdx).mapM fun p => (epart[p.2]?).map fun t => (t, p.1)

/-- `sortElementsById` 265-270 and `lookup_el_part` 280-284 (`perm` is the sorting permutation of the
ids, see C15): position of the id in the sorted list, label at that position. -/
def lookupPart (ids epart perm : List Nat) (id : Nat) : Option Nat :=
  (Algo.copyPermuted ids perm).bind fun sids => (Algo.copyPermuted epart perm).bind fun sparts =>
  sparts[Std.lowerBound sids id]?

/-- `findDomainElement` in one domain, MeshUtils.hpp 12-34. -/
def findIn (m : DomMap) (dom : Nat) (b : Element) : Option Element :=
  findPred m [dom] fun e => decide (e.ty.dim = b.ty.dim + 1) && (matchSide e (Std.sort b.nodes)).isSome

/-- The insertions made for boundary `bnd` from domain `dom` (287-303), in visiting order;
`part` is `lookup_el_part`. -/
def assignFrom (m : DomMap) (part : Nat → Option Nat) (bnd : Nat) (dom : Nat) : Option (List (Nat × Nat × Element)) :=
  ((visitIds m [bnd]).filterMap fun b => (findIn m dom b).map fun e => (part e.id, b)).mapM
    fun p => p.1.map fun t => (t, bnd, p.2)

/-- `assign_boundary`, 289-310: all insertions for one boundary id; `none` when `getDomain` or
`dim_dom_map.at` throws. -/
def assignBoundary (m : DomMap) (part : Nat → Option Nat) (bnd : Nat) : Option (List (Nat × Nat × Element)) :=
  (m.lookup bnd).bind fun d =>
    let doms := domainsOfDim m (d.dim.getD 0 + 1)
    if doms = [] then none else (doms.mapM (assignFrom m part bnd)).map List.flatten

/-- Size of a boundary domain. (PartitionMesh.hpp 293) -/
def bndSize (m : DomMap) (bnd : Nat) : Nat := ((m.lookup bnd).map fun d => d.elems.length).getD 0

/-- `assignBoundaryElements`, 272-319, without the pushes: all insertions, provided the counts agree. -/
def boundaryEvents (m : DomMap) (part : Nat → Option Nat) (bnds : List Nat) : Option (List (Nat × Nat × Element)) :=
  ((bnds.mapM (assignBoundary m part)).map List.flatten).bind fun evs =>
    if evs.length = (bnds.map (bndSize m)).sum then some evs else none

/-! ## Distribution of the nodes -/

/-- Nodes of the elements of a part. (PartitionMesh.hpp 360-371) -/
def partNodes (m : DomMap) : List Nat := m.flatMap fun d => d.2.elems.flatMap (·.nodes)

/-- `assignNodes` 349-391 for part `p`: owned, ghost (sorted contents of the hash sets). -/
def ownGhost (npart : List Nat) (m : DomMap) (p : Nat) : List Nat × List Nat :=
  (Std.sortUniq ((partNodes m).filter fun x => npart[x]? == some p),
   Std.sortUniq ((partNodes m).filter fun x => !(npart[x]? == some p)))

/-- Nodes labelled `p` which no element of part `p` contains, 371-376. -/
def disjointOf (npart : List Nat) (owned : List Nat) (p : Nat) : List Nat :=
  (List.range npart.length).filter fun x => (npart[x]? == some p) && !(decide (x ∈ owned))

/-- `try_claim`, 328-335. -/
def tryClaim (st : List Nat × List Nat × List Nat) (x : Nat) : List Nat × List Nat × List Nat :=
  let i := Std.lowerBound st.1 x
  if st.1[i]? = some x then (st.1.eraseIdx i, st.2.1 ++ [x], st.2.2) else (st.1, st.2.1, st.2.2 ++ [x])

/-- `claim_nodes`, 325-343: new (owned, ghost) and the remaining disjoint nodes.  `inplace_merge` merges
the two sorted halves. -/
def claim (nodes : List Nat × List Nat) (disjoint : List Nat) : (List Nat × List Nat) × List Nat :=
  let st := disjoint.foldl tryClaim (nodes.2, [], [])
  ((List.merge nodes.1 (Std.sort st.2.1), st.1), st.2.2)

/-- The loop of `reassignDisjointNodes`, 344-345. -/
def reassign : List (List Nat × List Nat) → List Nat → List (List Nat × List Nat) × List Nat
  | [], d => ([], d)
  | p :: ps, d =>
    let r := claim p d
    let rest := reassign ps r.2
    (r.1 :: rest.1, rest.2)

/-- `assignNodes`, 349-391; `none` = the assertion at line 346. -/
def assignNodes (npart : List Nat) (maps : List DomMap) : Option (List (List Nat × List Nat)) :=
  let og := maps.zipIdx.map fun m => ownGhost npart m.1 m.2
  let disjoint := (og.zipIdx.map fun p => disjointOf npart p.1.1 p.2).flatten
  let r := reassign og disjoint
  if r.2 = [] then some r.1 else none

/-- First loop of `renumberNodes`, 415-421: the map, and the next new id. -/
def numberLoop (owned : List Nat) (st : Algo.AMap Nat Nat × Nat) : Algo.AMap Nat Nat × Nat :=
  owned.foldl (fun st x => (st.1.emplace x st.2, st.2 + 1)) st

/-- `node_id_map`. (PartitionMesh.hpp 415-421) -/
def nodeMap (owned : List (List Nat)) : Algo.AMap Nat Nat := (owned.foldl (fun st o => numberLoop o st) ([], 0)).1

/-- The owned ids after renumbering: consecutive numbers. (PartitionMesh.hpp 420) -/
def newOwned : List (List Nat) → Nat → List (List Nat)
  | [], _ => []
  | o :: os, k => List.range' k o.length :: newOwned os (k + o.length)

/-- `update_element`, 431-433. -/
def renumberElement (φ : Algo.AMap Nat Nat) (e : Element) : Option Element :=
  (e.nodes.mapM fun x => φ.find x).map fun ns => { e with nodes := ns }

/-- Lines 434-439, for one part. -/
def renumberDomains (φ : Algo.AMap Nat Nat) (m : DomMap) : Option DomMap :=
  m.mapM fun (d : Nat × Domain) => (d.2.vecs.mapM fun (v : List Element) => v.mapM (renumberElement φ)).map fun vs => (d.1, ⟨d.2.dim, vs⟩)

/-- `makeMeshFromPartitionComponents`, 393-408, for one part (constructor: MeshPartition.hpp 287-302). -/
def makePart (m : DomMap) (owned bnds : List Nat) (ord : Nat → List Element → List Element) : Option Split.Part :=
  (Split.initViews m bnds ord).bind fun v => (ownershipRange m (owned.headD 0) owned.length).map fun o => ⟨m, o, v⟩

/-- Everything after the elements are distributed: `assignNodes`, `renumberNodes`,
`makeMeshFromPartitionComponents`. (PartitionMesh.hpp 462-465) -/
def finish (npart : List Nat) (maps : List DomMap) (bnds : List Nat) (ord : Nat → Nat → List Element → List Element) :
    Option (List Split.Part × Algo.AMap Nat Nat) :=
  (assignNodes npart maps).bind fun nodes =>
  let φ := nodeMap (nodes.map (·.1))
  (nodes.mapM fun (p : List Nat × List Nat) => p.2.mapM fun x => φ.find x).bind fun _ =>
  (maps.mapM (renumberDomains φ)).bind fun maps' =>
  ((List.zip maps' (newOwned (nodes.map (·.1)) 0)).zipIdx.mapM fun p => makePart p.1.1 p.1.2 bnds (ord p.2)).map fun ps => (ps, φ)

/-- The distribution of the elements in `partitionMeshImpl`, 448-460, given the partitioner's element
labels.  `perm`: the sorting permutation of the element ids; `shuffle`: the order in which the parallel
loops perform the insertions. -/
def distribute (kinds : List (ElType × Nat)) (m : DomMap) (bnds : List Nat) (nParts : Nat) (epart perm : List Nat)
    (shuffle : List (Nat × Nat × Element) → List (Nat × Nat × Element)) : Option (List DomMap) :=
  let ids := domainIds m bnds
  (domainEvents m ids epart).bind fun evs =>
  (pushParts kinds (List.replicate nParts []) evs).bind fun maps =>
  (boundaryEvents m (lookupPart ((visitIds m ids).map (·.id)) epart perm) bnds).bind fun bevs =>
  pushParts kinds maps (shuffle bevs)

/-- `partitionMeshImpl`, 448-466, given the element labels and the uncondensed node labels. -/
def partitionImpl (kinds : List (ElType × Nat)) (m : DomMap) (bnds : List Nat) (nParts : Nat) (epart npart perm : List Nat)
    (shuffle : List (Nat × Nat × Element) → List (Nat × Nat × Element)) (ord : Nat → Nat → List Element → List Element) :
    Option (List Split.Part × Algo.AMap Nat Nat) :=
  (distribute kinds m bnds nParts epart perm shuffle).bind fun maps => finish npart maps bnds ord

end Verif.Partition
