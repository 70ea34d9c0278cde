import Verif.Own.Props
import Verif.Graph.Components
import Verif.Algo.Model
import Mathlib.Data.List.Dedup

/-!
# Model of the numbering of degrees of freedom and of periodic nodes

Sources: `/repo/include/l3ster/dofs/NodeToDofMap.hpp` lines 144-357, `/repo/include/l3ster/dofs/DofsFromNodes.hpp`
lines 7-102, `/repo/include/l3ster/bcs/PeriodicBC.hpp` lines 35-39, 250-356.

Simplifications: all ranks are one object; a rank's tables (`Kokkos::View`s indexed by local node index) are functions of the
global node id, the translation being the bijection of property C08; `invalid_node`, `invalid_global_dof` are `none`; import
and export are replaced by their effect (properties C46, C47): ghosts receive the owner's value, owners combine theirs
with those of the ghosts.  Numbers do not overflow.
-/
namespace Verif.Dofs
open Verif Verif.Own

/-- A visited element of a domain of the problem definition: its primary nodes and the components active in the domain. (`mark_el`, NodeToDofMap.hpp 188-206) -/
structure Visit where
  nodes : List Nat
  active : List Nat

/-- Input of the constructor of `NodeToGlobalDofMap` (335-341) on all ranks. -/
structure Setup where
  /-- `max_dofs_per_node` -/
  dpn : Nat
  /-- number of nodes owned by each rank -/
  counts : List Nat
  /-- ghost nodes of the mesh part of a rank -/
  ghosts : Nat → List Nat
  /-- `getPeriodicGhosts()` of a rank -/
  pghosts : Nat → List Nat
  /-- `m_periodic_info` of a rank -/
  per : Nat → List (Nat × List (Option Nat))
  /-- visited elements of a rank -/
  visits : Nat → List Visit

/-- `makeNodeOwnership`, 167-178. -/
def Setup.world (s : Setup) : World := ⟨s.counts, (List.range s.counts.length).map fun r => s.ghosts r ++ s.pghosts r⟩

/-- Rank owning a node. (SegmentedOwnership.hpp 63-73) -/
def Setup.owner (s : Setup) (n : Nat) : Nat := getOwner (ownDist s.counts) n

/-- Is `n` owned by rank `r`? (SegmentedOwnership.hpp 30-33) -/
def Setup.owns (s : Setup) (r n : Nat) : Bool := decide (s.world.begin r ≤ n ∧ n < s.world.begin r + (s.counts[r]?).getD 0)

/-- `PeriodicBC::lookup`, PeriodicBC.hpp 35-39, entry `j`. -/
def Setup.lookup (s : Setup) (r n j : Nat) : Option Nat := ((s.per r).lookup n).bind fun d => (d[j]?).join

/-- `makeLocalDofBmp`, 180-208: the entries set. -/
def Setup.localBmp (s : Setup) (r : Nat) : List (Nat × Nat) :=
  (s.visits r).flatMap fun v => v.nodes.flatMap fun n => v.active.map fun j => ((s.lookup r n j).getD n, j)

/-- `exportDofBmp`, 210-224: owner's entries combined (or) with those of the ranks having the node as a ghost. -/
def Setup.bmp (s : Setup) (r : Nat) (p : Nat × Nat) : Bool :=
  decide (p ∈ s.localBmp r) ||
    (List.range s.counts.length).any fun r' => decide (r' ≠ r) && decide (p.1 ∈ s.ghosts r' ++ s.pghosts r') && decide (p ∈ s.localBmp r')

/-- The pairs (owned node, component) in the order of the loops 232-238, 256-262. -/
def Setup.pairs (s : Setup) (r : Nat) : List (Nat × Nat) :=
  (List.range ((s.counts[r]?).getD 0)).flatMap fun i => (List.range s.dpn).map fun j => (s.world.begin r + i, j)

/-- The condition in both loops (236, 260): not redirected and active. -/
def Setup.valid (s : Setup) (r : Nat) (p : Nat × Nat) : Bool := (s.lookup r p.1 p.2).isNone && s.bmp r p

/-- `computeNumOwnedDofs`, 226-240. -/
def Setup.numOwned (s : Setup) (r : Nat) : Nat := (s.pairs r).foldl (fun a p => a + if s.valid r p then 1 else 0) 0

/-- `computeBaseDof`, 242-247. -/
def Setup.base (s : Setup) (r : Nat) : Nat := if r = 0 then 0 else ((List.range r).map s.numOwned).sum

/-- Loop body of `computeOwnedDofs`, 260: consecutive numbers for valid entries. -/
def number {α : Type} (v : α → Bool) : Nat → List α → List (α × Option Nat)
  | _, [] => []
  | b, a :: l => if v a then (a, some b) :: number v (b + 1) l else (a, none) :: number v b l

/-- `computeOwnedDofs`, 249-264: entry of the table of rank `r`. -/
def Setup.ownedDofs (s : Setup) (r n j : Nat) : Option Nat := ((number (s.valid r) (s.base r) (s.pairs r)).lookup (n, j)).join

/-- `communicateSharedDofs`, 266-279. -/
def Setup.import_ (s : Setup) (t : Nat → Nat → Nat → Option Nat) (r n j : Nat) : Option Nat :=
  if s.owns r n then t r n j else if n ∈ s.ghosts r ++ s.pghosts r then t (s.owner n) n j else none

/-- The assignments made by `fixPeriodicDofs` (281-296): node, component, representative. -/
def redirects (per : List (Nat × List (Option Nat))) : List (Nat × Nat × Nat) :=
  per.flatMap fun e => (List.range e.2.length).filterMap fun i => ((e.2[i]?).join).map fun a => (e.1, i, a)

/-- One assignment `dofs(lid, i) = dofs(periodic_lid, i)`, line 293. -/
def redirect (t : Nat → Nat → Option Nat) (o : Nat × Nat × Nat) : Nat → Nat → Option Nat :=
  fun n j => if n = o.1 ∧ j = o.2.1 then t o.2.2 o.2.1 else t n j

/-- `fixPeriodicDofs`, 281-296. -/
def Setup.fixPeriodic (s : Setup) (t : Nat → Nat → Nat → Option Nat) (r : Nat) : Nat → Nat → Option Nat :=
  (redirects (s.per r)).foldl redirect (t r)

/-- Tables at the end of the constructor, 343-354. -/
def Setup.dofs (s : Setup) : Nat → Nat → Nat → Option Nat := s.import_ (s.fixPeriodic (s.import_ s.ownedDofs))

/-- `operator()(node)` after `initFromDofs` (311-333); `none` when `at` throws. -/
def Setup.map (s : Setup) (r n : Nat) : Option (List (Option Nat)) :=
  if s.owns r n || (decide (n ∈ s.ghosts r ++ s.pghosts r) && !decide (n ∈ s.pghosts r)) then some ((List.range s.dpn).map (s.dofs r n)) else none

/-- Local nodes, owned then shared. (`makeNodeOwnership`, NodeToDofMap.hpp 167-178) -/
def Setup.localNodes (s : Setup) (r : Nat) : List Nat :=
  (List.range ((s.counts[r]?).getD 0)).map (s.world.begin r + ·) ++ Std.sort (s.ghosts r ++ s.pghosts r)

/-- `computeSharedDofs`, 298-308 (a `std::set`). -/
def Setup.sharedDofs (s : Setup) (r : Nat) : List Nat :=
  Std.sortUniq ((s.localNodes r).flatMap fun n => (List.range s.dpn).filterMap fun j =>
    (s.dofs r n j).bind fun d => if s.base r ≤ d ∧ d < s.base r + s.numOwned r then none else some d)

/-- `m_dof_ownership`, line 332. -/
def Setup.dofOwn (s : Setup) (r : Nat) : Option SegOwn := SegOwn.make (s.base r) (s.numOwned r) (s.sharedDofs r)

/-- `LocalDofMap` entry, 152-162. -/
def Setup.localDof (s : Setup) (r n j : Nat) : Option (Option Nat) := (s.dofOwn r).map fun o => (s.dofs r n j).map o.getLocal

/-! ### Periodic nodes -/

/-- `dof_groups` of `processPeriodicDef`, PeriodicBC.hpp 67-71: the definitions (boundaries and translation, set of components)
which apply to component `i`, sorted. -/
def dofGroup {β : Type} [LinearOrder β] (defs : List (β × List Nat)) (i : Nat) : List β :=
  Std.sort ((defs.filter fun d => decide (i ∈ d.2)).map (·.1))

/-- `group2dofs`, 74-79: components with equal lists form one group (the order of the groups does not matter). -/
def processDef {β : Type} [LinearOrder β] (dpn : Nat) (defs : List (β × List Nat)) : List (List Nat × List β) :=
  ((List.range dpn).map (dofGroup defs)).dedup.map fun k => ((List.range dpn).filter fun i => dofGroup defs i = k, k)

/-- `getComponents`, PeriodicBC.hpp 250-265.  `junk`, `iter`: see `Graph.makeCrsGraph`. -/
def components (junk : Nat → Nat) (iter : List (Nat × List Nat) → List (Nat × List Nat)) (src dst : List Nat) : Option (List (List Nat)) :=
  let nodes := Std.sortUniq (src ++ dst)
  (Graph.makeCrsGraph true (src.map nodes.idxOf) (dst.map nodes.idxOf) junk iter).bind fun g =>
    (Graph.getComponents g).bind fun cs => cs.mapM fun c => c.mapM fun i => nodes[i]?

/-- The (passive, active) pairs of a component, 286-295; `none`: the assertion fails for a component with a single node. -/
def compPairs : List Nat → Option (List (Nat × Nat))
  | a :: p :: ps => some ((p :: ps).map fun q => (q, a))
  | _ => none

/-- The pairs of all components in `scatterMatched`, 284-296. -/
def matched (cs : List (List Nat)) : Option (List (Nat × Nat)) := (cs.mapM compPairs).map List.flatten

/-- The pairs rank `r` receives: those whose passive node it owns (281-283, 291-294). -/
def received (counts : List Nat) (r : Nat) (ps : List (Nat × Nat)) : List (Nat × Nat) := ps.filter fun p => getOwner (ownDist counts) p.1 = r

/-- Body of the loop 347-352: `try_emplace` then set the components of the group. -/
def setPer (dpn : Nat) (comps : List Nat) (m : List (Nat × List (Option Nat))) (p : Nat × Nat) : List (Nat × List (Option Nat)) :=
  OMap.upd m p.1 fun o => comps.foldl (fun v i => v.set i (some p.2)) (o.getD (List.replicate dpn none))

/-- Constructor of `PeriodicBC` on rank `r`, 325-356, from the matched pairs of each group (components, pairs). -/
def perInfo (dpn : Nat) (counts : List Nat) (r : Nat) (groups : List (List Nat × List (Nat × Nat))) : List (Nat × List (Option Nat)) :=
  groups.foldl (fun m g => (received counts r g.2).foldl (setPer dpn g.1) m) []

/-- Periodic ghosts of rank `r`, 353-355. -/
def perGhosts (counts : List Nat) (r : Nat) (isLocal : Nat → Bool) (groups : List (List Nat × List (Nat × Nat))) : List Nat :=
  Std.sortUniq (groups.flatMap fun g => ((received counts r g.2).map (·.2)).filter fun a => !isLocal a)

/-- Periodic information added to the data of a mesh. (PeriodicBC.hpp 35-40) -/
def Setup.withPeriodic (s : Setup) (groups : List (List Nat × List (Nat × Nat))) : Setup :=
  { s with
    per := fun r => perInfo s.dpn s.counts r groups
    pghosts := fun r => perGhosts s.counts r (fun n => s.owns r n || decide (n ∈ s.ghosts r)) groups }

/-! ### Element queries, DofsFromNodes.hpp -/

/-- `getDofsCopy`, 8-30; `dofs n` is the table row of a node. -/
def getDofsCopy (dofs : Nat → List (Option Nat)) (nodes inds : List Nat) : List Nat :=
  Std.sortUniq (nodes.flatMap fun n => inds.filterMap fun i => ((dofs n)[i]?).join)

/-- `getDofsFromNodes` with indices, 32-56 and 72-88: all entries, including invalid ones. -/
def getDofsAt (dofs : Nat → List (Option Nat)) (nodes inds : List Nat) : List (Option Nat) :=
  nodes.flatMap fun n => inds.map fun i => ((dofs n)[i]?).join

/-- `getDofsFromNodes` without indices, 58-70 and 90-102: valid entries. -/
def getDofsAll (dofs : Nat → List (Option Nat)) (nodes : List Nat) : List Nat :=
  ((nodes.flatMap dofs).filterMap id)

end Verif.Dofs
