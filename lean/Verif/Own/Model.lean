import Verif.Common.Std
import Verif.Common.OMap
/-!
# Model of `SegmentedOwnership`

Source: `/repo/include/l3ster/util/SegmentedOwnership.hpp`, lines 12-122.  Ids are natural numbers
(`n_id_t`, or non-negative `global_dof_t`).  A failed assertion or out-of-range access is `none`.
-/
namespace Verif.Own

/-- `m_owned_begin`, `m_owned_end - m_owned_begin`, `m_shared` (lines 110-111). -/
structure SegOwn where
  first : Nat
  cnt : Nat
  shared : List Nat
deriving DecidableEq, Repr, Inhabited

/-- `isOwned`, line 32. -/
def SegOwn.isOwned (o : SegOwn) (i : Nat) : Bool := decide (o.first ≤ i ∧ i < o.first + o.cnt)

/-- Constructor, lines 20-28: the assertion is checked, then the shared ids are sorted. -/
def SegOwn.make (first cnt : Nat) (shared : List Nat) : Option SegOwn :=
  if shared.any (SegOwn.isOwned ⟨first, cnt, shared⟩) then none else some ⟨first, cnt, Std.sort shared⟩

/-- `isShared`, line 33. -/
def SegOwn.isShared (o : SegOwn) (i : Nat) : Bool := Std.binarySearch o.shared i

/-- `localSize`, line 34. -/
def SegOwn.localSize (o : SegOwn) : Nat := o.cnt + o.shared.length

/-- `getLocalIndex`, lines 35-41. -/
def SegOwn.getLocal (o : SegOwn) (gid : Nat) : Nat :=
  if o.isOwned gid then gid - o.first else o.cnt + Std.lowerBound o.shared gid

/-- `getGlobalIndex`, lines 42-45; `none` for an index outside the span. -/
def SegOwn.getGlobal (o : SegOwn) (lid : Nat) : Option Nat :=
  if lid < o.cnt then some (o.first + lid) else o.shared[lid - o.cnt]?

/-- `getOwnershipDist`, lines 53-60: inclusive scan of the gathered per-rank counts. -/
def ownDist (counts : List Nat) : List Nat := Std.inclusiveScan counts

/-- `get_owner`, lines 65-67. -/
def getOwner (dist : List Nat) (i : Nat) : Nat := Std.upperBound dist i

/-- Rank to indices (`std::map<int, std::vector<T>>`, line 50). -/
abbrev NbrInfo := List (Nat × List Nat)

/-- `computeOutNbrInfo`, lines 63-72. -/
def outNbrInfo (dist : List Nat) (o : SegOwn) : NbrInfo :=
  o.shared.foldl (fun m s => OMap.upd m (getOwner dist s) fun l => l.getD [] ++ [s]) []

/-- A rank's row of the neighbour bitmap, lines 78-80; `none` when `at` throws. -/
def outBmp (nRanks : Nat) (info : NbrInfo) : Option (List Bool) :=
  info.foldlM (fun bmp p => if p.1 < nRanks then some (bmp.set p.1 true) else none) (List.replicate nRanks false)

/-- `computeInNbrInfo` on rank `me`, lines 75-107: `bmps` are the bitmap rows of all ranks (the
all-to-all exchange gives rank `me` the column `me`), entries are created for the announcing
ranks (83-85), and each posted receive fills its entry with the message that rank sent
(`outInfos[a][me]`).  `arrivals` is the order in which probes succeed; it is arbitrary. -/
def inNbrInfo (outInfos : List NbrInfo) (bmps : List (List Bool)) (me : Nat) (arrivals : List Nat) :
    Option NbrInfo :=
  let init : NbrInfo := ((List.range bmps.length).filter fun a => ((bmps[a]?).bind fun b => b[me]?) = some true).map
    fun a => (a, [])
  arrivals.foldlM (fun m a =>
    match (outInfos[a]?).bind (fun info => info.lookup me) with
    | some inds => if (m.lookup a).isSome then some (OMap.upd m a fun _ => inds) else none
    | none => none) init

/-- All ranks: counts and ghost sets; rank `r` owns the `r`-th block of ids. (SegmentedOwnership.hpp 53-62, the layout assumed by `getOwnershipDist`) -/
structure World where
  counts : List Nat
  shared : List (List Nat)
deriving Repr

/-- First id of rank `r`. (SegmentedOwnership.hpp 53-62) -/
def World.begin (w : World) (r : Nat) : Nat := (w.counts.take r).sum

/-- The ownership object constructed on rank `r`. (SegmentedOwnership.hpp 20-29) -/
def World.own (w : World) (r : Nat) : Option SegOwn :=
  SegOwn.make (w.begin r) ((w.counts[r]?).getD 0) ((w.shared[r]?).getD [])

end Verif.Own
