import Verif.Spatial.Model

/-!
# Model of the geometric matching of periodic nodes

Source: `/repo/include/l3ster/bcs/PeriodicBC.hpp` lines 82-205 and 336-342, in exact arithmetic over an ordered field with
floor.  A node is its list of three coordinates with its id.
-/
namespace Verif.PerMatch
open Verif Verif.Spatial

variable {K : Type} [Field K] [LinearOrder K] [IsStrictOrderedRing K] [FloorRing K]

/-- Constants of the floating-point type: `numeric_limits::max()`, `numeric_limits::min()` (the least *positive* normal
number), the threshold of line 161 and `SpatialHashTable::minimum_dx`. -/
structure Consts (K : Type) where
  big : K
  tiny : K
  planar : K
  minDx : K

/-- Nearest integer to the `d`-th root of `n`: the number of `k ≥ 1` with `k - 1/2 ≤ root` (163). -/
def roundRoot (d n : Nat) : Nat := ((List.range (n + 1)).filter fun k => decide ((2 * k + 1) ^ d ≤ 2 ^ d * n)).length

/-- Bounding box, 142-159: fold from `(max(), min())`. -/
def bounds (c : Consts K) (i : Nat) (ns : List (List K × Nat)) : K × K :=
  ns.foldl (fun b n => (min b.1 (n.1.getD i 0), max b.2 (n.1.getD i 0))) (c.big, c.tiny)

/-- `x_span`, 160. -/
def span (c : Consts K) (ns : List (List K × Nat)) : List K := (List.range 3).map fun i => (bounds c i ns).2 - (bounds c i ns).1

/-- `grid_divs`, 161-163. -/
def gridDivs (c : Consts K) (ns : List (List K × Nat)) : K :=
  10 * (roundRoot (if (span c ns).any fun d => decide (d < c.planar) then 2 else 3) ns.length : Nat)

/-- `dx`, 164. -/
def spacing (c : Consts K) (ns : List (List K × Nat)) : List K := (span c ns).map fun s => s / gridDivs c ns

/-- `origin`, 165. -/
def origin (c : Consts K) (ns : List (List K × Nat)) : List K := (List.range 3).map fun i => ((bounds c i ns).1 + (bounds c i ns).2) / 2

/-- `makeNodeSpacemap`, 136-171. -/
def spaceMap (c : Consts K) (ns : List (List K × Nat)) : Table K Nat :=
  if ns = [] then Table.new c.minDx (List.replicate 3 c.minDx) (List.replicate 3 0) else (Table.new c.minDx (spacing c ns) (origin c ns)).fill ns

/-- Squared distance, 182-185 before the square root. -/
def dist2 (a b : List K) : K := ((List.range 3).map fun i => (a.getD i 0 - b.getD i 0) * (a.getD i 0 - b.getD i 0)).sum

/-- `distance(p, x) < m_tolerance`, 188-190: the distance is not negative, so the tolerance must be positive. -/
def closer (tol : K) (a b : List K) : Bool := decide (0 < tol ∧ dist2 a b < tol * tol)

/-- Body of the loop in `NodeMatcher::match`, 186-198. -/
def matchOne (t : Table K Nat) (tol : K) (n : List K × Nat) : Option (Nat × Nat) :=
  ((t.proximate n.1).find? fun p => closer tol p.1 n.1).map fun p => (n.2, p.2)

/-- `NodeMatcher::match`, 180-199. -/
def matchNodes (t : Table K Nat) (tol : K) (ns : List (List K × Nat)) : List (Nat × Nat) := ns.filterMap (matchOne t tol)

/-- Translation of the source nodes, `getSourceNodeData` 122-134. -/
def translate (dx : List K) (n : List K × Nat) : List K × Nat := ((n.1.zip dx).map fun q => q.1 + q.2, n.2)

/-- All ranks (336-342): every rank matches the (translated) source nodes of all ranks with its own destination nodes; the
results are gathered. -/
def matchAll (c : Consts K) (tol : K) (src dst : List (List (List K × Nat))) : List (Nat × Nat) :=
  dst.flatMap fun d => src.flatMap fun s => matchNodes (spaceMap c d) tol s

end Verif.PerMatch
