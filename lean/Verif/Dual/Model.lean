import Verif.Mesh.Model

/-!
# The dual graph of a mesh

Model of `isUnpartitioned` and `computeMeshDual` (/repo/include/l3ster/mesh/MeshUtils.hpp 36-94) and of the reading of a `GraphWrapper` (/repo/include/l3ster/util/MetisUtils.hpp 33-43, 67-79).
`METIS_MeshToDual` is a parameter; what it promises is stated in `Verif/Dual/Spec.lean`.
-/
namespace Verif.Dual
open Verif Verif.Elem Verif.Mesh

/-- A value, an exception, or undefined behaviour. (MeshUtils.hpp 45-94) -/
inductive Out (α : Type) where
  | ok (a : α)
  | throw
  | ub

/-- `GraphWrapper`, MetisUtils.hpp 16-43. -/
structure Graph where
  xadj : List Nat
  adjncy : List Nat
  nvert : Nat

/-- `getElementAdjacent`, MetisUtils.hpp 67-73; the spans are those of 35-36, which end at `nvert + 1` and at the last entry of `xadj`; `none`: access beyond a span. -/
def Graph.adjacent (g : Graph) (el : Nat) : Option (List Nat) :=
  if el + 1 < g.nvert + 1 then
    (g.xadj[el]?).bind fun b => (g.xadj[el + 1]?).bind fun e => (g.xadj[g.nvert]?).bind fun size =>
      if b ≤ e ∧ e ≤ size ∧ size ≤ g.adjncy.length then some ((g.adjncy.drop b).take (e - b)) else none
  else none

/-- The elements, in the order of `mesh.visit`. (MeshPartition.hpp 451-475) -/
def allEls (m : DomMap) : List Element := m.flatMap fun d => d.2.vecs.flatten

/-- `isUnpartitioned`, MeshUtils.hpp 36-42; `owned` and `shared` nodes of the mesh. -/
def isUnpartitioned (owned shared : List Nat) : Bool :=
  owned.length + shared.length == 0 || (shared.isEmpty && owned.getLast?.any fun l => l + 1 == owned.length)

/-- `convert_topo_to_metis_format`, MeshUtils.hpp 65-81; `none`: `std::bad_optional_access` from `.value()`, 78. -/
def toMetis (find : Nat → Option Element) (ne : Nat) : Option (List Nat × List Nat) :=
  (List.range ne).foldlM (fun acc id => (find id).map fun e => (acc.1 ++ [acc.1.getLastD 0 + e.nodes.length], acc.2 ++ e.nodes)) ([0], [])

/-- Conversion of a `size_t` below `2 * (maxId + 1)` to `idx_t` with greatest value `maxId` (`static_cast`, MeshUtils.hpp 84; modular since C++20). -/
def idxCast (maxId x : Nat) : Int := if x ≤ maxId then x else (x : Int) - 2 * (maxId + 1)

/-- `computeMeshDual`, MeshUtils.hpp 44-94; `maxId`: greatest `idx_t`; `metis`: `METIS_MeshToDual` with `ncommon = 2`, `none` an error code. `owned().back()`, 54, is undefined for an empty view (SegmentedOwnership.hpp 30). -/
def computeDual (maxId : Nat) (metis : Nat → Int → List Nat → List Nat → Option (List Nat × List Nat)) (m : DomMap) (owned shared : List Nat) : Out Graph :=
  if isUnpartitioned owned shared then
    match owned.getLast? with
    | none => .ub
    | some mx =>
      if (allEls m).length + 1 ≤ maxId ∧ mx ≤ maxId ∧ ((allEls m).map fun e => e.nodes.length).sum ≤ maxId then
        match toMetis (findId m) (allEls m).length with
        | none => .throw
        | some (eptr, eind) =>
          match metis (allEls m).length (idxCast maxId owned.length) eptr eind with
          | none => .throw
          | some (xadj, adjncy) => .ok ⟨xadj, adjncy, (allEls m).length⟩
      else .throw
  else .throw

end Verif.Dual
