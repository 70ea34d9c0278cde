import Verif.NativeIO.Model
import Verif.Pipeline.Model
import Verif.Permute.Model
import Verif.Algo.Model

/-!
# Model of checkpoint and restart: `save` of a distributed mesh and of its results, `Loader`

Source: `/repo/include/l3ster/post/NativeIO.hpp` 70-106, 185-324; `/repo/include/l3ster/comm/DistributeMesh.hpp` 122-134, 178-204, 250-281;
`/repo/include/l3ster/mesh/PartitionMesh.hpp` 500-517.  File contents are those of area `NativeIO`; parts and their distribution are those of areas `Partition`, `Permute` and `Pipeline`.
Coordinates of vertices travel with the elements (`bytes`).
-/
namespace Verif.Restart
open Verif Verif.Elem Verif.Mesh Verif.NativeIO Verif.Pipeline

/-- What a rank hands to `serializeMesh` (NativeIO.hpp 75, MeshUtils.hpp 316-330): elements of all domains with the bytes of their vertex coordinates, node range, boundary ids
(each part knows all of them, PartitionMesh.hpp 401-402). -/
def savedPart (bytes : Element → List Byte) (bnds : List Nat) (p : Split.Part) : SPart :=
  (p.doms.map fun d => (d.1, d.2.vecs.map fun v => v.map fun e => (e, bytes e)), p.own.first, p.own.cnt, bnds)

/-- `save` of the mesh by all ranks: the writes to the file. (NativeIO.hpp 70-106) -/
def saveParts (kinds : List (ElType × Nat)) (bytes : Element → List Byte) (bnds : List Nat) (comment : List Byte) (parts : List Split.Part) : List (Nat × List Byte) :=
  saveMesh kinds comment (parts.map (savedPart bytes bnds))

/-- `loadUnifiedMesh`: domains and boundary ids of the mesh read on one rank. (NativeIO.hpp 185-211) -/
def loadUnified (kinds : List (ElType × Nat)) (file : List Byte) : Option (DomMap × List Nat) := (loadParts kinds file).bind (unify kinds)

/-- `distributeMeshAndNodeMap` on the mesh read (DistributeMesh.hpp 250-281; `Loader::loadMeshRepart`, NativeIO.hpp 299-310): the parts, the numbers `f` which the nodes get, and for each rank
the numbers its local nodes had in the mesh read (`m_old_nodes`).  On one rank the numbers `0 … n-1` (DistributeMesh.hpp 259-265); else `getOldNodeIds` of each part with the inverted map of
the partitioner (268-274, 122-134, 178-204); if ranks are reordered the lists move with the parts (276-278, 215-227). -/
inductive Repart (Q : List Split.Part → List Nat → Prop) (kinds : List (ElType × Nat)) (m : DomMap) (bnds : List Nat) :
    Nat → List Split.Part → (Nat → Nat) → List (List Nat) → Prop
  | one (N : Nat) (hN : ∀ x, NodeIn m x ↔ x < N) (views : List (Nat × List (Element × Nat))) :
      Repart Q kinds m bnds 1 [⟨m, ⟨0, N, []⟩, views⟩] id [List.range N]
  | many (nParts : Nat) (epart npart perm : List Nat) (hl : Partition.Labels m bnds nParts epart npart perm)
      (shuffle : List (Nat × Nat × Element) → List (Nat × Nat × Element)) (ord : Nat → Nat → List Element → List Element)
      (hshuf : ∀ l, (shuffle l).Perm l) (hord : ∀ i k l, (ord i k l).Perm l) (parts : List Split.Part) (φ : Algo.AMap Nat Nat)
      (h : Partition.partitionImpl kinds m bnds nParts epart npart perm shuffle ord = some (parts, φ))
      (old : List (List Nat)) (hold : (parts.mapM fun p => Permute.oldNodeIds p.own (Algo.invertMap φ)) = some old) :
      Repart Q kinds m bnds nParts parts (fun x => (φ.find x).getD 0) old
  | optimized (nParts : Nat) (parts : List Split.Part) (f : Nat → Nat) (old : List (List Nat)) (h : Repart Q kinds m bnds nParts parts f old) (src : List Nat)
      (hsrc : src.Perm (List.range nParts)) (hQ : Q parts src) (parts' : List Split.Part) (h' : reorder parts src = some parts') :
      Repart Q kinds m bnds nParts parts' (fun x => Permute.newId (world parts) src (f x)) (src.map fun p => (old[p]?).getD [])

/-- Local nodes of a part: owned, then ghosts. (NativeIO.hpp 317-319) -/
def localNodes (o : Own.SegOwn) : List Nat := (List.range o.cnt).map (o.first + ·) ++ o.shared

/-- `loadMeshDirect` without optimisation on rank `r` (NativeIO.hpp 312-324): the part saved by rank `r`, its ownership, and its own node numbers as `m_old_nodes`. -/
def loadDirect (kinds : List (ElType × Nat)) (nRanks r : Nat) (file : List Byte) : Option (DomMap × Own.SegOwn × List Nat × List Nat) :=
  (loadPart kinds nRanks r file).bind fun p => (buildPart kinds p).map fun b => (b.1, b.2.1, b.2.2, localNodes b.2.1)

/-- State of a `Loader`: `m_old_nodes` once `loadMesh` was called (`m_max_old_node` no longer is the largest number). (NativeIO.hpp 268-271) -/
structure Loader where
  old : Option (List Nat)

/-- A `Loader` just made. (NativeIO.hpp 238-239) -/
def Loader.fresh : Loader := ⟨none⟩

/-- The state after `loadMesh`. (NativeIO.hpp 307-308, 317-322) -/
def Loader.loaded (_ : Loader) (old : List Nat) : Loader := ⟨some old⟩

/-- `loadResults` with field indices; `none` = an assertion fails. (NativeIO.hpp 242-249, 280-297) -/
def Loader.loadResults (L : Loader) (file : List Byte) (src dst : List Nat) (s : SolMan) : Option SolMan :=
  L.old.bind fun old => loadRes file old src dst s

/-- `loadResults` without field indices. (NativeIO.hpp 250-257) -/
def Loader.loadAll (L : Loader) (file : List Byte) (s : SolMan) : Option SolMan :=
  (openRes file).bind fun r => L.loadResults file (List.range r.1) (List.range s.nFields) s

end Verif.Restart
