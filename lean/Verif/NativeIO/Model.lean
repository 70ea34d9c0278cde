import Verif.Common.FileWrite
import Verif.Ser.Model
import Verif.Mesh.Push

/-!
# Model of native mesh and results files

Source: `/repo/include/l3ster/post/NativeIO.hpp` (whole file) and
`/repo/include/l3ster/mesh/MeshUtils.hpp` 309-358 (`serializeMesh`, `deserializeMesh`).

A mesh part is the data handed to the `MeshPartition` constructor: domains with their element
vectors, first owned node and number of owned nodes, boundary ids.  An element (`SEl`) comes with
the 24 bytes of each of its vertices.  The MPI gather/scatter/scan/broadcast of sizes are replaced by
their results.  Collective writes are lists of (offset, bytes), performed in any order on a file with
any previous content (the file is opened without truncation).  Sizes are natural numbers: the
hypotheses of the theorems keep everything below 2^64.  `none` = exception.
-/
namespace Verif.NativeIO
open Verif Verif.Elem Verif.Mesh Verif.Ser

/-- Element together with the object representation of its vertices (mesh/Element.hpp 29-31). -/
abbrev SEl := Element × List Byte

/-- Number of nodes of an element with `n` nodes per edge. (MeshUtils.hpp 309-313, element types with their node arrays) -/
def nNodes (kd : ElType × Nat) : Nat := kd.2 ^ kd.1.dim

/-- Bytes of vertex data: 3 doubles per vertex. -/
def dataSize (kd : ElType × Nat) : Nat := 24 * 2 ^ kd.1.dim

/-- `n` consecutive `u64`. -/
def readU64s : Nat → List Byte → List Nat
  | 0, _ => []
  | n + 1, s => ofLe (s.take 8) :: readU64s n (s.drop 8)

/-- Elements are trivially copyable: nodes, vertices, id (Serialization.hpp 20-29, 74-87; no padding). -/
def elCodec (kd : ElType × Nat) : Codec SEl where
  ser v := (v.1.nodes.map (leBytes 8)).flatten ++ (v.2 ++ leBytes 8 v.1.id)
  des s :=
    if 8 * nNodes kd + (dataSize kd + 8) ≤ s.length then
      some ((⟨kd.1, kd.2, ofLe (((s.drop (8 * nNodes kd)).drop (dataSize kd)).take 8), readU64s (nNodes kd) s⟩,
        (s.drop (8 * nNodes kd)).take (dataSize kd)), ((s.drop (8 * nNodes kd)).drop (dataSize kd)).drop 8)
    else none
  Fits v := v.1.kind = kd ∧ v.1.nodes.length = nNodes kd ∧ (∀ x ∈ v.1.nodes, x < 2 ^ 64) ∧ v.2.length = dataSize kd ∧ v.1.id < 2 ^ 64

/-- The tuple of element arrays of a domain, one per element type and order (320-323, 309-313). -/
def tupCodec : List (ElType × Nat) → Codec (List (List SEl))
  | [] => { ser := fun _ => [], des := fun s => some ([], s), Fits := fun v => v = [] }
  | kd :: ks =>
    { ser := fun v => (seqCodec (elCodec kd)).ser (v.headD []) ++ (tupCodec ks).ser v.tail
      des := fun s => ((seqCodec (elCodec kd)).des s).bind fun a => ((tupCodec ks).des a.2).map fun b => (a.1 :: b.1, b.2)
      Fits := fun v => v ≠ [] ∧ (seqCodec (elCodec kd)).Fits (v.headD []) ∧ (tupCodec ks).Fits v.tail }

/-- Domains (id, element vectors), first owned node, number of owned nodes, boundary ids. (MeshUtils.hpp 320-328, 335-338) -/
abbrev SPart := List (Nat × List (List SEl)) × Nat × Nat × List Nat

/-- The tuple written by `serializeMesh` (328) and read by `deserializeMesh` (335-338). -/
def partCodec (kinds : List (ElType × Nat)) : Codec SPart :=
  pairCodec (seqCodec (pairCodec (uintCodec 2) (tupCodec kinds)))
    (pairCodec (uintCodec 8) (pairCodec (uintCodec 8) (seqCodec (uintCodec 2))))

/-- `serializeMesh`, 316-330 (`nodes_begin` is 0 if no node is owned). -/
def serializeMesh (kinds : List (ElType × Nat)) (p : SPart) : List Byte :=
  (partCodec kinds).ser (p.1, (if p.2.2.1 = 0 then 0 else p.2.1), p.2.2.1, p.2.2.2)

/-- `deserializeMesh` up to `domain_map`, 335-338. -/
def deserializeMesh (kinds : List (ElType × Nat)) (s : List Byte) : Option SPart := ((partCodec kinds).des s).map (·.1)

/-- `make_domain`, 340-353: the elements are pushed vector by vector into a new domain. -/
def makeDomain (kinds : List (ElType × Nat)) (vs : List (List SEl)) : Option Domain :=
  (vs.flatten.map (·.1)).foldlM (Domain.push kinds) (emptyDom kinds)

/-- `std::ranges::to<std::map>`: keys already present are not overwritten. (MeshUtils.hpp 355) -/
def toMap (l : List (Nat × Domain)) : DomMap :=
  l.foldl (fun m p => OMap.upd m p.1 fun o => o.getD p.2) []

/-- `domain_map`, 354-355. -/
def makeDomains (kinds : List (ElType × Nat)) (l : List (Nat × List (List SEl))) : Option DomMap :=
  (l.mapM fun p => (makeDomain kinds p.2).map fun d => (p.1, d)).map toMap

/-! ## Mesh files -/

/-- ASCII text. (string literals NativeIO.hpp 40, 88) -/
def txt (s : String) : List Byte := s.toList.map fun c => BitVec.ofNat 8 c.toNat

/-- Newline. (NativeIO.hpp 39, 40, 87, 88, 121) -/
def nl : Byte := 10

/-- `std::ranges::replace(comment, '\n', ' ')`. (NativeIO.hpp 39, 87) -/
def oneLine (comment : List Byte) : List Byte := comment.map fun b => if b = nl then 32 else b

/-- First line, version, comment line (format strings of 40 and 85). -/
def preamble (what : String) (comment : List Byte) : List Byte :=
  txt what ++ (nl :: (txt "v1.0" ++ (nl :: (txt "// " ++ oneLine comment ++ [nl]))))

/-- Header of a mesh file, 80-91. -/
def meshHeader (comment : List Byte) (sizes : List Nat) : List Byte :=
  preamble "L3STER mesh file" comment ++ (leBytes 8 sizes.length ++ (sizes.map (leBytes 8)).flatten)

/-- `save(mesh)`, 70-106: the writes of all ranks; rank `r` writes at the header size plus the sizes
of the parts before (`exclusive_scan`, 94). -/
def saveMesh (kinds : List (ElType × Nat)) (comment : List Byte) (parts : List SPart) : List (Nat × List Byte) :=
  let sers := parts.map (serializeMesh kinds)
  let header := meshHeader comment (sers.map List.length)
  (0, header) :: sers.zipIdx.map fun p => (header.length + ((sers.take p.2).map List.length).sum, p.1)

/-- `skipLine`, 117-126: text after the first newline. -/
def skipLine (s : List Byte) : Option (List Byte) :=
  if nl ∈ s then some ((s.dropWhile (· != nl)).drop 1) else none

/-- Skip the first three lines. (NativeIO.hpp 134-135, 165-166) -/
def skip3 (s : List Byte) : Option (List Byte) := (skipLine s).bind fun s => (skipLine s).bind skipLine

/-- `extractSavedPartitionInfo`, 161-183: sizes of the parts and the remaining text. -/
def partInfo (s : List Byte) : Option (List Nat × List Byte) :=
  (skip3 s).bind fun s =>
    if 8 ≤ s.length then
      let n := ofLe (s.take 8)
      let s' := s.drop 8
      if n * 8 ≤ s'.length then some (readU64s n s', s'.drop (8 * n)) else none
    else none

/-- `contents.substr(ofs, sz)` with `ofs` the sum of the sizes before part `r`. (NativeIO.hpp 177-181, 196, 222-224) -/
def partText (info : List Nat × List Byte) (r : Nat) : Option (List Byte) :=
  (info.1[r]?).bind fun sz =>
    let ofs := (info.1.take r).sum
    if ofs ≤ info.2.length then some ((info.2.drop ofs).take sz) else none

/-- `loadPartitionedMesh`, 213-225, on rank `r` of `nRanks`. -/
def loadPart (kinds : List (ElType × Nat)) (nRanks r : Nat) (file : List Byte) : Option SPart :=
  (partInfo file).bind fun info =>
    if info.1.length = nRanks then (partText info r).bind (deserializeMesh kinds) else none

/-- Domains, ownership and boundary views of the loaded part: the `MeshPartition` constructor (MeshPartition.hpp
287-302); `ord` is the processing order of boundary elements. -/
def buildPart (kinds : List (ElType × Nat)) (p : SPart) : Option (DomMap × Own.SegOwn × List Nat) :=
  (makeDomains kinds p.1).bind fun doms => (ownershipRange doms p.2.1 p.2.2.1).map fun o => (doms, o, p.2.2.2)

/-- All parts of a file, in order (`zip_transform`, 193-199). -/
def loadParts (kinds : List (ElType × Nat)) (file : List Byte) : Option (List SPart) :=
  (partInfo file).bind fun info => (List.range info.1.length).mapM fun r => (partText info r).bind (deserializeMesh kinds)

/-- The elements of a loaded part with their domain, in the order in which `loadUnifiedMesh` visits them (200-204). -/
def partEvents (doms : DomMap) : List (Nat × Element) :=
  doms.flatMap fun d => d.2.elems.map fun e => (d.1, e)

/-- Boundary ids: those of the first part having some (205-206). -/
def unifiedBnds (parts : List SPart) : List Nat := (parts.find? fun p => !p.2.2.2.isEmpty).elim [] (·.2.2.2)

/-- Domain map and boundary ids built by `loadUnifiedMesh`, 185-211, from the parts of the file. -/
def unify (kinds : List (ElType × Nat)) (parts : List SPart) : Option (DomMap × List Nat) :=
  (parts.mapM fun p => makeDomains kinds p.1).bind fun dms =>
    (pushAll kinds (dms.foldl (fun m dm => dm.foldl (fun m d => OMap.upd m d.1 fun o => o.getD (emptyDom kinds)) m) [])
      (dms.flatMap partEvents)).map fun m => (m, unifiedBnds parts)

/-! ## Results files -/

/-- Nodal values of one rank: `SolutionManager` holds field `i` of local node `n` at `i * nNodes + n`
(SolutionManager.hpp 83-101).  A value is its 8-byte object representation. -/
structure SolMan where
  nNodes : Nat
  nFields : Nat
  data : List (List Byte)

/-- `getFieldView(field)`. (NativeIO.hpp 51) -/
def SolMan.field (s : SolMan) (i : Nat) : List (List Byte) := (s.data.drop (i * s.nNodes)).take s.nNodes

/-- Header of a results file, 38-44. -/
def resHeader (comment : List Byte) (nFields nNodes : Nat) : List Byte :=
  preamble "L3STER results file" comment ++ (leBytes 8 nFields ++ leBytes 8 nNodes)

/-- `save(results)`, 14-58: the writes of all ranks.  `ranks` lists the number of owned nodes and the solution
manager of each rank; `none` = one of the assertions fails. -/
def saveRes (comment : List Byte) (ranks : List (Nat × SolMan)) (inds : List Nat) : Option (List (Nat × List Byte)) :=
  let nGlobal := (ranks.map (·.1)).sum
  let header := resHeader comment inds.length nGlobal
  if inds.isEmpty then none
  else if ranks.any fun r => inds.any fun i => decide (r.2.nFields ≤ i) then none
  else some ((0, header) :: ranks.zipIdx.flatMap fun r => inds.zipIdx.map fun i =>
    (header.length + 8 * (nGlobal * i.2 + ((ranks.map (·.1)).take r.2).sum), ((r.1.2.field i.1).take r.1.1).flatten))

/-- `LoadedResults`: number of fields, number of nodes, data (128-142). -/
def openRes (file : List Byte) : Option (Nat × Nat × List Byte) :=
  (skip3 file).bind fun s => if 16 ≤ s.length then some (ofLe (s.take 8), ofLe ((s.drop 8).take 8), s.drop 16) else none

/-- `LoadedResults::operator()`, 144-150; `none` = read past the end. -/
def readVal (r : Nat × Nat × List Byte) (node field : Nat) : Option (List Byte) :=
  let ofs := 8 * (r.2.1 * field + node)
  if ofs + 8 ≤ r.2.2.length then some ((r.2.2.drop ofs).take 8) else none

/-- `dest_view(i, dest_ind) = …` (LayoutLeft). (NativeIO.hpp 293-296) -/
def SolMan.set (s : SolMan) (node field : Nat) (v : List Byte) : SolMan := { s with data := s.data.set (field * s.nNodes + node) v }

/-- The copy loops of `loadResultsImpl`, 293-296; `pairs` zips source and destination fields. -/
def copyLoop (r : Nat × Nat × List Byte) (oldNodes : List Nat) (pairs : List (Nat × Nat)) (s : SolMan) : Option SolMan :=
  (pairs.flatMap fun p => oldNodes.zipIdx.map fun n => (p, n)).foldlM
    (fun s x => (readVal r x.2.1 x.1.1).map fun v => s.set x.2.2 x.1.2 v) s

/-- `loadResultsImpl`, 280-297, with the ids (`m_old_nodes`) which the local nodes had in the saved mesh. -/
def loadRes (file : List Byte) (oldNodes src dst : List Nat) (s : SolMan) : Option SolMan :=
  (openRes file).bind fun r =>
    if src.length ≠ dst.length ∨ src.isEmpty then none
    else if (src.any fun i => decide (r.1 ≤ i)) || (dst.any fun i => decide (s.nFields ≤ i)) then none
    else if r.2.1 ≤ oldNodes.foldl max 0 then none
    else copyLoop r oldNodes (src.zip dst) s

end Verif.NativeIO
