import Verif.Vtk.Model
import Verif.Base64.VtkField
import Verif.Common.FileWrite
/-!
# Model of the document part of `post/VtkExport.hpp`

Text is a list of bytes.  `std::to_string` of an unsigned number is `decimal`.  The byte offsets
are natural numbers (64-bit overflow is not modelled).
-/
namespace Verif.Vtk
open Verif

/-- A string literal. -/
def str (s : String) : List Byte := s.toList.map fun c => BitVec.ofNat 8 c.toNat

/-- `std::to_string` of an unsigned number. -/
def decimal (n : Nat) : List Byte :=
  if n < 10 then [BitVec.ofNat 8 (48 + n)] else decimal (n / 10) ++ [BitVec.ofNat 8 (48 + n % 10)]
  termination_by n
  decreasing_by omega

/-- `ExportDefinition::FieldDef`, include/l3ster/post/VtkExport.hpp lines 19-23. -/
structure FieldDef where
  name : List Byte
  inds : List Nat

/-- `makeNumFieldComponentsView`, lines 479-484. -/
def numComps (f : FieldDef) : Nat := if f.inds.length = 1 then 1 else 3

/-- `pvtu_preamble`, lines 102-113. -/
def pvtuPreamble : List Byte := str "<?xml version=\"1.0\"?>\n" ++
  str "<VTKFile type=\"PUnstructuredGrid\" version=\"1.0\" byte_order=\"LittleEndian\">\n" ++
  str "<PUnstructuredGrid GhostLevel=\"0\">\n<PPoints>\n" ++
  str "  <PDataArray type=\"Float64\" Name=\"Position\" NumberOfComponents=\"3\"/>\n</PPoints>\n<PCells>\n" ++
  str "  <PDataArray type=\"UInt32\" Name=\"connectivity\" NumberOfComponents=\"1\"/>\n" ++
  str "  <PDataArray type=\"UInt32\" Name=\"offsets\" NumberOfComponents=\"1\"/>\n" ++
  str "  <PDataArray type=\"UInt8\" Name=\"types\" NumberOfComponents=\"1\"/>\n</PCells>\n<PPointData"

/-- `pvtu_postamble`, lines 114-115. -/
def pvtuPostamble : List Byte := str "</PUnstructuredGrid>\n</VTKFile>"

/-- State of the first loop of `appendPvtuPointDataDef`: text, `scal_present`, `vec_present`, and
whether the loop was left by `break`. -/
structure HdrState where
  text : List Byte
  scal : Bool
  vec : Bool
  stop : Bool

/-- One iteration, lines 123-142. -/
def hdrStep (s : HdrState) (f : FieldDef) : HdrState :=
  if s.stop then s
  else if 1 < numComps f ∧ s.vec = false then
    { text := s.text ++ str " Vectors=\"" ++ f.name ++ str "\"", scal := s.scal, vec := true, stop := s.scal }
  else if s.scal = false then
    { text := s.text ++ str " Scalars=\"" ++ f.name ++ str "\"", scal := true,
      vec := s.vec, stop := s.vec }
  else { s with stop := s.scal && s.vec }

/-- Declaration of one array in the parallel file, lines 145-152. -/
def pDataArray (f : FieldDef) : List Byte :=
  str "  <PDataArray type=\"Float64\" Name=\"" ++ f.name ++ str "\" NumberOfComponents=\"" ++
    decimal (numComps f) ++ str "\"/>\n"

/-- `appendPvtuPointDataDef`, lines 117-156. -/
def pvtuPointData (text : List Byte) (fields : List FieldDef) : List Byte :=
  (fields.foldl hdrStep ⟨text, false, false, false⟩).text ++ str ">\n" ++ fields.flatMap pDataArray ++
    str "</PPointData>\n" ++ str "<PCellData>\n" ++ str "</PCellData>\n"

/-- `appendPvtuPieceDataDef`, lines 158-168; `stem` is the stem of the file name. -/
def pvtuPieces (stem : List Byte) (nRanks : Nat) : List Byte :=
  (List.range nRanks).flatMap fun r => str "<Piece Source=\"" ++ stem ++ str "_" ++ decimal r ++ str ".vtu\"/>\n"

/-- `makePvtuFileContents`, lines 170-182. -/
def pvtuContents (stem : List Byte) (nRanks : Nat) (fields : List FieldDef) : List Byte :=
  pvtuPointData pvtuPreamble fields ++ pvtuPieces stem nRanks ++ pvtuPostamble

/-! ### The piece file -/

/-- The data members of `PvtuExporter`, lines 92-96. -/
structure Exporter where
  nCells : Nat
  nNodes : Nat
  topoSz : Nat
  offsSz : Nat
  typeSz : Nat
  encodedTopo : List Byte
  encodedCoords : List Byte

/-- `vtu_preamble`, lines 185-188. -/
def vtuPreamble : List Byte := str "<?xml version=\"1.0\"?>\n" ++
  str "<VTKFile type=\"UnstructuredGrid\" version=\"1.0\" byte_order=\"LittleEndian\" header_type=\"UInt64\">\n" ++
  str "<UnstructuredGrid>\n"

/-- `vtu_postamble`, line 189. -/
def vtuPostamble : List Byte := str "\n</AppendedData>\n</VTKFile>"

/-- The text appended by `append_data_array`, lines 632-641. -/
def dataArray (type name : List Byte) (nComps offset : Nat) : List Byte :=
  str "  <DataArray type=\"" ++ type ++ str "\" Name=\"" ++ name ++ str "\" NumberOfComponents=\"" ++ decimal nComps ++
    str "\" format=\"appended\" offset=\"" ++ decimal offset ++ str "\">\n" ++ str "  </DataArray>\n"

/-- `append_data_array`, lines 629-643: text so far and running offset. -/
def appendDataArray (s : List Byte × Nat) (type name : List Byte) (nComps size : Nat) : List Byte × Nat :=
  (s.1 ++ dataArray type name nComps s.2, s.2 + size)

/-- Lines 645-657: mesh description. -/
def describeMesh (e : Exporter) : List Byte × Nat :=
  let s0 : List Byte × Nat := (vtuPreamble ++ str "<Piece NumberOfPoints=\"" ++ decimal e.nNodes ++
    str "\" NumberOfCells=\"" ++ decimal e.nCells ++ str "\">\n<Points>\n", 0)
  let s1 := appendDataArray s0 (str "Float64") (str "Position") 3 e.encodedCoords.length
  let s2 := appendDataArray (s1.1 ++ str "</Points>\n" ++ str "<Cells>\n", s1.2) (str "UInt32") (str "connectivity") 1 e.topoSz
  let s3 := appendDataArray s2 (str "UInt32") (str "offsets") 1 e.offsSz
  let s4 := appendDataArray s3 (str "UInt8") (str "types") 1 e.typeSz
  (s4.1 ++ str "</Cells>\n", s4.2)

/-- Lines 661-668. -/
def scalarsAttr (fields : List FieldDef) : List Byte :=
  match fields.find? fun f => numComps f = 1 with
  | some f => str " Scalars=\"" ++ f.name ++ str "\""
  | none => []

/-- Lines 669-676. -/
def vectorsAttr (fields : List FieldDef) : List Byte :=
  match fields.find? fun f => 1 < numComps f with
  | some f => str " Vectors=\"" ++ f.name ++ str "\""
  | none => []

/-- `makeDataDescription`, lines 618-691; `sizes` are the sizes of the encoded fields. -/
def description (e : Exporter) (fields : List FieldDef) (sizes : List Nat) : List Byte :=
  let s := describeMesh e
  let s := (s.1 ++ str "<PointData" ++ scalarsAttr fields ++ vectorsAttr fields ++ str ">\n", s.2)
  let s := (fields.zip sizes).foldl (fun s p => appendDataArray s (str "Float64") p.1.name (numComps p.1) p.2) s
  s.1 ++ str "</PointData>\n" ++ str "<CellData>\n" ++ str "</CellData>\n" ++ str "</Piece>\n" ++
    str "</UnstructuredGrid>\n" ++ str "<AppendedData encoding=\"base64\">\n  _"

/-- `encodeField`, lines 450-466; `none` = exception (wrong number of components) or undefined
behaviour (field of a shorter length). `sol i` are the values of field `i`. -/
def encodeField (avx : Bool) (sol : Nat → List Base64.Val) (f : FieldDef) : Option (List Byte) :=
  match f.inds with
  | [i] => (Base64.encodeScalarField avx (sol i)).map Prod.snd
  | [i, j] => (Base64.encodeVectorField avx [sol i, sol j]).map Prod.snd
  | [i, j, k] => (Base64.encodeVectorField avx [sol i, sol j, sol k]).map Prod.snd
  | _ => none

/-- `enqueueVtuFileWrite`, lines 598-616: the (asynchronous) writes at explicit positions. -/
def vtuWrites (e : Exporter) (fields : List FieldDef) (encoded : List (List Byte)) : List (Nat × List Byte) :=
  (([description e fields (encoded.map List.length), e.encodedCoords, e.encodedTopo] ++ encoded ++ [vtuPostamble]).foldl
    (fun (s : List (Nat × List Byte) × Nat) text => (s.1 ++ [(s.2, text)], s.2 + text.length)) ([], 0)).1

/-- `exportSolution` of one rank, lines 532-549: range check, encoding, writes to the piece file. -/
def exportPiece (avx : Bool) (nFields : Nat) (sol : Nat → List Base64.Val) (e : Exporter) (fields : List FieldDef) :
    Option (List (Nat × List Byte)) :=
  if fields.all fun f => f.inds.all (· < nFields) then
    (fields.mapM (encodeField avx sol)).map (vtuWrites e fields)
  else none

/-- `makeCoordsSerialized`, lines 365-394: the coordinate array has been filled; 8-byte size header
followed by three doubles per node. -/
def coordsText (avx : Bool) (coords : List Base64.Val) : Option (List Byte) :=
  Base64.encode avx false 0 (Base64.valBytes (BitVec.ofNat 64 (8 * coords.length) :: coords))

/-- `PvtuExporter` constructor with `updateNodeCoords` and `initTopo`, lines 523-530, 566-584. -/
def mkExporter (avx : Bool) (toAligned : Nat) (own : Own.SegOwn) (els : List El) (coords : List Base64.Val) : Option Exporter := do
  let c ← coordsText avx coords
  let t ← serializeTopology avx toAligned own els
  return ⟨t.nCells, own.localSize, t.topoSz, t.offsSz, t.typeSz, t.data, c⟩

end Verif.Vtk
