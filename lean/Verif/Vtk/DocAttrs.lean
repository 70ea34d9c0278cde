import Verif.Vtk.DocLemmas
/-! The attributes of the exported documents. -/
namespace Verif.Vtk
open Verif Spec

/-- Attributes of one data array of a piece file. -/
def daAttrs (type name : List Byte) (n off : Nat) : List (List Byte × List Byte) :=
  [(str "type", type), (str "Name", name), (str "NumberOfComponents", decimal n), (str "format", str "appended"),
   (str "offset", decimal off)]

theorem seg_dataArray {type name : List Byte} (ht : Noq type) (hn : Noq name) (n off : Nat) :
    Seg (dataArray type name n off) (daAttrs type name n off) := by
  have e : dataArray type name n off = att (str "  <DataArray") (str "type") type ++ (att [] (str "Name") name ++
      (att [] (str "NumberOfComponents") (decimal n) ++ (att [] (str "format") (str "appended") ++
      (att [] (str "offset") (decimal off) ++ str ">\n  </DataArray>\n")))) := by
    have h1 : str "  <DataArray type=\"" = str "  <DataArray" ++ 32#8 :: (str "type" ++ [61#8, 34#8]) := by decide
    have h2 : str "\" Name=\"" = 34#8 :: 32#8 :: (str "Name" ++ [61#8, 34#8]) := by decide
    have h3 : str "\" NumberOfComponents=\"" = 34#8 :: 32#8 :: (str "NumberOfComponents" ++ [61#8, 34#8]) := by decide
    have h4 : str "\" format=\"appended\" offset=\"" = 34#8 :: 32#8 :: (str "format" ++ 61#8 :: 34#8 :: (str "appended" ++
      34#8 :: 32#8 :: (str "offset" ++ [61#8, 34#8]))) := by decide
    have h5 : str "\">\n" = 34#8 :: str ">\n" := by decide
    have h6 : str ">\n  </DataArray>\n" = str ">\n" ++ str "  </DataArray>\n" := by decide
    simp only [dataArray, att, h1, h2, h3, h4, h5, h6, List.append_assoc, List.cons_append, List.nil_append]
  rw [e]
  exact (Seg.att (by decide) (by decide) ht).append <| (Seg.att (by decide) (by decide) hn).append <|
    (Seg.att (by decide) (by decide) (decimal_noq n)).append <| (Seg.att (by decide) (by decide) (by decide)).append <|
    (Seg.att (by decide) (by decide) (decimal_noq off)).append (Seg.noq (by decide))

/-- Text of the field arrays starting at a given offset. -/
def fieldArrays : Nat → List (FieldDef × Nat) → List Byte
  | _, [] => []
  | off, p :: ps => dataArray (str "Float64") p.1.name (numComps p.1) off ++ fieldArrays (off + p.2) ps

/-- Their attributes. -/
def fieldAttrs : Nat → List (FieldDef × Nat) → List (List Byte × List Byte)
  | _, [] => []
  | off, p :: ps => daAttrs (str "Float64") p.1.name (numComps p.1) off ++ fieldAttrs (off + p.2) ps

theorem foldl_fieldArrays (ps : List (FieldDef × Nat)) (txt : List Byte) (off : Nat) :
    (ps.foldl (fun s p => appendDataArray s (str "Float64") p.1.name (numComps p.1) p.2) (txt, off)).1 =
      txt ++ fieldArrays off ps := by
  induction ps generalizing txt off with
  | nil => simp [fieldArrays]
  | cons p ps ih => rw [List.foldl_cons, appendDataArray, ih, fieldArrays, List.append_assoc]

theorem seg_fieldArrays (ps : List (FieldDef × Nat)) (h : ∀ p ∈ ps, Noq p.1.name) (off : Nat) :
    Seg (fieldArrays off ps) (fieldAttrs off ps) := by
  induction ps generalizing off with
  | nil => exact Seg.noq (by simp [Noq, fieldArrays])
  | cons p ps ih =>
    exact (seg_dataArray (by decide) (h p (by simp)) _ _).append (ih (fun q hq => h q (by simp [hq])) _)

/-- An optional attribute of the point data. -/
def optAttr (key : List Byte) : Option FieldDef → List (List Byte × List Byte)
  | some f => [(key, f.name)]
  | none => []

theorem seg_scalars (fields : List FieldDef) (h : ∀ f ∈ fields, Noq f.name) :
    Seg (scalarsAttr fields) (optAttr (str "Scalars") (fields.find? fun f => numComps f = 1)) := by
  unfold scalarsAttr
  cases hf : fields.find? fun f => numComps f = 1 with
  | none => exact Seg.noq (by simp [Noq])
  | some f =>
    have e : str " Scalars=\"" ++ f.name ++ str "\"" = att [] (str "Scalars") f.name := by
      have : str " Scalars=\"" = 32#8 :: (str "Scalars" ++ [61#8, 34#8]) := by decide
      have h2 : str "\"" = [34#8] := by decide
      simp only [this, h2, att, List.append_assoc, List.cons_append, List.nil_append]
    simp only [e]
    exact Seg.att (by decide) (by decide) (h f (List.mem_of_find?_eq_some hf))

theorem seg_vectors (fields : List FieldDef) (h : ∀ f ∈ fields, Noq f.name) :
    Seg (vectorsAttr fields) (optAttr (str "Vectors") (fields.find? fun f => 1 < numComps f)) := by
  unfold vectorsAttr
  cases hf : fields.find? fun f => 1 < numComps f with
  | none => exact Seg.noq (by simp [Noq])
  | some f =>
    have e : str " Vectors=\"" ++ f.name ++ str "\"" = att [] (str "Vectors") f.name := by
      have : str " Vectors=\"" = 32#8 :: (str "Vectors" ++ [61#8, 34#8]) := by decide
      have h2 : str "\"" = [34#8] := by decide
      simp only [this, h2, att, List.append_assoc, List.cons_append, List.nil_append]
    simp only [e]
    exact Seg.att (by decide) (by decide) (h f (List.mem_of_find?_eq_some hf))

/-- Attributes in front of the data arrays of a piece file. -/
def headAttrs (e : Exporter) : List (List Byte × List Byte) :=
  [(str "version", str "1.0"), (str "type", str "UnstructuredGrid"), (str "version", str "1.0"),
   (str "byte_order", str "LittleEndian"), (str "header_type", str "UInt64"),
   (str "NumberOfPoints", decimal e.nNodes), (str "NumberOfCells", decimal e.nCells)]

/-- Attributes of the mesh description. -/
def meshAttrs (e : Exporter) : List (List Byte × List Byte) :=
  headAttrs e ++ daAttrs (str "Float64") (str "Position") 3 0 ++
    daAttrs (str "UInt32") (str "connectivity") 1 e.encodedCoords.length ++
    daAttrs (str "UInt32") (str "offsets") 1 (e.encodedCoords.length + e.topoSz) ++
    daAttrs (str "UInt8") (str "types") 1 (e.encodedCoords.length + e.topoSz + e.offsSz)

theorem seg_describeMesh (e : Exporter) : Seg (describeMesh e).1 (meshAttrs e) := by
  have hpre : Seg (vtuPreamble ++ str "<Piece NumberOfPoints=\"" ++ decimal e.nNodes ++ str "\" NumberOfCells=\"" ++
      decimal e.nCells ++ str "\">\n<Points>\n") (headAttrs e) := by
    have eq : vtuPreamble ++ str "<Piece NumberOfPoints=\"" ++ decimal e.nNodes ++ str "\" NumberOfCells=\"" ++
        decimal e.nCells ++ str "\">\n<Points>\n" =
        att (str "<?xml") (str "version") (str "1.0") ++ (att (str "?>\n<VTKFile") (str "type") (str "UnstructuredGrid") ++
          (att [] (str "version") (str "1.0") ++ (att [] (str "byte_order") (str "LittleEndian") ++
          (att [] (str "header_type") (str "UInt64") ++ (att (str ">\n<UnstructuredGrid>\n<Piece") (str "NumberOfPoints") (decimal e.nNodes) ++
          (att [] (str "NumberOfCells") (decimal e.nCells) ++ str ">\n<Points>\n")))))) := by
      have h1 : vtuPreamble ++ str "<Piece NumberOfPoints=\"" =
        att (str "<?xml") (str "version") (str "1.0") ++ (att (str "?>\n<VTKFile") (str "type") (str "UnstructuredGrid") ++
          (att [] (str "version") (str "1.0") ++ (att [] (str "byte_order") (str "LittleEndian") ++
          (att [] (str "header_type") (str "UInt64") ++ (str ">\n<UnstructuredGrid>\n<Piece" ++ 32#8 :: (str "NumberOfPoints" ++ [61#8, 34#8])))))) := by
        decide +kernel
      have h2 : str "\" NumberOfCells=\"" = 34#8 :: 32#8 :: (str "NumberOfCells" ++ [61#8, 34#8]) := by decide
      have h3 : str "\">\n<Points>\n" = 34#8 :: str ">\n<Points>\n" := by decide
      rw [h1, h2, h3]
      have u1 : ∀ v, att (str ">\n<UnstructuredGrid>\n<Piece") (str "NumberOfPoints") v =
        str ">\n<UnstructuredGrid>\n<Piece" ++ 32#8 :: (str "NumberOfPoints" ++ 61#8 :: 34#8 :: (v ++ [34#8])) := fun _ => rfl
      have u2 : ∀ v, att [] (str "NumberOfCells") v = 32#8 :: (str "NumberOfCells" ++ 61#8 :: 34#8 :: (v ++ [34#8])) := fun _ => rfl
      rw [u1, u2]
      simp only [List.append_assoc, List.cons_append, List.nil_append]
    rw [eq]
    exact (Seg.att (by decide) (by decide) (by decide)).append <| (Seg.att (by decide) (by decide) (by decide)).append <|
      (Seg.att (by decide) (by decide) (by decide)).append <| (Seg.att (by decide) (by decide) (by decide)).append <|
      (Seg.att (by decide) (by decide) (by decide)).append <| (Seg.att (by decide) (by decide) (decimal_noq _)).append <|
      (Seg.att (by decide) (by decide) (decimal_noq _)).append (Seg.noq (by decide))
  have h0 := ((hpre.append (seg_dataArray (type := str "Float64") (name := str "Position") (by decide) (by decide) 3 0)).append
    (Seg.noq (x := str "</Points>\n") (by decide))).append (Seg.noq (x := str "<Cells>\n") (by decide))
  have h1 := ((h0.append (seg_dataArray (type := str "UInt32") (name := str "connectivity") (by decide) (by decide) 1
    (0 + e.encodedCoords.length))).append
    (seg_dataArray (type := str "UInt32") (name := str "offsets") (by decide) (by decide) 1 (0 + e.encodedCoords.length + e.topoSz))).append
    (seg_dataArray (type := str "UInt8") (name := str "types") (by decide) (by decide) 1 (0 + e.encodedCoords.length + e.topoSz + e.offsSz))
  have h2 := h1.append (Seg.noq (x := str "</Cells>\n") (by decide))
  simp only [Nat.zero_add, List.append_nil] at h2
  rw [meshAttrs]
  simpa only [describeMesh, appendDataArray, Nat.zero_add] using h2

/-- All attributes of a piece file header. -/
theorem attributes_description (e : Exporter) (fields : List FieldDef) (sizes : List Nat) (h : ∀ f ∈ fields, Noq f.name) :
    attributes (description e fields sizes) = meshAttrs e ++ optAttr (str "Scalars") (fields.find? fun f => numComps f = 1) ++
      optAttr (str "Vectors") (fields.find? fun f => 1 < numComps f) ++
      fieldAttrs (e.encodedCoords.length + e.topoSz + e.offsSz + e.typeSz) (fields.zip sizes) ++
      [(str "encoding", str "base64")] := by
  have hs : (describeMesh e).2 = e.encodedCoords.length + e.topoSz + e.offsSz + e.typeSz := by
    simp only [describeMesh, appendDataArray, Nat.zero_add]
  have hend : str "<AppendedData encoding=\"base64\">\n  _" = att (str "<AppendedData") (str "encoding") (str "base64") ++ str ">\n  _" := by
    decide
  have e' : description e fields sizes = (describeMesh e).1 ++ str "<PointData" ++ scalarsAttr fields ++ vectorsAttr fields ++ str ">\n" ++
      fieldArrays (e.encodedCoords.length + e.topoSz + e.offsSz + e.typeSz) (fields.zip sizes) ++
      str "</PointData>\n" ++ str "<CellData>\n" ++ str "</CellData>\n" ++ str "</Piece>\n" ++ str "</UnstructuredGrid>\n" ++
      (att (str "<AppendedData") (str "encoding") (str "base64") ++ str ">\n  _") := by
    rw [description, ← hend]
    simp only [foldl_fieldArrays, hs]
  have hz : ∀ p ∈ fields.zip sizes, Noq p.1.name := fun p hp => h p.1 (List.of_mem_zip hp).1
  have hseg := ((((((((((seg_describeMesh e).append (Seg.noq (x := str "<PointData") (by decide))).append (seg_scalars fields h)).append
    (seg_vectors fields h)).append (Seg.noq (x := str ">\n") (by decide))).append
    (seg_fieldArrays (fields.zip sizes) hz (e.encodedCoords.length + e.topoSz + e.offsSz + e.typeSz))).append
    (Seg.noq (x := str "</PointData>\n") (by decide))).append (Seg.noq (x := str "<CellData>\n") (by decide))).append
    (Seg.noq (x := str "</CellData>\n") (by decide))).append (Seg.noq (x := str "</Piece>\n") (by decide))).append
    (Seg.noq (x := str "</UnstructuredGrid>\n") (by decide))
  have hall := hseg.append ((Seg.att (a := str "<AppendedData") (k := str "encoding") (v := str "base64") (by decide) (by decide)
    (by decide)).append (Seg.noq (x := str ">\n  _") (by decide)))
  rw [e', hall.attributes_eq]
  simp only [List.append_nil]

end Verif.Vtk
