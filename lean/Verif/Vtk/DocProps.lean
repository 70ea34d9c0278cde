import Verif.Vtk.DocAttrs
import Verif.Vtk.Props
/-!
# C74: appended data of the piece files

`Spec.attributes`/`Spec.valuesOf` read the XML attributes of a text, `Spec.readArray` reads one array
of the appended data section.
-/
namespace Verif.Vtk
open Verif Verif.Elem Spec

/-- The values a reader should find for a field: scalars as they are, vectors node by node with
missing third component zero. -/
def fieldBytes (nNodes : Nat) (sol : Nat → List Base64.Val) (f : FieldDef) : List Byte :=
  match f.inds with
  | [i] => (sol i).flatMap fun v => leBytes 8 v.toNat
  | is => (List.range nNodes).flatMap fun node => (List.range 3).flatMap fun c =>
      leBytes 8 (((is[c]?.map fun i => (sol i).getD node 0#64).getD 0#64).toNat)

/-- Running start positions. -/
def startsFrom : Nat → List Nat → List Nat
  | _, [] => []
  | o, s :: ss => o :: startsFrom (o + s) ss

theorem startsFrom_append (o : Nat) (a b : List Nat) : startsFrom o (a ++ b) = startsFrom o a ++ startsFrom (o + a.sum) b := by
  induction a generalizing o with
  | nil => simp [startsFrom]
  | cons s a ih => simp [startsFrom, ih, Nat.add_assoc]

theorem startsFrom_length (o : Nat) (a : List Nat) : (startsFrom o a).length = a.length := by
  induction a generalizing o with
  | nil => rfl
  | cons s a ih => simp [startsFrom, ih]

theorem drop_starts (bs : List (List Byte)) (pre : List Byte) (k off : Nat)
    (h : (startsFrom pre.length (bs.map List.length))[k]? = some off) :
    ∃ b rest, bs[k]? = some b ∧ (pre ++ bs.flatten).drop off = b ++ rest := by
  induction bs generalizing pre k with
  | nil => simp [startsFrom] at h
  | cons b bs ih =>
    rw [List.map_cons, startsFrom] at h
    cases k with
    | zero =>
      obtain rfl := Option.some.inj h
      exact ⟨b, bs.flatten, rfl, by simp⟩
    | succ k =>
      rw [List.getElem?_cons_succ] at h
      obtain ⟨b', rest, h1, h2⟩ := ih (pre ++ b) k (by rwa [List.length_append])
      exact ⟨b', rest, by rwa [List.getElem?_cons_succ], by simpa using h2⟩

theorem offsets_fieldAttrs (off : Nat) (ps : List (FieldDef × Nat)) :
    ((fieldAttrs off ps).filter fun a => a.1 = str "offset").map Prod.snd = (startsFrom off (ps.map Prod.snd)).map decimal := by
  induction ps generalizing off with
  | nil => rfl
  | cons p ps ih =>
    rw [fieldAttrs, List.filter_append, List.map_append, ih]; rfl

theorem names_fieldAttrs (off : Nat) (ps : List (FieldDef × Nat)) :
    ((fieldAttrs off ps).filter fun a => a.1 = str "Name").map Prod.snd = ps.map fun p => p.1.name := by
  induction ps generalizing off with
  | nil => rfl
  | cons p ps ih =>
    rw [fieldAttrs, List.filter_append, List.map_append, ih]; rfl

theorem comps_fieldAttrs (off : Nat) (ps : List (FieldDef × Nat)) :
    ((fieldAttrs off ps).filter fun a => a.1 = str "NumberOfComponents").map Prod.snd = ps.map fun p => decimal (numComps p.1) := by
  induction ps generalizing off with
  | nil => rfl
  | cons p ps ih =>
    rw [fieldAttrs, List.filter_append, List.map_append, ih]; rfl

theorem optAttr_filter (key k : List Byte) (o : Option FieldDef) (h : k ≠ key) : (optAttr k o).filter (fun a => a.1 = key) = [] := by
  cases o with
  | none => rfl
  | some f => simp [optAttr, h]

/-- The values of the attributes of a piece header relevant for locating arrays. -/
theorem header_values (e : Exporter) (fields : List FieldDef) (sizes : List Nat) (h : ∀ f ∈ fields, Noq f.name)
    (hl : sizes.length = fields.length) :
    valuesOf (str "offset") (description e fields sizes) =
        (startsFrom 0 ([e.encodedCoords.length, e.topoSz, e.offsSz, e.typeSz] ++ sizes)).map decimal ∧
      valuesOf (str "Name") (description e fields sizes) =
        [str "Position", str "connectivity", str "offsets", str "types"] ++ fields.map FieldDef.name ∧
      valuesOf (str "NumberOfComponents") (description e fields sizes) =
        [str "3", str "1", str "1", str "1"] ++ fields.map (fun f => decimal (numComps f)) := by
  have hz1 : (fields.zip sizes).map Prod.fst = fields := List.map_fst_zip (by omega)
  have hz2 : (fields.zip sizes).map Prod.snd = sizes := List.map_snd_zip (by omega)
  have d3 : decimal 3 = str "3" := by rw [decimal, if_pos (by omega)]; decide
  have d1 : decimal 1 = str "1" := by rw [decimal, if_pos (by omega)]; decide
  refine ⟨?_, ?_, ?_⟩
  · simp only [valuesOf, attributes_description e fields sizes h, List.filter_append, List.map_append, offsets_fieldAttrs,
      optAttr_filter _ _ _ (show str "Scalars" ≠ str "offset" by decide), optAttr_filter _ _ _ (show str "Vectors" ≠ str "offset" by decide),
      List.append_nil, hz2]
    rw [startsFrom_append]
    have : (meshAttrs e).filter (fun a => a.1 = str "offset") = [(str "offset", decimal 0), (str "offset", decimal e.encodedCoords.length),
      (str "offset", decimal (e.encodedCoords.length + e.topoSz)),
      (str "offset", decimal (e.encodedCoords.length + e.topoSz + e.offsSz))] := rfl
    rw [this]
    have e2 : ([(str "encoding", str "base64")] : List (List Byte × List Byte)).filter (fun a => a.1 = str "offset") = [] := by decide
    rw [e2]
    simp [startsFrom, Nat.add_assoc]
  · simp only [valuesOf, attributes_description e fields sizes h, List.filter_append, List.map_append, names_fieldAttrs,
      optAttr_filter _ _ _ (show str "Scalars" ≠ str "Name" by decide), optAttr_filter _ _ _ (show str "Vectors" ≠ str "Name" by decide),
      List.append_nil]
    have : (meshAttrs e).filter (fun a => a.1 = str "Name") = [(str "Name", str "Position"), (str "Name", str "connectivity"),
      (str "Name", str "offsets"), (str "Name", str "types")] := rfl
    rw [this]
    have e2 : ([(str "encoding", str "base64")] : List (List Byte × List Byte)).filter (fun a => a.1 = str "Name") = [] := by decide
    rw [e2, List.map_nil, List.append_nil, show ((fields.zip sizes).map fun p => p.1.name) = ((fields.zip sizes).map Prod.fst).map FieldDef.name by
      rw [List.map_map]; rfl, hz1]
    rfl
  · simp only [valuesOf, attributes_description e fields sizes h, List.filter_append, List.map_append, comps_fieldAttrs,
      optAttr_filter _ _ _ (show str "Scalars" ≠ str "NumberOfComponents" by decide),
      optAttr_filter _ _ _ (show str "Vectors" ≠ str "NumberOfComponents" by decide), List.append_nil]
    have : (meshAttrs e).filter (fun a => a.1 = str "NumberOfComponents") = [(str "NumberOfComponents", decimal 3),
      (str "NumberOfComponents", decimal 1), (str "NumberOfComponents", decimal 1), (str "NumberOfComponents", decimal 1)] := rfl
    rw [this]
    have e2 : ([(str "encoding", str "base64")] : List (List Byte × List Byte)).filter (fun a => a.1 = str "NumberOfComponents") = [] := by
      decide
    rw [e2, List.map_nil, List.append_nil, show ((fields.zip sizes).map fun p => decimal (numComps p.1)) =
      ((fields.zip sizes).map Prod.fst).map (fun f => decimal (numComps f)) by rw [List.map_map]; rfl, hz1, ← d3, ← d1]
    rfl

theorem vtuWrites_eq (e : Exporter) (fields : List FieldDef) (encoded : List (List Byte)) :
    vtuWrites e fields encoded = File.blocks 0
      ([description e fields (encoded.map List.length), e.encodedCoords, e.encodedTopo] ++ encoded ++ [vtuPostamble]) := by
  have key : ∀ (bs : List (List Byte)) (ws : List (Nat × List Byte)) (o : Nat),
      (bs.foldl (fun (s : List (Nat × List Byte) × Nat) text => (s.1 ++ [(s.2, text)], s.2 + text.length)) (ws, o)).1 =
        ws ++ File.blocks o bs := by
    intro bs
    induction bs with
    | nil => intro ws o; simp [File.blocks]
    | cons b bs ih => intro ws o; rw [List.foldl_cons, ih, File.blocks]; simp
  rw [vtuWrites, key]; rfl

/-- Encoding a field of one, two or three components of `nNodes` values each. -/
theorem encodeField_enc (avx : Bool) (nNodes : Nat) (sol : Nat → List Base64.Val) (f : FieldDef) (hf : 1 ≤ f.inds.length ∧ f.inds.length ≤ 3)
    (hs : ∀ i ∈ f.inds, (sol i).length = nNodes) (hb : 24 * nNodes < 2 ^ 64) :
    encodeField avx sol f = some (Base64.enc (leBytes 8 (fieldBytes nNodes sol f).length ++ fieldBytes nNodes sol f)) ∧
      (fieldBytes nNodes sol f).length < 2 ^ 64 := by
  obtain ⟨name, inds⟩ := f
  have hvec : ∀ is : List Nat, is.length = 2 ∨ is.length = 3 → (∀ i ∈ is, (sol i).length = nNodes) →
      ∃ t, (Base64.encodeVectorField avx (is.map sol)).map Prod.snd = some t ∧ t = Base64.enc (leBytes 8 (24 * nNodes) ++
        (List.range nNodes).flatMap fun node => (List.range 3).flatMap fun c =>
          leBytes 8 (((is[c]?.map fun i => (sol i).getD node 0#64).getD 0#64).toNat)) := by
    intro is hk his
    obtain ⟨t, h1, h2⟩ := Base64.C03_vector_field avx nNodes (is.map sol) (by simpa using hk) (by simpa using his)
    refine ⟨t, by rw [h1]; rfl, enc_decode _ _ ?_⟩
    rw [h2, Nat.mod_eq_of_lt hb]
    congr 2
    refine flatMap_congr' fun node hnode => flatMap_congr' fun c _ => ?_
    congr 2
    rw [List.getD_eq_getElem?_getD (l := is.map sol), List.getElem?_map]
    cases is[c]? with
    | none => simp [List.mem_range.1 hnode]
    | some i => rfl
  have hlen3 : ∀ is : List Nat, ((List.range nNodes).flatMap fun node => (List.range 3).flatMap fun c =>
          leBytes 8 (((is[c]?.map fun i => (sol i).getD node 0#64).getD 0#64).toNat)).length = 24 * nNodes := by
    intro is
    rw [Tensor.length_flatMap_uniform 24, List.length_range, Nat.mul_comm]
    intro node _
    rw [Tensor.length_flatMap_uniform 8, List.length_range]
    intro c _; simp
  match inds, hf, hs with
  | [i], _, hs =>
    have hi : (sol i).length = nNodes := hs i (by simp)
    have hlen : (fieldBytes nNodes sol ⟨name, [i]⟩).length = 8 * nNodes := by
      rw [fieldBytes, Tensor.length_flatMap_uniform 8, hi, Nat.mul_comm]; intro x _; simp
    refine ⟨?_, by rw [hlen]; omega⟩
    obtain ⟨t, h1, h2⟩ := Base64.C03_scalar_field avx (sol i)
    rw [hlen]
    simp only [encodeField, h1, Option.map_some, Option.some.injEq]
    refine enc_decode _ _ ?_
    rw [h2, hi, Nat.mod_eq_of_lt (by omega)]; rfl
  | [i, j], _, hs =>
    obtain ⟨t, h1, h2⟩ := hvec [i, j] (Or.inl rfl) hs
    have hlen : (fieldBytes nNodes sol ⟨name, [i, j]⟩).length = 24 * nNodes := hlen3 [i, j]
    refine ⟨?_, by rw [hlen]; omega⟩
    rw [hlen]
    exact h1.trans (congrArg some h2)
  | [i, j, k], _, hs =>
    obtain ⟨t, h1, h2⟩ := hvec [i, j, k] (Or.inr rfl) hs
    have hlen : (fieldBytes nNodes sol ⟨name, [i, j, k]⟩).length = 24 * nNodes := hlen3 [i, j, k]
    refine ⟨?_, by rw [hlen]; omega⟩
    rw [hlen]
    exact h1.trans (congrArg some h2)
  | [], hf, _ => simp at hf
  | _ :: _ :: _ :: _ :: _, hf, _ => simp at hf

/-- The contents of all arrays, in the order of their declarations. -/
def contents (nNodes : Nat) (coords : List Base64.Val) (topo : Topo) (sol : Nat → List Base64.Val) (fields : List FieldDef) : List (List Byte) :=
  [coords.flatMap fun v => leBytes 8 v.toNat, topo.conn.flatMap (leBytes 4), topo.offsets.flatMap (leBytes 4), topo.types.flatMap (leBytes 1)] ++
    fields.map (fieldBytes nNodes sol)

/-- **C74**: for every mesh, every number and kind of fields, every completion order of the
asynchronous writes and whatever was in the file before, the piece file begins with a header that
ends in `_`; the header declares position, connectivity, offsets, types and all fields under their
names, and reading the array at (end of header + declared offset) yields the contents of exactly that
array.  Hypotheses: those of `C73_reader`; field names without quotation marks; one to three existing
components of `nNodes` values per field; three coordinates per node; sizes below `2^64`. -/
theorem C74_arrays (avx : Bool) (toAligned nFields nNodes : Nat) (own : Own.SegOwn) (els : List El) (coords : List Base64.Val)
    (sol : Nat → List Base64.Val) (fields : List FieldDef)
    (hn : ∀ e ∈ els, e.nodes.length = e.n ^ e.t.dim) (hl : ∀ e ∈ els, ∀ i ∈ e.nodes, own.getLocal i < 2 ^ 32)
    (hb : (localTopoSize els).2 < 2 ^ 32) (hc : (localTopoSize els).1 < 2 ^ 32)
    (hcl : coords.length = 3 * nNodes) (hbn : 24 * nNodes < 2 ^ 64)
    (hname : ∀ f ∈ fields, 34#8 ∉ f.name) (hf : ∀ f ∈ fields, 1 ≤ f.inds.length ∧ f.inds.length ≤ 3)
    (hi : ∀ f ∈ fields, ∀ i ∈ f.inds, i < nFields) (hs : ∀ f ∈ fields, ∀ i ∈ f.inds, (sol i).length = nNodes) :
    ∃ topo e ws, buildTopo own els = some topo ∧ mkExporter avx toAligned own els coords = some e ∧
      exportPiece avx nFields sol e fields = some ws ∧
      ∀ ws' previous, ws'.Perm ws → ∃ hdr rest, File.run previous ws' = hdr ++ rest ∧ hdr.getLast? = some 95#8 ∧
        valuesOf (str "Name") hdr = [str "Position", str "connectivity", str "offsets", str "types"] ++ fields.map FieldDef.name ∧
        (valuesOf (str "offset") hdr).length = 4 + fields.length ∧
        ∀ (k : Nat) (off : List Byte), (valuesOf (str "offset") hdr)[k]? = some off →
          ∃ c, (contents nNodes coords topo sol fields)[k]? = some c ∧ readArray (rest.drop (number off)) = some c := by
  obtain ⟨topo, htopo, -, hol, htl, hcol⟩ := C73_reader own els hn hl hb
  -- the four mesh arrays
  have u4 : ∀ l : List Nat, (l.flatMap (leBytes 4)).length = l.length * 4 := fun l => by
    rw [Tensor.length_flatMap_uniform 4]; intro x _; simp
  have u1 : ∀ l : List Nat, (l.flatMap (leBytes 1)).length = l.length * 1 := fun l => by
    rw [Tensor.length_flatMap_uniform 1]; intro x _; simp
  have u8 : (coords.flatMap fun v => leBytes 8 v.toNat).length = 24 * nNodes := by
    rw [Tensor.length_flatMap_uniform 8]
    · omega
    · intro x _; simp
  let E : List Byte → List Byte := fun d => Base64.enc (leBytes 8 d.length ++ d)
  let dcoord := coords.flatMap fun v => leBytes 8 v.toNat
  let dconn := topo.conn.flatMap (leBytes 4)
  let doffs := topo.offsets.flatMap (leBytes 4)
  let dtype := topo.types.flatMap (leBytes 1)
  have hcoordE : coordsText avx coords = some (E dcoord) := by
    simp only [coordsText, Base64.encode_eq_enc, E, dcoord, u8]
    congr 2
    have : Base64.valBytes (BitVec.ofNat 64 (8 * coords.length) :: coords) =
      leBytes 8 (BitVec.ofNat 64 (8 * coords.length)).toNat ++ coords.flatMap fun v => leBytes 8 v.toNat := rfl
    rw [this, BitVec.toNat_ofNat, Nat.mod_eq_of_lt (by omega), hcl]
    congr 2; omega
  have hconnE : withHeader 4 (localTopoSize els).2 topo.conn = leBytes 8 dconn.length ++ dconn := by
    simp only [withHeader, dconn, u4, hcol]
  have hoffsE : withHeader 4 (localTopoSize els).1 topo.offsets = leBytes 8 doffs.length ++ doffs := by
    simp only [withHeader, doffs, u4, hol]
  have htypeE : withHeader 1 (localTopoSize els).1 topo.types = leBytes 8 dtype.length ++ dtype := by
    simp only [withHeader, dtype, u1, htl]
  have hsz4 : ∀ d : List Nat, Base64.encodingSize 4 (2 + d.length) = (E (d.flatMap (leBytes 4))).length := by
    intro d
    simp only [E, Base64.enc_length, Base64.encodingSize, List.length_append, leBytes_length, u4]
    rw [show (2 + d.length) * 4 = 8 + d.length * 4 by omega]
  have hsz1 : ∀ d : List Nat, Base64.encodingSize 1 (8 + d.length) = (E (d.flatMap (leBytes 1))).length := by
    intro d
    simp only [E, Base64.enc_length, Base64.encodingSize, List.length_append, leBytes_length, u1]
    rw [show (8 + d.length) * 1 = 8 + d.length * 1 by omega]
  let e : Exporter := ⟨(localTopoSize els).1, own.localSize, (E dconn).length, (E doffs).length, (E dtype).length,
    E dconn ++ E doffs ++ E dtype, E dcoord⟩
  have he : mkExporter avx toAligned own els coords = some e := by
    simp only [mkExporter, serializeTopology, hcoordE, htopo, Base64.encode_eq_enc, hconnE, hoffsE, htypeE, hsz4, hsz1,
      Option.bind_eq_bind, Option.bind_some]
    rfl
  -- the fields
  let enc := fields.map fun f => E (fieldBytes nNodes sol f)
  have henc : fields.mapM (encodeField avx sol) = some enc :=
    mapM_some _ _ _ fun f hff => (encodeField_enc avx nNodes sol f (hf f hff) (hs f hff) hbn).1
  have hexp : exportPiece avx nFields sol e fields = some (vtuWrites e fields enc) := by
    rw [exportPiece, if_pos, henc]
    · rfl
    · simp only [List.all_eq_true, decide_eq_true_eq]; exact hi
  refine ⟨topo, e, _, htopo, he, hexp, fun ws' previous hperm => ?_⟩
  rw [vtuWrites_eq] at hperm
  obtain ⟨tail, htail⟩ := File.run_blocks hperm previous
  have hlast : (description e fields (enc.map List.length)).getLast? = some 95#8 := by
    have : ∀ (a b : List Byte), b.getLast? = some 95#8 → (a ++ b).getLast? = some 95#8 := fun a b hb => by
      rw [List.getLast?_append, hb]; rfl
    simp only [description]
    exact this _ _ (by decide)
  obtain ⟨v1, v2, -⟩ := header_values e fields (enc.map List.length) hname (by simp [enc])
  have hflat : ([description e fields (enc.map List.length), e.encodedCoords, e.encodedTopo] ++ enc ++ [vtuPostamble]).flatten =
      description e fields (enc.map List.length) ++ (([E dcoord, E dconn, E doffs, E dtype] ++ enc).flatten ++ vtuPostamble) := by
    simp [e]
  refine ⟨description e fields (enc.map List.length), ([E dcoord, E dconn, E doffs, E dtype] ++ enc).flatten ++ (vtuPostamble ++ tail),
    by rw [htail, hflat]; simp only [List.append_assoc], hlast, v2, ?_, ?_⟩
  · rw [v1, List.length_map, startsFrom_length]; simp [enc]; omega
  · intro k off hk
    have harr : [e.encodedCoords.length, e.topoSz, e.offsSz, e.typeSz] ++ enc.map List.length =
        ([E dcoord, E dconn, E doffs, E dtype] ++ enc).map List.length := by simp [e]
    rw [v1, harr, List.getElem?_map, Option.map_eq_some_iff] at hk
    obtain ⟨o, ho, rfl⟩ := hk
    obtain ⟨b, rest, hb1, hb2⟩ := drop_starts ([E dcoord, E dconn, E doffs, E dtype] ++ enc) [] k o ho
    have hall : [E dcoord, E dconn, E doffs, E dtype] ++ enc = (contents nNodes coords topo sol fields).map E := by
      simp [contents, enc, dcoord, dconn, doffs, dtype, Function.comp_def]
    rw [hall, List.getElem?_map, Option.map_eq_some_iff] at hb1
    obtain ⟨c, hc1, rfl⟩ := hb1
    refine ⟨c, hc1, ?_⟩
    have hlt : c.length < 2 ^ 64 := by
      have hmem := List.mem_of_getElem? hc1
      simp only [contents, List.cons_append, List.nil_append, List.mem_cons, List.mem_map] at hmem
      rcases hmem with rfl | rfl | rfl | rfl | ⟨f, hff, rfl⟩
      · rw [u8]; omega
      · rw [u4, hcol]; omega
      · rw [u4, hol]; omega
      · rw [u1, htl]; omega
      · exact (encodeField_enc avx nNodes sol f (hf f hff) (hs f hff) hbn).2
    have hole : o ≤ ([E dcoord, E dconn, E doffs, E dtype] ++ enc).flatten.length := by
      by_contra hcon
      rw [List.nil_append, List.drop_eq_nil_of_le (by omega)] at hb2
      have : (E c).length = 0 := by
        have := (List.append_eq_nil_iff.1 hb2.symm).1; rw [this]; rfl
      simp only [E, Base64.enc_length, List.length_append, leBytes_length] at this
      omega
    rw [number_decimal, List.drop_append_of_le_length hole]
    rw [List.nil_append] at hb2
    rw [hb2, List.append_assoc]
    exact readArray_enc c _ hlt

/-- The hypotheses of `C74_arrays` on a mesh with one quadrilateral of order one, a scalar and a
two-component vector. -/
example : let own : Own.SegOwn := ⟨0, 4, []⟩
    let els : List El := [⟨.quad, 2, [0, 1, 2, 3]⟩]
    let fields : List FieldDef := [⟨str "p", [2]⟩, ⟨str "velocity", [0, 1]⟩]
    (∀ e ∈ els, e.nodes.length = e.n ^ e.t.dim) ∧ (∀ e ∈ els, ∀ i ∈ e.nodes, own.getLocal i < 2 ^ 32) ∧
      (localTopoSize els).2 < 2 ^ 32 ∧ (∀ f ∈ fields, 34#8 ∉ f.name) ∧
      (∀ f ∈ fields, 1 ≤ f.inds.length ∧ f.inds.length ≤ 3) ∧ (∀ f ∈ fields, ∀ i ∈ f.inds, i < 3) := by
  refine ⟨by decide +kernel, by decide +kernel, by decide +kernel, ?_, ?_, ?_⟩ <;> simp [str]

/-- **C74**: the declared numbers of components agree with the encoded data (3 for positions, 1 for
the topology arrays, 1 for scalar and 3 for vector fields), for any field sizes. -/
theorem C74_components (e : Exporter) (fields : List FieldDef) (sizes : List Nat) (h : ∀ f ∈ fields, 34#8 ∉ f.name)
    (hl : sizes.length = fields.length) :
    (valuesOf (str "NumberOfComponents") (description e fields sizes)).map number =
      [3, 1, 1, 1] ++ fields.map fun f => if f.inds.length = 1 then 1 else 3 := by
  rw [(header_values e fields sizes h hl).2.2, List.map_append, List.map_map]
  refine congrArg₂ _ (by decide) (List.map_congr_left fun f _ => ?_)
  simp [Function.comp, number_decimal, numComps]

example : ∀ f ∈ [FieldDef.mk (str "p") [2], FieldDef.mk (str "velocity") [0, 1]], 34#8 ∉ f.name := by simp [str]

end Verif.Vtk
