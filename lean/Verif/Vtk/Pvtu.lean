import Verif.Vtk.DocAttrs
import Verif.Vtk.DocProps
/-!
# C75: the parallel file agrees with the piece files
-/
namespace Verif.Vtk
open Verif Spec

/-- A field with more than one component. -/
abbrev IsVec (f : FieldDef) : Prop := 1 < numComps f

theorem numComps_cases (f : FieldDef) : numComps f = 1 ∨ numComps f = 3 := by
  unfold numComps; split <;> simp

theorem not_isVec (f : FieldDef) : ¬ IsVec f ↔ numComps f = 1 := by
  have := numComps_cases f; unfold IsVec; omega

/-- The text of an optional header attribute. -/
def optText (key : String) : Option FieldDef → List Byte
  | some f => str key ++ f.name ++ str "\""
  | none => []

theorem hdr_stop (fs : List FieldDef) (s : HdrState) (h : s.stop = true) : fs.foldl hdrStep s = s := by
  induction fs with
  | nil => rfl
  | cons f fs ih => rw [List.foldl_cons, hdrStep, if_pos h, ih]

theorem hdr_scal (fs : List FieldDef) (txt : List Byte) :
    (fs.foldl hdrStep ⟨txt, true, false, false⟩).text = txt ++ optText " Vectors=\"" (fs.find? fun f => 1 < numComps f) := by
  induction fs with
  | nil => simp [optText]
  | cons f fs ih =>
    by_cases hv : IsVec f
    · rw [List.foldl_cons, hdrStep, if_neg (by simp), if_pos ⟨hv, rfl⟩, hdr_stop _ _ rfl, List.find?_cons_of_pos (by simpa using hv)]
      simp [optText]
    · rw [List.foldl_cons, hdrStep, if_neg (by simp), if_neg (by simp [show ¬ 1 < numComps f from hv]), if_neg (by simp),
        List.find?_cons_of_neg (by simpa using hv)]
      exact ih

theorem hdr_vec (fs : List FieldDef) (txt : List Byte) :
    (fs.foldl hdrStep ⟨txt, false, true, false⟩).text = txt ++ optText " Scalars=\"" fs.head? := by
  cases fs with
  | nil => simp [optText]
  | cons f fs =>
    rw [List.foldl_cons, hdrStep, if_neg (by simp), if_neg (by simp), if_pos rfl, hdr_stop _ _ rfl]
    simp [optText]

/-- The header attributes written into the parallel file. -/
def pHeader : List FieldDef → List (List Byte × List Byte)
  | [] => []
  | f :: fs => if IsVec f then (str "Vectors", f.name) :: optAttr (str "Scalars") fs.head?
    else (str "Scalars", f.name) :: optAttr (str "Vectors") (fs.find? fun f => 1 < numComps f)

/-- Their text. -/
def pHeaderText : List FieldDef → List Byte
  | [] => []
  | f :: fs => if IsVec f then optText " Vectors=\"" (some f) ++ optText " Scalars=\"" fs.head?
    else optText " Scalars=\"" (some f) ++ optText " Vectors=\"" (fs.find? fun f => 1 < numComps f)

theorem hdr_fold (fs : List FieldDef) (txt : List Byte) :
    (fs.foldl hdrStep ⟨txt, false, false, false⟩).text = txt ++ pHeaderText fs := by
  cases fs with
  | nil => simp [pHeaderText]
  | cons f fs =>
    rw [List.foldl_cons, hdrStep, if_neg (by simp), pHeaderText]
    by_cases hv : IsVec f
    · rw [if_pos ⟨hv, rfl⟩, if_pos hv, hdr_vec]; simp [optText]
    · rw [if_neg (by simp [show ¬ 1 < numComps f from hv]), if_pos rfl, if_neg hv, hdr_scal]; simp [optText]

theorem seg_optText (key : String) (k : List Byte) (hk : str key = 32#8 :: (k ++ [61#8, 34#8])) (hk' : Noq k ∧ 32#8 ∉ k) (o : Option FieldDef)
    (h : ∀ f ∈ o, Noq f.name) : Seg (optText key o) (optAttr k o) := by
  cases o with
  | none => exact Seg.noq (by simp [Noq, optText])
  | some f =>
    have e : optText key (some f) = att [] k f.name := by
      have h2 : str "\"" = [34#8] := by decide
      simp only [optText, hk, h2, att, List.append_assoc, List.cons_append, List.nil_append]
    rw [e]
    exact Seg.att (by decide) hk' (h f rfl)

theorem seg_pHeader (fs : List FieldDef) (h : ∀ f ∈ fs, Noq f.name) : Seg (pHeaderText fs) (pHeader fs) := by
  have sS := fun o ho => seg_optText " Scalars=\"" (str "Scalars") (by decide) (by decide) o ho
  have sV := fun o ho => seg_optText " Vectors=\"" (str "Vectors") (by decide) (by decide) o ho
  cases fs with
  | nil => exact Seg.noq (by simp [Noq, pHeaderText])
  | cons f fs =>
    rw [pHeaderText, pHeader]
    by_cases hv : IsVec f
    · rw [if_pos hv, if_pos hv]
      exact (sV (some f) (fun g hg => by obtain rfl := Option.some.inj hg; exact h f (by simp))).append
        (sS fs.head? fun g hg => h g (List.mem_cons_of_mem _ (List.mem_of_mem_head? hg)))
    · rw [if_neg hv, if_neg hv]
      exact (sS (some f) (fun g hg => by obtain rfl := Option.some.inj hg; exact h f (by simp))).append
        (sV _ fun g hg => h g (List.mem_cons_of_mem _ (List.mem_of_find?_eq_some hg)))

/-- Attributes of a field declaration in the parallel file. -/
def pdAttrs (f : FieldDef) : List (List Byte × List Byte) :=
  [(str "type", str "Float64"), (str "Name", f.name), (str "NumberOfComponents", decimal (numComps f))]

theorem seg_pDataArray (f : FieldDef) (h : Noq f.name) : Seg (pDataArray f) (pdAttrs f) := by
  have e : pDataArray f = att (str "  <PDataArray") (str "type") (str "Float64") ++ (att [] (str "Name") f.name ++
      (att [] (str "NumberOfComponents") (decimal (numComps f)) ++ str "/>\n")) := by
    have h1 : str "  <PDataArray type=\"Float64\" Name=\"" = str "  <PDataArray" ++ 32#8 :: (str "type" ++ 61#8 :: 34#8 ::
      (str "Float64" ++ 34#8 :: 32#8 :: (str "Name" ++ [61#8, 34#8]))) := by decide
    have h3 : str "\" NumberOfComponents=\"" = 34#8 :: 32#8 :: (str "NumberOfComponents" ++ [61#8, 34#8]) := by decide
    have h5 : str "\"/>\n" = 34#8 :: str "/>\n" := by decide
    simp only [pDataArray, att, h1, h3, h5, List.append_assoc, List.cons_append, List.nil_append]
  rw [e]
  exact (Seg.att (by decide) (by decide) (by decide)).append <| (Seg.att (by decide) (by decide) h).append <|
    (Seg.att (by decide) (by decide) (decimal_noq _)).append (Seg.noq (by decide))

/-- Attribute of the `r`-th piece. -/
def pieceAttr (stem : List Byte) (r : Nat) : List (List Byte × List Byte) :=
  [(str "Source", stem ++ str "_" ++ decimal r ++ str ".vtu")]

theorem seg_pieces (stem : List Byte) (nRanks : Nat) (h : Noq stem) :
    Seg (pvtuPieces stem nRanks) ((List.range nRanks).flatMap (pieceAttr stem)) := by
  refine Seg.flatMap fun r _ => ?_
  have e : str "<Piece Source=\"" ++ stem ++ str "_" ++ decimal r ++ str ".vtu\"/>\n" =
      att (str "<Piece") (str "Source") (stem ++ str "_" ++ decimal r ++ str ".vtu") ++ str "/>\n" := by
    have h1 : str "<Piece Source=\"" = str "<Piece" ++ 32#8 :: (str "Source" ++ [61#8, 34#8]) := by decide
    have h2 : str ".vtu\"/>\n" = str ".vtu" ++ 34#8 :: str "/>\n" := by decide
    simp only [att, h1, h2, List.append_assoc, List.cons_append, List.nil_append]
  rw [e]
  refine (Seg.att (by decide) (by decide) ?_).append (Seg.noq (by decide))
  simp only [Noq, List.mem_append, not_or]
  exact ⟨⟨⟨h, by decide⟩, decimal_noq r⟩, by decide⟩

/-- Attributes in front of the point data of the parallel file. -/
def preAttrs : List (List Byte × List Byte) :=
  [(str "version", str "1.0"), (str "type", str "PUnstructuredGrid"), (str "version", str "1.0"), (str "byte_order", str "LittleEndian"),
   (str "GhostLevel", str "0"), (str "type", str "Float64"), (str "Name", str "Position"), (str "NumberOfComponents", str "3"),
   (str "type", str "UInt32"), (str "Name", str "connectivity"), (str "NumberOfComponents", str "1"),
   (str "type", str "UInt32"), (str "Name", str "offsets"), (str "NumberOfComponents", str "1"),
   (str "type", str "UInt8"), (str "Name", str "types"), (str "NumberOfComponents", str "1")]

theorem seg_pre : Seg pvtuPreamble preAttrs := by
  have e : pvtuPreamble = att (str "<?xml") (str "version") (str "1.0") ++ (att (str "?>\n<VTKFile") (str "type") (str "PUnstructuredGrid") ++
      (att [] (str "version") (str "1.0") ++ (att [] (str "byte_order") (str "LittleEndian") ++
      (att (str ">\n<PUnstructuredGrid") (str "GhostLevel") (str "0") ++
      (att (str ">\n<PPoints>\n  <PDataArray") (str "type") (str "Float64") ++ (att [] (str "Name") (str "Position") ++
      (att [] (str "NumberOfComponents") (str "3") ++
      (att (str "/>\n</PPoints>\n<PCells>\n  <PDataArray") (str "type") (str "UInt32") ++ (att [] (str "Name") (str "connectivity") ++
      (att [] (str "NumberOfComponents") (str "1") ++
      (att (str "/>\n  <PDataArray") (str "type") (str "UInt32") ++ (att [] (str "Name") (str "offsets") ++
      (att [] (str "NumberOfComponents") (str "1") ++
      (att (str "/>\n  <PDataArray") (str "type") (str "UInt8") ++ (att [] (str "Name") (str "types") ++
      (att [] (str "NumberOfComponents") (str "1") ++ str "/>\n</PCells>\n<PPointData")))))))))))))))) := by decide +kernel
  rw [e]
  exact (Seg.att (by decide +kernel) (by decide +kernel) (by decide +kernel)).append <|
    (Seg.att (by decide +kernel) (by decide +kernel) (by decide +kernel)).append <|
    (Seg.att (by decide +kernel) (by decide +kernel) (by decide +kernel)).append <|
    (Seg.att (by decide +kernel) (by decide +kernel) (by decide +kernel)).append <|
    (Seg.att (by decide +kernel) (by decide +kernel) (by decide +kernel)).append <|
    (Seg.att (by decide +kernel) (by decide +kernel) (by decide +kernel)).append <|
    (Seg.att (by decide +kernel) (by decide +kernel) (by decide +kernel)).append <|
    (Seg.att (by decide +kernel) (by decide +kernel) (by decide +kernel)).append <|
    (Seg.att (by decide +kernel) (by decide +kernel) (by decide +kernel)).append <|
    (Seg.att (by decide +kernel) (by decide +kernel) (by decide +kernel)).append <|
    (Seg.att (by decide +kernel) (by decide +kernel) (by decide +kernel)).append <|
    (Seg.att (by decide +kernel) (by decide +kernel) (by decide +kernel)).append <|
    (Seg.att (by decide +kernel) (by decide +kernel) (by decide +kernel)).append <|
    (Seg.att (by decide +kernel) (by decide +kernel) (by decide +kernel)).append <|
    (Seg.att (by decide +kernel) (by decide +kernel) (by decide +kernel)).append <|
    (Seg.att (by decide +kernel) (by decide +kernel) (by decide +kernel)).append <|
    (Seg.att (by decide +kernel) (by decide +kernel) (by decide +kernel)).append (Seg.noq (by decide +kernel))

/-- All attributes of the parallel file. -/
theorem attributes_pvtu (stem : List Byte) (nRanks : Nat) (fields : List FieldDef) (hs : Noq stem) (h : ∀ f ∈ fields, Noq f.name) :
    attributes (pvtuContents stem nRanks fields) =
      preAttrs ++ pHeader fields ++ fields.flatMap pdAttrs ++ (List.range nRanks).flatMap (pieceAttr stem) := by
  have hall := ((((((((seg_pre.append (seg_pHeader fields h)).append (Seg.noq (x := str ">\n") (by decide))).append
    (Seg.flatMap fun f hf => seg_pDataArray f (h f hf))).append (Seg.noq (x := str "</PPointData>\n") (by decide))).append
    (Seg.noq (x := str "<PCellData>\n") (by decide))).append (Seg.noq (x := str "</PCellData>\n") (by decide))).append
    (seg_pieces stem nRanks hs)).append (Seg.noq (x := pvtuPostamble) (by decide +kernel)))
  have e := hall.attributes_eq
  rw [← hdr_fold] at e
  rw [pvtuContents, pvtuPointData, e]
  simp only [List.append_nil]

theorem preAttrs_filter_S : (preAttrs.filter fun a => a.1 = str "Scalars") = [] := by decide +kernel
theorem preAttrs_filter_V : (preAttrs.filter fun a => a.1 = str "Vectors") = [] := by decide +kernel

theorem flatMap_filter_nil {α : Type} (l : List α) (A : α → List (List Byte × List Byte)) (k : List Byte)
    (h : ∀ x ∈ l, (A x).filter (fun a => a.1 = k) = []) : (l.flatMap A).filter (fun a => a.1 = k) = [] := by
  induction l with
  | nil => rfl
  | cons a l ih => rw [List.flatMap_cons, List.filter_append, h a (by simp), ih fun x hx => h x (by simp [hx])]; rfl

theorem optAttr_self (k : List Byte) (o : Option FieldDef) : (optAttr k o).filter (fun a => a.1 = k) = optAttr k o := by
  cases o with
  | none => rfl
  | some f => simp [optAttr]

/-- The header attribute values of the two kinds of file. -/
theorem header_pvtu (stem : List Byte) (nRanks : Nat) (fields : List FieldDef) (hs : Noq stem) (h : ∀ f ∈ fields, Noq f.name) :
    valuesOf (str "Scalars") (pvtuContents stem nRanks fields) = ((pHeader fields).filter fun a => a.1 = str "Scalars").map Prod.snd ∧
    valuesOf (str "Vectors") (pvtuContents stem nRanks fields) = ((pHeader fields).filter fun a => a.1 = str "Vectors").map Prod.snd := by
  constructor <;>
  · rw [valuesOf, attributes_pvtu stem nRanks fields hs h, List.filter_append, List.filter_append, List.filter_append,
      flatMap_filter_nil _ _ _ (fun f _ => rfl), flatMap_filter_nil _ _ _ (fun f _ => rfl)]
    first
      | rw [preAttrs_filter_S, List.nil_append, List.append_nil, List.append_nil]
      | rw [preAttrs_filter_V, List.nil_append, List.append_nil, List.append_nil]

theorem fieldAttrs_filter_nil (off : Nat) (ps : List (FieldDef × Nat)) (k : List Byte)
    (h : ∀ t n c o, (daAttrs t n c o).filter (fun a => a.1 = k) = []) : (fieldAttrs off ps).filter (fun a => a.1 = k) = [] := by
  induction ps generalizing off with
  | nil => rfl
  | cons p ps ih => rw [fieldAttrs, List.filter_append, h, ih]; rfl

theorem header_vtu (e : Exporter) (fields : List FieldDef) (sizes : List Nat) (h : ∀ f ∈ fields, Noq f.name) :
    valuesOf (str "Scalars") (description e fields sizes) = ((fields.find? fun f => numComps f = 1).map FieldDef.name).toList ∧
    valuesOf (str "Vectors") (description e fields sizes) = ((fields.find? fun f => 1 < numComps f).map FieldDef.name).toList := by
  have om : ∀ k o, (optAttr k o).map Prod.snd = (o.map FieldDef.name).toList := fun k o => by cases o <;> rfl
  constructor
  · rw [valuesOf, attributes_description e fields sizes h]
    simp only [List.filter_append]
    rw [fieldAttrs_filter_nil _ _ _ (fun _ _ _ _ => rfl), optAttr_self, optAttr_filter _ _ _ (show str "Vectors" ≠ str "Scalars" by decide)]
    have e1 : (meshAttrs e).filter (fun a => a.1 = str "Scalars") = [] := rfl
    have e2 : ([(str "encoding", str "base64")] : List (List Byte × List Byte)).filter (fun a => a.1 = str "Scalars") = [] := by decide
    rw [e1, e2, List.nil_append, List.append_nil, List.append_nil, List.append_nil, om]
  · rw [valuesOf, attributes_description e fields sizes h]
    simp only [List.filter_append]
    rw [fieldAttrs_filter_nil _ _ _ (fun _ _ _ _ => rfl), optAttr_self, optAttr_filter _ _ _ (show str "Scalars" ≠ str "Vectors" by decide)]
    have e1 : (meshAttrs e).filter (fun a => a.1 = str "Vectors") = [] := rfl
    have e2 : ([(str "encoding", str "base64")] : List (List Byte × List Byte)).filter (fun a => a.1 = str "Vectors") = [] := by decide
    rw [e1, e2, List.nil_append, List.append_nil, List.append_nil, List.nil_append, om]

/-- **C75**, full statement: the active scalar and vector of the parallel file are those of the piece
files, i.e. the first scalar field and the first vector field. -/
def C75Statement : Prop := ∀ (stem : List Byte) (nRanks : Nat) (e : Exporter) (fields : List FieldDef) (sizes : List Nat),
  34#8 ∉ stem → (∀ f ∈ fields, 34#8 ∉ f.name) →
    valuesOf (str "Scalars") (pvtuContents stem nRanks fields) = valuesOf (str "Scalars") (description e fields sizes) ∧
    valuesOf (str "Vectors") (pvtuContents stem nRanks fields) = valuesOf (str "Vectors") (description e fields sizes)

/-- **C75** (vectors): the active vectors always agree, and are the first vector field. -/
theorem C75_vectors (stem : List Byte) (nRanks : Nat) (e : Exporter) (fields : List FieldDef) (sizes : List Nat)
    (hs : 34#8 ∉ stem) (h : ∀ f ∈ fields, 34#8 ∉ f.name) :
    valuesOf (str "Vectors") (pvtuContents stem nRanks fields) = ((fields.find? fun f => f.inds.length ≠ 1).map FieldDef.name).toList ∧
    valuesOf (str "Vectors") (description e fields sizes) = ((fields.find? fun f => f.inds.length ≠ 1).map FieldDef.name).toList := by
  have hpred : (fun f : FieldDef => decide (f.inds.length ≠ 1)) = fun f => decide (1 < numComps f) := by
    funext f; unfold numComps; split <;> simp_all
  rw [hpred, (header_vtu e fields sizes h).2, (header_pvtu stem nRanks fields hs h).2]
  refine ⟨?_, rfl⟩
  cases fields with
  | nil => rfl
  | cons f fs =>
    rw [pHeader]
    by_cases hv : IsVec f
    · rw [if_pos hv, List.find?_cons_of_pos (by simpa using hv), List.filter_cons_of_pos (by simp),
        optAttr_filter _ _ _ (show str "Scalars" ≠ str "Vectors" by decide)]; rfl
    · rw [if_neg hv, List.find?_cons_of_neg (by simpa using hv), List.filter_cons_of_neg (by simp [show str "Scalars" ≠ str "Vectors" by decide]), optAttr_self]
      cases fs.find? fun f => 1 < numComps f <;> rfl

/-- **C75** (scalars, exact behaviour): the piece files name the first scalar field.  The parallel file
does so unless the first two fields are both vectors, in which case it names the second one. -/
theorem C75_scalars (stem : List Byte) (nRanks : Nat) (e : Exporter) (fields : List FieldDef) (sizes : List Nat)
    (hs : 34#8 ∉ stem) (h : ∀ f ∈ fields, 34#8 ∉ f.name) :
    valuesOf (str "Scalars") (description e fields sizes) = ((fields.find? fun f => f.inds.length = 1).map FieldDef.name).toList ∧
    valuesOf (str "Scalars") (pvtuContents stem nRanks fields) =
      match fields with
      | f :: g :: _ => if f.inds.length ≠ 1 ∧ g.inds.length ≠ 1 then [g.name]
          else ((fields.find? fun f => f.inds.length = 1).map FieldDef.name).toList
      | _ => ((fields.find? fun f => f.inds.length = 1).map FieldDef.name).toList := by
  have hpred : (fun f : FieldDef => decide (f.inds.length = 1)) = fun f => decide (numComps f = 1) := by
    funext f; unfold numComps; split <;> simp_all
  have hiff : ∀ f : FieldDef, f.inds.length ≠ 1 ↔ IsVec f := fun f => by
    unfold IsVec numComps; split <;> simp_all
  rw [hpred, (header_vtu e fields sizes h).1, (header_pvtu stem nRanks fields hs h).1]
  refine ⟨rfl, ?_⟩
  match fields with
  | [] => rfl
  | [f] =>
    simp only [pHeader]
    by_cases hv : IsVec f
    · rw [if_pos hv, List.find?_cons_of_neg (by have := (not_isVec f).not.1 (not_not.2 hv); simpa using this),
        List.filter_cons_of_neg (by simp [show str "Vectors" ≠ str "Scalars" by decide])]; rfl
    · rw [if_neg hv, List.find?_cons_of_pos (by simpa using (not_isVec f).1 hv), List.filter_cons_of_pos (by simp)]; rfl
  | f :: g :: fs =>
    simp only [hiff, pHeader]
    by_cases hv : IsVec f
    · have hf1 : ¬ numComps f = 1 := fun e => (not_isVec f).2 e hv
      rw [if_pos hv, List.find?_cons_of_neg (by simpa using hf1), List.filter_cons_of_neg (by simp [show str "Vectors" ≠ str "Scalars" by decide]), optAttr_self]
      by_cases hg : IsVec g
      · rw [if_pos ⟨hv, hg⟩]; rfl
      · rw [if_neg (fun e => hg e.2), List.find?_cons_of_pos (by simpa using (not_isVec g).1 hg)]; rfl
    · rw [if_neg hv, if_neg (fun e => hv e.1), List.find?_cons_of_pos (a := f) (by simpa using (not_isVec f).1 hv),
        List.filter_cons_of_pos (by simp), optAttr_filter _ _ _ (show str "Vectors" ≠ str "Scalars" by decide)]; rfl

/-- **C75** fails: with two vector fields the parallel file declares the second vector as the active
scalar although no piece file has one. -/
theorem C75_violated : ¬ C75Statement := by
  intro h
  have := (h (str "r") 1 ⟨0, 0, 0, 0, 0, [], []⟩ [⟨str "u", [0, 1]⟩, ⟨str "w", [2, 3]⟩] [0, 0] (by decide) (by simp [str])).1
  obtain ⟨s1, s2⟩ := C75_scalars (str "r") 1 ⟨0, 0, 0, 0, 0, [], []⟩ [⟨str "u", [0, 1]⟩, ⟨str "w", [2, 3]⟩] [0, 0] (by decide)
    (by simp [str])
  rw [s1, s2] at this
  revert this; decide

/-- **C75** (partial): the files agree whenever one of the first two fields is a scalar, or there are
fewer than two fields. -/
theorem C75_partial (stem : List Byte) (nRanks : Nat) (e : Exporter) (fields : List FieldDef) (sizes : List Nat)
    (hs : 34#8 ∉ stem) (h : ∀ f ∈ fields, 34#8 ∉ f.name) (hsc : fields.length < 2 ∨ ∃ f ∈ fields.take 2, f.inds.length = 1) :
    valuesOf (str "Scalars") (pvtuContents stem nRanks fields) = valuesOf (str "Scalars") (description e fields sizes) ∧
    valuesOf (str "Vectors") (pvtuContents stem nRanks fields) = valuesOf (str "Vectors") (description e fields sizes) := by
  obtain ⟨s1, s2⟩ := C75_scalars stem nRanks e fields sizes hs h
  obtain ⟨v1, v2⟩ := C75_vectors stem nRanks e fields sizes hs h
  refine ⟨?_, by rw [v1, v2]⟩
  rw [s1, s2]
  clear s1 s2 v1 v2
  rcases fields with _ | ⟨f, _ | ⟨g, fs⟩⟩
  · simp only
  · simp only
  · have : ¬ (f.inds.length ≠ 1 ∧ g.inds.length ≠ 1) := by
      rcases hsc with hsc | ⟨x, hx, hx1⟩
      · simp at hsc; omega
      · simp at hx
        rcases hx with rfl | rfl
        · exact fun c => c.1 hx1
        · exact fun c => c.2 hx1
    simp only [if_neg this]

example : let fields : List FieldDef := [⟨str "u", [0, 1]⟩, ⟨str "p", [4]⟩, ⟨str "w", [2, 3]⟩]
    (fields.length < 2 ∨ ∃ f ∈ fields.take 2, f.inds.length = 1) ∧ ∀ f ∈ fields, 34#8 ∉ f.name := by simp [str]

/-- **C75** (declarations): the field declarations of the two kinds of file agree in number, order,
names and numbers of components. -/
theorem C75_declarations (stem : List Byte) (nRanks : Nat) (e : Exporter) (fields : List FieldDef) (sizes : List Nat)
    (hs : 34#8 ∉ stem) (h : ∀ f ∈ fields, 34#8 ∉ f.name) (hl : sizes.length = fields.length) :
    valuesOf (str "Name") (pvtuContents stem nRanks fields) = valuesOf (str "Name") (description e fields sizes) ∧
    valuesOf (str "NumberOfComponents") (pvtuContents stem nRanks fields) =
      valuesOf (str "NumberOfComponents") (description e fields sizes) := by
  obtain ⟨-, hn, hc⟩ := header_values e fields sizes h hl
  have hp : ∀ k, k ≠ str "Scalars" → k ≠ str "Vectors" → (pHeader fields).filter (fun a => a.1 = k) = [] := by
    intro k h1 h2
    cases fields with
    | nil => rfl
    | cons f fs =>
      rw [pHeader]
      split
      · rw [List.filter_cons_of_neg (by simpa using h2.symm), optAttr_filter _ _ _ h1.symm]
      · rw [List.filter_cons_of_neg (by simpa using h1.symm), optAttr_filter _ _ _ h2.symm]
  have hfm : ∀ fs : List FieldDef, ((fs.flatMap pdAttrs).filter fun a => a.1 = str "Name").map Prod.snd = fs.map FieldDef.name := by
    intro fs; induction fs with
    | nil => rfl
    | cons f fs ih => rw [List.flatMap_cons, List.filter_append, List.map_append, ih]; rfl
  have hfc : ∀ fs : List FieldDef, ((fs.flatMap pdAttrs).filter fun a => a.1 = str "NumberOfComponents").map Prod.snd =
      fs.map fun f => decimal (numComps f) := by
    intro fs; induction fs with
    | nil => rfl
    | cons f fs ih => rw [List.flatMap_cons, List.filter_append, List.map_append, ih]; rfl
  constructor
  · rw [hn, valuesOf, attributes_pvtu stem nRanks fields hs h, List.filter_append, List.filter_append, List.filter_append,
      hp _ (by decide) (by decide), flatMap_filter_nil (List.range nRanks) _ _ (fun f _ => rfl), List.append_nil, List.append_nil, List.map_append, hfm]
    congr 1
  · rw [hc, valuesOf, attributes_pvtu stem nRanks fields hs h, List.filter_append, List.filter_append, List.filter_append,
      hp _ (by decide) (by decide), flatMap_filter_nil (List.range nRanks) _ _ (fun f _ => rfl), List.append_nil, List.append_nil, List.map_append, hfc]
    congr 1

end Verif.Vtk
