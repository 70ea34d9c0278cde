import Verif.GmshText.Sections
import Verif.Gmsh.Props

/-! # Properties C86 and C87: reading the text of a Gmsh file -/
namespace Verif.GmshText
open Verif Verif.Elem Verif.Mesh Verif.Split Verif.Partition Verif.Merge Verif.Extrude Verif.Gmsh

/-- The mesh a file describes (C33 says what it is), or an exception. -/
def described {K : Type} [Field K] [LinearOrder K] (eps : K) (D : MeshFile K) : Res DomMap :=
  match Gmsh.readMesh eps D.physical D.nodes D.blocks with
  | some m => .ok m
  | none => .throws

/-- **C86** (full statement): the text of a file is read as the mesh it describes. -/
def C86Statement : Prop :=
  ∀ (K : Type) [Field K] [LinearOrder K] (dec : List Char → Option K) (eps : K) (D : MeshFile K) (file : List Char),
    D.InRange → D.IsText dec file → readText eps dec file = described eps D

/-- **C86**: true for every layout of the text if no block of nodes is empty. -/
theorem C86_text_partial {K : Type} [Field K] [LinearOrder K] (dec : List Char → Option K) (eps : K) (D : MeshFile K) (file : List Char)
    (hr : D.InRange) (ht : D.IsText dec file) (hn : ∀ b ∈ D.nodeBlocks, b.nodes ≠ []) : readText eps dec file = described eps D := by
  obtain ⟨g1, f, g2, e, g3, n, g4, m, g5, rfl, h1, h2, h3, h4, b1, b2, b3, b4⟩ := ht
  unfold readText readFile described
  rw [bind_ok (format_run hr h1 b1 _), bind_ok (entities_run hr h2 b2 _), bind_ok (nodes_run hr hn h3 b3 _)]
  have he := elements_run hr eps (parseNodes D.nodes) h4 b4 g5
  unfold Gmsh.readMesh readEvents
  cases hb : (D.blocks.mapM (blockEvents eps D.physical (parseNodes D.nodes))).map List.flatten with
  | none =>
    rw [hb] at he
    rw [bind_throws he]; rfl
  | some evs =>
    rw [hb] at he
    rw [bind_ok he]
    simp only [Option.bind_some]
    cases (pushAll kinds1 [] (number 0 evs)).map sortVecs <;> rfl

/-- **C87** (full statement): whatever the file contains, it is either read or refused. -/
def C87Statement : Prop :=
  ∀ (K : Type) [Field K] [LinearOrder K] (dec : List Char → Option K) (eps : K) (file : List Char), readText eps dec file ≠ .ub

/-- **C87**: true for texts in the format, with numbers in range and no empty block of nodes (elements may refer to unknown nodes or entities, and have
unsupported types). -/
theorem C87_refused_partial {K : Type} [Field K] [LinearOrder K] (dec : List Char → Option K) (eps : K) (D : MeshFile K) (file : List Char)
    (hr : D.InRange) (ht : D.IsText dec file) (hn : ∀ b ∈ D.nodeBlocks, b.nodes ≠ []) : readText eps dec file ≠ .ub := by
  rw [C86_text_partial dec eps D file hr ht hn]
  unfold described
  split <;> simp

/-- **C87** (missing section): a file without the keyword of the format section is refused. -/
theorem C87_no_format {K : Type} [Field K] [LinearOrder K] (dec : List Char → Option K) (eps : K) (file : List Char)
    (h : ¬ "$MeshFormat".toList <:+: file) : readText eps dec file = .throws := by
  have hs : ∀ l : List Char, ¬ "$MeshFormat".toList <:+: l → search "$MeshFormat".toList l = none := by
    intro l
    induction l with
    | nil => intro _; rfl
    | cons c l ih =>
      intro h
      rw [search, if_neg, ih]
      · exact fun hc => h (hc.trans (List.suffix_cons c l).isInfix)
      · rw [List.isPrefixOf_iff_prefix]; exact fun hc => h hc.isInfix
  have : skip "$MeshFormat" ⟨file, false, false⟩ = .throws := by
    unfold skip
    rw [hs file h]
  unfold readText readFile parseFormat
  rw [bind_throws (bind_throws this)]

/-- **C87** (other formats): a binary file, or one of a version outside [4, 5), is refused, whatever follows the format section. -/
theorem C87_other_format {K : Type} [Field K] [LinearOrder K] [IsStrictOrderedRing K] (dec : List Char → Option K) (eps : K) (v : K) (b size : Nat) (g f rest : List Char)
    (hf : IsSection dec "$MeshFormat" "$EndMeshFormat" [.real v, .nat b, .nat size] f) (hg : Before g "$MeshFormat") (hb : b ≤ 1) (hs : size < 2 ^ 64)
    (h : b = 1 ∨ ¬ (4 ≤ v ∧ v < 5)) : readText eps dec (g ++ (f ++ rest)) = .throws := by
  unfold readText readFile
  rw [bind_throws (format_refused hb hs h hf hg rest)]

/-- **C87** (several physical tags): if the first entities are those of `D` and the next one, of dimension `d`, has more than one physical tag, the file is
refused, whatever follows. -/
theorem C87_several_tags {K : Type} [Field K] [LinearOrder K] (dec : List Char → Option K) (eps : K) (D : MeshFile K) (hr : D.InRange) (d tag n : Nat) (box : List K)
    (c : Nat → Nat) (more : List (Val K)) (g1 f g2 e rest : List Char) (hd : d < 4) (htag : tag < 2 ^ 31) (hbox : box.length = if d = 0 then 3 else 6)
    (hn : 1 < n) (hn' : n < 2 ^ 64) (hc : ∀ j < 4, c j < 2 ^ 64) (hc1 : ∀ j < d, c j = (D.ents j).length) (hc2 : (D.ents d).length < c d)
    (hf : IsSection dec "$MeshFormat" "$EndMeshFormat" D.formatVals f) (h1 : Before g1 "$MeshFormat") (h2 : Before g2 "$Entities")
    (he : IsSection dec "$Entities" "$EndEntities" ((List.range 4).map (fun j => .nat (c j)) ++ ((List.range (d + 1)).flatMap (fun j => (D.ents j).flatMap (Ent.vals j)) ++
      ([.nat tag] ++ (box.map .real ++ ([.nat n] ++ more))))) e) : readText eps dec (g1 ++ (f ++ (g2 ++ (e ++ rest)))) = .throws := by
  unfold readText readFile
  rw [bind_ok (format_run hr hf h1 _), bind_throws (entities_refused hr hd htag hbox hn hn' c hc hc1 hc2 more he h2 rest)]

/-! ## Concrete cases -/

/-- Decimal numbers for the examples. -/
def exDec (cs : List Char) : Option ℚ :=
  if cs = "4.1".toList then some (41 / 10) else if cs ≠ [] ∧ cs.all isDig then some (decVal cs) else none

/-- Two nodes joined by a line on physical curve 7. -/
def exFile : MeshFile ℚ where
  version := 41 / 10
  dataSize := 8
  ents := fun d => if d = 1 then [⟨3, [0, 0, 0, 1, 0, 0], some 7, [1, -2]⟩] else []
  nodeHdr := (2, 1, 2)
  nodeBlocks := [⟨1, 3, [(1, ⟨0, 0, 0⟩), (2, ⟨1, 0, 0⟩)]⟩]
  elHdr := (1, 1, 1)
  elBlocks := [⟨1, 3, 1, [(1, [1, 2])]⟩]

/-- A checker for `Writes`, used by the examples only. -/
def writesB (cs : List Char) : Val ℚ → Bool
  | .nat v => decide (cs ≠ []) && cs.all (fun c => decide (c ∈ "0123456789".toList)) && decide (value cs = v)
  | .int v => (decide (cs ≠ []) && cs.all (fun c => decide (c ∈ "0123456789".toList)) && decide (v = value cs)) ||
      (decide (cs.head? = some '-') && decide (cs.tail ≠ []) && cs.tail.all (fun c => decide (c ∈ "0123456789".toList)) && decide (v = -(value cs.tail : Int)))
  | .real x => decide (cs ≠ []) && cs.all (fun c => !isWs c) && decide (exDec cs = some x)

theorem writesB_sound {cs : List Char} {v : Val ℚ} (h : writesB cs v = true) : Writes exDec cs v := by
  cases v with
  | nat v =>
    simp only [writesB, Bool.and_eq_true, decide_eq_true_eq, List.all_eq_true] at h
    exact ⟨h.1.1, h.1.2, h.2⟩
  | real x => simp [writesB] at h; exact ⟨h.1.1, fun c hc hb => absurd (ws_of c hb) (by simp [h.1.2 c hc]), h.2⟩
  | int v =>
    simp only [writesB, Bool.or_eq_true, Bool.and_eq_true, decide_eq_true_eq, List.all_eq_true] at h
    rcases h with h | h
    · exact ⟨cs, h.1.1, h.1.2, Or.inl ⟨rfl, h.2⟩⟩
    · cases cs with
      | nil => simp at h
      | cons c cs =>
        simp only [List.head?_cons, Option.some.injEq, List.tail_cons] at h
        exact ⟨cs, h.1.1.2, h.1.2, Or.inr ⟨by rw [h.1.1.1], h.2⟩⟩

/-- A checker for `Spells`, used by the examples only. -/
def spellsB (text : List Char) : List (Val ℚ) → Bool
  | [] => decide (text = [])
  | v :: vs => decide (text.takeWhile isWs ≠ []) && writesB ((text.dropWhile isWs).takeWhile fun c => !isWs c) v &&
      spellsB ((text.dropWhile isWs).dropWhile fun c => !isWs c) vs

theorem spellsB_sound : ∀ (vs : List (Val ℚ)) (text : List Char), spellsB text vs = true → Spells exDec text vs := by
  intro vs
  induction vs with
  | nil =>
    intro text h
    simp [spellsB] at h
    rw [h]; exact Spells.nil
  | cons v vs ih =>
    intro text h
    simp only [spellsB, Bool.and_eq_true, decide_eq_true_eq] at h
    have := Spells.cons (dec := exDec) h.1.1 (fun c hc => blank_of (List.mem_takeWhile_imp hc)) (writesB_sound h.1.2) (ih _ h.2)
    rwa [List.takeWhile_append_dropWhile, List.takeWhile_append_dropWhile] at this

theorem before_of {g : List Char} {key : String} (h : ∀ i < g.length, key.toList.isPrefixOf (g.drop i ++ key.toList) = false) : Before g key := by
  rintro g1 g2 rfl h2 hp
  have := h g1.length (by rw [List.length_append]; have := List.length_pos_iff.2 h2; omega)
  rw [List.drop_left, ← Bool.not_eq_true, List.isPrefixOf_iff_prefix] at this
  exact this hp

theorem isSection_of {first last : String} {vs : List (Val ℚ)} (nums : String) (h : spellsB nums.toList vs = true) :
    IsSection exDec first last vs (first.toList ++ (nums.toList ++ (['\n'] ++ last.toList))) :=
  ⟨nums.toList, ['\n'], rfl, spellsB_sound _ _ h, by simp, by unfold Blank; decide⟩

/-- Text of a file with physical names between the sections. -/
def layout (f e n m : String) : List Char :=
  [] ++ (("$MeshFormat".toList ++ (f.toList ++ (['\n'] ++ "$EndMeshFormat".toList))) ++ ("\n$PhysicalNames\n1\n1 7 \"wall\"\n$EndPhysicalNames\n".toList ++
    (("$Entities".toList ++ (e.toList ++ (['\n'] ++ "$EndEntities".toList))) ++ ("\n".toList ++ (("$Nodes".toList ++ (n.toList ++ (['\n'] ++ "$EndNodes".toList))) ++
      ("\n".toList ++ (("$Elements".toList ++ (m.toList ++ (['\n'] ++ "$EndElements".toList))) ++ "\n".toList)))))))

theorem layout_isText {D : MeshFile ℚ} {f e n m : String} (hf : spellsB f.toList D.formatVals = true) (he : spellsB e.toList D.entVals = true)
    (hn : spellsB n.toList D.nodeVals = true) (hm : spellsB m.toList D.elVals = true) : D.IsText exDec (layout f e n m) :=
  ⟨_, _, _, _, _, _, _, _, _, rfl, isSection_of f hf, isSection_of e he, isSection_of n hn, isSection_of m hm,
    before_of (by decide), before_of (by decide +kernel), before_of (by decide), before_of (by decide)⟩

theorem ex_range : exFile.InRange := by
  refine ⟨by norm_num [exFile], by decide, ?_, ?_, by decide, ?_, by decide, ?_, ?_⟩
  · intro d _; simp only [exFile]; split <;> simp
  · intro d _ e he
    simp only [exFile] at he
    split at he
    · rename_i hd; subst hd
      simp only [List.mem_singleton] at he
      subst he
      simp
    · simp at he
  · intro b hb
    simp only [exFile, List.mem_singleton] at hb
    subst hb; simp
  · intro b hb
    simp only [exFile, List.mem_singleton] at hb
    subst hb
    simp only [List.mem_singleton]
    refine ⟨by omega, by omega, by omega, by simp, ?_⟩
    rintro e rfl
    refine ⟨by omega, by simp, ?_⟩
    intro ty hty
    cases hty; rfl
  · intro d _; simp only [exFile]; split <;> simp

theorem ex_text : exFile.IsText exDec (layout "\n4.1 0 8" "\n0 1 0 0\n3 0 0 0 1 0 0 1 7 2 1 -2" "\n1 2 1 2\n1 3 0 2\n1\n2\n0 0 0\n1 0 0" "\n1 1 1 1\n1 3 1 1\n1 1 2") :=
  layout_isText (by decide +kernel) (by decide +kernel) (by decide +kernel) (by decide +kernel)

example : readText (1 / 10 ^ 9) exDec (layout "\n4.1 0 8" "\n0 1 0 0\n3 0 0 0 1 0 0 1 7 2 1 -2" "\n1 2 1 2\n1 3 0 2\n1\n2\n0 0 0\n1 0 0" "\n1 1 1 1\n1 3 1 1\n1 1 2") =
    .ok [(7, ⟨some 1, [[], [], [⟨.line, 2, 0, [0, 1]⟩]]⟩)] := by
  rw [C86_text_partial exDec _ exFile _ ex_range ex_text (by simp [exFile])]
  decide +kernel

/-- A binary file of version 4.1. -/
example (rest : List Char) : readText (1 / 10 ^ 9) exDec ([] ++ (("$MeshFormat".toList ++ ("\n4.1 1 8".toList ++ (['\n'] ++ "$EndMeshFormat".toList))) ++ rest)) = .throws :=
  C87_other_format exDec _ (41 / 10) 1 8 [] _ rest (isSection_of "\n4.1 1 8" (by decide +kernel)) (before_of (by decide)) (by omega) (by omega) (Or.inl rfl)

/-- The second of two curves belongs to the physical groups 8 and 9. -/
example (rest : List Char) : readText (1 / 10 ^ 9) exDec ([] ++ (("$MeshFormat".toList ++ ("\n4.1 0 8".toList ++ (['\n'] ++ "$EndMeshFormat".toList))) ++ ("\n".toList ++
    (("$Entities".toList ++ ("\n0 2 0 0\n3 0 0 0 1 0 0 1 7 2 1 -2\n4 0 0 0 1 0 0 2 8 9 0".toList ++ (['\n'] ++ "$EndEntities".toList))) ++ rest)))) = .throws :=
  C87_several_tags exDec _ exFile ex_range 1 4 2 [0, 0, 0, 1, 0, 0] (fun j => if j = 1 then 2 else 0) [.nat 8, .nat 9, .nat 0] [] _ _ _ rest (by omega) (by omega) rfl (by omega) (by omega)
    (fun j _ => by split <;> omega) (fun j hj => by simp [exFile, show j ≠ 1 by omega]) (by simp [exFile]) (isSection_of "\n4.1 0 8" (by decide +kernel)) (before_of (by decide))
    (before_of (by decide)) (isSection_of _ (by decide +kernel))

example : ¬ "$MeshFormat".toList <:+: "solid cube".toList := by decide

/-- The same mesh, with an empty block of nodes in front (curve 5 has no nodes of its own). -/
def exEmpty : MeshFile ℚ := { exFile with nodeBlocks := [⟨1, 5, []⟩, ⟨1, 3, [(1, ⟨0, 0, 0⟩), (2, ⟨1, 0, 0⟩)]⟩] }

theorem exEmpty_range : exEmpty.InRange := by
  obtain ⟨h1, h2, h3, h4, h5, h6, h7, h8, h9⟩ := ex_range
  refine ⟨h1, h2, h3, h4, by decide, ?_, h7, h8, h9⟩
  intro b hb
  simp only [exEmpty, List.mem_cons, List.not_mem_nil, or_false] at hb
  rcases hb with rfl | rfl <;> simp

def exEmptyText : List Char :=
  layout "\n4.1 0 8" "\n0 1 0 0\n3 0 0 0 1 0 0 1 7 2 1 -2" "\n2 2 1 2\n1 5 0 0\n1 3 0 2\n1\n2\n0 0 0\n1 0 0" "\n1 1 1 1\n1 3 1 1\n1 1 2"

theorem exEmpty_text : exEmpty.IsText exDec exEmptyText :=
  layout_isText (by decide +kernel) (by decide +kernel) (by decide +kernel) (by decide +kernel)

/-- The header of the block after an empty one loses its first number; here the reader then takes the number of nodes for the flag "parametric". -/
theorem C86_empty_block : readText (1 / 10 ^ 9) exDec exEmptyText = .throws := by decide +kernel

/-- **C86** is false: a valid file with an empty block of nodes is refused. -/
theorem C86_violated : ¬ C86Statement := by
  intro h
  have := h ℚ exDec (1 / 10 ^ 9) exEmpty exEmptyText exEmpty_range exEmpty_text
  rw [C86_empty_block] at this
  exact absurd this (by decide +kernel)

/-- If the empty block is the last one, the reader ends in undefined behaviour instead. -/
theorem C87_empty_last : readText (1 / 10 ^ 9 : ℚ) exDec
    (layout "\n4.1 0 8" "\n0 1 0 0\n3 0 0 0 1 0 0 1 7 2 1 -2" "\n2 2 1 2\n1 3 0 2\n1\n2\n0 0 0\n1 0 0\n1 5 0 0" "\n1 1 1 1\n1 3 1 1\n1 1 2") = .ub := by decide +kernel

/-- A physical tag above 65535, valid in Gmsh, ends in undefined behaviour. -/
theorem C87_large_tag : readText (1 / 10 ^ 9 : ℚ) exDec
    (layout "\n4.1 0 8" "\n0 1 0 0\n3 0 0 0 1 0 0 1 70000 2 1 -2" "\n1 2 1 2\n1 3 0 2\n1\n2\n0 0 0\n1 0 0" "\n1 1 1 1\n1 3 1 1\n1 1 2") = .ub := by decide +kernel

/-- So does a file whose node section is cut short. -/
theorem C87_truncated : readText (1 / 10 ^ 9 : ℚ) exDec
    (layout "\n4.1 0 8" "\n0 1 0 0\n3 0 0 0 1 0 0 1 7 2 1 -2" "\n1 2 1 2\n1 3 0 2\n1\n2\n0 0 0\n1 0" "\n1 1 1 1\n1 3 1 1\n1 1 2") = .ub := by decide +kernel

/-- **C87** is false. -/
theorem C87_violated : ¬ C87Statement := fun h => h ℚ exDec (1 / 10 ^ 9) _ C87_large_tag

end Verif.GmshText
