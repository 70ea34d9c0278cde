import Verif.Vtk.Pvtu
/-!
# C76, C83, C84: the exported files

Model of the POSIX path operations used by the exporter (`std::filesystem::path::stem`,
`replace_extension`) and of the file names, `post/VtkExport.hpp`.
-/
namespace Verif.Vtk
open Verif Spec

/-- Everything up to and including the last `/`. -/
def dirPart (p : List Byte) : List Byte := (p.reverse.dropWhile fun c => c ≠ 47#8).reverse

/-- `filename()`: everything after the last `/`. -/
def fileName (p : List Byte) : List Byte := (p.reverse.takeWhile fun c => c ≠ 47#8).reverse

/-- The characters after the last dot (everything if there is no dot). -/
def afterDot (fn : List Byte) : List Byte := (fn.reverse.takeWhile fun c => c ≠ 46#8).reverse

/-- `extension()` of a file name: empty for `.` and `..`, without a dot, and when the only dot is the
first character. -/
def extOf (fn : List Byte) : List Byte :=
  if fn = [46#8] ∨ fn = [46#8, 46#8] ∨ fn.length ≤ (afterDot fn).length + 1 then [] else 46#8 :: afterDot fn

/-- `stem()` of a file name. -/
def stemOf (fn : List Byte) : List Byte := fn.take (fn.length - (extOf fn).length)

/-- The text appended by `replace_extension`. -/
def extText (ext : List Byte) : List Byte :=
  if ext = [] then [] else if ext.head? = some 46#8 then ext else 46#8 :: ext

/-- `replace_extension(ext)`. -/
def replaceExt (p ext : List Byte) : List Byte := dirPart p ++ stemOf (fileName p) ++ extText ext

/-- Name of the parallel file, include/l3ster/post/VtkExport.hpp line 593. -/
def pvtuName (name : List Byte) : List Byte := replaceExt name (str "pvtu")

/-- `makeVtuFileName`, lines 498-505. -/
def makeVtuFileName (name : List Byte) (rank : Nat) : List Byte :=
  replaceExt name [] ++ str "_" ++ decimal rank ++ str ".vtu"

/-- Name of the piece file written by a rank, lines 603-604. -/
def vtuName (name : List Byte) (rank : Nat) : List Byte := makeVtuFileName (replaceExt name (str "vtu")) rank

/-- The parallel file written by rank 0 for export name `name`, lines 586-596. -/
def pvtuFile (name : List Byte) (nRanks : Nat) (fields : List FieldDef) : List Byte := pvtuContents (stemOf (fileName name)) nRanks fields

/-! ### Lemmas -/

theorem dir_file (p : List Byte) : dirPart p ++ fileName p = p := by
  rw [dirPart, fileName, ← List.reverse_append, List.takeWhile_append_dropWhile, List.reverse_reverse]

theorem mem_takeWhile' {α : Type} {q : α → Bool} {l : List α} {x : α} (h : x ∈ l.takeWhile q) : q x = true := by
  induction l with
  | nil => simp at h
  | cons a l ih =>
    by_cases ha : q a
    · rw [List.takeWhile_cons_of_pos ha] at h
      rcases List.mem_cons.1 h with rfl | h
      · exact ha
      · exact ih h
    · rw [List.takeWhile_cons_of_neg ha] at h; simp at h

theorem dropWhile_all {α : Type} {q : α → Bool} {l : List α} (h : ∀ x ∈ l, q x = true) : l.dropWhile q = [] := by
  induction l with
  | nil => rfl
  | cons a l ih => rw [List.dropWhile_cons_of_pos (h a (by simp))]; exact ih fun x hx => h x (by simp [hx])

theorem takeWhile_all {α : Type} {q : α → Bool} {l : List α} (h : ∀ x ∈ l, q x = true) : l.takeWhile q = l := by
  induction l with
  | nil => rfl
  | cons a l ih => rw [List.takeWhile_cons_of_pos (h a (by simp)), ih fun x hx => h x (by simp [hx])]

theorem dropWhile_cons_neg {α : Type} {q : α → Bool} {l : List α} {a : α} {r : List α} (h : l.dropWhile q = a :: r) : q a = false := by
  induction l with
  | nil => simp at h
  | cons b l ih =>
    by_cases hb : q b
    · rw [List.dropWhile_cons_of_pos hb] at h; exact ih h
    · rw [List.dropWhile_cons_of_neg hb] at h
      rw [← (List.cons.inj h).1]; simpa using hb

theorem fileName_noslash (p : List Byte) : 47#8 ∉ fileName p := by
  intro h
  have := mem_takeWhile' (List.mem_reverse.1 h)
  simp at this

theorem dirPart_shape (p : List Byte) : dirPart p = [] ∨ ∃ d, dirPart p = d ++ [47#8] := by
  unfold dirPart
  cases h : p.reverse.dropWhile fun c => c ≠ 47#8 with
  | nil => left; rfl
  | cons c r =>
    right
    have hc : c = 47#8 := by
      have h2 := dropWhile_cons_neg h
      simpa using h2
    exact ⟨r.reverse, by rw [hc]; simp⟩

/-- Directory and file name of a path put together from both. -/
theorem split_join (d fn : List Byte) (hd : d = [] ∨ ∃ d', d = d' ++ [47#8]) (hf : 47#8 ∉ fn) :
    dirPart (d ++ fn) = d ∧ fileName (d ++ fn) = fn := by
  have hr : ∀ c ∈ fn.reverse, decide (c ≠ 47#8) = true := fun c hc => by
    simp only [decide_eq_true_eq]; rintro rfl; exact hf (List.mem_reverse.1 hc)
  rw [dirPart, fileName, List.reverse_append]
  rcases hd with rfl | ⟨d', rfl⟩
  · constructor
    · rw [List.reverse_nil, List.append_nil, dropWhile_all hr]; rfl
    · rw [List.reverse_nil, List.append_nil, takeWhile_all hr, List.reverse_reverse]
  · have e : (d' ++ [47#8]).reverse = 47#8 :: d'.reverse := by simp
    rw [e, List.dropWhile_append_of_pos hr, List.takeWhile_append_of_pos hr, List.dropWhile_cons_of_neg (by simp),
      List.takeWhile_cons_of_neg (by simp)]
    simp

theorem stem_ext (fn : List Byte) : stemOf fn ++ extOf fn = fn := by
  unfold stemOf extOf
  split
  · simp
  · rename_i h
    push Not at h
    obtain ⟨-, -, h⟩ := h
    have hsplit : (fn.reverse.dropWhile fun c => c ≠ 46#8).reverse ++ afterDot fn = fn := by
      rw [afterDot, ← List.reverse_append, List.takeWhile_append_dropWhile, List.reverse_reverse]
    have hne : (fn.reverse.dropWhile fun c => c ≠ 46#8) ≠ [] := by
      intro e; rw [e] at hsplit
      have := congrArg List.length hsplit
      simp at this; omega
    obtain ⟨c, r, hr⟩ := List.exists_cons_of_ne_nil hne
    have hc : c = 46#8 := by
      have h2 := dropWhile_cons_neg hr
      simpa using h2
    rw [hr, List.reverse_cons, hc] at hsplit
    have hl : fn.length - (46#8 :: afterDot fn).length = r.length := by
      have := congrArg List.length hsplit; simp at this ⊢; omega
    rw [hl]
    conv_lhs => rw [← hsplit]
    have ht : (r.reverse ++ [46#8] ++ afterDot fn).take r.length = r.reverse := by
      rw [List.append_assoc]; exact List.take_left' (by simp)
    conv_rhs => rw [← hsplit]
    rw [ht, hsplit]
    conv_rhs => rw [← hsplit]
    rw [List.append_assoc]; rfl

theorem stem_ne_nil (fn : List Byte) (h : fn ≠ []) : stemOf fn ≠ [] := by
  have hl : 0 < fn.length := List.length_pos_iff.2 h
  unfold stemOf extOf
  split
  · simpa using h
  · rename_i h'
    push Not at h'
    intro e
    have := congrArg List.length e
    simp at this; omega

theorem stem_noslash (fn : List Byte) (h : 47#8 ∉ fn) : 47#8 ∉ stemOf fn := fun e => h (by
  rw [← stem_ext fn]; simp [e])

/-- Appending an extension to a non-empty name and taking the stem gives the name back. -/
theorem stem_append (s ext : List Byte) (hs : s ≠ []) (he : ext ≠ [] ∧ 46#8 ∉ ext) : stemOf (s ++ 46#8 :: ext) = s := by
  have had : afterDot (s ++ 46#8 :: ext) = ext := by
    have hr : ∀ c ∈ ext.reverse, decide (c ≠ 46#8) = true := fun c hc => by
      simp only [decide_eq_true_eq]; rintro rfl; exact he.2 (List.mem_reverse.1 hc)
    have e : (s ++ 46#8 :: ext).reverse = ext.reverse ++ 46#8 :: s.reverse := by simp
    rw [afterDot, e, List.takeWhile_append_of_pos hr, List.takeWhile_cons_of_neg (by simp)]; simp
  have hsl : 0 < s.length := List.length_pos_iff.2 hs
  have hel : 0 < ext.length := List.length_pos_iff.2 he.1
  have hext : extOf (s ++ 46#8 :: ext) = 46#8 :: ext := by
    rw [extOf, if_neg, had]
    rintro (h | h | h)
    · have := congrArg List.length h
      rw [List.length_append, List.length_cons, List.length_cons, List.length_nil] at this; omega
    · have := congrArg List.length h
      rw [List.length_append, List.length_cons, List.length_cons, List.length_cons, List.length_nil] at this; omega
    · rw [had, List.length_append, List.length_cons] at h; omega
  rw [stemOf, hext]
  exact List.take_left' (by simp)

theorem replaceExt_twice (p : List Byte) (ext : List Byte) (h : fileName p ≠ []) (he : ext ≠ [] ∧ 46#8 ∉ ext ∧ 47#8 ∉ ext) :
    dirPart (replaceExt p ext) = dirPart p ∧ fileName (replaceExt p ext) = stemOf (fileName p) ++ 46#8 :: ext ∧
      replaceExt (replaceExt p ext) [] = dirPart p ++ stemOf (fileName p) := by
  have hx : extText ext = 46#8 :: ext := by
    rw [extText, if_neg he.1, if_neg]
    intro e; exact he.2.1 (List.mem_of_mem_head? e)
  have hj := split_join (dirPart p) (stemOf (fileName p) ++ 46#8 :: ext) (dirPart_shape p) (by
    simp only [List.mem_append, List.mem_cons, not_or]
    exact ⟨stem_noslash _ (fileName_noslash p), by decide, he.2.2⟩)
  have e : replaceExt p ext = dirPart p ++ (stemOf (fileName p) ++ 46#8 :: ext) := by
    rw [replaceExt, hx, List.append_assoc]
  refine ⟨by rw [e]; exact hj.1, by rw [e]; exact hj.2, ?_⟩
  rw [replaceExt, e, hj.1, hj.2, stem_append _ _ (stem_ne_nil _ h) ⟨he.1, he.2.1⟩]
  simp [extText]

/-! ### C76 -/

/-- The two names in terms of directory and stem. -/
theorem names_eq (name : List Byte) (h : fileName name ≠ []) (r : Nat) :
    pvtuName name = dirPart name ++ (stemOf (fileName name) ++ str ".pvtu") ∧
    vtuName name r = dirPart name ++ (stemOf (fileName name) ++ (str "_" ++ (decimal r ++ str ".vtu"))) := by
  constructor
  · have : extText (str "pvtu") = str ".pvtu" := by decide
    rw [pvtuName, replaceExt, this, List.append_assoc]
  · rw [vtuName, makeVtuFileName, (replaceExt_twice name (str "vtu") h (by decide)).2.2]
    simp only [List.append_assoc]

/-- **C76**: the parallel file lists one piece per rank, in rank order, and the `r`-th listed source,
resolved in the directory of the parallel file, is the file written by rank `r` — for every export
name with a non-empty file name part (any directories, dots and extensions). -/
theorem C76_sources (name : List Byte) (nRanks : Nat) (fields : List FieldDef) (h : fileName name ≠ [])
    (hq : 34#8 ∉ name) (hn : ∀ f ∈ fields, 34#8 ∉ f.name) :
    (valuesOf (str "Source") (pvtuFile name nRanks fields)).map (dirPart (pvtuName name) ++ ·) =
      (List.range nRanks).map (vtuName name) := by
  have hstem : Noq (stemOf (fileName name)) := fun hm => hq (by
    rw [← dir_file name, ← stem_ext (fileName name)]; simp [hm])
  have hd : dirPart (pvtuName name) = dirPart name := (replaceExt_twice name (str "pvtu") h (by decide)).1
  have hp : (pHeader fields).filter (fun a => a.1 = str "Source") = [] := by
    cases fields with
    | nil => rfl
    | cons f fs =>
      rw [pHeader]
      split
      · rw [List.filter_cons_of_neg (by simp [show str "Vectors" ≠ str "Source" by decide]), optAttr_filter _ _ _ (by decide)]
      · rw [List.filter_cons_of_neg (by simp [show str "Scalars" ≠ str "Source" by decide]), optAttr_filter _ _ _ (by decide)]
  have hpre : preAttrs.filter (fun a => a.1 = str "Source") = [] := by decide +kernel
  have hpc : ∀ l : List Nat, (l.flatMap (pieceAttr (stemOf (fileName name)))).filter (fun a => a.1 = str "Source") =
      l.map fun r => (str "Source", stemOf (fileName name) ++ str "_" ++ decimal r ++ str ".vtu") := by
    intro l; induction l with
    | nil => rfl
    | cons r l ih => rw [List.flatMap_cons, List.filter_append, ih]; simp [pieceAttr]
  rw [pvtuFile, valuesOf, attributes_pvtu _ _ _ hstem hn, List.filter_append, List.filter_append, List.filter_append, hp, hpre,
    flatMap_filter_nil fields _ _ (fun f _ => rfl), hpc, List.nil_append, List.nil_append, List.nil_append, List.map_map, List.map_map, hd]
  refine List.map_congr_left fun r _ => ?_
  rw [(names_eq name h r).2]
  simp

example : fileName (str "results/run.2/phi_000.pvtu") = str "phi_000.pvtu" ∧
    vtuName (str "results/run.2/phi_000.pvtu") 3 = str "results/run.2/phi_000_3.vtu" := by
  have : decimal 3 = str "3" := by rw [decimal, if_pos (by omega)]; decide
  refine ⟨by decide +kernel, ?_⟩
  rw [(names_eq _ (by decide +kernel) 3).2, this]; decide +kernel

/-- **C76**: different ranks write different files, and no piece file is the parallel file. -/
theorem C76_distinct (name : List Byte) (h : fileName name ≠ []) (r s : Nat) :
    (vtuName name r = vtuName name s → r = s) ∧ vtuName name r ≠ pvtuName name := by
  rw [(names_eq name h r).2, (names_eq name h s).2, (names_eq name h r).1]
  constructor
  · intro e
    have e := List.append_cancel_left (List.append_cancel_left (List.append_cancel_left e))
    exact decimal_injective (List.append_cancel_right e)
  · intro e
    have e := List.append_cancel_left (List.append_cancel_left e)
    have hh := congrArg List.head? e
    rw [show str "_" = [95#8] by decide] at hh
    revert hh
    rw [List.cons_append, List.head?_cons]; decide

example : fileName (str "a/b") ≠ [] := by decide +kernel

/-! ### C83: content of the written files -/

/-- **C83**, full statement: after an export the piece file holds exactly the exported document,
whatever it contained before. -/
def C83Statement : Prop := ∀ (e : Exporter) (fields : List FieldDef) (encoded : List (List Byte)) (previous : List Byte)
  (ws : List (Nat × List Byte)), ws.Perm (vtuWrites e fields encoded) →
    File.run previous ws = description e fields (encoded.map List.length) ++ (e.encodedCoords ++ (e.encodedTopo ++ (encoded.flatten ++ vtuPostamble)))

/-- The document as concatenation. -/
theorem doc_flatten (e : Exporter) (fields : List FieldDef) (encoded : List (List Byte)) :
    ([description e fields (encoded.map List.length), e.encodedCoords, e.encodedTopo] ++ encoded ++ [vtuPostamble]).flatten =
      description e fields (encoded.map List.length) ++ (e.encodedCoords ++ (e.encodedTopo ++ (encoded.flatten ++ vtuPostamble))) := by
  simp

theorem run_length (ws : List (Nat × List Byte)) (f : List Byte) (n : Nat) (h : ∀ w ∈ ws, w.1 + w.2.length ≤ n) :
    f.length ≤ (File.run f ws).length ∧ (File.run f ws).length ≤ max f.length n := by
  induction ws generalizing f with
  | nil => simp [File.run]
  | cons w ws ih =>
    have hw := h w (by simp)
    obtain ⟨h1, h2⟩ := ih (File.pwrite f w) fun w' hw' => h w' (by simp [hw'])
    have hl : f.length ≤ (File.pwrite f w).length ∧ (File.pwrite f w).length ≤ max f.length n := by
      unfold File.pwrite
      split
      · simp
      · simp only [List.length_append, List.length_take, List.length_replicate, List.length_drop]; omega
    change f.length ≤ (File.run (File.pwrite f w) ws).length ∧ (File.run (File.pwrite f w) ws).length ≤ max f.length n
    omega

theorem blocks_end {o : Nat} {bs : List (List Byte)} : ∀ w ∈ File.blocks o bs, w.1 + w.2.length ≤ o + bs.flatten.length := by
  induction bs generalizing o with
  | nil => simp [File.blocks]
  | cons b bs ih =>
    intro w hw
    rcases List.mem_cons.1 hw with rfl | hw
    · simp
    · have := ih w hw; simp at this ⊢; omega

/-- **C83** (exact length): the file never gets shorter than it was: it ends up with the longer of the
two lengths. -/
theorem C83_length (e : Exporter) (fields : List FieldDef) (encoded : List (List Byte)) (previous : List Byte)
    (ws : List (Nat × List Byte)) (hp : ws.Perm (vtuWrites e fields encoded)) :
    (File.run previous ws).length = max previous.length
      (description e fields (encoded.map List.length) ++ (e.encodedCoords ++ (e.encodedTopo ++ (encoded.flatten ++ vtuPostamble)))).length := by
  rw [vtuWrites_eq] at hp
  obtain ⟨rest, hr⟩ := File.run_blocks hp previous
  have hle := run_length ws previous _ fun w hw => by
    have := blocks_end w (hp.mem_iff.1 hw); rwa [Nat.zero_add] at this
  rw [doc_flatten] at hr hle
  have := congrArg List.length hr
  rw [List.length_append] at this
  omega

/-- **C83** (partial): the file holds exactly the document when it did not exist before or was not
longer, for every completion order of the asynchronous writes. -/
theorem C83_partial (e : Exporter) (fields : List FieldDef) (encoded : List (List Byte)) (previous : List Byte)
    (ws : List (Nat × List Byte)) (hp : ws.Perm (vtuWrites e fields encoded))
    (hl : previous.length ≤ (description e fields (encoded.map List.length) ++
      (e.encodedCoords ++ (e.encodedTopo ++ (encoded.flatten ++ vtuPostamble)))).length) :
    File.run previous ws = description e fields (encoded.map List.length) ++
      (e.encodedCoords ++ (e.encodedTopo ++ (encoded.flatten ++ vtuPostamble))) := by
  have hlen := C83_length e fields encoded previous ws hp
  rw [vtuWrites_eq] at hp
  obtain ⟨rest, hr⟩ := File.run_blocks hp previous
  rw [doc_flatten] at hr
  have h2 := congrArg List.length hr
  rw [List.length_append, hlen] at h2
  have : rest = [] := List.length_eq_zero_iff.1 (by omega)
  rw [hr, this, List.append_nil]

example : ([] : List Byte).length ≤ (description ⟨0, 0, 0, 0, 0, [], []⟩ [] []).length := Nat.zero_le _

/-- **C83** fails: the file is opened without truncation, so a longer previous file keeps its tail
behind the new document. -/
theorem C83_violated : ¬ C83Statement := by
  intro h
  let e : Exporter := ⟨0, 0, 0, 0, 0, [], []⟩
  let doc := description e [] (([] : List (List Byte)).map List.length) ++ (e.encodedCoords ++ (e.encodedTopo ++ (([] : List (List Byte)).flatten ++ vtuPostamble)))
  have h1 := h e [] [] (doc ++ [0#8]) (vtuWrites e [] []) (List.Perm.refl _)
  have h2 := C83_length e [] [] (doc ++ [0#8]) (vtuWrites e [] []) (List.Perm.refl _)
  rw [h1] at h2
  change doc.length = max (doc ++ [0#8]).length doc.length at h2
  rw [show (doc ++ [0#8]).length = doc.length + 1 from List.length_append] at h2
  omega

/-! ### C84: different exports -/

/-- **C84**, full statement: exports under different names write different parallel files. -/
def C84Statement : Prop := ∀ a b : List Byte, fileName a ≠ [] → fileName b ≠ [] → pvtuName a = pvtuName b → a = b

/-- **C84** (partial): it holds for names with the extension `.pvtu` (in general: for names with equal
extension), and then the piece files differ as well. -/
theorem C84_partial (a b : List Byte) (ha : fileName a ≠ []) (hb : fileName b ≠ []) (he : extOf (fileName a) = extOf (fileName b)) :
    (pvtuName a = pvtuName b → a = b) ∧ ∀ r, vtuName a r = vtuName b r → a = b := by
  have key : dirPart a ++ stemOf (fileName a) = dirPart b ++ stemOf (fileName b) → a = b := by
    intro e
    rw [← dir_file a, ← dir_file b, ← stem_ext (fileName a), ← stem_ext (fileName b), ← List.append_assoc, ← List.append_assoc, e, he]
  constructor
  · intro e
    rw [(names_eq a ha 0).1, (names_eq b hb 0).1, ← List.append_assoc, ← List.append_assoc] at e
    exact key (List.append_cancel_right e)
  · intro r e
    rw [(names_eq a ha r).2, (names_eq b hb r).2, ← List.append_assoc, ← List.append_assoc (dirPart b)] at e
    exact key (List.append_cancel_right e)

example : extOf (fileName (str "results/phi_001.pvtu")) = extOf (fileName (str "results/phi_002.pvtu")) := by decide +kernel

/-- **C84** fails: a dot in the name starts an extension, which is dropped, so `phi_0.1` and
`phi_0.2` write the same files. -/
theorem C84_violated : ¬ C84Statement := fun h => by
  have := h (str "phi_0.1") (str "phi_0.2") (by decide +kernel) (by decide +kernel) (by decide +kernel)
  revert this; decide

end Verif.Vtk
