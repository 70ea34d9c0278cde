import Verif.Convert.Digits
import Verif.Convert.Loop
import Verif.Mapping.Jacobi
import Verif.Poly.Lobatto
/-! # Node positions under the geometric map -/
namespace Verif.Convert
open Verif Verif.Elem Verif.Mapping Verif.Basis Verif.Poly

noncomputable section

/-- Vertex coordinates of an element: vertex, coordinate. -/
abbrev VData := Nat → Nat → ℝ

abbrev Pt := Fin 3 → ℝ

/-- Image of a reference point. -/
def image (t : ElType) (vert : VData) (ξ : Nat → ℝ) : Pt := fun c => mapToPhysical t vert ξ c

/-- `nodePhysicalLocation(element)`, NodePhysicalLocation.hpp 9-17, with the abscissae `lobattoAbsc k roots`
(LobattoRuleAbsc.hpp; `roots` are the eigenvalues delivered by the solver, property C65). -/
def physLoc (roots : List ℂ) : Loc Pt VData := fun t k vert =>
  (nodeLocs t (lobattoAbsc k roots)).map fun p => image t vert fun a => p.getD a 0

open Classical in
/-- `getPointMatcher`, ElementIntersecting.hpp 181-187, in exact arithmetic. -/
def closeTol (p q : Pt) : Bool := decide (Real.sqrt (∑ c, (p c - q c) ^ 2) < 1e-12)

/-- Linear hat functions. -/
def hat (b : Nat) (x : ℝ) : ℝ := if b = 0 then (1 - x) / 2 else (1 + x) / 2

theorem line_two (i : Nat) (hi : i < 2) (x : ℝ) : line 2 absc1 i x = hat i x := by
  have h := (C68_line 2 (by norm_num) absc1 absc1_inj).2.2.2.2
  have i2 : i = 0 ∨ i = 1 := by omega
  rcases i2 with rfl | rfl
  · have := h [-1/2, 1/2] rfl x
    simp only [valueAt, evaluate, absc1, List.range_succ, List.range_zero, List.nil_append, List.map_append, List.map_cons, List.map_nil, List.sum_append,
      List.sum_cons, List.sum_nil, List.foldl_cons, List.foldl_nil, if_true] at this
    norm_num at this
    rw [this, hat, if_pos rfl]; ring
  · have := h [1/2, 1/2] rfl x
    simp only [valueAt, evaluate, absc1, List.range_succ, List.range_zero, List.nil_append, List.map_append, List.map_cons, List.map_nil, List.sum_append,
      List.sum_cons, List.sum_nil, List.foldl_cons, List.foldl_nil, if_true] at this
    norm_num at this
    rw [this, hat, if_neg (by norm_num)]; ring

theorem nVerts_eq (t : ElType) : nVerts t = 2 ^ t.dim := by cases t <;> rfl

theorem shape_eq (t : ElType) (v : Nat) (hv : v < 2 ^ t.dim) (ξ : Nat → ℝ) :
    shape t v ξ = ∏ a ∈ Finset.range t.dim, hat (v / 2 ^ a % 2) (ξ a) := by
  cases t with
  | line =>
    simp only [ElType.dim] at hv ⊢
    show line 2 absc1 v (ξ 0) = _
    rw [line_two v (by omega), Finset.prod_range_one]
    congr 1; simp; omega
  | quad =>
    simp only [ElType.dim] at hv ⊢
    show line 2 absc1 (v % 2) (ξ 0) * line 2 absc1 (v / 2) (ξ 1) = _
    rw [line_two _ (by omega), line_two _ (by omega), Finset.prod_range_succ, Finset.prod_range_one]
    congr 1
    · simp
    · congr 1; omega
  | hex =>
    simp only [ElType.dim] at hv ⊢
    show line 2 absc1 (v % (2 * 2) % 2) (ξ 0) * line 2 absc1 (v % (2 * 2) / 2) (ξ 1) * line 2 absc1 (v / (2 * 2)) (ξ 2) = _
    rw [line_two _ (by omega), line_two _ (by omega), line_two _ (by omega), Finset.prod_range_succ, Finset.prod_range_succ, Finset.prod_range_one]
    congr 1
    · congr 1
      · congr 1; simp
      · congr 1; simp; omega
    · congr 1; simp; omega

theorem image_eq (t : ElType) (vert : VData) (ξ : Nat → ℝ) (c : Fin 3) :
    image t vert ξ c = ∑ v ∈ Finset.range (2 ^ t.dim), vert v c * ∏ a ∈ Finset.range t.dim, hat (v / 2 ^ a % 2) (ξ a) := by
  rw [image, mapToPhysical, valueAt, list_range_sum, nVerts_eq]
  refine Finset.sum_congr rfl fun v hv => ?_
  rw [shape_eq t v (Finset.mem_range.1 hv)]

theorem image_congr (t : ElType) (vert : VData) {ξ ξ' : Nat → ℝ} (h : ∀ a, a < t.dim → ξ a = ξ' a) : image t vert ξ = image t vert ξ' := by
  funext c
  rw [image_eq, image_eq]
  refine Finset.sum_congr rfl fun v _ => ?_
  congr 1
  refine Finset.prod_congr rfl fun a ha => ?_
  rw [h a (Finset.mem_range.1 ha)]

/-! ### Faces of the reference cell -/

/-- End of the reference interval. -/
def endPt (b : Bool) : ℝ := if b then 1 else -1

/-- A reference point lies on a face. -/
def OnFaceR (F : Face) (ξ : Nat → ℝ) : Prop := ∀ a b, F[a]? = some (some b) → ξ a = endPt b

/-- A point of the reference cell. -/
def InCell (t : ElType) (ξ : Nat → ℝ) : Prop := ∀ a, a < t.dim → -1 ≤ ξ a ∧ ξ a ≤ 1

/-- The reference point of the second element opposite to the point `ξ` of the first. -/
def glueR (F' : Face) (ax : Nat → Nat) (flip : Nat → Bool) (ξ : Nat → ℝ) (a' : Nat) : ℝ :=
  match F'[a']? with
  | some (some b) => endPt b
  | some none => if flip a' then - ξ (ax a') else ξ (ax a')
  | none => 0

theorem hat_end (d : Nat) (hd : d < 2) (b : Bool) : hat d (endPt b) = if d = (if b then 2 - 1 else 0) then 1 else 0 := by
  have : d = 0 ∨ d = 1 := by omega
  rcases this with rfl | rfl <;> cases b <;> norm_num [hat, endPt]

theorem hat_flip (d : Nat) (hd : d < 2) (x : ℝ) : hat (2 - 1 - d) (-x) = hat d x := by
  have : d = 0 ∨ d = 1 := by omega
  rcases this with rfl | rfl <;> norm_num [hat]
  ring

section
variable {t t' : ElType} {F F' : Face} {ax : Nat → Nat} {flip : Nat → Bool}

/-- On a face only the vertices of the face contribute. -/
theorem weight_off {ξ : Nat → ℝ} (hF : F ∈ allFaces t) (hξ : OnFaceR F ξ) {v : Nat} (h : onFace 2 F v = false) :
    ∏ a ∈ Finset.range t.dim, hat (v / 2 ^ a % 2) (ξ a) = 0 := by
  have : ¬ ∀ a b, F[a]? = some (some b) → v / 2 ^ a % 2 = if b then 2 - 1 else 0 := by
    rw [← onFace_iff]; simp [h]
  push Not at this
  obtain ⟨a, b, hb, hne⟩ := this
  refine Finset.prod_eq_zero (Finset.mem_range.2 (face_lt hF hb)) ?_
  rw [hξ a b hb, hat_end _ (Nat.mod_lt _ (by norm_num)), if_neg hne]

theorem weight_on {ξ : Nat → ℝ} (hF : F ∈ allFaces t) (hξ : OnFaceR F ξ) {v : Nat} (h : onFace 2 F v = true) :
    ∏ a ∈ Finset.range t.dim, hat (v / 2 ^ a % 2) (ξ a) =
      ∏ a ∈ (Finset.range t.dim).filter (fun a => F[a]? = some none), hat (v / 2 ^ a % 2) (ξ a) := by
  rw [Finset.prod_filter]
  refine Finset.prod_congr rfl fun a ha => ?_
  by_cases hf : F[a]? = some none
  · rw [if_pos hf]
  · rw [if_neg hf]
    have hl : a < F.length := by rw [length_allFaces hF]; exact Finset.mem_range.1 ha
    rw [List.getElem?_eq_getElem hl] at hf
    obtain ⟨b, hb⟩ := Option.ne_none_iff_exists'.1 (fun (h0 : F[a] = none) => hf (by rw [h0]))
    have hb' : F[a]? = some (some b) := by rw [List.getElem?_eq_getElem hl, hb]
    rw [hξ a b hb', hat_end _ (Nat.mod_lt _ (by norm_num)), if_pos (onFace_iff.1 h a b hb')]

theorem glueR_on (ξ : Nat → ℝ) : OnFaceR F' (glueR F' ax flip ξ) := by
  intro a b hb
  simp only [glueR, hb]

theorem glueR_in (g : Glue t t' F F' ax) {ξ : Nat → ℝ} (h : InCell t ξ) : InCell t' (glueR F' ax flip ξ) := by
  intro a ha
  have hal : a < F'.length := by rw [length_allFaces g.mem2]; exact ha
  have hget := List.getElem?_eq_getElem hal
  rcases hc : F'[a] with _ | b
  · rw [hc] at hget
    have := h (ax a) (face_lt g.mem1 (g.free_ax a hget))
    simp only [glueR, hget]
    split
    · constructor <;> linarith [this.1, this.2]
    · exact this
  · rw [hc] at hget
    simp only [glueR, hget]
    cases b <;> norm_num [endPt]

theorem weight_glue (g : Glue t t' F F' ax) (ξ : Nat → ℝ) (v : Nat) :
    ∏ a ∈ (Finset.range t.dim).filter (fun a => F[a]? = some none), hat (v / 2 ^ a % 2) (ξ a) =
      ∏ a ∈ (Finset.range t'.dim).filter (fun a => F'[a]? = some none), hat (glue 2 F' ax flip v / 2 ^ a % 2) (glueR F' ax flip ξ a) := by
  symm
  refine Finset.prod_bij (fun a _ => ax a) ?_ ?_ ?_ ?_
  · intro a ha
    have hf := (Finset.mem_filter.1 ha).2
    have := g.free_ax a hf
    exact Finset.mem_filter.2 ⟨Finset.mem_range.2 (face_lt g.mem1 this), this⟩
  · intro a ha b hb hab
    exact g.inj a b (Finset.mem_filter.1 ha).2 (Finset.mem_filter.1 hb).2 hab
  · intro a ha
    obtain ⟨a', hf, e⟩ := g.surj a (Finset.mem_filter.1 ha).2
    exact ⟨a', Finset.mem_filter.2 ⟨Finset.mem_range.2 (face_lt g.mem2 hf), hf⟩, e⟩
  · intro a ha
    have hf := (Finset.mem_filter.1 ha).2
    have hlt := face_lt g.mem2 hf
    rw [glue_digit (by norm_num) v (by have := dim_le_three t'; omega), glueDigit, glueR, hf]
    simp only
    have h2 := Nat.mod_lt (v / 2 ^ ax a) (show 0 < 2 by norm_num)
    by_cases hfl : flip a = true
    · rw [if_pos hfl, if_pos hfl, hat_flip _ h2]
    · rw [if_neg hfl, if_neg hfl]

/-- Glued faces with the same vertices coincide pointwise. -/
theorem image_glue (g : Glue t t' F F' ax) {vert vert' : VData}
    (hv : ∀ k, k < 2 ^ t.dim → onFace 2 F k = true → ∀ c, c < 3 → vert k c = vert' (glue 2 F' ax flip k) c)
    {ξ : Nat → ℝ} (hξ : OnFaceR F ξ) : image t vert ξ = image t' vert' (glueR F' ax flip ξ) := by
  funext c
  rw [image_eq, image_eq]
  have off : ∀ {t : ElType} {F : Face} (_ : F ∈ allFaces t) (vert : VData) (ξ : Nat → ℝ) (_ : OnFaceR F ξ),
      ∑ v ∈ Finset.range (2 ^ t.dim), vert v c * ∏ a ∈ Finset.range t.dim, hat (v / 2 ^ a % 2) (ξ a) =
      ∑ v ∈ (Finset.range (2 ^ t.dim)).filter (fun v => onFace 2 F v = true), vert v c *
        ∏ a ∈ (Finset.range t.dim).filter (fun a => F[a]? = some none), hat (v / 2 ^ a % 2) (ξ a) := by
    intro t F hF vert ξ hξ
    rw [Finset.sum_filter]
    refine Finset.sum_congr rfl fun v _ => ?_
    by_cases h : onFace 2 F v = true
    · rw [if_pos h, weight_on hF hξ h]
    · rw [if_neg h, weight_off hF hξ (by simpa using h), mul_zero]
  rw [off g.mem1 vert ξ hξ, off g.mem2 vert' _ (glueR_on ξ)]
  refine Finset.sum_bij (fun v _ => glue 2 F' ax flip v) ?_ ?_ ?_ ?_
  · intro v _
    exact Finset.mem_filter.2 ⟨Finset.mem_range.2 (glue_lt g (by norm_num) v), glue_on g (by norm_num) v⟩
  · intro v hv' w hw h
    obtain ⟨h1, h2⟩ := Finset.mem_filter.1 hv'
    obtain ⟨h3, h4⟩ := Finset.mem_filter.1 hw
    exact glue_inj g (by norm_num) (Finset.mem_range.1 h1) (Finset.mem_range.1 h3) h2 h4 h
  · intro w hw
    obtain ⟨h3, h4⟩ := Finset.mem_filter.1 hw
    obtain ⟨v, h1, h2, h5⟩ := glue_surj (flip := flip) g (by norm_num) (Finset.mem_range.1 h3) h4
    exact ⟨v, Finset.mem_filter.2 ⟨Finset.mem_range.2 h1, h2⟩, h5⟩
  · intro v hv'
    obtain ⟨h1, h2⟩ := Finset.mem_filter.1 hv'
    rw [hv v (Finset.mem_range.1 h1) h2 c c.2, weight_glue g ξ v]
end

/-! ### Nodes -/

/-- Properties of the abscissae used (C65). -/
structure Lob (n : Nat) (x : List ℝ) : Prop where
  len : x.length = n
  strict : x.Pairwise (· < ·)
  first : x.head? = some (-1)
  last : x.getLast? = some 1
  symm : (x.map fun r => -r).reverse = x

theorem lob_of (n : Nat) (hn : 2 ≤ n) (roots : List ℂ) (h : 4 ≤ n → LobattoRoots n roots) : Lob n (lobattoAbsc n roots) := by
  obtain ⟨a, b, c, d, e, _⟩ := C65_lobatto_points n hn roots h
  exact ⟨a, b, c, d, e⟩

/-- Reference point of node `i`. -/
def refPt (t : ElType) (n : Nat) (x : List ℝ) (i a : Nat) : ℝ := if a < t.dim then x.getD (i / n ^ a % n) 0 else 0

section
variable {n : Nat} {x : List ℝ}

theorem Lob.getD_zero (h : Lob n x) : x.getD 0 0 = -1 := by
  have := h.first
  rw [List.head?_eq_getElem?] at this
  rw [List.getD_eq_getElem?_getD, this]; rfl

theorem Lob.getD_last (h : Lob n x) : x.getD (n - 1) 0 = 1 := by
  have := h.last
  rw [List.getLast?_eq_getElem?, h.len] at this
  rw [List.getD_eq_getElem?_getD, this]; rfl

theorem Lob.getD_neg (h : Lob n x) {d : Nat} (hd : d < n) : x.getD (n - 1 - d) 0 = - x.getD d 0 := by
  have hl := h.len
  have : x[n - 1 - d]? = ((x.map fun r => -r).reverse)[n - 1 - d]? := by rw [h.symm]
  rw [List.getElem?_reverse (by rw [List.length_map, hl]; omega), List.length_map, hl, List.getElem?_map,
    show n - 1 - (n - 1 - d) = d by omega] at this
  rw [List.getD_eq_getElem?_getD, List.getD_eq_getElem?_getD, this]
  rw [List.getElem?_eq_getElem (by omega)]; rfl

theorem Lob.inj (h : Lob n x) {d d' : Nat} (hd : d < n) (hd' : d' < n) (e : x.getD d 0 = x.getD d' 0) : d = d' := by
  have hl := h.len
  rw [← hl] at hd hd'
  simp only [List.getD_eq_getElem?_getD, List.getElem?_eq_getElem hd, List.getElem?_eq_getElem hd', Option.getD_some] at e
  exact (List.Nodup.getElem_inj_iff (Std.nodup_of_strict h.strict)).1 e

theorem Lob.bound (h : Lob n x) (hn : 1 ≤ n) {d : Nat} (hd : d < n) : -1 ≤ x.getD d 0 ∧ x.getD d 0 ≤ 1 := by
  have hl := h.len
  have mono : ∀ d d', d ≤ d' → d' < n → x.getD d 0 ≤ x.getD d' 0 := by
    intro d d' hle hd'
    rcases Nat.lt_or_eq_of_le hle with hlt | rfl
    · have := List.pairwise_iff_getElem.1 h.strict d d' (by omega) (by omega) hlt
      simp only [List.getD_eq_getElem?_getD, List.getElem?_eq_getElem (show d < x.length by omega), List.getElem?_eq_getElem (show d' < x.length by omega), Option.getD_some]
      exact le_of_lt this
    · exact le_refl _
  constructor
  · rw [← h.getD_zero]; exact mono 0 d (by omega) hd
  · rw [← h.getD_last]; exact mono d (n - 1) (by omega) (by omega)

theorem refPt_in (t : ElType) (h : Lob n x) (hn : 1 ≤ n) (i : Nat) : InCell t (refPt t n x i) := by
  intro a ha
  rw [refPt, if_pos ha]
  exact h.bound hn (Nat.mod_lt _ (by omega))

theorem refPt_on {t : ElType} (h : Lob n x) (hn : 2 ≤ n) {F : Face} (hF : F ∈ allFaces t) (i : Nat) :
    OnFaceR F (refPt t n x i) ↔ onFace n F i = true := by
  rw [onFace_iff]
  have key : ∀ a b, F[a]? = some (some b) → (refPt t n x i a = endPt b ↔ i / n ^ a % n = if b then n - 1 else 0) := by
    intro a b hb
    rw [refPt, if_pos (face_lt hF hb)]
    have hlt := Nat.mod_lt (i / n ^ a) (show 0 < n by omega)
    have hend : endPt b = x.getD (if b then n - 1 else 0) 0 := by
      cases b
      · simp only [endPt, Bool.false_eq_true, if_false]; exact h.getD_zero.symm
      · simp only [endPt, if_true]; exact h.getD_last.symm
    rw [hend]
    constructor
    · intro e; exact h.inj hlt (by split <;> omega) e
    · intro e; rw [e]
  constructor
  · intro h' a b hb; exact (key a b hb).1 (h' a b hb)
  · intro h' a b hb; exact (key a b hb).2 (h' a b hb)

theorem refPt_inj {t : ElType} (h : Lob n x) (hn : 1 ≤ n) {i j : Nat} (hi : i < n ^ t.dim) (hj : j < n ^ t.dim)
    (e : ∀ a, a < t.dim → refPt t n x i a = refPt t n x j a) : i = j := by
  refine digits_ext hi hj fun a ha => ?_
  have := e a ha
  rw [refPt, refPt, if_pos ha, if_pos ha] at this
  exact h.inj (Nat.mod_lt _ (by omega)) (Nat.mod_lt _ (by omega)) this

/-- Gluing of nodes is gluing of their reference points. -/
theorem glue_refPt {t t' : ElType} {F F' : Face} {ax : Nat → Nat} {flip : Nat → Bool} (h : Lob n x) (hn : 1 ≤ n) (g : Glue t t' F F' ax) (i : Nat) :
    ∀ a, a < t'.dim → glueR F' ax flip (refPt t n x i) a = refPt t' n x (glue n F' ax flip i) a := by
  intro a ha
  have h3 : a < 3 := by have := dim_le_three t'; omega
  rw [refPt, if_pos ha, glue_digit hn i h3]
  have hal : a < F'.length := by rw [length_allFaces g.mem2]; exact ha
  have hget := List.getElem?_eq_getElem hal
  rcases hc : F'[a] with _ | b
  · rw [hc] at hget
    simp only [glueR, glueDigit, hget, refPt, if_pos (face_lt g.mem1 (g.free_ax a hget))]
    have hlt := Nat.mod_lt (i / n ^ ax a) (show 0 < n by omega)
    by_cases hf : flip a = true
    · rw [if_pos hf, if_pos hf, h.getD_neg hlt]
    · rw [if_neg hf, if_neg hf]
  · rw [hc] at hget
    simp only [glueR, glueDigit, hget]
    cases b
    · simp only [endPt, Bool.false_eq_true, if_false]; exact h.getD_zero.symm
    · simp only [endPt, if_true]; exact h.getD_last.symm

theorem refPt_corner {t : ElType} (h : Lob n x) {x2 : List ℝ} (h2 : Lob 2 x2) (hn : 2 ≤ n) (k : Nat) :
    ∀ a, a < t.dim → refPt t n x (corner n k) a = refPt t 2 x2 k a := by
  intro a ha
  have h3 : a < 3 := by have := dim_le_three t; omega
  rw [refPt, refPt, if_pos ha, if_pos ha, corner_digit n k a (by omega) h3]
  rcases Nat.mod_two_eq_zero_or_one (k / 2 ^ a) with e | e <;> rw [e]
  · rw [Nat.mul_zero, h.getD_zero, h2.getD_zero]
  · rw [Nat.mul_one, h.getD_last]
    exact h2.getD_last.symm
end

theorem physLoc_length (roots : List ℂ) (t : ElType) (n : Nat) (vert : VData) (h : Lob n (lobattoAbsc n roots)) :
    (physLoc roots t n vert).length = n ^ t.dim := by
  rw [physLoc, List.length_map]
  have hl := h.len
  cases t with
  | line => simp [nodeLocs, ElType.dim, hl]
  | quad =>
    simp only [nodeLocs, ElType.dim]
    rw [Tensor.length_flatMap_uniform n _ _ (by simp [hl]), hl]; ring
  | hex =>
    simp only [nodeLocs, ElType.dim]
    rw [Tensor.length_flatMap_uniform (n * n) _ _ (fun y _ => by rw [Tensor.length_flatMap_uniform n _ _ (by simp [hl]), hl]), hl]; ring

theorem pos_eq (roots : List ℂ) (n : Nat) (h : Lob n (lobattoAbsc n roots)) (e : El VData) {i : Nat} (hi : i < n ^ e.ty.dim) :
    pos n (physLoc roots) e i = some (image e.ty e.data (refPt e.ty n (lobattoAbsc n roots) i)) := by
  have hl := h.len
  obtain ⟨p, h1, h2, h3⟩ := nodeLocs_getElem e.ty (lobattoAbsc n roots) i (by rw [hl]; exact hi)
  rw [pos, physLoc, List.getElem?_map, h1, Option.map_some]
  refine congrArg some (image_congr _ _ fun a ha => ?_)
  rw [refPt, if_pos ha, List.getD_eq_getElem?_getD, h3 a ha, hl, List.getD_eq_getElem?_getD]

end

end Verif.Convert
