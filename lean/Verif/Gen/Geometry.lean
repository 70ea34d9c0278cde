import Verif.Gen.Box

/-! # Geometry of the boxes of a grid -/
namespace Verif.Gen
open Verif Verif.Elem Verif.Mesh Verif.Convert

noncomputable section

/-- Coordinates of the vertices of a box; `P c i` is coordinate `c` of the `i`-th grid line of that direction. -/
def Box.data (P : Fin 3 → Nat → ℝ) (b : Box) : VData := fun k c => if h : c < 3 then P ⟨c, h⟩ (b.lo ⟨c, h⟩ + off b.w k ⟨c, h⟩) else 0

/-- A box as an element of the mesh. -/
def Box.el (n : Fin 3 → Nat) (P : Fin 3 → Nat → ℝ) (id : Nat) (b : Box) : El VData := ⟨tyOf b.w, id, b.nodes n, b.data P⟩

/-- Point between the grid lines `i` and `i + 1`. -/
def axisPt (P : Fin 3 → Nat → ℝ) (c : Fin 3) (i : Nat) (ξ : ℝ) : ℝ := (1 - ξ) / 2 * P c i + (1 + ξ) / 2 * P c (i + 1)

theorem sum_const (d : Nat) (hd : d ≤ 3) (x : ℝ) (ξ : Nat → ℝ) :
    ∑ v ∈ Finset.range (2 ^ d), x * ∏ a ∈ Finset.range d, hat (v / 2 ^ a % 2) (ξ a) = x := by
  interval_cases d <;> simp [Finset.sum_range_succ, Finset.prod_range_succ, hat] <;> ring

theorem sum_axis (d a0 : Nat) (hd : d ≤ 3) (ha : a0 < d) (f : Nat → ℝ) (ξ : Nat → ℝ) :
    ∑ v ∈ Finset.range (2 ^ d), f (v / 2 ^ a0 % 2) * ∏ a ∈ Finset.range d, hat (v / 2 ^ a % 2) (ξ a) = (1 - ξ a0) / 2 * f 0 + (1 + ξ a0) / 2 * f 1 := by
  interval_cases d <;> interval_cases a0 <;> simp [Finset.sum_range_succ, Finset.prod_range_succ, hat] <;> ring

/-- Coordinates of the image of a reference point. -/
theorem Box.image_coord (P : Fin 3 → Nat → ℝ) (b : Box) (ξ : Nat → ℝ) (c : Fin 3) :
    image (tyOf b.w) (b.data P) ξ c = if b.w c = true then axisPt P c (b.lo c) (ξ (Gen.loc b.w c)) else P c (b.lo c) := by
  rw [image_eq]
  have hd := dim_le_three (tyOf b.w)
  have hdat : ∀ v, b.data P v c = P c (b.lo c + off b.w v c) := by
    intro v
    simp only [Box.data, c.2, dif_pos]
  split
  · rename_i h
    have := sum_axis (tyOf b.w).dim (Gen.loc b.w c) hd (loc_lt h) (fun o => P c (b.lo c + o)) ξ
    rw [Nat.add_zero] at this
    rw [axisPt, ← this]
    refine Finset.sum_congr rfl fun v _ => ?_
    rw [hdat, off, if_pos h]
  · rename_i h
    rw [← sum_const (tyOf b.w).dim hd (P c (b.lo c)) ξ]
    refine Finset.sum_congr rfl fun v _ => ?_
    rw [hdat, off, if_neg h, Nat.add_zero]

section
variable {n : Fin 3 → Nat} {P : Fin 3 → Nat → ℝ} {b b' : Box}

/-- Grid lines in increasing order. -/
def Increasing (n : Fin 3 → Nat) (P : Fin 3 → Nat → ℝ) : Prop := ∀ c i, i + 1 < n c → P c i < P c (i + 1)

theorem Increasing.lt (hP : Increasing n P) {c : Fin 3} {i j : Nat} (hij : i < j) (hj : j < n c) : P c i < P c j := by
  induction j with
  | zero => omega
  | succ j ih =>
    rcases Nat.lt_or_ge i j with h | h
    · exact lt_trans (ih h (by omega)) (hP c j hj)
    · have : i = j := by omega
      subst this
      exact hP c i hj

theorem axisPt_bounds (hP : Increasing n P) {c : Fin 3} {i : Nat} (hi : i + 1 < n c) {x : ℝ} (hx : -1 ≤ x ∧ x ≤ 1) :
    P c i ≤ axisPt P c i x ∧ axisPt P c i x ≤ P c (i + 1) := by
  have := hP c i hi
  unfold axisPt
  constructor <;> nlinarith [hx.1, hx.2]

theorem axisPt_inj (hP : Increasing n P) {c : Fin 3} {i : Nat} (hi : i + 1 < n c) {x y : ℝ} (h : axisPt P c i x = axisPt P c i y) : x = y := by
  have := hP c i hi
  unfold axisPt at h
  have h' : (x - y) * (P c (i + 1) - P c i) = 0 := by linarith
  rcases mul_eq_zero.1 h' with h' | h' <;> linarith

theorem axisPt_neg (P : Fin 3 → Nat → ℝ) (c : Fin 3) (i : Nat) : axisPt P c i (-1) = P c i := by unfold axisPt; ring
theorem axisPt_one (P : Fin 3 → Nat → ℝ) (c : Fin 3) (i : Nat) : axisPt P c i 1 = P c (i + 1) := by unfold axisPt; ring

theorem Box.image_bounds (hP : Increasing n P) (hg : b.InGrid n) {ξ : Nat → ℝ} (hξ : InCell (tyOf b.w) ξ) (c : Fin 3) :
    P c (b.lo c) ≤ image (tyOf b.w) (b.data P) ξ c ∧ image (tyOf b.w) (b.data P) ξ c ≤ P c (b.lo c + (b.w c).toNat) := by
  rw [b.image_coord]
  have hgc := hg c
  split
  · rename_i h
    rw [h] at hgc ⊢
    exact axisPt_bounds hP hgc (hξ _ (loc_lt h))
  · rename_i h
    simp [Bool.eq_false_of_not_eq_true h]

theorem Box.inj (hP : Increasing n P) (hw : axes b.w ≠ []) (hg : b.InGrid n) {ξ ξ' : Nat → ℝ}
    (h : image (tyOf b.w) (b.data P) ξ = image (tyOf b.w) (b.data P) ξ') : ∀ a, a < (tyOf b.w).dim → ξ a = ξ' a := by
  intro a ha
  rw [axes_length _ hw] at ha
  obtain ⟨h1, h2⟩ := loc_of_get (List.getElem?_eq_getElem ha)
  have := congrFun h (axes b.w)[a]
  rw [b.image_coord, b.image_coord, if_pos h1, if_pos h1, h2] at this
  have hgc := hg (axes b.w)[a]
  rw [h1] at hgc
  exact axisPt_inj hP hgc this

/-- Both boxes extend along `c`, between the same grid lines. -/
def both (b b' : Box) (c : Fin 3) : Bool := b.w c && b'.w c && b.lo c == b'.lo c

/-- The face of `b` that it has in common with `b'`. -/
def face (b b' : Box) : Face := (axes b.w).map fun c => if both b b' c then none else some (decide (b.lo c < b'.lo c))

theorem both_comm (b b' : Box) (c : Fin 3) : both b' b c = both b b' c := by
  unfold both
  rw [Bool.and_comm (b'.w c), Bool.beq_comm]

theorem mem_allFaces {t : ElType} {F : Face} (h : F.length = t.dim) : F ∈ allFaces t := by
  have key : ∀ d (F : Face), F.length = d → F ∈ allFacesD d := by
    intro d
    induction d with
    | zero => intro F h; rw [List.length_eq_zero_iff] at h; subst h; simp [allFacesD]
    | succ d ih =>
      intro F h
      cases F with
      | nil => simp at h
      | cons x F =>
        refine List.mem_flatMap.2 ⟨F, ih F (by simpa using h), ?_⟩
        rcases x with _ | _ | _ <;> simp
  exact key _ F h

theorem face_get {b b' : Box} {a : Nat} {x : Option Bool} : (face b b')[a]? = some x ↔
    ∃ c, (axes b.w)[a]? = some c ∧ x = if both b b' c then none else some (decide (b.lo c < b'.lo c)) := by
  unfold face
  rw [List.getElem?_map, Option.map_eq_some_iff]
  constructor
  · rintro ⟨c, h, rfl⟩; exact ⟨c, h, rfl⟩
  · rintro ⟨c, h, rfl⟩; exact ⟨c, h, rfl⟩

theorem both_iff {b b' : Box} {c : Fin 3} : both b b' c = true ↔ b.w c = true ∧ b'.w c = true ∧ b.lo c = b'.lo c := by
  simp [both, and_assoc]

theorem face_none {b b' : Box} {a : Nat} : (face b b')[a]? = some none ↔ ∃ c, (axes b.w)[a]? = some c ∧ both b b' c = true := by
  rw [face_get]
  refine exists_congr fun c => and_congr_right fun _ => ?_
  by_cases h : both b b' c = true <;> simp [h]

theorem face_some {b b' : Box} {a : Nat} {x : Bool} : (face b b')[a]? = some (some x) ↔
    ∃ c, (axes b.w)[a]? = some c ∧ both b b' c = false ∧ x = decide (b.lo c < b'.lo c) := by
  rw [face_get]
  refine exists_congr fun c => and_congr_right fun _ => ?_
  by_cases h : both b b' c = true <;> simp [h]

theorem free_face (b b' : Box) : free (face b b') = ([0, 1, 2] : List (Fin 3)).countP fun c => both b b' c := by
  unfold free face
  rw [List.count, List.countP_map]
  unfold axes
  rw [List.countP_filter]
  refine List.countP_congr fun c _ => ?_
  simp only [Function.comp_apply]
  by_cases h : both b b' c = true
  · simp [h, (both_iff.1 h).1]
  · simp [h]

theorem free_comm (b b' : Box) : free (face b' b) = free (face b b') := by
  rw [free_face, free_face]
  simp only [both_comm b b']

/-- The reference coordinate of `b` along the reference coordinate `a'` of `b'`. -/
def axisTo (b b' : Box) (a' : Nat) : Nat := Gen.loc b.w ((axes b'.w).getD a' 0)

theorem glue_box (hw : axes b.w ≠ []) (hw' : axes b'.w ≠ []) : Glue (tyOf b.w) (tyOf b'.w) (face b b') (face b' b) (axisTo b b') := by
  refine ⟨mem_allFaces (by rw [face, List.length_map, axes_length _ hw]), mem_allFaces (by rw [face, List.length_map, axes_length _ hw']),
    (free_comm b b').symm, ?_, ?_, ?_⟩
  · intro a' h
    obtain ⟨c, hc, hb⟩ := face_none.1 h
    rw [both_comm] at hb
    refine face_none.2 ⟨c, ?_, hb⟩
    rw [axisTo, List.getD_eq_getElem?_getD, hc, Option.getD_some]
    exact loc_get (both_iff.1 hb).1
  · intro x y h1 h2 h
    obtain ⟨c, hc, hb⟩ := face_none.1 h1
    obtain ⟨c', hc', hb'⟩ := face_none.1 h2
    rw [both_comm] at hb hb'
    rw [axisTo, axisTo, List.getD_eq_getElem?_getD, List.getD_eq_getElem?_getD, hc, hc', Option.getD_some, Option.getD_some] at h
    have e1 := loc_get (both_iff.1 hb).1
    have e2 := loc_get (both_iff.1 hb').1
    rw [h, e2, Option.some.injEq] at e1
    subst e1
    rw [← (loc_of_get hc).2, ← (loc_of_get hc').2]
  · intro a h
    obtain ⟨c, hc, hb⟩ := face_none.1 h
    have hg := loc_get (both_iff.1 hb).2.1
    refine ⟨Gen.loc b'.w c, face_none.2 ⟨c, hg, by rw [both_comm]; exact hb⟩, ?_⟩
    rw [axisTo, List.getD_eq_getElem?_getD, hg, Option.getD_some]
    exact (loc_of_get hc).2

/-- Along `c` the boxes have a point in common. -/
def Touch (b b' : Box) : Prop := ∀ c, b.lo c ≤ b'.lo c + (b'.w c).toNat ∧ b'.lo c ≤ b.lo c + (b.w c).toNat

/-- The vertices of the common face. -/
theorem glue_vert (ht : Touch b b') {k : Nat} (hk : onFace 2 (face b b') k = true) (c : Fin 3) :
    b.lo c + off b.w k c = b'.lo c + off b'.w (glue 2 (face b' b) (axisTo b b') (fun _ => false) k) c := by
  have htc := ht c
  have hon := onFace_iff.1 hk
  have hl : both b b' c = false → b.w c = true → off b.w k c = (decide (b.lo c < b'.lo c)).toNat := by
    intro hb hw
    have := hon _ _ (face_some.2 ⟨c, loc_get hw, hb, rfl⟩)
    rw [off, if_pos hw, this]
    by_cases h : b.lo c < b'.lo c <;> simp [h]
  have hr : b'.w c = true → off b'.w (glue 2 (face b' b) (axisTo b b') (fun _ => false) k) c =
      if both b b' c then off b.w k c else (decide (b'.lo c < b.lo c)).toNat := by
    intro hw
    have h3 : Gen.loc b'.w c < 3 := by have := loc_lt hw; have := dim_le_three (tyOf b'.w); omega
    rw [off, if_pos hw, glue_digit (by omega) k h3, glueDigit]
    by_cases hb : both b b' c = true
    · have h1 : (face b' b)[Gen.loc b'.w c]? = some none := face_none.2 ⟨c, loc_get hw, by rw [both_comm]; exact hb⟩
      rw [h1, if_pos hb, off, if_pos (both_iff.1 hb).1]
      simp only [Bool.false_eq_true, if_false, axisTo, List.getD_eq_getElem?_getD, loc_get hw, Option.getD_some]
    · rw [if_neg hb]
      have hb' : both b' b c = false := by rw [both_comm]; simpa using hb
      rw [face_some.2 ⟨c, loc_get hw, hb', rfl⟩]
      by_cases h : b'.lo c < b.lo c <;> simp [h]
  have hn : ∀ (w : Fin 3 → Bool) (k : Nat), w c = false → off w k c = 0 := by
    intro w k h
    simp [off, h]
  by_cases hb : both b b' c = true
  · obtain ⟨h1, h2, h3⟩ := both_iff.1 hb
    rw [hr h2, if_pos hb, h3]
  · have hb' : both b b' c = false := by simpa using hb
    rcases hw : b.w c with _ | _ <;> rcases hw' : b'.w c with _ | _
    · rw [hn _ _ hw, hn _ _ hw']
      rw [hw, hw'] at htc
      simp only [Bool.toNat_false] at htc
      omega
    · rw [hn _ _ hw, hr hw', if_neg hb]
      rw [hw, hw'] at htc
      simp only [Bool.toNat_false, Bool.toNat_true] at htc
      by_cases h : b'.lo c < b.lo c <;> simp only [h, decide_true, decide_false, Bool.toNat_true, Bool.toNat_false] <;> omega
    · rw [hl hb' hw, hn _ _ hw']
      rw [hw, hw'] at htc
      simp only [Bool.toNat_false, Bool.toNat_true] at htc
      by_cases h : b.lo c < b'.lo c <;> simp only [h, decide_true, decide_false, Bool.toNat_true, Bool.toNat_false] <;> omega
    · rw [hl hb' hw, hr hw', if_neg hb]
      have hne : b.lo c ≠ b'.lo c := fun h => hb (both_iff.2 ⟨hw, hw', h⟩)
      rw [hw, hw'] at htc
      simp only [Bool.toNat_true] at htc
      by_cases h : b.lo c < b'.lo c
      · have h' : ¬ b'.lo c < b.lo c := by omega
        simp only [h, h', decide_true, decide_false, Bool.toNat_true, Bool.toNat_false]
        omega
      · have h' : b'.lo c < b.lo c := by omega
        simp only [h, h', decide_true, decide_false, Bool.toNat_true, Bool.toNat_false]
        omega

/-- Common points are on the common face. -/
theorem on_face (hP : Increasing n P) (hg : b.InGrid n) (hg' : b'.InGrid n) (ht : Touch b b') {ξ ξ' : Nat → ℝ}
    (hξ : InCell (tyOf b.w) ξ) (hξ' : InCell (tyOf b'.w) ξ') (h : image (tyOf b.w) (b.data P) ξ = image (tyOf b'.w) (b'.data P) ξ') :
    OnFaceR (face b b') ξ := by
  intro a x hx
  obtain ⟨c, hc, hb, rfl⟩ := face_some.1 hx
  obtain ⟨hw, hl⟩ := loc_of_get hc
  have hgc := hg c
  have hgc' := hg' c
  have htc := ht c
  rw [hw] at hgc htc
  have hco := congrFun h c
  have hbd' := b'.image_bounds hP hg' hξ' c
  rw [← hco] at hbd'
  rw [b.image_coord, if_pos hw, hl] at hbd' hco
  have hbd := axisPt_bounds hP hgc (hξ a (by rw [← hl]; exact loc_lt hw))
  simp only [Bool.toNat_true] at hgc htc
  by_cases hlt : b.lo c < b'.lo c
  · simp only [hlt, decide_true, endPt, if_true]
    have e : b'.lo c = b.lo c + 1 := by omega
    rw [e] at hbd'
    refine axisPt_inj hP hgc ?_
    rw [axisPt_one]
    exact le_antisymm hbd.2 hbd'.1
  · simp only [hlt, decide_false, endPt, Bool.false_eq_true, if_false]
    have e : b.lo c = b'.lo c + (b'.w c).toNat := by
      by_cases hw' : b'.w c = true
      · have hne : b.lo c ≠ b'.lo c := by
          intro hh
          have := both_iff.2 ⟨hw, hw', hh⟩
          rw [hb] at this
          cases this
        rw [hw'] at htc ⊢
        simp only [Bool.toNat_true] at htc ⊢
        omega
      · have := Bool.eq_false_of_not_eq_true hw'
        rw [this] at htc ⊢
        simp only [Bool.toNat_false] at htc ⊢
        omega
    rw [← e] at hbd'
    refine axisPt_inj hP hgc ?_
    rw [axisPt_neg]
    exact le_antisymm hbd'.2 hbd.1

theorem length_axes (w : Fin 3 → Bool) : (axes w).length = ([0, 1, 2] : List (Fin 3)).countP fun c => w c := by
  rw [axes, List.countP_eq_length_filter]

theorem all_of_count {p q : Fin 3 → Bool} (h : ∀ c, p c = true → q c = true)
    (he : ([0, 1, 2] : List (Fin 3)).countP (fun c => q c) ≤ ([0, 1, 2] : List (Fin 3)).countP fun c => p c) : ∀ c, q c = true → p c = true := by
  revert p q; decide +kernel

theorem face_small (hw : axes b.w ≠ []) (hw' : axes b'.w ≠ []) (ht : Touch b b') (hne : b ≠ b') :
    free (face b b') ≤ highestDim (tyOf b.w) (tyOf b'.w) := by
  have h1 : free (face b b') ≤ (tyOf b.w).dim := by
    rw [free_face, axes_length _ hw, length_axes]
    exact List.countP_mono_left fun c _ h => (both_iff.1 h).1
  have h2 : free (face b b') ≤ (tyOf b'.w).dim := by
    rw [free_face, axes_length _ hw', length_axes]
    exact List.countP_mono_left fun c _ h => (both_iff.1 h).2.1
  unfold highestDim
  split
  · rename_i hd
    by_contra hc
    have he : (tyOf b.w).dim ≤ free (face b b') := by omega
    have he' : (tyOf b'.w).dim ≤ free (face b b') := by omega
    rw [free_face, axes_length _ hw, length_axes] at he
    rw [free_face, axes_length _ hw', length_axes] at he'
    have a1 := all_of_count (p := both b b') (q := b.w) (fun c h => (both_iff.1 h).1) he
    have a2 := all_of_count (p := both b b') (q := b'.w) (fun c h => (both_iff.1 h).2.1) he'
    refine hne (Box.ext' (fun c => ?_) fun c => ?_)
    · by_cases h : b.w c = true
      · exact (both_iff.1 (a1 c h)).2.2
      · have hf : b'.w c ≠ true := fun h' => h (both_iff.1 (a2 c h')).1
        have htc := ht c
        rw [Bool.eq_false_of_not_eq_true h, Bool.eq_false_of_not_eq_true hf] at htc
        simp only [Bool.toNat_false] at htc
        omega
    · rw [Bool.eq_iff_iff]
      exact ⟨fun h => (both_iff.1 (a1 c h)).2.1, fun h => (both_iff.1 (a2 c h)).1⟩
  · exact le_min h1 h2

/-- Different boxes meet in a common face or not at all. -/
theorem box_meets (hP : Increasing n P) (hw : axes b.w ≠ []) (hw' : axes b'.w ≠ []) (hg : b.InGrid n) (hg' : b'.InGrid n) (hne : b ≠ b') (id id' : Nat) :
    Meets (b.el n P id) (b'.el n P id') := by
  by_cases ht : Touch b b'
  · right
    refine ⟨face b b', face b' b, axisTo b b', fun _ => false, glue_box hw hw', face_small hw hw' ht hne, ?_, ?_⟩
    · intro k hk hon
      have hlt := glue_lt (n := 2) (flip := fun _ => false) (glue_box hw hw') (by omega) k
      change (b.nodes n).getD k 0 = (b'.nodes n).getD _ 0
      rw [b.getD_nodes n hk, b'.getD_nodes n hlt]
      exact congrArg (node n) (funext fun c => glue_vert ht hon c)
    · intro ξ ξ' hξ hξ' h
      exact ⟨on_face hP hg hg' ht hξ hξ' h, on_face hP hg' hg (fun c => ⟨(ht c).2, (ht c).1⟩) hξ' hξ h.symm⟩
  · left
    intro ξ ξ' hξ hξ' h
    refine ht fun c => ?_
    have hco := congrFun h c
    have h1 := b.image_bounds hP hg hξ c
    have h2 := b'.image_bounds hP hg' hξ' c
    simp only [Box.el] at hco
    rw [hco] at h1
    constructor
    · by_contra hc
      have := hP.lt (c := c) (show b'.lo c + (b'.w c).toNat < b.lo c by omega) (by have := hg c; omega)
      linarith [h1.1, h2.2]
    · by_contra hc
      have := hP.lt (c := c) (show b.lo c + (b.w c).toNat < b'.lo c by omega) (by have := hg' c; omega)
      linarith [h1.2, h2.1]

end
end
end Verif.Gen
