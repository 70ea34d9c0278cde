import Verif.ExtGen.Ready

/-! # The geometry of extruded elements -/
namespace Verif.ExtGen
open Verif Verif.Elem Verif.Mesh Verif.Convert Verif.Extrude Verif.Gen

noncomputable section

/-! ## Coordinates -/

/-- Vertices of a new element: those of the element it is a copy of, at the heights of the cell. -/
def dat3 (zs : List ℝ) (D : VData) (d : Nat) (c : Cell) : VData := fun k a =>
  if a < 2 then D (k % 2 ^ d) a else zs.getD (c.base + k / 2 ^ d) 0

/-- Height of a point of a cell. -/
def zOf (zs : List ℝ) (c : Cell) (ζ : ℝ) : ℝ :=
  match c with
  | .lay l => hat 0 ζ * zs.getD l 0 + hat 1 ζ * zs.getD (l + 1) 0
  | .lev l => zs.getD l 0

/-- Sum over the vertices of a cell. -/
def vsum (ξ : Nat → ℝ) (d : Nat) (f : Nat → ℝ) : ℝ := ∑ v ∈ Finset.range (2 ^ d), f v * ∏ a ∈ Finset.range d, hat (v / 2 ^ a % 2) (ξ a)

theorem low_digit {n d a : Nat} (ha : a < d) (j : Nat) : j % n ^ d / n ^ a % n = j / n ^ a % n := by
  obtain ⟨r, rfl⟩ : ∃ r, d = a + (1 + r) := ⟨d - a - 1, by omega⟩
  rw [pow_add, Nat.mod_mul_right_div_self, pow_add, pow_one, Nat.mod_mod_of_dvd _ (Dvd.intro _ rfl)]

theorem vsum_split (ξ : Nat → ℝ) (d : Nat) (f : Nat → ℝ) : vsum ξ (d + 1) f = hat 0 (ξ d) * vsum ξ d f + hat 1 (ξ d) * vsum ξ d fun v => f (2 ^ d + v) := by
  unfold vsum
  rw [pow_succ, mul_two, Finset.sum_range_add, Finset.mul_sum, Finset.mul_sum]
  congr 1
  · refine Finset.sum_congr rfl fun v hv => ?_
    have hv := Finset.mem_range.1 hv
    rw [Finset.prod_range_succ, Nat.div_eq_of_lt hv, Nat.zero_mod]
    ring
  · refine Finset.sum_congr rfl fun v hv => ?_
    have hv := Finset.mem_range.1 hv
    have h1 : (2 ^ d + v) / 2 ^ d % 2 = 1 := by
      rw [Nat.add_div_left _ (by positivity), Nat.div_eq_of_lt hv]
    have h2 : ∀ a ∈ Finset.range d, hat ((2 ^ d + v) / 2 ^ a % 2) (ξ a) = hat (v / 2 ^ a % 2) (ξ a) := by
      intro a ha
      have ha := Finset.mem_range.1 ha
      rw [← low_digit ha (2 ^ d + v), Nat.add_mod_left, low_digit ha]
    rw [Finset.prod_range_succ, h1, Finset.prod_congr rfl h2]
    ring

theorem vsum_const (ξ : Nat → ℝ) (d : Nat) (x : ℝ) : vsum ξ d (fun _ => x) = x := by
  induction d with
  | zero => simp [vsum]
  | succ d ih => rw [vsum_split, ih]; simp only [hat]; norm_num; ring

theorem vsum_congr {ξ : Nat → ℝ} {d : Nat} {f g : Nat → ℝ} (h : ∀ v, v < 2 ^ d → f v = g v) : vsum ξ d f = vsum ξ d g :=
  Finset.sum_congr rfl fun v hv => by rw [h v (Finset.mem_range.1 hv)]

theorem image_vsum (t : ElType) (vert : VData) (ξ : Nat → ℝ) (c : Fin 3) : image t vert ξ c = vsum ξ t.dim fun v => vert v c := image_eq t vert ξ c

section
variable {zs : List ℝ} {D D' : VData} {t t' : ElType} {c c' : Cell}

theorem lift_dim (ht : t ≠ .hex) (c : Cell) : (c.lift t).dim = t.dim + c.dim := by
  cases c <;> cases t <;> first | rfl | exact absurd rfl ht

/-- The image of a point: planar coordinates from the element extruded, height from the cell. -/
theorem image_lift (ht : t ≠ .hex) (ξ : Nat → ℝ) (a : Fin 3) :
    image (c.lift t) (dat3 zs D t.dim c) ξ a = if (a : Nat) < 2 then image t D ξ a else zOf zs c (ξ t.dim) := by
  rw [image_vsum, lift_dim ht]
  cases c with
  | lev l =>
    change vsum ξ t.dim _ = _
    by_cases ha : (a : Nat) < 2
    · rw [if_pos ha, image_vsum]
      exact vsum_congr fun v hv => by rw [dat3, if_pos ha, Nat.mod_eq_of_lt hv]
    · rw [if_neg ha]
      rw [← vsum_const ξ t.dim (zOf zs (.lev l) (ξ t.dim))]
      exact vsum_congr fun v hv => by rw [dat3, if_neg ha, Nat.div_eq_of_lt hv]; rfl
  | lay l =>
    change vsum ξ (t.dim + 1) _ = _
    rw [vsum_split]
    by_cases ha : (a : Nat) < 2
    · rw [if_pos ha, image_vsum]
      have h1 : vsum ξ t.dim (fun v => dat3 zs D t.dim (.lay l) v a) = vsum ξ t.dim fun v => D v a :=
        vsum_congr fun v hv => by rw [dat3, if_pos ha, Nat.mod_eq_of_lt hv]
      have h2 : vsum ξ t.dim (fun v => dat3 zs D t.dim (.lay l) (2 ^ t.dim + v) a) = vsum ξ t.dim fun v => D v a :=
        vsum_congr fun v hv => by rw [dat3, if_pos ha, Nat.add_mod_left, Nat.mod_eq_of_lt hv]
      rw [h1, h2]
      simp only [hat]; norm_num; ring
    · rw [if_neg ha]
      have h1 : vsum ξ t.dim (fun v => dat3 zs D t.dim (.lay l) v a) = zs.getD l 0 := by
        rw [← vsum_const ξ t.dim (zs.getD l 0)]
        exact vsum_congr fun v hv => by rw [dat3, if_neg ha, Nat.div_eq_of_lt hv]; rfl
      have h2 : vsum ξ t.dim (fun v => dat3 zs D t.dim (.lay l) (2 ^ t.dim + v) a) = zs.getD (l + 1) 0 := by
        rw [← vsum_const ξ t.dim (zs.getD (l + 1) 0)]
        exact vsum_congr fun v hv => by rw [dat3, if_neg ha, Nat.add_div_left _ (by positivity), Nat.div_eq_of_lt hv]; rfl
      rw [h1, h2]; rfl

/-! ## Heights -/

/-- The heights increase. -/
def Inc (zs : List ℝ) : Prop := ∀ i, i + 1 < zs.length → zs.getD i 0 < zs.getD (i + 1) 0

theorem Inc.lt (h : Inc zs) {i j : Nat} (hij : i < j) (hj : j < zs.length) : zs.getD i 0 < zs.getD j 0 := by
  induction j with
  | zero => omega
  | succ j ih =>
    rcases Nat.lt_or_ge i j with hlt | hge
    · exact (ih hlt (by omega)).trans (h j hj)
    · obtain rfl : i = j := by omega
      exact h i hj

/-- The cell lies within the heights. -/
def Cell.In (L : Nat) : Cell → Prop
  | .lay l => l + 1 < L
  | .lev l => l < L

theorem zOf_lay (l : Nat) (ζ : ℝ) : zOf zs (.lay l) ζ = (1 - ζ) / 2 * zs.getD l 0 + (1 + ζ) / 2 * zs.getD (l + 1) 0 := by
  simp [zOf, hat]

theorem zOf_lay_bounds (h : Inc zs) {l : Nat} (hl : l + 1 < zs.length) {ζ : ℝ} (h1 : -1 ≤ ζ) (h2 : ζ ≤ 1) :
    zs.getD l 0 ≤ zOf zs (.lay l) ζ ∧ zOf zs (.lay l) ζ ≤ zs.getD (l + 1) 0 := by
  have := h l hl
  rw [zOf_lay]
  constructor <;> nlinarith

theorem zOf_low (h : Inc zs) {l : Nat} (hl : l + 1 < zs.length) {ζ : ℝ} (he : zOf zs (.lay l) ζ = zs.getD l 0) : ζ = -1 := by
  have := h l hl
  rw [zOf_lay] at he
  have h0 : (1 + ζ) * (zs.getD (l + 1) 0 - zs.getD l 0) = 0 := by linarith
  rcases mul_eq_zero.1 h0 with h0 | h0 <;> linarith

theorem zOf_high (h : Inc zs) {l : Nat} (hl : l + 1 < zs.length) {ζ : ℝ} (he : zOf zs (.lay l) ζ = zs.getD (l + 1) 0) : ζ = 1 := by
  have := h l hl
  rw [zOf_lay] at he
  have h0 : (1 - ζ) * (zs.getD (l + 1) 0 - zs.getD l 0) = 0 := by linarith
  rcases mul_eq_zero.1 h0 with h0 | h0 <;> linarith

theorem zOf_inj (h : Inc zs) {l : Nat} (hl : l + 1 < zs.length) {ζ ζ' : ℝ} (he : zOf zs (.lay l) ζ = zOf zs (.lay l) ζ') : ζ = ζ' := by
  have := h l hl
  rw [zOf_lay, zOf_lay] at he
  have h0 : (ζ - ζ') * (zs.getD (l + 1) 0 - zs.getD l 0) = 0 := by linarith
  rcases mul_eq_zero.1 h0 with h0 | h0 <;> linarith

/-- What two cells have in common: a face of either. -/
structure CellGlue (zs : List ℝ) (c c' : Cell) (G G' : Face) : Prop where
  len1 : G.length = c.dim
  len2 : G'.length = c'.dim
  free : Convert.free G = Convert.free G'
  same : c ≠ c' → Convert.free G = 0
  level : ∀ j j', (∀ b, G[0]? = some (some b) → j = if b then 1 else 0) → (∀ b, G'[0]? = some (some b) → j' = if b then 1 else 0) →
    (G[0]? = none → j = 0) → (G'[0]? = none → j' = 0) → (G[0]? = some none → G'[0]? = some none → j = j') → c.base + j = c'.base + j'
  on : ∀ ζ ζ', -1 ≤ ζ → ζ ≤ 1 → -1 ≤ ζ' → ζ' ≤ 1 → zOf zs c ζ = zOf zs c' ζ' → (∀ b, G[0]? = some (some b) → ζ = endPt b) ∧ ∀ b, G'[0]? = some (some b) → ζ' = endPt b

theorem CellGlue.symm {G G' : Face} (h : CellGlue zs c c' G G') : CellGlue zs c' c G' G := by
  refine ⟨h.len2, h.len1, h.free.symm, fun hne => h.free ▸ h.same hne.symm, ?_, fun ζ ζ' a1 a2 b1 b2 he => (h.on ζ' ζ b1 b2 a1 a2 he.symm).symm⟩
  intro j j' h1 h2 h3 h4 h5
  exact (h.level j' j h2 h1 h4 h3 fun a b => (h5 b a).symm).symm

/-- Cells are apart or share a face. -/
theorem cells_meet (h : Inc zs) (hc : c.In zs.length) (hc' : c'.In zs.length) :
    (∀ ζ ζ', -1 ≤ ζ → ζ ≤ 1 → -1 ≤ ζ' → ζ' ≤ 1 → zOf zs c ζ ≠ zOf zs c' ζ') ∨ ∃ G G', CellGlue zs c c' G G' := by
  have lays : ∀ l l', l + 1 < zs.length → l' + 1 < zs.length → l ≤ l' → 
      (∀ ζ ζ', -1 ≤ ζ → ζ ≤ 1 → -1 ≤ ζ' → ζ' ≤ 1 → zOf zs (.lay l) ζ ≠ zOf zs (.lay l') ζ') ∨ ∃ G G', CellGlue zs (.lay l) (.lay l') G G' := by
    intro l l' hl hl' hle
    rcases Nat.lt_or_ge (l + 1) l' with h1 | h1
    · left
      intro ζ ζ' a1 a2 b1 b2 he
      have := (zOf_lay_bounds h hl a1 a2).2
      have := (zOf_lay_bounds h hl' b1 b2).1
      have := h.lt h1 (by omega)
      linarith
    right
    rcases Nat.eq_or_lt_of_le hle with rfl | h2
    · refine ⟨[none], [none], rfl, rfl, rfl, fun hn => absurd rfl hn, ?_, ?_⟩
      · intro j j' _ _ _ _ hj
        rw [hj rfl rfl]
      · intro ζ ζ' _ _ _ _ _
        exact ⟨fun b hb => by simp at hb, fun b hb => by simp at hb⟩
    · obtain rfl : l' = l + 1 := by omega
      refine ⟨[some true], [some false], rfl, rfl, rfl, fun _ => rfl, ?_, ?_⟩
      · intro j j' h1 h2 _ _ _
        have := h1 true rfl
        have := h2 false rfl
        simp only [Cell.base]
        simp at *
        omega
      · intro ζ ζ' a1 a2 b1 b2 he
        have u := (zOf_lay_bounds h hl a1 a2).2
        have v := (zOf_lay_bounds h hl' b1 b2).1
        have e1 := zOf_high h hl (le_antisymm u (by rw [he]; exact v))
        have e2 := zOf_low h hl' (le_antisymm (by rw [← he]; exact u) v)
        refine ⟨fun b hb => ?_, fun b hb => ?_⟩
        · simp at hb; subst hb; exact e1
        · simp at hb; subst hb; exact e2
  have mixed : ∀ l t, l + 1 < zs.length → t < zs.length → 
      (∀ ζ ζ', -1 ≤ ζ → ζ ≤ 1 → -1 ≤ ζ' → ζ' ≤ 1 → zOf zs (.lay l) ζ ≠ zOf zs (.lev t) ζ') ∨ ∃ G G', CellGlue zs (.lay l) (.lev t) G G' := by
    intro l t hl ht
    by_cases h1 : t = l
    · subst h1
      right
      refine ⟨[some false], [], rfl, rfl, rfl, fun _ => rfl, ?_, ?_⟩
      · intro j j' h1 _ _ h4 _
        rw [h1 false rfl, h4 rfl]; rfl
      · intro ζ ζ' _ _ _ _ he
        refine ⟨fun b hb => ?_, fun b hb => by simp at hb⟩
        simp at hb; subst hb
        exact zOf_low h hl he
    by_cases h2 : t = l + 1
    · subst h2
      right
      refine ⟨[some true], [], rfl, rfl, rfl, fun _ => rfl, ?_, ?_⟩
      · intro j j' h1 _ _ h4 _
        rw [h1 true rfl, h4 rfl]; rfl
      · intro ζ ζ' _ _ _ _ he
        refine ⟨fun b hb => ?_, fun b hb => by simp at hb⟩
        simp at hb; subst hb
        exact zOf_high h hl he
    left
    intro ζ ζ' a1 a2 b1 b2 he
    obtain ⟨u, v⟩ := zOf_lay_bounds h hl a1 a2
    change _ = zs.getD t 0 at he
    rcases Nat.lt_or_ge t l with h3 | h3
    · have := h.lt h3 (by omega); linarith
    · have := h.lt (show l + 1 < t by omega) ht; linarith
  have sw : ∀ {c c' : Cell}, ((∀ ζ ζ', -1 ≤ ζ → ζ ≤ 1 → -1 ≤ ζ' → ζ' ≤ 1 → zOf zs c ζ ≠ zOf zs c' ζ') ∨ ∃ G G', CellGlue zs c c' G G') →
      ((∀ ζ ζ', -1 ≤ ζ → ζ ≤ 1 → -1 ≤ ζ' → ζ' ≤ 1 → zOf zs c' ζ ≠ zOf zs c ζ') ∨ ∃ G G', CellGlue zs c' c G G') := by
    rintro c c' (h | ⟨G, G', h⟩)
    · exact .inl fun ζ ζ' a1 a2 b1 b2 he => h ζ' ζ b1 b2 a1 a2 he.symm
    · exact .inr ⟨G', G, h.symm⟩
  cases c with
  | lay l =>
    cases c' with
    | lay l' =>
      rcases Nat.le_total l l' with hle | hle
      · exact lays l l' hc hc' hle
      · exact sw (lays l' l hc' hc hle)
    | lev t => exact mixed l t hc hc'
  | lev t =>
    cases c' with
    | lay l => exact sw (mixed l t hc' hc)
    | lev t' =>
      by_cases ht : t = t'
      · subst ht
        right
        refine ⟨[], [], rfl, rfl, rfl, fun hn => absurd rfl hn, ?_, ?_⟩
        · intro j j' _ _ h3 h4 _
          rw [h3 rfl, h4 rfl]
        · intro ζ ζ' _ _ _ _ _
          exact ⟨fun b hb => by simp at hb, fun b hb => by simp at hb⟩
      · left
        intro ζ ζ' _ _ _ _ he
        change zs.getD t 0 = zs.getD t' 0 at he
        rcases Nat.lt_or_ge t t' with h3 | h3
        · have := h.lt h3 hc'; linarith
        · have := h.lt (show t' < t by omega) hc; linarith

/-! ## Gluing -/

theorem mem_allFacesD {d : Nat} {F : Face} : F ∈ allFacesD d ↔ F.length = d := by
  induction d generalizing F with
  | zero => simp [allFacesD]
  | succ d ih =>
    simp only [allFacesD, List.mem_flatMap, ih]
    constructor
    · rintro ⟨F', h, hF⟩
      simp only [List.mem_cons, List.not_mem_nil, or_false] at hF
      rcases hF with rfl | rfl | rfl <;> simp [h]
    · intro h
      rcases F with _ | ⟨x, F⟩
      · simp at h
      · refine ⟨F, by simpa using h, ?_⟩
        rcases x with _ | _ | _ <;> simp

theorem mem_allFaces {t : ElType} {F : Face} : F ∈ allFaces t ↔ F.length = t.dim := mem_allFacesD

theorem Cell.dim_le (c : Cell) : c.dim ≤ 1 := by cases c <;> simp [Cell.dim]

section
variable {F F' G G' : Face} {ax : Nat → Nat} {flip : Nat → Bool}

/-- The axes of the faces of prisms. -/
def ax3 (d d' : Nat) (ax : Nat → Nat) (a : Nat) : Nat := if a < d' then ax a else d

def flip3 (d' : Nat) (flip : Nat → Bool) (a : Nat) : Bool := if a < d' then flip a else false

theorem some_none_top {G : Face} {n i : Nat} (hl : G.length = n) (hn : n ≤ 1) (h : G[i]? = some none) : i = 0 ∧ G = [none] := by
  obtain ⟨hi, he⟩ := List.getElem?_eq_some_iff.1 h
  rcases G with _ | ⟨x, _ | ⟨y, G⟩⟩
  · simp at hi
  · have : i = 0 := by simp at hi; exact hi
    subst this
    simp at he
    rw [he]; exact ⟨rfl, rfl⟩
  · simp at hl; omega

theorem free_one {G G' : Face} {n : Nat} (hl : G.length = n) (hn : n ≤ 1) (hf : free G = free G') : G' = [none] → G = [none] := by
  rintro rfl
  rcases G with _ | ⟨x, _ | ⟨y, G⟩⟩
  · simp [free] at hf
  · rcases x with _ | b
    · rfl
    · simp [free] at hf
  · simp at hl; omega

theorem glue_lift (ht : t ≠ .hex) (ht' : t' ≠ .hex) (g : Glue t t' F F' ax) (hG : G.length = c.dim) (hG' : G'.length = c'.dim) (hf : free G = free G') :
    Glue (c.lift t) (c'.lift t') (F ++ G) (F' ++ G') (ax3 t.dim t'.dim ax) := by
  have hF := length_allFaces g.mem1
  have hF' := length_allFaces g.mem2
  have hc := c.dim_le
  have hc' := c'.dim_le
  have left : ∀ {a}, a < t.dim → (F ++ G)[a]? = F[a]? := fun h => List.getElem?_append_left (by omega)
  have left' : ∀ {a}, a < t'.dim → (F' ++ G')[a]? = F'[a]? := fun h => List.getElem?_append_left (by omega)
  have right : ∀ {a}, ¬ a < t.dim → (F ++ G)[a]? = G[a - t.dim]? := fun h => by rw [List.getElem?_append_right (by omega), hF]
  have right' : ∀ {a}, ¬ a < t'.dim → (F' ++ G')[a]? = G'[a - t'.dim]? := fun h => by rw [List.getElem?_append_right (by omega), hF']
  have top : ∀ {a}, ¬ a < t'.dim → (F' ++ G')[a]? = some none → a = t'.dim ∧ G = [none] := by
    intro a h h1
    rw [right' h] at h1
    obtain ⟨h2, h3⟩ := some_none_top hG' hc' h1
    exact ⟨by omega, free_one hG hc hf h3⟩
  refine ⟨mem_allFaces.2 (by rw [List.length_append, hF, hG, lift_dim ht]), mem_allFaces.2 (by rw [List.length_append, hF', hG', lift_dim ht']), ?_, ?_, ?_, ?_⟩
  · have := g.dim
    simp only [free, List.count_append] at this hf ⊢
    omega
  · intro a ha
    by_cases h : a < t'.dim
    · rw [left' h] at ha
      have := g.free_ax a ha
      rw [ax3, if_pos h, left (face_lt g.mem1 this), this]
    · obtain ⟨rfl, rfl⟩ := top h ha
      rw [ax3, if_neg h, right (lt_irrefl _), Nat.sub_self]; rfl
  · intro a b ha hb hab
    unfold ax3 at hab
    by_cases h : a < t'.dim <;> by_cases h' : b < t'.dim
    · rw [left' h] at ha
      rw [left' h'] at hb
      rw [if_pos h, if_pos h'] at hab
      exact g.inj a b ha hb hab
    · rw [left' h] at ha
      rw [if_pos h, if_neg h'] at hab
      have := face_lt g.mem1 (g.free_ax a ha)
      omega
    · rw [left' h'] at hb
      rw [if_neg h, if_pos h'] at hab
      have := face_lt g.mem1 (g.free_ax b hb)
      omega
    · rw [(top h ha).1, (top h' hb).1]
  · intro a ha
    by_cases h : a < t.dim
    · rw [left h] at ha
      obtain ⟨a', h1, h2⟩ := g.surj a ha
      have := face_lt g.mem2 h1
      exact ⟨a', by rw [left' this, h1], by rw [ax3, if_pos this, h2]⟩
    · rw [right h] at ha
      obtain ⟨h2, h3⟩ := some_none_top hG hc ha
      have h4 := free_one hG' hc' hf.symm h3
      refine ⟨t'.dim, by rw [right' (lt_irrefl _), Nat.sub_self, h4]; rfl, ?_⟩
      rw [ax3, if_neg (lt_irrefl _)]
      omega

/-- The opposite vertex: its part in the plane. -/
theorem glue_mod (g : Glue t t' F F' ax) (k : Nat) :
    glue 2 (F' ++ G') (ax3 t.dim t'.dim ax) (flip3 t'.dim flip) k % 2 ^ t'.dim = glue 2 F' ax flip (k % 2 ^ t.dim) := by
  have h3 := dim_le_three t'
  refine digits_ext (t := t') (Nat.mod_lt _ (by positivity)) (glue_lt g (by norm_num) _) fun a ha => ?_
  rw [low_digit ha, glue_digit (by norm_num) _ (by omega), glue_digit (by norm_num) _ (by omega)]
  unfold glueDigit
  rw [List.getElem?_append_left (by rw [length_allFaces g.mem2]; exact ha)]
  have hal : a < F'.length := by rw [length_allFaces g.mem2]; exact ha
  have hget := List.getElem?_eq_getElem hal
  rcases hc : F'[a] with _ | b
  · rw [hc] at hget
    have := face_lt g.mem1 (g.free_ax a hget)
    rw [hget]
    simp only [ax3, flip3, if_pos ha, low_digit this]
  · rw [hc] at hget
    rw [hget]

/-- The opposite vertex: its height. -/
theorem glue_div (ht' : t' ≠ .hex) (g : Glue t t' F F' ax) (g3 : Glue (c.lift t) (c'.lift t') (F ++ G) (F' ++ G') (ax3 t.dim t'.dim ax))
    (k : Nat) (hk : k / 2 ^ t.dim < 2) :
    (∀ b, G'[0]? = some (some b) → glue 2 (F' ++ G') (ax3 t.dim t'.dim ax) (flip3 t'.dim flip) k / 2 ^ t'.dim = if b then 1 else 0) ∧
    (G'[0]? = none → glue 2 (F' ++ G') (ax3 t.dim t'.dim ax) (flip3 t'.dim flip) k / 2 ^ t'.dim = 0) ∧
    (G'[0]? = some none → glue 2 (F' ++ G') (ax3 t.dim t'.dim ax) (flip3 t'.dim flip) k / 2 ^ t'.dim = k / 2 ^ t.dim) := by
  have hlt := glue_lt (flip := flip3 t'.dim flip) g3 (by norm_num : 1 ≤ 2) k
  rw [lift_dim ht', pow_add] at hlt
  have hlt := Nat.div_lt_of_lt_mul hlt
  have hF' := length_allFaces g.mem2
  have h2 : t'.dim < 3 := by cases t' <;> first | decide | exact absurd rfl ht'
  have hd := glue_digit (F' := F' ++ G') (ax := ax3 t.dim t'.dim ax) (flip := flip3 t'.dim flip) (by norm_num : 1 ≤ 2) k h2
  set x := glue 2 (F' ++ G') (ax3 t.dim t'.dim ax) (flip3 t'.dim flip) k / 2 ^ t'.dim with hx
  have hg : (F' ++ G')[t'.dim]? = G'[0]? := by rw [List.getElem?_append_right (by omega), hF', Nat.sub_self]
  have hx2 : x < 2 := by
    have := c'.dim_le
    rcases Nat.eq_zero_or_pos c'.dim with h0 | h0
    · rw [h0] at hlt; omega
    · rw [show c'.dim = 1 by omega] at hlt; omega
  rw [Nat.mod_eq_of_lt hx2] at hd
  refine ⟨fun b hb => ?_, fun hb => ?_, fun hb => ?_⟩
  · rw [hd, glueDigit, hg, hb]
  · rw [hd, glueDigit, hg, hb]
  · rw [hd, glueDigit, hg, hb]
    simp only [ax3, flip3, lt_irrefl, if_false, Bool.false_eq_true, Nat.mod_eq_of_lt hk]

end
end
end
end Verif.ExtGen
