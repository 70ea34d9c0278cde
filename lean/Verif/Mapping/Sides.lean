import Verif.Mapping.Props

/-!
# C70, C71: side mappings and surface measures
-/
namespace Verif.Mapping
open Verif.Basis Verif.Elem Matrix

/-! ## Lemmas: the side points in coordinates -/

theorem cos_neg_half : Real.cos (-Real.pi / 2) = 0 := by
  rw [neg_div, Real.cos_neg, Real.cos_pi_div_two]

theorem sin_neg_half : Real.sin (-Real.pi / 2) = -1 := by
  rw [neg_div, Real.sin_neg, Real.sin_pi_div_two]

theorem pad3 (u : Fin 2 → ℝ) : pad 3 u = ![u 0, u 1, 0] := by
  funext r; fin_cases r <;> simp [pad]

theorem pad2 (u : Fin 1 → ℝ) : pad 2 u = ![u 0, 0] := by
  funext r; fin_cases r <;> simp [pad]

theorem pad1 (u : Fin 0 → ℝ) : pad 1 u = ![0] := by
  funext r; fin_cases r <;> simp [pad]

/-- Coordinates of the side points of a hexahedron. -/
def hexPt (s : Nat) (a b : ℝ) : Fin 3 → ℝ :=
  match s with
  | 0 => ![a, -b, -1] | 1 => ![a, b, 1] | 2 => ![a, -1, -b] | 3 => ![a, 1, b]
  | 4 => ![-1, b, -a] | _ => ![1, b, a]

def quadPt (s : Nat) (a : ℝ) : Fin 2 → ℝ :=
  match s with
  | 0 => ![-a, -1] | 1 => ![a, 1] | 2 => ![-1, -a] | _ => ![1, a]

theorem sidePoint_hex (s : Nat) (hs : s < 6) (u : Fin 2 → ℝ) :
    sidePoint .hex s u = some (hexPt s (u 0) (u 1)) := by
  have e : ∀ (m : Matrix (Fin 3) (Fin 3) ℝ) (w : Fin 3 → ℝ), m.mulVec (pad 3 u) + w =
      ![m 0 0 * u 0 + m 0 1 * u 1 + w 0, m 1 0 * u 0 + m 1 1 * u 1 + w 1, m 2 0 * u 0 + m 2 1 * u 1 + w 2] := by
    intro m w
    rw [pad3]; funext r; fin_cases r <;> simp [mulVec, dotProduct, Fin.sum_univ_three]
  have f : ∀ (m : Matrix (Fin 3) (Fin 3) ℝ) (w v : Fin 3 → ℝ),
      ![m 0 0 * u 0 + m 0 1 * u 1 + w 0, m 1 0 * u 0 + m 1 1 * u 1 + w 1, m 2 0 * u 0 + m 2 1 * u 1 + w 2] = v →
      m.mulVec (pad 3 u) + w = v := fun m w v h => (e m w).trans h
  interval_cases s <;> refine congrArg some (f _ _ _ ?_) <;> funext r <;> fin_cases r <;>
    simp [hexPt, rotX, rotY, cos_neg_half, sin_neg_half]

theorem sidePoint_quad (s : Nat) (hs : s < 4) (u : Fin 1 → ℝ) :
    sidePoint .quad s u = some (quadPt s (u 0)) := by
  have e : ∀ (m : Matrix (Fin 2) (Fin 2) ℝ) (w : Fin 2 → ℝ), m.mulVec (pad 2 u) + w =
      ![m 0 0 * u 0 + w 0, m 1 0 * u 0 + w 1] := by
    intro m w
    rw [pad2]; funext r; fin_cases r <;> simp [mulVec, dotProduct, Fin.sum_univ_two]
  have f : ∀ (m : Matrix (Fin 2) (Fin 2) ℝ) (w v : Fin 2 → ℝ),
      ![m 0 0 * u 0 + w 0, m 1 0 * u 0 + w 1] = v →
      m.mulVec (pad 2 u) + w = v := fun m w v h => (e m w).trans h
  interval_cases s <;> refine congrArg some (f _ _ _ ?_) <;> funext r <;> fin_cases r <;>
    simp [quadPt, rot2, cos_neg_half, sin_neg_half]

theorem sidePoint_line (s : Nat) (hs : s < 2) (u : Fin 0 → ℝ) :
    sidePoint .line s u = some ![sgn s] := by
  have e : ∀ (m : Matrix (Fin 1) (Fin 1) ℝ) (w : Fin 1 → ℝ), m.mulVec (pad 1 u) + w = w := by
    intro m w
    rw [pad1]; funext r; fin_cases r; simp [mulVec, dotProduct]
  interval_cases s <;> refine congrArg some ((e _ _).trans ?_) <;> simp [sgn]

/-- The reference element and its sides. -/
def InElem (t : ElType) (p : Fin t.dim → ℝ) : Prop := ∀ r, -1 ≤ p r ∧ p r ≤ 1

def InRef (d : Nat) (u : Fin d → ℝ) : Prop := ∀ r, -1 ≤ u r ∧ u r ≤ 1

/-- Squared distance. -/
def dist2 {d : Nat} (p q : Fin d → ℝ) : ℝ := (p - q) ⬝ᵥ (p - q)

/-! ## C70 -/

/-- **C70** (position): every reference boundary point inside `[-1, 1]^(d-1)` is carried to a point of the
reference element whose fixed coordinate is -1 or +1 as in the side tables; outside points too lie in the
plane of the side.  Distances are preserved, hence the map is injective and preserves lengths and areas. -/
theorem C70_side_point (t : ElType) (s : Nat) (hs : s < nSides t) (u v : Fin (t.dim - 1) → ℝ) :
    ∃ p q, sidePoint t s u = some p ∧ sidePoint t s v = some q ∧
      p (axis t s) = sgn s ∧ (InRef _ u → InElem t p) ∧ dist2 p q = dist2 u v := by
  cases t with
  | line =>
    have hs2 : s < 2 := by simpa [nSides, table, lineTable] using hs
    refine ⟨_, _, sidePoint_line s hs2 u, sidePoint_line s hs2 v, ?_, ?_, ?_⟩
    · have : axis .line s = (0 : Fin 1) := Subsingleton.elim (α := Fin 1) _ _
      rw [this]; rfl
    · intro _ r
      have : r = (0 : Fin 1) := Subsingleton.elim (α := Fin 1) _ _
      rw [this]
      change -1 ≤ sgn s ∧ sgn s ≤ 1
      unfold sgn; split <;> norm_num
    · change dist2 (![sgn s] : Fin 1 → ℝ) ![sgn s] = dist2 (show Fin 0 → ℝ from u) v
      simp [dist2]
  | quad =>
    have hs4 : s < 4 := by simpa [nSides, table, quadTable] using hs
    change Fin 1 → ℝ at u v
    refine ⟨_, _, sidePoint_quad s hs4 u, sidePoint_quad s hs4 v, ?_, ?_, ?_⟩
    · interval_cases s <;> simp [axis, sideAxis, ElType.dim, quadPt, sgn]
    · intro h r
      have h0 : -1 ≤ u 0 ∧ u 0 ≤ 1 := h (0 : Fin 1)
      change Fin 2 at r
      interval_cases s <;> fin_cases r <;> simp [quadPt] <;> constructor <;> linarith [h0.1, h0.2]
    · change dist2 (quadPt s (u 0)) (quadPt s (v 0)) = dist2 (show Fin 1 → ℝ from u) v
      interval_cases s <;> simp [dist2, quadPt, dotProduct, Fin.sum_univ_two] <;> ring
  | hex =>
    have hs6 : s < 6 := by simpa [nSides, table, hexTable] using hs
    change Fin 2 → ℝ at u v
    refine ⟨_, _, sidePoint_hex s hs6 u, sidePoint_hex s hs6 v, ?_, ?_, ?_⟩
    · interval_cases s <;> simp [axis, sideAxis, ElType.dim, hexPt, sgn]
    · intro h r
      have h0 : -1 ≤ u 0 ∧ u 0 ≤ 1 := h (0 : Fin 2)
      have h1 : -1 ≤ u 1 ∧ u 1 ≤ 1 := h (1 : Fin 2)
      change Fin 3 at r
      interval_cases s <;> fin_cases r <;> simp [hexPt] <;> constructor <;>
        linarith [h0.1, h0.2, h1.1, h1.2]
    · change dist2 (hexPt s (u 0) (u 1)) (hexPt s (v 0) (v 1)) = dist2 (show Fin 2 → ℝ from u) v
      interval_cases s <;> simp [dist2, hexPt, dotProduct, Fin.sum_univ_three, Fin.sum_univ_two] <;> ring

theorem dist2_zero {d : Nat} (p q : Fin d → ℝ) : dist2 p q = 0 ↔ p = q := by
  rw [dist2, dotProduct_self_eq_zero, sub_eq_zero]

/-- **C70** (injective and onto): every point of the side comes from exactly one reference boundary point. -/
theorem C70_bijective (t : ElType) (s : Nat) (hs : s < nSides t) (p : Fin t.dim → ℝ) (hp : InElem t p)
    (hside : p (axis t s) = sgn s) : ∃! u, InRef _ u ∧ sidePoint t s u = some p := by
  have huniq : ∀ u v, sidePoint t s u = some p → sidePoint t s v = some p → u = v := by
    intro u v hu hv
    obtain ⟨a, b, ha, hb, _, _, hd⟩ := C70_side_point t s hs u v
    rw [hu] at ha; rw [hv] at hb
    cases ha; cases hb
    rw [(dist2_zero p p).2 rfl] at hd
    exact (dist2_zero u v).1 hd.symm
  suffices h : ∃ u, InRef _ u ∧ sidePoint t s u = some p by
    obtain ⟨u, h1, h2⟩ := h
    exact ⟨u, ⟨h1, h2⟩, fun v hv => huniq v u hv.2 h2⟩
  cases t with
  | line =>
    have hs2 : s < 2 := by simpa [nSides, table, lineTable] using hs
    refine ⟨fun _ => 0, fun r => by constructor <;> norm_num, (sidePoint_line s hs2 _).trans ?_⟩
    congr 1
    funext r
    have : r = axis .line s := Subsingleton.elim (α := Fin 1) _ _
    rw [this, hside]
    have : axis .line s = (0 : Fin 1) := Subsingleton.elim (α := Fin 1) _ _
    rw [this]; rfl
  | quad =>
    have hs4 : s < 4 := by simpa [nSides, table, quadTable] using hs
    change Fin 2 → ℝ at p
    have h0 : -1 ≤ p 0 ∧ p 0 ≤ 1 := hp (0 : Fin 2)
    have h1 : -1 ≤ p 1 ∧ p 1 ≤ 1 := hp (1 : Fin 2)
    have fin : ∀ a : ℝ, (-1 ≤ a ∧ a ≤ 1) → quadPt s a = p → ∃ u, InRef _ u ∧ sidePoint .quad s u = some p :=
      fun a ha he => ⟨fun _ => a, fun _ => ha, (sidePoint_quad s hs4 fun _ => a).trans (congrArg some he)⟩
    interval_cases s
    · change p 1 = _ at hside
      refine fin (-p 0) ⟨by linarith [h0.2], by linarith [h0.1]⟩ ?_
      funext r; fin_cases r <;> simp [quadPt, hside, sgn]
    · change p 1 = _ at hside
      refine fin (p 0) h0 ?_
      funext r; fin_cases r <;> simp [quadPt, hside, sgn]
    · change p 0 = _ at hside
      refine fin (-p 1) ⟨by linarith [h1.2], by linarith [h1.1]⟩ ?_
      funext r; fin_cases r <;> simp [quadPt, hside, sgn]
    · change p 0 = _ at hside
      refine fin (p 1) h1 ?_
      funext r; fin_cases r <;> simp [quadPt, hside, sgn]
  | hex =>
    have hs6 : s < 6 := by simpa [nSides, table, hexTable] using hs
    change Fin 3 → ℝ at p
    have h0 : -1 ≤ p 0 ∧ p 0 ≤ 1 := hp (0 : Fin 3)
    have h1 : -1 ≤ p 1 ∧ p 1 ≤ 1 := hp (1 : Fin 3)
    have h2 : -1 ≤ p 2 ∧ p 2 ≤ 1 := hp (2 : Fin 3)
    have n0 : -1 ≤ -p 0 ∧ -p 0 ≤ 1 := ⟨by linarith [h0.2], by linarith [h0.1]⟩
    have n1 : -1 ≤ -p 1 ∧ -p 1 ≤ 1 := ⟨by linarith [h1.2], by linarith [h1.1]⟩
    have n2 : -1 ≤ -p 2 ∧ -p 2 ≤ 1 := ⟨by linarith [h2.2], by linarith [h2.1]⟩
    have fin : ∀ a b : ℝ, (-1 ≤ a ∧ a ≤ 1) → (-1 ≤ b ∧ b ≤ 1) → hexPt s a b = p →
        ∃ u, InRef _ u ∧ sidePoint .hex s u = some p := by
      intro a b ha hb he
      refine ⟨(![a, b] : Fin 2 → ℝ), ?_, (sidePoint_hex s hs6 ![a, b]).trans (congrArg some he)⟩
      intro r
      change Fin 2 at r
      fin_cases r
      · exact ha
      · exact hb
    interval_cases s
    · change p 2 = _ at hside
      refine fin (p 0) (-p 1) h0 n1 ?_
      funext r; fin_cases r <;> simp [hexPt, hside, sgn]
    · change p 2 = _ at hside
      refine fin (p 0) (p 1) h0 h1 ?_
      funext r; fin_cases r <;> simp [hexPt, hside, sgn]
    · change p 1 = _ at hside
      refine fin (p 0) (-p 2) h0 n2 ?_
      funext r; fin_cases r <;> simp [hexPt, hside, sgn]
    · change p 1 = _ at hside
      refine fin (p 0) (p 2) h0 h2 ?_
      funext r; fin_cases r <;> simp [hexPt, hside, sgn]
    · change p 0 = _ at hside
      refine fin (-p 2) (p 1) n2 h1 ?_
      funext r; fin_cases r <;> simp [hexPt, hside, sgn]
    · change p 0 = _ at hside
      refine fin (p 2) (p 1) h2 h1 ?_
      funext r; fin_cases r <;> simp [hexPt, hside, sgn]

/-- The centre of side 4 of a hexahedron. -/
example : sidePoint .hex 4 (![0, 0] : Fin 2 → ℝ) = some (![-1, 0, 0] : Fin 3 → ℝ) :=
  (sidePoint_hex 4 (by norm_num) _).trans (by simp [hexPt]; rfl)

/-! ## C71 -/

/-- The measure of the box spanned by the side's tangents: length of the one tangent in 2D, area of the
parallelogram in 3D (Gram determinant), 1 for a point. -/
noncomputable def sideMeasure (t : ElType) (s : Nat) : Matrix (Fin t.dim) (Fin t.dim) ℝ → ℝ :=
  match t with
  | .line => fun _ => 1
  | .quad => fun J =>
    let a : Fin 2 → ℝ := J (if s < 2 then (0 : Fin 2) else (1 : Fin 2))
    Real.sqrt (a ⬝ᵥ a)
  | .hex => fun J =>
    let a : Fin 3 → ℝ := J (if s < 4 then (0 : Fin 3) else (1 : Fin 3))
    let b : Fin 3 → ℝ := J (if s < 2 then (1 : Fin 3) else (2 : Fin 3))
    Real.sqrt ((a ⬝ᵥ a) * (b ⬝ᵥ b) - (a ⬝ᵥ b) * (a ⬝ᵥ b))

/-- The full claim. -/
def C71Statement : Prop :=
  ∀ (t : ElType) (s : Nat), s < nSides t → ∀ J : Matrix (Fin t.dim) (Fin t.dim) ℝ,
    boundaryJacobian t s J = some (sideMeasure t s J)

/-- **C71**, quadrilaterals and hexahedra: the surface Jacobian is the measure spanned by the tangents. -/
theorem C71_partial (t : ElType) (ht : t ≠ .line) (s : Nat) (hs : s < nSides t)
    (J : Matrix (Fin t.dim) (Fin t.dim) ℝ) : boundaryJacobian t s J = some (sideMeasure t s J) := by
  cases t with
  | line => exact absurd rfl ht
  | quad =>
    have hs4 : s < 4 := by simpa [nSides, table, quadTable] using hs
    change Matrix (Fin 2) (Fin 2) ℝ at J
    have e : ∀ m : Matrix (Fin 2) (Fin 2) ℝ, (Jᵀ.mulVec fun r => m r 0) =
        ![J 0 0 * m 0 0 + J 1 0 * m 1 0, J 0 1 * m 0 0 + J 1 1 * m 1 0] := by
      intro m; funext r; fin_cases r <;> simp [mulVec, dotProduct, Fin.sum_univ_two]
    have f : ∀ (m : Matrix (Fin 2) (Fin 2) ℝ) (a : Fin 2 → ℝ),
        (![J 0 0 * m 0 0 + J 1 0 * m 1 0, J 0 1 * m 0 0 + J 1 1 * m 1 0] : Fin 2 → ℝ) ⬝ᵥ
          ![J 0 0 * m 0 0 + J 1 0 * m 1 0, J 0 1 * m 0 0 + J 1 1 * m 1 0] = a ⬝ᵥ a →
        norm (d := 2) (Jᵀ.mulVec fun r => m r 0) = Real.sqrt (a ⬝ᵥ a) := by
      intro m a h; rw [norm, e m, h]
    interval_cases s <;> refine congrArg some (f _ _ ?_) <;>
      simp [rot2, cos_neg_half, sin_neg_half, dotProduct, Fin.sum_univ_two]
  | hex =>
    have hs6 : s < 6 := by simpa [nSides, table, hexTable] using hs
    change Matrix (Fin 3) (Fin 3) ℝ at J
    have e : ∀ (m : Matrix (Fin 3) (Fin 3) ℝ) (c : Fin 3), (Jᵀ.mulVec fun r => m r c) =
        ![J 0 0 * m 0 c + J 1 0 * m 1 c + J 2 0 * m 2 c, J 0 1 * m 0 c + J 1 1 * m 1 c + J 2 1 * m 2 c,
          J 0 2 * m 0 c + J 1 2 * m 1 c + J 2 2 * m 2 c] := by
      intro m c; funext r; fin_cases r <;> simp [mulVec, dotProduct, Fin.sum_univ_three]
    have f : ∀ (m : Matrix (Fin 3) (Fin 3) ℝ) (x y a b : Fin 3 → ℝ),
        (Jᵀ.mulVec fun r => m r 0) = x → (Jᵀ.mulVec fun r => m r 1) = y →
        (x ⬝ᵥ x) * (y ⬝ᵥ y) - (x ⬝ᵥ y) * (y ⬝ᵥ x) = (a ⬝ᵥ a) * (b ⬝ᵥ b) - (a ⬝ᵥ b) * (a ⬝ᵥ b) →
        norm ((Jᵀ.mulVec fun r => m r 0) ⨯₃ (Jᵀ.mulVec fun r => m r 1)) =
          Real.sqrt ((a ⬝ᵥ a) * (b ⬝ᵥ b) - (a ⬝ᵥ b) * (a ⬝ᵥ b)) := by
      intro m x y a b hx hy h
      rw [norm, cross_dot_cross, hx, hy, h]
    interval_cases s <;> refine congrArg some (f _ _ _ _ _ (e _ _) (e _ _) ?_) <;>
      simp [rotX, rotY, cos_neg_half, sin_neg_half, dotProduct, Fin.sum_univ_three] <;>
      first | ring1 | exact Or.inl (by ring)

/-- **C71 is violated** for lines: the surface Jacobian of an end point is 0, so every boundary integral
over the end points of a one-dimensional mesh vanishes. -/
theorem C71_violated : ¬ C71Statement := by
  intro h
  have := h .line 0 (by simp [nSides, table, lineTable]) (1 : Matrix (Fin 1) (Fin 1) ℝ)
  have : (some 0 : Option ℝ) = some 1 := this
  simp at this

/-- The value for every line element, side and Jacobi matrix. -/
theorem C71_line_zero (s : Nat) (J : Matrix (Fin (ElType.dim .line)) (Fin (ElType.dim .line)) ℝ) :
    boundaryJacobian .line s J = some 0 := rfl

/-- The measure is positive whenever the element is not degenerate, so a boundary integral of a positive
function is positive. -/
theorem C71_positive (t : ElType) (ht : t ≠ .line) (s : Nat) (hs : s < nSides t)
    (J : Matrix (Fin t.dim) (Fin t.dim) ℝ) (hdet : 0 < J.det) :
    ∃ m, boundaryJacobian t s J = some m ∧ 0 < m := by
  obtain ⟨v, hv, h1, h2, h3⟩ := C69_normal t s hs J hdet
  refine ⟨_, C71_partial t ht s hs J, ?_⟩
  cases t with
  | line => exact absurd rfl ht
  | quad =>
    change Matrix (Fin 2) (Fin 2) ℝ at J
    have hJ : J.det = J 0 0 * J 1 1 - J 0 1 * J 1 0 := Matrix.det_fin_two J
    have hd : 0 < J.det := hdet
    apply Real.sqrt_pos.2
    change 0 < J (if s < 2 then 0 else 1) ⬝ᵥ J (if s < 2 then 0 else 1)
    by_cases h : s < 2
    · rw [if_pos h]
      simp only [dotProduct, Fin.sum_univ_two]
      by_contra hn
      have : J 0 0 = 0 ∧ J 0 1 = 0 := ⟨by nlinarith [mul_self_nonneg (J 0 0), mul_self_nonneg (J 0 1)],
        by nlinarith [mul_self_nonneg (J 0 0), mul_self_nonneg (J 0 1)]⟩
      rw [hJ, this.1, this.2] at hd; simp at hd
    · rw [if_neg h]
      simp only [dotProduct, Fin.sum_univ_two]
      by_contra hn
      have : J 1 0 = 0 ∧ J 1 1 = 0 := ⟨by nlinarith [mul_self_nonneg (J 1 0), mul_self_nonneg (J 1 1)],
        by nlinarith [mul_self_nonneg (J 1 0), mul_self_nonneg (J 1 1)]⟩
      rw [hJ, this.1, this.2] at hd; simp at hd
  | hex =>
    change Matrix (Fin 3) (Fin 3) ℝ at J
    apply Real.sqrt_pos.2
    have key : ∀ a b c : Fin 3 → ℝ, c ⬝ᵥ (a ⨯₃ b) ≠ 0 → 0 < (a ⬝ᵥ a) * (b ⬝ᵥ b) - (a ⬝ᵥ b) * (a ⬝ᵥ b) := by
      intro a b c hc
      have e := cross_dot_cross a b a b
      rw [dotProduct_comm b a] at e
      rw [← e]
      have hn : a ⨯₃ b ≠ 0 := by intro h; rw [h, dotProduct_zero] at hc; exact hc rfl
      rcases (normalize_spec.dotProduct_self_nonneg (a ⨯₃ b)).lt_or_eq with h | h
      · exact h
      · exact absurd (dotProduct_self_eq_zero.1 h.symm) hn
    have hd : 0 < J.det := hdet
    rw [Matrix.det_fin_three] at hd
    change 0 < (J (if s < 4 then 0 else 1) ⬝ᵥ J (if s < 4 then 0 else 1)) *
      (J (if s < 2 then 1 else 2) ⬝ᵥ J (if s < 2 then 1 else 2)) -
      (J (if s < 4 then 0 else 1) ⬝ᵥ J (if s < 2 then 1 else 2)) *
      (J (if s < 4 then 0 else 1) ⬝ᵥ J (if s < 2 then 1 else 2))
    by_cases h4 : s < 4
    · by_cases hs2 : s < 2
      · rw [if_pos h4, if_pos hs2]
        refine key _ _ (J 2) ?_
        simp only [dotProduct, cross_apply, Fin.sum_univ_three]; simp; intro h; linarith
      · rw [if_pos h4, if_neg hs2]
        refine key _ _ (J 1) ?_
        simp only [dotProduct, cross_apply, Fin.sum_univ_three]; simp; intro h; linarith
    · rw [if_neg h4, if_neg (by omega)]
      refine key _ _ (J 0) ?_
      simp only [dotProduct, cross_apply, Fin.sum_univ_three]; simp; intro h; linarith

end Verif.Mapping
