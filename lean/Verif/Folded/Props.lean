import Verif.Patch.Points
import Verif.Mapping.Box

/-!
# Which elements domain kernels refuse

Uses the model of `assembleLocalSystem` (area Patch; AssembleLocalSystem.hpp 234-256, the check is in line 249; the same check is in EvaluateLocalOperator.hpp 229 and 295).
-/
namespace Verif.Folded
open Verif.Elem Verif.Mapping Verif.Quad Verif.Patch

noncomputable section

variable {t : ElType}

/-- The kernel is a domain kernel, and the element is taken: no exception is thrown for it. -/
def Taken (e : PElem t) : Prop := e.side = none ∧ ∃ L, e.toL = some L

/-- The element is not turned inside out, nor flat, anywhere. -/
def Sound (t : ElType) (vert : Nat → Nat → ℝ) : Prop := ∀ p : Nat → ℝ, (∀ k, -1 ≤ p k ∧ p k ≤ 1) → 0 < (jacobiMat t vert p).det

/-- The mirror image. -/
def mirror (vert : Nat → Nat → ℝ) : Nat → Nat → ℝ := fun i k => if k = 0 then -vert i k else vert i k

theorem mapM_some_iff {α β : Type} {f : α → Option β} : ∀ {l : List α}, (∃ r, l.mapM f = some r) ↔ ∀ a ∈ l, ∃ b, f a = some b
  | [] => by simp
  | a :: l => by
    rw [List.mapM_cons]
    constructor
    · rintro ⟨r, hr⟩ b hb
      cases ha : f a with
      | none => rw [ha] at hr; cases hr
      | some y =>
        rw [ha] at hr
        cases hl : l.mapM f with
        | none => rw [hl] at hr; cases hr
        | some ys =>
          rcases List.mem_cons.1 hb with rfl | hb
          · exact ⟨y, ha⟩
          · exact mapM_some_iff.1 ⟨ys, hl⟩ b hb
    · intro h
      obtain ⟨y, hy⟩ := h a List.mem_cons_self
      obtain ⟨ys, hys⟩ := mapM_some_iff.2 fun b hb => h b (List.mem_cons_of_mem a hb)
      exact ⟨y :: ys, by rw [hy, hys]; rfl⟩

/-- An element is taken exactly if its jacobian is positive at the points of the rule. -/
theorem taken_iff (e : PElem t) : Taken e ↔ e.side = none ∧ ∀ pw ∈ AsmOrd.elemRule t e.rule, 0 < (jacobiMat t e.vert pw.1).det := by
  unfold Taken
  refine and_congr_right fun hs => ?_
  have h1 : (∃ L, e.toL = some L) ↔ ∃ pts, (AsmOrd.elemRule t e.rule).mapM e.domainPt = some pts := by
    unfold PElem.toL PElem.pts
    rw [hs]
    constructor
    · rintro ⟨L, hL⟩
      obtain ⟨pts, hp, _⟩ := Option.map_eq_some_iff.1 hL
      exact ⟨pts, hp⟩
    · rintro ⟨pts, hp⟩
      exact ⟨_, Option.map_eq_some_iff.2 ⟨pts, hp, rfl⟩⟩
  rw [h1, mapM_some_iff]
  refine forall₂_congr fun pw _ => ?_
  unfold PElem.domainPt
  split
  · rename_i h
    exact ⟨fun _ => h, fun _ => ⟨_, rfl⟩⟩
  · rename_i h
    exact ⟨fun ⟨_, hb⟩ => by simp at hb, fun h' => absurd h' h⟩

/-! ### The jacobian of a quadrilateral -/

/-- `(b - a) × (d - c)` for the vertices with these numbers. -/
def cross (v : Nat → Nat → ℝ) (a b c d : Nat) : ℝ := (v b 0 - v a 0) * (v d 1 - v c 1) - (v b 1 - v a 1) * (v d 0 - v c 0)

/-- The area of a quadrilateral by its diagonals, positive if its vertices are in the right order. -/
def area (v : Nat → Nat → ℝ) : ℝ := (cross v 0 3 1 2) / 2

theorem quad_det (v : Nat → Nat → ℝ) (p : Nat → ℝ) : (jacobiMat .quad v p).det =
    ((1 - p 1) * (1 - p 0) * cross v 0 1 0 2 + (1 - p 1) * (1 + p 0) * cross v 0 1 1 3 + (1 + p 1) * (1 - p 0) * cross v 2 3 0 2 + (1 + p 1) * (1 + p 0) * cross v 2 3 1 3) / 16 := by
  obtain ⟨M, hM⟩ : ∃ M : Matrix (Fin 2) (Fin 2) ℝ, M = jacobiMat .quad v p := ⟨_, rfl⟩
  have e0 : ∀ k : Fin 2, M 0 k = ((1 - p 1) * (v 1 k - v 0 k) + (1 + p 1) * (v 3 k - v 2 k)) / 4 := by
    intro k
    rw [hM]
    simp [jacobiMat, shapeDer, basisDer, Basis.quadDerXi, nVerts, List.range_succ, line_two_zero, line_two_one, lineDer_two_zero, lineDer_two_one]
    ring
  have e1 : ∀ k : Fin 2, M 1 k = ((1 - p 0) * (v 2 k - v 0 k) + (1 + p 0) * (v 3 k - v 1 k)) / 4 := by
    intro k
    rw [hM]
    simp [jacobiMat, shapeDer, basisDer, Basis.quadDerEta, nVerts, List.range_succ, line_two_zero, line_two_one, lineDer_two_zero, lineDer_two_one]
    ring
  have hd : (jacobiMat .quad v p).det = M.det := by rw [hM]; rfl
  rw [hd, Matrix.det_fin_two, e0, e0, e1, e1]
  unfold cross
  simp
  ring

/-- The jacobian is linear: the area over four in the middle, and two slopes. -/
theorem quad_linear (v : Nat → Nat → ℝ) : ∃ b c, ∀ p : Nat → ℝ, (jacobiMat .quad v p).det = area v / 4 + b * p 0 + c * p 1 := by
  refine ⟨(-cross v 0 1 0 2 + cross v 0 1 1 3 - cross v 2 3 0 2 + cross v 2 3 1 3) / 16, (-cross v 0 1 0 2 - cross v 0 1 1 3 + cross v 2 3 0 2 + cross v 2 3 1 3) / 16, fun p => ?_⟩
  rw [quad_det]
  unfold area cross
  ring

/-- The corner of the reference square with the given signs. -/
def corner (a b : Bool) : Nat → ℝ := fun k => if k = 0 then (if a then 1 else -1) else if b then 1 else -1

theorem mem_rule {r : Rule1} {pw : (Nat → ℝ) × ℝ} : pw ∈ AsmOrd.elemRule .quad r ↔ ∃ a ∈ r, ∃ b ∈ r, pw = (SumOp.coords2 (a.1, b.1), a.2 * b.2) := by
  unfold AsmOrd.elemRule quadRule
  simp only [List.mem_map, List.mem_flatMap]
  constructor
  · rintro ⟨_, ⟨a, ha, b, hb, rfl⟩, rfl⟩
    exact ⟨a, ha, b, hb, rfl⟩
  · rintro ⟨a, ha, b, hb, rfl⟩
    exact ⟨_, ⟨a, ha, b, hb, rfl⟩, rfl⟩

theorem affine_between {A B C x0 x1 y0 y1 x y : ℝ} (h00 : 0 < A + B * x0 + C * y0) (h01 : 0 < A + B * x0 + C * y1) (h10 : 0 < A + B * x1 + C * y0) (h11 : 0 < A + B * x1 + C * y1)
    (hx0 : x0 ≤ x) (hx1 : x ≤ x1) (hy0 : y0 ≤ y) (hy1 : y ≤ y1) : 0 < A + B * x + C * y := by
  rcases le_total 0 B with hB | hB <;> rcases le_total 0 C with hC | hC <;> nlinarith

/-- **C137** (corners).  A quadrilateral with positive jacobian at its four corners is not folded anywhere, and it is taken whatever the order of the rule and the kernel. -/
theorem C137_corners {v : Nat → Nat → ℝ} (h : ∀ a b, 0 < (jacobiMat .quad v (corner a b)).det) : Sound .quad v ∧
    ∀ (e : PElem .quad) qo, e.vert = v → e.side = none → IsReferenceRule qo e.rule → Taken e := by
  have hs : Sound .quad v := by
    obtain ⟨b, c, hl⟩ := quad_linear v
    intro p hp
    have h00 := h false false
    have h01 := h false true
    have h10 := h true false
    have h11 := h true true
    rw [hl] at h00 h01 h10 h11 ⊢
    simp only [corner, Bool.false_eq_true, if_true, if_false, one_ne_zero] at h00 h01 h10 h11
    exact affine_between h00 h01 h10 h11 (hp 0).1 (hp 0).2 (hp 1).1 (hp 1).2
  refine ⟨hs, fun e qo hv hsd hr => (taken_iff e).2 ⟨hsd, fun pw hpw => ?_⟩⟩
  obtain ⟨a, ha, b, hb, rfl⟩ := mem_rule.1 hpw
  have hp := (C66_points qo _ hr).2.1
  rw [hv]
  refine hs _ fun k => ?_
  change -1 ≤ (if k = 0 then a.1 else b.1) ∧ (if k = 0 then a.1 else b.1) ≤ 1
  split
  · exact ⟨(hp a ha).1.le, (hp a ha).2.1.le⟩
  · exact ⟨(hp b hb).1.le, (hp b hb).2.1.le⟩

theorem rule_ne {qo : Nat} {r : Rule1} (hr : IsReferenceRule qo r) : ∃ a, a ∈ r := by
  have := (C66_points qo r hr).2.2
  cases r with
  | nil => simp at this
  | cons a r => exact ⟨a, List.mem_cons_self⟩

theorem elemRule_ne {qo : Nat} {r : Rule1} (hr : IsReferenceRule qo r) : ∃ pw, pw ∈ AsmOrd.elemRule t r := by
  obtain ⟨a, ha⟩ := rule_ne hr
  cases t with
  | line => exact ⟨_, List.mem_map.2 ⟨a, ha, rfl⟩⟩
  | quad => exact ⟨_, mem_rule.2 ⟨a, ha, a, ha, rfl⟩⟩
  | hex =>
    exact ⟨_, List.mem_map.2 ⟨((a.1, a.1, a.1), a.2 * a.2 * a.2), List.mem_flatMap.2 ⟨a, ha, List.mem_flatMap.2 ⟨a, ha, List.mem_map.2 ⟨a, ha, rfl⟩⟩⟩, rfl⟩⟩

theorem mirror_det (t : ElType) (v : Nat → Nat → ℝ) (p : Nat → ℝ) : (jacobiMat t (mirror v) p).det = -(jacobiMat t v p).det := by
  have hd : 0 < t.dim := by cases t <;> decide
  have h : jacobiMat t (mirror v) p = (jacobiMat t v p).updateCol ⟨0, hd⟩ ((-1 : ℝ) • fun a => jacobiMat t v p a ⟨0, hd⟩) := by
    ext a k
    rw [Matrix.updateCol_apply, jacobiMat_eq]
    unfold mirror
    by_cases hk : k = ⟨0, hd⟩
    · subst hk
      simp [jacobiMat_eq]
    · rw [if_neg hk, jacobiMat_eq]
      have : (k : Nat) ≠ 0 := fun h => hk (Fin.ext h)
      simp [this]
  rw [h, Matrix.det_updateCol_smul, Matrix.updateCol_eq_self]
  simp

/-- **C137** (mirrored elements).  For every type of element, if one is taken then its mirror image is refused: vertices in the wrong order are always noticed. -/
theorem C137_mirror {e e' : PElem t} {qo : Nat} (hr : IsReferenceRule qo e.rule) (h : Taken e) (hrule : e'.rule = e.rule) (hv : e'.vert = mirror e.vert) : ¬ Taken e' := by
  intro h'
  obtain ⟨pw, hpw⟩ := elemRule_ne (t := t) hr
  have h1 := ((taken_iff e).1 h).2 pw hpw
  have h2 := ((taken_iff e').1 h').2 pw (by rw [hrule]; exact hpw)
  rw [hv, mirror_det] at h2
  linarith

theorem sum_pos_list {l : List ℝ} (hne : l ≠ []) (h : ∀ x ∈ l, 0 < x) : 0 < l.sum := by
  induction l with
  | nil => exact absurd rfl hne
  | cons a l ih =>
    rw [List.sum_cons]
    by_cases hl : l = []
    · subst hl; simpa using h a List.mem_cons_self
    · have := h a List.mem_cons_self
      have := ih hl fun x hx => h x (List.mem_cons_of_mem _ hx)
      linarith

/-- The rule has points on both sides of the middle. -/
theorem rule_sides {qo : Nat} {r : Rule1} (hr : IsReferenceRule qo r) : (∃ a ∈ r, a.1 ≤ 0) ∧ ∃ a ∈ r, 0 ≤ a.1 := by
  have hp := (C66_points qo r hr).2.1
  obtain ⟨a0, ha0⟩ := rule_ne hr
  have hz : (r.map fun pw => pw.1 * pw.2).sum = 0 := by
    have h : evalQuadrature (Poly.evaluate [1, 0]) r = ∫ x in (-1 : ℝ)..1, Poly.evaluate [1, 0] x := by
      cases qo with
      | zero => exact (C66_line 1 r hr [1, 0] (by simp)).2
      | succ q => exact (C66_line (q + 1) r hr [1, 0] (by simp)).2
    rw [evalQuadrature_eq] at h
    have e : ∀ x : ℝ, Poly.evaluate [1, 0] x = x := fun x => by simp [Poly.evaluate]
    simp only [e] at h
    rw [h]
    simp
  have hne : (r.map fun pw => pw.1 * pw.2) ≠ [] := by
    intro h
    rw [List.map_eq_nil_iff.1 h] at ha0
    cases ha0
  constructor
  · by_contra hcon
    push Not at hcon
    refine absurd hz (sum_pos_list hne fun x hx => ?_).ne'
    obtain ⟨a, ha, rfl⟩ := List.mem_map.1 hx
    exact mul_pos (hcon a ha) (hp a ha).2.2.1
  · by_contra hcon
    push Not at hcon
    have : 0 < ((r.map fun pw => pw.1 * pw.2).map fun x => -x).sum := by
      refine sum_pos_list (by simpa using hne) fun x hx => ?_
      obtain ⟨y, hy, rfl⟩ := List.mem_map.1 hx
      obtain ⟨a, ha, rfl⟩ := List.mem_map.1 hy
      have := mul_pos (neg_pos.2 (hcon a ha)) (hp a ha).2.2.1
      linarith
    have hneg : ∀ l : List ℝ, (l.map fun x => -x).sum = -l.sum := by
      intro l
      induction l with
      | nil => simp
      | cons a l ih => rw [List.map_cons, List.sum_cons, ih, List.sum_cons]; ring
    rw [hneg, hz] at this
    simp at this

/-- **C137** in full: what is taken is not folded anywhere. -/
def C137Statement : Prop := ∀ (t : ElType) (e : PElem t) (qo : Nat), IsReferenceRule qo e.rule → Taken e → Sound t e.vert

/-- **C137** between the points: a quadrilateral which is taken is not folded in the rectangle spanned by the points of the rule, and its area is positive. -/
theorem C137_between_partial {e : PElem .quad} {qo : Nat} (hr : IsReferenceRule qo e.rule) (h : Taken e) :
    (∀ p : Nat → ℝ, (∀ k, ∃ a ∈ e.rule, ∃ b ∈ e.rule, a.1 ≤ p k ∧ p k ≤ b.1) → 0 < (jacobiMat .quad e.vert p).det) ∧ 0 < area e.vert := by
  obtain ⟨B, C, hl⟩ := quad_linear e.vert
  have hpt : ∀ a ∈ e.rule, ∀ b ∈ e.rule, 0 < area e.vert / 4 + B * a.1 + C * b.1 := by
    intro a ha b hb
    have := ((taken_iff e).1 h).2 _ (mem_rule.2 ⟨a, ha, b, hb, rfl⟩)
    rw [hl] at this
    simpa [SumOp.coords2] using this
  have key : ∀ p : Nat → ℝ, (∀ k, ∃ a ∈ e.rule, ∃ b ∈ e.rule, a.1 ≤ p k ∧ p k ≤ b.1) → 0 < (jacobiMat .quad e.vert p).det := by
    intro p hp
    obtain ⟨a, ha, a', ha', h1, h2⟩ := hp 0
    obtain ⟨b, hb, b', hb', h3, h4⟩ := hp 1
    rw [hl]
    exact affine_between (hpt a ha b hb) (hpt a ha b' hb') (hpt a' ha' b hb) (hpt a' ha' b' hb') h1 h2 h3 h4
  refine ⟨key, ?_⟩
  obtain ⟨⟨a, ha, ha0⟩, b, hb, hb0⟩ := rule_sides hr
  have := key (fun _ => 0) fun _ => ⟨a, ha, b, hb, ha0, hb0⟩
  rw [hl] at this
  simp only [mul_zero, add_zero] at this
  linarith

/-- Left side of length `1 + k`, right side of length `1 - k` (twice each): turned over if `k > 1`. -/
def wedge (k : ℝ) : Nat → Nat → ℝ := fun i c => if c = 0 then absc1 (i % 2) else absc1 (i / 2) * (1 - k * absc1 (i % 2))

theorem wedge_det (k : ℝ) (p : Nat → ℝ) : (jacobiMat .quad (wedge k) p).det = 1 - k * p 0 := by
  rw [quad_det]
  simp [cross, wedge, absc1]
  ring

/-- A kernel of one equation on a quadrilateral. -/
def exElem (v : Nat → Nat → ℝ) (r : Rule1) : PElem .quad := ⟨2, absc1, v, none, r, 1, 1, 1, 0, fun _ _ => 0, fun _ _ => ⟨fun _ _ _ => 0, fun _ _ => 1⟩, fun v => v, [0, 1, 2, 3]⟩

/-- **C137** fails for rules of any order: some element is taken though two of its corners are turned over. -/
theorem C137_folded_violated (qo : Nat) (r : Rule1) (hr : IsReferenceRule qo r) : ∃ e : PElem .quad, e.rule = r ∧ Taken e ∧ ∀ b, (jacobiMat .quad e.vert (corner true b)).det < 0 := by
  have hp := (C66_points qo r hr).2.1
  obtain ⟨M, hM1, hM0, hM⟩ : ∃ M : ℝ, M < 1 ∧ 0 < M ∧ ∀ a ∈ r, a.1 ≤ M := by
    have : ∀ l : Rule1, (∀ a ∈ l, a.1 < 1) → ∃ M : ℝ, M < 1 ∧ 0 < M ∧ ∀ a ∈ l, a.1 ≤ M := by
      intro l
      induction l with
      | nil => exact fun _ => ⟨1 / 2, by norm_num, by norm_num, by simp⟩
      | cons a l ih =>
        intro hl
        obtain ⟨M, h1, h0, h2⟩ := ih fun b hb => hl b (List.mem_cons_of_mem _ hb)
        refine ⟨max a.1 M, max_lt (hl a List.mem_cons_self) h1, lt_max_of_lt_right h0, fun b hb => ?_⟩
        rcases List.mem_cons.1 hb with rfl | hb
        · exact le_max_left _ _
        · exact (h2 b hb).trans (le_max_right _ _)
    exact this r fun a ha => (hp a ha).2.1
  have hk : 1 < 2 / (1 + M) := by rw [lt_div_iff₀ (by linarith)]; linarith
  have hkM : 2 / (1 + M) * M < 1 := by rw [div_mul_eq_mul_div, div_lt_one (by linarith)]; linarith
  refine ⟨exElem (wedge (2 / (1 + M))) r, rfl, (taken_iff _).2 ⟨rfl, fun pw hpw => ?_⟩, fun b => ?_⟩
  · obtain ⟨a, ha, b, hb, rfl⟩ := mem_rule.1 hpw
    change 0 < (jacobiMat .quad (wedge (2 / (1 + M))) _).det
    rw [wedge_det]
    have h1 := hM a ha
    have h2 : 2 / (1 + M) * a.1 ≤ 2 / (1 + M) * M := mul_le_mul_of_nonneg_left h1 (by linarith)
    simp only [SumOp.coords2, if_true]
    linarith
  · change (jacobiMat .quad (wedge (2 / (1 + M))) _).det < 0
    rw [wedge_det]
    simp only [corner, if_true]
    linarith

theorem C137_violated : ¬ C137Statement := by
  intro h
  obtain ⟨r, hr, _⟩ := C66_unique 2
  obtain ⟨e, rfl, ht, hneg⟩ := C137_folded_violated 2 r hr
  have h1 := h .quad e 2 hr ht (corner true true) fun k => by unfold corner; split <;> norm_num
  linarith [hneg true]

/-- **C137** (what is not checked).  The integral of one over the mirror image of an element which is taken, by the same rule, is negative: integrals are computed without the check. (Integral.hpp 16-32) -/
theorem C137_integral_violated {e : PElem t} {qo : Nat} (hr : IsReferenceRule qo e.rule) (h : Taken e) :
    evalQuadrature (fun p => (jacobiMat t (mirror e.vert) p).det * 1) (AsmOrd.elemRule t e.rule) < 0 := by
  rw [evalQuadrature_eq]
  have h1 : 0 < ((AsmOrd.elemRule t e.rule).map fun pw => (jacobiMat t e.vert pw.1).det * pw.2).sum := by
    obtain ⟨pw, hpw⟩ := elemRule_ne (t := t) hr
    refine sum_pos_list (fun h => ?_) fun x hx => ?_
    · rw [List.map_eq_nil_iff.1 h] at hpw
      cases hpw
    · obtain ⟨pw, hpw, rfl⟩ := List.mem_map.1 hx
      exact mul_pos (((taken_iff e).1 h).2 pw hpw) (rule_cube hr pw hpw).2
  have h2 : ∀ l : List ((Nat → ℝ) × ℝ), (l.map fun pw => (jacobiMat t (mirror e.vert) pw.1).det * 1 * pw.2).sum = -(l.map fun pw => (jacobiMat t e.vert pw.1).det * pw.2).sum := by
    intro l
    induction l with
    | nil => simp
    | cons a l ih =>
      rw [List.map_cons, List.sum_cons, ih, mirror_det, List.map_cons, List.sum_cons]
      ring
  rw [h2]
  linarith

/-- Hypotheses of the theorems: a trapezium, with rules of any order. -/
example (qo : Nat) : ∃ r, IsReferenceRule qo r ∧ (∀ a b, 0 < (jacobiMat .quad (wedge (1 / 2)) (corner a b)).det) ∧ Taken (exElem (wedge (1 / 2)) r) := by
  obtain ⟨r, hr, _⟩ := C66_unique qo
  have hc : ∀ a b, 0 < (jacobiMat .quad (wedge (1 / 2)) (corner a b)).det := by
    intro a b
    rw [wedge_det]
    cases a <;> simp [corner] <;> norm_num
  exact ⟨r, hr, hc, (C137_corners hc).2 _ qo rfl rfl hr⟩

end
end Verif.Folded
