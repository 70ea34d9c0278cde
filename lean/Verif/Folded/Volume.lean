import Verif.Folded.Props
import Verif.AsmOrd.Props

/-! # C137: volumes of elements which are taken -/
namespace Verif.Folded
open Verif.Elem Verif.Mapping Verif.Quad Verif.Patch Verif.AsmOrd Verif.Poly

noncomputable section

variable {t : ElType}

/-- The signed volume of an element (length, area): the integral of its jacobian over the reference element. -/
def volume (t : ElType) (v : Nat → Nat → ℝ) : ℝ := refIntegral t fun p => (jacobiMat t v p).det

/-! ### The degree of the jacobian -/

theorem polyV_const (d : Nat) (m : Fin d → Nat) (c : ℝ) : IsPolyV d m fun _ => c :=
  ⟨MvPolynomial.C c, fun i => by rw [MvPolynomial.degreeOf_C]; exact Nat.zero_le _, fun p => by simp⟩

theorem polyV_add {d : Nat} {m : Fin d → Nat} {f g} (hf : IsPolyV d m f) (hg : IsPolyV d m g) : IsPolyV d m fun p => f p + g p := by
  obtain ⟨P, h1, h2⟩ := hf
  obtain ⟨Q, k1, k2⟩ := hg
  refine ⟨P + Q, fun i => (MvPolynomial.degreeOf_add_le i P Q).trans (max_le (h1 i) (k1 i)), fun p => ?_⟩
  beta_reduce
  rw [h2, k2, map_add]

theorem polyV_foldl {d : Nat} {m : Fin d → Nat} (c : Nat → ℝ) {f : Nat → (Nat → ℝ) → ℝ} (hf : ∀ i, IsPolyV d m (f i)) :
    ∀ (l : List Nat) {a : (Nat → ℝ) → ℝ}, IsPolyV d m a → IsPolyV d m fun p => l.foldl (fun acc i => acc + c i * f i p) (a p)
  | [], _, ha => ha
  | i :: l, _, ha => polyV_foldl c hf l (polyV_add ha (((polyV_const d (fun _ => 0) (c i)).mul (hf i)).mono fun j => by simp))

theorem polyV_prod {d : Nat} {ι : Type} (s : Finset ι) {m : ι → Fin d → Nat} {f : ι → (Nat → ℝ) → ℝ} (hf : ∀ i ∈ s, IsPolyV d (m i) (f i)) :
    IsPolyV d (fun j => ∑ i ∈ s, m i j) fun p => ∏ i ∈ s, f i p := by
  classical
  induction s using Finset.induction_on with
  | empty => simpa using polyV_const d (fun _ => 0) 1
  | insert a s ha ih =>
    simp only [Finset.prod_insert ha, Finset.sum_insert ha]
    exact (hf a (by simp)).mul (ih fun i hi => hf i (by simp [hi]))

theorem line1V (d k : Nat) (hk : k < d) (j : Nat) : IsPolyV d (fun i => if i.val = k then 1 else 0) fun p => Basis.line 2 absc1 j (p k) := lineV d 1 k hk absc1 j

theorem lineDer0V (d k : Nat) (hk : k < d) (j : Nat) : IsPolyV d (fun _ => 0) fun p => Basis.lineDer 2 absc1 j (p k) :=
  (IsPolyV.coord d 0 k hk _ (by rw [length_derivative _ (by rw [AsmOrd.linePoly_length]), AsmOrd.linePoly_length])).mono fun i => by simp

/-- A derivative of a shape function does not depend on its variable, and is linear in the others. -/
theorem shapeDerV (t : ElType) (d : Fin t.dim) (i : Nat) : IsPolyV t.dim (fun j => if j = d then 0 else 1) (shapeDer t d i) := by
  cases t with
  | line => exact (lineDer0V 1 0 (by decide) i).mono fun _ => Nat.zero_le _
  | quad =>
    change Fin 2 at d
    fin_cases d
    · exact ((lineDer0V 2 0 (by decide) _).mul (line1V 2 1 (by decide) _)).mono fun j => by change Fin 2 at j; fin_cases j <;> decide
    · exact ((line1V 2 0 (by decide) _).mul (lineDer0V 2 1 (by decide) _)).mono fun j => by change Fin 2 at j; fin_cases j <;> decide
  | hex =>
    change Fin 3 at d
    fin_cases d
    · exact (((lineDer0V 3 0 (by decide) _).mul (line1V 3 1 (by decide) _)).mul (line1V 3 2 (by decide) _)).mono fun j => by change Fin 3 at j; fin_cases j <;> decide
    · exact (((line1V 3 0 (by decide) _).mul (lineDer0V 3 1 (by decide) _)).mul (line1V 3 2 (by decide) _)).mono fun j => by change Fin 3 at j; fin_cases j <;> decide
    · exact (((line1V 3 0 (by decide) _).mul (line1V 3 1 (by decide) _)).mul (lineDer0V 3 2 (by decide) _)).mono fun j => by change Fin 3 at j; fin_cases j <;> decide

theorem jac_entry (t : ElType) (v : Nat → Nat → ℝ) (d c : Fin t.dim) : IsPolyV t.dim (fun j => if j = d then 0 else 1) fun p => jacobiMat t v p d c :=
  polyV_foldl (fun i => v i c) (fun i => shapeDerV t d i) _ (polyV_const _ _ 0)

/-- The jacobian has a degree below the dimension in each variable. -/
theorem jac_poly (t : ElType) (v : Nat → Nat → ℝ) : IsPoly t.dim (t.dim - 1) fun p => (jacobiMat t v p).det := by
  have e : (fun p => (jacobiMat t v p).det) = fun p => ∑ σ : Equiv.Perm (Fin t.dim), ((Equiv.Perm.sign σ : ℤ) : ℝ) * ∏ i, jacobiMat t v p (σ i) i := by
    funext p
    exact Matrix.det_apply' _
  rw [e]
  refine IsPoly.sum _ fun σ _ => ?_
  have h1 := (polyV_const t.dim (fun _ => 0) ((Equiv.Perm.sign σ : ℤ) : ℝ)).mul
    (polyV_prod Finset.univ fun i _ => jac_entry t v (σ i) i)
  refine h1.toIsPoly fun j => ?_
  have h2 : ∑ i : Fin t.dim, (if j = σ i then 0 else 1) = t.dim - 1 := by
    rw [← Equiv.sum_comp σ.symm]
    simp only [Equiv.apply_symm_apply]
    have h3 : ∀ i : Fin t.dim, (if j = i then 0 else 1) + (if j = i then 1 else 0) = 1 := fun i => by split <;> rfl
    have h4 : ∑ i : Fin t.dim, ((if j = i then 0 else 1) + if j = i then 1 else 0) = t.dim := by
      rw [Finset.sum_congr rfl fun i _ => h3 i]; simp
    rw [Finset.sum_add_distrib] at h4
    simp only [Finset.sum_ite_eq, Finset.mem_univ, if_true] at h4
    omega
  simp only [h2]
  omega

/-- **C137** (volumes): what is taken has a positive volume, if it is a segment or a quadrilateral, or the order of the rule is at least two. -/
theorem C137_volume_partial {e : PElem t} {qo : Nat} (hr : IsReferenceRule qo e.rule) (hq : t = .hex → 2 ≤ qo) (h : Taken e) : 0 < volume t e.vert := by
  have hr' : ∃ q, t.dim - 1 ≤ q ∧ IsReferenceRule q e.rule := by
    cases t with
    | line => exact ⟨qo, Nat.zero_le _, hr⟩
    | quad =>
      cases qo with
      | zero => exact ⟨1, le_refl _, hr⟩
      | succ n => exact ⟨n + 1, Nat.succ_le_succ (Nat.zero_le _), hr⟩
    | hex => exact ⟨qo, hq rfl, hr⟩
  obtain ⟨q, hq', hr'⟩ := hr'
  have h1 := AsmOrd.exact t q e.rule hr' _ ((jac_poly t e.vert).mono hq')
  unfold volume
  rw [← h1, evalQuadrature_eq]
  obtain ⟨pw, hpw⟩ := elemRule_ne (t := t) hr
  refine sum_pos_list (fun h => ?_) fun x hx => ?_
  · rw [List.map_eq_nil_iff.1 h] at hpw
    cases hpw
  · obtain ⟨pw, hpw, rfl⟩ := List.mem_map.1 hx
    exact mul_pos (((taken_iff e).1 h).2 pw hpw) (rule_cube hr pw hpw).2

/-! ### One point -/

/-- Cube `[-1, 1]^3` moved by `2 η ζ` and `3 ξ ζ` in the first two directions. -/
def twisted : Nat → Nat → ℝ := fun i c =>
  if c = 0 then absc1 (i % 2) + 2 * absc1 (i / 2 % 2) * absc1 (i / 4) else if c = 1 then absc1 (i / 2 % 2) + 3 * absc1 (i % 2) * absc1 (i / 4) else absc1 (i / 4)

theorem twisted_jac (p : Nat → ℝ) : (jacobiMat .hex twisted p : Matrix (Fin 3) (Fin 3) ℝ) = !![1, 3 * p 2, 0; 2 * p 2, 1, 0; 2 * p 1, 3 * p 0, 1] := by
  ext a k
  unfold jacobiMat shapeDer basisDer Basis.hexDerXi Basis.hexDerEta Basis.hexDerZeta Basis.quad Basis.quadDerXi Basis.quadDerEta twisted
  fin_cases a <;> fin_cases k <;>
    simp [nVerts, List.range_succ, line_two_zero, line_two_one, lineDer_two_zero, lineDer_two_one, absc1] <;> ring_nf <;> rfl

theorem twisted_det (p : Nat → ℝ) : (jacobiMat .hex twisted p).det = 1 - 6 * p 2 ^ 2 := by
  have h1 : (!![1, 3 * p 2, 0; 2 * p 2, 1, 0; 2 * p 1, 3 * p 0, 1] : Matrix (Fin 3) (Fin 3) ℝ).det = 1 - 6 * p 2 ^ 2 := by
    rw [Matrix.det_fin_three]; simp; ring
  rw [← twisted_jac p] at h1
  exact h1

/-- A kernel of one equation on a hexahedron. -/
def exHex (v : Nat → Nat → ℝ) (r : Rule1) : PElem .hex := ⟨2, absc1, v, none, r, 1, 1, 1, 0, fun _ _ => 0, fun _ _ => ⟨fun _ _ _ => 0, fun _ _ => 1⟩, fun v => v, List.range 8⟩

/-- **C137** (volumes) with one point: a hexahedron of negative volume is taken. -/
theorem C137_volume_violated : ¬ ∀ (t : ElType) (e : PElem t) (qo : Nat), IsReferenceRule qo e.rule → Taken e → 0 < volume t e.vert := fun h => by
  obtain ⟨r, hr, _⟩ := C66_unique 0
  obtain ⟨r2, hr2, _⟩ := C66_unique 2
  have h0 := rule_zero r hr
  have ht : Taken (exHex twisted r) := by
    rw [taken_iff]
    refine ⟨rfl, fun pw hpw => ?_⟩
    have hpw : pw ∈ elemRule .hex r := hpw
    rw [h0] at hpw
    have : pw = (SumOp.coords3 (0, 0, 0), 2 * 2 * 2) := by simpa [elemRule, hexRule] using hpw
    have h2 : (jacobiMat .hex twisted pw.1).det = 1 := by
      rw [twisted_det, this]; simp [SumOp.coords3]
    exact h2.symm ▸ one_pos
  have h1 : 0 < volume .hex twisted := h .hex (exHex twisted r) 0 hr ht
  have h2 := AsmOrd.exact .hex 2 r2 hr2 _ (jac_poly .hex twisted)
  unfold volume at h1
  rw [← h2, evalQuadrature_eq] at h1
  have h3 : ∀ pw ∈ elemRule .hex r2, (jacobiMat .hex twisted pw.1).det * pw.2 ≤ 0 := by
    intro pw hpw
    refine mul_nonpos_of_nonpos_of_nonneg ?_ (rule_cube hr2 pw hpw).2.le
    obtain ⟨a, ha, b, hb, c, hc, rfl⟩ : ∃ a ∈ r2, ∃ b ∈ r2, ∃ c ∈ r2, pw = (SumOp.coords3 (a.1, b.1, c.1), a.2 * b.2 * c.2) := by
      unfold elemRule hexRule at hpw
      simp only [List.mem_map, List.mem_flatMap] at hpw
      obtain ⟨_, ⟨a, ha, b, hb, c, hc, rfl⟩, rfl⟩ := hpw
      exact ⟨a, ha, b, hb, c, hc, rfl⟩
    rw [twisted_det]
    have := rule_two_sq r2 hr2 c hc
    have hz : (SumOp.coords3 (a.1, b.1, c.1)) 2 = c.1 := by simp [SumOp.coords3]
    simp only [hz]
    linarith
  have h4 : ∀ l : List ((Nat → ℝ) × ℝ), (∀ pw ∈ l, (jacobiMat .hex twisted pw.1).det * pw.2 ≤ 0) → (l.map fun pw => (jacobiMat .hex twisted pw.1).det * pw.2).sum ≤ 0 := by
    intro l
    induction l with
    | nil => intro _; simp
    | cons a l ih =>
      intro hl
      rw [List.map_cons, List.sum_cons]
      exact add_nonpos (hl a (by simp)) (ih fun pw hpw => hl pw (by simp [hpw]))
  exact absurd h1 (not_lt.2 (h4 _ h3))

/-- Hypotheses of `C137_volume_partial`: the unit cube, with rules of any order. -/
example (qo : Nat) : ∃ r, IsReferenceRule qo r ∧ Taken (exHex (boxVert (fun _ => 0) fun _ => 1) r) := by
  obtain ⟨r, hr, _⟩ := C66_unique qo
  refine ⟨r, hr, (taken_iff _).2 ⟨rfl, fun pw _ => ?_⟩⟩
  have := box_hex_det (fun _ => 0) (fun _ => 1) pw.1
  rw [mul_one, mul_one] at this
  exact this.symm ▸ one_pos

end
end Verif.Folded
