import Verif.AsmOrd.Lemmas
import Verif.Batch.Props
import Verif.Mapping.Box
import Mathlib.Analysis.SpecialFunctions.Integrals.Basic
import Mathlib.Tactic.LinearCombination

/-!
# Exactness of the quadrature chosen for local systems and integrals (C103)

`AssemblyOptions` names two numbers: `value_order`, the number of field values multiplied in an expression, and `derivative_order`,
the number of derivatives.
-/
namespace Verif.AsmOrd
open Finset Verif.Elem Verif.Mapping Verif.Poly Verif.Quad

/-- Expressions with at most `v` factors which are values and at most `d` factors which are physical derivatives of functions from the
finite element space of an element. -/
inductive Form (t : ElType) (n : Nat) (x : Nat → ℝ) (vert : Nat → Nat → ℝ) : Nat → Nat → ((Nat → ℝ) → ℝ) → Prop
  | const (v d : Nat) (c : ℝ) : Form t n x vert v d fun _ => c
  | value {v d : Nat} {f} (c : Nat → ℝ) (h : Form t n x vert v d f) :
      Form t n x vert (v + 1) d fun p => f p * ∑ b ∈ range (n ^ t.dim), c b * basisFun t n x b p
  | der {v d : Nat} {f} (c : Nat → ℝ) (k : Nat) (h : Form t n x vert v d f) :
      Form t n x vert v (d + 1) fun p => f p * ∑ b ∈ range (n ^ t.dim), c b * SumOp.physDer t n x vert p k b
  | add {v d : Nat} {f g} (hf : Form t n x vert v d f) (hg : Form t n x vert v d g) : Form t n x vert v d fun p => f p + g p

/-- The element is the image of the reference element under an affine map. -/
def Affine (t : ElType) (vert : Nat → Nat → ℝ) : Prop := ∀ p q, jacobiMat t vert p = jacobiMat t vert q

theorem affine_line (vert : Nat → Nat → ℝ) : Affine .line vert := by
  intro p q
  ext a b
  unfold jacobiMat shapeDer basisDer
  simp [nVerts, List.range_succ, lineDer_two_zero, lineDer_two_one]

theorem affine_box_quad (o h : Nat → ℝ) : Affine .quad (boxVert o h) := fun p q => (box_quad_jac o h p).trans (box_quad_jac o h q).symm

theorem affine_box_hex (o h : Nat → ℝ) : Affine .hex (boxVert o h) := fun p q => (box_hex_jac o h p).trans (box_hex_jac o h q).symm

theorem physDer_poly (t : ElType) (n m : Nat) (x : Nat → ℝ) (vert : Nat → Nat → ℝ) (ha : Affine t vert) (k b : Nat)
    (hd : ∀ d i, IsPoly t.dim m (basisDer t n x d i)) : IsPoly t.dim m fun p => SumOp.physDer t n x vert p k b := by
  by_cases h : k < t.dim ∧ b < n ^ t.dim
  · have e : (fun p => SumOp.physDer t n x vert p k b) = fun p =>
        ∑ j : Fin t.dim, (jacobiMat t vert fun _ => 0)⁻¹ ⟨k, h.1⟩ j * basisDer t n x j b p := by
      funext p
      unfold SumOp.physDer
      rw [dif_pos h, ha p fun _ => 0]
      rfl
    rw [e]
    refine IsPoly.sum _ fun j _ => ?_
    have := (IsPoly.const t.dim 0 ((jacobiMat t vert fun _ => 0)⁻¹ ⟨k, h.1⟩ j)).mul (hd j b)
    rwa [Nat.zero_add] at this
  · have e : (fun p => SumOp.physDer t n x vert p k b) = fun _ => 0 := by
      funext p
      unfold SumOp.physDer
      rw [dif_neg h]
    rw [e]
    exact IsPoly.const _ _ _

theorem fe_poly (d m n : Nat) (c : Nat → ℝ) (f : Nat → (Nat → ℝ) → ℝ) (hf : ∀ b, IsPoly d m (f b)) :
    IsPoly d m fun p => ∑ b ∈ range n, c b * f b p := by
  refine IsPoly.sum _ fun b _ => ?_
  have := (IsPoly.const d 0 (c b)).mul (hf b)
  rwa [Nat.zero_add] at this

theorem form_poly {t : ElType} {m md : Nat} {x : Nat → ℝ} {vert : Nat → Nat → ℝ} (ha : Affine t vert)
    (hd : ∀ d i, IsPoly t.dim md (basisDer t (m + 1) x d i)) {v d : Nat} {f} (h : Form t (m + 1) x vert v d f) :
    IsPoly t.dim (v * m + d * md) f := by
  induction h with
  | const v d c => exact IsPoly.const _ _ _
  | value c h ih =>
    refine (ih.mul (fe_poly _ m _ c _ fun b => basis_poly t m x b)).mono ?_
    rw [Nat.add_mul]; omega
  | der c k h ih =>
    refine (ih.mul (fe_poly _ md _ c _ fun b => physDer_poly t _ md x vert ha k b hd)).mono ?_
    rw [Nat.add_mul]; omega
  | add hf hg i1 i2 => exact i1.add i2

/-- What the library computes for the integral of `f` over an element (`evalElementIntegral`, Integral.hpp 12-30): the jacobian times
the value at each quadrature point. -/
noncomputable def elemIntegral (t : ElType) (vert : Nat → Nat → ℝ) (f : (Nat → ℝ) → ℝ) (r : Rule1) : ℝ :=
  evalQuadrature (fun p => (jacobiMat t vert p).det * f p) (elemRule t r)

/-- The integral over the element, by change of variables. -/
noncomputable def physIntegral (t : ElType) (vert : Nat → Nat → ℝ) (f : (Nat → ℝ) → ℝ) : ℝ :=
  refIntegral t fun p => (jacobiMat t vert p).det * f p

/-- **C103**, full statement: the rule chosen for `value_order = v`, `derivative_order = d` and elements of order `m` integrates every
expression with at most `v` values and `d` derivatives exactly over an element which is an affine image of the reference element. -/
def C103Statement : Prop :=
  ∀ (t : ElType) (m : Nat) (x : Nat → ℝ) (vert : Nat → Nat → ℝ) (v d : Nat) (f : (Nat → ℝ) → ℝ) (r : Rule1), 1 ≤ m → v * m + d * m < 128 →
    Affine t vert → Form t (m + 1) x vert v d f → IsReferenceRule (integralOrder v d m) r →
    elemIntegral t vert f r = physIntegral t vert f

theorem elem_exact {t : ElType} {vert : Nat → Nat → ℝ} (ha : Affine t vert) {qo k : Nat} {f} (hf : IsPoly t.dim k f) (hk : k ≤ qo) {r : Rule1}
    (hr : IsReferenceRule qo r) : elemIntegral t vert f r = physIntegral t vert f := by
  refine exact t qo r hr _ ?_
  have e : (fun p => (jacobiMat t vert p).det * f p) = fun p => (jacobiMat t vert fun _ => 0).det * f p := by
    funext p; rw [ha p fun _ => 0]
  rw [e]
  have := (IsPoly.const t.dim 0 (jacobiMat t vert fun _ => 0).det).mul hf
  rw [Nat.zero_add] at this
  exact this.mono hk

/-- **C103** (segments): on segments the statement holds as it stands, for every position of the segment. -/
theorem C103_line (m : Nat) (x : Nat → ℝ) (vert : Nat → Nat → ℝ) (v d : Nat) (f : (Nat → ℝ) → ℝ) (r : Rule1) (hw : v * m + d * (m - 1) < 256)
    (hf : Form .line (m + 1) x vert v d f) (hr : IsReferenceRule (integralOrder v d m) r) :
    elemIntegral .line vert f r = physIntegral .line vert f := by
  refine elem_exact (affine_line vert) (form_poly (affine_line vert) (fun d i => basisDer_poly_line m x d i) hf) ?_ hr
  unfold integralOrder order
  rw [Nat.mod_eq_of_lt hw]

/-- **C103** (partial, all element types): the rule is exact for expressions with `v'` values and `d'` derivatives when a derivative is
counted with the full degree of the basis; in particular for every expression with at most `v` factors of either kind when
`derivative_order = 0`. -/
theorem C103_partial (t : ElType) (m : Nat) (x : Nat → ℝ) (vert : Nat → Nat → ℝ) (v d v' d' : Nat) (f : (Nat → ℝ) → ℝ) (r : Rule1)
    (ha : Affine t vert) (hw : v * m + d * (m - 1) < 256) (hf : Form t (m + 1) x vert v' d' f) (hd : (v' + d') * m ≤ v * m + d * (m - 1))
    (hr : IsReferenceRule (integralOrder v d m) r) : elemIntegral t vert f r = physIntegral t vert f := by
  refine elem_exact ha (form_poly ha (fun d i => basisDer_poly t m x d i) hf) ?_ hr
  unfold integralOrder order
  rw [Nat.mod_eq_of_lt hw, ← Nat.add_mul]
  exact hd

/-- **C103** (local systems, partial): if each equation of the kernel, applied to each local shape function, is an expression with `v'`
values and `d'` derivatives, as above, then every entry of the local matrix is the exact integral; so is every entry of the local
right-hand side if the right-hand side of the kernel is such an expression as well. -/
theorem C103_local_partial (t : ElType) (m : Nat) (x : Nat → ℝ) (vert : Nat → Nat → ℝ) (v d v' d' : Nat) (D : Batch.Dims)
    (ops : (Nat → ℝ) → Nat → Nat → Nat → ℝ) (rhs : (Nat → ℝ) → Nat → Nat → ℝ) (r : Rule1) (ha : Affine t vert)
    (hw : v * m + d * (m - 1) < 128) (hd : (v' + d') * m ≤ v * m + d * (m - 1))
    (hf : ∀ i e, Form t (m + 1) x vert v' d' fun p => Batch.shape D (pointUpd t (m + 1) x vert ops rhs p 1) i e)
    (hr : IsReferenceRule (quadOrder v d m) r) (i j : Nat) :
    Batch.directMat D (elemUpds t (m + 1) x vert ops rhs r) i j = physIntegral t vert (fun p =>
        ∑ e ∈ range D.us, Batch.shape D (pointUpd t (m + 1) x vert ops rhs p 1) i e * Batch.shape D (pointUpd t (m + 1) x vert ops rhs p 1) j e) ∧
    ((∀ e k, Form t (m + 1) x vert v' d' fun p => rhs p e k) → ∀ k,
      Batch.directRhs D (elemUpds t (m + 1) x vert ops rhs r) i k = physIntegral t vert (fun p =>
        ∑ e ∈ range D.us, Batch.shape D (pointUpd t (m + 1) x vert ops rhs p 1) i e * rhs p e k)) := by
  have hq : quadOrder v d m = 2 * (v * m + d * (m - 1)) := by
    unfold quadOrder order
    rw [Nat.mod_eq_of_lt (a := v * m + d * (m - 1)) (by omega), Nat.mod_eq_of_lt (by omega)]
  have hdeg : v' * m + d' * m + (v' * m + d' * m) ≤ quadOrder v d m := by
    rw [hq, ← Nat.add_mul]; omega
  have hp : ∀ {f}, Form t (m + 1) x vert v' d' f → IsPoly t.dim (v' * m + d' * m) f := fun h =>
    form_poly ha (fun d i => basisDer_poly t m x d i) h
  constructor
  · have e : Batch.directMat D (elemUpds t (m + 1) x vert ops rhs r) i j = elemIntegral t vert (fun p =>
        ∑ e ∈ range D.us, Batch.shape D (pointUpd t (m + 1) x vert ops rhs p 1) i e * Batch.shape D (pointUpd t (m + 1) x vert ops rhs p 1) j e) r := by
      unfold Batch.directMat elemUpds elemIntegral
      rw [evalQuadrature_eq, List.map_map]
      congr 1
      refine List.map_congr_left fun pw _ => ?_
      show (jacobiMat t vert pw.1).det * pw.2 * _ = (jacobiMat t vert pw.1).det * _ * pw.2
      rw [mul_right_comm]
      rfl
    rw [e]
    exact elem_exact ha (IsPoly.sum _ fun k _ => (hp (hf i k)).mul (hp (hf j k))) hdeg hr
  · intro hR k
    have e : Batch.directRhs D (elemUpds t (m + 1) x vert ops rhs r) i k = elemIntegral t vert (fun p =>
        ∑ e ∈ range D.us, Batch.shape D (pointUpd t (m + 1) x vert ops rhs p 1) i e * rhs p e k) r := by
      unfold Batch.directRhs elemUpds elemIntegral
      rw [evalQuadrature_eq, List.map_map]
      congr 1
      refine List.map_congr_left fun pw _ => ?_
      show (jacobiMat t vert pw.1).det * pw.2 * _ = (jacobiMat t vert pw.1).det * _ * pw.2
      rw [mul_right_comm]
      rfl
    rw [e]
    exact elem_exact ha (IsPoly.sum _ fun l _ => (hp (hf i l)).mul (hp (hR l k))) hdeg hr

/-! ## Where it fails -/

/-- The reference square as an element. -/
noncomputable def unitQuad : Nat → Nat → ℝ := boxVert (fun _ => 0) fun _ => 1

/-- Nodal values of `xy`. -/
noncomputable def bilin : Nat → ℝ := fun b => if b = 0 ∨ b = 3 then 1 else -1

/-- Nodal values of `y`. -/
noncomputable def coordY : Nat → ℝ := fun b => if b < 2 then -1 else 1

theorem unit_jac (p : Nat → ℝ) : jacobiMat .quad unitQuad p = (1 : Matrix (Fin 2) (Fin 2) ℝ) := by
  refine (box_quad_jac (fun _ => 0) (fun _ => 1) p).trans ?_
  ext a b
  fin_cases a <;> fin_cases b <;> rfl

theorem unit_det (p : Nat → ℝ) : (jacobiMat .quad unitQuad p).det = 1 := by
  exact (box_quad_det (fun _ => 0) (fun _ => 1) p).trans (one_mul 1)

theorem unit_physDer (p : Nat → ℝ) (b : Nat) (hb : b < 4) :
    SumOp.physDer .quad 2 absc1 unitQuad p 0 b = Basis.quadDerXi 2 absc1 b (p 0, p 1) := by
  have h : 0 < ElType.quad.dim ∧ b < 2 ^ ElType.quad.dim := ⟨by decide, hb⟩
  unfold SumOp.physDer
  rw [dif_pos h]
  have e : physBasisDers (jacobiMat .quad unitQuad p) (refBasisDers .quad 2 absc1 p) = refBasisDers .quad 2 absc1 p := by
    unfold physBasisDers
    have : (jacobiMat .quad unitQuad p)⁻¹ = 1 := by
      refine (congrArg (fun M : Matrix (Fin 2) (Fin 2) ℝ => M⁻¹) (unit_jac p)).trans ?_
      exact inv_one
    rw [this, Matrix.one_mul]
  rw [e]
  rfl

theorem bilin_der (p : Nat → ℝ) :
    ∑ b ∈ range (2 ^ ElType.quad.dim), bilin b * SumOp.physDer .quad 2 absc1 unitQuad p 0 b = p 1 := by
  show ∑ b ∈ range 4, bilin b * SumOp.physDer .quad 2 absc1 unitQuad p 0 b = p 1
  simp only [sum_range_succ, sum_range_zero]
  rw [unit_physDer p 0 (by decide), unit_physDer p 1 (by decide), unit_physDer p 2 (by decide), unit_physDer p 3 (by decide)]
  simp [Basis.quadDerXi, bilin, line_two_zero, line_two_one, lineDer_two_zero, lineDer_two_one]
  ring

theorem coordY_val (p : Nat → ℝ) : ∑ b ∈ range (2 ^ ElType.quad.dim), coordY b * basisFun .quad 2 absc1 b p = p 1 := by
  show ∑ b ∈ range 4, coordY b * basisFun .quad 2 absc1 b p = p 1
  simp only [sum_range_succ, sum_range_zero]
  simp [basisFun, Basis.quad, coordY, line_two_zero, line_two_one]
  ring

theorem rule_zero (r : Rule1) (hr : IsReferenceRule 0 r) : r = [(0, 2)] := by
  have hl := (C66_line 0 r hr [] (by simp)).1
  have ⟨_, h2, h3⟩ := C66_points 0 r hr
  match r, hl with
  | [a], _ =>
    have h0 := (h2 a (by simp)).2.2.2
    have hw : a.2 = 2 := by simpa using h3
    have hx : a.1 = 0 := by simpa [legendre, evaluate] using h0
    rw [← hx, ← hw]

theorem rule_two_sq (r : Rule1) (hr : IsReferenceRule 2 r) (p) (hp : p ∈ r) : p.1 ^ 2 = 1 / 3 := by
  have h0 := ((C66_points 2 r hr).2.1 p hp).2.2.2
  have hb := C65_bonnet 0 p.1
  have h1 : evaluate (legendre (K := ℝ) 1) p.1 = p.1 := by simp [legendre, evaluate]
  have h2 : evaluate (legendre (K := ℝ) 0) p.1 = 1 := by simp [legendre, evaluate]
  have h0' : evaluate (legendre (K := ℝ) (0 + 2)) p.1 = 0 := h0
  rw [h0', h1, h2] at hb
  push_cast at hb
  linarith

theorem unit_elemIntegral (f : (Nat → ℝ) → ℝ) (r : Rule1) : elemIntegral .quad unitQuad f r = evalQuadrature f (elemRule .quad r) := by
  unfold elemIntegral
  simp only [unit_det, one_mul]

theorem unit_physIntegral (f : (Nat → ℝ) → ℝ) :
    physIntegral .quad unitQuad f = ∫ x in (-1 : ℝ)..1, ∫ y in (-1 : ℝ)..1, f (SumOp.coords2 (x, y)) := by
  unfold physIntegral
  simp only [unit_det, one_mul]
  rfl

/-- **C103** is false for quadrilaterals: a derivative of a bilinear function in one direction keeps its degree in the other, so with
`value_order = 0`, `derivative_order = 2` on elements of order 1 the square of a derivative, here `y²`, is integrated as zero. -/
theorem C103_violated : ¬ C103Statement ∧
    Form .quad 2 absc1 unitQuad 0 2 (fun p => 1 * (∑ b ∈ range (2 ^ ElType.quad.dim), bilin b * SumOp.physDer .quad 2 absc1 unitQuad p 0 b) *
      ∑ b ∈ range (2 ^ ElType.quad.dim), bilin b * SumOp.physDer .quad 2 absc1 unitQuad p 0 b) ∧
    (∀ r, IsReferenceRule (integralOrder 0 2 1) r → elemIntegral .quad unitQuad (fun p => p 1 ^ 2) r = 0) ∧
    physIntegral .quad unitQuad (fun p => p 1 ^ 2) = 4 / 3 := by
  have hF : Form .quad 2 absc1 unitQuad 0 2 (fun p => 1 * (∑ b ∈ range (2 ^ ElType.quad.dim), bilin b * SumOp.physDer .quad 2 absc1 unitQuad p 0 b) *
      ∑ b ∈ range (2 ^ ElType.quad.dim), bilin b * SumOp.physDer .quad 2 absc1 unitQuad p 0 b) :=
    Form.der bilin 0 (Form.der bilin 0 (Form.const 0 0 1))
  have h1 : ∀ r, IsReferenceRule (integralOrder 0 2 1) r → elemIntegral .quad unitQuad (fun p => p 1 ^ 2) r = 0 := by
    intro r hr
    have : r = [(0, 2)] := rule_zero r hr
    subst this
    rw [unit_elemIntegral]
    simp [evalQuadrature_eq, elemRule, quadRule, SumOp.coords2]
  have h2 : physIntegral .quad unitQuad (fun p => p 1 ^ 2) = 4 / 3 := by
    rw [unit_physIntegral]
    simp [SumOp.coords2]
    norm_num
  refine ⟨fun h => ?_, hF, h1, h2⟩
  obtain ⟨r, hr, _⟩ := C66_unique (integralOrder 0 2 1)
  have := h .quad 1 absc1 unitQuad 0 2 _ r (le_refl _) (by decide) (affine_box_quad _ _) hF hr
  simp only [bilin_der, one_mul, ← pow_two] at this
  rw [h1 r hr, h2] at this
  norm_num at this

/-- One equation, one unknown, two dimensions. -/
def dims11 : Batch.Dims := ⟨1, 1, 4, 2, 1⟩

/-- The kernel of `y ∂u/∂x`, where the coefficient is a value from the finite element space (`coordY_val`). -/
noncomputable def convOps (p : Nat → ℝ) (k _e _u : Nat) : ℝ := if k = 1 then p 1 else 0

theorem conv_shape (p : Nat → ℝ) (i e : Nat) :
    Batch.shape dims11 (pointUpd .quad 2 absc1 unitQuad convOps (fun _ _ _ => 0) p 1) i e =
      p 1 * SumOp.physDer .quad 2 absc1 unitQuad p 0 i := by
  simp [Batch.shape, dims11, pointUpd, convOps, sum_range_succ, mul_comm]

theorem conv_form (i e : Nat) :
    Form .quad 2 absc1 unitQuad 1 1 fun p => Batch.shape dims11 (pointUpd .quad 2 absc1 unitQuad convOps (fun _ _ _ => 0) p 1) i e := by
  simp only [conv_shape]
  by_cases hi : i < 2 ^ ElType.quad.dim
  · have := Form.der (t := .quad) (n := 2) (x := absc1) (vert := unitQuad) (fun b => if b = i then 1 else 0) 0
      (Form.value coordY (Form.const 0 0 1))
    have e : (fun p : Nat → ℝ => p 1 * SumOp.physDer .quad 2 absc1 unitQuad p 0 i) = fun p =>
        1 * (∑ b ∈ range (2 ^ ElType.quad.dim), coordY b * basisFun .quad 2 absc1 b p) *
          ∑ b ∈ range (2 ^ ElType.quad.dim), (if b = i then 1 else 0) * SumOp.physDer .quad 2 absc1 unitQuad p 0 b := by
      funext p
      rw [coordY_val, one_mul]
      congr 1
      rw [Finset.sum_eq_single_of_mem i (Finset.mem_range.2 hi) fun b _ hb => by rw [if_neg hb, zero_mul], if_pos rfl, one_mul]
    rw [e]
    exact this
  · have e : (fun p : Nat → ℝ => p 1 * SumOp.physDer .quad 2 absc1 unitQuad p 0 i) = fun _ => 0 := by
      funext p
      unfold SumOp.physDer
      rw [dif_neg fun h => hi h.2, mul_zero]
    rw [e]
    exact Form.const _ _ _

theorem energy (r : Rule1) : ∑ i ∈ range 4, ∑ j ∈ range 4, bilin i * bilin j *
    Batch.directMat dims11 (elemUpds .quad 2 absc1 unitQuad convOps (fun _ _ _ => 0) r) i j =
      evalQuadrature (fun p => p 1 ^ 4) (elemRule .quad r) := by
  have e : ∀ i j, Batch.directMat dims11 (elemUpds .quad 2 absc1 unitQuad convOps (fun _ _ _ => 0) r) i j =
      ((elemRule .quad r).map fun pw => pw.2 * (pw.1 1 * SumOp.physDer .quad 2 absc1 unitQuad pw.1 0 i *
        (pw.1 1 * SumOp.physDer .quad 2 absc1 unitQuad pw.1 0 j))).sum := by
    intro i j
    unfold Batch.directMat elemUpds
    rw [List.map_map]
    congr 1
    refine List.map_congr_left fun pw _ => ?_
    show (jacobiMat .quad unitQuad pw.1).det * pw.2 * ∑ e ∈ range 1,
      Batch.shape dims11 (pointUpd .quad 2 absc1 unitQuad convOps (fun _ _ _ => 0) pw.1 1) i e *
      Batch.shape dims11 (pointUpd .quad 2 absc1 unitQuad convOps (fun _ _ _ => 0) pw.1 1) j e = _
    rw [unit_det, one_mul, sum_range_one, conv_shape, conv_shape]
  simp only [e, evalQuadrature_eq]
  generalize elemRule .quad r = l
  induction l with
  | nil => simp
  | cons a l ih =>
    simp only [List.map_cons, List.sum_cons, mul_add, sum_add_distrib, ih]
    congr 1
    have hd : (∑ b ∈ range 4, bilin b * SumOp.physDer .quad 2 absc1 unitQuad a.1 0 b) = a.1 1 := bilin_der a.1
    calc _ = a.2 * a.1 1 ^ 2 * ((∑ b ∈ range 4, bilin b * SumOp.physDer .quad 2 absc1 unitQuad a.1 0 b) *
          ∑ b ∈ range 4, bilin b * SumOp.physDer .quad 2 absc1 unitQuad a.1 0 b) := by
            rw [sum_mul_sum, mul_sum]
            refine sum_congr rfl fun i _ => ?_
            rw [mul_sum]
            exact sum_congr rfl fun j _ => by ring
      _ = _ := by rw [hd]; ring

/-- **C103** fails for local systems with `value_order = 1`, `derivative_order = 1` on quadrilaterals of order 1 (the options of
`examples/07-karman-2D`): with the kernel `y ∂u/∂x`, a product of one value and one derivative, the energy of `u = xy` is 4/9 in the
assembled local matrix; exactly it is 4/5. -/
theorem C103_local_violated :
    (∀ i e, Form .quad 2 absc1 unitQuad 1 1 fun p => Batch.shape dims11 (pointUpd .quad 2 absc1 unitQuad convOps (fun _ _ _ => 0) p 1) i e) ∧
    (∀ r, IsReferenceRule (quadOrder 1 1 1) r →
      ∑ i ∈ range 4, ∑ j ∈ range 4, bilin i * bilin j *
        Batch.directMat dims11 (elemUpds .quad 2 absc1 unitQuad convOps (fun _ _ _ => 0) r) i j = 4 / 9) ∧
    ∑ i ∈ range 4, ∑ j ∈ range 4, bilin i * bilin j * physIntegral .quad unitQuad (fun p =>
        ∑ e ∈ range dims11.us, Batch.shape dims11 (pointUpd .quad 2 absc1 unitQuad convOps (fun _ _ _ => 0) p 1) i e *
          Batch.shape dims11 (pointUpd .quad 2 absc1 unitQuad convOps (fun _ _ _ => 0) p 1) j e) = 4 / 5 := by
  refine ⟨conv_form, fun r hr => ?_, ?_⟩
  · rw [energy]
    show evalQuadrature (fun p => p 1 ^ 4) ((quadRule r).map fun pw => (SumOp.coords2 pw.1, pw.2)) = 4 / 9
    rw [evalQuadrature_map]
    have e : (fun p : ℝ × ℝ => (SumOp.coords2 p 1) ^ 4) = fun p : ℝ × ℝ => (1 : ℝ) * p.2 ^ 4 := by
      funext p; simp [SumOp.coords2]
    rw [e, quadRule_prod r (fun _ => 1) fun y => y ^ 4]
    have hw : (r.map Prod.snd).sum = 2 := (C66_points 2 r hr).2.2
    have h1 : evalQuadrature (fun _ => (1 : ℝ)) r = 2 := by
      rw [evalQuadrature_eq, ← hw]; simp only [one_mul]
    have h4 : evalQuadrature (fun y : ℝ => y ^ 4) r = 2 / 9 := by
      rw [evalQuadrature_eq]
      have : (r.map fun pw => pw.1 ^ 4 * pw.2) = r.map fun pw => 1 / 9 * pw.2 := by
        refine List.map_congr_left fun pw hp => ?_
        have := rule_two_sq r hr pw hp
        rw [show pw.1 ^ 4 = (pw.1 ^ 2) ^ 2 by ring, this]
        norm_num
      rw [this, List.sum_map_mul_left]
      have : (r.map fun pw : ℝ × ℝ => pw.2) = r.map Prod.snd := rfl
      rw [this, hw]
      norm_num
    rw [h1, h4]
    norm_num
  · obtain ⟨r, hr, _⟩ := C66_unique (quadOrder 2 0 1)
    have key : ∀ i j, _ := fun i j => (C103_local_partial .quad 1 absc1 unitQuad 2 0 1 1 dims11 convOps (fun _ _ _ => 0) r
      (affine_box_quad _ _) (by decide) (by decide) conv_form hr i j).1
    simp only [← key]
    refine (energy r).trans ?_
    have hp : IsPoly 2 4 fun p => p 1 ^ 4 := IsPoly.coord_pow 2 1 4 (by decide)
    refine (exact .quad 4 r hr _ hp).trans ?_
    show ∫ x in (-1 : ℝ)..1, ∫ y in (-1 : ℝ)..1, (SumOp.coords2 (x, y) 1) ^ 4 = 4 / 5
    simp [SumOp.coords2]
    norm_num

/-- The bound on the order in the theorems above is needed: with elements of order 10 and `value_order = 13` the order of the rule is
4 instead of 260. -/
example : quadOrder 13 0 10 = 4 ∧ order 26 0 10 = 4 := ⟨rfl, rfl⟩

/-- The hypotheses of the positive theorems can be met: the square of a derivative on a rectangle with the default `derivative_order`. -/
example (r : Rule1) (hr : IsReferenceRule (integralOrder 2 0 1) r) :
    elemIntegral .quad unitQuad (fun p => p 1 ^ 2) r = 4 / 3 := by
  have h := C103_partial .quad 1 absc1 unitQuad 2 0 0 2 _ r (affine_box_quad _ _) (by decide) C103_violated.2.1 (by decide) hr
  simp only [bilin_der, one_mul, ← pow_two] at h
  rw [h, C103_violated.2.2.2]

example (r : Rule1) (hr : IsReferenceRule (integralOrder 1 1 2) r) (c x : Nat → ℝ) (f : (Nat → ℝ) → ℝ)
    (hf : f = fun p => 1 * (∑ b ∈ range (3 ^ 1), c b * basisFun .line 3 x b p) *
      ∑ b ∈ range (3 ^ 1), c b * SumOp.physDer .line 3 x (fun b _ => b) p 0 b) :
    elemIntegral .line (fun b _ => b) f r = physIntegral .line (fun b _ => b) f := by
  subst hf
  exact C103_line 2 x _ 1 1 _ r (by decide) (Form.der c 0 (Form.value c (Form.const 0 0 1))) hr

end Verif.AsmOrd
