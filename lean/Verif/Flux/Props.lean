import Verif.Flux.Surface
import Verif.Flux.Spec

/-!
# C107: the fluxes through the sides of an element balance the divergence inside
-/
namespace Verif.Flux
open Verif.Elem Verif.Mapping Verif.Quad Verif.Poly Verif.Basis Matrix

/-! ## Fields along the lines of the reference element -/

theorem field_quad_x (m : Nat) (x : Nat → ℝ) (u : Nat → Nat → ℝ) (k : Nat) (η : ℝ) :
    PolyDer m (fun ξ => fieldVal .quad (m + 1) x u k (emb ![ξ, η])) fun ξ => fieldDer .quad (m + 1) x u 0 k (emb ![ξ, η]) := by
  refine PolyDer.sum _ fun b _ => PolyDer.cmul _ ?_
  refine (PolyDer.cmul (line (m + 1) x (b / (m + 1)) η) (line_polyDer m x (b % (m + 1)))).congr (fun t => ?_) fun t => ?_
  · simp only [basisFun, Basis.quad, emb2_0, emb2_1]; ring
  · simp only [basisDer, quadDerXi, emb2_0, emb2_1]; ring

theorem field_quad_y (m : Nat) (x : Nat → ℝ) (u : Nat → Nat → ℝ) (k : Nat) (ξ : ℝ) :
    PolyDer m (fun η => fieldVal .quad (m + 1) x u k (emb ![ξ, η])) fun η => fieldDer .quad (m + 1) x u 1 k (emb ![ξ, η]) := by
  refine PolyDer.sum _ fun b _ => PolyDer.cmul _ ?_
  refine (PolyDer.cmul (line (m + 1) x (b % (m + 1)) ξ) (line_polyDer m x (b / (m + 1)))).congr (fun t => ?_) fun t => ?_
  · simp only [basisFun, Basis.quad, emb2_0, emb2_1]
  · simp only [basisDer, quadDerEta, emb2_0, emb2_1]

theorem field_hex_x (m : Nat) (x : Nat → ℝ) (u : Nat → Nat → ℝ) (k : Nat) (η ζ : ℝ) :
    PolyDer m (fun ξ => fieldVal .hex (m + 1) x u k (emb ![ξ, η, ζ])) fun ξ => fieldDer .hex (m + 1) x u 0 k (emb ![ξ, η, ζ]) := by
  refine PolyDer.sum _ fun b _ => PolyDer.cmul _ ?_
  generalize hi : b % ((m + 1) * (m + 1)) = i
  refine (PolyDer.cmul (line (m + 1) x (i / (m + 1)) η * line (m + 1) x (b / ((m + 1) * (m + 1))) ζ) (line_polyDer m x (i % (m + 1)))).congr
    (fun t => ?_) fun t => ?_
  · simp only [basisFun, Basis.hex, Basis.quad, emb3_0, emb3_1, emb3_2, hi]; ring
  · simp only [basisDer, hexDerXi, quadDerXi, emb3_0, emb3_1, emb3_2, hi]; ring

theorem field_hex_y (m : Nat) (x : Nat → ℝ) (u : Nat → Nat → ℝ) (k : Nat) (ξ ζ : ℝ) :
    PolyDer m (fun η => fieldVal .hex (m + 1) x u k (emb ![ξ, η, ζ])) fun η => fieldDer .hex (m + 1) x u 1 k (emb ![ξ, η, ζ]) := by
  refine PolyDer.sum _ fun b _ => PolyDer.cmul _ ?_
  generalize hi : b % ((m + 1) * (m + 1)) = i
  refine (PolyDer.cmul (line (m + 1) x (i % (m + 1)) ξ * line (m + 1) x (b / ((m + 1) * (m + 1))) ζ) (line_polyDer m x (i / (m + 1)))).congr
    (fun t => ?_) fun t => ?_
  · simp only [basisFun, Basis.hex, Basis.quad, emb3_0, emb3_1, emb3_2, hi]; ring
  · simp only [basisDer, hexDerEta, quadDerEta, emb3_0, emb3_1, emb3_2, hi]; ring

theorem field_hex_z (m : Nat) (x : Nat → ℝ) (u : Nat → Nat → ℝ) (k : Nat) (ξ η : ℝ) :
    PolyDer m (fun ζ => fieldVal .hex (m + 1) x u k (emb ![ξ, η, ζ])) fun ζ => fieldDer .hex (m + 1) x u 2 k (emb ![ξ, η, ζ]) := by
  refine PolyDer.sum _ fun b _ => PolyDer.cmul _ ?_
  refine (PolyDer.cmul (Basis.quad (m + 1) x (b % ((m + 1) * (m + 1))) (ξ, η)) (line_polyDer m x (b / ((m + 1) * (m + 1))))).congr
    (fun t => ?_) fun t => ?_
  · simp only [basisFun, Basis.hex, emb3_0, emb3_1, emb3_2]
  · simp only [basisDer, hexDerZeta, emb3_0, emb3_1, emb3_2]

/-! ## Domain integrals -/

theorem coords2_emb (t : ElType) (ht : t = .quad) (f : (Nat → ℝ) → ℝ) (hf : ∀ p q : Nat → ℝ, p 0 = q 0 → p 1 = q 1 → f p = f q) (r : Rule1) :
    Quad.evalQuadrature f (AsmOrd.elemRule t r) = Q r fun a => Q r fun b => f (emb ![a, b]) := by
  subst ht
  rw [evalQuadrature_eq, AsmOrd.elemRule, List.map_map]
  rw [← quadRule_sum r fun p => f (emb ![p.1, p.2])]
  refine congrArg List.sum (List.map_congr_left fun pw _ => ?_)
  show f (SumOp.coords2 pw.1) * pw.2 = _
  rw [hf _ (emb ![pw.1.1, pw.1.2]) (by rw [emb2_0]; rfl) (by rw [emb2_1]; rfl)]

theorem coords3_emb (t : ElType) (ht : t = .hex) (f : (Nat → ℝ) → ℝ) (hf : ∀ p q : Nat → ℝ, p 0 = q 0 → p 1 = q 1 → p 2 = q 2 → f p = f q)
    (r : Rule1) : Quad.evalQuadrature f (AsmOrd.elemRule t r) = Q r fun a => Q r fun b => Q r fun c => f (emb ![a, b, c]) := by
  subst ht
  rw [evalQuadrature_eq, AsmOrd.elemRule, List.map_map]
  rw [← hexRule_sum r fun p => f (emb ![p.1, p.2.1, p.2.2])]
  refine congrArg List.sum (List.map_congr_left fun pw _ => ?_)
  show f (SumOp.coords3 pw.1) * pw.2 = _
  rw [hf _ (emb ![pw.1.1, pw.1.2.1, pw.1.2.2]) (by rw [emb3_0]; rfl) (by rw [emb3_1]; rfl) (by rw [emb3_2]; rfl)]

/-- The integrand after cancelling the determinant, whether or not it vanishes. -/
noncomputable def cofDiv (t : ElType) (n : Nat) (x : Nat → ℝ) (vert u : Nat → Nat → ℝ) (p : Nat → ℝ) : ℝ :=
  ∑ k : Fin t.dim, ∑ a : Fin t.dim, (jacobiMat t vert p).adjugate k a * fieldDer t n x u a k p

theorem elemIntegral_cof (t : ElType) (n : Nat) (x : Nat → ℝ) (vert u : Nat → Nat → ℝ) (r : Rule1)
    (h : ∀ pw ∈ AsmOrd.elemRule t r, (jacobiMat t vert pw.1).det ≠ 0) :
    AsmOrd.elemIntegral t vert (divergence t n x vert u) r = Quad.evalQuadrature (cofDiv t n x vert u) (AsmOrd.elemRule t r) := by
  rw [AsmOrd.elemIntegral, evalQuadrature_eq, evalQuadrature_eq]
  exact congrArg List.sum (List.map_congr_left fun pw hp => by rw [det_divergence t n x vert u pw.1 (h pw hp), cofDiv])

theorem basisDer_congr (t : ElType) (n : Nat) (x : Nat → ℝ) (d i : Nat) {p q : Nat → ℝ} (h : ∀ k, k < t.dim → p k = q k) :
    basisDer t n x d i p = basisDer t n x d i q := by
  cases t with
  | line =>
    have h0 := h 0 (by decide)
    unfold basisDer; simp only [h0]
  | quad =>
    have h0 := h 0 (by decide)
    have h1 := h 1 (by decide)
    rcases d with _ | d <;> simp only [basisDer, h0, h1]
  | hex =>
    have h0 := h 0 (by decide)
    have h1 := h 1 (by decide)
    have h2 := h 2 (by decide)
    rcases d with _ | _ | d <;> simp only [basisDer, h0, h1, h2]

theorem jac_congr (t : ElType) (vert : Nat → Nat → ℝ) {p q : Nat → ℝ} (h : ∀ k, k < t.dim → p k = q k) : jacobiMat t vert p = jacobiMat t vert q := by
  ext i k
  refine (foldl_sum _ _).trans (Eq.trans ?_ (foldl_sum _ _).symm)
  exact Finset.sum_congr rfl fun v _ => by rw [shapeDer, basisDer_congr t 2 absc1 i v h]

theorem cofDiv_congr (t : ElType) (n : Nat) (x : Nat → ℝ) (vert u : Nat → Nat → ℝ) {p q : Nat → ℝ} (h : ∀ k, k < t.dim → p k = q k) :
    cofDiv t n x vert u p = cofDiv t n x vert u q := by
  unfold cofDiv fieldDer
  rw [jac_congr t vert h]
  refine Finset.sum_congr rfl fun k _ => Finset.sum_congr rfl fun a _ => ?_
  congr 1
  exact Finset.sum_congr rfl fun b _ => by rw [basisDer_congr t n x a b h]

/-- A rule is determined by half its order. -/
theorem rule_odd {qo : Nat} {r : Rule1} (hr : IsReferenceRule qo r) : IsReferenceRule (2 * (qo / 2) + 1) r := by
  have e : (2 * (qo / 2) + 1) / 2 = qo / 2 := by omega
  obtain ⟨ev, V, h, rfl⟩ := hr
  unfold IsReferenceRule refQuadSize
  rw [e]
  exact ⟨ev, V, h, rfl⟩

theorem balance_quad (m : Nat) (x : Nat → ℝ) (vert u : Nat → Nat → ℝ) (qo : Nat) (r : Rule1) (hr : IsReferenceRule qo r) (hm : m ≤ qo) :
    surfaceIntegral .quad vert (flux .quad (m + 1) x u) r = some (Quad.evalQuadrature (cofDiv .quad (m + 1) x vert u) (AsmOrd.elemRule .quad r)) := by
  obtain ⟨b, c, d, hJ⟩ := jac_quad vert
  refine (surface_quad vert (fun k p => fieldVal .quad (m + 1) x u k p) r hJ).trans (congrArg some ?_)
  rw [coords2_emb .quad rfl _ (fun p q h0 h1 => cofDiv_congr .quad _ _ _ _ fun k hk => by
    have : k = 0 ∨ k = 1 := by simp only [ElType.dim] at hk; omega
    rcases this with rfl | rfl <;> assumption) r]
  refine (core2 hr hm b c d (f := fun p q k => fieldVal .quad (m + 1) x u k (emb ![p, q]))
    (fx := fun p q k => fieldDer .quad (m + 1) x u 0 k (emb ![p, q])) (fy := fun p q k => fieldDer .quad (m + 1) x u 1 k (emb ![p, q]))
    (fun q k => field_quad_x m x u k q) fun p k => field_quad_y m x u k p).symm.trans ?_
  refine Q_congr fun p _ => Q_congr fun q _ => ?_
  have e0 : (J2 vert (emb ![p.1, q.1])).adjugate =
      !![c 1 + d 1 * p.1, -(b 1 + d 1 * q.1); -(c 0 + d 0 * p.1), b 0 + d 0 * q.1] := by
    rw [Matrix.adjugate_fin_two]; simp only [(hJ _ _).1, (hJ _ _).2, emb2_0, emb2_1]
  show _ = ∑ k : Fin 2, ∑ a : Fin 2, (J2 vert (emb ![p.1, q.1])).adjugate k a * fieldDer .quad (m + 1) x u a k (emb ![p.1, q.1])
  rw [e0]
  simp only [Fin.sum_univ_two, pair]
  simp
  ring

theorem balance_hex (m : Nat) (x : Nat → ℝ) (vert u : Nat → Nat → ℝ) (qo : Nat) (r : Rule1) (hr : IsReferenceRule qo r) (hm : m + 1 ≤ qo) :
    surfaceIntegral .hex vert (flux .hex (m + 1) x u) r = some (Quad.evalQuadrature (cofDiv .hex (m + 1) x vert u) (AsmOrd.elemRule .hex r)) := by
  obtain ⟨b, c, d, e, f, g, h, hJ⟩ := jac_hex vert
  refine (surface_hex vert (fun k p => fieldVal .hex (m + 1) x u k p) r (J := fun p q s => J3 vert (emb ![p, q, s])) (fun _ _ _ _ _ => rfl)
    fun _ _ _ _ => rfl).trans (congrArg some ?_)
  rw [coords3_emb .hex rfl _ (fun p q h0 h1 h2 => cofDiv_congr .hex _ _ _ _ fun k hk => by
    have : k = 0 ∨ k = 1 ∨ k = 2 := by simp only [ElType.dim] at hk; omega
    rcases this with rfl | rfl | rfl <;> assumption) r]
  refine (core3 hr hm b c d e f g h (F := fun p q s k => fieldVal .hex (m + 1) x u k (emb ![p, q, s]))
    (Fx := fun p q s k => fieldDer .hex (m + 1) x u 0 k (emb ![p, q, s])) (Fy := fun p q s k => fieldDer .hex (m + 1) x u 1 k (emb ![p, q, s]))
    (Fz := fun p q s k => fieldDer .hex (m + 1) x u 2 k (emb ![p, q, s]))
    (fun q s k => field_hex_x m x u k q s) (fun p s k => field_hex_y m x u k p s) (fun p q k => field_hex_z m x u k p q)
    (R0 := fun p q s => J3 vert (emb ![p, q, s]) 0) (R1 := fun p q s => J3 vert (emb ![p, q, s]) 1) (R2 := fun p q s => J3 vert (emb ![p, q, s]) 2)
    (fun p q s k => by rw [(hJ _ k).1, emb3_1, emb3_2]) (fun p q s k => by rw [(hJ _ k).2.1, emb3_0, emb3_2])
    (fun p q s k => by rw [(hJ _ k).2.2, emb3_0, emb3_1])).symm.trans ?_
  refine Q_congr fun p _ => Q_congr fun q _ => Q_congr fun s _ => ?_
  show _ = ∑ k : Fin 3, ∑ a : Fin 3, (J3 vert (emb ![p.1, q.1, s.1])).adjugate k a * fieldDer .hex (m + 1) x u a k (emb ![p.1, q.1, s.1])
  rw [Matrix.adjugate_fin_three]
  generalize J3 vert (emb ![p.1, q.1, s.1]) = M
  simp only [Fin.sum_univ_three, triple]
  simp
  ring

/-! ## C107 -/

/-- **C107** (area vectors): on every side of a quadrilateral or hexahedron, for every Jacobi matrix, the surface jacobian times the normal is the
column of the cofactors belonging to the side's coordinate, with the side's sign; no square root is left. -/
theorem C107_area_vector (t : ElType) (ht : t ≠ .line) (s : Nat) (hs : s < nSides t) (J : Matrix (Fin t.dim) (Fin t.dim) ℝ) :
    ∃ m v, boundaryJacobian t s J = some m ∧ boundaryNormal t s J = some v ∧ m • v = sgn s • fun k => J.adjugate k (axis t s) := by
  cases t with
  | line => exact absurd rfl ht
  | quad => exact area_quad s (by simpa [nSides, table, quadTable] using hs) J
  | hex => exact area_hex s (by simpa [nSides, table, hexTable] using hs) J

/-- **C107** (quadrilaterals and hexahedra): the balance holds on every element with nonzero jacobians at the quadrature points; as the rules are
exact one degree beyond an even order, orders one lower suffice there. -/
theorem C107_partial (t : ElType) (ht : t ≠ .line) (m : Nat) (x : Nat → ℝ) (vert u : Nat → Nat → ℝ) (qo : Nat) (r : Rule1) (hr : IsReferenceRule qo r)
    (hm : m + t.dim ≤ 2 * (qo / 2) + 3) (hdet : ∀ pw ∈ AsmOrd.elemRule t r, (jacobiMat t vert pw.1).det ≠ 0) :
    surfaceIntegral t vert (flux t (m + 1) x u) r = some (AsmOrd.elemIntegral t vert (divergence t (m + 1) x vert u) r) := by
  rw [elemIntegral_cof t _ _ _ _ _ hdet]
  cases t with
  | line => exact absurd rfl ht
  | quad => exact balance_quad m x vert u _ r (rule_odd hr) (by simp only [ElType.dim] at hm; omega)
  | hex => exact balance_hex m x vert u _ r (rule_odd hr) (by simp only [ElType.dim] at hm; omega)

/-- **C107** (closed surfaces): the integral of every component of the normal over all sides vanishes with every rule of the
library, also for warped and degenerate elements. -/
theorem C107_closed (t : ElType) (ht : t ≠ .line) (vert : Nat → Nat → ℝ) (qo : Nat) (r : Rule1) (hr : IsReferenceRule qo r) (w : Fin t.dim → ℝ) :
    surfaceIntegral t vert (fun _ v => ∑ k, v k * w k) r = some 0 := by
  cases t with
  | line => exact absurd rfl ht
  | quad =>
    obtain ⟨b, c, d, hJ⟩ := jac_quad vert
    refine (surface_quad vert (fun k _ => w k) r hJ).trans (congrArg some ?_)
    refine (core2 (rule_odd hr) (Nat.zero_le _) b c d (f := fun _ _ => w) (fx := fun _ _ _ => 0) (fy := fun _ _ _ => 0)
      (fun _ _ => PolyDer.const _) fun _ _ => PolyDer.const _).symm.trans ?_
    simp [pair, Q]
  | hex =>
    obtain ⟨b, c, d, e, f, g, h, hJ⟩ := jac_hex vert
    refine (surface_hex vert (fun k _ => w k) r (J := fun p q s => J3 vert (emb ![p, q, s])) (V := fun _ _ _ => w) (fun _ _ _ _ _ => rfl)
      fun _ _ _ _ => rfl).trans (congrArg some ?_)
    refine (core3 (rule_odd hr) (by omega) b c d e f g h (F := fun _ _ _ => w) (Fx := fun _ _ _ _ => 0) (Fy := fun _ _ _ _ => 0)
      (Fz := fun _ _ _ _ => 0) (m := 0) (fun _ _ _ => PolyDer.const _) (fun _ _ _ => PolyDer.const _) (fun _ _ _ => PolyDer.const _)
      (R0 := fun p q s => J3 vert (emb ![p, q, s]) 0) (R1 := fun p q s => J3 vert (emb ![p, q, s]) 1) (R2 := fun p q s => J3 vert (emb ![p, q, s]) 2)
      (fun p q s k => by rw [(hJ _ k).1, emb3_1, emb3_2]) (fun p q s k => by rw [(hJ _ k).2.1, emb3_0, emb3_2])
      (fun p q s k => by rw [(hJ _ k).2.2, emb3_0, emb3_1])).symm.trans ?_
    simp [triple, Q]

/-- **C107** (segments): every boundary integral over the ends of a segment is 0. -/
theorem C107_line_zero (vert : Nat → Nat → ℝ) (kern : (Nat → ℝ) → (Fin 1 → ℝ) → ℝ) (r : Rule1) : surfaceIntegral .line vert kern r = some 0 := by
  have h : ∀ s, s < 2 → ∀ u : Fin 0 → ℝ, sideTerm .line vert s kern u = some 0 := fun s hs u =>
    (sideTerm_of (t := .line) (p := ![sgn s]) (v := normalLine s) (m := 0) (sidePoint_line s hs u) rfl rfl).trans (congrArg some (zero_mul _))
  have g : ∀ s, s < 2 → sideIntegral .line vert kern r s = some 0 := by
    intro s hs
    show (List.mapM (fun uw : (Fin 0 → ℝ) × ℝ => (sideTerm .line vert s kern uw.1).map (· * uw.2)) [(fun _ => 0, 1)]).map List.sum = some 0
    rw [List.mapM_cons, h s hs, List.mapM_nil]
    exact congrArg some (by simp)
  unfold surfaceIntegral
  have hn : List.range (nSides .line) = [0, 1] := rfl
  rw [hn, List.mapM_cons, g 0 (by decide), List.mapM_cons, g 1 (by decide), List.mapM_nil]
  exact congrArg some (by simp)

/-- The segment from -1 to 1 and the field equal to the coordinate. -/
def segVert : Nat → Nat → ℝ := fun i _ => if i = 0 then -1 else 1

/-- **C107 is violated** on segments: the derivative of the coordinate integrates to 2, the boundary terms to 0. -/
theorem C107_violated : ¬ C107Statement ∧ (∀ r, IsReferenceRule 0 r → surfaceIntegral .line segVert (flux .line 2 absc1 segVert) r = some 0 ∧
    AsmOrd.elemIntegral .line segVert (divergence .line 2 absc1 segVert segVert) r = 2) := by
  have hJ : ∀ p, jacobiMat .line segVert p = (1 : Matrix (Fin 1) (Fin 1) ℝ) := by
    intro p
    ext i k
    refine (foldl_sum _ _).trans ?_
    have : i = k := Subsingleton.elim (α := Fin 1) _ _
    subst this
    refine Eq.trans ?_ (Matrix.one_apply_eq (n := Fin 1) i).symm
    simp only [nVerts, Finset.sum_range_succ, Finset.sum_range_zero, shapeDer, basisDer, lineDer_two_zero, lineDer_two_one, segVert]
    norm_num
  have hdet : ∀ p, (jacobiMat .line segVert p).det = 1 := fun p => by
    rw [hJ]; exact Matrix.det_one (n := Fin 1)
  have key : ∀ r, IsReferenceRule 0 r → surfaceIntegral .line segVert (flux .line 2 absc1 segVert) r = some 0 ∧
      AsmOrd.elemIntegral .line segVert (divergence .line 2 absc1 segVert segVert) r = 2 := by
    intro r hr
    refine ⟨C107_line_zero _ _ _, ?_⟩
    rw [AsmOrd.rule_zero r hr, elemIntegral_cof _ _ _ _ _ _ fun pw _ => by rw [hdet]; norm_num]
    have hc : ∀ p, cofDiv .line 2 absc1 segVert segVert p = 1 := by
      intro p
      unfold cofDiv
      rw [hJ]
      show ∑ k : Fin 1, ∑ a : Fin 1, (1 : Matrix (Fin 1) (Fin 1) ℝ).adjugate k a * fieldDer .line 2 absc1 segVert a k p = 1
      rw [Matrix.adjugate_one, Fin.sum_univ_one, Fin.sum_univ_one, Matrix.one_apply_eq, one_mul]
      unfold fieldDer
      simp only [ElType.dim, pow_one, Finset.sum_range_succ, Finset.sum_range_zero, basisDer, lineDer_two_zero, lineDer_two_one, segVert]
      norm_num
    rw [evalQuadrature_eq]
    simp [AsmOrd.elemRule, hc]
  refine ⟨fun h => ?_, key⟩
  obtain ⟨r, hr, _⟩ := C66_unique 0
  have := h .line 1 absc1 segVert segVert 0 r hr (by decide) fun pw _ => by rw [hdet]; norm_num
  rw [(key r hr).1, (key r hr).2] at this
  norm_num at this

/-- A trapezium. -/
def trapVert : Nat → Nat → ℝ := fun i k => if k = 0 then (if i % 2 = 0 then -1 else 1) else (if i < 2 then -1 else if i = 2 then 1 else 2)

/-- Three equally spaced nodes. -/
def absc2 : Nat → ℝ := fun i => (i : ℝ) - 1

/-- The nodal values of the square of the first reference coordinate, second component 0. -/
def sqField : Nat → Nat → ℝ := fun b k => if k = 0 then absc2 (b % 3) ^ 2 else 0

theorem line3 (t : ℝ) : line 3 absc2 0 t = t * (t - 1) / 2 ∧ line 3 absc2 1 t = 1 - t ^ 2 ∧ line 3 absc2 2 t = t * (t + 1) / 2 := by
  refine ⟨?_, ?_, ?_⟩ <;>
  simp [line, linePoly, lagrangeInterp, lagCoefs, toList, rootPoly, mulRoot, otherRoots, evaluate, Function.update, absc2, List.range_succ] <;> ring

theorem lineDer3 (t : ℝ) : lineDer 3 absc2 0 t = t - 1 / 2 ∧ lineDer 3 absc2 1 t = -2 * t ∧ lineDer 3 absc2 2 t = t + 1 / 2 := by
  refine ⟨?_, ?_, ?_⟩ <;>
  simp [lineDer, linePoly, lagrangeInterp, lagCoefs, toList, rootPoly, mulRoot, otherRoots, evaluate, derivative, derCoefs, Function.update, absc2,
    List.range_succ] <;> ring

theorem sq_val (p : Nat → ℝ) : fieldVal .quad 3 absc2 sqField 0 p = p 0 ^ 2 ∧ fieldVal .quad 3 absc2 sqField 1 p = 0 := by
  constructor
  · simp only [fieldVal, ElType.dim, basisFun, Basis.quad, sqField]
    norm_num [Finset.sum_range_succ, (line3 _).1, (line3 _).2.1, (line3 _).2.2, absc2]
    ring
  · simp [fieldVal, sqField]

theorem sq_der (p : Nat → ℝ) : fieldDer .quad 3 absc2 sqField 0 0 p = 2 * p 0 ∧ fieldDer .quad 3 absc2 sqField 1 0 p = 0 ∧
    ∀ a, fieldDer .quad 3 absc2 sqField a 1 p = 0 := by
  refine ⟨?_, ?_, fun a => by simp [fieldDer, sqField]⟩
  · simp only [fieldDer, ElType.dim, basisDer, quadDerXi, sqField]
    norm_num [Finset.sum_range_succ, (line3 _).1, (line3 _).2.1, (line3 _).2.2, (lineDer3 _).1, (lineDer3 _).2.1, (lineDer3 _).2.2, absc2]
    ring
  · simp only [fieldDer, ElType.dim, basisDer, quadDerEta, sqField]
    norm_num [Finset.sum_range_succ, (line3 _).1, (line3 _).2.1, (line3 _).2.2, (lineDer3 _).1, (lineDer3 _).2.1, (lineDer3 _).2.2, absc2]
    ring

theorem trap_jac (p : Nat → ℝ) (k : Fin 2) : J2 trapVert p 0 k = (![1, 1 / 4] : Fin 2 → ℝ) k + (![0, 1 / 4] : Fin 2 → ℝ) k * p 1 ∧
    J2 trapVert p 1 k = (![0, 5 / 4] : Fin 2 → ℝ) k + (![0, 1 / 4] : Fin 2 → ℝ) k * p 0 := by
  constructor <;> rw [J2_entry] <;> simp only [Finset.sum_range_succ, Finset.sum_range_zero, shapeDer] <;> fin_cases k <;>
    norm_num [basisDer, quadDerXi, quadDerEta, line_two_zero, line_two_one, lineDer_two_zero, lineDer_two_one, trapVert] <;> ring

/-- **C107**, the quadrature of the library's own choice: for an integrand with one derivative and no values (`value_order = 0`,
`derivative_order = 1`) on elements of order 2 a single point is used, and the balance fails on a trapezium with positive jacobians: the
flux of `(ξ², 0)` is 1, its divergence integrates to 0. -/
theorem C107_order_violated : (∀ p : Nat → ℝ, -1 ≤ p 0 → 0 < (jacobiMat .quad trapVert p).det) ∧
    ∀ r, IsReferenceRule (AsmOrd.integralOrder 0 1 2) r →
      surfaceIntegral .quad trapVert (flux .quad 3 absc2 sqField) r = some 1 ∧
      AsmOrd.elemIntegral .quad trapVert (divergence .quad 3 absc2 trapVert sqField) r = 0 := by
  have hdet : ∀ p : Nat → ℝ, -1 ≤ p 0 → 0 < (jacobiMat .quad trapVert p).det := by
    intro p hp
    show 0 < (J2 trapVert p).det
    rw [Matrix.det_fin_two, (trap_jac p 0).1, (trap_jac p 1).1, (trap_jac p 0).2, (trap_jac p 1).2]
    simp
    linarith
  refine ⟨hdet, fun r hr => ?_⟩
  have h1 : IsReferenceRule 1 r := hr
  have h0 : IsReferenceRule 0 r := h1
  have hr0 := AsmOrd.rule_zero r h0
  subst hr0
  constructor
  · refine (surface_quad trapVert (fun k p => fieldVal .quad 3 absc2 sqField k p) _ trap_jac).trans (congrArg some ?_)
    simp only [Q, List.map_cons, List.map_nil, List.sum_cons, List.sum_nil, pair]
    simp [(sq_val _).1, (sq_val _).2, emb]
    norm_num
  · rw [elemIntegral_cof _ _ _ _ _ _ fun pw hp => (hdet _ (by
      simp only [AsmOrd.elemRule, quadRule, List.flatMap_cons, List.flatMap_nil, List.map_cons, List.map_nil, List.append_nil, List.mem_singleton] at hp
      rw [hp]; simp [SumOp.coords2])).ne']
    rw [evalQuadrature_eq]
    have hc : cofDiv .quad 3 absc2 trapVert sqField (SumOp.coords2 (0, 0)) = 0 := by
      show ∑ k : Fin 2, ∑ a : Fin 2, (J2 trapVert (SumOp.coords2 (0, 0))).adjugate k a * fieldDer .quad 3 absc2 sqField a k (SumOp.coords2 (0, 0)) = 0
      rw [Fin.sum_univ_two, Fin.sum_univ_two, Fin.sum_univ_two]
      simp [(sq_der _).1, (sq_der _).2.1, (sq_der _).2.2, SumOp.coords2]
    simp [AsmOrd.elemRule, quadRule, hc]

/-! ## Examples -/

/-- The same element and field with the rule of order 2: the balance holds. -/
example (r : Rule1) (hr : IsReferenceRule 2 r) :
    surfaceIntegral .quad trapVert (flux .quad 3 absc2 sqField) r =
      some (AsmOrd.elemIntegral .quad trapVert (divergence .quad 3 absc2 trapVert sqField) r) := by
  refine C107_partial .quad (by decide) 2 absc2 trapVert sqField 2 r hr (by decide) fun pw hp => (C107_order_violated.1 _ ?_).ne'
  obtain ⟨qw, hq, rfl⟩ := List.mem_map.1 hp
  obtain ⟨p, hp1, hq1⟩ := List.mem_flatMap.1 hq
  obtain ⟨q, _, rfl⟩ := List.mem_map.1 hq1
  show -1 ≤ SumOp.coords2 (p.1, q.1) 0
  simpa [SumOp.coords2] using ((C66_points 2 r hr).2.1 p hp1).1.le

example (r : Rule1) (hr : IsReferenceRule 0 r) : surfaceIntegral .quad trapVert (fun _ v => ∑ k, v k * (fun _ => 1 : Fin 2 → ℝ) k) r = some 0 :=
  C107_closed .quad (by decide) trapVert 0 r hr _

example : ∃ m v, boundaryJacobian .hex 3 (1 : Matrix (Fin 3) (Fin 3) ℝ) = some m ∧ boundaryNormal .hex 3 (1 : Matrix (Fin 3) (Fin 3) ℝ) = some v ∧
    m • v = sgn 3 • fun k => (1 : Matrix (Fin 3) (Fin 3) ℝ).adjugate k (axis .hex 3) :=
  C107_area_vector .hex (by decide) 3 (by decide) _

end Verif.Flux
