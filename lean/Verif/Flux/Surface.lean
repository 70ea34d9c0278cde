import Verif.Flux.Core

/-!
# Lemmas: the two sides of the balance in the form of `core2`, `core3`
-/
namespace Verif.Flux
open Verif.Elem Verif.Mapping Verif.Quad Verif.Poly Verif.Basis Matrix

theorem mapM_some {A B : Type} {f : A → Option B} {g : A → B} (l : List A) (h : ∀ a ∈ l, f a = some (g a)) : l.mapM f = some (l.map g) := by
  induction l with
  | nil => rfl
  | cons a l ih =>
    rw [List.mapM_cons, h a (by simp), ih fun b hb => h b (by simp [hb])]; rfl

/-- Component `k` of the derivative by reference coordinate `a`. -/
noncomputable def fieldDer (t : ElType) (n : Nat) (x : Nat → ℝ) (u : Nat → Nat → ℝ) (a k : Nat) (p : Nat → ℝ) : ℝ :=
  ∑ b ∈ Finset.range (n ^ t.dim), u b k * basisDer t n x a b p

/-- The determinant cancels the inverse. -/
theorem det_divergence (t : ElType) (n : Nat) (x : Nat → ℝ) (vert : Nat → Nat → ℝ) (u : Nat → Nat → ℝ) (p : Nat → ℝ)
    (h : (jacobiMat t vert p).det ≠ 0) : (jacobiMat t vert p).det * divergence t n x vert u p =
      ∑ k : Fin t.dim, ∑ a : Fin t.dim, (jacobiMat t vert p).adjugate k a * fieldDer t n x u a k p := by
  unfold divergence
  rw [Finset.sum_range, Finset.mul_sum]
  refine Finset.sum_congr rfl fun k _ => ?_
  have e : ∀ b ∈ Finset.range (n ^ t.dim), SumOp.physDer t n x vert p k b * u b k =
      ∑ a : Fin t.dim, (jacobiMat t vert p)⁻¹ k a * (u b k * basisDer t n x a b p) := by
    intro b hb
    rw [SumOp.physDer, dif_pos ⟨k.2, Finset.mem_range.1 hb⟩, physBasisDers, Matrix.mul_apply, Finset.sum_mul]
    exact Finset.sum_congr rfl fun a _ => by rw [refBasisDers]; ring
  rw [Finset.sum_congr rfl e, Finset.sum_comm, Finset.mul_sum]
  refine Finset.sum_congr rfl fun a _ => ?_
  rw [← Finset.mul_sum, ← mul_assoc, fieldDer]
  congr 1
  rw [Matrix.inv_def, Matrix.smul_apply, Ring.inverse_eq_inv', smul_eq_mul, ← mul_assoc, mul_inv_cancel₀ h, one_mul]

/-! ## Quadrilaterals -/

theorem sideTerm_of {t : ElType} {vert : Nat → Nat → ℝ} {s : Nat} {kern : (Nat → ℝ) → (Fin t.dim → ℝ) → ℝ} {u : Fin (t.dim - 1) → ℝ} {p v : Fin t.dim → ℝ}
    {m : ℝ} (hp : sidePoint t s u = some p) (hv : boundaryNormal t s (jacobiMat t vert (emb p)) = some v)
    (hm : boundaryJacobian t s (jacobiMat t vert (emb p)) = some m) : sideTerm t vert s kern u = some (m * kern (emb p) v) := by
  rw [sideTerm, hp, Option.bind_some, hv, Option.bind_some, hm, Option.map_some]

/-- A side of a quadrilateral; `p a` is the point, `A a` the area vector. -/
theorem side_quad (vert : Nat → Nat → ℝ) (F : Fin 2 → (Nat → ℝ) → ℝ) (r : Rule1) (s : Nat) (hs : s < 4) (ax : Fin 2) (hax : axis .quad s = ax)
    (g : ℝ → ℝ) (hg : ∀ a, g a = ∑ k, sgn s * (J2 vert (emb (quadPt s a))).adjugate k ax * F k (emb (quadPt s a))) :
    sideIntegral .quad vert (fun p (v : Fin 2 → ℝ) => ∑ k, v k * F k p) r s = some (Q r g) := by
  have h : ∀ u : Fin 1 → ℝ, sideTerm .quad vert s (fun p (v : Fin 2 → ℝ) => ∑ k, v k * F k p) u = some (g (u 0)) := by
    intro u
    obtain ⟨m, v, h1, h2, h3⟩ := area_quad s hs (J2 vert (emb (quadPt s (u 0))))
    refine (sideTerm_of (t := .quad) (sidePoint_quad s hs u) h2 h1).trans (congrArg some ?_)
    rw [hg]
    show m * ∑ k, v k * F k (emb (quadPt s (u 0))) = _
    rw [Finset.mul_sum]
    refine Finset.sum_congr rfl fun k _ => ?_
    have := congrFun h3 k
    rw [hax] at this
    simp only [Pi.smul_apply, smul_eq_mul] at this
    rw [← mul_assoc, this]
  unfold sideIntegral
  rw [mapM_some (g := fun uw => g (uw.1 (0 : Fin 1)) * uw.2) _ fun uw _ => by rw [h uw.1, Option.map_some], Option.map_some]
  refine congrArg some ?_
  simp only [sideRule, Q, List.map_map]
  rfl

theorem emb2_0 (p q : ℝ) : emb (![p, q] : Fin 2 → ℝ) 0 = p := by simp [emb]
theorem emb2_1 (p q : ℝ) : emb (![p, q] : Fin 2 → ℝ) 1 = q := by simp [emb]

theorem surface_quad (vert : Nat → Nat → ℝ) (F : Fin 2 → (Nat → ℝ) → ℝ) (r : Rule1) {b c d : Fin 2 → ℝ}
    (hJ : ∀ (p : Nat → ℝ) (k : Fin 2), J2 vert p 0 k = b k + d k * p 1 ∧ J2 vert p 1 k = c k + d k * p 0) :
    surfaceIntegral .quad vert (fun p (v : Fin 2 → ℝ) => ∑ k, v k * F k p) r = some (
      Q r (fun a => -pair (fun k => b k + d k * 1) fun k => F k (emb ![a, 1])) +
      Q r (fun a => pair (fun k => b k + d k * (-1)) fun k => F k (emb ![-a, -1])) +
      Q r (fun a => pair (fun k => c k + d k * 1) fun k => F k (emb ![1, a])) +
      Q r (fun a => -pair (fun k => c k + d k * (-1)) fun k => F k (emb ![-1, -a]))) := by
  have e0 : ∀ p : Nat → ℝ, (J2 vert p).adjugate = !![c 1 + d 1 * p 0, -(b 1 + d 1 * p 1); -(c 0 + d 0 * p 0), b 0 + d 0 * p 1] := by
    intro p; rw [Matrix.adjugate_fin_two]; simp only [(hJ p _).1, (hJ p _).2]
  have s0 := side_quad vert F r 0 (by decide) 1 rfl (fun a => pair (fun k => b k + d k * (-1)) fun k => F k (emb ![-a, -1])) fun a => by
    show _ = ∑ k, sgn 0 * (J2 vert (emb ![-a, -1])).adjugate k 1 * F k (emb ![-a, -1])
    rw [e0, Fin.sum_univ_two, emb2_0, emb2_1]; simp [sgn, pair]; ring
  have s1 := side_quad vert F r 1 (by decide) 1 rfl (fun a => -pair (fun k => b k + d k * 1) fun k => F k (emb ![a, 1])) fun a => by
    show _ = ∑ k, sgn 1 * (J2 vert (emb ![a, 1])).adjugate k 1 * F k (emb ![a, 1])
    rw [e0, Fin.sum_univ_two, emb2_0, emb2_1]; simp [sgn, pair]; ring
  have s2 := side_quad vert F r 2 (by decide) 0 rfl (fun a => -pair (fun k => c k + d k * (-1)) fun k => F k (emb ![-1, -a])) fun a => by
    show _ = ∑ k, sgn 2 * (J2 vert (emb ![-1, -a])).adjugate k 0 * F k (emb ![-1, -a])
    rw [e0, Fin.sum_univ_two, emb2_0, emb2_1]; simp [sgn, pair]; ring
  have s3 := side_quad vert F r 3 (by decide) 0 rfl (fun a => pair (fun k => c k + d k * 1) fun k => F k (emb ![1, a])) fun a => by
    show _ = ∑ k, sgn 3 * (J2 vert (emb ![1, a])).adjugate k 0 * F k (emb ![1, a])
    rw [e0, Fin.sum_univ_two, emb2_0, emb2_1]; simp [sgn, pair]; ring
  unfold surfaceIntegral
  have n : List.range (nSides .quad) = [0, 1, 2, 3] := rfl
  rw [n, List.mapM_cons, s0, List.mapM_cons, s1, List.mapM_cons, s2, List.mapM_cons, s3, List.mapM_nil]
  refine congrArg some ?_
  simp only [List.sum_cons, List.sum_nil]
  ring

/-! ## Hexahedra -/

theorem side_hex (vert : Nat → Nat → ℝ) (F : Fin 3 → (Nat → ℝ) → ℝ) (r : Rule1) (s : Nat) (hs : s < 6) (ax : Fin 3) (hax : axis .hex s = ax)
    (g : ℝ → ℝ → ℝ) (hg : ∀ a b, g a b = ∑ k, sgn s * (J3 vert (emb (hexPt s a b))).adjugate k ax * F k (emb (hexPt s a b))) :
    sideIntegral .hex vert (fun p (v : Fin 3 → ℝ) => ∑ k, v k * F k p) r s = some (Q r fun a => Q r fun b => g a b) := by
  have h : ∀ u : Fin 2 → ℝ, sideTerm .hex vert s (fun p (v : Fin 3 → ℝ) => ∑ k, v k * F k p) u = some (g (u 0) (u 1)) := by
    intro u
    obtain ⟨m, v, h1, h2, h3⟩ := area_hex s hs (J3 vert (emb (hexPt s (u 0) (u 1))))
    refine (sideTerm_of (t := .hex) (sidePoint_hex s hs u) h2 h1).trans (congrArg some ?_)
    rw [hg]
    show m * ∑ k, v k * F k (emb (hexPt s (u 0) (u 1))) = _
    rw [Finset.mul_sum]
    refine Finset.sum_congr rfl fun k _ => ?_
    have := congrFun h3 k
    rw [hax] at this
    simp only [Pi.smul_apply, smul_eq_mul] at this
    rw [← mul_assoc, this]
  unfold sideIntegral
  rw [mapM_some (g := fun uw => g (uw.1 (0 : Fin 2)) (uw.1 (1 : Fin 2)) * uw.2) _ fun uw _ => by rw [h uw.1, Option.map_some], Option.map_some]
  refine congrArg some ?_
  rw [← quadRule_sum r fun p => g p.1 p.2]
  simp only [sideRule, List.map_map]
  rfl

theorem emb3_0 (p q w : ℝ) : emb (![p, q, w] : Fin 3 → ℝ) 0 = p := by simp [emb]
theorem emb3_1 (p q w : ℝ) : emb (![p, q, w] : Fin 3 → ℝ) 1 = q := by simp [emb]
theorem emb3_2 (p q w : ℝ) : emb (![p, q, w] : Fin 3 → ℝ) 2 = w := by simp [emb]

theorem surface_hex (vert : Nat → Nat → ℝ) (F : Fin 3 → (Nat → ℝ) → ℝ) (r : Rule1) {J : ℝ → ℝ → ℝ → Fin 3 → Fin 3 → ℝ}
    {V : ℝ → ℝ → ℝ → Fin 3 → ℝ} (hJ : ∀ x y z i k, J3 vert (emb ![x, y, z]) i k = J x y z i k) (hV : ∀ x y z k, F k (emb ![x, y, z]) = V x y z k) :
    surfaceIntegral .hex vert (fun p (v : Fin 3 → ℝ) => ∑ k, v k * F k p) r = some (
      Q r (fun p => Q r fun q => triple (J p q 1 0) (J p q 1 1) (V p q 1)) -
        Q r (fun p => Q r fun q => triple (J p (-q) (-1) 0) (J p (-q) (-1) 1) (V p (-q) (-1))) +
      (Q r (fun p => Q r fun q => triple (J p 1 q 2) (J p 1 q 0) (V p 1 q)) -
        Q r (fun p => Q r fun q => triple (J p (-1) (-q) 2) (J p (-1) (-q) 0) (V p (-1) (-q)))) +
      (Q r (fun p => Q r fun q => triple (J 1 q p 1) (J 1 q p 2) (V 1 q p)) -
        Q r (fun p => Q r fun q => triple (J (-1) q (-p) 1) (J (-1) q (-p) 2) (V (-1) q (-p))))) := by
  have n : ∀ g : ℝ → ℝ → ℝ, Q r (fun a => Q r fun b => -g a b) = -Q r fun a => Q r fun b => g a b := fun g => by
    have := Q_mul r (fun a => Q r fun b => g a b) (-1)
    rw [mul_neg_one] at this
    rw [← this]
    refine Q_congr fun pw _ => ?_
    rw [← Q_mul]
    exact Q_congr fun _ _ => (mul_neg_one _).symm
  have s0 := side_hex vert F r 0 (by decide) 2 rfl (fun p q => -triple (J p (-q) (-1) 0) (J p (-q) (-1) 1) (V p (-q) (-1))) fun p q => by
    show _ = ∑ k, sgn 0 * (J3 vert (emb ![p, -q, -1])).adjugate k 2 * F k (emb ![p, -q, -1])
    rw [Matrix.adjugate_fin_three, Fin.sum_univ_three]; simp only [hV, hJ]; simp [sgn, triple]; ring
  have s1 := side_hex vert F r 1 (by decide) 2 rfl (fun p q => triple (J p q 1 0) (J p q 1 1) (V p q 1)) fun p q => by
    show _ = ∑ k, sgn 1 * (J3 vert (emb ![p, q, 1])).adjugate k 2 * F k (emb ![p, q, 1])
    rw [Matrix.adjugate_fin_three, Fin.sum_univ_three]; simp only [hV, hJ]; simp [sgn, triple]; left; ring
  have s2 := side_hex vert F r 2 (by decide) 1 rfl (fun p q => -triple (J p (-1) (-q) 2) (J p (-1) (-q) 0) (V p (-1) (-q))) fun p q => by
    show _ = ∑ k, sgn 2 * (J3 vert (emb ![p, -1, -q])).adjugate k 1 * F k (emb ![p, -1, -q])
    rw [Matrix.adjugate_fin_three, Fin.sum_univ_three]; simp only [hV, hJ]; simp [sgn, triple]; ring
  have s3 := side_hex vert F r 3 (by decide) 1 rfl (fun p q => triple (J p 1 q 2) (J p 1 q 0) (V p 1 q)) fun p q => by
    show _ = ∑ k, sgn 3 * (J3 vert (emb ![p, 1, q])).adjugate k 1 * F k (emb ![p, 1, q])
    rw [Matrix.adjugate_fin_three, Fin.sum_univ_three]; simp only [hV, hJ]; simp [sgn, triple]; ring
  have s4 := side_hex vert F r 4 (by decide) 0 rfl (fun p q => -triple (J (-1) q (-p) 1) (J (-1) q (-p) 2) (V (-1) q (-p))) fun p q => by
    show _ = ∑ k, sgn 4 * (J3 vert (emb ![-1, q, -p])).adjugate k 0 * F k (emb ![-1, q, -p])
    rw [Matrix.adjugate_fin_three, Fin.sum_univ_three]; simp only [hV, hJ]; simp [sgn, triple]; ring
  have s5 := side_hex vert F r 5 (by decide) 0 rfl (fun p q => triple (J 1 q p 1) (J 1 q p 2) (V 1 q p)) fun p q => by
    show _ = ∑ k, sgn 5 * (J3 vert (emb ![1, q, p])).adjugate k 0 * F k (emb ![1, q, p])
    rw [Matrix.adjugate_fin_three, Fin.sum_univ_three]; simp only [hV, hJ]; simp [sgn, triple]; left; ring
  unfold surfaceIntegral
  have hn : List.range (nSides .hex) = [0, 1, 2, 3, 4, 5] := rfl
  rw [hn, List.mapM_cons, s0, List.mapM_cons, s1, List.mapM_cons, s2, List.mapM_cons, s3, List.mapM_cons, s4, List.mapM_cons, s5,
    List.mapM_nil]
  refine congrArg some ?_
  simp only [List.sum_cons, List.sum_nil]
  rw [n, n, n]
  ring

end Verif.Flux
