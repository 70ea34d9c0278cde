import Verif.Patch.Spec
import Verif.Flux.Props
import Mathlib.Analysis.Calculus.TangentCone.Real
import Mathlib.Analysis.Calculus.TangentCone.Pi

/-! # Lemmas for C109 -/
namespace Verif.Patch
open Verif.Elem Verif.Mapping Verif.Quad Verif.Basis Verif.Poly Finset

theorem cube_unique (d : Nat) : UniqueDiffOn ℝ (cube d) := by
  unfold cube
  rw [← Set.pi_univ_Icc]
  exact UniqueDiffOn.univ_pi fun _ => uniqueDiffOn_Icc (by norm_num)

theorem basisFun_congr (t : ElType) (n : Nat) (x : Nat → ℝ) (i : Nat) {p q : Nat → ℝ} (h : ∀ k, k < t.dim → p k = q k) :
    basisFun t n x i p = basisFun t n x i q := by
  cases t with
  | line => simp only [basisFun, h 0 (by decide)]
  | quad => simp only [basisFun, h 0 (by decide), h 1 (by decide)]
  | hex => simp only [basisFun, h 0 (by decide), h 1 (by decide), h 2 (by decide)]

theorem phys_congr (t : ElType) (vert : Nat → Nat → ℝ) {p q : Nat → ℝ} (h : ∀ k, k < t.dim → p k = q k) (k : Nat) :
    mapToPhysical t vert p k = mapToPhysical t vert q k := by
  simp only [mapToPhysical, valueAt, shape, basisFun_congr t 2 absc1 _ h]

theorem mono_eval (n m : Nat) (s : ℝ) : evaluate (lift n (1 :: List.replicate m 0)) s = s ^ m := by
  have h0 : toPoly (List.replicate m (0 : ℝ)) = 0 := by
    unfold toPoly
    refine Finset.sum_eq_zero fun i hi => ?_
    rw [getD_lt _ _ (Finset.mem_range.1 hi)]
    simp
  rw [lift_eval, evaluate_eq, toPoly_cons, h0]
  simp

theorem mono_length (n : Nat) (m : Fin n) : (lift n (1 :: List.replicate m (0 : ℝ))).length = n :=
  lift_length n _ (by simp)

/-- Monomials are reproduced from their values at the nodes. -/
theorem mono_reproduced (t : ElType) (n : Nat) (x : Nat → ℝ) (hn : 0 < n) (hx : Set.InjOn x (Set.Iio n)) (m : Fin t.dim → Fin n) (p : Nat → ℝ) :
    ∑ b ∈ range (n ^ t.dim), (∏ k : Fin t.dim, nodeLoc n x b k ^ (m k : Nat)) * basisFun t n x b p = ∏ k : Fin t.dim, p k ^ (m k : Nat) := by
  cases t with
  | line =>
    change Fin 1 → Fin n at m
    have h := (C68_line n hn x hx).2.2.2.2 _ (mono_length n (m 0)) (p 0)
    simp only [valueAt, list_range_sum, mono_eval] at h
    show ∑ b ∈ range (n ^ 1), (∏ k : Fin 1, nodeLoc n x b k ^ (m k : Nat)) * line n x b (p 0) = ∏ k : Fin 1, p k ^ (m k : Nat)
    rw [Fin.prod_univ_one, Fin.val_zero, ← h, pow_one]
    refine sum_congr rfl fun b hb => ?_
    rw [Fin.prod_univ_one, Fin.val_zero, nodeLoc, pow_zero, Nat.div_one, Nat.mod_eq_of_lt (mem_range.1 hb)]
  | quad =>
    change Fin 2 → Fin n at m
    have h := (C68_quad n hn x hx).2.2.2.2.2 _ _ (mono_length n (m 0)) (mono_length n (m 1)) (p 0, p 1)
    simp only [valueAt, list_range_sum, mono_eval] at h
    show ∑ b ∈ range (n ^ 2), (∏ k : Fin 2, nodeLoc n x b k ^ (m k : Nat)) * Basis.quad n x b (p 0, p 1) = ∏ k : Fin 2, p k ^ (m k : Nat)
    rw [Fin.prod_univ_two, Fin.val_zero, Fin.val_one, ← h, pow_two]
    refine sum_congr rfl fun b hb => ?_
    rw [Fin.prod_univ_two, Fin.val_zero, Fin.val_one, nodeLoc, nodeLoc, pow_zero, pow_one, Nat.div_one,
      Nat.mod_eq_of_lt (show b / n < n from Nat.div_lt_of_lt_mul (mem_range.1 hb))]
  | hex =>
    change Fin 3 → Fin n at m
    have h := (C68_hex n hn x hx).2.2.2.2.2.2 _ _ _ (mono_length n (m 0)) (mono_length n (m 1)) (mono_length n (m 2)) (p 0, p 1, p 2)
    simp only [valueAt, list_range_sum, mono_eval] at h
    show ∑ b ∈ range (n ^ 3), (∏ k : Fin 3, nodeLoc n x b k ^ (m k : Nat)) * Basis.hex n x b (p 0, p 1, p 2) = ∏ k : Fin 3, p k ^ (m k : Nat)
    rw [Fin.prod_univ_three, Fin.val_zero, Fin.val_one, Fin.val_two, ← h, show n ^ 3 = n * n * n by ring]
    refine sum_congr rfl fun b hb => ?_
    have hb' : b < n * n * n := mem_range.1 hb
    rw [Fin.prod_univ_three, Fin.val_zero, Fin.val_one, Fin.val_two, nodeLoc, nodeLoc, nodeLoc, pow_zero, pow_one, Nat.div_one, pow_two,
      Nat.mod_eq_of_lt (show b / (n * n) < n from Nat.div_lt_of_lt_mul hb'), ← Nat.mod_mul_left_mod b n n, ← Nat.mod_mul_right_div_self b n n]

theorem nodeLoc_cube {t : ElType} {n : Nat} {x : Nat → ℝ} (hn : 0 < n) (h : ∀ i < n, -1 ≤ x i ∧ x i ≤ 1) (b : Nat) :
    (fun k : Fin t.dim => nodeLoc n x b k) ∈ cube t.dim :=
  ⟨fun _ => (h _ (Nat.mod_lt _ hn)).1, fun _ => (h _ (Nat.mod_lt _ hn)).2⟩

/-- The value of the field at a node. -/
noncomputable def nodeVal (t : ElType) (n : Nat) (x : Nat → ℝ) (vert : Nat → Nat → ℝ) (g : (Fin t.dim → ℝ) → ℝ) (b : Nat) : ℝ :=
  g fun k => nodePhysicalLocation t vert (nodeLoc n x b) k

/-- Fields of the space are reproduced on the element from their values at the nodes. -/
theorem space_reproduced {t : ElType} {n : Nat} {x : Nat → ℝ} {vert : Nat → Nat → ℝ} {g : (Fin t.dim → ℝ) → ℝ} (hn : 0 < n)
    (hx : Set.InjOn x (Set.Iio n)) (hc : ∀ i < n, -1 ≤ x i ∧ x i ≤ 1) (hg : InSpace t n vert g) (q : Fin t.dim → ℝ) (hq : q ∈ cube t.dim) :
    g (phys t vert q) = ∑ b ∈ range (n ^ t.dim), nodeVal t n x vert g b * basisFun t n x b (emb q) := by
  obtain ⟨ts, h⟩ := hg
  have hv : ∀ b, nodeVal t n x vert g b = (ts.map fun m => m.1 * ∏ k : Fin t.dim, nodeLoc n x b k ^ (m.2 k : Nat)).sum := by
    intro b
    rw [← h _ (nodeLoc_cube hn hc b)]
    unfold nodeVal
    congr 1
    funext k
    exact phys_congr t vert (fun k hk => by simp [emb, hk]) k
  rw [h q hq]
  simp only [hv]
  clear h hv
  induction ts with
  | nil => simp
  | cons m ts ih =>
    simp only [List.map_cons, List.sum_cons, add_mul, sum_add_distrib]
    rw [ih]
    congr 1
    simp only [mul_assoc]
    rw [← mul_sum, mono_reproduced t n x hn hx m.2 (emb q)]
    congr 1
    exact prod_congr rfl fun k _ => by simp [emb]

/-- So are their derivatives, also on the boundary of the element. -/
theorem space_derivative {t : ElType} {n : Nat} {x : Nat → ℝ} {vert : Nat → Nat → ℝ} {g : (Fin t.dim → ℝ) → ℝ} (hn : 0 < n)
    (hx : Set.InjOn x (Set.Iio n)) (hc : ∀ i < n, -1 ≤ x i ∧ x i ≤ 1) (hg : InSpace t n vert g) (q : Fin t.dim → ℝ) (hq : q ∈ cube t.dim)
    (hdet : (jacobiMat t vert (emb q)).det ≠ 0) (g' : (Fin t.dim → ℝ) →L[ℝ] ℝ) (hg' : HasFDerivWithinAt g g' (body t vert) (phys t vert q))
    (k : Fin t.dim) : ∑ b ∈ range (n ^ t.dim), SumOp.physDer t n x vert (emb q) k b * nodeVal t n x vert g b = g' (Pi.single k 1) := by
  set w := nodeVal t n x vert g with hw
  have hphi : HasFDerivAt (phys t vert) (ContinuousLinearMap.pi fun k => form fun a => jacobiMat t vert (emb q) a k) q :=
    hasFDerivAt_pi.2 fun k => C81_jacobi t vert q k
  have hcomp := hg'.comp q hphi.hasFDerivWithinAt (Set.mapsTo_image (phys t vert) (cube t.dim))
  have h1 := (combo_hasFDerivAt t n x (n ^ t.dim) w q).hasFDerivWithinAt (s := cube t.dim)
  have h2 := h1.congr (f₁ := g ∘ phys t vert) (fun r hr => (space_reproduced hn hx hc hg r hr).trans (by
    simp only [valueAt, list_range_sum, hw])) ((space_reproduced hn hx hc hg q hq).trans (by simp only [valueAt, list_range_sum, hw]))
  have heq := (cube_unique t.dim q hq).eq h2 hcomp
  have hrow : ((refBasisDers t n x (emb q)).mulVec fun i => w i) = (jacobiMat t vert (emb q)).mulVec fun k => g' (Pi.single k 1) := by
    funext a
    have h3 := congrArg (fun L => L (Pi.single a 1)) heq
    simp only [form_single, ContinuousLinearMap.comp_apply] at h3
    have h4 : (ContinuousLinearMap.pi fun k => form fun a => jacobiMat t vert (emb q) a k) (Pi.single a 1) =
        ∑ k, jacobiMat t vert (emb q) a k • (Pi.single k 1 : Fin t.dim → ℝ) := by
      funext c
      rw [ContinuousLinearMap.pi_apply, form_single, Finset.sum_apply, Finset.sum_eq_single c]
      · simp
      · intro b _ hb; simp [hb.symm]
      · simp
    rw [h4, map_sum] at h3
    simp only [map_smul, smul_eq_mul] at h3
    change ∑ i : Fin (n ^ t.dim), basisDer t n x a i (emb q) * w i = ∑ k, jacobiMat t vert (emb q) a k * g' (Pi.single k 1)
    rw [← h3, ← Fin.sum_univ_eq_sum_range (fun i => w i * basisDer t n x a i (emb q))]
    exact sum_congr rfl fun i _ => mul_comm _ _
  have hu : IsUnit (jacobiMat t vert (emb q)).det := isUnit_iff_ne_zero.2 hdet
  have h5 : ((physBasisDers (jacobiMat t vert (emb q)) (refBasisDers t n x (emb q))).mulVec fun i => w i) = fun k => g' (Pi.single k 1) := by
    rw [physBasisDers, ← Matrix.mulVec_mulVec, hrow, Matrix.mulVec_mulVec, Matrix.nonsing_inv_mul _ hu, Matrix.one_mulVec]
  rw [← congrFun h5 k, ← Fin.sum_univ_eq_sum_range (fun b => SumOp.physDer t n x vert (emb q) k b * w b)]
  refine sum_congr rfl fun i _ => ?_
  unfold SumOp.physDer
  rw [dif_pos ⟨k.2, i.2⟩]

end Verif.Patch
