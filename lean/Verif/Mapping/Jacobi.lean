import Verif.Mapping.Model
import Verif.Basis.Props
import Mathlib.Analysis.Calculus.FDeriv.Mul
import Mathlib.Analysis.Calculus.FDeriv.Pi
import Mathlib.Analysis.Calculus.FDeriv.Comp
import Mathlib.Analysis.Calculus.Deriv.Comp
import Mathlib.Tactic.FinCases

/-!
# C81, C82: the Jacobi matrix and physical derivatives
-/
namespace Verif.Mapping
open Verif.Basis Verif.Elem Verif.Poly Matrix

/-- A point of the reference element as coordinates. -/
def emb {d : Nat} (q : Fin d → ℝ) (k : Nat) : ℝ := if h : k < d then q ⟨k, h⟩ else 0

/-- The linear form with the given partial derivatives. -/
noncomputable def form {d : Nat} (g : Fin d → ℝ) : (Fin d → ℝ) →L[ℝ] ℝ :=
  ∑ a, g a • ContinuousLinearMap.proj (R := ℝ) (φ := fun _ : Fin d => ℝ) a

theorem form_apply {d : Nat} (g v : Fin d → ℝ) : form g v = ∑ a, g a * v a := by
  simp [form, ContinuousLinearMap.sum_apply]

theorem form_single {d : Nat} (g : Fin d → ℝ) (a : Fin d) : form g (Pi.single a 1) = g a := by
  rw [form_apply, Finset.sum_eq_single a]
  · simp
  · intro b _ hb; simp [hb]
  · simp

theorem fd1 (n : Nat) (x : Nat → ℝ) (i : Nat) (q : Fin 1 → ℝ) :
    HasFDerivAt (fun q : Fin 1 → ℝ => line n x i (q 0)) (form ![lineDer n x i (q 0)]) q := by
  have hl : ∀ i s, HasDerivAt (line n x i) (lineDer n x i s) s := fun i s => (C68_derivative n x i).1 s
  have h := (hl i (q 0)).comp_hasFDerivAt q (hasFDerivAt_apply (𝕜 := ℝ) (0 : Fin 1) q)
  refine HasFDerivAt.congr_fderiv (f := fun q : Fin 1 → ℝ => line n x i (q 0)) h ?_
  ext v
  rw [form_apply]
  simp

theorem fd2 (n : Nat) (x : Nat → ℝ) (i : Nat) (q : Fin 2 → ℝ) :
    HasFDerivAt (fun q : Fin 2 → ℝ => quad n x i (q 0, q 1))
      (form ![quadDerXi n x i (q 0, q 1), quadDerEta n x i (q 0, q 1)]) q := by
  have hl : ∀ i s, HasDerivAt (line n x i) (lineDer n x i s) s := fun i s => (C68_derivative n x i).1 s
  have h0 := (hl (i % n) (q 0)).comp_hasFDerivAt q (hasFDerivAt_apply (𝕜 := ℝ) (0 : Fin 2) q)
  have h1 := (hl (i / n) (q 1)).comp_hasFDerivAt q (hasFDerivAt_apply (𝕜 := ℝ) (1 : Fin 2) q)
  refine HasFDerivAt.congr_fderiv
    (f := fun q : Fin 2 → ℝ => line n x (i % n) (q 0) * line n x (i / n) (q 1)) (h0.mul h1) ?_
  ext v
  rw [form_apply, Fin.sum_univ_two]
  simp [quadDerXi, quadDerEta]
  ring

theorem fd3 (n : Nat) (x : Nat → ℝ) (i : Nat) (q : Fin 3 → ℝ) :
    HasFDerivAt (fun q : Fin 3 → ℝ => hex n x i (q 0, q 1, q 2))
      (form ![hexDerXi n x i (q 0, q 1, q 2), hexDerEta n x i (q 0, q 1, q 2), hexDerZeta n x i (q 0, q 1, q 2)]) q := by
  have hl : ∀ i s, HasDerivAt (line n x i) (lineDer n x i s) s := fun i s => (C68_derivative n x i).1 s
  have h0 := (hl (i % (n * n) % n) (q 0)).comp_hasFDerivAt q (hasFDerivAt_apply (𝕜 := ℝ) (0 : Fin 3) q)
  have h1 := (hl (i % (n * n) / n) (q 1)).comp_hasFDerivAt q (hasFDerivAt_apply (𝕜 := ℝ) (1 : Fin 3) q)
  have h2 := (hl (i / (n * n)) (q 2)).comp_hasFDerivAt q (hasFDerivAt_apply (𝕜 := ℝ) (2 : Fin 3) q)
  refine HasFDerivAt.congr_fderiv
    (f := fun q : Fin 3 → ℝ => line n x (i % (n * n) % n) (q 0) * line n x (i % (n * n) / n) (q 1) *
      line n x (i / (n * n)) (q 2)) ((h0.mul h1).mul h2) ?_
  ext v
  rw [form_apply, Fin.sum_univ_three]
  simp [hexDerXi, hexDerEta, hexDerZeta, quad, quadDerXi, quadDerEta]
  ring

theorem basisFun_hasFDerivAt (t : ElType) (n : Nat) (x : Nat → ℝ) (i : Nat) (q : Fin t.dim → ℝ) :
    HasFDerivAt (fun q : Fin t.dim → ℝ => basisFun t n x i (emb q))
      (form fun a => basisDer t n x a i (emb q)) q := by
  cases t with
  | line =>
    refine HasFDerivAt.congr_fderiv (fd1 n x i q) (congrArg form (funext fun a => ?_))
    match a with
    | ⟨0, _⟩ => rfl
  | quad =>
    refine HasFDerivAt.congr_fderiv (fd2 n x i q) (congrArg form (funext fun a => ?_))
    match a with
    | ⟨0, _⟩ => rfl
    | ⟨1, _⟩ => rfl
  | hex =>
    refine HasFDerivAt.congr_fderiv (fd3 n x i q) (congrArg form (funext fun a => ?_))
    match a with
    | ⟨0, _⟩ => rfl
    | ⟨1, _⟩ => rfl
    | ⟨2, _⟩ => rfl

/-- Derivative of a combination of basis functions. -/
theorem combo_hasFDerivAt (t : ElType) (n : Nat) (x : Nat → ℝ) (m : Nat) (w : Nat → ℝ) (q : Fin t.dim → ℝ) :
    HasFDerivAt (fun q : Fin t.dim → ℝ => valueAt m (basisFun t n x) w (emb q))
      (form fun a => ∑ i ∈ Finset.range m, w i * basisDer t n x a i (emb q)) q := by
  simp only [valueAt, list_range_sum]
  have h := HasFDerivAt.fun_sum (u := Finset.range m)
    (fun i _ => (basisFun_hasFDerivAt t n x i q).const_mul (w i))
  refine HasFDerivAt.congr_fderiv h ?_
  ext v
  rw [form_apply, ContinuousLinearMap.sum_apply]
  simp only [ContinuousLinearMap.smul_apply, form_apply, smul_eq_mul, Finset.sum_mul, Finset.mul_sum]
  rw [Finset.sum_comm]
  apply Finset.sum_congr rfl; intro a _
  apply Finset.sum_congr rfl; intro i _
  ring

theorem foldl_sum (m : Nat) (f : Nat → ℝ) : (List.range m).foldl (fun acc i => acc + f i) 0 = ∑ i ∈ Finset.range m, f i := by
  induction m with
  | zero => rfl
  | succ m ih => rw [List.range_succ, List.foldl_append, ih, Finset.sum_range_succ]; rfl

theorem jacobiMat_eq (t : ElType) (vert : Nat → Nat → ℝ) (p : Nat → ℝ) (a k : Fin t.dim) :
    jacobiMat t vert p a k = ∑ i ∈ Finset.range (nVerts t), vert i k * shapeDer t a i p := by
  rw [jacobiMat, foldl_sum]

/-- The geometric map in native dimension. -/
noncomputable def phys (t : ElType) (vert : Nat → Nat → ℝ) (q : Fin t.dim → ℝ) : Fin t.dim → ℝ :=
  fun k => mapToPhysical t vert (emb q) k

/-- **C81.** At every point the Jacobi matrix holds the derivatives of the geometric map used to place the
points: row = reference direction, column = space coordinate (Fréchet derivative, so also for every path in
the reference element). -/
theorem C81_jacobi (t : ElType) (vert : Nat → Nat → ℝ) (q : Fin t.dim → ℝ) (k : Fin t.dim) :
    HasFDerivAt (fun q => phys t vert q k) (form fun a => jacobiMat t vert (emb q) a k) q := by
  have h := combo_hasFDerivAt t 2 absc1 (nVerts t) (fun i => vert i k) q
  refine HasFDerivAt.congr_fderiv h ?_
  congr 1
  funext a
  rw [jacobiMat_eq]; rfl

/-- As partial derivatives. -/
theorem C81_partials (t : ElType) (vert : Nat → Nat → ℝ) (q : Fin t.dim → ℝ) (a k : Fin t.dim) :
    HasDerivAt (fun s : ℝ => phys t vert (q + s • Pi.single a 1) k) (jacobiMat t vert (emb q) a k) 0 := by
  have h := C81_jacobi t vert q k
  have hp : HasDerivAt (fun s : ℝ => q + s • (Pi.single a 1 : Fin t.dim → ℝ)) (Pi.single a 1) 0 := by
    have := ((hasDerivAt_id (0 : ℝ)).smul_const (Pi.single a 1 : Fin t.dim → ℝ)).const_add q
    simpa using this
  have h' : HasFDerivAt (fun q => phys t vert q k) (form fun a => jacobiMat t vert (emb q) a k)
      (q + (0 : ℝ) • (Pi.single a 1 : Fin t.dim → ℝ)) := by simpa using h
  have := h'.comp_hasDerivAt (0 : ℝ) hp
  rw [form_single] at this
  exact this

theorem absc1_inj : Set.InjOn absc1 (Set.Iio 2) := by
  intro a ha b hb h
  have h1 : a = 0 ∨ a = 1 := by have : a < 2 := ha; omega
  have h2 : b = 0 ∨ b = 1 := by have : b < 2 := hb; omega
  rcases h1 with rfl | rfl <;> rcases h2 with rfl | rfl <;> simp [absc1] at h ⊢ <;> norm_num at h

/-- **C81** (vertices): the map takes reference corner `i` to vertex `i` in all three coordinates, so the
element has the vertices it was built from. -/
theorem C81_vertices (t : ElType) (vert : Nat → Nat → ℝ) (i : Nat) (hi : i < nVerts t) (k : Nat) :
    nodePhysicalLocation t vert (fun c => absc1 (i / 2 ^ c % 2)) k = vert i k := by
  rw [nodePhysicalLocation, mapToPhysical, valueAt, list_range_sum, Finset.sum_eq_single i]
  · have : shape t i (fun c => absc1 (i / 2 ^ c % 2)) = 1 := by
      rw [node_val t absc1_inj i i hi hi, if_pos rfl]
    rw [this, mul_one]
  · intro j hj hji
    rw [node_val t absc1_inj j i (Finset.mem_range.1 hj) hi, if_neg hji, mul_zero]
  · intro h; exact absurd (Finset.mem_range.2 hi) h
where
  node_val (t : ElType) (hx : Set.InjOn absc1 (Set.Iio 2)) (j i : Nat) (hj : j < nVerts t) (hi : i < nVerts t) :
      shape t j (fun c => absc1 (i / 2 ^ c % 2)) = if j = i then 1 else 0 := by
    cases t with
    | line =>
      change line 2 absc1 j (absc1 (i / 1 % 2)) = _
      rw [Nat.div_one, Nat.mod_eq_of_lt (show i < 2 from hi)]
      exact line_node 2 absc1 hx j i hi
    | quad =>
      refine (C68_quad 2 (by norm_num) absc1 hx).2.1 j i _ hj ?_
      rw [quadNodes_getElem? 2 absc1 i hi]
      have : i < 4 := hi
      congr 2
      · simp
      · simp; congr 1; omega
    | hex =>
      refine (C68_hex 2 (by norm_num) absc1 hx).2.1 j i _ hj ?_
      rw [hexNodes_getElem? 2 absc1 i hi]
      have : i < 8 := hi
      refine congrArg some ?_
      refine Prod.ext ?_ (Prod.ext ?_ ?_) <;> simp <;> congr 1 <;> omega

/-- **C82** (chain rule): let `g` be a function of physical space that, read through the geometric map, is
basis function `i` near the point.  If the element is not degenerate there, the computed column `i` is the
gradient of `g`. -/
theorem C82_gradient (t : ElType) (vert : Nat → Nat → ℝ) (n : Nat) (x : Nat → ℝ) (q : Fin t.dim → ℝ)
    (hdet : (jacobiMat t vert (emb q)).det ≠ 0) (i : Fin (n ^ t.dim)) (g : (Fin t.dim → ℝ) → ℝ)
    (g' : (Fin t.dim → ℝ) →L[ℝ] ℝ) (hg : HasFDerivAt g g' (phys t vert q))
    (hgN : ∀ᶠ r in nhds q, g (phys t vert r) = basisFun t n x i (emb r)) (k : Fin t.dim) :
    physBasisDers (jacobiMat t vert (emb q)) (refBasisDers t n x (emb q)) k i = g' (Pi.single k 1) := by
  have hphi : HasFDerivAt (phys t vert)
      (ContinuousLinearMap.pi fun k => form fun a => jacobiMat t vert (emb q) a k) q :=
    hasFDerivAt_pi.2 fun k => C81_jacobi t vert q k
  have hc := hg.comp q hphi
  have hN := basisFun_hasFDerivAt t n x i q
  have heq := (hN.congr_of_eventuallyEq (f₁ := g ∘ phys t vert) hgN).unique hc
  have hrow : ∀ a : Fin t.dim, basisDer t n x a i (emb q) = ∑ k, jacobiMat t vert (emb q) a k * g' (Pi.single k 1) := by
    intro a
    have h1 := congrArg (fun L => L (Pi.single a 1)) heq
    simp only [form_single, ContinuousLinearMap.comp_apply] at h1
    rw [h1]
    have h2 : (ContinuousLinearMap.pi fun k => form fun a => jacobiMat t vert (emb q) a k) (Pi.single a 1) =
        ∑ k, jacobiMat t vert (emb q) a k • (Pi.single k 1 : Fin t.dim → ℝ) := by
      funext c
      rw [ContinuousLinearMap.pi_apply, form_single, Finset.sum_apply, Finset.sum_eq_single c]
      · simp
      · intro b _ hb; simp [hb.symm]
      · simp
    rw [h2, map_sum]
    simp only [map_smul, smul_eq_mul]
  have hu : IsUnit (jacobiMat t vert (emb q)).det := isUnit_iff_ne_zero.2 hdet
  have hcol : (fun a => refBasisDers t n x (emb q) a i) =
      (jacobiMat t vert (emb q)).mulVec fun k => g' (Pi.single k 1) := by
    funext a; exact hrow a
  have : physBasisDers (jacobiMat t vert (emb q)) (refBasisDers t n x (emb q)) k i =
      ((jacobiMat t vert (emb q))⁻¹.mulVec fun a => refBasisDers t n x (emb q) a i) k := rfl
  rw [this, hcol, mulVec_mulVec, Matrix.nonsing_inv_mul _ hu, one_mulVec]

/-! ### The patch test -/

/-- Node locations of an element of any order, as coordinates. -/
noncomputable def nodeLoc (n : Nat) (x : Nat → ℝ) (i c : Nat) : ℝ := x (i / n ^ c % n)

/-- A linear polynomial written with `n ≥ 2` coefficients. -/
def lift (n : Nat) (l : List ℝ) : List ℝ := List.replicate (n - l.length) 0 ++ l

theorem lift_eval (n : Nat) (l : List ℝ) (s : ℝ) : evaluate (lift n l) s = evaluate l s := by
  have h : ∀ m, toPoly (List.replicate m (0 : ℝ) ++ l) = toPoly l := by
    intro m
    induction m with
    | zero => rfl
    | succ m ih => rw [List.replicate_succ, List.cons_append, toPoly_cons, ih]; simp
  rw [evaluate_eq, evaluate_eq, lift, h]

theorem lift_length (n : Nat) (l : List ℝ) (h : l.length ≤ n) : (lift n l).length = n := by
  simp [lift]; omega

theorem linePoly_length (i : Nat) : (linePoly 2 absc1 i).length = 2 := (C64_degree 2 absc1 _).1

/-- Every order reproduces the shape functions from their values at its own nodes. -/
theorem shape_reproduced (t : ElType) (n : Nat) (hn : 2 ≤ n) (x : Nat → ℝ) (hx : Set.InjOn x (Set.Iio n))
    (j : Nat) (p : Nat → ℝ) :
    valueAt (n ^ t.dim) (basisFun t n x) (fun i => shape t j (nodeLoc n x i)) p = shape t j p := by
  have hn0 : 0 < n := by omega
  have hlen : ∀ i, (lift n (linePoly 2 absc1 i)).length = n := fun i =>
    lift_length n _ (by rw [linePoly_length]; exact hn)
  have hev : ∀ i s, line 2 absc1 i s = evaluate (lift n (linePoly 2 absc1 i)) s := fun i s =>
    (lift_eval n _ s).symm
  cases t with
  | line =>
    have h := (C68_line n hn0 x hx).2.2.2.2 _ (hlen j) (p 0)
    rw [← hev] at h
    refine Eq.trans ?_ h
    simp only [valueAt, list_range_sum, ElType.dim, pow_one]
    apply Finset.sum_congr rfl
    intro i hi
    change line 2 absc1 j (x (i / n ^ 0 % n)) * _ = _
    rw [pow_zero, Nat.div_one, Nat.mod_eq_of_lt (Finset.mem_range.1 hi), hev]; rfl
  | quad =>
    have h := (C68_quad n hn0 x hx).2.2.2.2.2 _ _ (hlen (j % 2)) (hlen (j / 2)) (p 0, p 1)
    simp only [← hev] at h
    refine Eq.trans ?_ h
    simp only [valueAt, list_range_sum, ElType.dim, pow_two]
    apply Finset.sum_congr rfl
    intro i hi
    change line 2 absc1 (j % 2) (x (i / n ^ 0 % n)) * line 2 absc1 (j / 2) (x (i / n ^ 1 % n)) * _ = _
    rw [pow_zero, Nat.div_one, pow_one,
      Nat.mod_eq_of_lt (show i / n < n from Nat.div_lt_of_lt_mul (Finset.mem_range.1 hi))]; rfl
  | hex =>
    have h := (C68_hex n hn0 x hx).2.2.2.2.2.2 _ _ _ (hlen (j % (2 * 2) % 2)) (hlen (j % (2 * 2) / 2))
      (hlen (j / (2 * 2))) (p 0, p 1, p 2)
    simp only [← hev] at h
    refine Eq.trans ?_ h
    simp only [valueAt, list_range_sum, ElType.dim, pow_succ, pow_zero, one_mul]
    apply Finset.sum_congr rfl
    intro i hi
    have hi' : i < n * n * n := Finset.mem_range.1 hi
    change line 2 absc1 (j % (2 * 2) % 2) (x (i / n ^ 0 % n)) * line 2 absc1 (j % (2 * 2) / 2) (x (i / n ^ 1 % n)) *
      line 2 absc1 (j / (2 * 2)) (x (i / n ^ 2 % n)) * _ = _
    rw [pow_zero, Nat.div_one, pow_one, pow_two,
      Nat.mod_eq_of_lt (show i / (n * n) < n from Nat.div_lt_of_lt_mul hi'),
      ← Nat.mod_mul_left_mod i n n, ← Nat.mod_mul_right_div_self i n n]; rfl

/-- Linear fields are reproduced at every point of the element. -/
theorem linear_reproduced (t : ElType) (vert : Nat → Nat → ℝ) (n : Nat) (hn : 2 ≤ n) (x : Nat → ℝ)
    (hx : Set.InjOn x (Set.Iio n)) (a : Fin t.dim → ℝ) (b : ℝ) (p : Nat → ℝ) :
    valueAt (n ^ t.dim) (basisFun t n x)
      (fun i => (∑ k, a k * nodePhysicalLocation t vert (nodeLoc n x i) k) + b) p =
      (∑ k, a k * mapToPhysical t vert p k) + b := by
  have hone : ∀ w : ℝ, valueAt (n ^ t.dim) (basisFun t n x) (fun _ => w) p = w := by
    intro w
    rw [valueAt, list_range_sum, ← Finset.mul_sum]
    have : ∑ i ∈ Finset.range (n ^ t.dim), basisFun t n x i p = 1 := by
      cases t with
      | line => simpa [ElType.dim, basisFun] using (C68_line n (by omega) x hx).2.2.1 (p 0)
      | quad => simpa [ElType.dim, basisFun, pow_two] using (C68_quad n (by omega) x hx).2.2.1 (p 0, p 1)
      | hex =>
        have := (C68_hex n (by omega) x hx).2.2.1 (p 0, p 1, p 2)
        simpa [ElType.dim, basisFun, pow_succ] using this
    rw [this, mul_one]
  have hadd : ∀ f g : Nat → ℝ, valueAt (n ^ t.dim) (basisFun t n x) (fun i => f i + g i) p =
      valueAt (n ^ t.dim) (basisFun t n x) f p + valueAt (n ^ t.dim) (basisFun t n x) g p := by
    intro f g
    simp only [valueAt, list_range_sum, add_mul, Finset.sum_add_distrib]
  rw [hadd _ (fun _ => b), hone]
  congr 1
  have hs : ∀ i, (∑ k, a k * nodePhysicalLocation t vert (nodeLoc n x i) k) =
      ∑ k, ∑ j ∈ Finset.range (nVerts t), a k * vert j k * shape t j (nodeLoc n x i) := by
    intro i
    apply Finset.sum_congr rfl; intro k _
    rw [nodePhysicalLocation, mapToPhysical, valueAt, list_range_sum, Finset.mul_sum]
    apply Finset.sum_congr rfl; intro j _
    ring
  simp only [hs]
  rw [valueAt, list_range_sum]
  simp only [Finset.sum_mul]
  rw [Finset.sum_comm]
  apply Finset.sum_congr rfl; intro k _
  rw [Finset.sum_comm, mapToPhysical, valueAt, list_range_sum, Finset.mul_sum]
  apply Finset.sum_congr rfl; intro j _
  have h := shape_reproduced t n hn x hx j p
  rw [valueAt, list_range_sum] at h
  rw [← h, Finset.mul_sum, Finset.mul_sum]
  apply Finset.sum_congr rfl; intro i _
  ring

/-- **C82** (patch test): for every element type, order, non-degenerate element and point, giving each node
the value of a linear function of its physical location makes the computed physical derivatives add up to
that function's exact gradient. -/
theorem C82_patch (t : ElType) (vert : Nat → Nat → ℝ) (n : Nat) (hn : 2 ≤ n) (x : Nat → ℝ)
    (hx : Set.InjOn x (Set.Iio n)) (q : Fin t.dim → ℝ) (hdet : (jacobiMat t vert (emb q)).det ≠ 0)
    (a : Fin t.dim → ℝ) (b : ℝ) (k : Fin t.dim) :
    ∑ i : Fin (n ^ t.dim), ((∑ k, a k * nodePhysicalLocation t vert (nodeLoc n x i) k) + b) *
      physBasisDers (jacobiMat t vert (emb q)) (refBasisDers t n x (emb q)) k i = a k := by
  set u : Nat → ℝ := fun i => (∑ k, a k * nodePhysicalLocation t vert (nodeLoc n x i) k) + b with hu
  have h1 := combo_hasFDerivAt t n x (n ^ t.dim) u q
  have h2 : HasFDerivAt (fun q : Fin t.dim → ℝ => valueAt (n ^ t.dim) (basisFun t n x) u (emb q))
      (form fun d => ∑ k, a k * jacobiMat t vert (emb q) d k) q := by
    have e : (fun q : Fin t.dim → ℝ => valueAt (n ^ t.dim) (basisFun t n x) u (emb q)) =
        fun q => (∑ k, a k * phys t vert q k) + b := by
      funext r; exact linear_reproduced t vert n hn x hx a b (emb r)
    rw [e]
    have hs := (HasFDerivAt.fun_sum (u := Finset.univ) (fun k (_ : k ∈ Finset.univ) =>
      (C81_jacobi t vert q k).const_mul (a k))).add_const b
    refine HasFDerivAt.congr_fderiv hs ?_
    ext v
    rw [form_apply, ContinuousLinearMap.sum_apply]
    simp only [ContinuousLinearMap.smul_apply, form_apply, smul_eq_mul, Finset.mul_sum, Finset.sum_mul]
    rw [Finset.sum_comm]
    apply Finset.sum_congr rfl; intro d _
    apply Finset.sum_congr rfl; intro c _
    ring
  have hu' : IsUnit (jacobiMat t vert (emb q)).det := isUnit_iff_ne_zero.2 hdet
  have hrow : ((refBasisDers t n x (emb q)).mulVec fun i => u i) = (jacobiMat t vert (emb q)).mulVec a := by
    funext d
    have h := congrArg (fun L => L (Pi.single d 1)) (h1.unique h2)
    simp only [form_single] at h
    rw [← Fin.sum_univ_eq_sum_range (fun i => u i * basisDer t n x d i (emb q))] at h
    change ∑ i, refBasisDers t n x (emb q) d i * u i = ∑ k, jacobiMat t vert (emb q) d k * a k
    simp only [mul_comm _ (a _), mul_comm _ (u _)]
    exact h
  have h3 : ((physBasisDers (jacobiMat t vert (emb q)) (refBasisDers t n x (emb q))).mulVec fun i => u i) = a := by
    rw [physBasisDers, ← mulVec_mulVec, hrow, mulVec_mulVec, Matrix.nonsing_inv_mul _ hu', one_mulVec]
  have h4 := congrFun h3 k
  rw [← h4]
  apply Finset.sum_congr rfl; intro i _
  exact mul_comm _ _

/-- A stretched quadrilateral: the hypotheses hold at its centre. -/
example : ∃ vert : Nat → Nat → ℝ, (jacobiMat .quad vert (emb (d := 2) ![0, 0])).det ≠ 0 := by
  refine ⟨fun i c => if c = 0 then 3 * absc1 (i % 2) else 2 * absc1 (i / 2), ?_⟩
  have h : ∀ a k : Fin 2, (jacobiMat .quad (fun i c => if c = 0 then 3 * absc1 (i % 2) else 2 * absc1 (i / 2))
      (emb (d := 2) ![0, 0]) : Matrix (Fin 2) (Fin 2) ℝ) a k = (!![3, 0; 0, 2] : Matrix (Fin 2) (Fin 2) ℝ) a k := by
    intro a k
    fin_cases a <;> fin_cases k <;>
      simp [jacobiMat, nVerts, List.range_succ, shapeDer, basisDer, quadDerXi, quadDerEta, line, lineDer, linePoly,
        lagrangeInterp, lagCoefs, toList, rootPoly, mulRoot, otherRoots, evaluate, derivative, derCoefs,
        Function.update, absc1, emb] <;> norm_num
  have h' : (jacobiMat .quad (fun i c => if c = 0 then 3 * absc1 (i % 2) else 2 * absc1 (i / 2))
      (emb (d := 2) ![0, 0]) : Matrix (Fin 2) (Fin 2) ℝ) = !![3, 0; 0, 2] := by
    ext a k; exact h a k
  have h2 : (!![3, 0; 0, 2] : Matrix (Fin 2) (Fin 2) ℝ).det ≠ 0 := by
    rw [Matrix.det_fin_two_of]; norm_num
  rw [← h'] at h2
  exact h2

end Verif.Mapping
