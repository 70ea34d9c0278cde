import Verif.Quad.Model
import Verif.Poly.Lobatto
import Mathlib.LinearAlgebra.Matrix.NonsingularInverse
import Mathlib.Algebra.Polynomial.FieldDivision
import Mathlib.Analysis.Matrix.Spectrum
import Mathlib.Data.Fin.Tuple.Sort

/-!
# The Golub–Welsch algorithm gives the Gauss–Legendre rule
-/
namespace Verif.Quad
open Verif.Poly Polynomial

/-- Orthonormal Legendre polynomials, up to a common factor. -/
noncomputable def u (j : Nat) (x : ℝ) : ℝ := Real.sqrt (2 * j + 1) * (P j : ℝ[X]).eval x

noncomputable def bet (j : Nat) : ℝ := beta lcA lcC j

theorem s_pos (j : Nat) : 0 < Real.sqrt (2 * (j : ℝ) + 1) := Real.sqrt_pos.2 (by positivity)
theorem s_sq (j : Nat) : Real.sqrt (2 * (j : ℝ) + 1) * Real.sqrt (2 * (j : ℝ) + 1) = 2 * j + 1 :=
  Real.mul_self_sqrt (by positivity)

theorem bet_eq (j : Nat) : bet (j + 1) =
    ((j : ℝ) + 1) / (Real.sqrt (2 * (j : ℝ) + 1) * Real.sqrt (2 * ((j + 1 : Nat) : ℝ) + 1)) := by
  unfold bet beta lcA lcC
  rw [← Real.sqrt_mul (by positivity)]
  rw [Real.sqrt_eq_iff_eq_sq]
  · rw [div_pow, Real.sq_sqrt (by positivity)]
    push_cast
    have h1 : (2 * (j : ℝ) + 1) ≠ 0 := by positivity
    have h2 : (2 * ((j : ℝ) + 1) + 1) ≠ 0 := by positivity
    have h3 : ((j : ℝ) + 1) ≠ 0 := by positivity
    have h4 : ((j : ℝ) + 1 + 1) ≠ 0 := by positivity
    have e1 : (2 * ((j : ℝ) + 1) - 1) = 2 * j + 1 := by ring
    have e2 : (2 * ((j : ℝ) + 1 + 1) - 1) = 2 * (j + 1) + 1 := by ring
    rw [e1, e2]
    field_simp
    ring
  · push_cast
    have e1 : (2 * ((j : ℝ) + 1) - 1) = 2 * j + 1 := by ring
    have e2 : (2 * ((j : ℝ) + 1 + 1) - 1) = 2 * (j + 1) + 1 := by ring
    rw [e1, e2]
    have e3 : ((j : ℝ) + 1 + 1 - 1) = j + 1 := by ring
    rw [e3]; positivity
  · positivity

theorem bet_pos (j : Nat) : 0 < bet (j + 1) := by
  rw [bet_eq]
  have h1 := s_pos j
  have h2 := s_pos (j + 1)
  positivity

/-- The three-term recurrence in symmetric form. -/
theorem u_rec (j : Nat) (x : ℝ) : x * u (j + 1) x = bet (j + 2) * u (j + 2) x + bet (j + 1) * u j x := by
  have h := congrArg (eval x) (P_rec (K := ℝ) j)
  simp only [eval_mul, eval_sub, eval_C, eval_X] at h
  have h1 := s_pos j
  have h2 := s_pos (j + 1)
  have h3 := s_pos (j + 2)
  have q2 := s_sq (j + 1)
  rw [bet_eq, bet_eq]
  unfold u
  set a := Real.sqrt (2 * (j : ℝ) + 1)
  set b := Real.sqrt (2 * ((j + 1 : Nat) : ℝ) + 1)
  set c := Real.sqrt (2 * ((j + 2 : Nat) : ℝ) + 1)
  have e : ((j + 1 : Nat) : ℝ) + 1 = j + 2 := by push_cast; ring
  rw [e]
  have : b * b = 2 * j + 3 := by rw [q2]; push_cast; ring
  have hb : b ≠ 0 := h2.ne'
  have hc : c ≠ 0 := h3.ne'
  have ha : a ≠ 0 := h1.ne'
  have : (x * (b * (P (j + 1)).eval x)) * b = (((j : ℝ) + 2) / (b * c) * (c * (P (j + 2)).eval x) +
      (j + 1) / (a * b) * (a * (P j).eval x)) * b := by
    field_simp
    linear_combination (x * (P (j + 1)).eval x) * this - h
  exact mul_right_cancel₀ hb this

theorem u_rec0 (x : ℝ) : x * u 0 x = bet 1 * u 1 x := by
  rw [bet_eq 0]
  unfold u
  have h2 := s_pos 1
  have hb := h2.ne'
  simp only [P, eval_one, eval_X, Nat.cast_zero, mul_zero, zero_add, Real.sqrt_one, Nat.cast_one]
  simp only [Nat.cast_one] at hb
  field_simp

theorem u_zero (x : ℝ) : u 0 x = 1 := by simp [u, P]

/-- A row of the tridiagonal matrix times a vector. -/
theorem row_sum (n : Nat) (v : Nat → ℝ) (hv : ∀ j, n ≤ j → v j = 0) (r : Nat) (hr : r < n) :
    ∑ s ∈ Finset.range n, jacobi lcA (fun _ => 0) lcC r s * v s =
      (if r = 0 then 0 else bet r * v (r - 1)) + bet (r + 1) * v (r + 1) := by
  have e : ∀ s ∈ Finset.range n, jacobi lcA (fun _ => 0) lcC r s * v s =
      (if s = r - 1 then (if r = 0 then 0 else bet r * v (r - 1)) else 0) +
        (if s = r + 1 then bet (r + 1) * v (r + 1) else 0) := by
    intro s _
    unfold jacobi
    by_cases h1 : r = s
    · subst h1
      rw [if_pos rfl, if_neg (show ¬ r = r + 1 by omega)]
      by_cases h0 : r = 0
      · subst h0; simp
      · rw [if_neg (show ¬ r = r - 1 by omega)]; simp
    · rw [if_neg h1]
      by_cases h2 : r = s + 1
      · subst h2
        rw [if_pos rfl, if_pos (show s = s + 1 - 1 by omega), if_neg (by omega), if_neg (by omega)]
        simp [bet]
      · rw [if_neg h2]
        by_cases h3 : s = r + 1
        · subst h3
          rw [if_pos rfl, if_pos rfl]
          rw [if_neg (show ¬ r + 1 = r - 1 by omega), zero_add]; rfl
        · rw [if_neg h3, if_neg h3]
          by_cases h4 : s = r - 1
          · rw [if_pos h4, if_pos (by omega)]; simp
          · rw [if_neg h4]; simp
  rw [Finset.sum_congr rfl e, Finset.sum_add_distrib, Finset.sum_ite_eq', Finset.sum_ite_eq',
    if_pos (Finset.mem_range.2 (by omega))]
  by_cases h : r + 1 < n
  · rw [if_pos (Finset.mem_range.2 h)]
  · rw [hv (r + 1) (by omega), mul_zero, ite_self]

/-- An eigenvector is a multiple of the values of the orthonormal polynomials, and the eigenvalue is a
zero of the next polynomial. -/
theorem eigen_shape (n : Nat) (v : Nat → ℝ) (hv : ∀ j, n + 1 ≤ j → v j = 0) (t : ℝ)
    (he : ∀ r < n + 1, ∑ s ∈ Finset.range (n + 1), jacobi lcA (fun _ => 0) lcC r s * v s = t * v r) :
    (∀ j < n + 1, v j = v 0 * u j t) ∧ v 0 * u (n + 1) t = 0 := by
  have hrow : ∀ r < n + 1, (if r = 0 then 0 else bet r * v (r - 1)) + bet (r + 1) * v (r + 1) = t * v r := by
    intro r hr; rw [← row_sum (n + 1) v hv r hr]; exact he r hr
  have hstep : ∀ j, j < n + 1 → (∀ i ≤ j, v i = v 0 * u i t) → bet (j + 1) * v (j + 1) = bet (j + 1) * (v 0 * u (j + 1) t) := by
    intro j hj ih
    have h := hrow j hj
    cases j with
    | zero =>
      rw [if_pos rfl, zero_add] at h
      rw [h]
      have := u_rec0 t
      rw [u_zero, mul_one] at this
      linear_combination v 0 * this
    | succ j =>
      rw [if_neg (by omega), Nat.add_sub_cancel, ih j (by omega), ih (j + 1) le_rfl] at h
      have := u_rec j t
      linear_combination h + v 0 * this
  have hall : ∀ j, j < n + 1 → ∀ i ≤ j, v i = v 0 * u i t := by
    intro j
    induction j with
    | zero => intro _ i hi; obtain rfl : i = 0 := by omega
              rw [u_zero, mul_one]
    | succ j ih =>
      intro hj i hi
      rcases Nat.lt_or_ge i (j + 1) with h | h
      · exact ih (by omega) i (by omega)
      · obtain rfl : i = j + 1 := by omega
        exact mul_left_cancel₀ (bet_pos j).ne' (hstep j (by omega) (ih (by omega)))
  refine ⟨fun j hj => hall j hj j le_rfl, ?_⟩
  have h := hstep n (by omega) (hall n (by omega))
  rw [hv (n + 1) le_rfl, mul_zero] at h
  rcases mul_eq_zero.1 h.symm with h | h
  · exact absurd h (bet_pos n).ne'
  · exact h

variable {n : Nat} {ev : Fin (n + 1) → ℝ} {V : Fin (n + 1) → Fin (n + 1) → ℝ}

/-- The facts about the solver's answer. -/
theorem eigen_facts (h : IsEigen (n + 1) (jacobi lcA (fun _ => 0) lcC) ev V) :
    (∀ k, V 0 k ≠ 0) ∧ (∀ r k, V r k = V 0 k * u r (ev k)) ∧ (∀ k, (P (n + 1) : ℝ[X]).eval (ev k) = 0) ∧
      Function.Injective ev ∧ ∀ i j, ∑ k, V i k * V j k = if i = j then 1 else 0 := by
  have hshape : ∀ k, (∀ j (hj : j < n + 1), V ⟨j, hj⟩ k = V 0 k * u j (ev k)) ∧ V 0 k * u (n + 1) (ev k) = 0 := by
    intro k
    have hs := eigen_shape n (fun j => if hj : j < n + 1 then V ⟨j, hj⟩ k else 0)
      (fun j hj => by rw [dif_neg (by omega)]) (ev k) (fun r hr => by
        have := h.eigen ⟨r, hr⟩ k
        rw [dif_pos hr, ← this, ← Fin.sum_univ_eq_sum_range
          (fun s => jacobi lcA (fun _ => 0) lcC r s * (if hj : s < n + 1 then V ⟨s, hj⟩ k else 0))]
        apply Finset.sum_congr rfl
        intro s _
        rw [dif_pos s.2])
    refine ⟨fun j hj => ?_, ?_⟩
    · have := hs.1 j hj
      rw [dif_pos hj, dif_pos (by omega)] at this
      exact this
    · have := hs.2
      rw [dif_pos (by omega)] at this
      exact this
  have hV : ∀ r k, V r k = V 0 k * u r (ev k) := fun r k => (hshape k).1 r r.2
  have h0 : ∀ k, V 0 k ≠ 0 := by
    intro k hz
    have := h.orthonormal k k
    rw [if_pos rfl] at this
    rw [Finset.sum_congr rfl (fun r _ => by rw [hV r k, hz, zero_mul, zero_mul])] at this
    simp at this
  refine ⟨h0, hV, fun k => ?_, fun k l hkl => ?_, ?_⟩
  · have := (hshape k).2
    rcases mul_eq_zero.1 this with h1 | h1
    · exact absurd h1 (h0 k)
    · rcases mul_eq_zero.1 h1 with h2 | h2
      · exact absurd h2 (s_pos (n + 1)).ne'
      · exact h2
  · by_contra hne
    have h1 := h.orthonormal k l
    have h2 := h.orthonormal k k
    rw [if_neg hne] at h1
    rw [if_pos rfl] at h2
    rw [Finset.sum_congr rfl (fun r _ => by rw [hV r k, hV r l, ← hkl])] at h1
    rw [Finset.sum_congr rfl (fun r _ => by rw [hV r k])] at h2
    have e1 : ∑ r : Fin (n + 1), V 0 k * u r (ev k) * (V 0 l * u r (ev k)) =
        (V 0 k * V 0 l) * ∑ r : Fin (n + 1), u r (ev k) * u r (ev k) := by
      rw [Finset.mul_sum]; apply Finset.sum_congr rfl; intro r _; ring
    have e2 : ∑ r : Fin (n + 1), V 0 k * u r (ev k) * (V 0 k * u r (ev k)) =
        (V 0 k * V 0 k) * ∑ r : Fin (n + 1), u r (ev k) * u r (ev k) := by
      rw [Finset.mul_sum]; apply Finset.sum_congr rfl; intro r _; ring
    rw [e1] at h1
    rw [e2] at h2
    rcases mul_eq_zero.1 h1 with h3 | h3
    · rcases mul_eq_zero.1 h3 with h4 | h4
      · exact h0 k h4
      · exact h0 l h4
    · rw [h3, mul_zero] at h2
      exact zero_ne_one h2
  · have hm : (Matrix.of V).transpose * Matrix.of V = 1 := by
      ext i j
      rw [Matrix.mul_apply, Matrix.one_apply, ← h.orthonormal i j]; rfl
    have hm' := mul_eq_one_comm.1 hm
    intro i j
    have := congrFun (congrFun hm' i) j
    rw [Matrix.mul_apply, Matrix.one_apply] at this
    exact this

/-- The quadrature functional of the solver's answer. -/
noncomputable def Q (ev : Fin (n + 1) → ℝ) (V : Fin (n + 1) → Fin (n + 1) → ℝ) : ℝ[X] →ₗ[ℝ] ℝ where
  toFun p := ∑ k, 2 * V 0 k * V 0 k * p.eval (ev k)
  map_add' p q := by simp only [eval_add, mul_add, Finset.sum_add_distrib]
  map_smul' c p := by
    simp only [eval_smul, smul_eq_mul, RingHom.id_apply, Finset.mul_sum]
    apply Finset.sum_congr rfl; intro k _; ring

theorem Q_def (p : ℝ[X]) : Q ev V p = ∑ k, 2 * V 0 k * V 0 k * p.eval (ev k) := rfl

theorem Q_P (h : IsEigen (n + 1) (jacobi lcA (fun _ => 0) lcC) ev V) (j : Nat) (hj : j < n + 1) :
    Q ev V (P j) = I (P j) := by
  obtain ⟨_, hV, _, _, hrow⟩ := eigen_facts h
  have e : Q ev V (P j) = 2 / Real.sqrt (2 * (j : ℝ) + 1) * ∑ k, V 0 k * V ⟨j, hj⟩ k := by
    rw [Q_def, Finset.mul_sum]
    apply Finset.sum_congr rfl
    intro k _
    rw [hV ⟨j, hj⟩ k]
    unfold u
    have := (s_pos j).ne'
    field_simp
  rw [e, hrow]
  have hI : I (P j : ℝ[X]) = I (P j * P 0) := by rw [P, mul_one]
  rw [hI]
  by_cases h0 : j = 0
  · subst h0
    rw [if_pos (by rfl), I_P_sq]; norm_num
  · rw [if_neg (fun hh => h0 (by simpa [eq_comm] using congrArg Fin.val hh)), mul_zero, I_P_P j 0 h0]

/-- Exactness. -/
theorem Q_exact (h : IsEigen (n + 1) (jacobi lcA (fun _ => 0) lcC) ev V) (p : ℝ[X])
    (hp : p.degree < ((2 * (n + 1) : Nat) : WithBot Nat)) : Q ev V p = I p := by
  have hlow : ∀ q : ℝ[X], q.degree < ((n + 1 : Nat) : WithBot Nat) → Q ev V q = I q := by
    intro q hq
    have := lin_zero (Q ev V - I) (n + 1) (fun j hj => by
      rw [LinearMap.sub_apply, Q_P h j hj, sub_self]) q hq
    rw [LinearMap.sub_apply] at this
    exact sub_eq_zero.1 this
  have hPne : (P (n + 1) : ℝ[X]) ≠ 0 := P_ne_zero _
  have hPdeg : (P (n + 1) : ℝ[X]).degree = ((n + 1 : Nat) : WithBot Nat) := by
    rw [degree_eq_natDegree hPne, P_natDegree]
  have hdec := EuclideanDomain.div_add_mod p (P (n + 1))
  have hmod : (p % P (n + 1)).degree < ((n + 1 : Nat) : WithBot Nat) := by
    rw [← hPdeg]; exact EuclideanDomain.mod_lt p hPne
  have hdiv : (p / P (n + 1)).degree < ((n + 1 : Nat) : WithBot Nat) := by
    by_cases hle : (P (n + 1) : ℝ[X]).degree ≤ p.degree
    · have := degree_add_div hPne hle
      have hp0 : p ≠ 0 := by
        rintro rfl
        rw [hPdeg, degree_zero] at hle
        exact absurd hle (by simp)
      have hd0 : p / P (n + 1) ≠ 0 := by
        intro hz
        rw [hz, degree_zero] at this
        rw [degree_eq_natDegree hp0] at this
        simp at this
      rw [hPdeg, degree_eq_natDegree hd0, degree_eq_natDegree hp0] at this
      rw [degree_eq_natDegree hp0] at hp
      rw [degree_eq_natDegree hd0]
      have h1 : n + 1 + (p / P (n + 1)).natDegree = p.natDegree := by exact_mod_cast this
      have h2 : p.natDegree < 2 * (n + 1) := by exact_mod_cast hp
      have h3 : (p / P (n + 1)).natDegree < n + 1 := by omega
      exact_mod_cast h3
    · rw [(Polynomial.div_eq_zero_iff hPne).2 (not_le.1 hle), degree_zero]
      exact WithBot.bot_lt_coe _
  rw [← hdec, map_add, map_add, hlow _ hmod, I_P_lower (n + 1) _ hdiv]
  congr 1
  rw [Q_def]
  apply Finset.sum_eq_zero
  intro k _
  rw [eval_mul, (eigen_facts h).2.2.1 k, zero_mul, mul_zero]

theorem jacobi_symm (a b c : Nat → ℝ) (r s : Nat) : jacobi a b c r s = jacobi a b c s r := by
  unfold jacobi
  by_cases h1 : r = s
  · subst h1; rfl
  · rw [if_neg h1, if_neg (Ne.symm h1)]
    by_cases h2 : r = s + 1
    · rw [if_pos h2, if_neg (by omega), if_pos h2]
    · rw [if_neg h2, if_neg h2]

/-- The solver's contract can be met (spectral theorem). -/
theorem isEigen_exists (n : Nat) : ∃ ev V, IsEigen (n + 1) (jacobi lcA (fun _ => 0) lcC) ev V := by
  let A : Matrix (Fin (n + 1)) (Fin (n + 1)) ℝ := Matrix.of fun r s => jacobi lcA (fun _ => 0) lcC r s
  have hA : A.IsHermitian := by
    ext r s
    simp only [Matrix.conjTranspose_apply, star_trivial]
    exact jacobi_symm lcA (fun _ => 0) lcC s r
  let σ := Tuple.sort hA.eigenvalues
  refine ⟨hA.eigenvalues ∘ σ, fun r k => (hA.eigenvectorBasis (σ k)) r, ⟨?_, ?_, ?_⟩⟩
  · intro i j hij
    exact Tuple.monotone_sort hA.eigenvalues hij
  · intro i j
    have := (orthonormal_iff_ite.1 hA.eigenvectorBasis.orthonormal) (σ i) (σ j)
    rw [PiLp.inner_apply] at this
    simp only [σ.injective.eq_iff] at this
    rw [← this]
    apply Finset.sum_congr rfl
    intro r _
    simp [mul_comm]
  · intro r k
    have := congrFun (hA.mulVec_eigenvectorBasis (σ k)) r
    simpa [Matrix.mulVec, dotProduct, A] using this

end Verif.Quad
