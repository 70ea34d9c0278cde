import Mathlib.Data.Real.Basic
import Mathlib.Algebra.BigOperators.Group.List.Basic
import Mathlib.Algebra.BigOperators.Ring.Finset
import Mathlib.Algebra.Order.BigOperators.Group.List
import Mathlib.LinearAlgebra.Dual.Lemmas
import Mathlib.LinearAlgebra.Matrix.ToLin
import Mathlib.Tactic.Ring
import Mathlib.Tactic.FieldSimp
import Mathlib.Tactic.Linarith
import Mathlib.Tactic.LinearCombination
import Mathlib.Tactic.Positivity

/-! # Weighted least squares: the normal equations, for any list of weighted residual rows -/
namespace Verif.Lsq
open Finset

/-- One weighted residual `w (a·u - f)²`. -/
structure Row where
  w : ℝ
  a : Nat → ℝ
  f : ℝ

noncomputable section

/-- `a · u` over the first `N` unknowns. -/
def Row.val (N : Nat) (r : Row) (u : Nat → ℝ) : ℝ := ∑ h ∈ range N, r.a h * u h

def rowsJ (N : Nat) (rows : List Row) (u : Nat → ℝ) : ℝ := (rows.map fun r => r.w * (r.val N u - r.f) ^ 2).sum

def rowsK (rows : List Row) (g h : Nat) : ℝ := (rows.map fun r => r.w * (r.a g * r.a h)).sum

def rowsB (rows : List Row) (g : Nat) : ℝ := (rows.map fun r => r.w * (r.a g * r.f)).sum

theorem rowsK_symm (rows : List Row) (g h : Nat) : rowsK rows g h = rowsK rows h g := by
  unfold rowsK
  congr 1
  exact List.map_congr_left fun r _ => by ring

theorem val_sub (N : Nat) (r : Row) (u v : Nat → ℝ) : r.val N (fun g => u g - v g) = r.val N u - r.val N v := by
  unfold Row.val
  rw [← sum_sub_distrib]
  exact sum_congr rfl fun h _ => by ring

/-- The residual of the normal equations, tested with `d`. -/
theorem test_normal (N : Nat) (rows : List Row) (u d : Nat → ℝ) :
    ∑ g ∈ range N, d g * ((∑ h ∈ range N, rowsK rows g h * u h) - rowsB rows g) =
      (rows.map fun r => r.w * (r.val N d * (r.val N u - r.f))).sum := by
  induction rows with
  | nil => simp [rowsK, rowsB]
  | cons r rows ih =>
    rw [List.map_cons, List.sum_cons, ← ih]
    have h1 : ∀ g, (∑ h ∈ range N, rowsK (r :: rows) g h * u h) = r.w * r.a g * r.val N u + ∑ h ∈ range N, rowsK rows g h * u h := by
      intro g
      unfold Row.val
      rw [mul_sum, ← sum_add_distrib]
      refine sum_congr rfl fun h _ => ?_
      simp only [rowsK, List.map_cons, List.sum_cons]
      ring
    have h2 : ∀ g, rowsB (r :: rows) g = r.w * r.a g * r.f + rowsB rows g := by
      intro g
      simp only [rowsB, List.map_cons, List.sum_cons]
      ring
    have h3 : r.w * (r.val N d * (r.val N u - r.f)) = ∑ g ∈ range N, d g * (r.w * r.a g * (r.val N u - r.f)) := by
      have : r.val N d = ∑ g ∈ range N, r.a g * d g := rfl
      rw [this, sum_mul, mul_sum]
      exact sum_congr rfl fun g _ => by ring
    rw [h3, ← sum_add_distrib]
    refine sum_congr rfl fun g _ => ?_
    rw [h1, h2]
    ring

theorem J_diff (N : Nat) (rows : List Row) (u v : Nat → ℝ) :
    rowsJ N rows v - rowsJ N rows u = (rows.map fun r => r.w * (r.val N (fun g => v g - u g)) ^ 2).sum +
      2 * ∑ g ∈ range N, (v g - u g) * ((∑ h ∈ range N, rowsK rows g h * u h) - rowsB rows g) := by
  rw [test_normal N rows u fun g => v g - u g]
  unfold rowsJ
  induction rows with
  | nil => simp
  | cons r rows ih =>
    simp only [List.map_cons, List.sum_cons]
    have h := val_sub N r v u
    rw [h] at *
    linear_combination ih

theorem sum_w_nonneg {rows : List Row} (hw : ∀ r ∈ rows, 0 ≤ r.w) (z : Row → ℝ) : 0 ≤ (rows.map fun r => r.w * z r ^ 2).sum := by
  refine List.sum_nonneg ?_
  intro y hy
  obtain ⟨r, hr, rfl⟩ := List.mem_map.1 hy
  exact mul_nonneg (hw r hr) (sq_nonneg _)

theorem sum_w_zero {rows : List Row} (hw : ∀ r ∈ rows, 0 ≤ r.w) (z : Row → ℝ) (h : (rows.map fun r => r.w * z r ^ 2).sum = 0) :
    ∀ r ∈ rows, r.w * z r = 0 := by
  induction rows with
  | nil => intro r hr; cases hr
  | cons r rows ih =>
    rw [List.map_cons, List.sum_cons] at h
    have h1 := sum_w_nonneg (fun r hr => hw r (List.mem_cons_of_mem _ hr)) z
    have h2 : 0 ≤ r.w * z r ^ 2 := mul_nonneg (hw r List.mem_cons_self) (sq_nonneg _)
    intro s hs
    rcases List.mem_cons.1 hs with rfl | hs
    · have : s.w * z s ^ 2 = 0 := by linarith
      rcases mul_eq_zero.1 this with h | h
      · rw [h, zero_mul]
      · rw [pow_eq_zero_iff (by decide)] at h; rw [h, mul_zero]
    · exact ih (fun r hr => hw r (List.mem_cons_of_mem _ hr)) (by linarith) s hs

/-- The normal equations in the free rows hold exactly for the minimisers. -/
theorem rows_min_iff (N : Nat) (rows : List Row) (hw : ∀ r ∈ rows, 0 ≤ r.w) (D : Nat → Prop) (u : Nat → ℝ) :
    (∀ g < N, ¬D g → ∑ h ∈ range N, rowsK rows g h * u h = rowsB rows g) ↔
      ∀ v : Nat → ℝ, (∀ g < N, D g → v g = u g) → rowsJ N rows u ≤ rowsJ N rows v := by
  constructor
  · intro hK v hv
    have h := J_diff N rows u v
    have hz : ∑ g ∈ range N, (v g - u g) * ((∑ h ∈ range N, rowsK rows g h * u h) - rowsB rows g) = 0 := by
      refine sum_eq_zero fun g hg => ?_
      have hg := mem_range.1 hg
      by_cases hD : D g
      · rw [hv g hg hD, sub_self, zero_mul]
      · rw [hK g hg hD, sub_self, mul_zero]
    rw [hz] at h
    have := sum_w_nonneg hw fun r => r.val N (fun g => v g - u g)
    linarith
  · intro hmin g hg hD
    generalize hR : (∑ h ∈ range N, rowsK rows g h * u h) - rowsB rows g = R
    suffices h0 : R = 0 by linarith
    have hq : 0 ≤ (rows.map fun r => r.w * (r.a g) ^ 2).sum := sum_w_nonneg hw fun r => r.a g
    generalize hQ : (rows.map fun r => r.w * (r.a g) ^ 2).sum = Q at hq
    have key : ∀ t : ℝ, 0 ≤ t ^ 2 * Q + 2 * (t * R) := by
      intro t
      have h1 := hmin (fun h => u h + if h = g then t else 0) (by
        intro h _ hDh
        have : h ≠ g := fun e => hD (e ▸ hDh)
        simp [this])
      have h2 := J_diff N rows u (fun h => u h + if h = g then t else 0)
      have h3 : ∀ r : Row, r.val N (fun h => u h + (if h = g then t else 0) - u h) = r.a g * t := by
        intro r
        unfold Row.val
        rw [sum_eq_single g]
        · simp
        · intro h _ hne; simp [hne]
        · intro hn; exact absurd (mem_range.2 hg) hn
      have h4 : (rows.map fun r => r.w * (r.val N (fun h => u h + (if h = g then t else 0) - u h)) ^ 2).sum = t ^ 2 * Q := by
        rw [← hQ]
        clear h1 h2 hmin hR hQ hq hw
        induction rows with
        | nil => simp
        | cons r rows ih => simp only [List.map_cons, List.sum_cons, h3] at ih ⊢; rw [ih]; ring
      have h5 : ∑ h ∈ range N, (u h + (if h = g then t else 0) - u h) * ((∑ k ∈ range N, rowsK rows h k * u k) - rowsB rows h) = t * R := by
        rw [sum_eq_single g]
        · rw [hR]; simp
        · intro h _ hne; simp [hne]
        · intro hn; exact absurd (mem_range.2 hg) hn
      rw [h4, h5] at h2
      linarith
    have h := key (-R / (Q + 1))
    have hp : 0 < Q + 1 := by linarith
    have e : (-R / (Q + 1)) ^ 2 * Q + 2 * (-R / (Q + 1) * R) = -(R ^ 2 * (Q + 2)) / (Q + 1) ^ 2 := by
      field_simp
      ring
    rw [e] at h
    have h6 : 0 ≤ -(R ^ 2 * (Q + 2)) := by
      by_contra hn
      have : -(R ^ 2 * (Q + 2)) / (Q + 1) ^ 2 < 0 := div_neg_of_neg_of_pos (by linarith) (by positivity)
      linarith
    have h7 : 0 ≤ R ^ 2 * (Q + 2) := by positivity
    have h8 : R ^ 2 * (Q + 2) = 0 := le_antisymm (by linarith) h7
    rcases mul_eq_zero.1 h8 with h9 | h9
    · rwa [pow_eq_zero_iff (by decide)] at h9
    · linarith

/-- The normal equations can be solved. -/
theorem rows_solvable (N : Nat) (rows : List Row) (hw : ∀ r ∈ rows, 0 ≤ r.w) :
    ∃ u : Nat → ℝ, ∀ g < N, ∑ h ∈ range N, rowsK rows g h * u h = rowsB rows g := by
  let M : Matrix (Fin N) (Fin N) ℝ := fun g h => rowsK rows g h
  let b : Fin N → ℝ := fun g => rowsB rows g
  suffices hb : b ∈ LinearMap.range M.mulVecLin by
    obtain ⟨y, hy⟩ := hb
    refine ⟨fun h => if hh : h < N then y ⟨h, hh⟩ else 0, fun g hg => ?_⟩
    have := congrFun hy ⟨g, hg⟩
    simp only [Matrix.mulVecLin_apply, Matrix.mulVec, dotProduct, M, b] at this
    rw [← this, ← Fin.sum_univ_eq_sum_range (fun h => rowsK rows g h * (if hh : h < N then y ⟨h, hh⟩ else 0))]
    refine sum_congr rfl fun h _ => ?_
    simp
  by_contra hb
  obtain ⟨φ, h1, h2⟩ := Submodule.exists_dual_map_eq_bot_of_notMem (R := ℝ) hb inferInstance
  let d : Nat → ℝ := fun g => if hh : g < N then φ (Pi.single ⟨g, hh⟩ 1) else 0
  have hφ : ∀ y : Fin N → ℝ, φ y = ∑ g ∈ range N, d g * (if hh : g < N then y ⟨g, hh⟩ else 0) := by
    intro y
    rw [← Fin.sum_univ_eq_sum_range (fun g => d g * (if hh : g < N then y ⟨g, hh⟩ else 0))]
    conv_lhs => rw [LinearMap.pi_apply_eq_sum_univ φ y]
    refine sum_congr rfl fun g _ => ?_
    have : (fun j => if g = j then (1 : ℝ) else 0) = Pi.single g 1 := by
      funext j
      rw [Pi.single_apply]
      exact if_congr eq_comm rfl rfl
    simp [d, this, mul_comm]
  have hker : ∀ h < N, ∑ g ∈ range N, d g * rowsK rows g h = 0 := by
    intro h hh
    have : φ (M.mulVecLin (Pi.single ⟨h, hh⟩ 1)) = 0 := by
      have hm : φ (M.mulVecLin (Pi.single ⟨h, hh⟩ 1)) ∈ (LinearMap.range M.mulVecLin).map φ := ⟨_, ⟨_, rfl⟩, rfl⟩
      rw [h2] at hm
      exact hm
    rw [hφ] at this
    rw [← this]
    refine sum_congr rfl fun g hg => ?_
    rw [dif_pos (mem_range.1 hg), Matrix.mulVecLin_apply, Matrix.mulVec_single_one]
    rfl
  have hker' : ∀ g ∈ range N, ∑ h ∈ range N, rowsK rows g h * d h = 0 := by
    intro g hg
    rw [← hker g (mem_range.1 hg)]
    exact sum_congr rfl fun h _ => by rw [rowsK_symm]; ring
  have hsq : (rows.map fun r => r.w * (r.val N d) ^ 2).sum = 0 := by
    have h := test_normal N rows d d
    have h' : ∑ g ∈ range N, d g * ((∑ h ∈ range N, rowsK rows g h * d h) - rowsB rows g) = - ∑ g ∈ range N, d g * rowsB rows g := by
      rw [← sum_neg_distrib]
      exact sum_congr rfl fun g hg => by rw [hker' g hg]; ring
    have h'' : ∑ g ∈ range N, d g * rowsB rows g = (rows.map fun r => r.w * (r.val N d * r.f)).sum := by
      have h0 := test_normal N rows (fun _ => 0) d
      have e1 : ∑ g ∈ range N, d g * ((∑ h ∈ range N, rowsK rows g h * 0) - rowsB rows g) = - ∑ g ∈ range N, d g * rowsB rows g := by
        rw [← sum_neg_distrib]
        exact sum_congr rfl fun g _ => by simp
      rw [e1] at h0
      have e2 : (rows.map fun r => r.w * (r.val N d * (r.val N (fun _ => 0) - r.f))).sum = - (rows.map fun r => r.w * (r.val N d * r.f)).sum := by
        clear h0 e1 h' h hker' hker hφ h1 h2 hb
        generalize d = d'
        induction rows with
        | nil => simp
        | cons r rows ih =>
          have : r.val N (fun _ => 0) = 0 := by simp [Row.val]
          simp only [List.map_cons, List.sum_cons]
          rw [ih (fun r hr => hw r (List.mem_cons_of_mem _ hr)), this]
          ring
      rw [e2] at h0
      linarith
    have h3 : (rows.map fun r => r.w * (r.val N d * (r.val N d - r.f))).sum =
        (rows.map fun r => r.w * (r.val N d) ^ 2).sum - (rows.map fun r => r.w * (r.val N d * r.f)).sum := by
      clear h h' h'' hker' hker hφ h1 h2 hb
      generalize d = d'
      induction rows with
      | nil => simp
      | cons r rows ih =>
        simp only [List.map_cons, List.sum_cons]
        rw [ih (fun r hr => hw r (List.mem_cons_of_mem _ hr))]
        ring
    rw [h', h3] at h
    linarith
  have hz := sum_w_zero hw (fun r => r.val N d) hsq
  apply h1
  rw [hφ]
  have : ∑ g ∈ range N, d g * (if hh : g < N then b ⟨g, hh⟩ else 0) = ∑ g ∈ range N, d g * rowsB rows g := by
    refine sum_congr rfl fun g hg => ?_
    rw [dif_pos (mem_range.1 hg)]
  rw [this]
  have h0 := test_normal N rows (fun _ => 0) d
  have e1 : ∑ g ∈ range N, d g * ((∑ h ∈ range N, rowsK rows g h * 0) - rowsB rows g) = - ∑ g ∈ range N, d g * rowsB rows g := by
    rw [← sum_neg_distrib]
    exact sum_congr rfl fun g _ => by simp
  rw [e1, List.sum_eq_zero] at h0
  · linarith
  · intro y hy
    obtain ⟨r, hr, rfl⟩ := List.mem_map.1 hy
    rw [← mul_assoc, hz r hr, zero_mul]

end

end Verif.Lsq
