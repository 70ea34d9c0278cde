import Verif.Grid.Model
import Mathlib.Tactic.Ring
import Mathlib.Tactic.FieldSimp
import Mathlib.Tactic.Linarith
import Mathlib.Tactic.Positivity
import Mathlib.Algebra.Order.Field.Basic

/-! # Property C16: grid generators -/
namespace Verif.Grid

variable {K : Type} [Field K] [LinearOrder K] [IsStrictOrderedRing K]

/-- **C16** (linspace): for `N ≥ 2` the result has `N` points, starts at `lo`, ends at `hi`, and
consecutive points are equally spaced. -/
theorem C16_linspace (lo hi : K) (N : Nat) (hN : 2 ≤ N) :
    ∃ g, linspace lo hi N = some g ∧ g.length = N ∧ g[0]? = some lo ∧ g[N - 1]? = some hi ∧
      ∀ i (h : i + 1 < g.length), g[i + 1] - g[i] = (hi - lo) / ((N - 1 : Nat) : K) := by
  refine ⟨_, if_pos hN, by simp, ?_, ?_, ?_⟩
  · simp [List.getElem?_range (show 0 < N by omega)]
  · have : ((N - 1 : Nat) : K) ≠ 0 := by
      have : (0 : K) < ((N - 1 : Nat) : K) := by exact_mod_cast (by omega : 0 < N - 1)
      exact ne_of_gt this
    simp only [List.getElem?_map, List.getElem?_range (show N - 1 < N by omega), Option.map_some]
    congr 1
    field_simp; ring
  · intro i h
    simp
    ring

/-- **C16** (linspace): strictly increasing for `lo < hi`, strictly decreasing for `hi < lo`. -/
theorem C16_linspace_strict_mono (lo hi : K) (N : Nat) (hN : 2 ≤ N) :
    ∃ g, linspace lo hi N = some g ∧ (lo < hi → g.Pairwise (· < ·)) ∧ (hi < lo → g.Pairwise (· > ·)) := by
  have hpos : (0 : K) < ((N - 1 : Nat) : K) := by exact_mod_cast (by omega : 0 < N - 1)
  refine ⟨_, if_pos hN, fun h => ?_, fun h => ?_⟩
  · rw [List.pairwise_map]
    refine (List.pairwise_lt_range (n := N)).imp fun {a b} hab => ?_
    have h1 : (a : K) < b := by exact_mod_cast hab
    have h2 : 0 < (hi - lo) / ((N - 1 : Nat) : K) := div_pos (by linarith) hpos
    nlinarith [mul_lt_mul_of_pos_right h1 h2]
  · rw [List.pairwise_map]
    refine (List.pairwise_lt_range (n := N)).imp fun {a b} hab => ?_
    have h1 : (a : K) < b := by exact_mod_cast hab
    have h2 : 0 < (lo - hi) / ((N - 1 : Nat) : K) := div_pos (by linarith) hpos
    have h3 : (hi - lo) / ((N - 1 : Nat) : K) = -((lo - hi) / ((N - 1 : Nat) : K)) := by ring
    have := mul_lt_mul_of_pos_right h1 h2
    rw [h3]
    show _ > _
    linarith [this]

example : linspace (1 : ℚ) 3 5 = some [1, 3/2, 2, 5/2, 3] := by
  simp [linspace, List.range_succ]; norm_num

/-- **C16**: all generators reject fewer than two points. -/
theorem C16_reject (N : Nat) (hN : N < 2) (lo hi q : ℝ) :
    linspace lo hi N = none ∧ geomspace lo hi N = none ∧ geomSpaceProg lo hi N q = none := by
  refine ⟨if_neg (by omega), if_neg (by omega), if_neg (by omega)⟩

/-- **C16** (geomspace): `N` points from `lo` to `hi`, with a constant ratio between consecutive
points. -/
theorem C16_geomspace (lo hi : ℝ) (N : Nat) (hN : 2 ≤ N) (hlo : 0 < lo) (hhi : 0 < hi) :
    ∃ g r, geomspace lo hi N = some g ∧ g.length = N ∧ g[0]? = some lo ∧ g[N - 1]? = some hi ∧
      0 < r ∧ (∀ i (h : i + 1 < g.length), g[i + 1] = g[i] * r) ∧
      (lo < hi → g.Pairwise (· < ·)) ∧ (hi < lo → g.Pairwise (· > ·)) := by
  have hq : 0 < hi / lo := div_pos hhi hlo
  have hr : 0 < (hi / lo) ^ (1 / ((N - 1 : Nat) : ℝ)) := Real.rpow_pos_of_pos hq _
  have hpos : (0 : ℝ) < ((N - 1 : Nat) : ℝ) := by exact_mod_cast (by omega : 0 < N - 1)
  refine ⟨_, (hi / lo) ^ (1 / ((N - 1 : Nat) : ℝ)), if_pos hN, by simp, ?_, ?_, hr, ?_, ?_, ?_⟩
  · simp [List.getElem?_range (show 0 < N by omega)]
  · simp only [List.getElem?_map, List.getElem?_range (show N - 1 < N by omega), Option.map_some]
    congr 1
    rw [← Real.rpow_mul (le_of_lt hq), one_div, inv_mul_cancel₀ (ne_of_gt hpos), Real.rpow_one]
    field_simp
  · intro i h
    simp only [List.getElem_map, List.getElem_range, Real.rpow_natCast]
    rw [pow_succ]; ring
  · intro h
    rw [List.pairwise_map]
    refine (List.pairwise_lt_range (n := N)).imp fun {a b} hab => ?_
    have : 1 < (hi / lo) ^ (1 / ((N - 1 : Nat) : ℝ)) :=
      Real.one_lt_rpow ((one_lt_div hlo).2 h) (by positivity)
    exact mul_lt_mul_of_pos_left (Real.rpow_lt_rpow_of_exponent_lt this (by exact_mod_cast hab)) hlo
  · intro h
    rw [List.pairwise_map]
    refine (List.pairwise_lt_range (n := N)).imp fun {a b} hab => ?_
    have : (hi / lo) ^ (1 / ((N - 1 : Nat) : ℝ)) < 1 :=
      Real.rpow_lt_one (le_of_lt hq) ((div_lt_one hlo).2 h) (by positivity)
    exact mul_lt_mul_of_pos_left (Real.rpow_lt_rpow_of_exponent_gt hr this (by exact_mod_cast hab)) hlo

example : (2 : Nat) ≤ 5 ∧ (0 : ℝ) < 1 ∧ (0 : ℝ) < 16 := by norm_num

theorem scanPow_succ (q : K) (k : Nat) : scanPow q (k + 1) = scanPow q k + q ^ k := by
  simp [scanPow, List.range_succ]

theorem scanPow_pos (q : K) (hq : 0 < q) (k : Nat) (hk : 1 ≤ k) : 0 < scanPow q k := by
  induction k with
  | zero => omega
  | succ k ih =>
    rw [scanPow_succ]
    have := pow_pos hq k
    rcases Nat.eq_zero_or_pos k with rfl | h
    · simp [scanPow]
    · have := ih h; linarith

theorem geomSpaceProg_entry (lo hi : K) (N : Nat) (hN : 2 ≤ N) (q : K) (hq : 0 < q) (k : Nat)
    (hk : k < N) :
    (if k = 0 then lo else if k = N - 1 then hi else scanPow q k * ((hi - lo) / scanPow q (N - 1)) + lo) =
      scanPow q k * ((hi - lo) / scanPow q (N - 1)) + lo := by
  have := ne_of_gt (scanPow_pos q hq (N - 1) (by omega))
  split
  · subst_vars; simp [scanPow]
  · split
    · subst_vars
      rw [mul_div_cancel₀ _ this]; ring
    · rfl

/-- **C16** (geomSpaceProg): `N` points from `lo` to `hi`; the `i`-th interval is `q^i` times the
first one (so the assigned end points fit the progression), and the points are strictly
monotone for distinct bounds. -/
theorem C16_geomSpaceProg (lo hi : K) (N : Nat) (hN : 2 ≤ N) (q : K) (hq : 0 < q) :
    ∃ g, geomSpaceProg lo hi N q = some g ∧ g.length = N ∧ g[0]? = some lo ∧ g[N - 1]? = some hi ∧
      (∃ d, ∀ i (h : i + 1 < g.length), g[i + 1] - g[i] = d * q ^ i) ∧
      (lo < hi → g.Pairwise (· < ·)) ∧ (hi < lo → g.Pairwise (· > ·)) := by
  have hs := scanPow_pos q hq (N - 1) (by omega)
  have mono : ∀ a b : Nat, a < b → scanPow q a < scanPow q b := by
    intro a b hab
    induction hab with
    | refl => rw [scanPow_succ]; linarith [pow_pos hq a]
    | step _ ih => rw [Nat.succ_eq_add_one, scanPow_succ]; rename_i m _; linarith [pow_pos hq m]
  refine ⟨_, if_pos ⟨hN, hq⟩, by simp, ?_, ?_, ⟨(hi - lo) / scanPow q (N - 1), ?_⟩, ?_, ?_⟩
  · simp [List.getElem?_range (show 0 < N by omega)]
  · simp only [List.getElem?_map, List.getElem?_range (show N - 1 < N by omega), Option.map_some]
    rw [if_neg (by omega)]; simp
  · intro i h
    simp only [List.length_map, List.length_range] at h
    simp only [List.getElem_map, List.getElem_range]
    rw [geomSpaceProg_entry lo hi N hN q hq _ h, geomSpaceProg_entry lo hi N hN q hq _ (by omega), scanPow_succ]
    ring
  · intro h
    rw [List.pairwise_map]
    refine List.Pairwise.imp_of_mem ?_ (List.pairwise_lt_range (n := N))
    intro a b ha hb hab
    rw [List.mem_range] at ha hb
    rw [geomSpaceProg_entry lo hi N hN q hq _ ha, geomSpaceProg_entry lo hi N hN q hq _ hb]
    have h2 : 0 < (hi - lo) / scanPow q (N - 1) := div_pos (by linarith) hs
    linarith [mul_lt_mul_of_pos_right (mono a b hab) h2]
  · intro h
    rw [List.pairwise_map]
    refine List.Pairwise.imp_of_mem ?_ (List.pairwise_lt_range (n := N))
    intro a b ha hb hab
    rw [List.mem_range] at ha hb
    rw [geomSpaceProg_entry lo hi N hN q hq _ ha, geomSpaceProg_entry lo hi N hN q hq _ hb]
    have h2 : 0 < (lo - hi) / scanPow q (N - 1) := div_pos (by linarith) hs
    have h3 : (hi - lo) / scanPow q (N - 1) = -((lo - hi) / scanPow q (N - 1)) := by ring
    rw [h3]
    show _ > _
    linarith [mul_lt_mul_of_pos_right (mono a b hab) h2]

example : geomSpaceProg (0 : ℚ) 7 4 2 = some [0, 1, 3, 7] := by
  simp [geomSpaceProg, List.range_succ, scanPow]; norm_num

end Verif.Grid
