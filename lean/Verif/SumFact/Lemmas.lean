import Verif.SumFact.Model
import Mathlib.Tactic.Ring
import Mathlib.Tactic.Linarith

/-! Lemmas on sweeps and flat indices. -/
namespace Verif.SumFact
open Finset

variable {R : Type}

theorem sum_grid [AddCommMonoid R] (n m : Nat) (g : Nat → Nat → R) : ∑ I ∈ range (n * m), g (I % n) (I / n) = ∑ j ∈ range m, ∑ i ∈ range n, g i j := by
  induction m with
  | zero => simp
  | succ m ih =>
    rw [Nat.mul_succ, Finset.sum_range_add, ih, Finset.sum_range_succ]
    congr 1
    refine Finset.sum_congr rfl fun i hi => ?_
    have hi := Finset.mem_range.1 hi
    rw [Nat.mul_add_mod, Nat.mod_eq_of_lt hi, Nat.mul_add_div (by omega), Nat.div_eq_of_lt hi, Nat.add_zero]

theorem pair_lt {a b n m : Nat} (ha : a < n) (hb : b < m) : a + n * b < m * n := by
  calc a + n * b < n + n * b := by omega
    _ = n * (b + 1) := by ring
    _ ≤ n * m := Nat.mul_le_mul_left _ hb
    _ = m * n := Nat.mul_comm _ _

theorem sweep_at [CommSemiring R] (n m : Nat) (M : Nat → Nat → R) (inp : Nat → R) (c q idx : Nat) (hc : c < m) (hidx : idx = c + m * q) :
    sweep n m M inp idx = ∑ r ∈ range n, inp (r + n * c) * M r q := by
  subst hidx
  unfold sweep
  rw [Nat.add_mul_mod_self_left, Nat.mod_eq_of_lt hc, Nat.add_mul_div_left _ _ (by omega), Nat.div_eq_of_lt hc, Nat.zero_add]

/-- Two sweeps: contraction of the first two indices of `[a, b, f]` into `[f, qa, qb]`. -/
theorem two_sweeps [CommSemiring R] (na ka nf : Nat) (M N : Nat → Nat → R) (inp : Nat → R) (f qa qb idx : Nat)
    (hf : f < nf) (hqa : qa < ka) (hidx : idx = f + nf * (qa + ka * qb)) :
    sweep na (nf * ka) N (sweep na (nf * na) M inp) idx =
      ∑ j ∈ range na, ∑ i ∈ range na, inp (i + na * (j + na * f)) * (M i qa * N j qb) := by
  rw [sweep_at na (nf * ka) N _ (f + nf * qa) qb idx (by rw [Nat.mul_comm nf ka]; exact pair_lt hf hqa) (by rw [hidx]; ring)]
  refine Finset.sum_congr rfl fun j hj => ?_
  have hj := Finset.mem_range.1 hj
  rw [sweep_at na (nf * na) M inp (j + na * f) qa _ (pair_lt hj hf) (by ring), Finset.sum_mul]
  refine Finset.sum_congr rfl fun i _ => ?_
  ring

/-- Three sweeps on `[a, b, c, f]`. -/
theorem three_sweeps [CommSemiring R] (na ka nf : Nat) (M N O : Nat → Nat → R) (inp : Nat → R) (f qa qb qc idx : Nat)
    (hf : f < nf) (hqa : qa < ka) (hqb : qb < ka) (hidx : idx = f + nf * (qa + ka * (qb + ka * qc))) :
    sweep na (nf * ka * ka) O (sweep na (nf * ka * na) N (sweep na (nf * na * na) M inp)) idx =
      ∑ k ∈ range na, ∑ j ∈ range na, ∑ i ∈ range na, inp (i + na * (j + na * (k + na * f))) * (M i qa * N j qb * O k qc) := by
  have h1 : f + nf * qa < nf * ka := by rw [Nat.mul_comm nf ka]; exact pair_lt hf hqa
  rw [sweep_at na (nf * ka * ka) O _ (f + nf * qa + nf * ka * qb) qc idx (by rw [Nat.mul_comm (nf * ka) ka]; exact pair_lt h1 hqb) (by rw [hidx]; ring)]
  refine Finset.sum_congr rfl fun k hk => ?_
  have hk := Finset.mem_range.1 hk
  rw [sweep_at na (nf * ka * na) N _ (k + na * (f + nf * qa)) qb _ (pair_lt hk h1) (by ring), Finset.sum_mul]
  refine Finset.sum_congr rfl fun j hj => ?_
  have hj := Finset.mem_range.1 hj
  have h2 : k + na * f < nf * na := pair_lt hk hf
  rw [sweep_at na (nf * na * na) M inp (j + na * (k + na * f)) qa _ (pair_lt hj h2) (by ring), Finset.sum_mul, Finset.sum_mul]
  refine Finset.sum_congr rfl fun i _ => ?_
  ring

theorem sweep_add [CommSemiring R] (n m : Nat) (M : Nat → Nat → R) (a b : Nat → R) (idx : Nat) :
    sweep n m M (fun i => a i + b i) idx = sweep n m M a idx + sweep n m M b idx := by
  unfold sweep
  rw [← Finset.sum_add_distrib]
  exact Finset.sum_congr rfl fun r _ => by ring

/-- The double sum as a sum over the tensor index. -/
theorem grid2 [CommSemiring R] (n f : Nat) (inp : Nat → R) (g : Nat → Nat → R) :
    ∑ j ∈ range n, ∑ i ∈ range n, inp (i + n * (j + n * f)) * g i j = ∑ I ∈ range (n * n), inp (I + n * n * f) * g (I % n) (I / n) := by
  have := sum_grid n n fun i j => inp (i + n * (j + n * f)) * g i j
  rw [← this]
  refine Finset.sum_congr rfl fun I _ => ?_
  congr 2
  have := Nat.mod_add_div I n
  calc I % n + n * (I / n + n * f) = I % n + n * (I / n) + n * n * f := by ring
    _ = _ := by rw [this]

theorem grid3 [CommSemiring R] (n f : Nat) (inp : Nat → R) (g : Nat → Nat → Nat → R) :
    ∑ k ∈ range n, ∑ j ∈ range n, ∑ i ∈ range n, inp (i + n * (j + n * (k + n * f))) * g i j k =
      ∑ I ∈ range (n * n * n), inp (I + n * n * n * f) * g (I % (n * n) % n) (I % (n * n) / n) (I / (n * n)) := by
  have h := sum_grid (n * n) n fun a k => inp (a + n * n * (k + n * f)) * g (a % n) (a / n) k
  have h2 : ∀ k, ∑ j ∈ range n, ∑ i ∈ range n, inp (i + n * (j + n * (k + n * f))) * g i j k =
      ∑ a ∈ range (n * n), inp (a + n * n * (k + n * f)) * g (a % n) (a / n) k := fun k => grid2 n (k + n * f) inp fun i j => g i j k
  rw [Finset.sum_congr rfl fun k _ => h2 k, ← h]
  refine Finset.sum_congr rfl fun I _ => ?_
  congr 2
  have := Nat.mod_add_div I (n * n)
  calc I % (n * n) + n * n * (I / (n * n) + n * f) = I % (n * n) + n * n * (I / (n * n)) + n * n * n * f := by ring
    _ = _ := by rw [this]

end Verif.SumFact
