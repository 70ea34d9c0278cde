import Verif.Poly.Orth
import Verif.Poly.Props
import Mathlib.Data.List.Sort
import Mathlib.Analysis.Complex.Basic

/-!
# C65: Legendre polynomials and Lobatto abscissae
-/
namespace Verif.Poly
open Polynomial

/-! ## The abscissae (`/repo/include/l3ster/math/LobattoRuleAbsc.hpp` 10-29) -/

/-- `Polynomial::roots`, Polynomial.hpp 96-122, as a relation: the eigenvalue solver is trusted to return
all eigenvalues of the companion matrix (here only as a set, with the right length); the result is sorted
by real part.  The polynomial of order `n + 1` has the coefficients `coefs 0 … coefs (n + 1)`. -/
def IsRoots (n : Nat) (coefs : Nat → ℝ) (l : List ℂ) : Prop :=
  l.length = n + 1 ∧
  (∀ z : ℂ, z ∈ l ↔ (Matrix.scalar (Fin (n + 1)) z - companion n fun i => (coefs i : ℂ)).det = 0) ∧
  l.Pairwise fun a b => a.re ≤ b.re

/-- `computeLobattoRuleAbsc`, 10-29, given the result of `roots`. -/
def lobattoAbsc (nPts : Nat) (roots : List ℂ) : List ℝ :=
  if nPts = 2 then [-1, 1]
  else if nPts = 3 then [-1, 0, 1]
  else [-1] ++ roots.map Complex.re ++ [1]

/-- The call of `roots` made for `nPts ≥ 4` points: the Lobatto polynomial of order `nPts - 2`. -/
def LobattoRoots (nPts : Nat) (l : List ℂ) : Prop :=
  IsRoots (nPts - 3) (fun i => (lobatto (K := ℝ) (nPts - 2)).getD i 0) l

/-! ## Lemmas -/

theorem toPoly_map (l : List ℝ) : toPoly (l.map Complex.ofReal) = (toPoly l).map Complex.ofRealHom := by
  induction l with
  | nil => simp [toPoly_nil]
  | cons c l ih => simp [toPoly_cons, ih]

theorem toList_getD (l : List ℝ) : toList l.length (fun i => (((l.getD i 0 : ℝ)) : ℂ)) = l.map Complex.ofReal := by
  apply List.ext_getElem
  · simp [toList]
  · intro i h1 h2
    simp only [toList, List.length_map, List.length_range] at h1
    simp [toList, h1]

theorem length_lobatto (N : Nat) : (lobatto (K := ℝ) N).length = N + 1 := by
  rw [lobatto, length_derivative _ (by rw [length_legendre]; omega), length_legendre]; rfl

/-- A real polynomial with as many different real zeros as its degree has no other complex zeros. -/
theorem complex_roots {n : Nat} {p : ℝ[X]} (hp : p ≠ 0) (hd : p.natDegree = n) {S : Finset ℝ}
    (hc : S.card = n) (hS : ∀ r ∈ S, p.eval r = 0) (z : ℂ) :
    (p.map Complex.ofRealHom).eval z = 0 ↔ ∃ r ∈ S, z = (r : ℂ) := by
  classical
  have hne : p.map Complex.ofRealHom ≠ 0 := by
    rwa [Ne, Polynomial.map_eq_zero_iff Complex.ofRealHom.injective]
  have hsub : S.image (fun r : ℝ => (r : ℂ)) ⊆ (p.map Complex.ofRealHom).roots.toFinset := by
    intro w hw
    obtain ⟨r, hr, rfl⟩ := Finset.mem_image.1 hw
    rw [Multiset.mem_toFinset, mem_roots hne, IsRoot.def]
    have := hS r hr
    rw [show ((r : ℂ)) = Complex.ofRealHom r from rfl, eval_map_apply, this, map_zero]
  have heq : S.image (fun r : ℝ => (r : ℂ)) = (p.map Complex.ofRealHom).roots.toFinset := by
    apply Finset.eq_of_subset_of_card_le hsub
    rw [Finset.card_image_of_injective _ Complex.ofReal_injective, hc]
    calc _ ≤ Multiset.card (p.map Complex.ofRealHom).roots := Multiset.toFinset_card_le _
      _ ≤ (p.map Complex.ofRealHom).natDegree := card_roots' _
      _ = n := by rw [natDegree_map, hd]
  have h : z ∈ (p.map Complex.ofRealHom).roots.toFinset ↔ (p.map Complex.ofRealHom).eval z = 0 := by
    rw [Multiset.mem_toFinset, mem_roots hne, IsRoot.def]
  rw [← h, ← heq, Finset.mem_image]
  exact ⟨fun ⟨r, hr, e⟩ => ⟨r, hr, e.symm⟩, fun ⟨r, hr, e⟩ => ⟨r, hr, e.symm⟩⟩

theorem lobatto_lead (n : Nat) : (lobatto (K := ℝ) n).getD 0 0 ≠ 0 := by
  have h := toPoly_coeff (lobatto (K := ℝ) n) n (by rw [length_lobatto]; omega)
  rw [length_lobatto, show n + 1 - 1 - n = 0 by omega, toPoly_lobatto] at h
  rw [← h]
  have := P_der_natDegree n
  intro hz
  apply P_der_ne_zero n
  rw [← leadingCoeff_eq_zero, leadingCoeff, this, hz]

/-- What the solver returns for a Lobatto polynomial: the real parts are its `n + 1` zeros, increasing. -/
theorem lobattoRoots_spec (n : Nat) (l : List ℂ)
    (h : IsRoots n (fun i => (lobatto (K := ℝ) (n + 1)).getD i 0) l) :
    (l.map Complex.re).Pairwise (· < ·) ∧ (l.map Complex.re).length = n + 1 ∧
      ∀ r : ℝ, r ∈ l.map Complex.re ↔ (-1 < r ∧ r < 1) ∧ evaluate (lobatto (n + 1)) r = 0 := by
  classical
  obtain ⟨hlen, hmem, hsort⟩ := h
  obtain ⟨S, hc, hS⟩ := P_der_roots (n + 1)
  have hz : ∀ z : ℂ, z ∈ l ↔ ∃ r ∈ S, z = (r : ℂ) := by
    intro z
    rw [hmem, C63_roots n _ (by simpa using lobatto_lead (n + 1))]
    have e : toList (n + 2) (fun i => (((lobatto (K := ℝ) (n + 1)).getD i 0 : ℝ) : ℂ)) =
        (lobatto (n + 1)).map Complex.ofReal := by
      have := toList_getD (lobatto (n + 1))
      rwa [length_lobatto] at this
    rw [e, evaluate_eq, toPoly_map, toPoly_lobatto]
    exact complex_roots (P_der_ne_zero (n + 1)) (P_der_natDegree (n + 1)) hc (fun r hr => ((hS r).1 hr).2) z
  have hfin : l.toFinset = S.image fun r : ℝ => (r : ℂ) := by
    ext z
    rw [List.mem_toFinset, hz, Finset.mem_image]
    exact ⟨fun ⟨r, hr, e⟩ => ⟨r, hr, e.symm⟩, fun ⟨r, hr, e⟩ => ⟨r, hr, e.symm⟩⟩
  have hnd : l.Nodup := by
    have h : l.dedup.length = l.length := by
      rw [← List.card_toFinset, hfin, Finset.card_image_of_injective _ Complex.ofReal_injective, hc, hlen]
    have := l.nodup_dedup
    rwa [(List.dedup_sublist l).eq_of_length h] at this
  refine ⟨?_, by simpa using hlen, fun r => ?_⟩
  · rw [List.pairwise_map]
    refine (hsort.and hnd).imp_of_mem ?_
    rintro a b ha hb ⟨h1, h2⟩
    obtain ⟨r, _, rfl⟩ := (hz a).1 ha
    obtain ⟨s, _, rfl⟩ := (hz b).1 hb
    exact lt_of_le_of_ne h1 fun e => h2 (by simpa using e)
  · rw [evaluate_eq, toPoly_lobatto, ← hS r, List.mem_map]
    constructor
    · rintro ⟨z, hzl, rfl⟩
      obtain ⟨s, hs, rfl⟩ := (hz z).1 hzl
      exact hs
    · intro hr
      exact ⟨(r : ℂ), (hz _).2 ⟨r, hr, rfl⟩, rfl⟩

theorem lobatto_neg (n : Nat) (x : ℝ) :
    evaluate (lobatto n) (-x) = (-1) ^ n * evaluate (lobatto n) x := by
  rw [evaluate_eq, evaluate_eq, toPoly_lobatto]
  have h := congrArg (fun p => (Polynomial.derivative p).eval x) (P_comp_neg (K := ℝ) (n + 1))
  simp only [derivative_comp, derivative_C_mul, eval_mul, eval_comp, eval_C, derivative_neg, derivative_X,
    eval_neg, eval_one, eval_X] at h
  rw [pow_succ] at h
  linarith

/-- A strictly increasing list closed under negation is symmetric. -/
theorem symm_of_closed {l : List ℝ} (hs : l.Pairwise (· < ·)) (hc : ∀ r ∈ l, -r ∈ l) :
    (l.map fun r => -r).reverse = l := by
  have h2 : ((l.map fun r => -r).reverse).Pairwise (· < ·) := by
    rw [List.pairwise_reverse, List.pairwise_map]
    exact hs.imp fun h => by simpa using h
  refine List.Pairwise.eq_of_mem_iff h2 hs fun r => ?_
  simp only [List.mem_reverse, List.mem_map]
  constructor
  · rintro ⟨s, hsl, rfl⟩; exact hc s hsl
  · intro hr; exact ⟨-r, hc r hr, neg_neg r⟩

/-! ## Theorems: Legendre -/

/-- **C65** (degree): `N + 1` coefficients, the first one not zero. -/
theorem C65_degree (N : Nat) : (legendre (K := ℝ) N).length = N + 1 ∧ (legendre (K := ℝ) N).getD 0 0 ≠ 0 := by
  refine ⟨length_legendre N, ?_⟩
  have h := toPoly_coeff (legendre (K := ℝ) N) N (by rw [length_legendre]; omega)
  rw [length_legendre, show N + 1 - 1 - N = 0 by omega, toPoly_legendre] at h
  rw [← h]; exact P_lead N

/-- **C65** (recurrence): three consecutive polynomials satisfy Bonnet's formula at every point. -/
theorem C65_bonnet (n : Nat) (x : ℝ) : ((n : ℝ) + 2) * evaluate (legendre (n + 2)) x =
    (2 * n + 3) * x * evaluate (legendre (n + 1)) x - (n + 1) * evaluate (legendre n) x := by
  have h := congrArg (eval x) (P_rec (K := ℝ) n)
  simp only [eval_mul, eval_sub, eval_C, eval_X] at h
  simp only [evaluate_eq, toPoly_legendre]
  rw [h]; ring

/-- **C65** (normalisation): value 1 at 1. -/
theorem C65_value_at_one (N : Nat) : evaluate (legendre (K := ℝ) N) 1 = 1 := by
  rw [evaluate_eq, toPoly_legendre, P_one]

/-- **C65** (parity). -/
theorem C65_parity (N : Nat) (x : ℝ) :
    evaluate (legendre N) (-x) = (-1) ^ N * evaluate (legendre N) x := by
  rw [evaluate_eq, evaluate_eq, toPoly_legendre, P_neg]

/-- **C65** (orthogonality): the integral of the product of two of them over `[-1, 1]`. -/
theorem C65_orthogonal (n m : Nat) :
    ∫ x in (-1 : ℝ)..1, evaluate (legendre n) x * evaluate (legendre m) x =
      if n = m then 2 / (2 * (n : ℝ) + 1) else (0 : ℝ) := by
  have : ∀ x : ℝ, evaluate (legendre n) x * evaluate (legendre m) x = (P n * P m : ℝ[X]).eval x := by
    intro x; rw [evaluate_eq, evaluate_eq, toPoly_legendre, toPoly_legendre, eval_mul]
  simp only [this]
  rw [← I_def]
  by_cases h : n = m
  · subst h; rw [if_pos rfl, I_P_sq]
  · rw [if_neg h, I_P_P n m h]

/-- **C65** (uniqueness): a polynomial with at most `N + 1` coefficients, orthogonal to all shorter ones and
with value 1 at 1, has the computed coefficients. -/
theorem C65_unique (N : Nat) (q : List ℝ) (hq : q.length = N + 1) (h1 : evaluate q 1 = 1)
    (ho : ∀ r : List ℝ, r.length ≤ N → ∫ x in (-1 : ℝ)..1, evaluate q x * evaluate r x = 0) :
    q = legendre N := by
  have hoI : ∀ r : List ℝ, r.length ≤ N → I (toPoly q * toPoly r) = 0 := by
    intro r hr
    rw [I_def, ← ho r hr]
    congr 1; funext x
    rw [eval_mul, evaluate_eq, evaluate_eq]
  set c := (toPoly q).coeff N / (P N : ℝ[X]).coeff N with hc
  set d : ℝ[X] := toPoly q - C c * P N with hd
  have hdeg : d.degree < (N : WithBot Nat) := by
    rw [degree_lt_iff_coeff_zero]
    intro k hk
    rw [hd, coeff_sub, coeff_C_mul]
    rcases Nat.lt_or_ge N k with h | h
    · have := toPoly_degree_lt q
      rw [hq] at this
      rw [P_coeff_zero h, (degree_lt_iff_coeff_zero _ _).1 this k h]; ring
    · obtain rfl : k = N := le_antisymm h hk
      rw [hc, div_mul_cancel₀ _ (P_lead k), sub_self]
  have hdl : ∃ r : List ℝ, r.length ≤ N ∧ toPoly r = d := by
    cases N with
    | zero =>
      refine ⟨[], by simp, ?_⟩
      rw [toPoly_nil]
      symm
      by_contra hne
      rw [degree_eq_natDegree hne] at hdeg
      exact absurd hdeg (by simp)
    | succ M =>
      refine ⟨toList (M + 1) fun k => d.coeff (M - k), by rw [toList_length], ?_⟩
      refine toPoly_of_coeff M _ d ?_ fun k _ => rfl
      by_cases hz : d = 0
      · rw [hz]; simp
      · rw [degree_eq_natDegree hz] at hdeg
        have : d.natDegree < M + 1 := by exact_mod_cast hdeg
        omega
  obtain ⟨r, hr, hrd⟩ := hdl
  have hdd : I (d * d) = 0 := by
    have e : d * d = toPoly q * toPoly r - C c * (P N * d) := by rw [hrd]; rw [hd]; ring
    rw [e, map_sub, hoI r hr, I_C_mul, I_P_lower N d hdeg]; ring
  have hd0 : d = 0 := by
    by_contra hne
    have hpos : 0 < ∫ x in (-1 : ℝ)..1, (d * d).eval x := by
      apply intervalIntegral.integral_pos (by norm_num) (d * d).continuous.continuousOn
      · intro x _; rw [eval_mul]; exact mul_self_nonneg _
      · obtain ⟨t, ht, htn⟩ := (Set.Ioo_infinite (show (-1 : ℝ) < 1 by norm_num)).exists_notMem_finset d.roots.toFinset
        refine ⟨t, ⟨ht.1.le, ht.2.le⟩, ?_⟩
        rw [eval_mul]
        apply mul_self_pos.2
        intro hz
        apply htn
        rw [Multiset.mem_toFinset, mem_roots hne]
        exact hz
    rw [← I_def, hdd] at hpos
    exact lt_irrefl _ hpos
  have hqP : toPoly q = C c * P N := by rw [hd] at hd0; exact sub_eq_zero.1 hd0
  have hc1 : c = 1 := by
    rw [evaluate_eq, hqP, eval_mul, eval_C, P_one, mul_one] at h1
    exact h1
  apply toPoly_inj (by rw [hq, length_legendre])
  rw [hqP, hc1, toPoly_legendre, C_1, one_mul]

/-- **C65** (zeros): the Legendre polynomial of order `N` has exactly `N` zeros, all different, real and
inside `(-1, 1)`. -/
theorem C65_zeros (N : Nat) : ∃ S : Finset ℝ, S.card = N ∧
    (∀ r ∈ S, -1 < r ∧ r < 1) ∧ ∀ r : ℝ, evaluate (legendre N) r = 0 ↔ r ∈ S := by
  obtain ⟨S, hc, hS⟩ := P_roots N
  refine ⟨S, hc, fun r hr => ((hS r).1 hr).1, fun r => ?_⟩
  rw [evaluate_eq, toPoly_legendre]
  constructor
  · intro h
    have := (complex_roots (P_ne_zero N) (P_natDegree N) hc (fun r hr => ((hS r).1 hr).2) (r : ℂ)).1 (by
      rw [show ((r : ℂ)) = Complex.ofRealHom r from rfl, eval_map_apply, h, map_zero])
    obtain ⟨s, hs, e⟩ := this
    rwa [Complex.ofReal_injective e]
  · intro h; exact ((hS r).1 h).2

/-! ## Theorems: Lobatto abscissae -/

/-- **C65** (Lobatto points): for every number of points ≥ 2, the computed abscissae start at -1, end at 1,
increase strictly (so they are different and stay in `[-1, 1]`), are symmetric about 0, and the inner ones
are zeros of the Lobatto polynomial — provided the eigenvalue solver returns the eigenvalues. -/
theorem C65_lobatto_points (nPts : Nat) (hn : 2 ≤ nPts) (l : List ℂ) (hl : 4 ≤ nPts → LobattoRoots nPts l) :
    let a := lobattoAbsc nPts l
    a.length = nPts ∧ a.Pairwise (· < ·) ∧ a.head? = some (-1) ∧ a.getLast? = some 1 ∧
      (a.map fun r => -r).reverse = a ∧
      ∀ r ∈ a, r = -1 ∨ r = 1 ∨ evaluate (lobatto (nPts - 2)) r = 0 := by
  intro a
  by_cases h2 : nPts = 2
  · subst h2
    have : a = [-1, 1] := if_pos rfl
    rw [this]; simp
  by_cases h3 : nPts = 3
  · subst h3
    have : a = [-1, 0, 1] := rfl
    rw [this]
    refine ⟨rfl, by simp, rfl, rfl, by simp, ?_⟩
    intro r hr
    simp only [List.mem_cons, List.not_mem_nil, or_false] at hr
    rcases hr with rfl | rfl | rfl
    · left; rfl
    · right; right
      have hp := lobatto_neg 1 0
      rw [neg_zero] at hp
      have : evaluate (lobatto 1) (0 : ℝ) = 0 := by linarith
      exact this
    · right; left; rfl
  obtain ⟨n, rfl⟩ : ∃ n, nPts = n + 3 := ⟨nPts - 3, by omega⟩
  have hr := lobattoRoots_spec n l (by
    have := hl (by omega)
    simpa [LobattoRoots] using this)
  obtain ⟨hs, hlen, hmem⟩ := hr
  have ha : a = [-1] ++ l.map Complex.re ++ [1] := by
    simp only [a, lobattoAbsc]; rw [if_neg h2, if_neg h3]
  have hmem' : ∀ r, r ∈ a ↔ r = -1 ∨ r ∈ l.map Complex.re ∨ r = 1 := by
    intro r; rw [ha]; simp only [List.mem_append, List.mem_singleton, or_assoc]
  have hpw : a.Pairwise (· < ·) := by
    rw [ha, List.pairwise_append, List.pairwise_append]
    refine ⟨⟨List.pairwise_singleton _ _, hs, ?_⟩, List.pairwise_singleton _ _, ?_⟩
    · intro x hx y hy
      rw [List.mem_singleton] at hx
      rw [hx]; exact ((hmem y).1 hy).1.1
    · intro x hx y hy
      rw [List.mem_singleton] at hy
      rw [hy]
      rcases List.mem_append.1 hx with hx | hx
      · rw [List.mem_singleton] at hx; rw [hx]; norm_num
      · exact ((hmem x).1 hx).1.2
  refine ⟨?_, hpw, ?_, ?_, symm_of_closed hpw ?_, ?_⟩
  · rw [ha]; simp only [List.length_append, hlen, List.length_singleton]; omega
  · rw [ha]; simp
  · rw [ha, List.getLast?_append]; simp
  · intro r hr
    rw [hmem'] at hr ⊢
    rcases hr with rfl | hr | rfl
    · right; right; norm_num
    · right; left
      rw [hmem] at hr ⊢
      refine ⟨⟨by linarith [hr.1.2], by linarith [hr.1.1]⟩, ?_⟩
      rw [lobatto_neg, hr.2, mul_zero]
    · left; rfl
  · intro r hr
    rw [hmem'] at hr
    rcases hr with rfl | hr | rfl
    · left; rfl
    · right; right
      exact ((hmem r).1 hr).2
    · right; left; rfl

/-! ## Examples -/

example : legendre (K := ℚ) 3 = [5 / 2, 0, -3 / 2, 0] := by
  norm_num [legendre, lLoop, lStep, lInit, toList, List.range_succ, lcA, lcC]
example : lobatto (K := ℚ) 2 = [15 / 2, 0, -3 / 2] := by
  norm_num [lobatto, legendre, lLoop, lStep, lInit, toList, List.range_succ, lcA, lcC, derivative, derCoefs]

/-- The solver's contract can be met for every number of points. -/
theorem lobattoRoots_exist (nPts : Nat) (hn : 4 ≤ nPts) : ∃ l, LobattoRoots nPts l := by
  obtain ⟨n, rfl⟩ : ∃ n, nPts = n + 3 := ⟨nPts - 3, by omega⟩
  obtain ⟨S, hc, hS⟩ := P_der_roots (n + 1)
  suffices h : IsRoots n (fun i => (lobatto (K := ℝ) (n + 1)).getD i 0) ((S.sort (· ≤ ·)).map Complex.ofReal) from
    ⟨_, h⟩
  refine ⟨by simp [hc], ?_, ?_⟩
  · intro z
    rw [C63_roots n _ (by simpa using lobatto_lead (n + 1))]
    have e : toList (n + 2) (fun i => (((lobatto (K := ℝ) (n + 1)).getD i 0 : ℝ) : ℂ)) =
        (lobatto (n + 1)).map Complex.ofReal := by
      have := toList_getD (lobatto (n + 1))
      rwa [length_lobatto] at this
    rw [e, evaluate_eq, toPoly_map, toPoly_lobatto,
      complex_roots (P_der_ne_zero (n + 1)) (P_der_natDegree (n + 1)) hc (fun r hr => ((hS r).1 hr).2) z]
    simp only [List.mem_map, Finset.mem_sort]
    exact ⟨fun ⟨r, hr, e⟩ => ⟨r, hr, e.symm⟩, fun ⟨r, hr, e⟩ => ⟨r, hr, e.symm⟩⟩
  · rw [List.pairwise_map]
    exact (Finset.pairwise_sort S (· ≤ ·)).imp fun h => by simpa using h

example : ∃ l, (4 ≤ 9 → LobattoRoots 9 l) ∧ (lobattoAbsc 9 l).length = 9 := by
  obtain ⟨l, hl⟩ := lobattoRoots_exist 9 (by norm_num)
  exact ⟨l, fun _ => hl, (C65_lobatto_points 9 (by norm_num) l fun _ => hl).1⟩

end Verif.Poly
