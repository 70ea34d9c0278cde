import Verif.Quad.Gauss

/-!
# C66: the Gauss–Legendre rules integrate exactly up to the requested order
-/
namespace Verif.Quad
open Verif.Poly Polynomial
open scoped BigOperators

theorem evalQuadrature_eq {A : Type} (f : A → ℝ) (rule : List (A × ℝ)) :
    evalQuadrature f rule = (rule.map fun pw => f pw.1 * pw.2).sum := by
  have : ∀ (l : List (A × ℝ)) (a : ℝ), l.foldl (fun acc pw => acc + f pw.1 * pw.2) a =
      a + (l.map fun pw => f pw.1 * pw.2).sum := by
    intro l
    induction l with
    | nil => intro a; simp
    | cons x l ih => intro a; rw [List.foldl_cons, ih, List.map_cons, List.sum_cons, add_assoc]
  rw [evalQuadrature, this, zero_add]

theorem toPoly_degree_le (c : List ℝ) (m : Nat) (h : c.length ≤ m) :
    (toPoly c).degree < (m : WithBot Nat) :=
  lt_of_lt_of_le (toPoly_degree_lt c) (by exact_mod_cast h)

/-- **C66.** For every requested order and every possible answer of the eigenvalue solver, the rule has
`order/2 + 1` points and integrates every polynomial of at most that degree (coefficients highest power
first, evaluated by the library's own Horner scheme) exactly over `[-1, 1]`. -/
theorem C66_line (qo : Nat) (r : Rule1) (hr : IsReferenceRule qo r) (c : List ℝ)
    (hc : c.length ≤ qo + 1) :
    r.length = qo / 2 + 1 ∧ evalQuadrature (evaluate c) r = ∫ x in (-1 : ℝ)..1, evaluate c x := by
  obtain ⟨ev, V, h, rfl⟩ := hr
  refine ⟨by simp [gaussRule], ?_⟩
  have h' : IsEigen (qo / 2 + 1) (jacobi lcA (fun _ => 0) lcC) ev V := h
  have hq := Q_exact h' (toPoly c) (toPoly_degree_le c _ (by omega))
  rw [I_def, Q_def] at hq
  have e : ∀ x, evaluate c x = (toPoly c).eval x := fun x => evaluate_eq c x
  simp only [e]
  rw [← hq, evalQuadrature_eq, gaussRule, List.map_map, ← List.ofFn_eq_map, List.sum_ofFn]
  apply Finset.sum_congr rfl
  intro k _
  simp only [Function.comp, e]
  ring

/-- The points are the zeros of the Legendre polynomial: strictly increasing, inside `(-1, 1)`; the
weights are positive and add up to the length of the interval. -/
theorem C66_points (qo : Nat) (r : Rule1) (hr : IsReferenceRule qo r) :
    (r.map Prod.fst).Pairwise (· < ·) ∧
      (∀ p ∈ r, -1 < p.1 ∧ p.1 < 1 ∧ 0 < p.2 ∧ evaluate (legendre (K := ℝ) (qo / 2 + 1)) p.1 = 0) ∧
      (r.map Prod.snd).sum = 2 := by
  have hsum := (C66_line qo r hr [1] (by simp)).2
  obtain ⟨ev, V, h, rfl⟩ := hr
  have h' : IsEigen (qo / 2 + 1) (jacobi lcA (fun _ => 0) lcC) ev V := h
  obtain ⟨h0, _, hroot, hinj, _⟩ := eigen_facts h'
  refine ⟨?_, ?_, ?_⟩
  · rw [gaussRule, List.map_map, ← List.ofFn_eq_map, List.pairwise_ofFn]
    intro i j hij
    exact lt_of_le_of_ne (h'.sorted i j hij.le) (fun he => hij.ne (hinj he))
  · intro p hp
    obtain ⟨k, _, rfl⟩ := List.mem_map.1 hp
    have hz : -1 < ev k ∧ ev k < 1 := by
      obtain ⟨S, _, hS, hz⟩ := C65_zeros (qo / 2 + 1)
      exact hS _ ((hz _).1 (by rw [evaluate_eq, toPoly_legendre]; exact hroot k))
    refine ⟨hz.1, hz.2, ?_, ?_⟩
    · have : 0 < V 0 k * V 0 k := mul_self_pos.2 (h0 k)
      show 0 < 2 * V 0 k * V 0 k
      linarith [mul_assoc 2 (V 0 k) (V 0 k)]
    · rw [evaluate_eq, toPoly_legendre]; exact hroot k
  · rw [evalQuadrature_eq] at hsum
    have e : ∀ x : ℝ, evaluate [1] x = 1 := fun x => by simp [evaluate_eq, toPoly]
    simp only [e, one_mul] at hsum
    rw [show (List.map Prod.snd (gaussRule ev V)) = List.map (fun pw => pw.2) (gaussRule ev V) from rfl, hsum]
    simp; norm_num

/-- The rule of a given order exists and is unique: the eigenvalue solver's answer is determined as far
as the rule is concerned. -/
theorem C66_unique (qo : Nat) : ∃! r, IsReferenceRule qo r := by
  obtain ⟨ev, V, h⟩ := isEigen_exists (qo / 2)
  refine ⟨gaussRule ev V, ⟨ev, V, h, rfl⟩, ?_⟩
  rintro _ ⟨ev', V', h', rfl⟩
  have h' : IsEigen (qo / 2 + 1) (jacobi lcA (fun _ => 0) lcC) ev' V' := h'
  have hev : ev' = ev := by
    have key : ∀ (e : Fin (qo / 2 + 1) → ℝ) (W : Fin (qo / 2 + 1) → Fin (qo / 2 + 1) → ℝ),
        IsEigen (qo / 2 + 1) (jacobi lcA (fun _ => 0) lcC) e W →
        ∀ S : Finset ℝ, S.card = qo / 2 + 1 → (∀ x, evaluate (legendre (K := ℝ) (qo / 2 + 1)) x = 0 ↔ x ∈ S) →
        (Finset.univ.image e = S ∧ StrictMono e) := by
      intro e W hW S hc hS
      obtain ⟨_, _, hroot, hinj, _⟩ := eigen_facts hW
      refine ⟨Finset.eq_of_subset_of_card_le ?_ ?_, ?_⟩
      · intro x hx
        obtain ⟨k, _, rfl⟩ := Finset.mem_image.1 hx
        rw [← hS, evaluate_eq, toPoly_legendre]; exact hroot k
      · rw [hc, Finset.card_image_of_injective _ hinj]; simp
      · intro i j hij
        exact lt_of_le_of_ne (hW.sorted i j hij.le) (fun he => hij.ne (hinj he))
    obtain ⟨S, hc, _, hS⟩ := C65_zeros (qo / 2 + 1)
    obtain ⟨i1, m1⟩ := key ev V h S hc hS
    obtain ⟨i2, m2⟩ := key ev' V' h' S hc hS
    have r1 : Set.range ev' = Set.range ev := by
      have := i2.trans i1.symm
      have := congrArg (fun s : Finset ℝ => (s : Set ℝ)) this
      simpa using this
    exact (StrictMono.range_inj m2 m1).1 r1
  subst hev
  unfold gaussRule
  congr 1
  funext k
  rw [Prod.mk.injEq]
  refine ⟨rfl, ?_⟩
  have key : ∀ (W : Fin (qo / 2 + 1) → Fin (qo / 2 + 1) → ℝ),
      IsEigen (qo / 2 + 1) (jacobi lcA (fun _ => 0) lcC) ev' W →
      (W 0 k * W 0 k) * ∑ r : Fin (qo / 2 + 1), u r (ev' k) * u r (ev' k) = 1 := by
    intro W hW
    have h2 := hW.orthonormal k k
    rw [if_pos rfl, Finset.sum_congr rfl (fun r _ => by rw [(eigen_facts hW).2.1 r k])] at h2
    rw [← h2, Finset.mul_sum]
    apply Finset.sum_congr rfl; intro r _; ring
  have k1 := key V h
  have k2 := key V' h'
  have hne : ∑ r : Fin (qo / 2 + 1), u r (ev' k) * u r (ev' k) ≠ 0 := by
    intro hz; rw [hz, mul_zero] at k1; exact zero_ne_one k1
  have : V' 0 k * V' 0 k = V 0 k * V 0 k := mul_right_cancel₀ hne (k2.trans k1.symm)
  linear_combination 2 * this

theorem sum_flatMap {A : Type} (l : List A) (f : A → List ℝ) : (l.flatMap f).sum = (l.map fun a => (f a).sum).sum := by
  induction l with
  | nil => rfl
  | cons a l ih => rw [List.flatMap_cons, List.sum_append, ih, List.map_cons, List.sum_cons]

/-- The value of a rule on a sum of products of one-variable functions. -/
theorem quadRule_prod (r : Rule1) (f g : ℝ → ℝ) :
    evalQuadrature (fun p : ℝ × ℝ => f p.1 * g p.2) (quadRule r) = evalQuadrature f r * evalQuadrature g r := by
  simp only [evalQuadrature_eq, quadRule, List.map_flatMap, List.map_map, sum_flatMap, Function.comp_def]
  have : ∀ p : ℝ × ℝ, (r.map fun q => f p.1 * g q.1 * (p.2 * q.2)).sum =
      f p.1 * p.2 * (r.map fun q => g q.1 * q.2).sum := by
    intro p
    rw [← List.sum_map_mul_left]
    congr 1; apply List.map_congr_left; intro q _; ring
  simp only [this, List.sum_map_mul_right]

theorem hexRule_prod (r : Rule1) (f g h : ℝ → ℝ) :
    evalQuadrature (fun p : ℝ × ℝ × ℝ => f p.1 * g p.2.1 * h p.2.2) (hexRule r) =
      evalQuadrature f r * evalQuadrature g r * evalQuadrature h r := by
  simp only [evalQuadrature_eq, hexRule, List.map_flatMap, List.map_map, sum_flatMap, Function.comp_def]
  have : ∀ p q : ℝ × ℝ, (r.map fun s => f p.1 * g q.1 * h s.1 * (p.2 * q.2 * s.2)).sum =
      f p.1 * p.2 * (g q.1 * q.2) * (r.map fun s => h s.1 * s.2).sum := by
    intro p q
    rw [← List.sum_map_mul_left]
    congr 1; apply List.map_congr_left; intro s _; ring
  simp only [this, List.sum_map_mul_right, List.sum_map_mul_left]

theorem evalQuadrature_sum {A B : Type} (rule : List (A × ℝ)) (ts : List B) (f : B → A → ℝ) :
    evalQuadrature (fun a => (ts.map fun t => f t a).sum) rule = (ts.map fun t => evalQuadrature (f t) rule).sum := by
  simp only [evalQuadrature_eq]
  induction ts with
  | nil => simp
  | cons t ts ih =>
    simp only [List.map_cons, List.sum_cons, add_mul, List.sum_map_add, ih]

theorem evaluate_continuous (c : List ℝ) : Continuous fun x : ℝ => evaluate c x := by
  simp only [evaluate_eq]; exact (toPoly c).continuous

theorem integral_list_sum {B : Type} (ts : List B) (f : B → ℝ → ℝ) (hf : ∀ t ∈ ts, Continuous (f t)) :
    ∫ x in (-1 : ℝ)..1, (ts.map fun t => f t x).sum = (ts.map fun t => ∫ x in (-1 : ℝ)..1, f t x).sum := by
  induction ts with
  | nil => simp
  | cons t ts ih =>
    simp only [List.map_cons, List.sum_cons]
    have hc : Continuous fun x => (ts.map fun t => f t x).sum := by
      have : ∀ l : List B, (∀ t ∈ l, Continuous (f t)) → Continuous fun x => (l.map fun t => f t x).sum := by
        intro l
        induction l with
        | nil => intro _; simpa using continuous_const
        | cons a l ih =>
          intro h
          simp only [List.map_cons, List.sum_cons]
          exact (h a (by simp)).add (ih fun t ht => h t (by simp [ht]))
      exact this ts fun t ht => hf t (by simp [ht])
    rw [intervalIntegral.integral_add ((hf t (by simp)).intervalIntegrable _ _) (hc.intervalIntegrable _ _),
      ih fun t ht => hf t (by simp [ht])]

/-- Tensor-product rule on the reference square: exact for every polynomial of degree at most the
requested order in each variable (a finite sum of products of one-variable polynomials). -/
theorem C66_quad (qo : Nat) (r : Rule1) (hr : IsReferenceRule qo r) (ts : List (List ℝ × List ℝ))
    (hts : ∀ t ∈ ts, t.1.length ≤ qo + 1 ∧ t.2.length ≤ qo + 1) :
    evalQuadrature (fun p : ℝ × ℝ => (ts.map fun t => evaluate t.1 p.1 * evaluate t.2 p.2).sum) (quadRule r) =
      ∫ x in (-1 : ℝ)..1, ∫ y in (-1 : ℝ)..1, (ts.map fun t => evaluate t.1 x * evaluate t.2 y).sum := by
  rw [evalQuadrature_sum]
  have e1 : ∀ x : ℝ, ∫ y in (-1 : ℝ)..1, (ts.map fun t => evaluate t.1 x * evaluate t.2 y).sum =
      (ts.map fun t => evaluate t.1 x * ∫ y in (-1 : ℝ)..1, evaluate t.2 y).sum := by
    intro x
    rw [integral_list_sum ts (fun t y => evaluate t.1 x * evaluate t.2 y)
      (fun t _ => continuous_const.mul (evaluate_continuous t.2))]
    simp only [intervalIntegral.integral_const_mul]
  simp only [e1]
  rw [integral_list_sum ts (fun t x => evaluate t.1 x * ∫ y in (-1 : ℝ)..1, evaluate t.2 y)
      (fun t _ => (evaluate_continuous t.1).mul continuous_const)]
  simp only [intervalIntegral.integral_mul_const]
  congr 1
  apply List.map_congr_left
  intro t ht
  rw [quadRule_prod r (evaluate t.1) (evaluate t.2), (C66_line qo r hr t.1 (hts t ht).1).2,
    (C66_line qo r hr t.2 (hts t ht).2).2]

/-- The same on the reference cube. -/
theorem C66_hex (qo : Nat) (r : Rule1) (hr : IsReferenceRule qo r) (ts : List (List ℝ × List ℝ × List ℝ))
    (hts : ∀ t ∈ ts, t.1.length ≤ qo + 1 ∧ t.2.1.length ≤ qo + 1 ∧ t.2.2.length ≤ qo + 1) :
    evalQuadrature (fun p : ℝ × ℝ × ℝ =>
        (ts.map fun t => evaluate t.1 p.1 * evaluate t.2.1 p.2.1 * evaluate t.2.2 p.2.2).sum) (hexRule r) =
      ∫ x in (-1 : ℝ)..1, ∫ y in (-1 : ℝ)..1, ∫ z in (-1 : ℝ)..1,
        (ts.map fun t => evaluate t.1 x * evaluate t.2.1 y * evaluate t.2.2 z).sum := by
  rw [evalQuadrature_sum]
  have e1 : ∀ x y : ℝ, ∫ z in (-1 : ℝ)..1, (ts.map fun t => evaluate t.1 x * evaluate t.2.1 y * evaluate t.2.2 z).sum =
      (ts.map fun t => evaluate t.1 x * evaluate t.2.1 y * ∫ z in (-1 : ℝ)..1, evaluate t.2.2 z).sum := by
    intro x y
    rw [integral_list_sum ts (fun t z => evaluate t.1 x * evaluate t.2.1 y * evaluate t.2.2 z)
      (fun t _ => continuous_const.mul (evaluate_continuous t.2.2))]
    simp only [intervalIntegral.integral_const_mul]
  have e2 : ∀ x : ℝ, ∫ y in (-1 : ℝ)..1,
      (ts.map fun t => evaluate t.1 x * evaluate t.2.1 y * ∫ z in (-1 : ℝ)..1, evaluate t.2.2 z).sum =
      (ts.map fun t => evaluate t.1 x * (∫ y in (-1 : ℝ)..1, evaluate t.2.1 y) *
        ∫ z in (-1 : ℝ)..1, evaluate t.2.2 z).sum := by
    intro x
    rw [integral_list_sum ts (fun t y => evaluate t.1 x * evaluate t.2.1 y * ∫ z in (-1 : ℝ)..1, evaluate t.2.2 z)
      (fun t _ => (continuous_const.mul (evaluate_continuous t.2.1)).mul continuous_const)]
    simp only [intervalIntegral.integral_const_mul, intervalIntegral.integral_mul_const]
  simp only [e1, e2]
  rw [integral_list_sum ts (fun t x => evaluate t.1 x * (∫ y in (-1 : ℝ)..1, evaluate t.2.1 y) *
        ∫ z in (-1 : ℝ)..1, evaluate t.2.2 z)
      (fun t _ => ((evaluate_continuous t.1).mul continuous_const).mul continuous_const)]
  simp only [intervalIntegral.integral_mul_const]
  congr 1
  apply List.map_congr_left
  intro t ht
  rw [hexRule_prod r (evaluate t.1) (evaluate t.2.1) (evaluate t.2.2), (C66_line qo r hr t.1 (hts t ht).1).2,
    (C66_line qo r hr t.2.1 (hts t ht).2.1).2, (C66_line qo r hr t.2.2 (hts t ht).2.2).2]

/-- The order is sharp: the rule is not exact one degree beyond `2·size − 1`; e.g. for order 1 (one
point) `x²` is integrated to 0 instead of 2/3. -/
example (r : Rule1) (hr : IsReferenceRule 1 r) : r = [(0, 2)] := by
  have h : IsReferenceRule 1 [(0, 2)] := by
    have h1 : IsEigen 1 (jacobi lcA (fun _ => 0) lcC) (fun _ => 0) (fun _ _ => 1) := by
      refine ⟨fun _ _ _ => le_rfl, ?_, ?_⟩
      · intro i j; have : i = j := Subsingleton.elim _ _
        simp [this]
      · intro i j
        have : i = 0 := Subsingleton.elim _ _
        simp [this, jacobi]
    exact ⟨fun _ => 0, fun _ _ => 1, h1, by simp [gaussRule]⟩
  exact (C66_unique 1).unique hr h

/-- The hypotheses are met for every order. -/
example : ∃ r, IsReferenceRule 3 r ∧ r.length = 2 ∧
    evalQuadrature (evaluate [1, 1, 1, 1]) r = ∫ x in (-1 : ℝ)..1, evaluate [1, 1, 1, 1] x :=
  let ⟨r, hr, _⟩ := C66_unique 3
  ⟨r, hr, (C66_line 3 r hr [1, 1, 1, 1] (by simp)).1, (C66_line 3 r hr [1, 1, 1, 1] (by simp)).2⟩

end Verif.Quad
