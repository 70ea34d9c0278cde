import Verif.Integral.Model
import Mathlib.Analysis.Real.Sqrt
import Mathlib.Algebra.BigOperators.Ring.List
import Mathlib.Algebra.Order.BigOperators.Group.List
import Mathlib.Tactic.Ring
import Mathlib.Tactic.NormNum

/-!
# C62: integrals over the distributed mesh
-/
namespace Verif.Integral

set_option linter.unusedSectionVars false

/-! ## Specification -/

section
variable {K : Type} [Field K]

/-- Component `i` of the quadrature sum over an element. -/
def quadSum (e : El K) (i : Nat) : K := (e.qps.map fun q => q.weight * q.jacobian * q.result i).sum

/-- The elements of the requested groups (a group is counted as often as it is requested). -/
def elementsOf {E : Type} (m : Groups E) (ids : List Nat) : List E :=
  ids.flatMap fun i => ((m.lookup i).getD []).flatten

/-- Component `i` of the integral over one part: sum over its elements of the kernel's dimension. -/
def partSum (dim : Nat) (m : Groups (El K)) (ids : List Nat) (i : Nat) : K :=
  (((elementsOf m ids).filter (·.dim = dim)).map (quadSum · i)).sum

/-- Component `i` of the integral over the whole mesh. -/
def meshSum (dim : Nat) (parts : List (Groups (El K))) (ids : List Nat) (i : Nat) : K :=
  (parts.map (partSum dim · ids i)).sum

end

/-! ## Lemmas -/

theorem eval_eq {A : Type} [AddCommMonoid A] : ∀ t : Tree A, t.eval = t.leaves.sum
  | .leaf a => by simp [Tree.eval, Tree.leaves]
  | .node l r => by simp [Tree.eval, Tree.leaves, eval_eq l, eval_eq r]

theorem reduces_iff {A : Type} [AddCommMonoid A] (l : List A) (x : A) : Reduces 0 l x ↔ x = l.sum := by
  constructor
  · rintro ⟨t, k, hp, rfl⟩
    rw [eval_eq, hp.sum_eq]; simp
  · rintro rfl
    refine ⟨l.foldr (fun a t => .node (.leaf a) t) (.leaf 0), 0, ?_, ?_⟩
    · induction l with
      | nil => exact List.Perm.refl _
      | cons a l ih =>
        change ([a] ++ _).Perm _
        exact (List.Perm.cons a ih).trans (List.perm_middle.symm)
    · rw [eval_eq]
      induction l with
      | nil => simp [Tree.leaves]
      | cons a l ih => simp [Tree.leaves, ih]

theorem forall₂_eq {α β : Type} {R : α → β → Prop} {g : α → β} (h : ∀ a b, R a b ↔ b = g a) :
    ∀ (l : List α) (l' : List β), List.Forall₂ R l l' ↔ l' = l.map g
  | [], l' => by simp
  | a :: l, l' => by
    rw [List.forall₂_cons_left_iff, List.map_cons]
    constructor
    · rintro ⟨b, u, hab, hu, rfl⟩
      rw [(h a b).1 hab, (forall₂_eq h l u).1 hu]
    · rintro rfl
      exact ⟨_, _, (h a _).2 rfl, (forall₂_eq h l _).2 rfl, rfl⟩

theorem reducesVecs_iff {A E : Type} [AddCommMonoid A] (f : E → A) (vs : List (List E)) (x : A) :
    ReducesVecs 0 f vs x ↔ x = (vs.flatten.map f).sum := by
  unfold ReducesVecs
  have h := forall₂_eq (R := fun (v : List E) y => Reduces 0 (v.map f) y) (g := fun v => (v.map f).sum)
    (fun a b => reduces_iff _ _) vs
  have e : (vs.map fun v => (v.map f).sum).sum = (vs.flatten.map f).sum := by
    rw [List.map_flatten, List.sum_flatten, List.map_map]; rfl
  constructor
  · rintro ⟨xs, h1, h2⟩
    rw [(h xs).1 h1] at h2
    rw [(reduces_iff _ _).1 h2, e]
  · rintro rfl
    exact ⟨_, (h _).2 rfl, (reduces_iff _ _).2 e.symm⟩

theorem forall₂_eq_mem {α β : Type} {R : α → β → Prop} {g : α → β} :
    ∀ (l : List α) (_ : ∀ a ∈ l, ∀ b, R a b ↔ b = g a) (l' : List β), List.Forall₂ R l l' ↔ l' = l.map g
  | [], _, l' => by simp
  | a :: l, h, l' => by
    have h' : ∀ a ∈ l, ∀ b, R a b ↔ b = g a := fun a ha => h a (by simp [ha])
    rw [List.forall₂_cons_left_iff, List.map_cons]
    constructor
    · rintro ⟨b, u, hab, hu, rfl⟩
      rw [(h a (by simp) b).1 hab, (forall₂_eq_mem l h' u).1 hu]
    · rintro rfl
      exact ⟨_, _, (h a (by simp) _).2 rfl, (forall₂_eq_mem l h' _).2 rfl, rfl⟩

theorem existing_flatMap {E : Type} (m : Groups E) (ids : List Nat) :
    (existing m ids).flatMap (fun i => ((m.lookup i).getD []).flatten) = elementsOf m ids := by
  unfold existing elementsOf
  induction ids with
  | nil => rfl
  | cons i ids ih =>
    rw [List.flatMap_cons, ← ih]
    cases h : m.lookup i with
    | none => rw [List.filter_cons_of_neg (by simp [h])]; simp
    | some v => rw [List.filter_cons_of_pos (by simp [h]), List.flatMap_cons, h]

theorem sum_map_flatMap {A E I : Type} [AddCommMonoid A] (f : E → A) (g : I → List E) (l : List I) :
    ((l.flatMap g).map f).sum = (l.map fun i => ((g i).map f).sum).sum := by
  induction l with
  | nil => rfl
  | cons a l ih => simp [ih]

theorem reducesMesh_iff {A E : Type} [AddCommMonoid A] (f : E → A) (m : Groups E) (ids : List Nat) (x : A) :
    ReducesMesh 0 f m ids x ↔ x = ((elementsOf m ids).map f).sum := by
  unfold ReducesMesh
  have h := forall₂_eq_mem (R := fun i (y : A) => ∃ vs, m.lookup i = some vs ∧ ReducesVecs 0 f vs y)
    (g := fun i => ((((m.lookup i).getD []).flatten).map f).sum) (existing m ids) (fun i hi b => by
      obtain ⟨vs, hv⟩ := Option.isSome_iff_exists.1 (List.mem_filter.1 hi).2
      rw [hv]
      constructor
      · rintro ⟨vs', e, hr⟩
        cases e
        exact (reducesVecs_iff _ _ _).1 hr
      · rintro rfl
        exact ⟨vs, rfl, (reducesVecs_iff _ _ _).2 rfl⟩)
  have e : ((existing m ids).map fun i => ((((m.lookup i).getD []).flatten).map f).sum).sum =
      ((elementsOf m ids).map f).sum := by
    rw [← existing_flatMap, sum_map_flatMap]
  constructor
  · rintro ⟨xs, h1, h2⟩
    rw [(h xs).1 h1] at h2
    rw [(reduces_iff _ _).1 h2, e]
  · rintro rfl
    exact ⟨_, (h _).2 rfl, (reduces_iff _ _).2 e.symm⟩

section
variable {K : Type} [Field K]

theorem elementIntegral_eq (e : El K) (i : Nat) : elementIntegral e i = quadSum e i := by
  unfold elementIntegral quadSum
  have : ∀ (l : List (QPoint K)) (acc : Nat → K),
      l.foldl (fun acc q => fun i => acc i + q.jacobian * q.result i * q.weight) acc i =
        acc i + (l.map fun q => q.weight * q.jacobian * q.result i).sum := by
    intro l
    induction l with
    | nil => simp
    | cons q l ih => intro acc; rw [List.foldl_cons, ih]; simp; ring
  rw [this]; simp

theorem sum_apply (l : List (Nat → K)) (i : Nat) : l.sum i = (l.map (· i)).sum := by
  induction l with
  | nil => rfl
  | cons a l ih => simp [ih]

theorem sum_filter (dim : Nat) (l : List (El K)) (i : Nat) :
    ((l.map (reduceElement dim)).map (· i)).sum = ((l.filter (·.dim = dim)).map (quadSum · i)).sum := by
  induction l with
  | nil => rfl
  | cons e l ih =>
    by_cases h : e.dim = dim
    · rw [List.filter_cons_of_pos (by simp [h])]
      simp only [List.map_cons, List.sum_cons, ih]
      rw [reduceElement, if_pos h.symm, elementIntegral_eq]
    · rw [List.filter_cons_of_neg (by simp [h])]
      simp only [List.map_cons, List.sum_cons, ih]
      rw [reduceElement, if_neg (fun hh => h hh.symm), zero_add]

theorem local_iff (dim : Nat) (m : Groups (El K)) (ids : List Nat) (x : Nat → K) :
    LocalIntegral dim m ids x ↔ x = partSum dim m ids := by
  unfold LocalIntegral
  rw [show (fun _ : Nat => (0 : K)) = 0 from rfl, reducesMesh_iff]
  have : ((elementsOf m ids).map (reduceElement dim)).sum = partSum dim m ids := by
    funext i
    rw [sum_apply, sum_filter]; rfl
  rw [this]

theorem integral_eq (nEq dim : Nat) (parts : List (Groups (El K))) (ids : List Nat) (x : Nat → K) :
    Integral nEq dim parts ids x ↔ x = fun i => if i < nEq then meshSum dim parts ids i else 0 := by
  unfold Integral
  have h := forall₂_eq (R := fun (m : Groups (El K)) y => LocalIntegral dim m ids y)
    (g := fun m => partSum dim m ids) (fun a b => local_iff dim a ids b) parts
  have e : computeIntegral nEq (parts.map fun m => partSum dim m ids) =
      fun i => if i < nEq then meshSum dim parts ids i else 0 := by
    funext i
    simp only [computeIntegral, allReduceSum, meshSum, List.map_map, Function.comp_def]
  constructor
  · rintro ⟨l, h1, rfl⟩
    rw [(h l).1 h1, e]
  · rintro rfl
    exact ⟨_, (h _).2 rfl, e.symm⟩

/-! ## Theorems -/

/-- **C62** (the value on one rank): however the parallel reductions group and order their operands, the
local integral is the sum, over the requested groups the part has, over their elements of the kernel's
dimension, and over the quadrature points, of weight × Jacobian × kernel value. -/
theorem C62_local (dim : Nat) (m : Groups (El K)) (ids : List Nat) (x : Nat → K) :
    LocalIntegral dim m ids x ↔ ∀ i, x i = partSum dim m ids i := by
  rw [local_iff]; exact ⟨fun h i => by rw [h], funext⟩

/-- The statement: every component of the result is the sum over all ranks. -/
def C62Statement : Prop :=
  ∀ (nEq nRhs dim : Nat) (parts : List (Groups (El ℚ))) (ids : List Nat) (x : Nat → ℚ),
    Integral nEq dim parts ids x →
    ∀ eq < nEq, ∀ rhs < nRhs, x (eq + nEq * rhs) = meshSum dim parts ids (eq + nEq * rhs)

/-- **C62** (what is returned): column 0 of the result is right and every further column is zero, for all
rank, equation and right-hand-side counts. -/
theorem C62_columns (nEq dim : Nat) (parts : List (Groups (El K))) (ids : List Nat) (x : Nat → K)
    (h : Integral nEq dim parts ids x) (eq : Nat) (heq : eq < nEq) (rhs : Nat) :
    x (eq + nEq * rhs) = if rhs = 0 then meshSum dim parts ids eq else 0 := by
  rw [(integral_eq nEq dim parts ids x).1 h]
  beta_reduce
  by_cases c : rhs = 0
  · subst c; simp [heq]
  · rw [if_neg, if_neg c]
    have : nEq * 1 ≤ nEq * rhs := Nat.mul_le_mul_left _ (by omega)
    omega

/-- **C62**, the part that holds: with one right-hand side the integral is the sum over all ranks, for
every component.  Missing: further right-hand sides (see `C62_violated`). -/
theorem C62_partial (nEq dim : Nat) (parts : List (Groups (El K))) (ids : List Nat) (x : Nat → K)
    (h : Integral nEq dim parts ids x) : ∀ eq < nEq, x eq = meshSum dim parts ids eq := by
  intro eq heq
  simpa using C62_columns nEq dim parts ids x h eq heq 0

/-- **C62** (partition independence): two distributions of the same elements give the same integral. -/
theorem C62_distribution (nEq dim : Nat) (parts parts' : List (Groups (El K))) (ids : List Nat)
    (x x' : Nat → K) (h : Integral nEq dim parts ids x) (h' : Integral nEq dim parts' ids x')
    (hp : (parts.flatMap (elementsOf · ids)).Perm (parts'.flatMap (elementsOf · ids))) : x = x' := by
  have key : ∀ (p : List (Groups (El K))) i, meshSum dim p ids i =
      (((p.flatMap (elementsOf · ids)).filter (·.dim = dim)).map (quadSum · i)).sum := by
    intro p i
    unfold meshSum partSum
    rw [List.filter_flatMap, sum_map_flatMap]
  rw [(integral_eq nEq dim parts ids x).1 h, (integral_eq nEq dim parts' ids x').1 h']
  funext i
  rw [key, key, ((hp.filter _).map _).sum_eq]

end

/-- One rank, one element with one quadrature point of weight 1 and Jacobian 1. -/
def exPart (r : Nat → ℚ) : Groups (El ℚ) := [(3, [[], [⟨2, [⟨1, 1, r⟩]⟩]])]

/-- **C62** fails for two right-hand sides: the second column comes out as 0 although the kernel
yields 1. -/
theorem C62_violated : ¬ C62Statement := by
  intro h
  have hI : Integral 1 2 [exPart fun _ => 1] [3] _ := (integral_eq 1 2 [exPart fun _ => 1] [3] _).2 rfl
  have := h 1 2 2 [exPart fun _ => 1] [3] _ hI 0 (by decide) 1 (by decide)
  simp [meshSum, partSum, elementsOf, exPart, quadSum, List.lookup] at this

theorem squaredGroups_elements {K : Type} [Field K] (nEq : Nat) (m : Groups (El K)) (ids : List Nat) :
    elementsOf (squaredGroups nEq m) ids = (elementsOf m ids).map (squared nEq) := by
  have hl : ∀ i, (squaredGroups nEq m).lookup i = (m.lookup i).map (·.map (·.map (squared nEq))) := by
    intro i
    unfold squaredGroups
    induction m with
    | nil => rfl
    | cons g m ih =>
      simp only [List.map_cons, List.lookup]
      cases i == g.1 <;> simp [ih]
  unfold elementsOf
  rw [List.map_flatMap]
  congr 1; funext i
  rw [hl]
  cases m.lookup i <;> simp

/-- **C62** (L² norm): for one right-hand side `computeNormL2` returns, for each component, the square
root of the sum over ranks, elements and quadrature points of weight × Jacobian × value². -/
theorem C62_norm (nEq dim : Nat) (parts : List (Groups (El ℝ))) (ids : List Nat) (x : Nat → ℝ)
    (h : Integral nEq dim (parts.map (squaredGroups nEq)) ids x) (eq : Nat) (heq : eq < nEq) :
    Real.sqrt (x eq) = Real.sqrt ((parts.map fun m =>
      (((elementsOf m ids).filter (·.dim = dim)).map fun e =>
        (e.qps.map fun q => q.weight * q.jacobian * q.result eq ^ 2).sum).sum).sum) := by
  rw [C62_partial nEq dim _ ids x h eq heq]
  congr 1
  unfold meshSum partSum
  rw [List.map_map]
  congr 2; funext m
  simp only [Function.comp_apply]
  rw [squaredGroups_elements, List.filter_map, List.map_map]
  congr 2
  · funext e
    simp only [Function.comp_apply, quadSum, squared, List.map_map]
    congr 2; funext q
    simp only [Function.comp_apply, if_pos heq]; ring

/-- **C62** (norm zero): with positive weights and Jacobians the norm of a component is zero exactly when
the kernel vanishes there at every quadrature point. -/
theorem C62_norm_zero (nEq dim : Nat) (parts : List (Groups (El ℝ))) (ids : List Nat) (x : Nat → ℝ)
    (h : Integral nEq dim (parts.map (squaredGroups nEq)) ids x) (eq : Nat) (heq : eq < nEq)
    (hpos : ∀ m ∈ parts, ∀ e ∈ elementsOf m ids, ∀ q ∈ e.qps, 0 < q.weight ∧ 0 < q.jacobian) :
    Real.sqrt (x eq) = 0 ↔
      ∀ m ∈ parts, ∀ e ∈ elementsOf m ids, e.dim = dim → ∀ q ∈ e.qps, q.result eq = 0 := by
  rw [C62_norm nEq dim parts ids x h eq heq]
  have hz : ∀ (l : List ℝ), (∀ a ∈ l, 0 ≤ a) → (l.sum = 0 ↔ ∀ a ∈ l, a = 0) := by
    intro l
    induction l with
    | nil => simp
    | cons a l ih =>
      intro hl
      have h1 : 0 ≤ a := hl a (by simp)
      have h2 : ∀ b ∈ l, 0 ≤ b := fun b hb => hl b (by simp [hb])
      have h3 : 0 ≤ l.sum := List.sum_nonneg h2
      rw [List.sum_cons, add_eq_zero_iff_of_nonneg h1 h3, ih h2]
      simp
  have hq : ∀ m ∈ parts, ∀ e ∈ elementsOf m ids,
      ∀ a ∈ e.qps.map (fun q => q.weight * q.jacobian * q.result eq ^ 2), 0 ≤ a := by
    intro m hm e he a ha
    obtain ⟨q, hqm, rfl⟩ := List.mem_map.1 ha
    obtain ⟨w, j⟩ := hpos m hm e he q hqm
    positivity
  have he : ∀ m ∈ parts, ∀ a ∈ (((elementsOf m ids).filter (·.dim = dim)).map fun e =>
      (e.qps.map fun q => q.weight * q.jacobian * q.result eq ^ 2).sum), 0 ≤ a := by
    intro m hm a ha
    obtain ⟨e, hem, rfl⟩ := List.mem_map.1 ha
    exact List.sum_nonneg (hq m hm e (List.mem_filter.1 hem).1)
  have hm : ∀ a ∈ (parts.map fun m => (((elementsOf m ids).filter (·.dim = dim)).map fun e =>
      (e.qps.map fun q => q.weight * q.jacobian * q.result eq ^ 2).sum).sum), 0 ≤ a := by
    intro a ha
    obtain ⟨m, hmm, rfl⟩ := List.mem_map.1 ha
    exact List.sum_nonneg (he m hmm)
  rw [Real.sqrt_eq_zero (List.sum_nonneg hm), hz _ hm]
  constructor
  · intro hh m hmm e hem hd q hqm
    have h1 := hh _ (List.mem_map.2 ⟨m, hmm, rfl⟩)
    rw [hz _ (he m hmm)] at h1
    have h2 := h1 _ (List.mem_map.2 ⟨e, List.mem_filter.2 ⟨hem, by simpa using hd⟩, rfl⟩)
    rw [hz _ (hq m hmm e hem)] at h2
    have h3 := h2 _ (List.mem_map.2 ⟨q, hqm, rfl⟩)
    obtain ⟨w, j⟩ := hpos m hmm e hem q hqm
    rcases mul_eq_zero.1 h3 with h4 | h4
    · exact absurd h4 (by positivity)
    · exact pow_eq_zero_iff (by norm_num) |>.1 h4
  · intro hh a ha
    obtain ⟨m, hmm, rfl⟩ := List.mem_map.1 ha
    rw [hz _ (he m hmm)]
    intro b hb
    obtain ⟨e, hem, rfl⟩ := List.mem_map.1 hb
    obtain ⟨hem, hd⟩ := List.mem_filter.1 hem
    rw [hz _ (hq m hmm e hem)]
    intro c hc
    obtain ⟨q, hqm, rfl⟩ := List.mem_map.1 hc
    rw [hh m hmm e hem (by simpa using hd) q hqm]; ring

/-! ## Examples -/

example : ∃ x, Integral 1 2 [exPart fun _ => 2, exPart fun _ => 3] [3, 9] x ∧ x 0 = 5 := by
  refine ⟨_, (integral_eq _ _ _ _ _).2 rfl, ?_⟩
  have : (9 == 3) = false := rfl
  norm_num [meshSum, partSum, elementsOf, exPart, quadSum, List.lookup, this]

/-- Another bracketing with an extra identity. -/
example : Reduces (0 : ℚ) [1, 2, 3] 6 :=
  ⟨.node (.node (.leaf 2) (.leaf 0)) (.node (.leaf 3) (.node (.leaf 0) (.leaf 1))), 1, by decide,
    by norm_num [Tree.eval]⟩

end Verif.Integral
