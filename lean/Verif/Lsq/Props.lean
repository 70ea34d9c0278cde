import Verif.Lsq.Model
import Verif.Lsq.Rows
import Mathlib.Tactic.NormNum
import Mathlib.Tactic.IntervalCases

/-! # C93: the assembled system is the least-squares problem of the kernels -/
namespace Verif.Lsq
open MatFree MfInit Finset

noncomputable section

/-! ### Specification -/

/-- Unknown `v` at a point, from local coefficients `y` (node `b`, unknown `v` at position `b * nu + v`). -/
def uVal (D : Batch.Dims) (U : Batch.Upd) (y : Nat → ℝ) (v : Nat) : ℝ := ∑ b ∈ range D.nb, U.bv b * y (b * D.nu + v)

/-- Its derivative in direction `d`. -/
def uDer (D : Batch.Dims) (U : Batch.Upd) (y : Nat → ℝ) (d v : Nat) : ℝ := ∑ b ∈ range D.nb, U.bd d b * y (b * D.nu + v)

/-- Residual of equation `e`, right-hand side number `c`, at a point: `A₀ u + Σ_d A_d ∂_d u - f`. -/
def residual (D : Batch.Dims) (U : Batch.Upd) (y : Nat → ℝ) (c e : Nat) : ℝ :=
  (∑ v ∈ range D.nu, U.op 0 e v * uVal D U y v) + (∑ d ∈ range D.dim, ∑ v ∈ range D.nu, U.op (d + 1) e v * uDer D U y d v) - U.F e c

/-- The quadrature of the squared residuals over one element. -/
def elemJ (el : LElem) (y : Nat → ℝ) (c : Nat) : ℝ :=
  (el.pts.map fun U => U.w * ∑ e ∈ range el.dims.us, residual el.dims U y c e ^ 2).sum

/-- The least-squares functional of the whole problem for a global vector of unknowns. -/
def functional (nr : Nat) (ranks : Nat → LRank) (c : Nat) (u : Nat → ℝ) : ℝ :=
  ∑ q ∈ range nr, ((ranks q).elems.map fun el => elemJ el (fun i => u ((ranks q).l2g.getD (el.dofs.getD i 0) 0)) c).sum

/-- Elements have one dof per local unknown. -/
def Sized (nr : Nat) (ranks : Nat → LRank) : Prop := ∀ q < nr, ∀ el ∈ (ranks q).elems, el.dofs.length = el.dims.size

/-- No weight is negative. -/
def Weighted (nr : Nat) (ranks : Nat → LRank) : Prop := ∀ q < nr, ∀ el ∈ (ranks q).elems, ∀ U ∈ el.pts, 0 ≤ U.w

/-! ### Rows -/

/-- Row of the equation `e` at a point. -/
def ptRow (l2g : List Nat) (el : LElem) (c : Nat) (U : Batch.Upd) (e : Nat) : Row :=
  ⟨U.w, fun g => ∑ i ∈ range el.dofs.length, if l2g.getD (el.dofs.getD i 0) 0 = g then Batch.shape el.dims U i e else 0, U.F e c⟩

def elemRows (l2g : List Nat) (el : LElem) (c : Nat) : List Row :=
  el.pts.flatMap fun U => (List.range el.dims.us).map fun e => ptRow l2g el c U e

def allRows (nr : Nat) (ranks : Nat → LRank) (c : Nat) : List Row :=
  (List.range nr).flatMap fun q => (ranks q).elems.flatMap fun el => elemRows (ranks q).l2g el c

theorem sum_range_list (n : Nat) (f : Nat → ℝ) : ((List.range n).map f).sum = ∑ i ∈ range n, f i := by
  induction n with
  | zero => simp
  | succ n ih => rw [List.range_succ, List.map_append, List.sum_append, ih, sum_range_succ]; simp

theorem sum_flatMap {A B : Type} (l : List A) (f : A → List B) (g : B → ℝ) :
    ((l.flatMap f).map g).sum = (l.map fun a => ((f a).map g).sum).sum := by
  induction l with
  | nil => rfl
  | cons a l ih => simp only [List.flatMap_cons, List.map_append, List.sum_append, ih, List.map_cons, List.sum_cons]

/-- Sums over all rows. -/
theorem sum_allRows (nr : Nat) (ranks : Nat → LRank) (c : Nat) (F : Row → ℝ) :
    ((allRows nr ranks c).map F).sum = ∑ q ∈ range nr, ((ranks q).elems.map fun el =>
      (el.pts.map fun U => ∑ e ∈ range el.dims.us, F (ptRow (ranks q).l2g el c U e)).sum).sum := by
  unfold allRows
  rw [sum_flatMap, sum_range_list]
  refine sum_congr rfl fun q _ => ?_
  rw [sum_flatMap]
  congr 1
  refine List.map_congr_left fun el _ => ?_
  unfold elemRows
  rw [sum_flatMap]
  congr 1
  refine List.map_congr_left fun U _ => ?_
  rw [List.map_map, sum_range_list]
  rfl

theorem split_index (nb nu : Nat) (f : Nat → ℝ) : ∑ i ∈ range (nb * nu), f i = ∑ b ∈ range nb, ∑ v ∈ range nu, f (b * nu + v) := by
  induction nb with
  | zero => simp
  | succ n ih => rw [Nat.succ_mul, sum_range_add, ih, sum_range_succ]

/-- The operator applied to the local unknowns. -/
theorem shape_sum (D : Batch.Dims) (U : Batch.Upd) (y : Nat → ℝ) (c e : Nat) :
    ∑ i ∈ range D.size, Batch.shape D U i e * y i = residual D U y c e + U.F e c := by
  unfold Batch.Dims.size
  rw [split_index]
  have h : ∀ b ∈ range D.nb, ∑ v ∈ range D.nu, Batch.shape D U (b * D.nu + v) e * y (b * D.nu + v) =
      (∑ v ∈ range D.nu, U.op 0 e v * (U.bv b * y (b * D.nu + v))) +
      ∑ d ∈ range D.dim, ∑ v ∈ range D.nu, U.op (d + 1) e v * (U.bd d b * y (b * D.nu + v)) := by
    intro b _
    rw [sum_comm (s := range D.dim), ← sum_add_distrib]
    refine sum_congr rfl fun v hv => ?_
    have hv := mem_range.1 hv
    have h1 : (b * D.nu + v) / D.nu = b := by
      rw [mul_comm, Nat.mul_add_div (by omega), Nat.div_eq_of_lt hv, add_zero]
    have h2 : (b * D.nu + v) % D.nu = v := by
      rw [mul_comm, Nat.mul_add_mod, Nat.mod_eq_of_lt hv]
    unfold Batch.shape
    rw [h1, h2, add_mul, sum_mul]
    congr 1
    · ring
    · exact sum_congr rfl fun d _ => by ring
  rw [sum_congr rfl h, sum_add_distrib]
  unfold residual uVal uDer
  have e1 : ∑ b ∈ range D.nb, ∑ v ∈ range D.nu, U.op 0 e v * (U.bv b * y (b * D.nu + v)) =
      ∑ v ∈ range D.nu, U.op 0 e v * ∑ b ∈ range D.nb, U.bv b * y (b * D.nu + v) := by
    rw [sum_comm]
    exact sum_congr rfl fun v _ => by rw [mul_sum]
  have e2 : ∑ b ∈ range D.nb, ∑ d ∈ range D.dim, ∑ v ∈ range D.nu, U.op (d + 1) e v * (U.bd d b * y (b * D.nu + v)) =
      ∑ d ∈ range D.dim, ∑ v ∈ range D.nu, U.op (d + 1) e v * ∑ b ∈ range D.nb, U.bd d b * y (b * D.nu + v) := by
    rw [sum_comm]
    refine sum_congr rfl fun d _ => ?_
    rw [sum_comm]
    exact sum_congr rfl fun v _ => by rw [mul_sum]
  rw [e1, e2]
  ring

theorem ptRow_val {N : Nat} (l2g : List Nat) (el : LElem) (c : Nat) (U : Batch.Upd) (e : Nat) (u : Nat → ℝ)
    (hb : ∀ i < el.dofs.length, l2g.getD (el.dofs.getD i 0) 0 < N) (hs : el.dofs.length = el.dims.size) :
    (ptRow l2g el c U e).val N u - (ptRow l2g el c U e).f = residual el.dims U (fun i => u (l2g.getD (el.dofs.getD i 0) 0)) c e := by
  have h : (ptRow l2g el c U e).val N u = ∑ i ∈ range el.dims.size, Batch.shape el.dims U i e * u (l2g.getD (el.dofs.getD i 0) 0) := by
    unfold Row.val ptRow
    simp only [sum_mul]
    rw [sum_comm, ← hs]
    refine sum_congr rfl fun i hi => ?_
    rw [sum_eq_single (l2g.getD (el.dofs.getD i 0) 0)]
    · rw [if_pos rfl]
    · intro h _ hne; rw [if_neg (Ne.symm hne), zero_mul]
    · intro hn; exact absurd (mem_range.2 (hb i (mem_range.1 hi))) hn
  rw [h, shape_sum el.dims U _ c e]
  simp [ptRow]

section
variable {N nr : Nat} {D : Nat → Prop} {ranks : Nat → LRank}

theorem dof_lt (ok : Ok N nr D fun q => (ranks q).toI.toRank) (q : Nat) (hq : q < nr) (el : LElem) (he : el ∈ (ranks q).elems)
    (i : Nat) (hi : i < el.dofs.length) : (ranks q).l2g.getD (el.dofs.getD i 0) 0 < N := by
  have hm : el.sys.1 ∈ (ranks q).toI.toRank.elems := List.mem_map.2 ⟨el.sys, List.mem_map.2 ⟨el, he, rfl⟩, rfl⟩
  exact ok.bound q hq _ (getD_lt (ok.dofs q hq _ hm _ (getD_lt (l := el.dofs) hi)))

theorem functional_eq (ok : Ok N nr D fun q => (ranks q).toI.toRank) (hs : Sized nr ranks) (c : Nat) (u : Nat → ℝ) :
    functional nr ranks c u = rowsJ N (allRows nr ranks c) u := by
  unfold rowsJ functional
  rw [sum_allRows]
  refine sum_congr rfl fun q hq => ?_
  have hq := mem_range.1 hq
  congr 1
  refine List.map_congr_left fun el he => ?_
  unfold elemJ
  congr 1
  refine List.map_congr_left fun U _ => ?_
  rw [mul_sum]
  refine sum_congr rfl fun e _ => ?_
  rw [ptRow_val (N := N) _ el c U e u (fun i hi => dof_lt ok q hq el he i hi) (hs q hq el he)]
  rfl

theorem matrix_eq (c g h : Nat) : assembled nr (fun q => (ranks q).toI.toRank) g h = rowsK (allRows nr ranks c) g h := by
  unfold rowsK assembled
  rw [sum_allRows]
  refine sum_congr rfl fun q _ => ?_
  change ((((ranks q).elems.map LElem.sys).map (·.1)).map _).sum = _
  rw [List.map_map, List.map_map]
  congr 1
  refine List.map_congr_left fun el _ => ?_
  change (∑ i ∈ range el.dofs.length, ∑ j ∈ range el.dofs.length,
    if (ranks q).l2g.getD (el.dofs.getD i 0) 0 = g ∧ (ranks q).l2g.getD (el.dofs.getD j 0) 0 = h then Batch.directMat el.dims el.pts i j else 0) = _
  unfold Batch.directMat
  generalize el.pts = pts
  induction pts with
  | nil => simp
  | cons U pts ih =>
    simp only [List.map_cons, List.sum_cons]
    rw [← ih]
    have : ∑ e ∈ range el.dims.us, (ptRow (ranks q).l2g el c U e).w * ((ptRow (ranks q).l2g el c U e).a g * (ptRow (ranks q).l2g el c U e).a h) =
        ∑ i ∈ range el.dofs.length, ∑ j ∈ range el.dofs.length,
          if (ranks q).l2g.getD (el.dofs.getD i 0) 0 = g ∧ (ranks q).l2g.getD (el.dofs.getD j 0) 0 = h then
            U.w * ∑ e ∈ range el.dims.us, Batch.shape el.dims U i e * Batch.shape el.dims U j e else 0 := by
      have h1 : ∀ e ∈ range el.dims.us, (ptRow (ranks q).l2g el c U e).w * ((ptRow (ranks q).l2g el c U e).a g * (ptRow (ranks q).l2g el c U e).a h) =
          ∑ i ∈ range el.dofs.length, ∑ j ∈ range el.dofs.length,
          if (ranks q).l2g.getD (el.dofs.getD i 0) 0 = g ∧ (ranks q).l2g.getD (el.dofs.getD j 0) 0 = h then
            U.w * (Batch.shape el.dims U i e * Batch.shape el.dims U j e) else 0 := by
        intro e _
        unfold ptRow
        simp only []
        rw [sum_mul_sum, mul_sum]
        refine sum_congr rfl fun i _ => ?_
        rw [mul_sum]
        refine sum_congr rfl fun j _ => ?_
        split_ifs <;> first | simp_all | tauto
      rw [sum_congr rfl h1, sum_comm]
      refine sum_congr rfl fun i _ => ?_
      rw [sum_comm]
      refine sum_congr rfl fun j _ => ?_
      split
      · rw [mul_sum]
      · simp
    rw [this, ← sum_add_distrib]
    refine sum_congr rfl fun i _ => ?_
    rw [← sum_add_distrib]
    refine sum_congr rfl fun j _ => ?_
    split <;> simp

theorem rhs_eq (c g : Nat) : assembledRhs nr (fun q => (ranks q).toI) g c = rowsB (allRows nr ranks c) g := by
  unfold rowsB assembledRhs
  rw [sum_allRows]
  refine sum_congr rfl fun q _ => ?_
  change (((ranks q).elems.map LElem.sys).map _).sum = _
  rw [List.map_map]
  congr 1
  refine List.map_congr_left fun el _ => ?_
  change (∑ i ∈ range el.dofs.length, if (ranks q).l2g.getD (el.dofs.getD i 0) 0 = g then Batch.directRhs el.dims el.pts i c else 0) = _
  unfold Batch.directRhs
  generalize el.pts = pts
  induction pts with
  | nil => simp
  | cons U pts ih =>
    simp only [List.map_cons, List.sum_cons]
    rw [← ih]
    have : ∑ e ∈ range el.dims.us, (ptRow (ranks q).l2g el c U e).w * ((ptRow (ranks q).l2g el c U e).a g * (ptRow (ranks q).l2g el c U e).f) =
        ∑ i ∈ range el.dofs.length, if (ranks q).l2g.getD (el.dofs.getD i 0) 0 = g then
            U.w * ∑ e ∈ range el.dims.us, Batch.shape el.dims U i e * U.F e c else 0 := by
      have h1 : ∀ e ∈ range el.dims.us, (ptRow (ranks q).l2g el c U e).w * ((ptRow (ranks q).l2g el c U e).a g * (ptRow (ranks q).l2g el c U e).f) =
          ∑ i ∈ range el.dofs.length, if (ranks q).l2g.getD (el.dofs.getD i 0) 0 = g then
            U.w * (Batch.shape el.dims U i e * U.F e c) else 0 := by
        intro e _
        unfold ptRow
        simp only []
        rw [sum_mul, mul_sum]
        refine sum_congr rfl fun i _ => ?_
        split <;> simp
      rw [sum_congr rfl h1, sum_comm]
      refine sum_congr rfl fun i _ => ?_
      split
      · rw [mul_sum]
      · simp
    rw [this, ← sum_add_distrib]
    refine sum_congr rfl fun i _ => ?_
    split <;> simp

theorem rows_weights (hw : Weighted nr ranks) (c : Nat) : ∀ r ∈ allRows nr ranks c, 0 ≤ r.w := by
  intro r hr
  obtain ⟨q, hq, hr⟩ := List.mem_flatMap.1 hr
  obtain ⟨el, he, hr⟩ := List.mem_flatMap.1 hr
  obtain ⟨U, hU, hr⟩ := List.mem_flatMap.1 hr
  obtain ⟨e, _, rfl⟩ := List.mem_map.1 hr
  exact hw q (List.mem_range.1 hq) el he U hU

/-- A vector solves the system with algebraically imposed conditions: constrained rows are the conditions, in the free rows the
columns of the constrained dofs are on the right-hand side. -/
def Solves (N nr : Nat) (D : Nat → Prop) [DecidablePred D] (ranks : Nat → LRank) (v x : Nat → ℝ) (c : Nat) : Prop :=
  ∀ g < N, ∑ h ∈ range N, withBC D (assembled nr fun q => (ranks q).toI.toRank) g h * x h =
    if D g then v g else assembledRhs nr (fun q => (ranks q).toI) g c -
      ∑ h ∈ range N, if D h then assembled nr (fun q => (ranks q).toI.toRank) g h * v h else 0

theorem solves_iff [DecidablePred D] (v x : Nat → ℝ) (c : Nat) :
    Solves N nr D ranks v x c ↔ (∀ g < N, D g → x g = v g) ∧
      ∀ g < N, ¬D g → ∑ h ∈ range N, assembled nr (fun q => (ranks q).toI.toRank) g h * x h = assembledRhs nr (fun q => (ranks q).toI) g c := by
  unfold Solves
  generalize assembled nr (fun q => (ranks q).toI.toRank) = A
  generalize assembledRhs nr (fun q => (ranks q).toI) = B
  have hcon : ∀ g < N, D g → ∑ h ∈ range N, withBC D A g h * x h = x g := by
    intro g hg hD
    rw [sum_eq_single g]
    · unfold withBC; rw [if_pos (Or.inl hD), if_pos rfl, one_mul]
    · intro h _ hne; unfold withBC; rw [if_pos (Or.inl hD), if_neg (Ne.symm hne), zero_mul]
    · intro hn; exact absurd (mem_range.2 hg) hn
  have hfree : (∀ g < N, D g → x g = v g) → ∀ g < N, ¬D g → (∑ h ∈ range N, withBC D A g h * x h) +
      (∑ h ∈ range N, if D h then A g h * v h else 0) = ∑ h ∈ range N, A g h * x h := by
    intro hx g hg hD
    rw [← sum_add_distrib]
    refine sum_congr rfl fun h hh => ?_
    unfold withBC
    by_cases hDh : D h
    · have : g ≠ h := fun e => hD (e ▸ hDh)
      rw [if_pos (Or.inr hDh), if_neg this, if_pos hDh, hx h (mem_range.1 hh) hDh]; ring
    · rw [if_neg (by tauto), if_neg hDh, add_zero]
  constructor
  · intro H
    have hx : ∀ g < N, D g → x g = v g := by
      intro g hg hD
      have := H g hg
      rwa [hcon g hg hD, if_pos hD] at this
    refine ⟨hx, fun g hg hD => ?_⟩
    have := H g hg
    rw [if_neg hD] at this
    rw [← hfree hx g hg hD]
    linarith
  · rintro ⟨hx, H⟩ g hg
    by_cases hD : D g
    · rw [if_pos hD, hcon g hg hD, hx g hg hD]
    · rw [if_neg hD]
      have := hfree hx g hg hD
      rw [H g hg hD] at this
      linarith

/-- C93: a vector solves the system assembled from all elements of all ranks, with the Dirichlet conditions imposed algebraically, if
and only if it satisfies the conditions and minimises the least-squares functional of the kernels (the sum over elements, quadrature
points and equations of the weighted squared residuals) among all vectors that satisfy them. -/
theorem C93_minimiser [DecidablePred D] (ok : Ok N nr D fun q => (ranks q).toI.toRank) (hs : Sized nr ranks) (hw : Weighted nr ranks)
    (v x : Nat → ℝ) (c : Nat) :
    Solves N nr D ranks v x c ↔ (∀ g < N, D g → x g = v g) ∧
      ∀ z : Nat → ℝ, (∀ g < N, D g → z g = v g) → functional nr ranks c x ≤ functional nr ranks c z := by
  rw [solves_iff]
  refine and_congr_right fun hx => ?_
  have h := rows_min_iff N (allRows nr ranks c) (rows_weights hw c) D x
  simp only [matrix_eq c, rhs_eq]
  rw [h]
  refine forall_congr' fun z => ?_
  rw [functional_eq ok hs, functional_eq ok hs]
  refine imp_congr_left (forall_congr' fun g => forall_congr' fun hg => forall_congr' fun hD => ?_)
  rw [hx g hg hD]

theorem withBC_quad [DecidablePred D] (A : Nat → Nat → ℝ) (x : Nat → ℝ) :
    ∑ g ∈ range N, x g * ∑ h ∈ range N, withBC D A g h * x h =
      (∑ g ∈ range N, if D g then x g ^ 2 else 0) +
        ∑ g ∈ range N, (if D g then 0 else x g) * ∑ h ∈ range N, A g h * (if D h then 0 else x h) := by
  rw [← sum_add_distrib]
  refine sum_congr rfl fun g hg => ?_
  by_cases hD : D g
  · rw [if_pos hD, if_pos hD, zero_mul, add_zero, sum_eq_single g]
    · unfold withBC; rw [if_pos (Or.inl hD), if_pos rfl]; ring
    · intro h _ hne; unfold withBC; rw [if_pos (Or.inl hD), if_neg (Ne.symm hne), zero_mul]
    · intro hn; exact absurd hg hn
  · rw [if_neg hD, if_neg hD, zero_add]
    congr 1
    refine sum_congr rfl fun h _ => ?_
    unfold withBC
    by_cases hDh : D h
    · have : g ≠ h := fun e => hD (e ▸ hDh)
      rw [if_pos (Or.inr hDh), if_neg this, if_pos hDh]; ring
    · rw [if_neg (by tauto), if_neg hDh]

/-- The functional of the problem with zero right-hand sides. -/
def homogeneous (nr : Nat) (ranks : Nat → LRank) (u : Nat → ℝ) : ℝ :=
  ∑ q ∈ range nr, ((ranks q).elems.map fun el => (el.pts.map fun U => U.w * ∑ e ∈ range el.dims.us,
    (residual el.dims U (fun i => u ((ranks q).l2g.getD (el.dofs.getD i 0) 0)) 0 e + U.F e 0) ^ 2).sum).sum

theorem energy (ok : Ok N nr D fun q => (ranks q).toI.toRank) (hs : Sized nr ranks) (z : Nat → ℝ) :
    ∑ g ∈ range N, z g * ∑ h ∈ range N, assembled nr (fun q => (ranks q).toI.toRank) g h * z h = homogeneous nr ranks z := by
  have h1 : ∑ g ∈ range N, z g * ∑ h ∈ range N, assembled nr (fun q => (ranks q).toI.toRank) g h * z h =
      ((allRows nr ranks 0).map fun r => r.w * (r.val N z) ^ 2).sum := by
    simp only [matrix_eq 0]
    generalize allRows nr ranks 0 = rows
    have h0 := test_normal N rows z z
    have h2 := test_normal N rows (fun _ => 0) z
    have e1 : ∑ g ∈ range N, z g * ((∑ h ∈ range N, rowsK rows g h * z h) - rowsB rows g) =
        (∑ g ∈ range N, z g * ∑ h ∈ range N, rowsK rows g h * z h) - ∑ g ∈ range N, z g * rowsB rows g := by
      rw [← sum_sub_distrib]; exact sum_congr rfl fun g _ => by ring
    have e2 : ∑ g ∈ range N, z g * ((∑ h ∈ range N, rowsK rows g h * 0) - rowsB rows g) = - ∑ g ∈ range N, z g * rowsB rows g := by
      rw [← sum_neg_distrib]; exact sum_congr rfl fun g _ => by simp
    rw [e1] at h0
    rw [e2] at h2
    have e3 : (rows.map fun r => r.w * (r.val N z * (r.val N z - r.f))).sum =
        (rows.map fun r => r.w * (r.val N z) ^ 2).sum + (rows.map fun r => r.w * (r.val N z * (r.val N (fun _ => 0) - r.f))).sum := by
      clear h0 h2 e1 e2
      induction rows with
      | nil => simp
      | cons r rows ih =>
        have : r.val N (fun _ => 0) = 0 := by simp [Row.val]
        simp only [List.map_cons, List.sum_cons]
        rw [ih, this]
        ring
    rw [e3, ← h2] at h0
    linarith
  rw [h1, sum_allRows]
  unfold homogeneous
  refine sum_congr rfl fun q hq => ?_
  have hq := mem_range.1 hq
  congr 1
  refine List.map_congr_left fun el he => ?_
  congr 1
  refine List.map_congr_left fun U _ => ?_
  rw [mul_sum]
  refine sum_congr rfl fun e _ => ?_
  have := ptRow_val (N := N) (ranks q).l2g el 0 U e z (fun i hi => dof_lt ok q hq el he i hi) (hs q hq el he)
  rw [← this]
  change U.w * _ = U.w * _
  congr 2
  simp [ptRow]

/-- C93: the matrix of the system is symmetric and its quadratic form is the sum of squares of the constrained entries plus the
homogeneous functional of the rest, so it is positive semidefinite; it is positive definite exactly if no nonzero vector that vanishes
on the constrained dofs has zero homogeneous functional. -/
theorem C93_definite [DecidablePred D] (ok : Ok N nr D fun q => (ranks q).toI.toRank) (hs : Sized nr ranks) (hw : Weighted nr ranks) :
    (∀ g h, withBC D (assembled nr fun q => (ranks q).toI.toRank) g h = withBC D (assembled nr fun q => (ranks q).toI.toRank) h g) ∧
    (∀ x : Nat → ℝ, 0 ≤ ∑ g ∈ range N, x g * ∑ h ∈ range N, withBC D (assembled nr fun q => (ranks q).toI.toRank) g h * x h) ∧
    ((∀ x : Nat → ℝ, (∃ g < N, x g ≠ 0) → 0 < ∑ g ∈ range N, x g * ∑ h ∈ range N, withBC D (assembled nr fun q => (ranks q).toI.toRank) g h * x h) ↔
      ∀ z : Nat → ℝ, (∀ g < N, D g → z g = 0) → homogeneous nr ranks z = 0 → ∀ g < N, z g = 0) := by
  have hnn : ∀ z, 0 ≤ homogeneous nr ranks z := by
    intro z
    refine sum_nonneg fun q hq => List.sum_nonneg fun y hy => ?_
    obtain ⟨el, he, rfl⟩ := List.mem_map.1 hy
    refine List.sum_nonneg fun y hy => ?_
    obtain ⟨U, hU, rfl⟩ := List.mem_map.1 hy
    exact mul_nonneg (hw q (mem_range.1 hq) el he U hU) (sum_nonneg fun _ _ => sq_nonneg _)
  have hpos : ∀ x : Nat → ℝ, 0 ≤ ∑ g ∈ range N, if D g then x g ^ 2 else 0 := by
    intro x
    refine sum_nonneg fun g _ => ?_
    split
    · exact sq_nonneg _
    · exact le_refl _
  refine ⟨?_, ?_, ?_⟩
  · intro g h
    unfold withBC
    rw [matrix_eq 0, matrix_eq 0, rowsK_symm]
    exact if_congr or_comm (if_congr eq_comm rfl rfl) rfl
  · intro x
    rw [withBC_quad, energy ok hs]
    exact add_nonneg (hpos x) (hnn _)
  · constructor
    · intro hpd z hz h0
      by_contra hne
      push Not at hne
      have h := hpd z hne
      rw [withBC_quad, energy ok hs] at h
      have e1 : (∑ g ∈ range N, if D g then z g ^ 2 else 0) = 0 := by
        refine sum_eq_zero fun g hg => ?_
        split
        · rename_i hD; rw [hz g (mem_range.1 hg) hD]; simp
        · rfl
      have e2 : homogeneous nr ranks (fun g => if D g then 0 else z g) = homogeneous nr ranks z := by
        rw [← energy ok hs, ← energy ok hs]
        have : ∀ g ∈ range N, (if D g then 0 else z g) = z g := by
          intro g hg
          split
          · rename_i hD; rw [hz g (mem_range.1 hg) hD]
          · rfl
        refine sum_congr rfl fun g hg => ?_
        rw [this g hg]
        congr 1
        exact sum_congr rfl fun h hh => by rw [this h hh]
      rw [e1, e2, h0] at h
      simp at h
    · intro H x hx
      rw [withBC_quad, energy ok hs]
      refine lt_of_le_of_ne (add_nonneg (hpos x) (hnn _)) fun h => ?_
      have h1 : (∑ g ∈ range N, if D g then x g ^ 2 else 0) = 0 := by have := hpos x; have := hnn (fun g => if D g then 0 else x g); linarith
      have h2 : homogeneous nr ranks (fun g => if D g then 0 else x g) = 0 := by have := hpos x; have := hnn (fun g => if D g then 0 else x g); linarith
      have h3 := H _ (by intro g _ hD; simp [hD]) h2
      obtain ⟨g, hg, hne⟩ := hx
      apply hne
      by_cases hD : D g
      · rw [sum_eq_zero_iff_of_nonneg (by intro k _; split; exact sq_nonneg _; exact le_refl _)] at h1
        have := h1 g (mem_range.2 hg)
        rw [if_pos hD, pow_eq_zero_iff (by decide)] at this
        exact this
      · have := h3 g hg
        simpa [hD] using this

/-- C93: the system always has a solution, whatever the kernels and the condition values. -/
theorem C93_solvable [DecidablePred D] (hw : Weighted nr ranks) (v : Nat → ℝ) (c : Nat) : ∃ x, Solves N nr D ranks v x c := by
  have hrows := rows_weights hw c
  let u0 : Nat → ℝ := fun g => if D g then v g else 0
  let rows' : List Row := (allRows nr ranks c).map fun r => ⟨r.w, fun g => if D g then 0 else r.a g, r.f - r.val N u0⟩
  obtain ⟨d, hd⟩ := rows_solvable N rows' (by
    intro r hr
    obtain ⟨r', hr', rfl⟩ := List.mem_map.1 hr
    exact hrows r' hr')
  refine ⟨fun g => if D g then v g else d g, solves_iff v _ c |>.2 ⟨fun g _ hD => by simp [hD], fun g hg hD => ?_⟩⟩
  have h := hd g hg
  simp only [matrix_eq c, rhs_eq]
  have e1 : ∀ h, rowsK rows' g h = if D h then 0 else rowsK (allRows nr ranks c) g h := by
    intro h
    unfold rowsK
    rw [List.map_map]
    split
    · rename_i hDh
      refine List.sum_eq_zero fun y hy => ?_
      obtain ⟨r, _, rfl⟩ := List.mem_map.1 hy
      simp [hDh]
    · rename_i hDh
      congr 1
      refine List.map_congr_left fun r _ => ?_
      simp [hD, hDh]
  have e2 : rowsB rows' g = rowsB (allRows nr ranks c) g - ∑ h ∈ range N, rowsK (allRows nr ranks c) g h * u0 h := by
    have ht := test_normal N (allRows nr ranks c) u0 fun k => if k = g then 1 else 0
    rw [sum_eq_single g (by intro k _ hk; simp [hk]) (by intro hn; exact absurd (mem_range.2 hg) hn), if_pos rfl, one_mul] at ht
    have e3 : rowsB rows' g = -((allRows nr ranks c).map fun r => r.w * (r.val N (fun k => if k = g then 1 else 0) * (r.val N u0 - r.f))).sum := by
      unfold rowsB
      rw [List.map_map]
      clear ht hd h hrows e1
      generalize allRows nr ranks c = rows
      induction rows with
      | nil => simp
      | cons r rows ih =>
        have : r.val N (fun k => if k = g then 1 else 0) = r.a g := by
          unfold Row.val
          rw [sum_eq_single g (by intro k _ hk; simp [hk]) (by intro hn; exact absurd (mem_range.2 hg) hn)]
          simp
        simp only [List.map_cons, List.sum_cons]
        rw [ih, this]
        simp only [Function.comp, if_neg hD]
        ring
    rw [e3, ← ht]
    ring
  rw [e2] at h
  have e4 : ∑ h ∈ range N, rowsK (allRows nr ranks c) g h * (if D h then v h else d h) =
      (∑ h ∈ range N, rowsK rows' g h * d h) + ∑ h ∈ range N, rowsK (allRows nr ranks c) g h * u0 h := by
    rw [← sum_add_distrib]
    refine sum_congr rfl fun h _ => ?_
    rw [e1]
    by_cases hDh : D h <;> simp [hDh, u0]
  rw [e4, h]
  ring

/-- C93, end to end for the matrix-free system: in whatever order the threads add, and however the problem is distributed, `x` makes the
application of the operator equal to the right-hand side on every rank exactly if it minimises the functional subject to the
conditions. -/
theorem C93_matrix_free [DecidablePred D] (ok : Ok N nr D fun q => (ranks q).toI.toRank) (hs : Sized nr ranks) (hw : Weighted nr ranks)
    (hcover : ∀ g < N, ∃ q < nr, ∃ a < (ranks q).nOwned, (ranks q).l2g.getD a 0 = g)
    (v x y : Nat → Nat → ℝ) (nc c : Nat) (hc : c < nc)
    (hv : ∀ q < nr, ∀ d < (ranks q).l2g.length, D ((ranks q).l2g.getD d 0) → (ranks q).vals d c = v ((ranks q).l2g.getD d 0) c)
    (ups ups' : Nat → List ((Nat × Nat) × ℝ)) (hups : ∀ q < nr, IsOrder (ranks q).toI.toRank x nc 1 (ups q))
    (hups' : ∀ q < nr, (ups' q).Perm (rhsIncs (ranks q).toI nc)) :
    (∀ me < nr, ∀ loc < (ranks me).nOwned,
      result nr (fun q => (ranks q).toI.toRank) (fun q => rankMem (ranks q).toI.toRank y 0 (ups q)) me loc c =
        finalRhs nr (fun q => (ranks q).toI) ups' me loc c) ↔
      (∀ g < N, D g → x g c = v g c) ∧
        ∀ z : Nat → ℝ, (∀ g < N, D g → z g = v g c) → functional nr ranks c (fun g => x g c) ≤ functional nr ranks c z := by
  rw [← C93_minimiser ok hs hw (fun g => v g c) (fun g => x g c) c]
  have hb : ∀ me < nr, ∀ loc < (ranks me).nOwned, (ranks me).l2g.getD loc 0 < N := fun me hme loc hloc =>
    ok.bound me hme _ (getD_lt (lt_of_lt_of_le hloc (ok.owned me hme)))
  have hl : ∀ me < nr, ∀ loc < (ranks me).nOwned,
      result nr (fun q => (ranks q).toI.toRank) (fun q => rankMem (ranks q).toI.toRank y 0 (ups q)) me loc c =
      ∑ h ∈ range N, withBC D (assembled nr fun q => (ranks q).toI.toRank) ((ranks me).l2g.getD loc 0) h * x h c := by
    intro me hme loc hloc
    have := C45_apply ok x y nc 1 0 ups hups me loc c hme hloc hc
    rw [this]
    change 1 * (∑ h ∈ range N, withBC D (assembled nr fun q => (ranks q).toI.toRank) ((ranks me).l2g.getD loc 0) h * x h c) + 0 * _ = _
    ring
  have hr : ∀ me < nr, ∀ loc < (ranks me).nOwned, finalRhs nr (fun q => (ranks q).toI) ups' me loc c =
      if D ((ranks me).l2g.getD loc 0) then v ((ranks me).l2g.getD loc 0) c else
      assembledRhs nr (fun q => (ranks q).toI) ((ranks me).l2g.getD loc 0) c - ∑ h ∈ range N,
        if D h then assembled nr (fun q => (ranks q).toI.toRank) ((ranks me).l2g.getD loc 0) h * v h c else 0 := fun me hme loc hloc =>
    C94_rhs (ranks := fun q => (ranks q).toI) ok v nc c hc hv ups' hups' me loc hme hloc
  constructor
  · intro H g hg
    obtain ⟨q, hq, a, ha, rfl⟩ := hcover g hg
    rw [← hl q hq a ha, H q hq a ha, hr q hq a ha]
  · intro H me hme loc hloc
    rw [hl me hme loc hloc, hr me hme loc hloc, H _ (hb me hme loc hloc)]

end

/-! ### The assembled system -/

/-- `a` is `el` as the assembled system sees it: its three index lists name the dofs of `el` through the three maps. -/
structure Rep (m : AMaps) (l2g : List Nat) (el : LElem) (a : AElem) : Prop where
  len : a.row.length = el.dofs.length
  row : ∀ i < el.dofs.length, m.row (a.row.getD i 0) = l2g.getD (el.dofs.getD i 0) 0
  col : ∀ i < el.dofs.length, m.col (a.col.getD i 0) = l2g.getD (el.dofs.getD i 0) 0
  vec : ∀ i < el.dofs.length, m.vec (a.vec.getD i 0) = l2g.getD (el.dofs.getD i 0) 0
  mat : ∀ i < el.dofs.length, ∀ j < el.dofs.length, a.mat i j = Batch.directMat el.dims el.pts i j
  rhs : ∀ i < el.dofs.length, ∀ c, a.rhs i c = Batch.directRhs el.dims el.pts i c

theorem sum_pick (l : List Nat) (hn : l.Nodup) (a : Nat) (ha : a ∈ l) (f : Nat → ℝ) : (l.map fun b => if a = b then f b else 0).sum = f a := by
  induction l with
  | nil => cases ha
  | cons b l ih =>
    obtain ⟨h1, h2⟩ := List.nodup_cons.1 hn
    rw [List.map_cons, List.sum_cons]
    rcases List.mem_cons.1 ha with rfl | ha
    · rw [if_pos rfl, List.sum_eq_zero, add_zero]
      intro y hy
      obtain ⟨b, hb, rfl⟩ := List.mem_map.1 hy
      exact if_neg fun e => h1 (by rw [e]; exact hb)
    · rw [ih h2 ha, if_neg (fun e => h1 (by rw [← e]; exact ha)), zero_add]

theorem list_sum_comm {A B : Type} (l : List A) (k : List B) (f : A → B → ℝ) :
    (l.map fun a => (k.map fun b => f a b).sum).sum = (k.map fun b => (l.map fun a => f a b).sum).sum := by
  induction l with
  | nil => simp
  | cons a l ih =>
    simp only [List.map_cons, List.sum_cons, ih]
    clear ih
    induction k with
    | nil => simp
    | cons b k ih => simp only [List.map_cons, List.sum_cons] at ih ⊢; linarith

/-- The local entries selected by `P` hold together what was added at positions selected by `P`. -/
theorem sum_positions (rows cols : List Nat) (hr : rows.Nodup) (hc : cols.Nodup) (ups : List ((Nat × Nat) × ℝ))
    (hin : ∀ u ∈ ups, u.1.1 ∈ rows ∧ u.1.2 ∈ cols) (P : Nat → Nat → Prop) [∀ a b, Decidable (P a b)] :
    (rows.map fun a => (cols.map fun b => if P a b then rankSum ups (a, b) else 0).sum).sum =
      (ups.map fun u => if P u.1.1 u.1.2 then u.2 else 0).sum := by
  have h1 : ∀ a b, (if P a b then rankSum ups (a, b) else 0) = (ups.map fun u => if u.1.1 = a then (if u.1.2 = b then (if P a b then u.2 else 0) else 0) else 0).sum := by
    intro a b
    unfold rankSum
    rw [fold_addAt, zero_add]
    unfold total
    split
    · congr 1
      refine List.map_congr_left fun u _ => ?_
      by_cases e1 : u.1.1 = a
      · by_cases e2 : u.1.2 = b
        · rw [if_pos (Prod.ext e1 e2), if_pos e1, if_pos e2]
        · rw [if_neg (fun e => e2 (by rw [e])), if_pos e1, if_neg e2]
      · rw [if_neg (fun e => e1 (by rw [e])), if_neg e1]
    · symm
      refine List.sum_eq_zero fun y hy => ?_
      obtain ⟨u, _, rfl⟩ := List.mem_map.1 hy
      simp
  simp only [h1]
  have h2 : (rows.map fun a => (cols.map fun b => (ups.map fun u => if u.1.1 = a then (if u.1.2 = b then (if P a b then u.2 else 0) else 0) else 0).sum).sum).sum =
      (ups.map fun u => (rows.map fun a => (cols.map fun b => if u.1.1 = a then (if u.1.2 = b then (if P a b then u.2 else 0) else 0) else 0).sum).sum).sum := by
    rw [← list_sum_comm rows ups]
    congr 1
    refine List.map_congr_left fun a _ => ?_
    rw [← list_sum_comm cols ups]
  rw [h2]
  congr 1
  refine List.map_congr_left fun u hu => ?_
  obtain ⟨hu1, hu2⟩ := hin u hu
  have h3 : (rows.map fun a => (cols.map fun b => if u.1.1 = a then (if u.1.2 = b then (if P a b then u.2 else 0) else 0) else 0).sum) =
      rows.map fun a => if u.1.1 = a then (if P a u.1.2 then u.2 else 0) else 0 := by
    refine List.map_congr_left fun a _ => ?_
    by_cases e : u.1.1 = a
    · simp only [if_pos e]
      exact sum_pick cols hc u.1.2 hu2 fun b => if P a b then u.2 else 0
    · simp [e]
  rw [h3, sum_pick rows hr u.1.1 hu1 fun a => if P a u.1.2 then u.2 else 0]

/-- C93, assembled system: the additions of `scatterLocalSystem`, made in any order on every rank, followed by the summation over the
ranks, give the matrix and the right-hand side of C93; rows, columns and right-hand side entries may be numbered differently. -/
theorem C93_assembled {nr : Nat} (ranks : Nat → LRank) (maps : Nat → AMaps) (elems : Nat → List AElem) (rows cols vecs : Nat → List Nat)
    (hrep : ∀ q < nr, List.Forall₂ (Rep (maps q) (ranks q).l2g) (ranks q).elems (elems q))
    (hnd : ∀ q < nr, (rows q).Nodup ∧ (cols q).Nodup ∧ (vecs q).Nodup)
    (hin : ∀ q < nr, ∀ a ∈ elems q, ∀ i < a.row.length, a.row.getD i 0 ∈ rows q ∧ a.col.getD i 0 ∈ cols q ∧ a.vec.getD i 0 ∈ vecs q)
    (nc : Nat) (um uv : Nat → List ((Nat × Nat) × ℝ)) (hm : ∀ q < nr, (um q).Perm ((elems q).flatMap scatterMat))
    (hv : ∀ q < nr, (uv q).Perm ((elems q).flatMap (scatterVec nc))) (g h c : Nat) (hc : c < nc) :
    globalMat nr maps rows cols um g h = assembled nr (fun q => (ranks q).toI.toRank) g h ∧
    globalVec nr maps vecs uv g c = assembledRhs nr (fun q => (ranks q).toI) g c := by
  constructor
  · unfold globalMat assembled
    refine sum_congr rfl fun q hq => ?_
    have hq := mem_range.1 hq
    rw [sum_positions (rows q) (cols q) (hnd q hq).1 (hnd q hq).2.1 (um q) ?_ fun a b => (maps q).row a = g ∧ (maps q).col b = h]
    · rw [((hm q hq).map _).sum_eq, sum_flatMap]
      change _ = ((((ranks q).elems.map LElem.sys).map (·.1)).map _).sum
      rw [List.map_map, List.map_map]
      have := hrep q hq
      clear hm hv hin hrep
      generalize (ranks q).elems = L, elems q = L' at this ⊢
      induction this with
      | nil => rfl
      | @cons el a els as hR _ ih =>
        rw [List.map_cons, List.sum_cons, List.map_cons, List.sum_cons, ih]
        congr 1
        change _ = ∑ i ∈ range el.dofs.length, ∑ j ∈ range el.dofs.length,
          if (ranks q).l2g.getD (el.dofs.getD i 0) 0 = g ∧ (ranks q).l2g.getD (el.dofs.getD j 0) 0 = h then Batch.directMat el.dims el.pts i j else 0
        unfold scatterMat
        rw [sum_flatMap, sum_range_list, hR.len]
        refine sum_congr rfl fun i hi => ?_
        rw [List.map_map, sum_range_list]
        refine sum_congr rfl fun j hj => ?_
        have hi := mem_range.1 hi
        have hj := mem_range.1 hj
        simp only [Function.comp]
        rw [hR.row i hi, hR.col j hj, hR.mat i hi j hj]
    · intro u hu
      have hu := (hm q hq).subset hu
      obtain ⟨a, ha, hu⟩ := List.mem_flatMap.1 hu
      obtain ⟨i, hi, hu⟩ := List.mem_flatMap.1 hu
      obtain ⟨j, hj, rfl⟩ := List.mem_map.1 hu
      exact ⟨(hin q hq a ha i (List.mem_range.1 hi)).1, (hin q hq a ha j (List.mem_range.1 hj)).2.1⟩
  · unfold globalVec assembledRhs
    refine sum_congr rfl fun q hq => ?_
    have hq := mem_range.1 hq
    have hpos := sum_positions (vecs q) (List.range nc) (hnd q hq).2.2 List.nodup_range (uv q) (by
      intro u hu
      have hu := (hv q hq).subset hu
      obtain ⟨a, ha, hu⟩ := List.mem_flatMap.1 hu
      obtain ⟨i, hi, hu⟩ := List.mem_flatMap.1 hu
      obtain ⟨k, hk, rfl⟩ := List.mem_map.1 hu
      exact ⟨(hin q hq a ha i (List.mem_range.1 hi)).2.2, hk⟩) fun a b => (maps q).vec a = g ∧ c = b
    have h1 : ((vecs q).map fun a => ((List.range nc).map fun b => if (maps q).vec a = g ∧ c = b then rankSum (uv q) (a, b) else 0).sum) =
        (vecs q).map fun a => if (maps q).vec a = g then rankSum (uv q) (a, c) else 0 := by
      refine List.map_congr_left fun a _ => ?_
      by_cases e : (maps q).vec a = g
      · simp only [e, true_and, if_true]
        exact sum_pick _ List.nodup_range c (List.mem_range.2 hc) fun b => rankSum (uv q) (a, b)
      · simp [e]
    rw [← h1, hpos, ((hv q hq).map _).sum_eq, sum_flatMap]
    change _ = (((ranks q).elems.map LElem.sys).map _).sum
    rw [List.map_map]
    have := hrep q hq
    clear hpos h1 hm hv hin hrep
    generalize (ranks q).elems = L, elems q = L' at this ⊢
    induction this with
    | nil => rfl
    | @cons el a els as hR _ ih =>
      rw [List.map_cons, List.sum_cons, List.map_cons, List.sum_cons, ih]
      congr 1
      change _ = ∑ i ∈ range el.dofs.length, if (ranks q).l2g.getD (el.dofs.getD i 0) 0 = g then Batch.directRhs el.dims el.pts i c else 0
      unfold scatterVec
      rw [sum_flatMap, sum_range_list, hR.len]
      refine sum_congr rfl fun i hi => ?_
      have hi := mem_range.1 hi
      rw [List.map_map, sum_range_list]
      simp only [Function.comp]
      rw [hR.vec i hi]
      rw [sum_eq_single c]
      · rw [hR.rhs i hi c]; simp
      · intro k _ hk; rw [if_neg (fun e => hk e.2.symm)]
      · intro hn; exact absurd (mem_range.2 hc) hn

/-! ### An instance: `u' = 1` on one element with two nodes, `u = 3` at the left end, one quadrature point -/

def exPt : Batch.Upd := ⟨fun k _ _ => if k = 1 then 1 else 0, fun _ _ => 1, fun _ => 1 / 2, fun _ b => if b = 0 then -1 else 1, 1⟩

def exL : Nat → LRank := fun _ => ⟨2, [0, 1], [⟨[0, 1], ⟨1, 1, 2, 1, 8⟩, [exPt]⟩], some fun d => d == 0, [0], fun _ _ => 3⟩

theorem exL_ok : Ok 2 1 (fun g => g = 0) fun q => (exL q).toI.toRank where
  nodup := by intro q _; simp [exL, LRank.toI, IRank.toRank]
  bound := by intro q _; simp [exL, LRank.toI, IRank.toRank]
  owned := by intro q _; simp [exL, LRank.toI, IRank.toRank]
  dofs := by intro q _; simp [exL, LRank.toI, IRank.toRank, LElem.sys]
  unique := by intro q hq q' hq'; omega
  con := by
    intro q _ d hd
    simp only [exL, LRank.toI, IRank.toRank, List.length_cons, List.length_nil] at hd
    interval_cases d <;> simp [exL, LRank.toI, IRank.toRank, Rank.con]
  dir := by
    intro q _
    refine ⟨by simp [exL, LRank.toI, IRank.toRank], fun d => ?_⟩
    simp [exL, LRank.toI, IRank.toRank, Rank.con]
    omega

theorem exL_sized : Sized 1 exL := by intro q _ el he; simp [exL] at he; subst he; rfl

theorem exL_weighted : Weighted 1 exL := by
  intro q _ el he U hU
  simp [exL] at he
  subst he
  simp at hU
  subst hU
  simp [exPt]

theorem exL_functional (u : Nat → ℝ) : functional 1 exL 0 u = (u 1 - u 0 - 1) ^ 2 := by
  simp [functional, exL, elemJ, residual, uVal, uDer, exPt, sum_range_succ]
  ring

/-- `u = (3, 4)` solves the system: it satisfies the condition and its functional is zero. -/
example : Solves 2 1 (fun g => g = 0) exL (fun _ => 3) (fun g => 3 + g) 0 := by
  rw [C93_minimiser exL_ok exL_sized exL_weighted]
  refine ⟨fun g _ h => by subst h; simp, fun z _ => ?_⟩
  rw [exL_functional, exL_functional]
  have : ((3 : ℝ) + ((1 : Nat) : ℝ) - (3 + ((0 : Nat) : ℝ)) - 1) ^ 2 = 0 := by norm_num
  rw [this]
  exact sq_nonneg _

example : ∃ x, Solves 2 1 (fun g => g = 0) exL (fun _ => 3) x 0 := C93_solvable exL_weighted _ 0

/-- The system of the instance is definite: `(z₁ - z₀)² = 0` and `z₀ = 0` force `z = 0`. -/
example : ∀ x : Nat → ℝ, (∃ g < 2, x g ≠ 0) →
    0 < ∑ g ∈ range 2, x g * ∑ h ∈ range 2, withBC (fun g => g = 0) (assembled 1 fun q => (exL q).toI.toRank) g h * x h := by
  rw [(C93_definite exL_ok exL_sized exL_weighted).2.2]
  intro z hz h0 g hg
  have h1 : homogeneous 1 exL z = (z 1 - z 0) ^ 2 := by
    simp [homogeneous, exL, residual, uVal, uDer, exPt, sum_range_succ]
    ring
  rw [h1, pow_eq_zero_iff (by decide)] at h0
  have h2 := hz 0 (by decide) rfl
  interval_cases g <;> linarith

/-- The matrix-free operator and right-hand side of the instance agree at `x = (3, 4)`. -/
example (y : Nat → Nat → ℝ) : ∀ me < 1, ∀ loc < (exL me).nOwned,
    result 1 (fun q => (exL q).toI.toRank) (fun q => rankMem (exL q).toI.toRank y 0
      (increments (exL q).toI.toRank (localX (exL q).toI.toRank fun g _ => 3 + g) 1 1 ++
       dirIncrements (exL q).toI.toRank (localX (exL q).toI.toRank fun g _ => 3 + g) 1 1)) me loc 0 =
      finalRhs 1 (fun q => (exL q).toI) (fun q => rhsIncs (exL q).toI 1) me loc 0 := by
  refine (C93_matrix_free (N := 2) (D := fun g => g = 0) exL_ok exL_sized exL_weighted ?_ (fun _ _ => 3) (fun g _ => 3 + g) y 1 0 Nat.one_pos ?_ _ _
    (fun _ _ => List.Perm.refl _) (fun _ _ => List.Perm.refl _)).2 ⟨fun g _ h => by subst h; simp, fun z _ => ?_⟩
  · intro g hg
    exact ⟨0, Nat.one_pos, g, hg, by interval_cases g <;> rfl⟩
  · intro q _ d _ _; rfl
  · rw [exL_functional, exL_functional]
    have : ((3 : ℝ) + ((1 : Nat) : ℝ) - (3 + ((0 : Nat) : ℝ)) - 1) ^ 2 = 0 := by norm_num
    rw [this]
    exact sq_nonneg _

/-- The same problem in the assembled system, with rows numbered backwards. -/
example : globalMat 1 (fun _ => ⟨fun a => 1 - a, fun b => b, fun a => a⟩) (fun _ => [0, 1]) (fun _ => [0, 1])
    (fun _ => scatterMat ⟨[1, 0], [0, 1], [0, 1], Batch.directMat ⟨1, 1, 2, 1, 8⟩ [exPt], Batch.directRhs ⟨1, 1, 2, 1, 8⟩ [exPt]⟩) 0 1 =
    assembled 1 (fun q => (exL q).toI.toRank) 0 1 := by
  refine (C93_assembled exL _ (fun _ => [⟨[1, 0], [0, 1], [0, 1], Batch.directMat ⟨1, 1, 2, 1, 8⟩ [exPt], Batch.directRhs ⟨1, 1, 2, 1, 8⟩ [exPt]⟩]) _ _
    (fun _ => [0, 1]) ?_ ?_ ?_ 1 _ (fun q => [(⟨[1, 0], [0, 1], [0, 1], Batch.directMat ⟨1, 1, 2, 1, 8⟩ [exPt], Batch.directRhs ⟨1, 1, 2, 1, 8⟩ [exPt]⟩ : AElem)].flatMap (scatterVec 1)) ?_ (fun _ _ => List.Perm.refl _) 0 1 0 Nat.one_pos).1
  · intro q _
    refine List.Forall₂.cons ⟨rfl, ?_, ?_, ?_, fun _ _ _ _ => rfl, fun _ _ _ => rfl⟩ List.Forall₂.nil
    all_goals
      intro i hi
      have hi : i < 2 := hi
      interval_cases i <;> rfl
  · intro q _; simp
  · intro q _ a ha i hi
    simp only [List.mem_singleton] at ha
    subst ha
    have hi : i < 2 := hi
    interval_cases i <;> simp
  · intro q _; simp

end

end Verif.Lsq
