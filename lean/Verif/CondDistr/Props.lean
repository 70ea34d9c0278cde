import Verif.CondDistr.Cond
import Mathlib.LinearAlgebra.Matrix.ToLinearEquiv
import Mathlib.Tactic.IntervalCases
import Mathlib.Tactic.FinCases

/-!
# C116: a condensed solve computes the least-squares solution of the whole problem

`CProblem.full` is the problem without condensation, stated before distribution: minimise the quadrature of the squared residuals over
all fields with the prescribed values (`Problem.Minimises`, Distr/Spec).
-/
namespace Verif.CondDistr
open Verif Verif.Dofs Verif.Lsq Verif.Distr Verif.Condense Verif.CondInit Verif.CondRace Finset

noncomputable section

variable {C : CProblem} {Q : CRun}

/-- Every rank makes its additions in some order. -/
def CRun.Orders (Q : CRun) (nc : Nat) (um uv : Nat → List ((Nat × Nat) × ℝ)) : Prop :=
  ∀ q < Q.R.nr, (um q).Perm ((Q.events nc q).flatMap scatterMat) ∧ (uv q).Perm ((Q.events nc q).flatMap (scatterVec nc))

open Classical in
/-- `x` solves the condensed system with conditions imposed, column `c`. -/
def CRun.Solved (Q : CRun) (C : CProblem) (um uv : Nat → List ((Nat × Nat) × ℝ)) (c : Nat) (x : Nat → ℝ) : Prop :=
  SolvesSys Q.R.s.total (Q.R.D C.prim) (Q.mat um) (fun g => Q.rhs uv g c) (fun g => Q.R.v g c) x

/-- The least-squares solution is unique (in the unknowns of the problem). -/
def CProblem.Unique (C : CProblem) (c : Nat) : Prop :=
  ∀ f f', C.full.toProblem.Minimises c f → C.full.toProblem.Minimises c f' → ∀ k, C.full.toProblem.used k → f k = f' k

/-! ### Fields and vectors -/

theorem ik_get {p : Nat × CEl} (a : Fin (Q.nI p.1 p.2)) : p.2.key ((condDofs (Q.info p.1 p.2)).get a) = Q.ik p a := by
  unfold CRun.ik
  rw [List.getD_eq_getElem?_getD, List.getElem?_eq_getElem a.2]
  rfl

theorem int_cases (hC : C.Ok) (h : Q.Of C) {k : Nat × Nat} (hk : k ∈ Q.ints) : ∃ p ∈ Q.all, ∃ a : Fin (Q.nI p.1 p.2), k = Q.ik p a := by
  obtain ⟨p, hp, hk⟩ := List.mem_flatMap.1 hk
  obtain ⟨i, hi, he⟩ := List.mem_iff_getElem.1 hk
  have hl : (Q.condKeys p).length = Q.nI p.1 p.2 := List.length_map _
  refine ⟨p, hp, ⟨i, by omega⟩, ?_⟩
  rw [← ik_get, ← he]
  exact List.getElem_map _

theorem int_unique (hC : C.Ok) (h : Q.Of C) {p p' : Nat × CEl} (hp : p ∈ Q.all) (hp' : p' ∈ Q.all) {a : Fin (Q.nI p.1 p.2)} {a' : Fin (Q.nI p'.1 p'.2)}
    (he : Q.ik p a = Q.ik p' a') : p = p' := by
  by_contra hne
  have hd := (List.nodup_flatMap.1 (nodup_ints hC h)).2
  have hs : Std.Symm (Function.onFun List.Disjoint Q.condKeys) := ⟨fun _ _ h => h.symm⟩
  have := hd.forall hp hp' hne
  exact this (ik_mem a.2) (by rw [he]; exact ik_mem a'.2)

/-- A vector for all unknowns with the values of the field. -/
def zOf (Q : CRun) (x : Nat → ℝ) (f : Nat × Nat → ℝ) (g : Nat) : ℝ := if g < Q.R.s.total then x g else f (Q.ints.getD (g - Q.R.s.total) (0, 0))

theorem zOf_num' (hC : C.Ok) (h : Q.Of C) {x : Nat → ℝ} {f : Nat × Nat → ℝ} (hf : ∀ k, C.prim.toProblem.used k → f k = x (Q.R.num k))
    {k : Nat × Nat} (hk : C.full.toProblem.used k) : zOf Q x f (Q.num' k) = f k := by
  unfold zOf
  rcases (used_split hC).1 hk with hp | hi
  · rw [num'_prim hC h hp, if_pos (num_lt (prim_ok hC) h.run h.marked hp), hf k hp]
  · have hi := (mem_ints hC h).2 hi
    have := num'_int_ge hi
    rw [if_neg (by omega), num'_int hi, Nat.add_sub_cancel_left, List.getD_eq_getElem?_getD, List.getElem?_eq_getElem (List.idxOf_lt_length_of_mem hi)]
    simp

theorem ik_used (hC : C.Ok) (h : Q.Of C) {p : Nat × CEl} (hp : p ∈ Q.all) (a : Fin (Q.nI p.1 p.2)) : C.full.toProblem.used (Q.ik p a) :=
  (used_split hC).2 (Or.inr ((mem_ints hC h).1 (ik_ints hp a.2)))

theorem ik_free (hC : C.Ok) (h : Q.Of C) {p : Nat × CEl} (hp : p ∈ Q.all) (a : Fin (Q.nI p.1 p.2)) : ¬ Q.D' C (Q.num' (Q.ik p a)) := by
  rw [D'_iff hC h]
  rintro ⟨k, hk, _, he⟩
  have h1 := num_lt (prim_ok hC) h.run h.marked hk
  have h2 := num'_int_ge (ik_ints hp a.2)
  omega

/-- The internal rows say that the internal values are the recovered ones. -/
theorem int_rows_iff (hC : C.Ok) (h : Q.Of C) {nc c : Nat} (hc : c < nc) {x z : Nat → ℝ} (hz : ∀ g < Q.R.s.total, z g = x g) {p : Nat × CEl} (hp : p ∈ Q.all)
    (hinv : IsUnit (Q.diag nc p.1 p.2).det) :
    (∀ a : Fin (Q.nI p.1 p.2), z (Q.num' (Q.ik p a)) = Q.recover nc p.1 p.2 c x a) ↔
      ∀ a : Fin (Q.nI p.1 p.2), (C.full.elems.map (kres Q c z (Q.num' (Q.ik p a)))).sum = 0 := by
  have hX : (fun b : Fin (Q.nB p.1 p.2) => z (Q.num' (Q.bd p b))) = fun b : Fin (Q.nB p.1 p.2) => x (Q.gdof p.1 (p.2.key ((primaryDofs (Q.info p.1 p.2)).get b))) := by
    funext b
    have hu := bd_used hC h hp b.2
    have hb : p.2.key ((primaryDofs (Q.info p.1 p.2)).get b) = Q.bd p b := by
      unfold CRun.bd
      rw [List.getD_eq_getElem?_getD, List.getElem?_eq_getElem b.2]
      rfl
    rw [hb, gdof_eq h (mem_all.1 hp).1 (mem_all.1 hp).2 hu.1, num'_prim hC h hu.2]
    exact hz _ (num_lt (prim_ok hC) h.run h.marked hu.2)
  have hrow : ∀ a : Fin (Q.nI p.1 p.2), (C.full.elems.map (kres Q c z (Q.num' (Q.ik p a)))).sum =
      (Q.upper nc p.1 p.2).transpose.mulVec (fun b => z (Q.num' (Q.bd p b))) a + (Q.diag nc p.1 p.2).mulVec (fun a => z (Q.num' (Q.ik p a))) a - Q.rhsI nc p.1 p.2 c a := by
    intro a
    rw [int_row hC h c z hp a.2, fullInt_eq (blks_ok hC h c hp), upper_eq c, diag_eq c, rhsI_eq hc]
  have heq : (∀ a : Fin (Q.nI p.1 p.2), (C.full.elems.map (kres Q c z (Q.num' (Q.ik p a)))).sum = 0) ↔
      (Q.diag nc p.1 p.2).mulVec (fun a => z (Q.num' (Q.ik p a))) = Q.rhsI nc p.1 p.2 c - (Q.upper nc p.1 p.2).transpose.mulVec (fun b => z (Q.num' (Q.bd p b))) := by
    constructor
    · intro ha
      funext a
      have := ha a
      rw [hrow] at this
      rw [Pi.sub_apply]
      linarith
    · intro he a
      rw [hrow, he, Pi.sub_apply]
      ring
  rw [heq]
  unfold CRun.recover
  rw [← hX]
  constructor
  · intro ha
    have : (fun a : Fin (Q.nI p.1 p.2) => z (Q.num' (Q.ik p a))) = _ := funext ha
    rw [this, Matrix.mulVec_mulVec, Matrix.mul_nonsing_inv _ hinv, Matrix.one_mulVec]
  · intro he a
    rw [← he, Matrix.mulVec_mulVec, Matrix.nonsing_inv_mul _ hinv, Matrix.one_mulVec]

/-! ### C116 -/

/-- C116 (partial): if the blocks of the condensed unknowns are invertible, a vector solves the condensed system exactly if the field it
gives — its values at primary unknowns, recovered values at internal ones — is a least-squares solution of the whole problem, for any
distribution of the mesh and any order of the additions. -/
theorem C116_intrinsic_partial (hC : C.Ok) (h : Q.Of C) {nc c : Nat} (hc : c < nc) {um uv : Nat → List ((Nat × Nat) × ℝ)} (ho : Q.Orders nc um uv)
    (hinv : ∀ r < Q.R.nr, ∀ e ∈ Q.parts r, IsUnit (Q.diag nc r e).det) {x : Nat → ℝ} {f : Nat × Nat → ℝ} (hf : Q.Gives C nc c x f) :
    Q.Solved C um uv c x ↔ C.full.toProblem.Minimises c f := by
  classical
  have hzf : ∀ k, C.full.toProblem.used k → f k = zOf Q x f (Q.num' k) := fun k hk => (zOf_num' hC h hf.prim hk).symm
  have hz : ∀ g < Q.R.s.total, zOf Q x f g = x g := fun g hg => if_pos hg
  have hy : ∀ p ∈ Q.all, ∀ a : Fin (Q.nI p.1 p.2), zOf Q x f (Q.num' (Q.ik p a)) = Q.recover nc p.1 p.2 c x a := by
    intro p hp a
    rw [← hzf _ (ik_used hC h hp a), ← ik_get]
    exact hf.int p.1 (mem_all.1 hp).1 p.2 (mem_all.1 hp).2 a
  rw [minimises_congr (problem_ok (full_ok hC)) hzf, full_rows hC h, CRun.Solved, solvesSys_iff]
  have hD : ∀ g, Q.D' C g ↔ Q.R.D C.prim g := D'_iff hC h
  have hDlt : ∀ g, Q.R.D C.prim g → g < Q.R.s.total := by
    rintro g ⟨k, hk, _, rfl⟩
    exact num_lt (prim_ok hC) h.run h.marked hk
  constructor
  · rintro ⟨h1, h2⟩
    refine ⟨fun g _ hg => ?_, fun g hg hDg => ?_⟩
    · have hd := (hD g).1 hg
      rw [hz g (hDlt g hd)]
      exact h1 g (hDlt g hd) hd
    · by_cases hgN : g < Q.R.s.total
      · rw [rows_agree hC h hc (fun q hq => (ho q hq).1) (fun q hq => (ho q hq).2) x _ hz hy hgN, sub_eq_zero]
        exact h2 g hgN fun hd => hDg ((hD g).2 hd)
      · obtain ⟨k, hk, rfl⟩ := (represents hC h).surj g hg
        rcases (used_split hC).1 hk with hp | hi
        · rw [num'_prim hC h hp] at hgN
          exact absurd (num_lt (prim_ok hC) h.run h.marked hp) hgN
        · obtain ⟨p, hp, a, rfl⟩ := int_cases hC h ((mem_ints hC h).2 hi)
          exact (int_rows_iff hC h hc hz hp (hinv p.1 (mem_all.1 hp).1 p.2 (mem_all.1 hp).2)).1 (hy p hp) a
  · rintro ⟨h1, h2⟩
    refine ⟨fun g hg hd => ?_, fun g hg hDg => ?_⟩
    · rw [← hz g hg]
      exact h1 g (by unfold CRun.tot; omega) ((hD g).2 hd)
    · rw [← sub_eq_zero, ← rows_agree hC h hc (fun q hq => (ho q hq).1) (fun q hq => (ho q hq).2) x _ hz hy hg]
      exact h2 g (by unfold CRun.tot; omega) fun hd => hDg ((hD g).1 hd)

/-- C116 (partial): every vector gives a field, and if the blocks are invertible every least-squares solution of the whole problem is
given by a solution of the condensed system. -/
theorem C116_recovers_partial (hC : C.Ok) (h : Q.Of C) {nc c : Nat} (hc : c < nc) {um uv : Nat → List ((Nat × Nat) × ℝ)} (ho : Q.Orders nc um uv) :
    (∀ x : Nat → ℝ, ∃ f, Q.Gives C nc c x f) ∧
    ((∀ r < Q.R.nr, ∀ e ∈ Q.parts r, IsUnit (Q.diag nc r e).det) → ∀ f, C.full.toProblem.Minimises c f → ∃ x, Q.Solved C um uv c x ∧ Q.Gives C nc c x f) := by
  classical
  refine ⟨fun x => ?_, fun hinv f hf => ?_⟩
  · refine ⟨fun k => if hk : ∃ p : Nat × CEl, p ∈ Q.all ∧ ∃ a : Fin (Q.nI p.1 p.2), k = Q.ik p a then
      Q.recover nc hk.choose.1 hk.choose.2 c x hk.choose_spec.2.choose else x (Q.R.num k), fun k hk => ?_, fun r hr e he a => ?_⟩
    · refine dif_neg ?_
      rintro ⟨p, hp, a, rfl⟩
      exact int_not_prim hC ((mem_ints hC h).1 (ik_ints hp a.2)) hk
    · have hp : ((r, e) : Nat × CEl) ∈ Q.all := mem_all.2 ⟨hr, he⟩
      have hex : ∃ p : Nat × CEl, p ∈ Q.all ∧ ∃ a' : Fin (Q.nI p.1 p.2), e.key ((condDofs (Q.info r e)).get a) = Q.ik p a' :=
        ⟨(r, e), hp, a, ik_get (p := (r, e)) a⟩
      beta_reduce
      rw [dif_pos hex]
      have key : ∀ (p : Nat × CEl), p ∈ Q.all → ∀ a' : Fin (Q.nI p.1 p.2), Q.ik (r, e) a = Q.ik p a' → Q.recover nc p.1 p.2 c x a' = Q.recover nc r e c x a := by
        intro p hp' a' he'
        have := int_unique hC h hp hp' he'
        subst this
        have : a = a' := Fin.ext (ik_inj hC h hp a.2 a'.2 he')
        rw [this]
      refine key _ hex.choose_spec.1 _ ?_
      rw [← hex.choose_spec.2.choose_spec]
      exact (ik_get (p := (r, e)) a).symm
  · obtain ⟨z, hz⟩ := exists_vector (represents hC h) f hf.1.1
    have hzm : C.full.toProblem.Minimises c (fun k => z (Q.num' k)) := (minimises_congr (problem_ok (full_ok hC)) hz).2 hf
    have hrows := (full_rows hC h c z).1 hzm
    have hg : Q.Gives C nc c z f := by
      refine ⟨fun k hk => ?_, fun r hr e he a => ?_⟩
      · rw [← hz k ((used_split hC).2 (Or.inl hk)), num'_prim hC h hk]
      · have hp : ((r, e) : Nat × CEl) ∈ Q.all := mem_all.2 ⟨hr, he⟩
        have hk := ik_used hC h hp a
        rw [show e.key ((condDofs (Q.info r e)).get a) = Q.ik (r, e) a from ik_get (p := (r, e)) a, ← hz _ hk]
        exact (int_rows_iff (p := (r, e)) hC h hc (fun _ _ => rfl) hp (hinv r hr e he)).2
          (fun a => hrows.2 _ (num'_lt hC h (ik_used hC h hp a)) (ik_free hC h hp a)) a
    exact ⟨z, (C116_intrinsic_partial hC h hc ho hinv hg).2 hf, hg⟩

/-- C116: the blocks to be inverted are invertible whenever the whole problem has only one least-squares solution. -/
theorem C116_invertible (hC : C.Ok) (h : Q.Of C) {nc c : Nat} (hc : c < nc) (hu : C.Unique c) :
    ∀ r < Q.R.nr, ∀ e ∈ Q.parts r, IsUnit (Q.diag nc r e).det := by
  classical
  intro r hr e he
  rw [isUnit_iff_ne_zero]
  intro hdet
  obtain ⟨y, hy0, hy⟩ := Matrix.exists_mulVec_eq_zero_iff.2 hdet
  refine hy0 (funext fun a => ?_)
  have hp : ((r, e) : Nat × CEl) ∈ Q.all := mem_all.2 ⟨hr, he⟩
  have hP := problem_ok (full_ok hC)
  have hR := represents hC h
  obtain ⟨z, hzs⟩ := C93_solvable (N := Q.tot) (D := Q.D' C) (weighted hP hR) (fun g => Q.R.v g c) c
  have hzm : C.full.toProblem.Minimises c (fun k => z (Q.num' k)) := (C112_intrinsic hP hR c z).1 hzs
  -- the change: `y` at the internal unknowns of the element
  let w : Nat → ℝ := fun g => if hg : ∃ a : Fin (Q.nI r e), Q.num' (Q.ik (r, e) a) = g then y hg.choose else 0
  have hwi : ∀ a : Fin (Q.nI r e), w (Q.num' (Q.ik (r, e) a)) = y a := by
    intro a
    have hg : ∃ a' : Fin (Q.nI r e), Q.num' (Q.ik (r, e) a') = Q.num' (Q.ik (r, e) a) := ⟨a, rfl⟩
    change (if hg : ∃ a' : Fin (Q.nI r e), Q.num' (Q.ik (r, e) a') = Q.num' (Q.ik (r, e) a) then y hg.choose else 0) = _
    rw [dif_pos hg]
    congr 1
    exact Fin.ext (ik_inj hC h hp (hg.choose).2 a.2 (num'_inj_int (ik_ints (p := (r, e)) hp (hg.choose).2) (ik_ints (p := (r, e)) hp a.2) hg.choose_spec))
  have hw0 : ∀ g, (∀ a : Fin (Q.nI r e), Q.num' (Q.ik (r, e) a) ≠ g) → w g = 0 := by
    intro g hg
    exact dif_neg fun ⟨a, ha⟩ => hg a ha
  have hwp : ∀ g < Q.R.s.total, w g = 0 := by
    intro g hg
    refine hw0 g fun a ha => ?_
    have := num'_int_ge (ik_ints (p := (r, e)) hp a.2)
    omega
  have hres : ∀ (t : ℝ) (a : Fin (Q.nI r e)), (C.full.elems.map (kres Q c (fun g => z g + t * w g) (Q.num' (Q.ik (r, e) a)))).sum = 0 := by
    intro t a
    have h0 : ∀ a : Fin (Q.nI r e), (C.full.elems.map (kres Q c z (Q.num' (Q.ik (r, e) a)))).sum = 0 := fun a =>
      ((full_rows hC h c z).1 hzm).2 _ (num'_lt hC h (ik_used hC h hp a)) (ik_free hC h hp a)
    have h1 := h0 a
    rw [int_row hC h c _ hp a.2, fullInt_eq (blks_ok hC h c hp)] at h1 ⊢
    have e1 : (fun b : Fin (Q.nB r e) => z (Q.num' (Q.bd (r, e) b)) + t * w (Q.num' (Q.bd (r, e) b))) = fun b : Fin (Q.nB r e) => z (Q.num' (Q.bd (r, e) b)) := by
      funext b
      have hub := (bd_used hC h hp b.2).2
      rw [num'_prim hC h hub, hwp _ (num_lt (prim_ok hC) h.run h.marked hub), mul_zero, add_zero]
    have e2 : (fun b : Fin (Q.nI r e) => z (Q.num' (Q.ik (r, e) b)) + t * w (Q.num' (Q.ik (r, e) b))) = (fun b : Fin (Q.nI r e) => z (Q.num' (Q.ik (r, e) b))) + t • y := by
      funext b
      rw [hwi]
      rfl
    beta_reduce at h1 ⊢
    rw [e1, e2, Matrix.mulVec_add, Matrix.mulVec_smul, Pi.add_apply, Pi.smul_apply]
    have e3 : (Dm (Q.blks c (r, e)) (Q.nI r e)).mulVec y a = 0 := by
      have := congrFun hy a
      rw [show Q.diag nc r e = Dm (Q.blks c (r, e)) (Q.nI r e) from diag_eq c nc (r, e)] at this
      exact this
    change _ + (_ + t • (Dm (Q.blks c (r, e)) (Q.nI r e)).mulVec y a) - _ = 0
    rw [e3, smul_zero, add_zero]
    exact h1
  -- the functional does not change
  let rows := allRows 1 (fun _ => Q.fict C) c
  have hrw := rows_weights (weighted hP hR) c
  have hsum : ∀ t s : ℝ, ∑ g ∈ range Q.tot, (s * w g) * ((∑ l ∈ range Q.tot, rowsK rows g l * (z l + t * w l)) - rowsB rows g) = 0 := by
    intro t s
    refine sum_eq_zero fun g _ => ?_
    by_cases hg : ∃ a : Fin (Q.nI r e), Q.num' (Q.ik (r, e) a) = g
    · obtain ⟨a, rfl⟩ := hg
      have h1 := hres t a
      rw [← full_resid hC h, rhs_eq] at h1
      simp only [matrix_eq c] at h1
      change _ * (_ - _) = 0
      rw [h1, mul_zero]
    · rw [hw0 g fun a ha => hg ⟨a, ha⟩]
      ring
  have hJ1 := J_diff Q.tot rows (fun g => z g + 0 * w g) (fun g => z g + 1 * w g)
  have hJ2 := J_diff Q.tot rows (fun g => z g + 1 * w g) (fun g => z g + 0 * w g)
  have s1 : ∑ g ∈ range Q.tot, (z g + 1 * w g - (z g + 0 * w g)) * ((∑ l ∈ range Q.tot, rowsK rows g l * (z l + 0 * w l)) - rowsB rows g) = 0 := by
    refine Eq.trans (sum_congr rfl fun g _ => ?_) (hsum 0 1)
    rw [show z g + 1 * w g - (z g + 0 * w g) = 1 * w g by ring]
  have s2 : ∑ g ∈ range Q.tot, (z g + 0 * w g - (z g + 1 * w g)) * ((∑ l ∈ range Q.tot, rowsK rows g l * (z l + 1 * w l)) - rowsB rows g) = 0 := by
    refine Eq.trans (sum_congr rfl fun g _ => ?_) (hsum 1 (-1))
    rw [show z g + 0 * w g - (z g + 1 * w g) = -1 * w g by ring]
  rw [s1] at hJ1
  rw [s2] at hJ2
  have n1 := sum_w_nonneg hrw fun R => R.val Q.tot fun g => z g + 1 * w g - (z g + 0 * w g)
  have n2 := sum_w_nonneg hrw fun R => R.val Q.tot fun g => z g + 0 * w g - (z g + 1 * w g)
  have hJ : functional 1 (fun _ => Q.fict C) c (fun g => z g + 1 * w g) = functional 1 (fun _ => Q.fict C) c z := by
    rw [functional_eq hR.ok (sized hP hR), functional_eq hR.ok (sized hP hR)]
    have e0 : z = fun g => z g + 0 * w g := funext fun g => by ring
    conv_rhs => rw [e0]
    change rowsJ Q.tot rows _ = rowsJ Q.tot rows _
    linarith
  have hm := (minimises_iff hP hR c z).1 hzm
  have hm' : C.full.toProblem.Minimises c (fun k => (fun g => z g + 1 * w g) (Q.num' k)) := by
    refine (minimises_iff hP hR c fun g => z g + 1 * w g).2 ⟨fun g hg hd => ?_, fun z' hz' => ?_⟩
    · have hgN : g < Q.R.s.total := by
        obtain ⟨k, hk, _, rfl⟩ := (D'_iff hC h g).1 hd
        exact num_lt (prim_ok hC) h.run h.marked hk
      rw [hwp g hgN, mul_zero, add_zero]
      exact hm.1 g hg hd
    · rw [hJ]
      exact hm.2 z' hz'
  have := hu _ _ hm' hzm _ (ik_used hC h hp a)
  beta_reduce at this
  rw [hwi] at this
  change y a = 0
  linarith

/-- C116 (partial): when the least-squares solution is unique, two condensed runs and an uncondensed one of the same problem, on any
distributions of the mesh, give the same values, also at internal nodes. -/
theorem C116_same_partial (hC : C.Ok) {Q' : CRun} (h : Q.Of C) (h' : Q'.Of C) {R : Run} (hR : R.Of C.full) (hm : R.Marked) {nc nc' c : Nat} (hc : c < nc) (hc' : c < nc')
    {um uv um' uv' : Nat → List ((Nat × Nat) × ℝ)} (ho : Q.Orders nc um uv) (ho' : Q'.Orders nc' um' uv') (hu : C.Unique c)
    {x x' X : Nat → ℝ} {f f' : Nat × Nat → ℝ} (hs : Q.Solved C um uv c x) (hf : Q.Gives C nc c x f) (hs' : Q'.Solved C um' uv' c x') (hf' : Q'.Gives C nc' c x' f')
    [DecidablePred (R.D C.full)] (hX : Solves R.s.total R.nr (R.D C.full) R.rank (fun g => R.v g c) X c) :
    ∀ k, C.full.toProblem.used k → f k = f' k ∧ f k = X (R.num k) := by
  have h1 := (C116_intrinsic_partial hC h hc ho (C116_invertible hC h hc hu) hf).1 hs
  have h2 := (C116_intrinsic_partial hC h' hc' ho' (C116_invertible hC h' hc' hu) hf').1 hs'
  have h3 := (C112_intrinsic (problem_ok (full_ok hC)) (run_represents (full_ok hC) hR hm) c X).1 hX
  exact fun k hk => ⟨hu _ _ h1 h2 k hk, hu _ _ h1 h3 k hk⟩

end

end Verif.CondDistr
