import Verif.CondDistr.Props

/-! # C116: examples, and what fails without the conditions -/
namespace Verif.CondDistr
open Matrix
open Verif Verif.Dofs Verif.Lsq Verif.Distr Verif.Condense Verif.CondInit Verif.CondRace Finset

noncomputable section

/-- C116 in full: a solution of the condensed system gives a least-squares solution of the whole problem (for kernels listing their
components in any order, whatever the components at the boundary). -/
def C116Statement : Prop := ∀ C : CProblem, C.Sensible → ∀ Q : CRun, Q.Of C → ∀ nc c, c < nc → ∀ um uv, Q.Orders nc um uv →
  (∀ r < Q.R.nr, ∀ e ∈ Q.parts r, IsUnit (Q.diag nc r e).det) → ∀ x f, Q.Solved C um uv c x → Q.Gives C nc c x f → C.full.toProblem.Minimises c f

/-- A point: values of the two basis functions, right-hand sides of the two equations `u₀ = F₀`, `u₁ = F₁`. -/
def exPnt (b0 b1 F0 F1 : ℝ) : Batch.Upd :=
  ⟨fun k e w => if k = 0 ∧ e = w then 1 else 0, fun e _ => if e = 0 then F0 else F1, fun b => if b = 0 then b0 else b1, fun _ _ => 3, 2⟩

/-- A boundary node (0) and an internal node (1), two components. -/
def exEle (inds : List Nat) (pts : List Batch.Upd) : CEl := ⟨⟨7, 1, [0, 1], fun v => v == 0⟩, [0, 1], [⟨inds, ⟨2, 2, 2, 1, 1⟩, pts⟩]⟩

def exPro (inds : List Nat) (pts : List Batch.Upd) : CProblem where
  dpn := 2
  node n := n < 2
  els := [exEle inds pts]
  ident _ n n' := n = n'
  dir _ := False
  val _ _ := 0

def exSet : Setup where
  dpn := 2
  counts := [2]
  ghosts := fun _ => []
  pghosts := fun _ => []
  per := fun _ => []
  visits := fun r => if r = 0 then [⟨[0], [0, 1]⟩] else []

/-- One rank. -/
def exRun (inds : List Nat) (pts : List Batch.Upd) : CRun where
  R := ⟨exSet, id, fun _ => [], fun r => if r = 0 then [⟨[0], [0, 1]⟩] else [], fun _ => some fun _ => false, fun _ => [], fun _ _ _ => 0, fun _ _ => 0⟩
  parts r := if r = 0 then [exEle inds pts] else []
  rowM _ := [0, 1]
  colM _ := [1, 0]
  vecM _ := [0, 1]

theorem exSet_ok : exSet.Ok := by
  refine ⟨by decide, ?_, by decide, ?_, ?_⟩
  · intro r hr
    have : ∀ r < 1, ∀ v ∈ exSet.visits r, (∀ n ∈ v.nodes, exSet.owns r n = true ∨ n ∈ exSet.ghosts r) ∧ ∀ j ∈ v.active, j < exSet.dpn := by
      intro r hr
      interval_cases r
      simp [exSet]; decide
    exact this r hr
  · intro r _ n j a h; simp [Setup.lookup, exSet] at h
  · intro r _ n j a h; simp [Setup.lookup, exSet] at h

variable {inds : List Nat} {pts : List Batch.Upd}

theorem ex_bnd : (exEle inds pts).el.bndNodes = [0] := by
  change (CondInit.El.mk 7 1 [0, 1] fun v => v == 0).bndNodes = [0]
  decide +kernel
theorem ex_int : (exEle inds pts).el.intNodes = [1] := by
  change (CondInit.El.mk 7 1 [0, 1] fun v => v == 0).intNodes = [1]
  decide +kernel

theorem exRun_of : (exRun inds pts).Of (exPro inds pts) := by
  refine ⟨⟨exSet_ok, rfl, ?_, List.Perm.refl _, ?_, ?_, ?_, ?_, ?_, ?_, ?_⟩, ?_, List.Perm.refl _, ?_, ?_, ?_⟩
  · intro m
    change m < 2 ↔ ∃ n, n < 2 ∧ n = m
    constructor
    · intro h; exact ⟨m, h, rfl⟩
    · rintro ⟨n, h, rfl⟩; exact h
  · change List.Perm [(⟨[0], [0, 1]⟩ : Visit)] [⟨(exEle inds pts).el.bndNodes, [0, 1]⟩]
    rw [ex_bnd]
  · intro r hr
    refine sees_of_eq exSet_ok hr ?_
    have : r < 1 := hr
    interval_cases r; rfl
  · intro r hr e he; cases he
  · intro j n n' _ _
    change exSet.rep n j = exSet.rep n' j ↔ _
    rw [rep_plain _ fun _ => rfl, rep_plain _ fun _ => rfl]
    exact Iff.rfl
  · intro r hr d hd
    constructor
    · intro h; cases h
    · rintro ⟨_, _, hd, _⟩; exact hd.elim
  · intro r hr
    exact ⟨List.nodup_nil, fun d => ⟨fun h => (by cases h), fun h => (by cases h.2)⟩⟩
  · intro k _ hd c; exact hd.elim
  · intro j m _ hl
    exact absurd rfl hl
  · intro r hr
    have : r < 1 := hr
    interval_cases r
    change [(⟨[0], [0, 1]⟩ : Visit)] = [⟨(exEle inds pts).el.bndNodes, [0, 1]⟩]
    rw [ex_bnd]
  · intro r _
    refine ⟨?_, ?_, ?_⟩
    · change [0, 1].Nodup; decide
    · change [1, 0].Nodup; decide
    · change [0, 1].Nodup; decide
  · intro r hr e he n hn j g hg
    have : r < 1 := hr
    interval_cases r
    have he : e = exEle inds pts := by simpa [exRun] using he
    subst he
    rw [ex_bnd, List.mem_singleton] at hn
    subst hn
    have hg : exSet.dofs 0 0 j = some g := hg
    have hlt : g < 2 := by
      have := dof_lt_total exSet_ok (r := 0) (by decide) (Or.inl (by decide)) hg
      rwa [show exSet.total = 2 by decide +kernel] at this
    change g ∈ [0, 1] ∧ g ∈ [1, 0] ∧ g ∈ [0, 1]
    simp; omega

theorem exPro_sensible (hin : inds ⊆ [0, 1]) (hnd : inds.Nodup) (hl : inds.length = 2) (hw : ∀ U ∈ pts, 0 ≤ U.w) : (exPro inds pts).Sensible := by
  have he : ∀ e ∈ (exPro inds pts).els, e = exEle inds pts := fun e he => by simpa [exPro] using he
  refine ⟨?_, ?_, ?_, ?_, ?_, fun _ _ _ => rfl, ?_, ?_, ?_, ?_⟩
  · intro e h n hn
    rw [he e h] at hn
    change n ∈ [0, 1] at hn
    change n < 2
    simp at hn; omega
  · intro e h j hj
    rw [he e h] at hj
    change j ∈ [0, 1] at hj
    change j < 2
    simp at hj; omega
  · intro e h k hk
    rw [he e h] at hk ⊢
    have hk : k = ⟨inds, ⟨2, 2, 2, 1, 1⟩, pts⟩ := by simpa [exEle] using hk
    rw [hk]
    exact ⟨hin, hnd⟩
  · intro e h k hk
    rw [he e h] at hk ⊢
    have hk : k = ⟨inds, ⟨2, 2, 2, 1, 1⟩, pts⟩ := by simpa [exEle] using hk
    rw [hk]
    exact ⟨rfl, hl⟩
  · intro e h k hk
    rw [he e h] at hk
    have hk : k = ⟨inds, ⟨2, 2, 2, 1, 1⟩, pts⟩ := by simpa [exEle] using hk
    rw [hk]
    exact hw
  · change ([exEle inds pts].flatMap fun e => e.el.intNodes).Nodup
    simp [ex_int]
  · intro e h n hn e' h'
    rw [he e h, ex_int] at hn
    rw [he e' h', ex_bnd]
    simp at hn ⊢; omega
  · rintro e h n hn j n' (h | h)
    · exact h
    · exact h.symm
  · intro e h n hn j hd; exact hd

theorem exPro_ok (hw : ∀ U ∈ pts, 0 ≤ U.w) : (exPro [0, 1] pts).Ok := by
  refine ⟨exPro_sensible (fun _ h => h) (by decide) rfl hw, ?_, ?_⟩
  · intro e h k hk
    have he : e = exEle [0, 1] pts := by simpa [exPro] using h
    rw [he] at hk
    have hk : k = ⟨[0, 1], ⟨2, 2, 2, 1, 1⟩, pts⟩ := by simpa [exEle] using hk
    rw [hk]
    change [0, 1].Pairwise (· < ·)
    decide
  · intro e h j hj _
    have he : e = exEle [0, 1] pts := by simpa [exPro] using h
    rw [he]
    change j ∈ [0, 1]
    have : j < 2 := hj
    simp; omega

/-! ### An example -/

def exPts : List Batch.Upd := [exPnt 1 0 5 7, exPnt (-1) 1 3 4]

theorem exPts_J (f : Nat × Nat → ℝ) : (exPro [0, 1] exPts).full.toProblem.J 0 f =
    2 * ((f (0, 0) - 5) ^ 2 + (f (0, 1) - 7) ^ 2) + 2 * ((-f (0, 0) + f (1, 0) - 3) ^ 2 + (-f (0, 1) + f (1, 1) - 4) ^ 2) := by
  simp [Problem.J, MProblem.toProblem, CProblem.full, exPro, exEle, MElem.keyed, Lsq.residual, uVal, uDer, exPts, exPnt, fieldAt, sum_range_succ]

/-- The least-squares solution. -/
def exFld (k : Nat × Nat) : ℝ := if k = (0, 0) then 5 else if k = (0, 1) then 7 else if k = (1, 0) then 8 else 11

theorem exFld_min : (exPro [0, 1] exPts).full.toProblem.Minimises 0 exFld := by
  refine ⟨⟨fun k k' _ _ hs => ?_, fun k _ hd => hd.elim⟩, fun g _ => ?_⟩
  · obtain ⟨h1, h2⟩ := hs
    have h2 : k.1 = k'.1 := h2
    rw [Prod.ext h2 h1]
  · rw [exPts_J, exPts_J]
    have : exFld (0, 0) = 5 ∧ exFld (0, 1) = 7 ∧ exFld (1, 0) = 8 ∧ exFld (1, 1) = 11 := by
      refine ⟨?_, ?_, ?_, ?_⟩ <;> norm_num [exFld]
    rw [this.1, this.2.1, this.2.2.1, this.2.2.2]
    norm_num
    positivity

theorem ex_used {k : Nat × Nat} (h : (exPro [0, 1] exPts).full.toProblem.used k) : k = (0, 0) ∨ k = (0, 1) ∨ k = (1, 0) ∨ k = (1, 1) := by
  obtain ⟨n, j⟩ := k
  have h1 : n < 2 := h.1
  have h2 : j < 2 := h.2.1
  simp only [Prod.mk.injEq]
  omega

theorem ex_unique : (exPro [0, 1] exPts).Unique 0 := by
  have key : ∀ f, (exPro [0, 1] exPts).full.toProblem.Minimises 0 f → ∀ k, (exPro [0, 1] exPts).full.toProblem.used k → f k = exFld k := by
    intro f hf k hk
    have h1 := hf.2 exFld exFld_min.1
    rw [exPts_J, exPts_J] at h1
    have hx : exFld (0, 0) = 5 ∧ exFld (0, 1) = 7 ∧ exFld (1, 0) = 8 ∧ exFld (1, 1) = 11 := by
      refine ⟨?_, ?_, ?_, ?_⟩ <;> norm_num [exFld]
    rw [hx.1, hx.2.1, hx.2.2.1, hx.2.2.2] at h1
    norm_num at h1
    have s0 := sq_nonneg (f (0, 0) - 5)
    have s1 := sq_nonneg (f (0, 1) - 7)
    have s2 := sq_nonneg (-f (0, 0) + f (1, 0) - 3)
    have s3 := sq_nonneg (-f (0, 1) + f (1, 1) - 4)
    have sq : ∀ a : ℝ, a ^ 2 ≤ 0 → a = 0 := fun a ha => pow_eq_zero_iff (two_ne_zero) |>.1 (le_antisymm ha (sq_nonneg a))
    have e0 := sq _ (by linarith : (f (0, 0) - 5) ^ 2 ≤ 0)
    have e1 := sq _ (by linarith : (f (0, 1) - 7) ^ 2 ≤ 0)
    have e2 := sq _ (by linarith : (-f (0, 0) + f (1, 0) - 3) ^ 2 ≤ 0)
    have e3 := sq _ (by linarith : (-f (0, 1) + f (1, 1) - 4) ^ 2 ≤ 0)
    rcases ex_used hk with rfl | rfl | rfl | rfl
    · rw [hx.1]; linarith
    · rw [hx.2.1]; linarith
    · rw [hx.2.2.1]; linarith
    · rw [hx.2.2.2]; linarith
  exact fun f f' hf hf' k hk => (key f hf k hk).trans (key f' hf' k hk).symm

theorem exPts_w : ∀ U ∈ exPts, 0 ≤ U.w := by
  intro U hU
  simp only [exPts, List.mem_cons, List.not_mem_nil, or_false] at hU
  rcases hU with rfl | rfl <;> norm_num [exPnt]

/-- The hypotheses can be met: the condensed system of the example has a solution which gives the least-squares solution, with the
internal values 8 and 11. -/
example : ∃ x, (exRun [0, 1] exPts).Solved (exPro [0, 1] exPts) (fun q => ((exRun [0, 1] exPts).events 1 q).flatMap scatterMat)
      (fun q => ((exRun [0, 1] exPts).events 1 q).flatMap (scatterVec 1)) 0 x ∧ (exRun [0, 1] exPts).Gives (exPro [0, 1] exPts) 1 0 x exFld := by
  have ho : (exRun [0, 1] exPts).Orders 1 (fun q => ((exRun [0, 1] exPts).events 1 q).flatMap scatterMat)
      (fun q => ((exRun [0, 1] exPts).events 1 q).flatMap (scatterVec 1)) := fun q _ => ⟨List.Perm.refl _, List.Perm.refl _⟩
  have hC := exPro_ok exPts_w
  exact (C116_recovers_partial hC exRun_of (by decide) ho).2 (C116_invertible hC exRun_of (by decide) ex_unique) exFld exFld_min

/-- The same problem on one rank without condensation. -/
def exFullSet : Setup where
  dpn := 2
  counts := [2]
  ghosts := fun _ => []
  pghosts := fun _ => []
  per := fun _ => []
  visits := fun r => if r = 0 then [⟨[0, 1], [0, 1]⟩] else []

def exFull : Run :=
  ⟨exFullSet, id, fun r => if r = 0 then [⟨[0, 1], [0, 1], ⟨2, 2, 2, 1, 1⟩, exPts⟩] else [], fun r => if r = 0 then [⟨[0, 1], [0, 1]⟩] else [],
    fun _ => some fun _ => false, fun _ => [], fun _ _ _ => 0, fun _ _ => 0⟩

theorem exFullSet_ok : exFullSet.Ok := by
  refine ⟨by decide, ?_, by decide, ?_, ?_⟩
  · intro r hr
    have : ∀ r < 1, ∀ v ∈ exFullSet.visits r, (∀ n ∈ v.nodes, exFullSet.owns r n = true ∨ n ∈ exFullSet.ghosts r) ∧ ∀ j ∈ v.active, j < exFullSet.dpn := by
      intro r hr
      interval_cases r
      simp [exFullSet]; decide
    exact this r hr
  · intro r _ n j a h; simp [Setup.lookup, exFullSet] at h
  · intro r _ n j a h; simp [Setup.lookup, exFullSet] at h

theorem exFull_of : exFull.Of (exPro [0, 1] exPts).full := by
  refine ⟨exFullSet_ok, rfl, ?_, List.Perm.refl _, List.Perm.refl _, ?_, ?_, ?_, ?_, ?_, ?_⟩
  · intro m
    change m < 2 ↔ ∃ n, n < 2 ∧ n = m
    constructor
    · intro h; exact ⟨m, h, rfl⟩
    · rintro ⟨n, h, rfl⟩; exact h
  · intro r hr
    refine sees_of_eq exFullSet_ok hr ?_
    have : r < 1 := hr
    interval_cases r; rfl
  · intro r hr e he
    have : r < 1 := hr
    interval_cases r
    have he : e = ⟨[0, 1], [0, 1], ⟨2, 2, 2, 1, 1⟩, exPts⟩ := List.mem_singleton.1 he
    rw [he]
    exact ⟨⟨[0, 1], [0, 1]⟩, by simp [exFull], fun _ h => h, fun _ h => h⟩
  · intro j n n' _ _
    change exFullSet.rep n j = exFullSet.rep n' j ↔ _
    rw [rep_plain _ fun _ => rfl, rep_plain _ fun _ => rfl]
    exact Iff.rfl
  · intro r hr d hd
    constructor
    · intro h; cases h
    · rintro ⟨_, _, hd, _⟩; exact hd.elim
  · intro r hr
    exact ⟨List.nodup_nil, fun d => ⟨fun h => (by cases h), fun h => (by cases h.2)⟩⟩
  · intro k _ hd c; exact hd.elim

/-- The hypotheses of `C116_same_partial` can be met: with and without condensation the example gives the values 5, 7, 8, 11. -/
example : ∃ X : Nat → ℝ, ∃ x f, (exRun [0, 1] exPts).Gives (exPro [0, 1] exPts) 1 0 x f ∧
    ∀ k, (exPro [0, 1] exPts).full.toProblem.used k → f k = X (exFull.num k) ∧ f k = exFld k := by
  classical
  have ho : (exRun [0, 1] exPts).Orders 1 (fun q => ((exRun [0, 1] exPts).events 1 q).flatMap scatterMat)
      (fun q => ((exRun [0, 1] exPts).events 1 q).flatMap (scatterVec 1)) := fun q _ => ⟨List.Perm.refl _, List.Perm.refl _⟩
  have hC := exPro_ok exPts_w
  have hm : exFull.Marked := (C112_marked exFullSet_ok).1 rfl
  obtain ⟨x, hx, hf⟩ := (C116_recovers_partial hC exRun_of (by decide) ho).2 (C116_invertible hC exRun_of (by decide) ex_unique) exFld exFld_min
  have hnum : ∀ k, (exPro [0, 1] exPts).full.toProblem.used k → exFld k = ([5, 7, 8, 11] : List ℝ).getD (exFull.num k) 0 := by
    intro k hk
    rcases ex_used hk with rfl | rfl | rfl | rfl
    · rw [show exFull.num (0, 0) = 0 by change (exFullSet.dofs 0 0 0).getD 0 = _; decide +kernel]; norm_num [exFld]
    · rw [show exFull.num (0, 1) = 1 by change (exFullSet.dofs 0 0 1).getD 0 = _; decide +kernel]; norm_num [exFld]
    · rw [show exFull.num (1, 0) = 2 by change (exFullSet.dofs 0 1 0).getD 0 = _; decide +kernel]; norm_num [exFld]
    · rw [show exFull.num (1, 1) = 3 by change (exFullSet.dofs 0 1 1).getD 0 = _; decide +kernel]; norm_num [exFld]
  have hX : Solves exFull.s.total exFull.nr (exFull.D (exPro [0, 1] exPts).full) exFull.rank (fun g => exFull.v g 0) (fun g => ([5, 7, 8, 11] : List ℝ).getD g 0) 0 := by
    refine (C112_intrinsic (problem_ok (full_ok hC)) (run_represents (full_ok hC) exFull_of hm) 0 _).2 ?_
    exact (minimises_congr (problem_ok (full_ok hC)) hnum).1 exFld_min
  exact ⟨fun g => ([5, 7, 8, 11] : List ℝ).getD g 0, x, exFld, hf, fun k hk =>
    ⟨(C116_same_partial hC exRun_of exRun_of exFull_of hm (by decide) (by decide) ho ho ex_unique hx hf hx hf hX k hk).2, rfl⟩⟩

/-! ### What fails -/

/-- Components in decreasing order: `u₁ = 0`, `u₀ = 0` at node 0, `u₁ = 1`, `u₀ = 0` at node 1. -/
def badPts : List Batch.Upd := [exPnt 1 0 0 0, exPnt 0 1 1 0]

theorem bad_J (f : Nat × Nat → ℝ) : (exPro [1, 0] badPts).full.toProblem.J 0 f =
    2 * (f (0, 1) ^ 2 + f (0, 0) ^ 2) + 2 * ((f (1, 1) - 1) ^ 2 + f (1, 0) ^ 2) := by
  simp [Problem.J, MProblem.toProblem, CProblem.full, exPro, exEle, MElem.keyed, Lsq.residual, uVal, uDer, badPts, exPnt, fieldAt, sum_range_succ]

theorem bad_mat (i j : Nat) (hi : i < 4) (hj : j < 4) : Batch.directMat ⟨2, 2, 2, 1, 1⟩ badPts i j = if i = j then 2 else 0 := by
  interval_cases i <;> interval_cases j <;> simp [Batch.directMat, Batch.shape, badPts, exPnt, sum_range_succ]

theorem bad_rhs (i : Nat) (hi : i < 4) : Batch.directRhs ⟨2, 2, 2, 1, 1⟩ badPts i 0 = if i = 2 then 2 else 0 := by
  interval_cases i <;> simp [Batch.directRhs, Batch.shape, badPts, exPnt, sum_range_succ]

theorem bad_info : (exRun [1, 0] badPts).info 0 (exEle [1, 0] badPts) = (CondInit.El.mk 7 1 [0, 1] fun v => v == 0).info 2 fun n j => (exSet.dofs 0 n j).isSome := rfl

theorem bad_inds : computeInds ((exRun [1, 0] badPts).info 0 (exEle [1, 0] badPts)) [1, 0] = ⟨4, 2, 2, [(0, 0), (1, 1)], [(2, 0), (3, 1)]⟩ := by
  rw [bad_info]
  decide +kernel

theorem bad_cond : condDofs ((exRun [1, 0] badPts).info 0 (exEle [1, 0] badPts)) = [(1, 0), (1, 1)] := by
  rw [bad_info]
  decide +kernel

theorem bad_prim : primaryDofs ((exRun [1, 0] badPts).info 0 (exEle [1, 0] badPts)) = [(0, 0), (0, 1)] := by
  rw [bad_info]
  decide +kernel

theorem bad_tasks : (exRun [1, 0] badPts).tasks 1 0 (exEle [1, 0] badPts) =
    [⟨7, (exRun [1, 0] badPts).info 0 (exEle [1, 0] badPts), [1, 0], 1, Batch.directMat ⟨2, 2, 2, 1, 1⟩ badPts, Batch.directRhs ⟨2, 2, 2, 1, 1⟩ badPts⟩] := rfl

theorem bad_diag : (exRun [1, 0] badPts).diag 1 0 (exEle [1, 0] badPts) = (2 : ℝ) • (1 : Matrix _ _ ℝ) := by
  funext a b
  have hn : (exRun [1, 0] badPts).nI 0 (exEle [1, 0] badPts) = 2 := by unfold CRun.nI; rw [bad_cond]; rfl
  have ha := lt_of_lt_of_eq a.2 hn
  have hb := lt_of_lt_of_eq b.2 hn
  unfold CRun.diag
  rw [bad_tasks]
  simp only [List.map_cons, List.map_nil, List.sum_cons, List.sum_nil, Task.wanted, bad_inds, bad_mat, Nat.reduceLT, Nat.reduceEqDiff, if_true, if_false]
  rw [Matrix.smul_apply, Matrix.one_apply]
  have hab : (a = b) ↔ a.1 = b.1 := Fin.ext_iff
  simp only [hab]
  generalize a.1 = i at *
  generalize b.1 = j at *
  interval_cases i <;> interval_cases j <;> simp

theorem bad_upper : (exRun [1, 0] badPts).upper 1 0 (exEle [1, 0] badPts) = 0 := by
  funext a b
  unfold CRun.upper
  rw [bad_tasks]
  simp [Task.wanted, bad_inds, bad_mat]

theorem bad_rhsI (a : Fin ((exRun [1, 0] badPts).nI 0 (exEle [1, 0] badPts))) : (exRun [1, 0] badPts).rhsI 1 0 (exEle [1, 0] badPts) 0 a = if a.1 = 0 then 2 else 0 := by
  unfold CRun.rhsI
  rw [bad_tasks]
  simp [Task.wanted, bad_inds, bad_rhs, eq_comm]

theorem bad_det : IsUnit ((exRun [1, 0] badPts).diag 1 0 (exEle [1, 0] badPts)).det := by
  rw [bad_diag, Matrix.det_smul, Matrix.det_one, mul_one, isUnit_iff_ne_zero]
  positivity

theorem bad_recover (a : Fin ((exRun [1, 0] badPts).nI 0 (exEle [1, 0] badPts))) (x : Nat → ℝ) :
    (exRun [1, 0] badPts).recover 1 0 (exEle [1, 0] badPts) 0 x a = if a.1 = 0 then 1 else 0 := by
  have h : (exRun [1, 0] badPts).diag 1 0 (exEle [1, 0] badPts) *ᵥ (fun a => if a.1 = 0 then 1 else 0) = (exRun [1, 0] badPts).rhsI 1 0 (exEle [1, 0] badPts) 0 := by
    rw [bad_diag]
    funext b
    rw [bad_rhsI, Matrix.smul_mulVec, Matrix.one_mulVec, Pi.smul_apply]
    split_ifs <;> simp
  unfold CRun.recover
  rw [bad_upper, Matrix.transpose_zero, Matrix.zero_mulVec, sub_zero, ← h, Matrix.mulVec_mulVec, Matrix.nonsing_inv_mul _ bad_det, Matrix.one_mulVec]

theorem rankSum_zero {ups : List ((Nat × Nat) × ℝ)} (h : ∀ u ∈ ups, u.2 = 0) (p : Nat × Nat) : rankSum ups p = 0 := by
  have key : ∀ (l : List ((Nat × Nat) × ℝ)) (f : Nat × Nat → ℝ), (∀ u ∈ l, u.2 = 0) → f p = 0 → l.foldl MatFree.addAt f p = 0 := by
    intro l
    induction l with
    | nil => intro f _ hf; exact hf
    | cons u l ih =>
      intro f hl hf
      refine ih _ (fun v hv => hl v (List.mem_cons_of_mem _ hv)) ?_
      have := hl u List.mem_cons_self
      unfold MatFree.addAt
      by_cases hp : p = u.1
      · rw [hp, Function.update_self, ← hp, hf, this, add_zero]
      · rw [Function.update_of_ne hp, hf]
  exact key ups _ h rfl

theorem bad_event : ∀ e ∈ (exRun [1, 0] badPts).events 1 0, ∀ u ∈ scatterVec 1 e, u.2 = 0 := by
  intro e he u hu
  change e ∈ [(exRun [1, 0] badPts).kerEvent 0 (exEle [1, 0] badPts) ⟨[1, 0], ⟨2, 2, 2, 1, 1⟩, badPts⟩, (exRun [1, 0] badPts).finalEvent 1 0 (exEle [1, 0] badPts)] at he
  obtain ⟨i, hi, hu⟩ := List.mem_flatMap.1 hu
  obtain ⟨c, hc, rfl⟩ := List.mem_map.1 hu
  have hc : c = 0 := by simpa using hc
  subst hc
  simp only [List.mem_cons, List.not_mem_nil, or_false] at he
  rcases he with rfl | rfl
  · have hl : ((exRun [1, 0] badPts).kerEvent 0 (exEle [1, 0] badPts) ⟨[1, 0], ⟨2, 2, 2, 1, 1⟩, badPts⟩).row.length = 2 := by
      simp [CRun.kerEvent, CRun.scat, ex_bnd]
    rw [hl, List.mem_range] at hi
    change Batch.directRhs ⟨2, 2, 2, 1, 1⟩ badPts (((computeInds ((exRun [1, 0] badPts).info 0 (exEle [1, 0] badPts)) [1, 0]).prim.getD i (0, 0)).1) 0 = 0
    rw [bad_inds]
    interval_cases i
    · exact (bad_rhs 0 (by decide)).trans (if_neg (by decide))
    · exact (bad_rhs 1 (by decide)).trans (if_neg (by decide))
  · change (if h : i < (exRun [1, 0] badPts).nB 0 (exEle [1, 0] badPts) then (exRun [1, 0] badPts).updRhs 1 0 (exEle [1, 0] badPts) 0 ⟨i, h⟩ else 0) = 0
    split_ifs with h
    · unfold CRun.updRhs
      rw [bad_upper, Matrix.zero_mul, Matrix.zero_mulVec]
      simp
    · rfl

/-- C116 fails: a kernel listing its components in decreasing order (and both components at every node, so C98's other violation, the
overrun, is not in play) is assembled into the right places of the primary system but the internal unknowns are recovered exchanged.
Here the equations ask for `u₁ = 1`, `u₀ = 0` at the internal node, and the field delivered has `u₀ = 1`, `u₁ = 0`. -/
theorem C116_violated : ¬ C116Statement := by
  intro H
  have hw : ∀ U ∈ badPts, 0 ≤ U.w := by
    intro U hU
    simp only [badPts, List.mem_cons, List.not_mem_nil, or_false] at hU
    rcases hU with rfl | rfl <;> norm_num [exPnt]
  have hS : (exPro [1, 0] badPts).Sensible := exPro_sensible (by decide) (by decide) rfl hw
  have hQ : (exRun [1, 0] badPts).Of (exPro [1, 0] badPts) := exRun_of
  have hr1 : ∀ r < (exRun [1, 0] badPts).R.nr, r = 0 := fun r hr => by
    have : r < 1 := hr
    omega
  have hp : ∀ e ∈ (exRun [1, 0] badPts).parts 0, e = exEle [1, 0] badPts := fun e he => by simpa [exRun] using he
  have := H (exPro [1, 0] badPts) hS (exRun [1, 0] badPts) hQ 1 0 (by decide) (fun q => ((exRun [1, 0] badPts).events 1 q).flatMap scatterMat)
    (fun q => ((exRun [1, 0] badPts).events 1 q).flatMap (scatterVec 1)) (fun q _ => ⟨List.Perm.refl _, List.Perm.refl _⟩)
    (fun r hr e he => by rw [hr1 r hr] at he ⊢; rw [hp e he]; exact bad_det) (fun _ => 0) (fun k => if k = (1, 0) then 1 else 0) ?_ ?_
  · have hm := this.2 (fun k => if k = (1, 1) then 1 else 0) ⟨fun k k' _ _ hs => by
      have h2 : k.1 = k'.1 := hs.2
      rw [Prod.ext h2 hs.1], fun k _ hd => hd.elim⟩
    rw [bad_J, bad_J] at hm
    norm_num at hm
  · intro g hg
    have hD : ¬ (exRun [1, 0] badPts).R.D (exPro [1, 0] badPts).prim g := by
      rintro ⟨_, _, hd, _⟩
      exact hd
    rw [if_neg hD]
    have h0 : (exRun [1, 0] badPts).rhs (fun q => ((exRun [1, 0] badPts).events 1 q).flatMap (scatterVec 1)) g 0 = 0 := by
      unfold CRun.rhs globalVec
      refine Finset.sum_eq_zero fun q hq => ?_
      rw [hr1 q (Finset.mem_range.1 hq)]
      refine List.sum_eq_zero fun y hy => ?_
      obtain ⟨a, _, rfl⟩ := List.mem_map.1 hy
      rw [rankSum_zero]
      · simp
      · intro u hu
        obtain ⟨e, he, hu⟩ := List.mem_flatMap.1 hu
        exact bad_event e he u hu
    beta_reduce
    rw [h0, Finset.sum_eq_zero fun h _ => mul_zero _, Finset.sum_eq_zero, sub_zero]
    intro h _
    refine if_neg ?_
    rintro ⟨_, _, hd, _⟩
    exact hd
  · constructor
    · rintro ⟨n, j⟩ hk
      have : n = 0 := by
        obtain ⟨v, hv, m, hm, _, hid⟩ := hk.2.2
        have hv : v = ⟨(exEle [1, 0] badPts).el.bndNodes, [0, 1]⟩ := List.mem_singleton.1 hv
        rw [hv, ex_bnd, List.mem_singleton] at hm
        exact (show m = n from hid).symm.trans hm
      rw [if_neg]
      rw [this]
      simp
    · intro r hr e he
      rw [hr1 r hr] at he ⊢
      rw [hp e he]
      intro a
      rw [bad_recover]
      have hn : (exRun [1, 0] badPts).nI 0 (exEle [1, 0] badPts) = 2 := by unfold CRun.nI; rw [bad_cond]; rfl
      have ha := lt_of_lt_of_eq a.2 hn
      have hg : (condDofs ((exRun [1, 0] badPts).info 0 (exEle [1, 0] badPts))).get a = (1, a.1) := by
        have h1 : (condDofs ((exRun [1, 0] badPts).info 0 (exEle [1, 0] badPts)))[a.1]? = some (1, a.1) := by
          rw [bad_cond]
          generalize a.1 = i at *
          interval_cases i <;> rfl
        rw [List.getElem?_eq_getElem a.2] at h1
        exact Option.some.inj h1
      rw [hg]
      change (if ((1 : Nat), a.1) = (1, 0) then (1 : ℝ) else 0) = _
      simp

end

end Verif.CondDistr
