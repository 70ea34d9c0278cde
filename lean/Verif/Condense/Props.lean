import Verif.Condense.Model
import Mathlib.Data.List.Induction
import Mathlib.Algebra.BigOperators.Ring.Finset
import Mathlib.Tactic.Abel

/-! # C52, C53: static condensation -/
namespace Verif.Condense

/-! ### C53 -/

/-- C53, as a user reads the interface: the kernel's unknown number `s` is put in the row of the dof it is associated with without
condensation, and every unknown is put somewhere exactly once. -/
def Honours (E : ElInfo) (fi : List Nat) : Prop :=
  (∀ q ∈ (computeInds E fi).prim, ∃ d, (unknowns E fi)[q.1]? = some d ∧ (primaryDofs E)[q.2]? = some d) ∧
  (∀ q ∈ (computeInds E fi).cond, ∃ d, (unknowns E fi)[q.1]? = some d ∧ (condDofs E)[q.2]? = some d) ∧
  (((computeInds E fi).prim ++ (computeInds E fi).cond).map (·.1)).Perm (List.range (unknowns E fi).length)

/-- The fields are fields of the problem defined at every node of the element, each given once. -/
structure FieldsOk (E : ElInfo) (fi : List Nat) : Prop where
  nodup : fi.Nodup
  lt : ∀ i ∈ fi, i < E.nd
  valid : ∀ i ∈ fi, ∀ v < E.n, E.bnd v = true → E.valid v i = true
  internal : ∀ i ∈ fi, E.internal i = true

def C53Statement : Prop := ∀ (E : ElInfo) (fi : List Nat), FieldsOk E fi → Honours E fi

/-- Invariant of the loop after the pairs `l`. -/
structure LInv (E : ElInfo) (active : Nat → Bool) (l : List (Nat × Nat)) (st : Loop) : Prop where
  ls : st.ls = (l.filter fun q => active q.2).length
  pi : st.pi = (l.filter fun q => E.bnd q.1 && E.valid q.1 q.2).length
  ci : st.ci = (l.filter fun q => !E.bnd q.1 && E.internal q.2).length
  prim : ∀ q ∈ st.prim, ∃ d, (l.filter fun q => active q.2)[q.1]? = some d ∧ (l.filter fun q => E.bnd q.1 && E.valid q.1 q.2)[q.2]? = some d
  cond : ∀ q ∈ st.cond, ∃ d, (l.filter fun q => active q.2)[q.1]? = some d ∧ (l.filter fun q => !E.bnd q.1 && E.internal q.2)[q.2]? = some d
  perm : ((st.prim ++ st.cond).map (·.1)).Perm (List.range st.ls)

theorem get_mono {A : Type} {l l' : List A} {i : Nat} {d : A} (h : l[i]? = some d) : (l ++ l')[i]? = some d := by
  have hi := (List.getElem?_eq_some_iff.1 h).1
  rw [List.getElem?_append_left hi, h]

theorem get_last {A : Type} (l : List A) (d : A) : (l ++ [d])[l.length]? = some d := by simp

theorem linv (E : ElInfo) (active : Nat → Bool) (l : List (Nat × Nat))
    (hv : ∀ q ∈ l, active q.2 = true → E.bnd q.1 = true → E.valid q.1 q.2 = true) (hi : ∀ q ∈ l, active q.2 = true → E.internal q.2 = true) :
    LInv E active l (l.foldl (loopStep E active) {}) := by
  induction l using List.reverseRecOn with
  | nil => constructor <;> simp
  | append_singleton l q ih =>
    have ih := ih (fun q' hq' => hv q' (by simp [hq'])) (fun q' hq' => hi q' (by simp [hq']))
    rw [List.foldl_append]
    simp only [List.foldl_cons, List.foldl_nil]
    generalize List.foldl (loopStep E active) {} l = st at ih
    have hvq := hv q (by simp)
    have hiq := hi q (by simp)
    obtain ⟨h1, h2, h3, h4, h5, h6⟩ := ih
    have hmono : ∀ (f : Nat × Nat → Bool) (i : Nat) (d : Nat × Nat), (l.filter f)[i]? = some d → ((l ++ [q]).filter f)[i]? = some d := by
      intro f i d h
      rw [List.filter_append]; exact get_mono h
    have hp : ∀ r ∈ st.prim, ∃ d, ((l ++ [q]).filter fun q => active q.2)[r.1]? = some d ∧ ((l ++ [q]).filter fun q => E.bnd q.1 && E.valid q.1 q.2)[r.2]? = some d := by
      intro r hr
      obtain ⟨d, ha, hb⟩ := h4 r hr
      exact ⟨d, hmono _ _ _ ha, hmono _ _ _ hb⟩
    have hc : ∀ r ∈ st.cond, ∃ d, ((l ++ [q]).filter fun q => active q.2)[r.1]? = some d ∧ ((l ++ [q]).filter fun q => !E.bnd q.1 && E.internal q.2)[r.2]? = some d := by
      intro r hr
      obtain ⟨d, ha, hb⟩ := h5 r hr
      exact ⟨d, hmono _ _ _ ha, hmono _ _ _ hb⟩
    have hfil : ∀ (f : Nat × Nat → Bool), (l ++ [q]).filter f = l.filter f ++ if f q then [q] else [] := by
      intro f
      rw [List.filter_append]
      congr 1
      by_cases h : f q = true <;> simp [h]
    unfold loopStep
    cases hb : E.bnd q.1 <;> cases ha : active q.2
    · by_cases hin : E.internal q.2 = true
      · simp only [hb, ha, hin, Bool.false_eq_true, if_false, if_true]
        refine ⟨?_, ?_, ?_, hp, hc, h6⟩ <;> simp [hfil, hb, ha, hin, h1, h2, h3]
      · simp only [hb, ha, hin, Bool.false_eq_true, if_false]
        refine ⟨?_, ?_, ?_, hp, hc, h6⟩ <;> simp [hfil, hb, ha, hin, h1, h2, h3]
    · have hin := hiq ha
      simp only [hb, ha, Bool.false_eq_true, if_false, if_true]
      refine ⟨?_, ?_, ?_, hp, ?_, ?_⟩
      · simp [hfil, ha, h1]
      · simp [hfil, hb, h2]
      · simp [hfil, hb, hin, h3]
      · intro r hr
        rcases List.mem_append.1 hr with hr | hr
        · exact hc r hr
        · rw [List.mem_singleton.1 hr]
          refine ⟨q, ?_, ?_⟩
          · rw [hfil, h1]; simp [ha]
          · rw [hfil, h3]; simp [hb, hin]
      · have : (st.prim ++ (st.cond ++ [(st.ls, st.ci)])).map (·.1) = (st.prim ++ st.cond).map (·.1) ++ [st.ls] := by simp
        rw [this, List.range_succ]
        exact h6.append_right _
    · by_cases hin : E.valid q.1 q.2 = true
      · simp only [hb, ha, hin, Bool.false_eq_true, if_false, if_true]
        refine ⟨?_, ?_, ?_, hp, hc, h6⟩ <;> simp [hfil, hb, ha, hin, h1, h2, h3]
      · simp only [hb, ha, hin, Bool.false_eq_true, if_false, if_true]
        refine ⟨?_, ?_, ?_, hp, hc, h6⟩ <;> simp [hfil, hb, ha, hin, h1, h2, h3]
    · have hin := hvq ha hb
      simp only [hb, ha, if_true]
      refine ⟨?_, ?_, ?_, ?_, hc, ?_⟩
      · simp [hfil, ha, h1]
      · simp [hfil, hb, hin, h2]
      · simp [hfil, hb, h3]
      · intro r hr
        rcases List.mem_append.1 hr with hr | hr
        · exact hp r hr
        · rw [List.mem_singleton.1 hr]
          refine ⟨q, ?_, ?_⟩
          · rw [hfil, h1]; simp [ha]
          · rw [hfil, h2]; simp [hb, hin]
      · have : ((st.prim ++ [(st.ls, st.pi)]) ++ st.cond).map (·.1) = st.prim.map (·.1) ++ st.ls :: st.cond.map (·.1) := by simp
        rw [this, List.range_succ]
        refine List.perm_middle.trans ?_
        refine List.Perm.trans ?_ (List.perm_append_singleton _ _).symm
        refine List.Perm.cons _ ?_
        rw [← List.map_append]; exact h6

/-- Increasing field lists list the fields in the order of the loop. -/
theorem filter_eq (nd : Nat) (fi : List Nat) (hs : fi.Pairwise (· < ·)) (hlt : ∀ i ∈ fi, i < nd) : (List.range nd).filter (fun i => fi.contains i) = fi := by
  refine List.Perm.eq_of_pairwise (le := (· < ·)) (fun a b _ _ h1 h2 => absurd h1 (by omega)) ?_ hs ?_
  · exact (List.pairwise_lt_range).filter _
  · refine (List.perm_ext_iff_of_nodup (List.nodup_range.filter _) (hs.imp fun h => by omega)).2 fun a => ?_
    rw [List.mem_filter, List.mem_range, List.contains_iff_mem]
    exact ⟨fun h => h.2, fun h => ⟨hlt a h, h⟩⟩

theorem unknowns_eq (E : ElInfo) (fi : List Nat) (hs : fi.Pairwise (· < ·)) (hlt : ∀ i ∈ fi, i < E.nd) :
    unknowns E fi = (pairs E).filter fun q => fi.contains q.2 := by
  unfold unknowns pairs
  rw [List.filter_flatMap]
  congr 1
  funext v
  rw [List.filter_map]
  congr 1
  exact (filter_eq E.nd fi hs hlt).symm

/-- C53 (partial): for increasing dof-index lists condensation associates every unknown of the kernel with the dof it is associated
with without condensation.  Missing: lists in another order, for which this is false. -/
theorem C53_partial (E : ElInfo) (fi : List Nat) (ok : FieldsOk E fi) (hs : fi.Pairwise (· < ·)) : Honours E fi := by
  have hl := linv E (fun i => fi.contains i) (pairs E) (by
    intro q hq ha hb
    obtain ⟨v, hv, hq⟩ := List.mem_flatMap.1 hq
    obtain ⟨i, hi, rfl⟩ := List.mem_map.1 hq
    exact ok.valid i (by simpa using ha) v (List.mem_range.1 hv) hb) (by
    intro q hq ha
    exact ok.internal q.2 (by simpa using ha))
  unfold Honours
  rw [unknowns_eq E fi hs ok.lt]
  refine ⟨hl.prim, hl.cond, ?_⟩
  rw [← hl.ls]
  exact hl.perm

/-- A quadrilateral of order 1 has no internal nodes; one boundary node with two dofs is enough to see the difference. -/
def exEl : ElInfo := ⟨2, fun v => v == 0, 2, fun _ _ => true, fun _ => true⟩

/-- C53 fails for a list that is not increasing: with `[1, 0]` the first unknown of the kernel (dof 1) is put in the row of dof 0. -/
theorem C53_violated : ¬ C53Statement := by
  intro h
  have := h exEl [1, 0] ⟨by decide, by decide, fun i _ v _ _ => rfl, fun i _ => rfl⟩
  obtain ⟨d, h1, h2⟩ := this.1 (0, 0) (by decide)
  have e1 : (unknowns exEl [1, 0])[0]? = some (0, 1) := by decide
  have e2 : (primaryDofs exEl)[0]? = some (0, 0) := by decide
  rw [e1] at h1; rw [e2] at h2
  exact absurd ((Option.some.inj h1).trans (Option.some.inj h2).symm) (by decide)

example : FieldsOk exEl [0, 1] ∧ computeInds exEl [0, 1] = ⟨4, 2, 2, [(0, 0), (1, 1)], [(2, 0), (3, 1)]⟩ :=
  ⟨⟨by decide, by decide, fun i _ v _ _ => rfl, fun i _ => rfl⟩, by decide⟩

/-! ### C52 -/

set_option linter.unusedSectionVars false

variable {R P E : Type} {B I : E → Type} [Field R] [Fintype P] [DecidableEq P] [Fintype E] [DecidableEq E]
  [∀ e, Fintype (B e)] [∀ e, DecidableEq (B e)] [∀ e, Fintype (I e)] [∀ e, DecidableEq (I e)]

namespace Sys

/-- Action of the local systems of element `e` on element values `h`, row `k`. -/
def act (S : Sys R P E B I) (e : E) (h : B e ⊕ I e → R) (k : B e ⊕ I e) : R :=
  ∑ c, ∑ i, if S.loc e c i = k then ∑ j, S.mat e c i j * h (S.loc e c j) else 0

theorem act_add (S : Sys R P E B I) (e : E) (h h' : B e ⊕ I e → R) (k : B e ⊕ I e) : S.act e (h + h') k = S.act e h k + S.act e h' k := by
  unfold act
  rw [← Finset.sum_add_distrib]
  refine Finset.sum_congr rfl fun c _ => ?_
  rw [← Finset.sum_add_distrib]
  refine Finset.sum_congr rfl fun i _ => ?_
  split
  · rw [← Finset.sum_add_distrib]
    refine Finset.sum_congr rfl fun j _ => ?_
    rw [Pi.add_apply, mul_add]
  · simp

theorem diag_mulVec (S : Sys R P E B I) (e : E) (x : I e → R) (a : I e) : (S.diag e).mulVec x a = S.act e (Sum.elim 0 x) (Sum.inr a) := by
  unfold diag act Matrix.mulVec dotProduct
  simp only [Finset.sum_mul]
  rw [Finset.sum_comm]
  refine Finset.sum_congr rfl fun c _ => ?_
  rw [Finset.sum_comm]
  refine Finset.sum_congr rfl fun i _ => ?_
  rw [Finset.sum_comm]
  by_cases hi : S.loc e c i = Sum.inr a
  · rw [if_pos hi]
    refine Finset.sum_congr rfl fun j _ => ?_
    cases hj : S.loc e c j with
    | inl b =>
      simp
    | inr b =>
      rw [Finset.sum_eq_single b]
      · rw [if_pos ⟨hi, rfl⟩]; rfl
      · intro b' _ hb; rw [if_neg (fun h => hb (Sum.inr.inj h.2).symm), zero_mul]
      · intro h; exact absurd (Finset.mem_univ b) h
  · rw [if_neg hi]
    refine Finset.sum_eq_zero fun j _ => Finset.sum_eq_zero fun b _ => ?_
    rw [if_neg (fun h => hi h.1), zero_mul]

theorem upper_mulVec (S : Sys R P E B I) (e : E) (x : I e → R) (a : B e) : (S.upper e).mulVec x a = S.act e (Sum.elim 0 x) (Sum.inl a) := by
  unfold upper act Matrix.mulVec dotProduct
  simp only [Finset.sum_mul]
  rw [Finset.sum_comm]
  refine Finset.sum_congr rfl fun c _ => ?_
  rw [Finset.sum_comm]
  refine Finset.sum_congr rfl fun i _ => ?_
  rw [Finset.sum_comm]
  by_cases hi : S.loc e c i = Sum.inl a
  · rw [if_pos hi]
    refine Finset.sum_congr rfl fun j _ => ?_
    cases hj : S.loc e c j with
    | inl b =>
      simp
    | inr b =>
      rw [Finset.sum_eq_single b]
      · rw [if_pos ⟨hi, rfl⟩]; rfl
      · intro b' _ hb; rw [if_neg (fun h => hb (Sum.inr.inj h.2).symm), zero_mul]
      · intro h; exact absurd (Finset.mem_univ b) h
  · rw [if_neg hi]
    refine Finset.sum_eq_zero fun j _ => Finset.sum_eq_zero fun b _ => ?_
    rw [if_neg (fun h => hi h.1), zero_mul]

/-- Here the symmetry of the local systems is used: only the upper block is assembled. -/
theorem upperT_mulVec (S : Sys R P E B I) (hsym : ∀ e c i j, S.mat e c i j = S.mat e c j i) (e : E) (y : B e → R) (a : I e) :
    (S.upper e).transpose.mulVec y a = S.act e (Sum.elim y 0) (Sum.inr a) := by
  unfold act Matrix.mulVec dotProduct
  simp only [Matrix.transpose_apply]
  unfold upper
  simp only [Finset.sum_mul]
  rw [Finset.sum_comm]
  refine Finset.sum_congr rfl fun c _ => ?_
  have h1 : ∀ b : B e, (∑ i, ∑ j, (if S.loc e c i = Sum.inl b ∧ S.loc e c j = Sum.inr a then S.mat e c i j else 0) * y b) =
      ∑ j, ∑ i, (if S.loc e c i = Sum.inl b ∧ S.loc e c j = Sum.inr a then S.mat e c i j else 0) * y b := fun b => Finset.sum_comm
  simp only [h1]
  rw [Finset.sum_comm]
  refine Finset.sum_congr rfl fun j _ => ?_
  rw [Finset.sum_comm]
  by_cases hj : S.loc e c j = Sum.inr a
  · rw [if_pos hj]
    refine Finset.sum_congr rfl fun i _ => ?_
    cases hi : S.loc e c i with
    | inr b =>
      simp
    | inl b =>
      rw [Finset.sum_eq_single b]
      · rw [if_pos ⟨rfl, hj⟩, hsym e c i j]; rfl
      · intro b' _ hb; rw [if_neg (fun h => hb (Sum.inl.inj h.1).symm), zero_mul]
      · intro h; exact absurd (Finset.mem_univ b) h
  · rw [if_neg hj]
    refine Finset.sum_eq_zero fun i _ => Finset.sum_eq_zero fun b _ => ?_
    rw [if_neg (fun h => hj h.2), zero_mul]

/-- Values of a vector of the full system at the unknowns of element `e`. -/
def elemVals (S : Sys R P E B I) (z : P ⊕ (Σ e, I e) → R) (e : E) : B e ⊕ I e → R := fun k => z (S.glob e k)

theorem full_mulVec (S : Sys R P E B I) (z : P ⊕ (Σ e, I e) → R) (k : P ⊕ (Σ e, I e)) :
    S.full.mulVec z k = ∑ e, ∑ m, if S.glob e m = k then S.act e (S.elemVals z e) m else 0 := by
  unfold full Matrix.mulVec dotProduct
  simp only [Finset.sum_mul]
  rw [Finset.sum_comm]
  refine Finset.sum_congr rfl fun e _ => ?_
  rw [Finset.sum_comm]
  have hact : (∑ m, if S.glob e m = k then S.act e (S.elemVals z e) m else 0) =
      ∑ c, ∑ i, if S.glob e (S.loc e c i) = k then ∑ j, S.mat e c i j * z (S.glob e (S.loc e c j)) else 0 := by
    unfold act
    have h1 : ∀ m : B e ⊕ I e, (if S.glob e m = k then ∑ c, ∑ i, (if S.loc e c i = m then ∑ j, S.mat e c i j * S.elemVals z e (S.loc e c j) else 0) else 0) =
        ∑ c, ∑ i, if S.loc e c i = m then (if S.glob e m = k then ∑ j, S.mat e c i j * S.elemVals z e (S.loc e c j) else 0) else 0 := by
      intro m
      split
      · rfl
      · symm
        refine Finset.sum_eq_zero fun c _ => Finset.sum_eq_zero fun i _ => ?_
        simp
    rw [Finset.sum_congr rfl fun m _ => h1 m, Finset.sum_comm]
    refine Finset.sum_congr rfl fun c _ => ?_
    rw [Finset.sum_comm]
    refine Finset.sum_congr rfl fun i _ => ?_
    rw [Finset.sum_eq_single (S.loc e c i)]
    · rw [if_pos rfl]; rfl
    · intro m _ hm; rw [if_neg (Ne.symm hm)]
    · intro h; exact absurd (Finset.mem_univ _) h
  rw [hact]
  refine Finset.sum_congr rfl fun c _ => ?_
  rw [Finset.sum_comm]
  refine Finset.sum_congr rfl fun i _ => ?_
  rw [Finset.sum_comm]
  by_cases hi : S.glob e (S.loc e c i) = k
  · rw [if_pos hi]
    refine Finset.sum_congr rfl fun j _ => ?_
    rw [Finset.sum_eq_single (S.glob e (S.loc e c j))]
    · rw [if_pos ⟨hi, rfl⟩]
    · intro l _ hl; rw [if_neg (fun h => hl h.2.symm), zero_mul]
    · intro h; exact absurd (Finset.mem_univ _) h
  · rw [if_neg hi]
    refine Finset.sum_eq_zero fun j _ => Finset.sum_eq_zero fun l _ => ?_
    rw [if_neg (fun h => hi h.1), zero_mul]

theorem full_internal (S : Sys R P E B I) (z : P ⊕ (Σ e, I e) → R) (e : E) (a : I e) :
    S.full.mulVec z (Sum.inr ⟨e, a⟩) = S.act e (S.elemVals z e) (Sum.inr a) := by
  rw [full_mulVec, Finset.sum_eq_single e]
  · rw [Finset.sum_eq_single (Sum.inr a)]
    · exact if_pos rfl
    · intro m _ hm
      rw [if_neg]
      cases m with
      | inl b => simp [glob]
      | inr b => simp only [glob, Sum.map_inr, Sum.inr.injEq, Sigma.mk.injEq, heq_eq_eq, true_and]; rintro rfl; exact hm rfl
    · intro h; exact absurd (Finset.mem_univ _) h
  · intro e' _ he
    refine Finset.sum_eq_zero fun m _ => ?_
    rw [if_neg]
    cases m with
    | inl b => simp [glob]
    | inr b => simp only [glob, Sum.map_inr, Sum.inr.injEq, Sigma.mk.injEq, not_and]; intro h; exact absurd h he
  · intro h; exact absurd (Finset.mem_univ _) h

theorem full_primary (S : Sys R P E B I) (z : P ⊕ (Σ e, I e) → R) (p : P) :
    S.full.mulVec z (Sum.inl p) = ∑ e, ∑ b, if S.dof e b = p then S.act e (S.elemVals z e) (Sum.inl b) else 0 := by
  rw [full_mulVec]
  refine Finset.sum_congr rfl fun e _ => ?_
  rw [Fintype.sum_sum_type]
  have : ∑ a : I e, (if S.glob e (Sum.inr a) = Sum.inl p then S.act e (S.elemVals z e) (Sum.inr a) else 0) = 0 :=
    Finset.sum_eq_zero fun a _ => by rw [if_neg]; simp [glob]
  rw [this, add_zero]
  refine Finset.sum_congr rfl fun b _ => ?_
  simp [glob]

theorem elemVals_split (S : Sys R P E B I) (z : P ⊕ (Σ e, I e) → R) (e : E) :
    S.elemVals z e = Sum.elim (fun b => z (Sum.inl (S.dof e b))) (0 : I e → R) + Sum.elim (0 : B e → R) (fun a => z (Sum.inr ⟨e, a⟩)) := by
  funext k
  cases k <;> simp [elemVals, glob]

/-- The primary block is the full matrix restricted to primary dofs. -/
theorem prim_mulVec (S : Sys R P E B I) (x : P → R) (p : P) :
    S.prim.mulVec x p = ∑ e, ∑ b, if S.dof e b = p then S.act e (Sum.elim (fun b => x (S.dof e b)) 0) (Sum.inl b) else 0 := by
  have h1 : S.prim.mulVec x p = S.full.mulVec (Sum.elim x 0) (Sum.inl p) := by
    unfold Matrix.mulVec dotProduct
    rw [Fintype.sum_sum_type]
    have : ∑ a : (Σ e, I e), S.full (Sum.inl p) (Sum.inr a) * (Sum.elim x 0 : P ⊕ (Σ e, I e) → R) (Sum.inr a) = 0 :=
      Finset.sum_eq_zero fun a _ => by simp
    rw [this, add_zero]
    rfl
  rw [h1, full_primary]
  refine Finset.sum_congr rfl fun e _ => Finset.sum_congr rfl fun b _ => ?_
  have : S.elemVals (Sum.elim x 0) e = Sum.elim (fun b => x (S.dof e b)) 0 := by
    funext k; cases k <;> simp [elemVals, glob]
  rw [this]

theorem fullRhs_internal (S : Sys R P E B I) (e : E) (a : I e) : S.fullRhs (Sum.inr ⟨e, a⟩) = S.rhsI e a := by
  unfold fullRhs rhsI
  rw [Finset.sum_eq_single e]
  · refine Finset.sum_congr rfl fun c _ => Finset.sum_congr rfl fun i _ => ?_
    refine if_congr ?_ rfl rfl
    cases S.loc e c i <;> simp [glob]
  · intro e' _ he
    refine Finset.sum_eq_zero fun c _ => Finset.sum_eq_zero fun i _ => ?_
    rw [if_neg]
    cases S.loc e' c i with
    | inl b => simp [glob]
    | inr b => simp only [glob, Sum.map_inr, Sum.inr.injEq, Sigma.mk.injEq, not_and]; intro h; exact absurd h he
  · intro h; exact absurd (Finset.mem_univ _) h

/-- Condensed matrix times `x`: primary block minus the contribution of the internal blocks. -/
theorem condMat_mulVec (S : Sys R P E B I) (x : P → R) (p : P) : S.condMat.mulVec x p = S.prim.mulVec x p -
    ∑ e, ∑ b, if S.dof e b = p then (S.upper e).mulVec ((S.diag e)⁻¹.mulVec ((S.upper e).transpose.mulVec fun b => x (S.dof e b))) b else 0 := by
  unfold condMat
  simp only [Matrix.mulVec, dotProduct, add_mul, Finset.sum_add_distrib, sub_eq_add_neg]
  congr 1
  simp only [Finset.sum_mul]
  rw [Finset.sum_comm, ← Finset.sum_neg_distrib]
  refine Finset.sum_congr rfl fun e _ => ?_
  rw [Finset.sum_comm, ← Finset.sum_neg_distrib]
  refine Finset.sum_congr rfl fun a _ => ?_
  rw [Finset.sum_comm]
  by_cases ha : S.dof e a = p
  · rw [if_pos ha]
    have h1 : ∀ b : B e, ∑ q, (if S.dof e a = p ∧ S.dof e b = q then (-(S.upper e * (S.diag e)⁻¹ * (S.upper e).transpose)) a b else 0) * x q =
        (-(S.upper e * (S.diag e)⁻¹ * (S.upper e).transpose)) a b * x (S.dof e b) := by
      intro b
      rw [Finset.sum_eq_single (S.dof e b)]
      · rw [if_pos ⟨ha, rfl⟩]
      · intro q _ hq; rw [if_neg (fun h => hq h.2.symm), zero_mul]
      · intro h; exact absurd (Finset.mem_univ _) h
    rw [Finset.sum_congr rfl fun b _ => h1 b]
    have h2 : ((S.upper e * (S.diag e)⁻¹ * (S.upper e).transpose).mulVec fun b => x (S.dof e b)) a =
        (S.upper e).mulVec ((S.diag e)⁻¹.mulVec ((S.upper e).transpose.mulVec fun b => x (S.dof e b))) a := by
      rw [Matrix.mulVec_mulVec, Matrix.mulVec_mulVec, Matrix.mul_assoc]
    simp only [Matrix.neg_apply, neg_mul, Finset.sum_neg_distrib]
    rw [neg_inj]
    exact h2
  · rw [if_neg ha, neg_zero]
    refine Finset.sum_eq_zero fun b _ => Finset.sum_eq_zero fun q _ => ?_
    rw [if_neg (fun h => ha h.1), zero_mul]

end Sys

/-- C52: if the local systems are symmetric and every internal block is invertible, the solutions of the full system are exactly the
solutions of the condensed system together with the recovered internal values. -/
theorem C52_condensation (S : Sys R P E B I) (hsym : ∀ e c i j, S.mat e c i j = S.mat e c j i) (hinv : ∀ e, IsUnit (S.diag e).det)
    (x : P → R) (y : (e : E) → I e → R) :
    S.full.mulVec (Sum.elim x fun a => y a.1 a.2) = S.fullRhs ↔ S.condMat.mulVec x = S.condRhs ∧ ∀ e, y e = S.recover x e := by
  set z : P ⊕ (Σ e, I e) → R := Sum.elim x fun a => y a.1 a.2 with hz
  -- internal rows
  have hint : (∀ e a, S.full.mulVec z (Sum.inr ⟨e, a⟩) = S.fullRhs (Sum.inr ⟨e, a⟩)) ↔ ∀ e, y e = S.recover x e := by
    refine forall_congr' fun e => ?_
    have hrow : ∀ a, S.full.mulVec z (Sum.inr ⟨e, a⟩) = ((S.upper e).transpose.mulVec fun b => x (S.dof e b)) a + (S.diag e).mulVec (y e) a := by
      intro a
      rw [S.full_internal, S.elemVals_split, S.act_add, S.upperT_mulVec hsym, S.diag_mulVec]
      rfl
    constructor
    · intro h
      have h1 : (S.diag e).mulVec (y e) = S.rhsI e - (S.upper e).transpose.mulVec fun b => x (S.dof e b) := by
        funext a
        have := h a
        rw [hrow, S.fullRhs_internal] at this
        rw [Pi.sub_apply, ← this]
        exact (add_sub_cancel_left _ _).symm
      unfold Sys.recover
      rw [← h1, Matrix.mulVec_mulVec, Matrix.nonsing_inv_mul _ (hinv e), Matrix.one_mulVec]
    · intro h a
      have h1 : (S.diag e).mulVec (y e) = S.rhsI e - (S.upper e).transpose.mulVec fun b => x (S.dof e b) := by
        rw [h]
        unfold Sys.recover
        rw [Matrix.mulVec_mulVec, Matrix.mul_nonsing_inv _ (hinv e), Matrix.one_mulVec]
      rw [hrow, S.fullRhs_internal, h1, Pi.sub_apply]
      abel
  -- primary rows, given the recovered values
  have hprim : (∀ e, y e = S.recover x e) → ∀ p, (S.full.mulVec z (Sum.inl p) = S.fullRhs (Sum.inl p) ↔ S.condMat.mulVec x p = S.condRhs p) := by
    intro hy p
    have hrow : S.full.mulVec z (Sum.inl p) = S.prim.mulVec x p + ∑ e, ∑ b, if S.dof e b = p then (S.upper e).mulVec (y e) b else 0 := by
      rw [S.full_primary, S.prim_mulVec, ← Finset.sum_add_distrib]
      refine Finset.sum_congr rfl fun e _ => ?_
      rw [← Finset.sum_add_distrib]
      refine Finset.sum_congr rfl fun b _ => ?_
      split
      · rw [S.elemVals_split, S.act_add, S.upper_mulVec]
        rfl
      · simp
    have hy2 : ∑ e, ∑ b, (if S.dof e b = p then (S.upper e).mulVec (y e) b else 0) =
        ∑ e, ∑ b, (if S.dof e b = p then ((S.upper e * (S.diag e)⁻¹).mulVec (S.rhsI e)) b else 0) -
        ∑ e, ∑ b, if S.dof e b = p then (S.upper e).mulVec ((S.diag e)⁻¹.mulVec ((S.upper e).transpose.mulVec fun b => x (S.dof e b))) b else 0 := by
      rw [← Finset.sum_sub_distrib]
      refine Finset.sum_congr rfl fun e _ => ?_
      rw [← Finset.sum_sub_distrib]
      refine Finset.sum_congr rfl fun b _ => ?_
      split
      · rw [hy e]
        unfold Sys.recover
        rw [Matrix.mulVec_sub, Matrix.mulVec_sub, Pi.sub_apply, Matrix.mulVec_mulVec]
      · simp
    have hr : S.condRhs p = S.fullRhs (Sum.inl p) - ∑ e, ∑ b, if S.dof e b = p then ((S.upper e * (S.diag e)⁻¹).mulVec (S.rhsI e)) b else 0 := by
      unfold Sys.condRhs
      rw [sub_eq_add_neg]
      congr 1
      rw [← Finset.sum_neg_distrib]
      refine Finset.sum_congr rfl fun e _ => ?_
      rw [← Finset.sum_neg_distrib]
      refine Finset.sum_congr rfl fun b _ => ?_
      split <;> simp
    rw [hrow, hy2, S.condMat_mulVec, hr, eq_sub_iff_add_eq]
    constructor
    · intro h; rw [← h]; abel
    · intro h; rw [← h]; abel
  constructor
  · intro h
    have hy := hint.1 fun e a => congrFun h _
    exact ⟨funext fun p => (hprim hy p).1 (congrFun h _), hy⟩
  · rintro ⟨h1, hy⟩
    funext k
    cases k with
    | inl p => exact (hprim hy p).2 (congrFun h1 p)
    | inr a => exact (hint.2 hy) a.1 a.2

/-- One element with two primary and one internal unknown over the rationals: `4 x_c + x_0 + x_1 = 6`. -/
def exSys : Sys ℚ (Fin 2) (Fin 1) (fun _ => Fin 2) (fun _ => Fin 1) where
  cnt _ := 1
  size _ _ := 3
  loc _ _ i := if h : i.val < 2 then Sum.inl ⟨i.val, h⟩ else Sum.inr 0
  mat _ _ i j := if i.val = j.val then 4 else 1
  rhs _ _ _ := 6
  dof _ b := b

example : (∀ e c i j, exSys.mat e c i j = exSys.mat e c j i) ∧ ∀ e, IsUnit (exSys.diag e).det := by
  refine ⟨fun e c i j => ?_, fun e => ?_⟩
  · simp only [exSys]; exact if_congr eq_comm rfl rfl
  · have : exSys.diag e = !![4] := by
      ext a b
      fin_cases a; fin_cases b
      simp only [Sys.diag, exSys]
      change (∑ c : Fin 1, ∑ i : Fin 3, ∑ j : Fin 3, _) = (4 : ℚ)
      simp [Fin.sum_univ_succ]
    rw [this]
    simp

end Verif.Condense
