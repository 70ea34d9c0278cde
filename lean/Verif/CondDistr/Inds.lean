import Verif.CondDistr.Assemble

/-! # The unknowns of a kernel, split into primary and condensed ones -/
namespace Verif.CondDistr
open Verif Verif.Lsq Verif.Distr Verif.Condense Finset

noncomputable section

theorem prim_order (E : ElInfo) (active : Nat → Bool) (l : List (Nat × Nat)) :
    (l.foldl (loopStep E active) {}).ls = (l.filter fun q => active q.2).length ∧
    (l.foldl (loopStep E active) {}).prim.map (fun p => (l.filter fun q => active q.2)[p.1]?) = (l.filter fun q => E.bnd q.1 && active q.2).map some := by
  induction l using List.reverseRecOn with
  | nil => simp
  | append_singleton l q ih =>
    rw [List.foldl_append]
    simp only [List.foldl_cons, List.foldl_nil]
    generalize List.foldl (loopStep E active) {} l = st at ih
    obtain ⟨h1, h2⟩ := ih
    have hfil : ∀ (f : Nat × Nat → Bool), (l ++ [q]).filter f = l.filter f ++ if f q then [q] else [] := by
      intro f
      rw [List.filter_append]
      congr 1
      by_cases h : f q = true <;> simp [h]
    have hmono : st.prim.map (fun p => ((l ++ [q]).filter fun q => active q.2)[p.1]?) = st.prim.map (fun p => (l.filter fun q => active q.2)[p.1]?) := by
      refine List.map_congr_left fun p hp => ?_
      have hm : (l.filter fun q => active q.2)[p.1]? ∈ (l.filter fun q => E.bnd q.1 && active q.2).map some := by
        rw [← h2]; exact List.mem_map.2 ⟨p, hp, rfl⟩
      obtain ⟨d, _, hd⟩ := List.mem_map.1 hm
      rw [List.filter_append, get_mono hd.symm, hd]
    unfold loopStep
    cases hb : E.bnd q.1 <;> cases ha : active q.2
    · by_cases hin : E.internal q.2 = true
      · simp only [hb, ha, hin, Bool.false_eq_true, if_false, if_true]
        refine ⟨by simp [hfil, ha, h1], ?_⟩
        rw [hmono, h2]; simp [hfil, hb, ha]
      · simp only [hb, ha, hin, Bool.false_eq_true, if_false]
        refine ⟨by simp [hfil, ha, h1], ?_⟩
        rw [hmono, h2]; simp [hfil, hb, ha]
    · simp only [hb, ha, Bool.false_eq_true, if_false, if_true]
      refine ⟨by simp [hfil, ha, h1], ?_⟩
      rw [hmono, h2]; simp [hfil, hb, ha]
    · by_cases hin : E.valid q.1 q.2 = true
      · simp only [hb, ha, hin, Bool.false_eq_true, if_false, if_true]
        refine ⟨by simp [hfil, ha, h1], ?_⟩
        rw [hmono, h2]; simp [hfil, hb, ha]
      · simp only [hb, ha, hin, Bool.false_eq_true, if_false, if_true]
        refine ⟨by simp [hfil, ha, h1], ?_⟩
        rw [hmono, h2]; simp [hfil, hb, ha]
    · simp only [hb, ha, if_true]
      refine ⟨by simp [hfil, ha, h1], ?_⟩
      rw [List.map_append, hmono, h2]
      simp [hfil, hb, ha, h1]

/-- The primary unknowns of a kernel, in the order of the index list. -/
theorem prim_unknowns (E : ElInfo) (fi : List Nat) (hs : fi.Pairwise (· < ·)) (hlt : ∀ i ∈ fi, i < E.nd) :
    (computeInds E fi).prim.map (fun p => (unknowns E fi)[p.1]?) = ((pairs E).filter fun q => E.bnd q.1 && fi.contains q.2).map some := by
  rw [unknowns_eq E fi hs hlt]
  exact (prim_order E (fun i => fi.contains i) (pairs E)).2

/-- Sums over the unknowns of a kernel. -/
theorem sum_split (E : ElInfo) (fi : List Nat) (h : Honours E fi) (F : Nat → ℝ) :
    ∑ i ∈ range (unknowns E fi).length, F i = ((computeInds E fi).prim.map fun p => F p.1).sum + ((computeInds E fi).cond.map fun p => F p.1).sum := by
  rw [← sum_range_list, ← (h.2.2.map F).sum_eq, List.map_map, List.map_append, List.sum_append]
  rfl

theorem lt_prim {E : ElInfo} {fi : List Nat} (h : Honours E fi) {p : Nat × Nat} (hp : p ∈ (computeInds E fi).prim) : p.2 < (primaryDofs E).length := by
  obtain ⟨d, _, h2⟩ := h.1 p hp
  exact (List.getElem?_eq_some_iff.1 h2).1

theorem lt_cond {E : ElInfo} {fi : List Nat} (h : Honours E fi) {p : Nat × Nat} (hp : p ∈ (computeInds E fi).cond) : p.2 < (condDofs E).length := by
  obtain ⟨d, _, h2⟩ := h.2.1 p hp
  exact (List.getElem?_eq_some_iff.1 h2).1

/-! ### Blocks times vectors -/

/-- Index lists and local system of a kernel. -/
structure Blk where
  prim : List (Nat × Nat)
  cond : List (Nat × Nat)
  mat : Nat → Nat → ℝ
  rhs : Nat → ℝ

theorem sum_single_list {α : Type} (N : Nat) (l : List α) (t : α → Nat) (T : α → ℝ) (z : Nat → ℝ) (ht : ∀ a ∈ l, t a < N) :
    ∑ h ∈ range N, (l.map fun a => if t a = h then T a else 0).sum * z h = (l.map fun a => T a * z (t a)).sum := by
  induction l with
  | nil => simp
  | cons a l ih =>
    simp only [List.map_cons, List.sum_cons, add_mul, sum_add_distrib]
    rw [ih fun b hb => ht b (by simp [hb])]
    congr 1
    rw [sum_eq_single (t a)]
    · rw [if_pos rfl]
    · intro h _ hh; rw [if_neg (Ne.symm hh), zero_mul]
    · intro h; exact absurd (mem_range.2 (ht a (by simp))) h

theorem lists_row (N a : Nat) (P Q : List (Nat × Nat)) (m : Nat → Nat → ℝ) (z : Nat → ℝ) (hQ : ∀ q ∈ Q, q.2 < N) :
    ∑ h ∈ range N, (P.map fun p => (Q.map fun q => if p.2 = a ∧ q.2 = h then m p.1 q.1 else 0).sum).sum * z h =
      (P.map fun p => if p.2 = a then (Q.map fun q => m p.1 q.1 * z q.2).sum else 0).sum := by
  induction P with
  | nil => simp
  | cons p P ih =>
    simp only [List.map_cons, List.sum_cons, add_mul, sum_add_distrib]
    rw [ih]
    congr 1
    by_cases hp : p.2 = a
    · simp only [hp, true_and, if_true]
      exact sum_single_list N Q (·.2) (fun q => m p.1 q.1) z hQ
    · simp [hp]

theorem lists_col (N a : Nat) (P Q : List (Nat × Nat)) (m : Nat → Nat → ℝ) (z : Nat → ℝ) (hP : ∀ p ∈ P, p.2 < N) :
    ∑ h ∈ range N, (P.map fun p => (Q.map fun q => if p.2 = h ∧ q.2 = a then m p.1 q.1 else 0).sum).sum * z h =
      (Q.map fun q => if q.2 = a then (P.map fun p => m p.1 q.1 * z p.2).sum else 0).sum := by
  have hsw : ∀ h, (P.map fun p => (Q.map fun q => if p.2 = h ∧ q.2 = a then m p.1 q.1 else 0).sum).sum =
      (Q.map fun q => (P.map fun p => if q.2 = a ∧ p.2 = h then m p.1 q.1 else 0).sum).sum := by
    intro h
    rw [Lsq.list_sum_comm]
    simp only [and_comm]
  simp only [hsw]
  exact lists_row N a Q P (fun i j => m j i) z hP

/-- The block of condensed unknowns. -/
def Dm (K : List Blk) (nI : Nat) : Matrix (Fin nI) (Fin nI) ℝ := fun a b => (K.map fun k => (k.cond.map fun p => (k.cond.map fun q =>
  if p.2 = a.1 ∧ q.2 = b.1 then k.mat p.1 q.1 else 0).sum).sum).sum
/-- The block coupling primary and condensed unknowns. -/
def Um (K : List Blk) (nB nI : Nat) : Matrix (Fin nB) (Fin nI) ℝ := fun a b => (K.map fun k => (k.prim.map fun p => (k.cond.map fun q =>
  if p.2 = a.1 ∧ q.2 = b.1 then k.mat p.1 q.1 else 0).sum).sum).sum
/-- The right-hand side of the condensed unknowns. -/
def Hv (K : List Blk) (nI : Nat) : Fin nI → ℝ := fun a => (K.map fun k => (k.cond.map fun p => if p.2 = a.1 then k.rhs p.1 else 0).sum).sum

/-- Rows and columns of the blocks exist; the matrices are symmetric. -/
structure BlkOk (nB nI : Nat) (k : Blk) : Prop where
  prim : ∀ p ∈ k.prim, p.2 < nB
  cond : ∀ p ∈ k.cond, p.2 < nI
  symm : ∀ i j, k.mat i j = k.mat j i

variable {K : List Blk} {nB nI : Nat}

theorem sum_list_sum (l : List Blk) (N : Nat) (F : Blk → Nat → ℝ) (z : Nat → ℝ) :
    ∑ h ∈ range N, (l.map fun k => F k h).sum * z h = (l.map fun k => ∑ h ∈ range N, F k h * z h).sum := by
  induction l with
  | nil => simp
  | cons k l ih => simp only [List.map_cons, List.sum_cons, add_mul, sum_add_distrib, ih]

theorem Dm_mulVec (hK : ∀ k ∈ K, BlkOk nB nI k) (Y : Nat → ℝ) (a : Fin nI) :
    (Dm K nI).mulVec (fun b => Y b) a = (K.map fun k => (k.cond.map fun p => if p.2 = a.1 then (k.cond.map fun q => k.mat p.1 q.1 * Y q.2).sum else 0).sum).sum := by
  unfold Matrix.mulVec dotProduct Dm
  rw [Fin.sum_univ_eq_sum_range (fun h => (K.map fun k => (k.cond.map fun p => (k.cond.map fun q => if p.2 = a.1 ∧ q.2 = h then k.mat p.1 q.1 else 0).sum).sum).sum * Y h) nI]
  rw [sum_list_sum]
  congr 1
  exact List.map_congr_left fun k hk => lists_row nI a.1 k.cond k.cond k.mat Y (hK k hk).cond

theorem Um_mulVec (hK : ∀ k ∈ K, BlkOk nB nI k) (Y : Nat → ℝ) (b : Fin nB) :
    (Um K nB nI).mulVec (fun a => Y a) b = (K.map fun k => (k.prim.map fun p => if p.2 = b.1 then (k.cond.map fun q => k.mat p.1 q.1 * Y q.2).sum else 0).sum).sum := by
  unfold Matrix.mulVec dotProduct Um
  rw [Fin.sum_univ_eq_sum_range (fun h => (K.map fun k => (k.prim.map fun p => (k.cond.map fun q => if p.2 = b.1 ∧ q.2 = h then k.mat p.1 q.1 else 0).sum).sum).sum * Y h) nI]
  rw [sum_list_sum]
  congr 1
  exact List.map_congr_left fun k hk => lists_row nI b.1 k.prim k.cond k.mat Y (hK k hk).cond

theorem UmT_mulVec (hK : ∀ k ∈ K, BlkOk nB nI k) (X : Nat → ℝ) (a : Fin nI) :
    (Um K nB nI).transpose.mulVec (fun b => X b) a = (K.map fun k => (k.cond.map fun q => if q.2 = a.1 then (k.prim.map fun p => k.mat q.1 p.1 * X p.2).sum else 0).sum).sum := by
  unfold Matrix.mulVec dotProduct Um Matrix.transpose
  simp only [Matrix.of_apply]
  rw [Fin.sum_univ_eq_sum_range (fun h => (K.map fun k => (k.prim.map fun p => (k.cond.map fun q => if p.2 = h ∧ q.2 = a.1 then k.mat p.1 q.1 else 0).sum).sum).sum * X h) nB]
  rw [sum_list_sum]
  congr 1
  refine List.map_congr_left fun k hk => ?_
  rw [lists_col nB a.1 k.prim k.cond k.mat X (hK k hk).prim]
  simp only [(hK k hk).symm]

/-- What an element adds to the residual of primary row `g` without condensation. -/
def fullPrim (K : List Blk) (gd : Nat → Nat) (X Y : Nat → ℝ) (g : Nat) : ℝ :=
  (K.map fun k => (k.prim.map fun p => if gd p.2 = g then
    (k.prim.map fun q => k.mat p.1 q.1 * X q.2).sum + (k.cond.map fun q => k.mat p.1 q.1 * Y q.2).sum - k.rhs p.1 else 0).sum).sum

/-- What the kernels add to the residual of primary row `g` with condensation. -/
def condPrim (K : List Blk) (gd : Nat → Nat) (X : Nat → ℝ) (g : Nat) : ℝ :=
  (K.map fun k => (k.prim.map fun p => if gd p.2 = g then (k.prim.map fun q => k.mat p.1 q.1 * X q.2).sum - k.rhs p.1 else 0).sum).sum

/-- The residual of internal row `a`. -/
def fullInt (K : List Blk) (X Y : Nat → ℝ) (a : Nat) : ℝ :=
  (K.map fun k => (k.cond.map fun p => if p.2 = a then
    (k.prim.map fun q => k.mat p.1 q.1 * X q.2).sum + (k.cond.map fun q => k.mat p.1 q.1 * Y q.2).sum - k.rhs p.1 else 0).sum).sum

theorem map_add3 {α : Type} (l : List α) (t : α → Prop) [DecidablePred t] (A B C : α → ℝ) :
    (l.map fun a => if t a then A a + B a - C a else 0).sum =
      (l.map fun a => if t a then A a else 0).sum + (l.map fun a => if t a then B a else 0).sum - (l.map fun a => if t a then C a else 0).sum := by
  induction l with
  | nil => simp
  | cons a l ih =>
    simp only [List.map_cons, List.sum_cons, ih]
    split_ifs <;> ring

theorem map_add3' {α : Type} (l : List α) (A B C : α → ℝ) :
    (l.map fun a => A a + B a - C a).sum = (l.map A).sum + (l.map B).sum - (l.map C).sum := by
  induction l with
  | nil => simp
  | cons a l ih => simp only [List.map_cons, List.sum_cons, ih]; ring

theorem fullInt_eq (hK : ∀ k ∈ K, BlkOk nB nI k) (X Y : Nat → ℝ) (a : Fin nI) :
    fullInt K X Y a = (Um K nB nI).transpose.mulVec (fun b => X b) a + (Dm K nI).mulVec (fun b => Y b) a - Hv K nI a := by
  rw [UmT_mulVec hK, Dm_mulVec hK]
  unfold fullInt Hv
  simp only [map_add3, map_add3']

theorem sum_gd (l : List (Nat × Nat)) (N : Nat) (gd : Nat → Nat) (g : Nat) (T : Nat × Nat → ℝ) (hl : ∀ p ∈ l, p.2 < N) :
    ∑ b ∈ range N, (if gd b = g then (l.map fun p => if p.2 = b then T p else 0).sum else 0) = (l.map fun p => if gd p.2 = g then T p else 0).sum := by
  have h := sum_single_list N l (·.2) T (fun b => if gd b = g then 1 else 0) hl
  calc _ = _ := sum_congr rfl fun b _ => by split_ifs <;> simp
    _ = _ := h
    _ = _ := by
        congr 1
        refine List.map_congr_left fun p _ => ?_
        beta_reduce
        split_ifs <;> simp

theorem fullPrim_eq (hK : ∀ k ∈ K, BlkOk nB nI k) (gd : Nat → Nat) (X Y : Nat → ℝ) (g : Nat) :
    fullPrim K gd X Y g = condPrim K gd X g + ∑ b : Fin nB, if gd b = g then (Um K nB nI).mulVec (fun a => Y a) b else 0 := by
  simp only [Um_mulVec hK]
  rw [Fin.sum_univ_eq_sum_range (fun b => if gd b = g then (K.map fun k => (k.prim.map fun p => if p.2 = b then (k.cond.map fun q => k.mat p.1 q.1 * Y q.2).sum else 0).sum).sum else 0) nB]
  unfold fullPrim condPrim
  induction K with
  | nil => simp
  | cons k K ih =>
    simp only [List.map_cons, List.sum_cons]
    rw [ih fun k' hk' => hK k' (by simp [hk'])]
    have h1 := sum_gd k.prim nB gd g (fun p => (k.cond.map fun q => k.mat p.1 q.1 * Y q.2).sum) (hK k (by simp)).prim
    have h2 : (k.prim.map fun p => if gd p.2 = g then (k.prim.map fun q => k.mat p.1 q.1 * X q.2).sum + (k.cond.map fun q => k.mat p.1 q.1 * Y q.2).sum - k.rhs p.1 else 0).sum =
        (k.prim.map fun p => if gd p.2 = g then (k.prim.map fun q => k.mat p.1 q.1 * X q.2).sum - k.rhs p.1 else 0).sum +
          (k.prim.map fun p => if gd p.2 = g then (k.cond.map fun q => k.mat p.1 q.1 * Y q.2).sum else 0).sum := by
      rw [← List.sum_map_add]
      congr 1
      refine List.map_congr_left fun p _ => ?_
      split_ifs <;> ring
    rw [h2, ← h1]
    have h3 : ∀ (P : Prop) [Decidable P] (a b : ℝ), (if P then a + b else 0) = (if P then a else 0) + if P then b else 0 := by
      intro P _ a b; split_ifs <;> simp
    simp only [h3, sum_add_distrib]
    ring

end

end Verif.CondDistr
