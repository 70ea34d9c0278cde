import Verif.MatFree.Model
import Mathlib.Data.List.Perm.Basic
import Mathlib.Algebra.BigOperators.Group.List.Basic
import Mathlib.Tactic.Ring
import Mathlib.Tactic.IntervalCases
import Mathlib.Data.List.Induction

/-! # C45: the matrix-free operator equals the assembled one -/
namespace Verif.MatFree

variable {K : Type} [CommRing K]

/-- Sum of the additions made to one entry. -/
def total (k : Nat × Nat) (l : List ((Nat × Nat) × K)) : K := (l.map fun u => if u.1 = k then u.2 else 0).sum

theorem fold_addAt (k : Nat × Nat) : ∀ (l : List ((Nat × Nat) × K)) (m : Nat × Nat → K), l.foldl addAt m k = m k + total k l := by
  intro l
  induction l with
  | nil => intro m; simp [total]
  | cons u l ih =>
    intro m
    rw [List.foldl_cons, ih]
    simp only [total, List.map_cons, List.sum_cons, addAt, Function.update_apply]
    by_cases h : u.1 = k
    · rw [if_pos h, if_pos h.symm, h, add_assoc]
    · rw [if_neg h, if_neg (Ne.symm h), zero_add]

theorem total_append (k : Nat × Nat) (a b : List ((Nat × Nat) × K)) : total k (a ++ b) = total k a + total k b := by
  simp [total]

theorem total_perm (k : Nat × Nat) {a b : List ((Nat × Nat) × K)} (h : a.Perm b) : total k a = total k b :=
  (h.map _).sum_eq

theorem total_flatMap {A : Type} (k : Nat × Nat) (l : List A) (f : A → List ((Nat × Nat) × K)) :
    total k (l.flatMap f) = (l.map fun a => total k (f a)).sum := by
  induction l with
  | nil => rfl
  | cons a l ih => simp only [List.flatMap_cons, total_append, ih, List.map_cons, List.sum_cons]

/-- Columns: only the column itself contributes. -/
theorem total_cols (d c d' nc : Nat) (f : Nat → K) : total (d, c) ((List.range nc).map fun c' => ((d', c'), f c')) =
    if d' = d ∧ c < nc then f c else 0 := by
  induction nc with
  | zero => simp [total]
  | succ n ih =>
    rw [List.range_succ, List.map_append, total_append, ih]
    simp only [total, List.map_cons, List.map_nil, List.sum_cons, List.sum_nil, add_zero, Prod.mk.injEq]
    by_cases h1 : d' = d
    · by_cases h2 : n = c
      · subst h2; simp [h1]
      · have : (c < n + 1) ↔ c < n := by omega
        simp [h1, h2, this]
    · simp [h1]

theorem sum_filter_range {A : Type} [AddCommMonoid A] (n : Nat) (p : Nat → Bool) (f : Nat → A) :
    (((List.range n).filter p).map f).sum = ∑ i ∈ Finset.range n, if p i then f i else 0 := by
  induction n with
  | zero => simp
  | succ n ih =>
    rw [List.range_succ, List.filter_append, List.map_append, List.sum_append, ih, Finset.sum_range_succ]
    congr 1
    by_cases h : p n = true <;> simp [h]

/-- What one element adds to entry `(d, c)`. -/
theorem total_scatter (r : Rank K) (e : Elem K) (yl : Nat → Nat → K) (nc : Nat) (a : K) (d c : Nat) (hc : c < nc) :
    total (d, c) (scatter r e yl nc a) =
      ∑ i ∈ Finset.range e.dofs.length, if e.dofs.getD i 0 = d ∧ r.con d = false then yl i c * a else 0 := by
  unfold scatter
  rw [total_flatMap]
  rw [sum_filter_range e.dofs.length (fun i => !r.con (e.dofs.getD i 0))]
  refine Finset.sum_congr rfl fun i _ => ?_
  rw [total_cols]
  by_cases h : e.dofs.getD i 0 = d
  · rw [h]; cases r.con d <;> simp [hc]
  · simp only [h, false_and, if_false, ite_self]

theorem total_dir (r : Rank K) (x : Nat → Nat → K) (nc : Nat) (a : K) (d c : Nat) (hc : c < nc) (hn : r.dirOwned.Nodup) :
    total (d, c) (dirIncrements r x nc a) = if r.bc.isSome ∧ d ∈ r.dirOwned then x d c * a else 0 := by
  unfold dirIncrements
  by_cases hb : r.bc.isSome
  · rw [if_pos hb, total_flatMap]
    simp only [hb, true_and]
    have : ∀ l : List Nat, l.Nodup → (l.map fun d' => total (d, c) ((List.range nc).map fun c => ((d', c), x d' c * a))).sum = if d ∈ l then x d c * a else 0 := by
      intro l
      induction l with
      | nil => intro _; simp
      | cons d' l ih =>
        intro hnd
        obtain ⟨h1, h2⟩ := List.nodup_cons.1 hnd
        rw [List.map_cons, List.sum_cons, ih h2, total_cols]
        by_cases hd : d' = d
        · subst hd; simp [hc, h1]
        · simp [hd, Ne.symm hd]
    exact this _ hn
  · rw [if_neg hb]; simp [hb, total]

/-! ### The specification -/

/-- Entry `(g, h)` of the matrix assembled from all elements of all ranks. -/
def assembled (nr : Nat) (ranks : Nat → Rank K) (g h : Nat) : K :=
  ∑ q ∈ Finset.range nr, ((ranks q).elems.map fun e => ∑ i ∈ Finset.range e.dofs.length, ∑ j ∈ Finset.range e.dofs.length,
    if (ranks q).l2g.getD (e.dofs.getD i 0) 0 = g ∧ (ranks q).l2g.getD (e.dofs.getD j 0) 0 = h then e.mat i j else 0).sum

/-- The assembled matrix with algebraically imposed conditions on the dofs `D` (rows and columns cleared, unit diagonal; C43). -/
def withBC (D : Nat → Prop) [DecidablePred D] (A : Nat → Nat → K) (g h : Nat) : K :=
  if D g ∨ D h then (if g = h then 1 else 0) else A g h

/-- A well-formed distribution of `N` global dofs with constrained set `D`: dof maps are injective with values below `N`, elements
refer to local dofs, every global dof is owned by exactly one rank, the local predicates agree with `D` on every rank, and the list
of owned constrained dofs is complete and duplicate-free. -/
structure Ok (N nr : Nat) (D : Nat → Prop) (ranks : Nat → Rank K) : Prop where
  nodup : ∀ q < nr, (ranks q).l2g.Nodup
  bound : ∀ q < nr, ∀ g ∈ (ranks q).l2g, g < N
  owned : ∀ q < nr, (ranks q).nOwned ≤ (ranks q).l2g.length
  dofs : ∀ q < nr, ∀ e ∈ (ranks q).elems, ∀ d ∈ e.dofs, d < (ranks q).l2g.length
  unique : ∀ q < nr, ∀ q' < nr, ∀ a < (ranks q).nOwned, ∀ b < (ranks q').nOwned, (ranks q).l2g.getD a 0 = (ranks q').l2g.getD b 0 → q = q'
  con : ∀ q < nr, ∀ d < (ranks q).l2g.length, (ranks q).con d = true ↔ D ((ranks q).l2g.getD d 0)
  dir : ∀ q < nr, (ranks q).dirOwned.Nodup ∧ ∀ d, d ∈ (ranks q).dirOwned ↔ d < (ranks q).nOwned ∧ (ranks q).con d = true

theorem sum_list_comm {A : Type} (s : Finset Nat) (l : List A) (f : Nat → A → K) :
    ∑ h ∈ s, (l.map (f h)).sum = (l.map fun a => ∑ h ∈ s, f h a).sum := by
  induction l with
  | nil => simp
  | cons a l ih => simp only [List.map_cons, List.sum_cons, Finset.sum_add_distrib, ih]

theorem sum_list_mul {A : Type} (l : List A) (f : A → K) (a : K) : (l.map f).sum * a = (l.map fun x => f x * a).sum := by
  induction l with
  | nil => simp
  | cons b l ih => simp only [List.map_cons, List.sum_cons, add_mul, ih]

theorem getD_lt {l : List Nat} {i : Nat} (h : i < l.length) : l.getD i 0 ∈ l := by
  rw [List.getD_eq_getElem?_getD, List.getElem?_eq_getElem h]; exact List.getElem_mem h

theorem getD_inj {l : List Nat} (hn : l.Nodup) {i j : Nat} (hi : i < l.length) (hj : j < l.length) (h : l.getD i 0 = l.getD j 0) : i = j := by
  rw [List.getD_eq_getElem?_getD, List.getD_eq_getElem?_getD, List.getElem?_eq_getElem hi, List.getElem?_eq_getElem hj] at h
  exact (hn.getElem_inj_iff).1 h

/-- What rank `q` adds, in terms of global dofs, to global dof `g`. -/
def share (r : Rank K) (x : Nat → Nat → K) (alpha : K) (g c : Nat) : K :=
  (r.elems.map fun e => ∑ i ∈ Finset.range e.dofs.length, if r.l2g.getD (e.dofs.getD i 0) 0 = g then
    (if r.con (e.dofs.getD i 0) then 0 else evalLocal e (gather r e (localX r x)) i c * alpha) else 0).sum

theorem total_increments {N nr : Nat} {D : Nat → Prop} {ranks : Nat → Rank K} (ok : Ok N nr D ranks) (x : Nat → Nat → K) (nc : Nat) (alpha : K)
    (q : Nat) (hq : q < nr) (d c : Nat) (hd : d < (ranks q).l2g.length) (hc : c < nc) :
    total (d, c) (increments (ranks q) (localX (ranks q) x) nc alpha) = share (ranks q) x alpha ((ranks q).l2g.getD d 0) c := by
  unfold increments share
  rw [total_flatMap]
  congr 1
  refine List.map_congr_left fun e he => ?_
  rw [total_scatter _ _ _ _ _ _ _ hc]
  refine Finset.sum_congr rfl fun i hi => ?_
  have hdi : e.dofs.getD i 0 < (ranks q).l2g.length := ok.dofs q hq e he _ (getD_lt (Finset.mem_range.1 hi))
  by_cases h : e.dofs.getD i 0 = d
  · rw [h]
    cases (ranks q).con d <;> simp
  · rw [if_neg (fun hh => h hh.1), if_neg]
    intro hh
    exact h (getD_inj (ok.nodup q hq) hdi hd hh)

theorem share_zero {N nr : Nat} {D : Nat → Prop} {ranks : Nat → Rank K} (ok : Ok N nr D ranks) (x : Nat → Nat → K) (alpha : K)
    (q : Nat) (hq : q < nr) (g c : Nat) (h : g ∉ (ranks q).l2g) : share (ranks q) x alpha g c = 0 := by
  unfold share
  rw [List.sum_eq_zero]
  intro v hv
  obtain ⟨e, he, rfl⟩ := List.mem_map.1 hv
  refine Finset.sum_eq_zero fun i hi => ?_
  rw [if_neg]
  intro hh
  apply h
  rw [← hh]
  exact getD_lt (ok.dofs q hq e he _ (getD_lt (Finset.mem_range.1 hi)))

/-- The product of the matrix with conditions and `x`, in a row that is not constrained. -/
theorem shares_eq {N nr : Nat} {D : Nat → Prop} [DecidablePred D] {ranks : Nat → Rank K} (ok : Ok N nr D ranks) (x : Nat → Nat → K) (alpha : K)
    (g c : Nat) (hg : g < N) :
    ∑ q ∈ Finset.range nr, share (ranks q) x alpha g c + (if D g then x g c * alpha else 0) =
      alpha * ∑ h ∈ Finset.range N, withBC D (assembled nr ranks) g h * x h c := by
  by_cases hD : D g
  · rw [if_pos hD, Finset.sum_eq_zero, zero_add]
    · have : ∀ h ∈ Finset.range N, withBC D (assembled nr ranks) g h * x h c = if g = h then x h c else 0 := by
        intro h _
        unfold withBC
        rw [if_pos (Or.inl hD)]
        split <;> simp
      rw [Finset.sum_congr rfl this, Finset.sum_ite_eq, if_pos (Finset.mem_range.2 hg), mul_comm]
    · intro q hq
      have hq := Finset.mem_range.1 hq
      unfold share
      rw [List.sum_eq_zero]
      intro v hv
      obtain ⟨e, he, rfl⟩ := List.mem_map.1 hv
      refine Finset.sum_eq_zero fun i hi => ?_
      have hdi : e.dofs.getD i 0 < (ranks q).l2g.length := ok.dofs q hq e he _ (getD_lt (Finset.mem_range.1 hi))
      split
      · rename_i hh
        rw [if_pos ((ok.con q hq _ hdi).2 (by rw [hh]; exact hD))]
      · rfl
  · rw [if_neg hD, add_zero, Finset.mul_sum]
    have : ∀ h ∈ Finset.range N, alpha * (withBC D (assembled nr ranks) g h * x h c) =
        ∑ q ∈ Finset.range nr, ((ranks q).elems.map fun e => ∑ i ∈ Finset.range e.dofs.length, ∑ j ∈ Finset.range e.dofs.length,
          if (ranks q).l2g.getD (e.dofs.getD i 0) 0 = g ∧ (ranks q).l2g.getD (e.dofs.getD j 0) 0 = h then
            (if D h then 0 else e.mat i j * x h c * alpha) else 0).sum := by
      intro h _
      unfold withBC
      by_cases hh : D h
      · have hgh : g ≠ h := fun e => hD (e ▸ hh)
        rw [if_pos (Or.inr hh), if_neg hgh, zero_mul, mul_zero]
        symm
        refine Finset.sum_eq_zero fun q _ => List.sum_eq_zero fun v hv => ?_
        obtain ⟨e, he, rfl⟩ := List.mem_map.1 hv
        refine Finset.sum_eq_zero fun i _ => Finset.sum_eq_zero fun j _ => ?_
        rw [if_pos hh]; simp
      · rw [if_neg (by tauto)]
        unfold assembled
        rw [Finset.sum_mul, Finset.mul_sum]
        refine Finset.sum_congr rfl fun q _ => ?_
        rw [mul_comm alpha, sum_list_mul, sum_list_mul]
        congr 1
        refine List.map_congr_left fun e _ => ?_
        rw [Finset.sum_mul, Finset.sum_mul]
        refine Finset.sum_congr rfl fun i _ => ?_
        rw [Finset.sum_mul, Finset.sum_mul]
        refine Finset.sum_congr rfl fun j _ => ?_
        rw [if_neg hh]
        split <;> simp
    rw [Finset.sum_congr rfl this, Finset.sum_comm]
    refine Finset.sum_congr rfl fun q hq => ?_
    have hq := Finset.mem_range.1 hq
    rw [sum_list_comm]
    unfold share
    congr 1
    refine List.map_congr_left fun e he => ?_
    rw [Finset.sum_comm]
    refine Finset.sum_congr rfl fun i hi => ?_
    have hdi : e.dofs.getD i 0 < (ranks q).l2g.length := ok.dofs q hq e he _ (getD_lt (Finset.mem_range.1 hi))
    rw [Finset.sum_comm]
    by_cases hg' : (ranks q).l2g.getD (e.dofs.getD i 0) 0 = g
    · rw [if_pos hg', if_neg (by rw [ok.con q hq _ hdi, hg']; exact hD)]
      unfold evalLocal
      rw [Finset.sum_mul]
      refine Finset.sum_congr rfl fun j hj => ?_
      have hdj : e.dofs.getD j 0 < (ranks q).l2g.length := ok.dofs q hq e he _ (getD_lt (Finset.mem_range.1 hj))
      have hlt : (ranks q).l2g.getD (e.dofs.getD j 0) 0 < N := ok.bound q hq _ (getD_lt hdj)
      rw [Finset.sum_eq_single ((ranks q).l2g.getD (e.dofs.getD j 0) 0)]
      · rw [if_pos ⟨hg', rfl⟩]
        unfold gather localX
        by_cases hDj : D ((ranks q).l2g.getD (e.dofs.getD j 0) 0)
        · rw [if_pos hDj, if_pos ((ok.con q hq _ hdj).2 hDj)]; simp
        · rw [if_neg hDj, if_neg (by rw [ok.con q hq _ hdj]; exact hDj)]
      · intro h _ hne
        rw [if_neg (fun hh => hne hh.2.symm)]
      · intro hn; exact absurd (Finset.mem_range.2 hlt) hn
    · rw [if_neg hg']
      symm
      refine Finset.sum_eq_zero fun j _ => Finset.sum_eq_zero fun h _ => ?_
      rw [if_neg (fun hh => hg' hh.1)]

/-- C45: whatever the order in which the additions happen on every rank, after an application every owned entry of `y` is
`alpha (A x) + beta y` with the assembled matrix with algebraically imposed Dirichlet conditions. -/
theorem C45_apply {N nr : Nat} {D : Nat → Prop} [DecidablePred D] {ranks : Nat → Rank K} (ok : Ok N nr D ranks) (x y : Nat → Nat → K)
    (nc : Nat) (alpha beta : K) (ups : Nat → List ((Nat × Nat) × K)) (hups : ∀ q < nr, IsOrder (ranks q) x nc alpha (ups q))
    (me loc c : Nat) (hme : me < nr) (hloc : loc < (ranks me).nOwned) (hc : c < nc) :
    result nr ranks (fun q => rankMem (ranks q) y beta (ups q)) me loc c =
      alpha * (∑ h ∈ Finset.range N, withBC D (assembled nr ranks) ((ranks me).l2g.getD loc 0) h * x h c) + beta * y ((ranks me).l2g.getD loc 0) c := by
  have hll : loc < (ranks me).l2g.length := lt_of_lt_of_le hloc (ok.owned me hme)
  have hgN : (ranks me).l2g.getD loc 0 < N := ok.bound me hme _ (getD_lt hll)
  rw [← shares_eq ok x alpha _ c hgN]
  have hmem : ∀ q < nr, ∀ d < (ranks q).l2g.length, rankMem (ranks q) y beta (ups q) (d, c) =
      (if d < (ranks q).nOwned then beta * y ((ranks q).l2g.getD d 0) c else 0) +
      (share (ranks q) x alpha ((ranks q).l2g.getD d 0) c + (if d < (ranks q).nOwned ∧ (ranks q).con d = true then x ((ranks q).l2g.getD d 0) c * alpha else 0)) := by
    intro q hq d hd
    unfold rankMem
    rw [fold_addAt, total_perm _ (hups q hq), total_append, total_increments ok x nc alpha q hq d c hd hc, total_dir _ _ _ _ _ _ hc (ok.dir q hq).1]
    have hiff : ((ranks q).bc.isSome = true ∧ d ∈ (ranks q).dirOwned) ↔ (d < (ranks q).nOwned ∧ (ranks q).con d = true) := by
      rw [(ok.dir q hq).2]
      constructor
      · exact fun h => h.2
      · intro h
        refine ⟨?_, h⟩
        have := h.2
        unfold Rank.con at this
        cases hb : (ranks q).bc with
        | none => rw [hb] at this; cases this
        | some p => rfl
    rw [if_congr hiff rfl rfl]
    rfl
  unfold result
  simp only []
  rw [hmem me hme loc hll, if_pos hloc]
  have hghost : ∀ q ∈ Finset.range nr, (∑ g ∈ Finset.range (ranks q).l2g.length,
      if (ranks q).nOwned ≤ g ∧ (ranks q).l2g.getD g 0 = (ranks me).l2g.getD loc 0 then rankMem (ranks q) y beta (ups q) (g, c) else 0) =
      if q = me then 0 else share (ranks q) x alpha ((ranks me).l2g.getD loc 0) c := by
    intro q hq
    have hq := Finset.mem_range.1 hq
    by_cases hqm : q = me
    · subst hqm
      rw [if_pos rfl]
      refine Finset.sum_eq_zero fun g hg => ?_
      rw [if_neg]
      rintro ⟨h1, h2⟩
      have := getD_inj (ok.nodup q hq) (Finset.mem_range.1 hg) hll h2
      omega
    · rw [if_neg hqm]
      by_cases hmem' : (ranks me).l2g.getD loc 0 ∈ (ranks q).l2g
      · obtain ⟨g, hg, hgv⟩ := List.getElem_of_mem hmem'
        have hgv : (ranks q).l2g.getD g 0 = (ranks me).l2g.getD loc 0 := by
          rw [← hgv, List.getD_eq_getElem?_getD, List.getElem?_eq_getElem hg]; rfl
        have hgo : (ranks q).nOwned ≤ g := by
          by_contra hlt
          exact hqm (ok.unique q hq me hme g (by omega) loc hloc hgv)
        rw [Finset.sum_eq_single g]
        · rw [if_pos ⟨hgo, hgv⟩, hmem q hq g hg, if_neg (by omega), if_neg (by omega), hgv]; ring
        · intro g' hg' hne
          rw [if_neg]
          rintro ⟨-, h2⟩
          exact hne (getD_inj (ok.nodup q hq) (Finset.mem_range.1 hg') hg (h2.trans hgv.symm))
        · intro hn; exact absurd (Finset.mem_range.2 hg) hn
      · rw [share_zero ok x alpha q hq _ c hmem']
        refine Finset.sum_eq_zero fun g hg => ?_
        rw [if_neg]
        rintro ⟨-, h2⟩
        exact hmem' (h2 ▸ getD_lt (Finset.mem_range.1 hg))
  rw [Finset.sum_congr rfl hghost]
  have hsplit : ∑ q ∈ Finset.range nr, share (ranks q) x alpha ((ranks me).l2g.getD loc 0) c =
      share (ranks me) x alpha ((ranks me).l2g.getD loc 0) c +
      ∑ q ∈ Finset.range nr, if q = me then 0 else share (ranks q) x alpha ((ranks me).l2g.getD loc 0) c := by
    have h1 : share (ranks me) x alpha ((ranks me).l2g.getD loc 0) c = ∑ q ∈ Finset.range nr, if q = me then share (ranks q) x alpha ((ranks me).l2g.getD loc 0) c else 0 := by
      rw [Finset.sum_ite_eq' (Finset.range nr) me, if_pos (Finset.mem_range.2 hme)]
    rw [h1, ← Finset.sum_add_distrib]
    refine Finset.sum_congr rfl fun q _ => ?_
    split <;> simp
  rw [hsplit]
  have hdd : (if loc < (ranks me).nOwned ∧ (ranks me).con loc = true then x ((ranks me).l2g.getD loc 0) c * alpha else 0) =
      if D ((ranks me).l2g.getD loc 0) then x ((ranks me).l2g.getD loc 0) c * alpha else 0 := by
    refine if_congr ?_ rfl rfl
    rw [ok.con me hme loc hll]
    exact ⟨fun h => h.2, fun h => ⟨hloc, h⟩⟩
  rw [hdd]
  ring

/-! ### Layouts of the sum factorisation -/

/-- The last write to a position. -/
def lastWrite (ws : List (Nat × K)) (buf : Nat → K) : Nat → K := ws.foldl (fun m w => Function.update m w.1 w.2) buf

theorem lastWrite_of_unique : ∀ (ws : List (Nat × K)) (buf : Nat → K) (p : Nat) (v : K), (p, v) ∈ ws → (∀ w ∈ ws, w.1 = p → w.2 = v) →
    lastWrite ws buf p = v := by
  intro ws
  induction ws using List.reverseRecOn with
  | nil => intro _ _ _ h; cases h
  | append_singleton ws w ih =>
    intro buf p v hm hu
    unfold lastWrite
    rw [List.foldl_append]
    simp only [List.foldl_cons, List.foldl_nil, Function.update_apply]
    by_cases hp : p = w.1
    · rw [if_pos hp]; exact hu w (by simp) hp.symm
    · rw [if_neg hp]
      refine ih buf p v ?_ fun w' hw' => hu w' (by simp [hw'])
      rcases List.mem_append.1 hm with h | h
      · exact h
      · exact absurd (by rw [← List.mem_singleton.1 h]) hp

theorem slot_inj {n dpn : Nat} {c d v c' d' v' : Nat} (hd : d < dpn) (hv : v < n) (hd' : d' < dpn) (hv' : v' < n)
    (h : c * (dpn * n) + d * n + v = c' * (dpn * n) + d' * n + v') : c = c' ∧ d = d' ∧ v = v' := by
  have e : ∀ a b w : Nat, a * (dpn * n) + b * n + w = (a * dpn + b) * n + w := fun a b w => by ring
  rw [e, e] at h
  have hn : 0 < n := by omega
  have h1 : ((c * dpn + d) * n + v) % n = ((c' * dpn + d') * n + v') % n := by rw [h]
  have h2 : ((c * dpn + d) * n + v) / n = ((c' * dpn + d') * n + v') / n := by rw [h]
  rw [Nat.mul_comm _ n, Nat.mul_comm _ n, Nat.mul_add_mod, Nat.mul_add_mod, Nat.mod_eq_of_lt hv, Nat.mod_eq_of_lt hv'] at h1
  rw [Nat.mul_comm _ n, Nat.mul_comm _ n, Nat.mul_add_div hn, Nat.mul_add_div hn, Nat.div_eq_of_lt hv, Nat.div_eq_of_lt hv', add_zero, add_zero] at h2
  have hp : 0 < dpn := by omega
  have h3 : (c * dpn + d) % dpn = (c' * dpn + d') % dpn := by rw [h2]
  have h4 : (c * dpn + d) / dpn = (c' * dpn + d') / dpn := by rw [h2]
  rw [Nat.mul_comm c, Nat.mul_comm c', Nat.mul_add_mod, Nat.mul_add_mod, Nat.mod_eq_of_lt hd, Nat.mod_eq_of_lt hd'] at h3
  rw [Nat.mul_comm c, Nat.mul_comm c', Nat.mul_add_div hp, Nat.mul_add_div hp, Nat.div_eq_of_lt hd, Nat.div_eq_of_lt hd', add_zero, add_zero] at h4
  exact ⟨h4, h3, h1⟩

/-- C45 (sum factorisation path): after the gather, position (node, field, column) of the buffer holds zero if the dof is constrained
and the entry of `x` otherwise. -/
theorem C45_gather_sumfact (n dpn nc : Nat) (dofs : List Nat) (con : Nat → Nat → Bool) (x : Nat → Nat → K) (buf : Nat → K)
    (node d c : Nat) (hn : node < n) (hd : d < dpn) (hc : c < nc) :
    lastWrite (gatherSF n dpn nc dofs con x) buf (c * (dpn * n) + d * n + node) =
      if con node d then 0 else x (dofs.getD (node * dpn + d) 0) c := by
  refine lastWrite_of_unique _ _ _ _ ?_ ?_
  · unfold gatherSF
    refine List.mem_flatMap.2 ⟨node, List.mem_range.2 hn, List.mem_append.2 ?_⟩
    by_cases h : con node d = true
    · right
      refine List.mem_flatMap.2 ⟨d, List.mem_filter.2 ⟨List.mem_range.2 hd, h⟩, List.mem_map.2 ⟨c, List.mem_range.2 hc, ?_⟩⟩
      rw [if_pos h]
    · left
      refine List.mem_flatMap.2 ⟨d, List.mem_filter.2 ⟨List.mem_range.2 hd, by simpa using h⟩, List.mem_map.2 ⟨c, List.mem_range.2 hc, ?_⟩⟩
      rw [if_neg h]
  · intro w hw hp
    unfold gatherSF at hw
    obtain ⟨v, hv, hw⟩ := List.mem_flatMap.1 hw
    have hv := List.mem_range.1 hv
    rcases List.mem_append.1 hw with hw | hw
    · obtain ⟨d', hd', hw⟩ := List.mem_flatMap.1 hw
      obtain ⟨hd', hcon⟩ := List.mem_filter.1 hd'
      obtain ⟨c', hc', rfl⟩ := List.mem_map.1 hw
      obtain ⟨rfl, rfl, rfl⟩ := slot_inj (List.mem_range.1 hd') hv hd hn hp
      rw [if_neg (by simpa using hcon)]
    · obtain ⟨d', hd', hw⟩ := List.mem_flatMap.1 hw
      obtain ⟨hd', hcon⟩ := List.mem_filter.1 hd'
      obtain ⟨c', hc', rfl⟩ := List.mem_map.1 hw
      obtain ⟨rfl, rfl, rfl⟩ := slot_inj (List.mem_range.1 hd') hv hd hn hp
      rw [if_pos (by simpa using hcon)]

/-- C45 (sum factorisation path): the scatter makes the same additions as the plain one, with the local result read in the layout
(field, column, node). -/
theorem C45_scatter_sumfact (r : Rank K) (n dpn nc : Nat) (dofs : List Nat) (hlen : dofs.length = n * dpn) (mat : Nat → Nat → K) (src : Nat → K)
    (a : K) (k : Nat × Nat) (hk : k.2 < nc) :
    total k (scatterSF n dpn nc dofs (fun node d => r.con (dofs.getD (node * dpn + d) 0)) src a) =
      total k (scatter r ⟨dofs, mat⟩ (fun i c => src (i / dpn * (dpn * nc) + c * dpn + i % dpn)) nc a) := by
  obtain ⟨g, c⟩ := k
  rw [total_scatter _ _ _ _ _ _ _ hk]
  unfold scatterSF
  rw [total_flatMap]
  have h1 : ∀ (m : Nat) (f : Nat → K), ((List.range m).map f).sum = ∑ i ∈ Finset.range m, f i := fun m f => by
    have := sum_filter_range m (fun _ => true) f
    simpa using this
  rw [h1]
  show _ = ∑ i ∈ Finset.range dofs.length, _
  rw [hlen]
  have h2 : ∀ (m : Nat) (f : Nat → K), ∑ i ∈ Finset.range (m * dpn), f i = ∑ v ∈ Finset.range m, ∑ d ∈ Finset.range dpn, f (v * dpn + d) := by
    intro m f
    induction m with
    | zero => simp
    | succ m ih => rw [Nat.succ_mul, Finset.sum_range_add, ih, Finset.sum_range_succ]
  rw [h2]
  refine Finset.sum_congr rfl fun v _ => ?_
  rw [total_flatMap, sum_filter_range dpn (fun d => !r.con (dofs.getD (v * dpn + d) 0))]
  refine Finset.sum_congr rfl fun d hd => ?_
  have hd := Finset.mem_range.1 hd
  have e1 : (v * dpn + d) / dpn = v := by rw [Nat.mul_comm, Nat.mul_add_div (by omega), Nat.div_eq_of_lt hd, add_zero]
  have e2 : (v * dpn + d) % dpn = d := by rw [Nat.mul_comm, Nat.mul_add_mod, Nat.mod_eq_of_lt hd]
  rw [total_cols, e1, e2]
  by_cases h : dofs.getD (v * dpn + d) 0 = g
  · rw [h]; cases r.con g <;> simp [show c < nc from hk]
  · simp only [h, false_and, if_false, ite_self]

/-- Two ranks sharing dof 1, dof 0 constrained, one element each. -/
def exRanks : Nat → Rank ℤ
  | 0 => ⟨2, [0, 1], [⟨[0, 1], fun i j => 1 + 2 * i + j⟩], some fun d => d == 0, [0]⟩
  | _ => ⟨1, [2, 1], [⟨[1, 0], fun i j => 5 + i * j⟩], some fun _ => false, []⟩

theorem exRanks_ok : Ok 3 2 (fun g => g = 0) exRanks where
  nodup := by intro q hq; match q, hq with | 0, _ => decide | 1, _ => decide
  bound := by intro q hq; match q, hq with | 0, _ => decide | 1, _ => decide
  owned := by intro q hq; match q, hq with | 0, _ => decide | 1, _ => decide
  dofs := by intro q hq; match q, hq with | 0, _ => simp [exRanks] | 1, _ => simp [exRanks]
  unique := by
    intro q hq q' hq' a ha b hb h
    match q, hq, q', hq' with
    | 0, _, 0, _ => rfl
    | 1, _, 1, _ => rfl
    | 0, _, 1, _ =>
      simp only [exRanks] at ha hb h
      interval_cases a <;> interval_cases b <;> simp at h
    | 1, _, 0, _ =>
      simp only [exRanks] at ha hb h
      interval_cases a <;> interval_cases b <;> simp at h
  con := by
    intro q hq d hd
    match q, hq with
    | 0, _ => simp only [exRanks, List.length_cons, List.length_nil] at hd; interval_cases d <;> simp [exRanks, Rank.con]
    | 1, _ => simp only [exRanks, List.length_cons, List.length_nil] at hd; interval_cases d <;> simp [exRanks, Rank.con]
  dir := by
    intro q hq
    match q, hq with
    | 0, _ =>
      refine ⟨by decide, fun d => ?_⟩
      simp [exRanks, Rank.con]; omega
    | 1, _ => refine ⟨by decide, fun d => ?_⟩; simp [exRanks, Rank.con]

/-- The interior dof shared by the ranks: `2·(4·x₁ + (5·x₁ + 5·x₂)) + 3·y₁`. -/
example (x y : Nat → Nat → ℤ) : result 2 exRanks (fun q => rankMem (exRanks q) y 3
    (increments (exRanks q) (localX (exRanks q) x) 1 2 ++ dirIncrements (exRanks q) (localX (exRanks q) x) 1 2)) 0 1 0 =
    2 * (4 * x 1 0 + (5 * x 1 0 + 5 * x 2 0)) + 3 * y 1 0 := by
  rw [C45_apply exRanks_ok x y 1 2 3 _ (fun q _ => List.Perm.refl _) 0 1 0 (by decide) (by decide) (by decide)]
  simp [exRanks, withBC, assembled, Finset.sum_range_succ]
  ring

end Verif.MatFree
