import Verif.DirDofs.Model
import Verif.Algo.Props
import Mathlib.Algebra.Order.BigOperators.Group.List
import Mathlib.Algebra.Order.Ring.Rat
import Mathlib.Tactic.NormNum
import Mathlib.Tactic.Linarith

namespace Verif.DirDofs
open Verif

/-! ### Definitions -/

theorem all_lt {nd : Nat} {inds : List Nat} : inds.all (fun i => decide (i < nd)) = true ↔ ∀ i ∈ inds, i < nd := by simp

theorem foldl_set_length (inds : List Nat) (m : List Bool) : (inds.foldl (fun m i => m.set i true) m).length = m.length := by
  induction inds generalizing m with
  | nil => rfl
  | cons a l ih => simp [ih]

theorem foldl_set_getD (inds : List Nat) (m : List Bool) (k : Nat) :
    (inds.foldl (fun m i => m.set i true) m).getD k false = (decide (k < m.length ∧ k ∈ inds) || m.getD k false) := by
  induction inds generalizing m with
  | nil => simp
  | cons a l ih =>
    rw [List.foldl_cons, ih]
    by_cases hk : k < m.length
    · by_cases ha : k = a
      · subst ha; simp [List.getD, hk]
      · have hs : (m.set a true).getD k false = m.getD k false := by simp [List.getD, List.getElem?_set, Ne.symm ha]
        rw [hs]; simp [hk, ha]
    · simp [List.getD, List.getElem?_set, hk]

theorem mem_trueInds (b : List Bool) (i : Nat) : i ∈ trueInds b ↔ b.getD i false = true := by
  unfold trueInds
  simp only [List.mem_filter, List.mem_range]
  constructor
  · exact fun h => h.2
  · intro h
    refine ⟨?_, h⟩
    by_contra hc
    simp [List.getD, List.getElem?_eq_none (Nat.le_of_not_lt hc)] at h

/-- What a sequence of calls leaves behind. -/
theorem run_spec (nd : Nat) (calls : List Call) (b : Bc) (hb : b.norm.length = nd) :
    let r := calls.foldl (fun b c => (apply nd b c).getD b) b
    r.norm.length = nd ∧
    (∀ d, d ∈ r.defs ↔ d ∈ b.defs ∨ ∃ doms inds, Call.dirichlet doms inds ∈ calls ∧ (∀ i ∈ inds, i < nd) ∧
      d = ⟨Algo.getUniqueCopy doms, Algo.getUniqueCopy inds⟩) ∧
    (∀ i, r.norm.getD i false = true ↔ b.norm.getD i false = true ∨
      ∃ inds, Call.normalize inds ∈ calls ∧ (∀ i ∈ inds, i < nd) ∧ i ∈ inds) := by
  induction calls generalizing b with
  | nil => simp [hb]
  | cons c l ih =>
    intro r
    cases c with
    | dirichlet doms inds =>
      by_cases h : ∀ i ∈ inds, i < nd
      · have e : (apply nd b (.dirichlet doms inds)).getD b =
            { b with defs := b.defs ++ [⟨Algo.getUniqueCopy doms, Algo.getUniqueCopy inds⟩] } := by
          simp only [apply, all_lt.2 h, if_true, Option.getD_some]
        obtain ⟨h1, h2, h3⟩ := ih _ (show ({ b with defs := b.defs ++ [⟨Algo.getUniqueCopy doms, Algo.getUniqueCopy inds⟩] } : Bc).norm.length = nd from hb)
        have er : r = l.foldl (fun b c => (apply nd b c).getD b)
            { b with defs := b.defs ++ [⟨Algo.getUniqueCopy doms, Algo.getUniqueCopy inds⟩] } := by
          simp only [r, List.foldl_cons, e]
        rw [er]
        refine ⟨h1, ?_, ?_⟩
        · intro d
          rw [h2]
          simp only [List.mem_append, List.mem_cons, List.not_mem_nil, or_false]
          constructor
          · rintro ((hd | hd) | ⟨a, i, hm, hi, e⟩)
            · exact .inl hd
            · exact .inr ⟨doms, inds, .inl rfl, h, hd⟩
            · exact .inr ⟨a, i, .inr hm, hi, e⟩
          · rintro (hd | ⟨a, i, hm | hm, hi, ed⟩)
            · exact .inl (.inl hd)
            · injection hm with ha hi'
              subst ha; subst hi'
              exact .inl (.inr ed)
            · exact .inr ⟨a, i, hm, hi, ed⟩
        · intro i
          rw [h3]; simp
      · have e : (apply nd b (.dirichlet doms inds)).getD b = b := by
          simp only [apply]
          rw [if_neg (fun hc => h (all_lt.1 hc))]; rfl
        obtain ⟨h1, h2, h3⟩ := ih b hb
        have er : r = l.foldl (fun b c => (apply nd b c).getD b) b := by simp only [r, List.foldl_cons, e]
        rw [er]
        refine ⟨h1, ?_, ?_⟩
        · intro d
          rw [h2]
          refine or_congr Iff.rfl ?_
          constructor
          · rintro ⟨a, i, hm, hi, e⟩; exact ⟨a, i, List.mem_cons_of_mem _ hm, hi, e⟩
          · rintro ⟨a, i, hm, hi, e⟩
            rcases List.mem_cons.1 hm with hm | hm
            · injection hm with ha hi'
              subst hi'; exact absurd hi h
            · exact ⟨a, i, hm, hi, e⟩
        · intro i
          rw [h3]; simp
    | normalize inds =>
      by_cases h : ∀ i ∈ inds, i < nd
      · have e : (apply nd b (.normalize inds)).getD b = { b with norm := inds.foldl (fun n i => n.set i true) b.norm } := by
          simp only [apply, all_lt.2 h, if_true, Option.getD_some]
        obtain ⟨h1, h2, h3⟩ := ih { b with norm := inds.foldl (fun n i => n.set i true) b.norm } (by simp [foldl_set_length, hb])
        have er : r = l.foldl (fun b c => (apply nd b c).getD b) { b with norm := inds.foldl (fun n i => n.set i true) b.norm } := by
          simp only [r, List.foldl_cons, e]
        rw [er]
        refine ⟨h1, ?_, ?_⟩
        · intro d
          rw [h2]; simp
        · intro i
          rw [h3]
          simp only [foldl_set_getD, Bool.or_eq_true, decide_eq_true_eq, List.mem_cons]
          constructor
          · rintro ((⟨_, hi⟩ | hi) | ⟨a, hm, ha, hi⟩)
            · exact .inr ⟨inds, .inl rfl, h, hi⟩
            · exact .inl hi
            · exact .inr ⟨a, .inr hm, ha, hi⟩
          · rintro (hi | ⟨a, hm | hm, ha, hi⟩)
            · exact .inl (.inr hi)
            · injection hm with hm
              subst hm
              exact .inl (.inl ⟨by rw [hb]; exact ha i hi, hi⟩)
            · exact .inr ⟨a, hm, ha, hi⟩
      · have e : (apply nd b (.normalize inds)).getD b = b := by
          simp only [apply]
          rw [if_neg (fun hc => h (all_lt.1 hc))]; rfl
        obtain ⟨h1, h2, h3⟩ := ih b hb
        have er : r = l.foldl (fun b c => (apply nd b c).getD b) b := by simp only [r, List.foldl_cons, e]
        rw [er]
        refine ⟨h1, ?_, ?_⟩
        · intro d
          rw [h2]; simp
        · intro i
          rw [h3]
          refine or_congr Iff.rfl ?_
          constructor
          · rintro ⟨a, hm, ha, hi⟩; exact ⟨a, List.mem_cons_of_mem _ hm, ha, hi⟩
          · rintro ⟨a, hm, ha, hi⟩
            rcases List.mem_cons.1 hm with hm | hm
            · injection hm with hm
              subst hm; exact absurd ha h
            · exact ⟨a, hm, ha, hi⟩

theorem mem_defs (nd : Nat) (calls : List Call) (d : Def) :
    d ∈ (run nd calls).defs ↔ ∃ doms inds, Call.dirichlet doms inds ∈ calls ∧ (∀ i ∈ inds, i < nd) ∧
      d = ⟨Algo.getUniqueCopy doms, Algo.getUniqueCopy inds⟩ := by
  have := (run_spec nd calls (Bc.new nd) (by simp [Bc.new])).2.1 d
  rw [run, this]
  simp [Bc.new]

/-! ### Assembled system -/

/-- Component `i` of node `n` on rank `r`. -/
def Rank.dof (r : Rank) (n i : Nat) : Option Nat := (r.map n).bind fun a => a.getD i none

theorem mem_visitedPairs (nd : Nat) (calls : List Call) (r : Rank) (n i : Nat) :
    (n, i) ∈ visitedPairs (run nd calls) r ↔ ∃ doms inds, Call.dirichlet doms inds ∈ calls ∧ (∀ j ∈ inds, j < nd) ∧
      ∃ e ∈ r.elems, e.1 ∈ doms ∧ n ∈ e.2 ∧ i ∈ inds := by
  unfold visitedPairs visited
  simp only [List.mem_flatMap, List.mem_filter, decide_eq_true_eq, List.mem_map, Prod.mk.injEq, mem_defs]
  constructor
  · rintro ⟨d, ⟨doms, inds, hc, hi, rfl⟩, e, ⟨he, hd⟩, n', hn, i', hi', rfl, rfl⟩
    exact ⟨doms, inds, hc, hi, e, he, ((Algo.C15_get_unique_copy doms).2 _).1 hd, hn, ((Algo.C15_get_unique_copy inds).2 _).1 hi'⟩
  · rintro ⟨doms, inds, hc, hi, e, he, hd, hn, hi'⟩
    exact ⟨_, ⟨doms, inds, hc, hi, rfl⟩, e, ⟨he, ((Algo.C15_get_unique_copy doms).2 _).2 hd⟩, n, hn, i,
      ((Algo.C15_get_unique_copy inds).2 _).2 hi', rfl, rfl⟩

theorem mark_ok (cols : List Nat) (l : List (Option Nat)) (v : Nat → ℚ) (h : ∀ o ∈ l, ∃ g ∈ cols, o = some g) :
    mark cols v l = .ok fun g => if some g ∈ l then 1 else v g := by
  induction l generalizing v with
  | nil => simp [mark]
  | cons o l ih =>
    obtain ⟨g, hg, rfl⟩ := h o List.mem_cons_self
    rw [mark, if_pos hg, ih _ fun o ho => h o (List.mem_cons_of_mem _ ho)]
    refine congrArg Out.ok ?_
    funext x
    by_cases hx : some x ∈ l
    · simp [hx]
    · by_cases hxg : x = g
      · subst hxg; simp [hx]
      · simp [hx, hxg]

theorem mark_bad (cols : List Nat) (l : List (Option Nat)) (v : Nat → ℚ) (h : none ∈ l) : mark cols v l = .ub := by
  induction l generalizing v with
  | nil => simp at h
  | cons o l ih =>
    cases o with
    | none => rfl
    | some g =>
      have : none ∈ l := by simpa using h
      rw [mark]
      split
      · exact ih _ this
      · rfl

theorem mapM_some {α β : Type} (f : α → Option β) (g : α → β) (l : List α) (h : ∀ a ∈ l, f a = some (g a)) :
    l.mapM f = some (l.map g) := by
  induction l with
  | nil => rfl
  | cons a l ih =>
    rw [List.mapM_cons, h a List.mem_cons_self, ih fun b hb => h b (List.mem_cons_of_mem _ hb)]; rfl

theorem mapM_none {α β : Type} (f : α → Option β) (l : List α) (a : α) (ha : a ∈ l) (h : f a = none) : l.mapM f = none := by
  induction l with
  | nil => simp at ha
  | cons b l ih =>
    rw [List.mapM_cons]
    rcases List.mem_cons.1 ha with rfl | hm
    · rw [h]; rfl
    · rw [ih hm]
      cases f b <;> rfl

/-- Marks of a rank on which every component asked for exists. -/
theorem rankMarks_ok (b : Bc) (r : Rank) (h : ∀ p ∈ visitedPairs b r, ∃ g ∈ r.cols, r.dof p.1 p.2 = some g) (hn : ∀ g ∈ r.norm, g ∈ r.cols) :
    rankMarks b r = .ok fun g => if (∃ p ∈ visitedPairs b r, r.dof p.1 p.2 = some g) ∨ g ∈ r.norm then 1 else 0 := by
  have h1 : visitedDofs b r = some ((visitedPairs b r).map fun p => r.dof p.1 p.2) := by
    refine mapM_some _ _ _ fun p hp => ?_
    obtain ⟨g, hg, e⟩ := h p hp
    unfold Rank.dof at e ⊢
    cases hm : r.map p.1 with
    | none => rw [hm] at e; simp at e
    | some a => rfl
  unfold rankMarks
  rw [h1]
  dsimp only
  rw [mark_ok]
  · refine congrArg Out.ok ?_
    funext g
    refine if_congr ?_ rfl rfl
    simp [List.mem_append, List.mem_map]
  · intro o ho
    rw [List.mem_append, List.mem_map, List.mem_map] at ho
    rcases ho with ⟨p, hp, rfl⟩ | ⟨g, hg, rfl⟩
    · obtain ⟨g, hg, e⟩ := h p hp
      exact ⟨g, hg, e⟩
    · exact ⟨g, hn g hg, rfl⟩

theorem allMarks_ok (b : Bc) (rs : List Rank) (f : Rank → Nat → ℚ) (h : ∀ r ∈ rs, rankMarks b r = .ok (f r)) :
    allMarks b rs = .ok (rs.map f) := by
  induction rs with
  | nil => rfl
  | cons r rs ih =>
    rw [allMarks, h r List.mem_cons_self, Out.bind, ih fun q hq => h q (List.mem_cons_of_mem _ hq)]; rfl

theorem allMarks_bad (b : Bc) (rs : List Rank) (r : Rank) (hr : r ∈ rs) (h : ∀ v, rankMarks b r ≠ .ok v) (vs : List (Nat → ℚ)) :
    allMarks b rs ≠ .ok vs := by
  induction rs generalizing vs with
  | nil => simp at hr
  | cons q rs ih =>
    rw [allMarks]
    rcases List.mem_cons.1 hr with rfl | hm
    · cases hq : rankMarks b r with
      | ok v => exact absurd hq (h v)
      | throws => simp [Out.bind]
      | ub => simp [Out.bind]
    · cases hq : rankMarks b q with
      | throws => simp [Out.bind]
      | ub => simp [Out.bind]
      | ok v =>
        have := ih hm
        cases ha : allMarks b rs with
        | ok ws => exact absurd ha (this ws)
        | throws => simp [Out.bind]
        | ub => simp [Out.bind]

/-- A sum of zeros and ones exceeds one half iff there is a one. -/
theorem total_iff (l : List (Nat → ℚ)) (g : Nat) (h : ∀ v ∈ l, v g = 0 ∨ v g = 1) : 1 / 2 < total l g ↔ ∃ v ∈ l, v g = 1 := by
  have hnn : ∀ l : List (Nat → ℚ), (∀ v ∈ l, v g = 0 ∨ v g = 1) → 0 ≤ total l g := by
    intro l hl
    unfold total
    refine List.sum_nonneg fun x hx => ?_
    obtain ⟨v, hv, rfl⟩ := List.mem_map.1 hx
    rcases hl v hv with e | e <;> rw [e] <;> norm_num
  induction l with
  | nil => simp [total]
  | cons v l ih =>
    have hl : ∀ w ∈ l, w g = 0 ∨ w g = 1 := fun w hw => h w (List.mem_cons_of_mem _ hw)
    have e : total (v :: l) g = v g + total l g := by simp [total]
    rw [e]
    rcases h v List.mem_cons_self with hv | hv
    · rw [hv, zero_add]
      refine (ih hl).trans ?_
      constructor
      · rintro ⟨w, hw, e⟩; exact ⟨w, List.mem_cons_of_mem _ hw, e⟩
      · rintro ⟨w, hw, ew⟩
        rcases List.mem_cons.1 hw with rfl | hw
        · rw [hv] at ew; norm_num at ew
        · exact ⟨w, hw, ew⟩
    · have := hnn l hl
      rw [hv]
      refine ⟨fun _ => ⟨v, List.mem_cons_self, hv⟩, fun _ => by linarith⟩

/-! ### Matrix-free system -/

theorem foldl_defs_getD (defs : List Def) (dom : Nat) (m : List Bool) (k : Nat) :
    ((defs.foldl (fun m d => if Std.binarySearch d.doms dom then d.inds.foldl (fun m i => m.set i true) m else m) m).length = m.length) ∧
    ((defs.foldl (fun m d => if Std.binarySearch d.doms dom then d.inds.foldl (fun m i => m.set i true) m else m) m).getD k false = true ↔
      m.getD k false = true ∨ (k < m.length ∧ ∃ d ∈ defs, Std.binarySearch d.doms dom = true ∧ k ∈ d.inds)) := by
  induction defs generalizing m with
  | nil => simp
  | cons d l ih =>
    simp only [List.foldl_cons]
    by_cases hd : Std.binarySearch d.doms dom = true
    · obtain ⟨h1, h2⟩ := ih (d.inds.foldl (fun m i => m.set i true) m)
      rw [if_pos hd]
      refine ⟨by rw [h1, foldl_set_length], ?_⟩
      rw [h2, foldl_set_getD, foldl_set_length]
      simp only [Bool.or_eq_true, decide_eq_true_eq, List.mem_cons, exists_eq_or_imp, hd, true_and]
      tauto
    · obtain ⟨h1, h2⟩ := ih m
      rw [if_neg hd]
      refine ⟨h1, ?_⟩
      rw [h2]
      simp only [List.mem_cons, exists_eq_or_imp, hd, Bool.false_eq_true, false_and, false_or]

theorem mem_sideInds (nd : Nat) (calls : List Call) (dom i : Nat) :
    i ∈ sideInds nd (run nd calls) dom ↔ ∃ doms inds, Call.dirichlet doms inds ∈ calls ∧ (∀ j ∈ inds, j < nd) ∧ dom ∈ doms ∧ i ∈ inds := by
  unfold sideInds
  rw [mem_trueInds, (foldl_defs_getD _ _ _ _).2]
  have h0 : (List.replicate nd false).getD i false = false := by
    by_cases h : i < nd <;> simp [List.getD, List.getElem?_replicate, h]
  rw [h0]
  simp only [Bool.false_eq_true, List.length_replicate, false_or, mem_defs]
  constructor
  · rintro ⟨-, d, ⟨doms, inds, hc, hi, rfl⟩, hb, hk⟩
    have hs := Algo.C15_get_unique_copy doms
    rw [Std.binarySearch_iff (hs.1.imp fun h => le_of_lt h)] at hb
    exact ⟨doms, inds, hc, hi, (hs.2 _).1 hb, ((Algo.C15_get_unique_copy inds).2 _).1 hk⟩
  · rintro ⟨doms, inds, hc, hi, hd, hk⟩
    have hs := Algo.C15_get_unique_copy doms
    refine ⟨hi i hk, _, ⟨doms, inds, hc, hi, rfl⟩, ?_, ((Algo.C15_get_unique_copy inds).2 _).2 hk⟩
    rw [Std.binarySearch_iff (hs.1.imp fun h => le_of_lt h)]
    exact (hs.2 _).2 hd

theorem mem_elemMarks (nd : Nat) (calls : List Call) (r : MfRank) (e : MfElem) (l : Nat) :
    l ∈ elemMarks nd (run nd calls) r e ↔ ∃ doms inds, Call.dirichlet doms inds ∈ calls ∧ (∀ j ∈ inds, j < nd) ∧
      ∃ s ∈ e.sides, s.2 ∈ doms ∧ ∃ n ∈ s.1, ∃ i ∈ inds, (r.loc n).getD i none = some l := by
  unfold elemMarks
  simp only [List.mem_flatMap, List.mem_filterMap, mem_sideInds]
  constructor
  · rintro ⟨s, hs, n, hn, i, ⟨doms, inds, hc, hi, hd, hk⟩, hl⟩
    exact ⟨doms, inds, hc, hi, s, hs, hd, n, hn, i, hk, hl⟩
  · rintro ⟨doms, inds, hc, hi, s, hs, hd, n, hn, i, hk, hl⟩
    exact ⟨s, hs, n, hn, i, ⟨doms, inds, hc, hi, hd, hk⟩, hl⟩

theorem ownFlags_iff (nd : Nat) (b : Bc) (r : MfRank) (l : Nat) :
    ownFlags nd b r l = true ↔ l ∈ r.norm ∨ ∃ e ∈ r.elems, l ∈ elemMarks nd b r e := by
  unfold ownFlags sentFlags
  simp only [Bool.or_eq_true, decide_eq_true_eq, List.mem_flatMap, List.mem_filter, Bool.not_eq_true']
  constructor
  · rintro ((h | ⟨e, ⟨he, -⟩, h⟩) | ⟨e, ⟨he, -⟩, h⟩)
    · exact .inl h
    · exact .inr ⟨e, he, h⟩
    · exact .inr ⟨e, he, h⟩
  · rintro (h | ⟨e, he, h⟩)
    · exact .inl (.inl h)
    · cases hi : r.interior e
      · exact .inl (.inr ⟨e, ⟨he, hi⟩, h⟩)
      · exact .inr ⟨e, ⟨he, hi⟩, h⟩

/-- Interior elements mark owned dofs only. -/
theorem interior_owned (nd : Nat) (b : Bc) (r : MfRank) (e : MfElem) (hs : ∀ s ∈ e.sides, ∀ n ∈ s.1, n ∈ e.nodes) (hi : r.interior e = true)
    {l : Nat} (hl : l ∈ elemMarks nd b r e) : l < r.nOwned := by
  unfold elemMarks at hl
  simp only [List.mem_flatMap, List.mem_filterMap] at hl
  obtain ⟨s, h1, n, h2, i, -, h3⟩ := hl
  unfold MfRank.interior at hi
  rw [List.all_eq_true] at hi
  have h4 := hi n (hs s h1 n h2)
  rw [List.all_eq_true] at h4
  have hm : some l ∈ r.loc n := by
    by_cases hlt : i < (r.loc n).length
    · rw [List.getD, List.getElem?_eq_getElem hlt] at h3
      simp only [Option.getD_some] at h3
      rw [← h3]; exact List.getElem_mem hlt
    · rw [List.getD, List.getElem?_eq_none (Nat.le_of_not_lt hlt)] at h3
      simp at h3
  simpa using h4 _ hm

/-- Ghost flags are complete when the sends are posted. -/
theorem sent_ghost (nd : Nat) (b : Bc) (r : MfRank) (hs : ∀ e ∈ r.elems, ∀ s ∈ e.sides, ∀ n ∈ s.1, n ∈ e.nodes) (l : Nat) (hl : r.nOwned ≤ l) :
    sentFlags nd b r l = ownFlags nd b r l := by
  unfold ownFlags
  rw [Bool.eq_iff_iff]
  simp only [Bool.or_eq_true, decide_eq_true_eq, List.mem_flatMap, List.mem_filter]
  refine ⟨.inl, ?_⟩
  rintro (h | ⟨e, ⟨he, hi⟩, h⟩)
  · exact h
  · have := interior_owned nd b r e (hs e he) hi h
    omega

end Verif.DirDofs
