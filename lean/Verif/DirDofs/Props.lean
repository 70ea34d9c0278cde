import Verif.DirDofs.Lemmas
import Verif.DirDofs.Spec

/-!
# C105: a degree of freedom is constrained exactly where a definition says so, on every rank and in both systems
-/
namespace Verif.DirDofs
open Verif

/-- **C105, definitions.**  A call throws iff it names a component out of range, and then changes nothing; calls are cumulative, and their order
and repetitions do not matter for what is named. -/
theorem C105_definition (nd : Nat) (calls : List Call) :
    (∀ b doms inds, apply nd b (.dirichlet doms inds) = none ↔ ∃ i ∈ inds, nd ≤ i) ∧
    (∀ b inds, apply nd b (.normalize inds) = none ↔ ∃ i ∈ inds, nd ≤ i) ∧
    (∀ d i, (∃ e ∈ (run nd calls).defs, d ∈ e.doms ∧ i ∈ e.inds) ↔ Named nd calls d i) ∧
    (∀ e ∈ (run nd calls).defs, e.doms.Pairwise (· < ·) ∧ e.inds.Pairwise (· < ·) ∧ ∀ i ∈ e.inds, i < nd) ∧
    (∀ i, i ∈ trueInds (run nd calls).norm ↔ ∃ inds, Call.normalize inds ∈ calls ∧ (∀ j ∈ inds, j < nd) ∧ i ∈ inds) := by
  refine ⟨?_, ?_, ?_, ?_, ?_⟩
  · intro b doms inds
    unfold apply
    by_cases h : inds.all (fun i => decide (i < nd)) = true
    · simp only [h, if_true]
      rw [all_lt] at h
      constructor
      · intro hc; simp at hc
      · rintro ⟨i, hi, hn⟩; exact absurd (h i hi) (by omega)
    · simp only [h]
      rw [all_lt] at h
      push Not at h
      simpa using h
  · intro b inds
    unfold apply
    by_cases h : inds.all (fun i => decide (i < nd)) = true
    · simp only [h, if_true]
      rw [all_lt] at h
      constructor
      · intro hc; simp at hc
      · rintro ⟨i, hi, hn⟩; exact absurd (h i hi) (by omega)
    · simp only [h]
      rw [all_lt] at h
      push Not at h
      simpa using h
  · intro d i
    constructor
    · rintro ⟨e, he, hd, hi⟩
      obtain ⟨doms, inds, hc, hlt, rfl⟩ := (mem_defs nd calls e).1 he
      exact ⟨doms, inds, hc, hlt, ((Algo.C15_get_unique_copy doms).2 _).1 hd, ((Algo.C15_get_unique_copy inds).2 _).1 hi⟩
    · rintro ⟨doms, inds, hc, hlt, hd, hi⟩
      exact ⟨_, (mem_defs nd calls _).2 ⟨doms, inds, hc, hlt, rfl⟩, ((Algo.C15_get_unique_copy doms).2 _).2 hd,
        ((Algo.C15_get_unique_copy inds).2 _).2 hi⟩
  · intro e he
    obtain ⟨doms, inds, hc, hlt, rfl⟩ := (mem_defs nd calls e).1 he
    exact ⟨(Algo.C15_get_unique_copy doms).1, (Algo.C15_get_unique_copy inds).1,
      fun i hi => hlt i (((Algo.C15_get_unique_copy inds).2 _).1 hi)⟩
  · intro i
    rw [mem_trueInds]
    have := (run_spec nd calls (Bc.new nd) (by simp [Bc.new])).2.2 i
    rw [run, this]
    have h0 : (Bc.new nd).norm.getD i false = false := by
      by_cases h : i < nd <;> simp [Bc.new, List.getD, h]
    rw [h0]; simp

/-- Three calls, one of which throws. -/
example : Named 3 [.dirichlet [7, 4, 7] [2, 0], .dirichlet [5] [3], .normalize [1, 1]] 4 0 ∧
    ¬ Named 3 [.dirichlet [7, 4, 7] [2, 0], .dirichlet [5] [3], .normalize [1, 1]] 5 3 := by
  refine ⟨⟨[7, 4, 7], [2, 0], by simp, by simp, by simp, by simp⟩, ?_⟩
  rintro ⟨doms, inds, hc, hlt, hd, hi⟩
  exact absurd (hlt 3 hi) (by omega)

theorem asked_iff (nd : Nat) (calls : List Call) (r : Rank) (n i : Nat) :
    (n, i) ∈ visitedPairs (run nd calls) r ↔ Asked nd calls r n i := by
  rw [mem_visitedPairs]
  constructor
  · rintro ⟨doms, inds, hc, hlt, e, he, hd, hn, hi⟩; exact ⟨e, he, hn, doms, inds, hc, hlt, hd, hi⟩
  · rintro ⟨e, he, hn, doms, inds, hc, hlt, hd, hi⟩; exact ⟨doms, inds, hc, hlt, e, he, hd, hn, hi⟩

theorem mem_extract (l : List Nat) (v : Nat → ℚ) (hl : l.Nodup) :
    (extract l v).Pairwise (· < ·) ∧ ∀ g, g ∈ extract l v ↔ g ∈ l ∧ 1 / 2 < v g := by
  unfold extract
  have hp := Std.sort_perm (l.filter fun g => decide (1 / 2 < v g))
  refine ⟨?_, fun g => ?_⟩
  · have hs := Std.sort_sorted (l.filter fun g => decide (1 / 2 < v g))
    have hn : (Std.sort (l.filter fun g => decide (1 / 2 < v g))).Nodup := hp.nodup_iff.2 (hl.filter _)
    exact (List.Pairwise.and hs hn).imp fun h => lt_of_le_of_ne h.1 h.2
  · rw [hp.mem_iff]; simp

/-- **C105, assembled system** (partial: components named on a boundary have to exist at all of its nodes).  Every rank finds, in
increasing order and without repetitions, exactly the constrained dofs among those it owns and among its columns, whichever rank has
the boundary element. -/
theorem C105_assembled_partial (nd : Nat) (calls : List Call) (rs : List Rank) (h : GoodRanks rs)
    (hex : ∀ r ∈ rs, ∀ n i, Asked nd calls r n i → (r.dofAt n i).isSome) :
    ∃ res, getDirichletDofs (run nd calls) rs = .ok res ∧ FoundAll nd calls rs res := by
  classical
  let f : Rank → Nat → ℚ := fun r g => if (∃ p ∈ visitedPairs (run nd calls) r, r.dof p.1 p.2 = some g) ∨ g ∈ r.norm then 1 else 0
  have hm : allMarks (run nd calls) rs = .ok (rs.map f) := by
    refine allMarks_ok _ _ _ fun r hr => ?_
    rw [rankMarks_ok (run nd calls) r ?_ (h.norm r hr)]
    rintro ⟨n, i⟩ hp
    obtain ⟨g, hg⟩ := Option.isSome_iff_exists.1 (hex r hr n i ((asked_iff nd calls r n i).1 hp))
    exact ⟨g, h.cols r hr n i g hg, hg⟩
  have hf : ∀ r g, f r g = 1 ↔ (∃ n i, Asked nd calls r n i ∧ r.dofAt n i = some g) ∨ g ∈ r.norm := by
    intro r g
    have : ((∃ p ∈ visitedPairs (run nd calls) r, r.dof p.1 p.2 = some g) ∨ g ∈ r.norm) ↔
        (∃ n i, Asked nd calls r n i ∧ r.dofAt n i = some g) ∨ g ∈ r.norm := by
      refine or_congr ?_ Iff.rfl
      constructor
      · rintro ⟨⟨n, i⟩, hp, e⟩; exact ⟨n, i, (asked_iff nd calls r n i).1 hp, e⟩
      · rintro ⟨n, i, hp, e⟩; exact ⟨(n, i), (asked_iff nd calls r n i).2 hp, e⟩
    rw [← this]
    by_cases hc : (∃ p ∈ visitedPairs (run nd calls) r, r.dof p.1 p.2 = some g) ∨ g ∈ r.norm
    · simp only [f, if_pos hc, hc]
    · simp only [f, if_neg hc, hc]; norm_num
  have ht : ∀ g, 1 / 2 < total (rs.map f) g ↔ Constrained nd calls rs g := by
    intro g
    rw [total_iff]
    · constructor
      · rintro ⟨v, hv, e⟩
        obtain ⟨r, hr, rfl⟩ := List.mem_map.1 hv
        exact ⟨r, hr, (hf r g).1 e⟩
      · rintro ⟨r, hr, e⟩
        exact ⟨f r, List.mem_map_of_mem hr, (hf r g).2 e⟩
    · intro v hv
      obtain ⟨r, hr, rfl⟩ := List.mem_map.1 hv
      by_cases hc : (∃ p ∈ visitedPairs (run nd calls) r, r.dof p.1 p.2 = some g) ∨ g ∈ r.norm
      · right; simp only [f, if_pos hc]
      · left; simp only [f, if_neg hc]
  have hi : ∀ r ∈ rs, ∀ g ∈ r.cols, imported rs (rs.map f) g = total (rs.map f) g := by
    intro r hr g hg
    obtain ⟨q, hq, hg'⟩ := h.owned r hr g hg
    unfold imported
    rw [if_pos]
    simp only [List.any_eq_true, decide_eq_true_eq]
    exact ⟨q, hq, hg'⟩
  refine ⟨rs.map fun r => (extract r.owned (total (rs.map f)), extract r.cols (imported rs (rs.map f))), ?_, ?_⟩
  · unfold getDirichletDofs
    rw [hm]; rfl
  · unfold FoundAll
    rw [List.forall₂_map_right_iff, List.forall₂_same]
    intro r hr
    obtain ⟨h1, h2⟩ := mem_extract r.owned (total (rs.map f)) (h.nodup r hr).1
    obtain ⟨h3, h4⟩ := mem_extract r.cols (imported rs (rs.map f)) (h.nodup r hr).2
    refine ⟨h1, h3, fun g => ?_, fun g => ?_⟩
    · rw [h2, ht]
    · rw [h4]
      constructor
      · rintro ⟨hg, hv⟩; rw [hi r hr g hg, ht] at hv; exact ⟨hg, hv⟩
      · rintro ⟨hg, hv⟩; rw [hi r hr g hg, ht]; exact ⟨hg, hv⟩

/-- Two ranks: the boundary element is on rank 1 only, its node 1 is owned by rank 0. -/
def exRanks : List Rank :=
  [⟨[(0, [0, 1])], fun n => [some [some 0], some [some 1]].getD n none, [0, 1], [0, 1], []⟩,
   ⟨[(0, [1, 2]), (9, [1])], fun n => [none, some [some 1], some [some 2]].getD n none, [2], [2, 1], [2]⟩]

theorem exRanks_good : GoodRanks exRanks := by
  refine ⟨by simp [exRanks], by simp [exRanks], by simp [exRanks], ?_⟩
  intro r hr n i g hg
  simp only [exRanks, List.mem_cons, List.not_mem_nil, or_false] at hr
  rcases hr with rfl | rfl
  · rcases n with _ | _ | n <;> rcases i with _ | i <;> simp [Rank.dofAt] at hg ⊢ <;> omega
  · rcases n with _ | _ | _ | n <;> rcases i with _ | i <;> simp [Rank.dofAt] at hg ⊢ <;> omega

example : GoodRanks exRanks ∧ (∀ r ∈ exRanks, ∀ n i, Asked 1 [.dirichlet [9] [0]] r n i → (r.dofAt n i).isSome) ∧
    Constrained 1 [.dirichlet [9] [0]] exRanks 1 ∧ ¬ Constrained 1 [.dirichlet [9] [0]] exRanks 0 := by
  have hN : ∀ d i, Named 1 [.dirichlet [9] [0]] d i ↔ d = 9 ∧ i = 0 := by
    intro d i
    constructor
    · rintro ⟨doms, inds, hc, -, hd, hi⟩
      simp only [List.mem_singleton, Call.dirichlet.injEq] at hc
      rw [hc.1] at hd; rw [hc.2] at hi
      simpa using And.intro hd hi
    · rintro ⟨rfl, rfl⟩; exact ⟨[9], [0], by simp, by simp, by simp, by simp⟩
  refine ⟨exRanks_good, ?_, ?_, ?_⟩
  · rintro r hr n i ⟨e, he, hn, hd⟩
    rw [hN] at hd
    simp only [exRanks, List.mem_cons, List.not_mem_nil, or_false] at hr
    rcases hr with rfl | rfl
    · simp only [List.mem_singleton] at he; rw [he] at hd; simp at hd
    · simp only [List.mem_cons, List.not_mem_nil, or_false] at he
      rcases he with rfl | rfl
      · simp at hd
      · simp only [List.mem_singleton] at hn; rw [hn, hd.2]; rfl
  · exact ⟨_, List.mem_cons_of_mem _ List.mem_cons_self, .inl ⟨1, 0, ⟨(9, [1]), by simp, by simp, (hN _ _).2 ⟨rfl, rfl⟩⟩, rfl⟩⟩
  · rintro ⟨r, hr, hc⟩
    simp only [exRanks, List.mem_cons, List.not_mem_nil, or_false] at hr
    rcases hr with rfl | rfl
    · rcases hc with ⟨n, i, ⟨e, he, hn, hd⟩, -⟩ | hc
      · rw [hN] at hd
        simp only [List.mem_singleton] at he; rw [he] at hd; simp at hd
      · simp at hc
    · rcases hc with ⟨n, i, ⟨e, he, hn, hd⟩, hg⟩ | hc
      · rw [hN] at hd
        simp only [List.mem_cons, List.not_mem_nil, or_false] at he
        rcases he with rfl | rfl
        · simp at hd
        · simp only [List.mem_singleton] at hn; rw [hn, hd.2] at hg; simp [Rank.dofAt] at hg
      · simp at hc

/-- **C105, assembled system: a component that does not exist.**  Whatever the mesh and the number of ranks: as soon as one named component is absent at
one node of a named boundary, the call does not return a result (the invalid dof is used as an index). -/
theorem C105_absent_component (nd : Nat) (calls : List Call) (rs : List Rank) (r : Rank) (hr : r ∈ rs) (n i : Nat) (ha : Asked nd calls r n i)
    (hno : r.dofAt n i = none) (res : List (List Nat × List Nat)) : getDirichletDofs (run nd calls) rs ≠ .ok res := by
  have hb : ∀ v, rankMarks (run nd calls) r ≠ .ok v := by
    intro v
    unfold rankMarks
    cases hv : visitedDofs (run nd calls) r with
    | none => simp
    | some l =>
      dsimp only
      have hmem : none ∈ l := by
        have hp := (asked_iff nd calls r n i).2 ha
        cases hm : r.map n with
        | none =>
          have : visitedDofs (run nd calls) r = none := mapM_none _ _ (n, i) hp (by dsimp only; rw [hm]; rfl)
          rw [this] at hv; simp at hv
        | some a =>
          have hq : ∀ p ∈ visitedPairs (run nd calls) r, ∃ a, r.map p.1 = some a := by
            intro p hp
            by_contra hc
            push Not at hc
            have h0 : r.map p.1 = none := by
              cases h0 : r.map p.1 with
              | none => rfl
              | some a => exact absurd h0 (hc a)
            have : visitedDofs (run nd calls) r = none := mapM_none _ _ p hp (by rw [h0]; rfl)
            rw [this] at hv; simp at hv
          have e : visitedDofs (run nd calls) r = some ((visitedPairs (run nd calls) r).map fun p => r.dof p.1 p.2) := by
            refine mapM_some _ _ _ fun p hp => ?_
            obtain ⟨a, ha⟩ := hq p hp
            unfold Rank.dof
            rw [ha]; rfl
          rw [e] at hv
          injection hv with hv
          rw [← hv, List.mem_map]
          exact ⟨(n, i), hp, hno⟩
      rw [mark_bad _ _ _ (List.mem_append_left _ hmem)]
      simp
  unfold getDirichletDofs
  cases h : allMarks (run nd calls) rs with
  | ok vs => exact absurd h (allMarks_bad _ _ _ hr hb vs)
  | throws => simp [Out.bind]
  | ub => simp [Out.bind]

/-- A boundary whose node has component 0 but not component 1, and the default argument (all components). -/
def exAbsent : List Rank := [⟨[(0, [0, 1]), (9, [0])], fun n => [some [some 0, none], some [some 1, some 2]].getD n none, [0, 1, 2], [0, 1, 2], []⟩]

/-- **C105, violated**: "all dofs" cannot be used on such a boundary. -/
theorem C105_absent_component_violated : ¬ C105Statement := by
  intro hS
  have hg : GoodRanks exAbsent := by
    refine ⟨by simp [exAbsent], by simp [exAbsent], by simp [exAbsent], ?_⟩
    intro r hr n i g hg
    simp only [exAbsent, List.mem_singleton] at hr
    subst hr
    rcases n with _ | _ | n <;> rcases i with _ | _ | i <;> simp [Rank.dofAt] at hg ⊢ <;> omega
  have hN : ∀ d i, Named 2 [.dirichlet [9] [0, 1]] d i → d = 9 := by
    rintro d i ⟨doms, inds, hc, -, hd, -⟩
    simp only [List.mem_singleton, Call.dirichlet.injEq] at hc
    rw [hc.1] at hd
    simpa using hd
  obtain ⟨res, hres, -⟩ := hS 2 [.dirichlet [9] [0, 1]] exAbsent hg (by
    rintro r hr n i ⟨e, he, hn, hd⟩
    have := hN _ _ hd
    simp only [exAbsent, List.mem_singleton] at hr
    subst hr
    simp only [List.mem_cons, List.not_mem_nil, or_false] at he
    rcases he with rfl | rfl
    · simp at this
    · simp only [List.mem_singleton] at hn; rw [hn]; rfl)
  refine C105_absent_component 2 [.dirichlet [9] [0, 1]] exAbsent _ List.mem_cons_self 0 1 ?_ rfl res hres
  exact ⟨(9, [0]), by simp, by simp, [9], [0, 1], by simp, by simp, by simp, by simp⟩

/-! ### Matrix-free system -/

theorem mfAsked_iff (nd : Nat) (calls : List Call) (r : MfRank) (l : Nat) :
    (∃ e ∈ r.elems, l ∈ elemMarks nd (run nd calls) r e) ↔ ∃ n i, MfAsked nd calls r n i ∧ (r.loc n).getD i none = some l := by
  constructor
  · rintro ⟨e, he, hl⟩
    obtain ⟨doms, inds, hc, hlt, s, hs, hd, n, hn, i, hi, hl⟩ := (mem_elemMarks nd calls r e l).1 hl
    exact ⟨n, i, ⟨e, he, s, hs, hn, doms, inds, hc, hlt, hd, hi⟩, hl⟩
  · rintro ⟨n, i, ⟨e, he, s, hs, hn, doms, inds, hc, hlt, hd, hi⟩, hl⟩
    exact ⟨e, he, (mem_elemMarks nd calls r e l).2 ⟨doms, inds, hc, hlt, s, hs, hd, n, hn, i, hi, hl⟩⟩

theorem own_iff (nd : Nat) (calls : List Call) (r : MfRank) (l : Nat) :
    ownFlags nd (run nd calls) r l = true ↔ (∃ n i, MfAsked nd calls r n i ∧ (r.loc n).getD i none = some l) ∨ l ∈ r.norm := by
  rw [ownFlags_iff, mfAsked_iff, or_comm]

theorem getD_of {l : List Nat} {j g : Nat} (h : l[j]? = some g) : l.getD j 0 = g := by simp [List.getD, h]

theorem ghostFlag_iff (nd : Nat) (b : Bc) (q : MfRank) (g : Nat) :
    ghostFlag nd b q g = true ↔ ∃ j, q.nOwned ≤ j ∧ q.l2g[j]? = some g ∧ sentFlags nd b q j = true := by
  unfold ghostFlag
  simp only [List.any_eq_true, List.mem_range, Bool.and_eq_true, decide_eq_true_eq]
  constructor
  · rintro ⟨j, hj, ⟨h1, h2⟩, h3⟩
    refine ⟨j, h1, ?_, h3⟩
    rw [List.getElem?_eq_getElem hj]
    simpa [List.getD, List.getElem?_eq_getElem hj] using h2
  · rintro ⟨j, h1, h2, h3⟩
    exact ⟨j, (List.getElem?_eq_some_iff.1 h2).1, ⟨h1, getD_of h2⟩, h3⟩

/-- After the export the owner knows. -/
theorem exported_iff (nd : Nat) (calls : List Call) (rs : List MfRank) (h : GoodMf rs) (q : MfRank) (hq : q ∈ rs) (j g : Nat)
    (hj : j < q.nOwned) (hg : q.l2g[j]? = some g) : exported nd (run nd calls) rs q j = true ↔ MfConstrained nd calls rs g := by
  unfold exported
  rw [getD_of hg]
  simp only [Bool.or_eq_true, List.any_eq_true, ghostFlag_iff]
  constructor
  · rintro (ho | ⟨p, hp, k, hk, hkg, hs⟩)
    · exact ⟨q, hq, j, hg, (own_iff nd calls q j).1 ho⟩
    · rw [sent_ghost nd _ p (h.sides p hp) k hk] at hs
      exact ⟨p, hp, k, hkg, (own_iff nd calls p k).1 hs⟩
  · rintro ⟨p, hp, k, hkg, hc⟩
    have ho := (own_iff nd calls p k).2 hc
    by_cases hk : k < p.nOwned
    · obtain ⟨rfl, rfl⟩ := h.unique p hp q hq k hk j hj g hkg hg
      exact .inl ho
    · refine .inr ⟨p, hp, k, by omega, hkg, ?_⟩
      rw [sent_ghost nd _ p (h.sides p hp) k (by omega)]
      exact ho

theorem ownedPos_some {q : MfRank} (hle : q.nOwned ≤ q.l2g.length) {g j : Nat} (h : ownedPos q g = some j) : j < q.nOwned ∧ q.l2g[j]? = some g := by
  unfold ownedPos at h
  have h1 := List.mem_of_find?_eq_some h
  have h2 := List.find?_some h
  simp only [List.mem_range] at h1
  refine ⟨h1, ?_⟩
  have hj : j < q.l2g.length := by omega
  simp only [decide_eq_true_eq, List.getD, List.getElem?_eq_getElem hj, Option.getD_some] at h2
  rw [List.getElem?_eq_getElem hj, h2]

theorem flags_iff (nd : Nat) (calls : List Call) (rs : List MfRank) (h : GoodMf rs) (r : MfRank) (hr : r ∈ rs) (l g : Nat) (hg : r.l2g[l]? = some g) :
    flags nd (run nd calls) rs r l = true ↔ MfConstrained nd calls rs g := by
  unfold flags
  by_cases hl : l < r.nOwned
  · rw [if_pos hl]
    exact exported_iff nd calls rs h r hr l g hl hg
  · rw [if_neg hl, getD_of hg]
    cases ho : ownerOf rs g with
    | some p =>
      obtain ⟨q, j⟩ := p
      dsimp only
      unfold ownerOf at ho
      obtain ⟨q', hq', e⟩ := List.exists_of_findSome?_eq_some ho
      obtain ⟨j', e1, e2⟩ := Option.map_eq_some_iff.1 e
      injection e2 with e2 e3
      subst e2; subst e3
      obtain ⟨h1, h2⟩ := ownedPos_some (h.le _ hq') e1
      exact exported_iff nd calls rs h _ hq' _ g h1 h2
    | none =>
      exfalso
      obtain ⟨q, hq, j, hj, hjg⟩ := h.owner r hr g (List.mem_of_getElem? hg)
      unfold ownerOf at ho
      rw [List.findSome?_eq_none_iff] at ho
      have := ho q hq
      rw [Option.map_eq_none_iff] at this
      unfold ownedPos at this
      rw [List.find?_eq_none] at this
      exact this j (List.mem_range.2 hj) (by simpa using getD_of hjg)

/-- **C105, matrix-free system.**  For every mesh and every number of ranks, with components that exist at some nodes only: the constructor does not throw;
every rank finds exactly the constrained dofs among all local dofs (owned and ghosts), and the sorted list has exactly the owned ones. -/
theorem C105_matrix_free (nd : Nat) (calls : List Call) (rs : List MfRank) (h : GoodMf rs) :
    ∃ res, localDirichlet nd (run nd calls) rs = some res ∧
      List.Forall₂ (fun (r : MfRank) (p : List Nat × List Nat) => p.2.Pairwise (· < ·) ∧
        (∀ l, l ∈ p.1 ↔ ∃ g, r.l2g[l]? = some g ∧ MfConstrained nd calls rs g) ∧
        (∀ l, l ∈ p.2 ↔ l < r.nOwned ∧ ∃ g, r.l2g[l]? = some g ∧ MfConstrained nd calls rs g)) rs res := by
  have hr : rs.all (inRange nd (run nd calls)) = true := by
    rw [List.all_eq_true]
    intro r hr
    unfold inRange
    rw [List.all_eq_true]
    intro l hl
    simp only [List.mem_append, List.mem_flatMap] at hl
    simp only [decide_eq_true_eq]
    rcases hl with hl | hl
    · exact h.norm r hr l hl
    · obtain ⟨n, i, -, e⟩ := (mfAsked_iff nd calls r l).1 hl
      exact h.loc r hr n i l e
  refine ⟨_, by unfold localDirichlet; rw [if_pos hr], ?_⟩
  rw [List.forall₂_map_right_iff, List.forall₂_same]
  intro r hr
  have key : ∀ l, l ∈ ((List.range r.l2g.length).filter fun l => flags nd (run nd calls) rs r l) ↔
      ∃ g, r.l2g[l]? = some g ∧ MfConstrained nd calls rs g := by
    intro l
    simp only [List.mem_filter, List.mem_range]
    constructor
    · rintro ⟨hl, hf⟩
      have e := List.getElem?_eq_getElem hl
      exact ⟨_, e, (flags_iff nd calls rs h r hr l _ e).1 hf⟩
    · rintro ⟨g, hg, hc⟩
      exact ⟨(List.getElem?_eq_some_iff.1 hg).1, (flags_iff nd calls rs h r hr l g hg).2 hc⟩
  refine ⟨?_, key, fun l => ?_⟩
  · have hp := Std.sort_perm (((List.range r.l2g.length).filter fun l => flags nd (run nd calls) rs r l).filter fun l => decide (l < r.nOwned))
    have hs := Std.sort_sorted (((List.range r.l2g.length).filter fun l => flags nd (run nd calls) rs r l).filter fun l => decide (l < r.nOwned))
    have hn := hp.nodup_iff.2 ((List.nodup_range.filter _).filter _)
    exact (List.Pairwise.and hs hn).imp fun h => lt_of_le_of_ne h.1 h.2
  · dsimp only
    rw [(Std.sort_perm _).mem_iff, List.mem_filter, key]
    simp only [decide_eq_true_eq]
    exact and_comm

/-- Two ranks; the named side is on rank 1, one of its nodes is owned by rank 0, and its component 1 does not exist. -/
def exMf : List MfRank :=
  [⟨[⟨[0, 1], []⟩], fun n => [[some 0], [some 1, none]].getD n [], [0, 1], 2, []⟩,
   ⟨[⟨[1, 2], [([1], 9)]⟩], fun n => [[], [some 1, none], [some 0]].getD n [], [2, 1], 1, []⟩]

example : GoodMf exMf ∧ MfConstrained 2 [.dirichlet [9] [0, 1]] exMf 1 := by
  refine ⟨⟨by simp [exMf], by simp [exMf], by simp [exMf], ?_, ?_, ?_⟩, ?_⟩
  · intro r hr n i l hl
    simp only [exMf, List.mem_cons, List.not_mem_nil, or_false] at hr
    rcases hr with rfl | rfl
    · rcases n with _ | _ | n <;> rcases i with _ | _ | i <;> simp at hl ⊢ <;> omega
    · rcases n with _ | _ | _ | n <;> rcases i with _ | _ | i <;> simp at hl ⊢ <;> omega
  · intro r hr g hg
    simp only [exMf, List.mem_cons, List.not_mem_nil, or_false] at hr
    have : g = 0 ∨ g = 1 ∨ g = 2 := by
      rcases hr with rfl | rfl <;> simp at hg <;> omega
    rcases this with rfl | rfl | rfl
    · exact ⟨_, List.mem_cons_self, 0, by simp, rfl⟩
    · exact ⟨_, List.mem_cons_self, 1, by simp, rfl⟩
    · exact ⟨_, List.mem_cons_of_mem _ List.mem_cons_self, 0, by simp, rfl⟩
  · intro q hq q' hq' j hj j' hj' g hg hg'
    simp only [exMf, List.mem_cons, List.not_mem_nil, or_false] at hq hq'
    rcases hq with rfl | rfl <;> rcases hq' with rfl | rfl
    · refine ⟨rfl, ?_⟩
      rcases j with _ | _ | j <;> rcases j' with _ | _ | j' <;> simp at hg hg' hj hj' ⊢ <;> omega
    · exfalso
      rcases j with _ | _ | j <;> rcases j' with _ | _ | j' <;> simp at hg hg' hj hj' <;> omega
    · exfalso
      rcases j with _ | _ | j <;> rcases j' with _ | _ | j' <;> simp at hg hg' hj hj' <;> omega
    · refine ⟨rfl, ?_⟩
      rcases j with _ | _ | j <;> rcases j' with _ | _ | j' <;> simp at hg hg' hj hj' ⊢
  · exact ⟨_, List.mem_cons_of_mem _ List.mem_cons_self, 1, rfl, .inl ⟨1, 0, ⟨_, List.mem_cons_self, ([1], 9), by simp, by simp,
      [9], [0, 1], by simp, by simp, by simp, by simp⟩, rfl⟩⟩

/-- **C105, both systems constrain the same dofs** when they describe the same problem and every named component exists. -/
theorem C105_agree_partial (nd : Nat) (calls : List Call) (rs : List Rank) (ms : List MfRank) (h : GoodRanks rs) (hm : GoodMf ms)
    (hex : ∀ r ∈ rs, ∀ n i, Asked nd calls r n i → (r.dofAt n i).isSome) (hs : Same nd calls rs ms) :
    ∃ res mres, getDirichletDofs (run nd calls) rs = .ok res ∧ localDirichlet nd (run nd calls) ms = some mres ∧
      ∀ r p, (r, p) ∈ rs.zip res → ∀ m q, (m, q) ∈ ms.zip mres → ∀ g l, g ∈ r.cols → m.l2g[l]? = some g → (g ∈ p.2 ↔ l ∈ q.1) := by
  obtain ⟨res, e1, h1⟩ := C105_assembled_partial nd calls rs h hex
  obtain ⟨mres, e2, h2⟩ := C105_matrix_free nd calls ms hm
  refine ⟨res, mres, e1, e2, ?_⟩
  intro r p hp m q hq g l hg hl
  have h3 := (List.forall₂_zip h1 hp).2.2.2 g
  have h4 := (List.forall₂_zip h2 hq).2.1 l
  rw [h3, h4]
  have hC : Constrained nd calls rs g ↔ MfConstrained nd calls ms g := by
    constructor
    · rintro ⟨r, hr, ⟨n, i, ha, hd⟩ | hn⟩
      · obtain ⟨m, hm, ha, l, hl, hg⟩ := (hs.asked n i g).1 ⟨r, hr, ha, hd⟩
        exact ⟨m, hm, l, hg, .inl ⟨n, i, ha, hl⟩⟩
      · obtain ⟨m, hm, l, hl, hg⟩ := (hs.norm g).1 ⟨r, hr, hn⟩
        exact ⟨m, hm, l, hg, .inr hl⟩
    · rintro ⟨m, hm, l, hg, ⟨n, i, ha, hl⟩ | hl⟩
      · obtain ⟨r, hr, ha, hd⟩ := (hs.asked n i g).2 ⟨m, hm, ha, l, hl, hg⟩
        exact ⟨r, hr, .inl ⟨n, i, ha, hd⟩⟩
      · obtain ⟨r, hr, hn⟩ := (hs.norm g).2 ⟨m, hm, l, hl, hg⟩
        exact ⟨r, hr, .inr hn⟩
  constructor
  · rintro ⟨-, hc⟩; exact ⟨g, hl, hC.1 hc⟩
  · rintro ⟨g', hg', hc⟩
    rw [hl] at hg'
    injection hg' with e
    subst e
    exact ⟨hg, hC.2 hc⟩

/-- One boundary node seen by both systems. -/
example : Same 1 [.dirichlet [9] [0]]
    [⟨[(9, [1])], fun n => [none, some [some 1]].getD n none, [1], [1], []⟩] [⟨[⟨[1], [([1], 9)]⟩], fun n => [[], [some 0]].getD n [], [1], 1, []⟩] := by
  refine ⟨?_, by simp⟩
  intro n i g
  have hN : ∀ i, Named 1 [.dirichlet [9] [0]] 9 i ↔ i = 0 := by
    intro i
    constructor
    · rintro ⟨doms, inds, hc, hlt, -, hi⟩
      have := hlt i hi; omega
    · rintro rfl; exact ⟨[9], [0], by simp, by simp, by simp, by simp⟩
  constructor
  · rintro ⟨r, hr, ⟨e, he, hn, hd⟩, hg⟩
    simp only [List.mem_singleton] at hr; subst hr
    simp only [List.mem_singleton] at he; subst he
    rw [hN] at hd
    simp only [List.mem_singleton] at hn
    subst hd; subst hn
    simp only [Rank.dofAt] at hg
    exact ⟨_, List.mem_singleton.2 rfl, ⟨_, List.mem_singleton.2 rfl, ([1], 9), by simp, by simp, (hN 0).2 rfl⟩, 0, rfl, by simpa using hg⟩
  · rintro ⟨m, hm, ⟨e, he, s, hs, hn, hd⟩, l, hl, hg⟩
    simp only [List.mem_singleton] at hm; subst hm
    simp only [List.mem_singleton] at he; subst he
    simp only [List.mem_singleton] at hs; subst hs
    rw [hN] at hd
    simp only [List.mem_singleton] at hn
    subst hd; subst hn
    have : l = 0 := by simpa [eq_comm] using hl
    subst this
    exact ⟨_, List.mem_singleton.2 rfl, ⟨(9, [1]), by simp, by simp, (hN 0).2 rfl⟩, by simpa [Rank.dofAt] using hg⟩

/-- **C105, an id of a domain that is not a boundary.**  The assembled system constrains every node of such a domain, the matrix-free
system none: the definitions are looked up on sides only. -/
theorem C105_volume_violated : ∃ (nd : Nat) (calls : List Call) (rs : List Rank) (ms : List MfRank), GoodRanks rs ∧ GoodMf ms ∧
    (∀ r ∈ rs, ∀ n i, Asked nd calls r n i → (r.dofAt n i).isSome) ∧
    getDirichletDofs (run nd calls) rs = .ok [([0], [0])] ∧ localDirichlet nd (run nd calls) ms = some [([], [])] ∧
    (rs.map fun r => r.elems.map (·.2)) = (ms.map fun m => m.elems.map (·.nodes)) := by
  refine ⟨1, [.dirichlet [5] [0]], [⟨[(5, [0])], fun n => if n = 0 then some [some 0] else none, [0], [0], []⟩],
    [⟨[⟨[0], []⟩], fun n => if n = 0 then [some 0] else [], [0], 1, []⟩], ?_, ?_, ?_, ?_, ?_, rfl⟩
  · refine ⟨by simp, by simp, by simp, ?_⟩
    intro r hr n i g hg
    simp only [List.mem_singleton] at hr; subst hr
    by_cases hn : n = 0
    · rcases i with _ | i <;> simp [Rank.dofAt, hn] at hg ⊢; omega
    · simp [Rank.dofAt, hn] at hg
  · refine ⟨by simp, by simp, by simp, ?_, ?_, ?_⟩
    · intro r hr n i l hl
      simp only [List.mem_singleton] at hr; subst hr
      by_cases hn : n = 0
      · rcases i with _ | i <;> simp [hn] at hl ⊢; omega
      · simp [hn] at hl
    · intro r hr g hg
      simp only [List.mem_singleton] at hr; subst hr
      simp only [List.mem_singleton] at hg; subst hg
      exact ⟨_, List.mem_singleton.2 rfl, 0, by simp, rfl⟩
    · intro q hq q' hq' j hj j' hj' g _ _
      simp only [List.mem_singleton] at hq hq'; subst hq; subst hq'
      simp only at hj hj'
      exact ⟨rfl, by omega⟩
  · rintro r hr n i ⟨e, he, hn, doms, inds, hc, hlt, hd, hi⟩
    have := hlt i hi
    simp only [List.mem_singleton] at hr; subst hr
    simp only [List.mem_singleton] at he; subst he
    simp only [List.mem_singleton] at hn; subst hn
    have hi0 : i = 0 := by omega
    subst hi0
    simp [Rank.dofAt]
  · decide +kernel
  · decide +kernel

end Verif.DirDofs
