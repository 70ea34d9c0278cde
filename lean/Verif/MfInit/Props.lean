import Verif.MfInit.Model
import Verif.MatFree.Props

/-! # C94: right-hand side and diagonal of the matrix-free system are those of the assembled system with conditions -/
namespace Verif.MfInit
open MatFree

variable {K : Type} [CommRing K]

/-- Entry `(g, c)` of the right-hand side summed over all elements of all ranks. -/
def assembledRhs (nr : Nat) (ranks : Nat → IRank K) (g c : Nat) : K :=
  ∑ q ∈ Finset.range nr, ((ranks q).elems.map fun e => ∑ i ∈ Finset.range e.1.dofs.length,
    if (ranks q).l2g.getD (e.1.dofs.getD i 0) 0 = g then e.2 i c else 0).sum

/-- Sum over ghosts and owned entries when every rank holds a share of the entry that depends on the global dof only. -/
theorem result_shares {N nr : Nat} {D : Nat → Prop} {ranks : Nat → Rank K} (ok : Ok N nr D ranks) (m : Nat → Nat × Nat → K)
    (S : Nat → Nat → K) (c : Nat) (hm : ∀ q < nr, ∀ d < (ranks q).l2g.length, m q (d, c) = S q ((ranks q).l2g.getD d 0))
    (hS : ∀ q < nr, ∀ g, g ∉ (ranks q).l2g → S q g = 0) (me loc : Nat) (hme : me < nr) (hloc : loc < (ranks me).nOwned) :
    result nr ranks m me loc c = ∑ q ∈ Finset.range nr, S q ((ranks me).l2g.getD loc 0) := by
  have hll : loc < (ranks me).l2g.length := lt_of_lt_of_le hloc (ok.owned me hme)
  unfold result
  rw [hm me hme loc hll]
  have hghost : ∀ q ∈ Finset.range nr, (∑ g ∈ Finset.range (ranks q).l2g.length,
      if (ranks q).nOwned ≤ g ∧ (ranks q).l2g.getD g 0 = (ranks me).l2g.getD loc 0 then m q (g, c) else 0) =
      if q = me then 0 else S q ((ranks me).l2g.getD loc 0) := by
    intro q hq
    have hq := Finset.mem_range.1 hq
    by_cases hqm : q = me
    · subst hqm
      rw [if_pos rfl]
      refine Finset.sum_eq_zero fun g hg => ?_
      rw [if_neg]
      rintro ⟨h1, h2⟩
      have := getD_inj (ok.nodup q hq) (Finset.mem_range.1 hg) hll h2
      omega
    · rw [if_neg hqm]
      by_cases hmem' : (ranks me).l2g.getD loc 0 ∈ (ranks q).l2g
      · obtain ⟨g, hg, hgv⟩ := List.getElem_of_mem hmem'
        have hgv : (ranks q).l2g.getD g 0 = (ranks me).l2g.getD loc 0 := by
          rw [← hgv, List.getD_eq_getElem?_getD, List.getElem?_eq_getElem hg]; rfl
        have hgo : (ranks q).nOwned ≤ g := by
          by_contra hlt
          exact hqm (ok.unique q hq me hme g (by omega) loc hloc hgv)
        rw [Finset.sum_eq_single g]
        · rw [if_pos ⟨hgo, hgv⟩, hm q hq g hg, hgv]
        · intro g' hg' hne
          rw [if_neg]
          rintro ⟨-, h2⟩
          exact hne (getD_inj (ok.nodup q hq) (Finset.mem_range.1 hg') hg (h2.trans hgv.symm))
        · intro hn; exact absurd (Finset.mem_range.2 hg) hn
      · rw [hS q hq _ hmem']
        refine Finset.sum_eq_zero fun g hg => ?_
        rw [if_neg]
        rintro ⟨-, h2⟩
        exact hmem' (h2 ▸ getD_lt (Finset.mem_range.1 hg))
  rw [Finset.sum_congr rfl hghost]
  have h1 : S me ((ranks me).l2g.getD loc 0) = ∑ q ∈ Finset.range nr, if q = me then S q ((ranks me).l2g.getD loc 0) else 0 := by
    rw [Finset.sum_ite_eq' (Finset.range nr) me, if_pos (Finset.mem_range.2 hme)]
  rw [h1, ← Finset.sum_add_distrib]
  refine Finset.sum_congr rfl fun q _ => ?_
  split <;> simp

/-- Contributions of a rank when every element contributes `f e i` at its `i`-th dof. -/
def rankShare (r : IRank K) (f : Elem K × (Nat → Nat → K) → Nat → K) (g : Nat) : K :=
  (r.elems.map fun e => ∑ i ∈ Finset.range e.1.dofs.length, if r.l2g.getD (e.1.dofs.getD i 0) 0 = g then f e i else 0).sum

theorem total_dofs (dofs : List Nat) (n nc d c : Nat) (hc : c < nc) (f : Nat → Nat → K) :
    total (d, c) ((List.range n).flatMap fun i => (List.range nc).map fun c => ((dofs.getD i 0, c), f i c)) =
      ∑ i ∈ Finset.range n, if dofs.getD i 0 = d then f i c else 0 := by
  rw [total_flatMap]
  have := sum_filter_range n (fun _ => true) fun i => total (d, c) ((List.range nc).map fun c => ((dofs.getD i 0, c), f i c))
  rw [List.filter_true] at this
  rw [this]
  refine Finset.sum_congr rfl fun i _ => ?_
  rw [if_pos rfl, total_cols]
  simp [hc]

omit [CommRing K] in
theorem mem_elems {r : IRank K} {e : Elem K × (Nat → Nat → K)} (he : e ∈ r.elems) : e.1 ∈ r.toRank.elems := List.mem_map.2 ⟨e, he, rfl⟩

theorem total_rank {N nr : Nat} {D : Nat → Prop} {ranks : Nat → IRank K} (ok : Ok N nr D fun q => (ranks q).toRank)
    (nc d c q : Nat) (hq : q < nr) (hd : d < (ranks q).l2g.length) (hc : c < nc) (f : Elem K × (Nat → Nat → K) → Nat → Nat → K) :
    total (d, c) ((ranks q).elems.flatMap fun e => (List.range e.1.dofs.length).flatMap fun i =>
      (List.range nc).map fun c => ((e.1.dofs.getD i 0, c), f e i c)) = rankShare (ranks q) (fun e i => f e i c) ((ranks q).l2g.getD d 0) := by
  rw [total_flatMap]
  unfold rankShare
  congr 1
  refine List.map_congr_left fun e he => ?_
  rw [total_dofs _ _ _ _ _ hc]
  refine Finset.sum_congr rfl fun i hi => ?_
  have hdi : e.1.dofs.getD i 0 < (ranks q).l2g.length := ok.dofs q hq e.1 (mem_elems he) _ (getD_lt (Finset.mem_range.1 hi))
  refine if_congr ⟨fun h => by rw [h], fun h => getD_inj (ok.nodup q hq) hdi hd h⟩ rfl rfl

theorem rankShare_zero {N nr : Nat} {D : Nat → Prop} {ranks : Nat → IRank K} (ok : Ok N nr D fun q => (ranks q).toRank)
    (q : Nat) (hq : q < nr) (f : Elem K × (Nat → Nat → K) → Nat → K) (g : Nat) (h : g ∉ (ranks q).l2g) : rankShare (ranks q) f g = 0 := by
  unfold rankShare
  rw [List.sum_eq_zero]
  intro v hv
  obtain ⟨e, he, rfl⟩ := List.mem_map.1 hv
  refine Finset.sum_eq_zero fun i hi => ?_
  rw [if_neg]
  intro hh
  apply h
  rw [← hh]
  exact getD_lt (ok.dofs q hq e.1 (mem_elems he) _ (getD_lt (Finset.mem_range.1 hi)))

omit [CommRing K] in
theorem foldl_store (l : List Nat) (v : Nat → K) : ∀ (m : Nat → K) (d : Nat),
    l.foldl (fun m d => Function.update m d (v d)) m d = if d ∈ l then v d else m d := by
  induction l with
  | nil => intro m d; simp
  | cons a l ih =>
    intro m d
    rw [List.foldl_cons, ih, Function.update_apply]
    by_cases h : d ∈ l
    · simp [h]
    · by_cases h2 : d = a
      · subst h2; simp
      · simp [h, h2]

theorem store_eq {N nr : Nat} {D : Nat → Prop} [DecidablePred D] {ranks : Nat → IRank K} (ok : Ok N nr D fun q => (ranks q).toRank)
    (v old : Nat → K) (me loc : Nat) (hme : me < nr) (hloc : loc < (ranks me).nOwned) :
    store (ranks me) v old loc = if D ((ranks me).l2g.getD loc 0) then v loc else old loc := by
  have hll : loc < (ranks me).l2g.length := lt_of_lt_of_le hloc (ok.owned me hme)
  have hcon := ok.con me hme loc hll
  have hdir := (ok.dir me hme).2 loc
  change (ranks me).toRank.con loc = true ↔ D ((ranks me).l2g.getD loc 0) at hcon
  change loc ∈ (ranks me).dirOwned ↔ loc < (ranks me).nOwned ∧ (ranks me).toRank.con loc = true at hdir
  unfold store
  by_cases hb : (ranks me).bc.isSome
  · rw [if_pos hb, foldl_store]
    refine if_congr ?_ rfl rfl
    rw [hdir, hcon]
    exact ⟨fun h => h.2, fun h => ⟨hloc, h⟩⟩
  · rw [if_neg hb, if_neg]
    rw [← hcon]
    intro h
    apply hb
    unfold Rank.con IRank.toRank at h
    cases hbc : (ranks me).bc with
    | none => rw [hbc] at h; cases h
    | some p => rfl

/-- The local right-hand side with the condition values given by global dof. -/
theorem locRhs_eq {N nr : Nat} {D : Nat → Prop} [DecidablePred D] {ranks : Nat → IRank K} (ok : Ok N nr D fun q => (ranks q).toRank)
    (v : Nat → Nat → K) (q : Nat) (hq : q < nr) (c : Nat)
    (hv : ∀ d < (ranks q).l2g.length, D ((ranks q).l2g.getD d 0) → (ranks q).vals d c = v ((ranks q).l2g.getD d 0) c)
    (e : Elem K × (Nat → Nat → K)) (he : e ∈ (ranks q).elems) (i : Nat) :
    locRhs (ranks q) e i c = e.2 i c - ∑ h ∈ Finset.range N, if D h then
      (∑ j ∈ Finset.range e.1.dofs.length, if (ranks q).l2g.getD (e.1.dofs.getD j 0) 0 = h then e.1.mat i j else 0) * v h c else 0 := by
  have h1 : ∑ k ∈ Finset.range (dirInds (ranks q) e.1).length, e.1.mat i ((dirInds (ranks q) e.1).getD k 0) * dirVals (ranks q) e.1 k c =
      ((dirInds (ranks q) e.1).map fun j => e.1.mat i j * (ranks q).vals (e.1.dofs.getD j 0) c).sum := by
    generalize hL : dirInds (ranks q) e.1 = L
    have : ∀ (L : List Nat) (f : Nat → K), ∑ k ∈ Finset.range L.length, f (L.getD k 0) = (L.map f).sum := by
      intro L f
      induction L with
      | nil => simp
      | cons a L ih =>
        rw [List.length_cons, Finset.sum_range_succ', List.map_cons, List.sum_cons, ← ih, add_comm]
        rfl
    rw [← this L]
    refine Finset.sum_congr rfl fun k _ => ?_
    unfold dirVals
    rw [hL]
  unfold locRhs
  rw [h1]
  unfold dirInds
  rw [sum_filter_range e.1.dofs.length (fun j => (ranks q).toRank.con (e.1.dofs.getD j 0))]
  congr 1
  have h2 : ∀ h ∈ Finset.range N, (if D h then (∑ j ∈ Finset.range e.1.dofs.length,
      if (ranks q).l2g.getD (e.1.dofs.getD j 0) 0 = h then e.1.mat i j else 0) * v h c else 0) =
      ∑ j ∈ Finset.range e.1.dofs.length, if (ranks q).l2g.getD (e.1.dofs.getD j 0) 0 = h then (if D h then e.1.mat i j * v h c else 0) else 0 := by
    intro h _
    split
    · rw [Finset.sum_mul]
      refine Finset.sum_congr rfl fun j _ => ?_
      split <;> simp
    · simp
  rw [Finset.sum_congr rfl h2, Finset.sum_comm]
  refine Finset.sum_congr rfl fun j hj => ?_
  have hdj : e.1.dofs.getD j 0 < (ranks q).l2g.length := ok.dofs q hq e.1 (mem_elems he) _ (getD_lt (Finset.mem_range.1 hj))
  have hlt : (ranks q).l2g.getD (e.1.dofs.getD j 0) 0 < N := ok.bound q hq _ (getD_lt hdj)
  rw [Finset.sum_ite_eq, if_pos (Finset.mem_range.2 hlt)]
  have hcon := ok.con q hq _ hdj
  change (ranks q).toRank.con _ = true ↔ D ((ranks q).l2g.getD (e.1.dofs.getD j 0) 0) at hcon
  by_cases hD : D ((ranks q).l2g.getD (e.1.dofs.getD j 0) 0)
  · rw [if_pos hD, if_pos (hcon.2 hD), hv _ hdj hD]
  · rw [if_neg hD, if_neg (fun h => hD (hcon.1 h))]

theorem sum_list_sub {A : Type} (l : List A) (f g : A → K) : (l.map fun a => f a - g a).sum = (l.map f).sum - (l.map g).sum := by
  induction l with
  | nil => simp
  | cons a l ih => simp only [List.map_cons, List.sum_cons, ih]; ring

/-- C94, right-hand side: whatever the order of the additions on every rank, every owned entry of the right-hand side of a
matrix-free system holds the value of the condition if the dof is constrained, and otherwise the entry of the right-hand side summed
over the elements minus the columns of the constrained dofs of the assembled matrix times their values.  Every dof of an element may
be repeated. -/
theorem C94_rhs {N nr : Nat} {D : Nat → Prop} [DecidablePred D] {ranks : Nat → IRank K} (ok : Ok N nr D fun q => (ranks q).toRank)
    (v : Nat → Nat → K) (nc c : Nat) (hc : c < nc)
    (hv : ∀ q < nr, ∀ d < (ranks q).l2g.length, D ((ranks q).l2g.getD d 0) → (ranks q).vals d c = v ((ranks q).l2g.getD d 0) c)
    (ups : Nat → List ((Nat × Nat) × K)) (hups : ∀ q < nr, (ups q).Perm (rhsIncs (ranks q) nc))
    (me loc : Nat) (hme : me < nr) (hloc : loc < (ranks me).nOwned) :
    finalRhs nr ranks ups me loc c = if D ((ranks me).l2g.getD loc 0) then v ((ranks me).l2g.getD loc 0) c else
      assembledRhs nr ranks ((ranks me).l2g.getD loc 0) c - ∑ h ∈ Finset.range N,
        if D h then assembled nr (fun q => (ranks q).toRank) ((ranks me).l2g.getD loc 0) h * v h c else 0 := by
  have hll : loc < (ranks me).l2g.length := lt_of_lt_of_le hloc (ok.owned me hme)
  unfold finalRhs
  rw [store_eq ok _ _ me loc hme hloc]
  by_cases hD : D ((ranks me).l2g.getD loc 0)
  · rw [if_pos hD, if_pos hD]; exact hv me hme loc hll hD
  rw [if_neg hD, if_neg hD]
  rw [result_shares ok _ (fun q => rankShare (ranks q) fun e i => locRhs (ranks q) e i c) c ?_ ?_ me loc hme hloc]
  · change ∑ q ∈ Finset.range nr, rankShare (ranks q) (fun e i => locRhs (ranks q) e i c) ((ranks me).l2g.getD loc 0) = _
    generalize (ranks me).l2g.getD loc 0 = g
    unfold assembledRhs assembled
    have hcols : (∑ h ∈ Finset.range N, if D h then (∑ q ∈ Finset.range nr, ((ranks q).toRank.elems.map fun e =>
        ∑ i ∈ Finset.range e.dofs.length, ∑ j ∈ Finset.range e.dofs.length,
        if (ranks q).toRank.l2g.getD (e.dofs.getD i 0) 0 = g ∧ (ranks q).toRank.l2g.getD (e.dofs.getD j 0) 0 = h then e.mat i j else 0).sum) * v h c else 0) =
        ∑ q ∈ Finset.range nr, ((ranks q).elems.map fun e => ∑ i ∈ Finset.range e.1.dofs.length,
          if (ranks q).l2g.getD (e.1.dofs.getD i 0) 0 = g then ∑ h ∈ Finset.range N, (if D h then
            (∑ j ∈ Finset.range e.1.dofs.length, if (ranks q).l2g.getD (e.1.dofs.getD j 0) 0 = h then e.1.mat i j else 0) * v h c else 0) else 0).sum := by
      have hstep : ∀ h ∈ Finset.range N, (if D h then (∑ q ∈ Finset.range nr, ((ranks q).toRank.elems.map fun e =>
          ∑ i ∈ Finset.range e.dofs.length, ∑ j ∈ Finset.range e.dofs.length,
          if (ranks q).toRank.l2g.getD (e.dofs.getD i 0) 0 = g ∧ (ranks q).toRank.l2g.getD (e.dofs.getD j 0) 0 = h then e.mat i j else 0).sum) * v h c else 0) =
          ∑ q ∈ Finset.range nr, ((ranks q).elems.map fun e => ∑ i ∈ Finset.range e.1.dofs.length,
            if (ranks q).l2g.getD (e.1.dofs.getD i 0) 0 = g then (if D h then
              (∑ j ∈ Finset.range e.1.dofs.length, if (ranks q).l2g.getD (e.1.dofs.getD j 0) 0 = h then e.1.mat i j else 0) * v h c else 0) else 0).sum := by
        intro h _
        by_cases hh : D h
        · rw [if_pos hh, Finset.sum_mul]
          refine Finset.sum_congr rfl fun q _ => ?_
          rw [sum_list_mul]
          change (((ranks q).elems.map (·.1)).map _).sum = _
          rw [List.map_map]
          congr 1
          refine List.map_congr_left fun e _ => ?_
          change (∑ i ∈ Finset.range e.1.dofs.length, ∑ j ∈ Finset.range e.1.dofs.length,
            if (ranks q).l2g.getD (e.1.dofs.getD i 0) 0 = g ∧ (ranks q).l2g.getD (e.1.dofs.getD j 0) 0 = h then e.1.mat i j else 0) * v h c = _
          rw [Finset.sum_mul]
          refine Finset.sum_congr rfl fun i _ => ?_
          rw [if_pos hh]
          by_cases hg : (ranks q).l2g.getD (e.1.dofs.getD i 0) 0 = g
          · simp only [hg, true_and, if_true]
          · simp only [hg, false_and, if_false, Finset.sum_const_zero, zero_mul]
        · rw [if_neg hh]
          symm
          refine Finset.sum_eq_zero fun q _ => List.sum_eq_zero fun w hw => ?_
          obtain ⟨e, _, rfl⟩ := List.mem_map.1 hw
          refine Finset.sum_eq_zero fun i _ => ?_
          simp [hh]
      rw [Finset.sum_congr rfl hstep, Finset.sum_comm]
      refine Finset.sum_congr rfl fun q _ => ?_
      rw [sum_list_comm]
      congr 1
      refine List.map_congr_left fun e _ => ?_
      rw [Finset.sum_comm]
      refine Finset.sum_congr rfl fun i _ => ?_
      split
      · rfl
      · simp
    rw [hcols, ← Finset.sum_sub_distrib]
    refine Finset.sum_congr rfl fun q hq => ?_
    have hq := Finset.mem_range.1 hq
    rw [← sum_list_sub]
    unfold rankShare
    congr 1
    refine List.map_congr_left fun e he => ?_
    rw [← Finset.sum_sub_distrib]
    refine Finset.sum_congr rfl fun i _ => ?_
    split
    · exact locRhs_eq ok v q hq c (hv q hq) e he i
    · simp
  · intro q hq d hd
    change mem (ups q) (d, c) = rankShare (ranks q) _ ((ranks q).l2g.getD d 0)
    unfold mem
    rw [fold_addAt, zero_add, total_perm _ (hups q hq)]
    exact total_rank ok nc d c q hq hd hc fun e i c => locRhs (ranks q) e i c
  · intro q hq g hg
    exact rankShare_zero ok q hq _ g hg

/-- C94, diagonal, full claim: every owned entry of the diagonal is the diagonal entry of the matrix with conditions. -/
def C94DiagStatement (K : Type) [CommRing K] : Prop :=
  ∀ (N nr : Nat) (D : Nat → Prop) [DecidablePred D] (ranks : Nat → IRank K), Ok N nr D (fun q => (ranks q).toRank) →
    ∀ ups : Nat → List ((Nat × Nat) × K), (∀ q < nr, (ups q).Perm (diagIncs (ranks q))) → ∀ me loc, me < nr → loc < (ranks me).nOwned →
      finalDiag nr ranks ups me loc = withBC D (assembled nr fun q => (ranks q).toRank) ((ranks me).l2g.getD loc 0) ((ranks me).l2g.getD loc 0)

/-- C94, diagonal, for elements whose dofs are pairwise different. -/
theorem C94_diag_partial {N nr : Nat} {D : Nat → Prop} [DecidablePred D] {ranks : Nat → IRank K} (ok : Ok N nr D fun q => (ranks q).toRank)
    (hn : ∀ q < nr, ∀ e ∈ (ranks q).elems, e.1.dofs.Nodup)
    (ups : Nat → List ((Nat × Nat) × K)) (hups : ∀ q < nr, (ups q).Perm (diagIncs (ranks q)))
    (me loc : Nat) (hme : me < nr) (hloc : loc < (ranks me).nOwned) :
    finalDiag nr ranks ups me loc =
      withBC D (assembled nr fun q => (ranks q).toRank) ((ranks me).l2g.getD loc 0) ((ranks me).l2g.getD loc 0) := by
  unfold finalDiag
  rw [store_eq ok _ _ me loc hme hloc]
  unfold withBC
  by_cases hD : D ((ranks me).l2g.getD loc 0)
  · rw [if_pos hD, if_pos (Or.inl hD), if_pos rfl]
  rw [if_neg hD, if_neg (by tauto)]
  rw [result_shares ok _ (fun q => rankShare (ranks q) fun e i => e.1.mat i i) 0 ?_ ?_ me loc hme hloc]
  · change ∑ q ∈ Finset.range nr, rankShare (ranks q) (fun e i => e.1.mat i i) ((ranks me).l2g.getD loc 0) = _
    generalize (ranks me).l2g.getD loc 0 = g
    unfold assembled
    refine Finset.sum_congr rfl fun q hq => ?_
    have hq := Finset.mem_range.1 hq
    unfold rankShare
    change _ = (((ranks q).elems.map (·.1)).map _).sum
    rw [List.map_map]
    congr 1
    refine List.map_congr_left fun e he => ?_
    change _ = ∑ i ∈ Finset.range e.1.dofs.length, ∑ j ∈ Finset.range e.1.dofs.length,
      if (ranks q).l2g.getD (e.1.dofs.getD i 0) 0 = g ∧ (ranks q).l2g.getD (e.1.dofs.getD j 0) 0 = g then e.1.mat i j else 0
    refine Finset.sum_congr rfl fun i hi => ?_
    have hi := Finset.mem_range.1 hi
    have hdof : ∀ j < e.1.dofs.length, e.1.dofs.getD j 0 < (ranks q).l2g.length := fun j hj => ok.dofs q hq e.1 (mem_elems he) _ (getD_lt hj)
    by_cases hg : (ranks q).l2g.getD (e.1.dofs.getD i 0) 0 = g
    · rw [if_pos hg, Finset.sum_eq_single i]
      · rw [if_pos ⟨hg, hg⟩]
      · intro j hj hne
        rw [if_neg]
        rintro ⟨-, h2⟩
        have hj := Finset.mem_range.1 hj
        exact hne (getD_inj (hn q hq e he) hj hi (getD_inj (ok.nodup q hq) (hdof j hj) (hdof i hi) (h2.trans hg.symm)))
      · intro h; exact absurd (Finset.mem_range.2 hi) h
    · rw [if_neg hg]
      symm
      refine Finset.sum_eq_zero fun j _ => ?_
      rw [if_neg (fun h => hg h.1)]
  · intro q hq d hd
    change mem (ups q) (d, 0) = rankShare (ranks q) _ ((ranks q).l2g.getD d 0)
    unfold mem
    rw [fold_addAt, zero_add, total_perm _ (hups q hq)]
    exact total_rank ok 1 d 0 q hq hd Nat.one_pos fun e i _ => e.1.mat i i
  · intro q hq g hg
    exact rankShare_zero ok q hq _ g hg

/-- One rank, one dof; one element of two nodes whose dofs coincide, as periodic conditions across a single element give. -/
def dupRanks : Nat → IRank ℤ := fun _ => ⟨1, [0], [(⟨[0, 0], fun i j => if i = j then 1 else -1⟩, fun _ _ => 0)], none, [], fun _ _ => 0⟩

theorem dupRanks_ok : Ok 1 1 (fun _ => False) fun q => (dupRanks q).toRank where
  nodup := by intro q _; simp [dupRanks, IRank.toRank]
  bound := by intro q _; simp [dupRanks, IRank.toRank]
  owned := by intro q _; simp [dupRanks, IRank.toRank]
  dofs := by intro q _; simp [dupRanks, IRank.toRank]
  unique := by intro q hq q' hq'; omega
  con := by intro q _ d _; simp [dupRanks, IRank.toRank, Rank.con]
  dir := by intro q _; simp [dupRanks, IRank.toRank, Rank.con]

/-- C94, diagonal: the full claim is false.  With an element whose two nodes share a dof the matrix entry is `1 - 1 - 1 + 1 = 0`, the
diagonal of the matrix-free system is `2`. -/
theorem C94_diag_violated : ¬C94DiagStatement ℤ := by
  intro h
  have h1 := h 1 1 (fun _ => False) dupRanks dupRanks_ok (fun q => diagIncs (dupRanks q)) (fun _ _ => List.Perm.refl _) 0 0 Nat.one_pos Nat.one_pos
  revert h1
  decide

/-- Two ranks sharing dof 1, dof 0 constrained with value 7. -/
def exI : Nat → IRank ℤ
  | 0 => ⟨2, [0, 1], [(⟨[0, 1], fun i j => 1 + 2 * i + j⟩, fun i _ => 10 + i)], some fun d => d == 0, [0], fun d _ => if d = 0 then 7 else 0⟩
  | _ => ⟨1, [2, 1], [(⟨[1, 0], fun i j => 5 + i * j⟩, fun i _ => 20 + i)], some fun _ => false, [], fun _ _ => 0⟩

theorem exI_ranks : (fun q => (exI q).toRank) = exRanks := by
  funext q
  match q with
  | 0 => rfl
  | _ + 1 => rfl

/-- The dof shared by the ranks: `(11 + 20) - 3·7` and diagonal `4 + 5`. -/
example : finalRhs 2 exI (fun q => rhsIncs (exI q) 1) 0 1 0 = 10 ∧ finalDiag 2 exI (fun q => diagIncs (exI q)) 0 1 = 9 := by decide

example : finalRhs 2 exI (fun q => rhsIncs (exI q) 1) 0 1 0 = if (1 : Nat) = 0 then 7 else
    assembledRhs 2 exI 1 0 - ∑ h ∈ Finset.range 3, if h = 0 then assembled 2 exRanks 1 h * 7 else 0 := by
  have := C94_rhs (ranks := exI) (N := 3) (nr := 2) (D := fun g => g = 0) (by rw [exI_ranks]; exact exRanks_ok) (fun _ _ => 7) 1 0 Nat.one_pos
    (by
      intro q hq d hd h
      match q, hq with
      | 0, _ => simp only [exI, List.length_cons, List.length_nil] at hd h ⊢; interval_cases d <;> simp_all
      | 1, _ => simp only [exI, List.length_cons, List.length_nil] at hd h ⊢; interval_cases d <;> simp_all)
    (fun q => rhsIncs (exI q) 1) (fun _ _ => List.Perm.refl _) 0 1 (by decide) (by decide)
  rw [exI_ranks] at this
  exact this

example : finalDiag 2 exI (fun q => diagIncs (exI q)) 0 1 = withBC (fun g => g = 0) (assembled 2 exRanks) 1 1 := by
  have := C94_diag_partial (ranks := exI) (N := 3) (nr := 2) (D := fun g => g = 0) (by rw [exI_ranks]; exact exRanks_ok)
    (by
      intro q hq
      match q, hq with
      | 0, _ => simp [exI]
      | 1, _ => simp [exI])
    (fun q => diagIncs (exI q)) (fun _ _ => List.Perm.refl _) 0 1 (by decide) (by decide)
  rw [exI_ranks] at this
  exact this

end Verif.MfInit
