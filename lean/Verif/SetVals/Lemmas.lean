import Verif.SetVals.Spec
import Verif.Reach.Props

/-! # Lemmas for C124 -/
namespace Verif.SetVals
open Verif Verif.Elem Verif.Mesh Verif.Dofs Verif.Reach Verif.NodeVals Verif.Pipeline Verif.Partition

noncomputable section
variable {K : Type}

/-! ### Owners of dofs -/

theorem take_counts (s : Setup) {r : Nat} (hr : r ≤ s.counts.length) : ((dofCounts s).take r).sum = s.base r := by
  unfold dofCounts Setup.base
  rw [← List.map_take, List.take_range, Nat.min_eq_left hr]
  split
  · next h => subst h; rfl
  · rfl

theorem home_spec {s : Setup} {g : Nat} (hg : g < s.total) :
    (dofHome s g).1 < s.counts.length ∧ s.base (dofHome s g).1 + (dofHome s g).2 = g ∧ (dofHome s g).2 < s.numOwned (dofHome s g).1 := by
  obtain ⟨h, h1, h2, _⟩ := Own.C09_owner_unique (dofCounts s) g hg
  have hl : Own.getOwner (Own.ownDist (dofCounts s)) g < s.counts.length := by
    have : (dofCounts s).length = s.counts.length := by simp [dofCounts]
    rw [← this]; exact h
  rw [take_counts s hl.le] at h1 h2
  have h3 : (dofCounts s)[Own.getOwner (Own.ownDist (dofCounts s)) g] = s.numOwned (Own.getOwner (Own.ownDist (dofCounts s)) g) := by simp [dofCounts]
  rw [h3] at h2
  refine ⟨hl, ?_, ?_⟩
  · exact Nat.add_sub_cancel' h1
  · exact Nat.sub_lt_left_of_lt_add h1 h2

theorem home_unique {s : Setup} {g o : Nat} (hg : g < s.total) (ho : o < s.counts.length) (h1 : s.base o ≤ g) (h2 : g < s.base o + s.numOwned o) : (dofHome s g).1 = o := by
  obtain ⟨_, _, _, hu⟩ := Own.C09_owner_unique (dofCounts s) g hg
  have hl : o < (dofCounts s).length := by simpa [dofCounts] using ho
  refine (hu o hl ?_ ?_).symm
  · rw [take_counts s ho.le]; exact h1
  · rw [take_counts s ho.le]; simpa [dofCounts] using h2

theorem rank_mk {s : Setup} (border interior : Nat → List (Entry K)) {r : Nat} (hr : r < s.counts.length) : rank (mkWorld s border interior) r = mkRank s border interior r := by
  unfold rank mkWorld
  rw [List.getElem?_eq_getElem (by simpa using hr)]
  simp

theorem world_length (s : Setup) (border interior : Nat → List (Entry K)) : (mkWorld s border interior).length = s.counts.length := by simp [mkWorld]

theorem shared_lt {s : Setup} (h : s.Ok) {r : Nat} (hr : r < s.counts.length) {g : Nat} (hg : g ∈ s.sharedDofs r) : g < s.total := by
  unfold Setup.sharedDofs at hg
  rw [Std.mem_sortUniq] at hg
  simp only [List.mem_flatMap, List.mem_filterMap, List.mem_range, Option.bind_eq_some_iff] at hg
  obtain ⟨n, hn, j, hj, d, hd, h1⟩ := hg
  split at h1
  · simp at h1
  · obtain rfl := Option.some.inj h1
    rw [dofs_iff h hr j d (Distr.mem_localNodes.1 hn)] at hd
    rw [← all_length]
    exact (List.getElem?_eq_some_iff.1 hd).1

theorem singleton_of {l : List Nat} (hn : l.Nodup) {t : Nat} (h : ∀ x, x ∈ l ↔ x = t) : l = [t] := by
  refine List.perm_singleton.1 ((List.perm_ext_iff_of_nodup hn (List.nodup_singleton t)).2 fun x => ?_)
  rw [h, List.mem_singleton]

/-- Ghost slots of a rank for a dof: the one position of the dof among the rank's ghosts, if it is one. -/
theorem slots_mk {s : Setup} (h : s.Ok) (border interior : Nat → List (Entry K)) {r : Nat} (hr : r < s.counts.length) {g : Nat} (hg : g < s.total) :
    (g ∉ s.sharedDofs r → slots (mkWorld s border interior) r (dofHome s g).1 (dofHome s g).2 = []) ∧
    (g ∈ s.sharedDofs r → ∃ t, (Std.sort (s.sharedDofs r))[t]? = some g ∧ slots (mkWorld s border interior) r (dofHome s g).1 (dofHome s g).2 = [t]) := by
  have hnd : (Std.sort (s.sharedDofs r)).Nodup := (Std.sort_perm _).nodup_iff.2 (Std.sortUniq_nodup _)
  have hiff : ∀ j, j ∈ slots (mkWorld s border interior) r (dofHome s g).1 (dofHome s g).2 ↔ (Std.sort (s.sharedDofs r))[j]? = some g := by
    intro j
    unfold slots
    rw [List.mem_filter, rank_mk border interior hr]
    simp only [mkRank, List.length_map, List.mem_range, List.getElem?_map, decide_eq_true_eq, Option.map_eq_some_iff]
    constructor
    · rintro ⟨_, g', hg', he⟩
      have hl := shared_lt h hr (Std.mem_sort.1 (List.mem_of_getElem? hg'))
      have h1 := (home_spec hl).2.1
      rw [he] at h1
      have h2 := (home_spec hg).2.1
      rw [hg', ← h1]
      exact congrArg some h2
    · intro hj
      exact ⟨(List.getElem?_eq_some_iff.1 hj).1, g, hj, rfl⟩
  constructor
  · intro hn
    rw [List.eq_nil_iff_forall_not_mem]
    intro j hj
    exact hn (Std.mem_sort.1 (List.mem_of_getElem? ((hiff j).1 hj)))
  · intro hm
    obtain ⟨t, ht, he⟩ := List.mem_iff_getElem.1 (Std.mem_sort.2 hm)
    have htg : (Std.sort (s.sharedDofs r))[t]? = some g := by rw [List.getElem?_eq_getElem ht, he]
    refine ⟨t, htg, singleton_of ?_ fun x => ?_⟩
    · unfold slots
      exact List.Nodup.filter _ List.nodup_range
    · rw [hiff]
      constructor
      · intro hx
        obtain ⟨hx1, hx2⟩ := List.getElem?_eq_some_iff.1 hx
        exact (List.Nodup.getElem_inj_iff hnd).1 (hx2.trans he.symm)
      · rintro rfl; exact htg

/-! ### Entries by dof -/

/-- The local number of a dof identifies it. -/
theorem local_iff {s : Setup} {r : Nat} {o : Own.SegOwn} (ho : s.dofOwn r = some o) {n j g' : Nat} (hk : s.Knows r n) (hj : j < s.dpn) (hd : s.dofs r n j = some g')
    {l g : Nat} (hll : l < o.localSize) (hl : o.getGlobal l = some g) : ((s.localDof r n j).join).getD 0 = l ↔ g' = g := by
  obtain ⟨o', ho', _, hdof⟩ := @C39_ownership s r
  obtain rfl : o = o' := Option.some.inj (ho.symm.trans ho')
  obtain ⟨l', h1, h2, h3, _⟩ := hdof n (Distr.mem_localNodes.2 (knows_local hk)) j hj g' hd
  rw [h1]
  change l' = l ↔ _
  constructor
  · rintro rfl
    exact Option.some.inj (h3.symm.trans hl)
  · rintro rfl
    obtain ⟨g1, a1, a2, _⟩ := Own.C08_local_global_local _ _ _ (Std.sortUniq_nodup _) o ho l' h2
    obtain ⟨g2, b1, b2, _⟩ := Own.C08_local_global_local _ _ _ (Std.sortUniq_nodup _) o ho l hll
    have e1 : g1 = g' := Option.some.inj (a1.symm.trans h3)
    have e2 : g2 = g' := Option.some.inj (b1.symm.trans hl)
    rw [← a2, ← b2, e1, e2]

theorem entriesOf_at (dofs : Nat → Nat → Option Nat) (inds : List Nat) (F : Kern K) (g : Nat → Nat) (L : List Pt) :
    entriesOf dofs inds F (L.map (Pt.map g)) = entriesOf (fun n j => dofs (g n) j) inds F L := by
  unfold entriesOf
  rw [List.flatMap_map]; rfl

theorem entriesOf_append (dofs : Nat → Nat → Option Nat) (inds : List Nat) (F : Kern K) (L M : List Pt) :
    entriesOf dofs inds F (L ++ M) = entriesOf dofs inds F L ++ entriesOf dofs inds F M := by
  unfold entriesOf
  rw [List.flatMap_append]

theorem entriesOf_perm (dofs : Nat → Nat → Option Nat) (inds : List Nat) (F : Kern K) {L M : List Pt} (h : L.Perm M) :
    (entriesOf dofs inds F L).Perm (entriesOf dofs inds F M) := h.flatMap_right _

theorem entriesOf_congr {dofs dofs' : Nat → Nat → Option Nat} {inds : List Nat} (F : Kern K) {L : List Pt} (h : ∀ pt ∈ L, ∀ j ∈ inds, dofs pt.node j = dofs' pt.node j) :
    entriesOf dofs inds F L = entriesOf dofs' inds F L := by
  unfold entriesOf
  refine List.flatMap_congr fun pt hpt => List.map_congr_left fun q hq => ?_
  rw [h pt hpt q.1 (List.mem_of_getElem? (List.mem_zipIdx_iff_getElem?.1 hq))]

variable {kinds : List (ElType × Nat)} {m : DomMap} {bnds : List Nat} {D N nParts : Nat} {parts : List Split.Part} {f : Nat → Nat} {maps : List DomMap} {p : Prog}

/-- The points are known to the rank and their components have dofs. -/
def Known (s : Setup) (r : Nat) (inds : List Nat) (L : List Pt) : Prop := ∀ pt ∈ L, s.Knows r pt.node ∧ ∀ j ∈ inds, ∃ g, s.dofs r pt.node j = some g

/-- What the entries of a rank bring to a local dof. -/
theorem atDof_entries (hp : p.Ok m bnds) (R : Result bnds m N nParts parts f maps) {r : Nat} (hr : r < nParts) {inds : List Nat} (F : Kern K) {L : List Pt}
    (hL : Known (p.setup parts) r inds L) {o : Own.SegOwn} (ho : (p.setup parts).dofOwn r = some o) {l g : Nat} (hll : l < o.localSize) (hl : o.getGlobal l = some g)
    {k : Nat × Nat} (hk : (p.setup parts).all[g]? = some k) :
    atDof (entriesOf (fun n j => ((p.setup parts).localDof r n j).join) inds F L) l =
      L.flatMap fun pt => (inds.zipIdx.filter fun q => decide (pt.node = k.1 ∧ q.1 = k.2)).map fun q => F.at pt q.2 := by
  have hs := setup_ok hp R
  have hlen : r < (p.setup parts).counts.length := by rw [setup_length p R]; exact hr
  unfold atDof entriesOf
  rw [List.filter_flatMap, List.map_flatMap]
  refine List.flatMap_congr fun pt hpt => ?_
  rw [List.filter_map, List.map_map]
  have : (inds.zipIdx.filter ((fun e : Entry K => decide (e.1 = l)) ∘ fun q => ((((p.setup parts).localDof r pt.node q.1).join).getD 0, F.at pt q.2))) =
      inds.zipIdx.filter fun q => decide (pt.node = k.1 ∧ q.1 = k.2) := by
    refine List.filter_congr fun q hq => ?_
    obtain ⟨hkn, hd⟩ := hL pt hpt
    obtain ⟨g', hg'⟩ := hd q.1 (List.mem_of_getElem? (List.mem_zipIdx_iff_getElem?.1 hq))
    have hj := dof_lt_dpn hs hlen (knows_local hkn) hg'
    simp only [Function.comp_apply]
    rw [decide_eq_decide, local_iff ho hkn hj hg' hll hl]
    rw [dofs_iff hs hlen q.1 g' (knows_local hkn), rep_eq] at hg'
    constructor
    · rintro rfl
      have := Option.some.inj (hg'.symm.trans hk)
      rw [← this]; exact ⟨rfl, rfl⟩
    · rintro ⟨h1, h2⟩
      rw [h1, h2] at hg'
      obtain ⟨x1, x2⟩ := List.getElem?_eq_some_iff.1 hg'
      obtain ⟨y1, y2⟩ := List.getElem?_eq_some_iff.1 hk
      exact (List.Nodup.getElem_inj_iff (all_nodup _)).1 (x2.trans y2.symm)
  rw [this]; rfl

theorem split_one {A : Type} (n o : Nat) (ho : o < n) (G : Nat → List A) : ((List.range n).flatMap G).Perm (G o ++ (List.range n).flatMap fun r => if r = o then [] else G r) := by
  have h1 : (List.range n).flatMap (fun r => if r = o then G r else []) = G o := by
    have key : ∀ l : List Nat, l.Nodup → o ∈ l → l.flatMap (fun r => if r = o then G r else []) = G o := by
      intro l
      induction l with
      | nil => intro _ h; simp at h
      | cons a l ih =>
        intro hnd hm
        rw [List.flatMap_cons]
        obtain ⟨hna, hnl⟩ := List.nodup_cons.1 hnd
        by_cases ha : a = o
        · subst ha
          rw [if_pos rfl]
          have : l.flatMap (fun r => if r = a then G r else []) = [] := by
            rw [List.flatMap_eq_nil_iff]
            intro x hx
            rw [if_neg]
            rintro rfl; exact hna hx
          rw [this, List.append_nil]
        · rw [if_neg ha, List.nil_append, ih hnl]
          rcases List.mem_cons.1 hm with h | h
          · exact absurd h.symm ha
          · exact h
    exact key _ List.nodup_range (List.mem_range.2 ho)
  have h2 := flatMap_append_perm (List.range n) (fun r => if r = o then G r else []) (fun r => if r = o then [] else G r)
  rw [h1] at h2
  refine List.Perm.trans (List.Perm.of_eq ?_) h2
  refine List.flatMap_congr fun r _ => ?_
  by_cases h : r = o <;> simp [h]

/-- Everything contributed to a dof, on its owner and on ranks which have it as a ghost: what the points of all ranks contribute to its node and component. -/
theorem contribs_perm (hp : p.Ok m bnds) (R : Result bnds m N nParts parts f maps) {inds : List Nat} (F : Kern K) {Ls : Nat → List Pt}
    (hL : ∀ r < nParts, Known (p.setup parts) r inds (Ls r)) {border interior : Nat → List (Entry K)}
    (hent : ∀ r < nParts, (border r ++ interior r).Perm (entriesOf (fun n j => ((p.setup parts).localDof r n j).join) inds F (Ls r)))
    {g : Nat} {k : Nat × Nat} (hk : (p.setup parts).all[g]? = some k) :
    (contribs (mkWorld (p.setup parts) border interior) (dofHome (p.setup parts) g).1 (dofHome (p.setup parts) g).2).Perm
      (((List.range nParts).flatMap Ls).flatMap fun pt => (inds.zipIdx.filter fun q => decide (pt.node = k.1 ∧ q.1 = k.2)).map fun q => F.at pt q.2) := by
  have hs := setup_ok hp R
  have hn := setup_length p R
  have hg : g < (p.setup parts).total := by rw [← all_length]; exact (List.getElem?_eq_some_iff.1 hk).1
  obtain ⟨h1, h2, h3⟩ := home_spec hg
  generalize ho : (dofHome (p.setup parts) g).1 = o at *
  generalize hi : (dofHome (p.setup parts) g).2 = i at *
  have ho' : o < nParts := by rw [← hn]; exact h1
  set G : Nat → List (Nat → K) := fun r => (Ls r).flatMap fun pt => (inds.zipIdx.filter fun q => decide (pt.node = k.1 ∧ q.1 = k.2)).map fun q => F.at pt q.2 with hG
  rw [List.flatMap_assoc]
  refine List.Perm.trans ?_ (split_one nParts o ho' G).symm
  have hloc : ∀ r < nParts, ∀ w, (p.setup parts).dofOwn r = some w → ∀ l, l < w.localSize → w.getGlobal l = some g → (atDof (border r ++ interior r) l).Perm (G r) := by
    intro r hr w hw l hl1 hl2
    exact (atDof_perm (hent r hr) l).trans (List.Perm.of_eq (atDof_entries hp R hr F (hL r hr) hw hl1 hl2 hk))
  unfold contribs
  refine List.Perm.append ?_ ?_
  · rw [rank_mk border interior h1]
    obtain ⟨w, hw, _⟩ := @C39_ownership (p.setup parts) o
    have hmk := (Own.make_some hw).1
    refine hloc o ho' w hw i ?_ ?_
    · rw [hmk]; simp [Own.SegOwn.localSize]; omega
    · rw [hmk]
      unfold Own.SegOwn.getGlobal
      rw [if_pos h3]
      exact congrArg some h2
  · unfold ghostContribs
    rw [world_length, hn]
    refine flatMap_perm_congr fun r hr => ?_
    have hr := List.mem_range.1 hr
    have hr' : r < (p.setup parts).counts.length := by rw [hn]; exact hr
    obtain ⟨s1, s2⟩ := slots_mk hs border interior hr' hg
    rw [ho, hi] at s1 s2
    obtain ⟨w, hw, hown, _⟩ := @C39_ownership (p.setup parts) r
    have hmk := (Own.make_some hw).1
    have hsh : ∀ {d : Nat}, d ∈ (p.setup parts).sharedDofs r → ¬ ((p.setup parts).base r ≤ d ∧ d < (p.setup parts).base r + (p.setup parts).numOwned r) := by
      intro d hd hc
      exact (Own.make_some hw).2 d hd hc
    by_cases hm : g ∈ (p.setup parts).sharedDofs r
    · obtain ⟨t, ht, he⟩ := s2 hm
      have hne : r ≠ o := by
        rintro rfl
        exact hsh hm ⟨by omega, by omega⟩
      rw [he, if_neg hne, List.flatMap_singleton, rank_mk border interior hr']
      refine hloc r hr w hw _ ?_ ?_
      · rw [hmk]
        have := (List.getElem?_eq_some_iff.1 ht).1
        simp only [mkRank, Own.SegOwn.localSize]
        omega
      · rw [hmk]
        unfold Own.SegOwn.getGlobal
        rw [if_neg (by simp [mkRank])]
        simpa [mkRank] using ht
    · rw [s1 hm, List.flatMap_nil]
      refine List.Perm.of_eq ?_
      by_cases hro : r = o
      · rw [if_pos hro]
      · rw [if_neg hro]
        symm
        simp only [hG]
        rw [List.flatMap_eq_nil_iff]
        intro pt hpt
        rw [List.map_eq_nil_iff, List.filter_eq_nil_iff]
        intro q hq hc
        obtain ⟨c1, c2⟩ := of_decide_eq_true hc
        obtain ⟨hkn, hd⟩ := hL r hr pt hpt
        obtain ⟨g', hg'⟩ := hd q.1 (List.mem_of_getElem? (List.mem_zipIdx_iff_getElem?.1 hq))
        have hj := dof_lt_dpn hs hr' (knows_local hkn) hg'
        have hgg : g' = g := by
          have h5 := hg'
          rw [dofs_iff hs hr' q.1 g' (knows_local hkn), rep_eq, c1, c2] at h5
          obtain ⟨x1, x2⟩ := List.getElem?_eq_some_iff.1 h5
          obtain ⟨y1, y2⟩ := List.getElem?_eq_some_iff.1 hk
          exact (List.Nodup.getElem_inj_iff (all_nodup _)).1 (x2.trans y2.symm)
        subst hgg
        apply hm
        unfold Setup.sharedDofs
        rw [Std.mem_sortUniq]
        refine List.mem_flatMap.2 ⟨pt.node, Distr.mem_localNodes.2 (knows_local hkn), List.mem_filterMap.2 ⟨q.1, List.mem_range.2 hj, ?_⟩⟩
        rw [hg', Option.bind_some, if_neg]
        rintro ⟨b1, b2⟩
        exact hro ((home_unique hg hr' b1 b2).symm.trans ho)

end
end Verif.SetVals
