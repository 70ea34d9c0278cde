import Verif.Distr.Model
import Verif.Distr.Lemmas

/-! # Lemmas for C112: a run of the program represents the problem -/
namespace Verif.Distr
open Verif Verif.Dofs Verif.Lsq Finset

noncomputable section

theorem length_flatMap_map (ns : List Nat) (is : List Nat) : (ns.flatMap fun n => is.map fun j => (n, j)).length = ns.length * is.length := by
  induction ns with
  | nil => simp
  | cons n ns ih => rw [List.flatMap_cons, List.length_append, ih, List.length_map, List.length_cons, Nat.succ_mul, Nat.add_comm]

theorem mem_keys {e : MElem} {k : Nat × Nat} : k ∈ e.keyed.keys ↔ k.1 ∈ e.nodes ∧ k.2 ∈ e.inds := by
  obtain ⟨n, j⟩ := k
  unfold MElem.keyed
  simp only [List.mem_flatMap, List.mem_map, Prod.mk.injEq]
  constructor
  · rintro ⟨n', hn, j', hj, rfl, rfl⟩; exact ⟨hn, hj⟩
  · rintro ⟨hn, hj⟩; exact ⟨n, hn, j, hj, rfl, rfl⟩

theorem problem_ok {P : MProblem} (hP : P.Ok) : P.toProblem.Ok := by
  refine ⟨?_, ?_, ?_⟩
  · intro e he
    obtain ⟨e', he', rfl⟩ := List.mem_map.1 he
    obtain ⟨h1, h2⟩ := hP.sized e' he'
    change (e'.nodes.flatMap fun n => e'.inds.map fun j => (n, j)).length = e'.dims.nb * e'.dims.nu
    rw [length_flatMap_map, h1, h2]
  · intro e he k hk
    obtain ⟨e', he', rfl⟩ := List.mem_map.1 he
    obtain ⟨w, hw, hn, hj⟩ := hP.covered e' he'
    obtain ⟨h1, h2⟩ := mem_keys.1 hk
    have hnode := (hP.node w hw).1 _ (hn h1)
    exact ⟨hnode, (hP.node w hw).2 _ (hj h2), w, hw, _, hn h1, hj h2, hP.refl _ _ hnode⟩
  · intro e he U hU
    obtain ⟨e', he', rfl⟩ := List.mem_map.1 he
    exact hP.weights e' he' U hU

variable {P : MProblem} {R : Run}

/-! ### Local and global numbers of a rank -/

theorem mem_shared {s : Setup} {r k : Nat} : k ∈ s.sharedDofs r ↔
    ¬ (s.base r ≤ k ∧ k < s.base r + s.numOwned r) ∧ ∃ n ∈ s.localNodes r, ∃ j < s.dpn, s.dofs r n j = some k := by
  unfold Setup.sharedDofs
  rw [Std.mem_sortUniq]
  simp only [List.mem_flatMap, List.mem_filterMap, List.mem_range, Option.bind_eq_some_iff]
  constructor
  · rintro ⟨n, hn, j, hj, d, hd, h1⟩
    split at h1
    · simp at h1
    · next hc => obtain rfl := Option.some.inj h1; exact ⟨hc, n, hn, j, hj, hd⟩
  · rintro ⟨hc, n, hn, j, hj, hd⟩
    exact ⟨n, hn, j, hj, k, hd, if_neg hc⟩

theorem mem_localNodes {s : Setup} {r n : Nat} : n ∈ s.localNodes r ↔ s.owns r n = true ∨ n ∈ s.ghosts r ++ s.pghosts r := by
  unfold Setup.localNodes Setup.owns
  rw [List.mem_append, Std.mem_sort, List.mem_map, decide_eq_true_iff]
  refine or_congr_left ?_
  simp only [List.mem_range]
  constructor
  · rintro ⟨i, hi, rfl⟩; omega
  · rintro ⟨h1, h2⟩; exact ⟨n - s.world.begin r, by omega, by omega⟩

theorem dof_lt_total {s : Setup} (h : s.Ok) {r : Nat} (hr : r < s.counts.length) {n j k : Nat}
    (hn : s.owns r n = true ∨ n ∈ s.ghosts r ++ s.pghosts r) (hk : s.dofs r n j = some k) : k < s.total := by
  rw [dofs_iff h hr j k hn] at hk
  rw [← all_length]
  exact (List.getElem?_eq_some_iff.1 hk).1

theorem base_succ (s : Setup) (r : Nat) : s.base (r + 1) = s.base r + s.numOwned r := by
  rw [base_eq, base_eq, List.range_succ, numOwned_eq]; simp

theorem base_mono (s : Setup) {r r' : Nat} (h : r ≤ r') : s.base r ≤ s.base r' := by
  induction h with
  | refl => exact Nat.le_refl _
  | step _ ih => rw [base_succ]; omega

theorem base_total (s : Setup) : s.base s.counts.length = s.total := by
  rw [base_eq]; unfold Setup.total; congr 1
  exact List.map_congr_left fun r _ => (numOwned_eq s r).symm

theorem block_lt {s : Setup} {r i : Nat} (hr : r < s.counts.length) (hi : i < s.numOwned r) : s.base r + i < s.total := by
  have h1 := base_mono s (show r + 1 ≤ s.counts.length from hr)
  rw [base_succ, base_total] at h1
  omega

theorem block_unique {s : Setup} {r r' g : Nat} (h : s.base r ≤ g ∧ g < s.base r + s.numOwned r) (h' : s.base r' ≤ g ∧ g < s.base r' + s.numOwned r') : r = r' := by
  rcases Nat.lt_trichotomy r r' with hlt | he | hlt
  · have := base_mono s (show r + 1 ≤ r' from hlt); rw [base_succ] at this; omega
  · exact he
  · have := base_mono s (show r' + 1 ≤ r from hlt); rw [base_succ] at this; omega

theorem block_exists {s : Setup} {g : Nat} (h : g < s.total) : ∃ r < s.counts.length, s.base r ≤ g ∧ g < s.base r + s.numOwned r := by
  rw [← base_total] at h
  have key : ∀ m, g < s.base m → ∃ r < m, s.base r ≤ g ∧ g < s.base r + s.numOwned r := by
    intro m
    induction m with
    | zero => intro h; have : s.base 0 = 0 := rfl; omega
    | succ m ih =>
      intro h
      by_cases hm : g < s.base m
      · obtain ⟨r, hr, h2⟩ := ih hm; exact ⟨r, by omega, h2⟩
      · rw [base_succ] at h; exact ⟨m, by omega, by omega, h⟩
  exact key _ h

theorem l2g_length (R : Run) (r : Nat) : (R.l2g r).length = R.s.numOwned r + (Std.sort (R.s.sharedDofs r)).length := by
  unfold Run.l2g; simp

theorem l2g_owned (R : Run) {r i : Nat} (hi : i < R.s.numOwned r) : (R.l2g r).getD i 0 = R.s.base r + i := by
  unfold Run.l2g
  rw [List.getD_eq_getElem?_getD, List.getElem?_append_left (by simpa using hi), List.getElem?_map, List.getElem?_range hi]
  rfl

theorem l2g_get {r : Nat} {o : Own.SegOwn} (ho : R.s.dofOwn r = some o) (l : Nat) : (R.l2g r)[l]? = o.getGlobal l := by
  have ho' : Own.SegOwn.make (R.s.base r) (R.s.numOwned r) (R.s.sharedDofs r) = some o := ho
  have h1 := (Own.make_some ho').1
  rw [h1]
  unfold Run.l2g Own.SegOwn.getGlobal
  by_cases hl : l < R.s.numOwned r
  · rw [if_pos (by exact hl), List.getElem?_append_left (by simpa using hl), List.getElem?_map, List.getElem?_range hl]; rfl
  · rw [if_neg (by exact hl), List.getElem?_append_right (by simpa using hl), List.length_map, List.length_range]

theorem l2g_nodup (R : Run) (r : Nat) : (R.l2g r).Nodup := by
  unfold Run.l2g
  refine List.nodup_append.2 ⟨?_, ?_, ?_⟩
  · exact (List.nodup_range).map fun a b h => by omega
  · exact (Std.sort_perm _).nodup_iff.2 (Std.sortUniq_nodup _)
  · intro a ha b hb hab
    subst hab
    obtain ⟨i, hi, rfl⟩ := List.mem_map.1 ha
    rw [Std.mem_sort] at hb
    have := List.mem_range.1 hi
    exact (mem_shared.1 hb).1 ⟨by omega, by omega⟩

theorem l2g_lt (h : R.Of P) {r : Nat} (hr : r < R.nr) {g : Nat} (hg : g ∈ R.l2g r) : g < R.s.total := by
  unfold Run.l2g at hg
  rcases List.mem_append.1 hg with hg | hg
  · obtain ⟨i, hi, rfl⟩ := List.mem_map.1 hg
    exact block_lt hr (List.mem_range.1 hi)
  · rw [Std.mem_sort] at hg
    obtain ⟨_, n, hn, j, _, hd⟩ := mem_shared.1 hg
    exact dof_lt_total h.ok hr (mem_localNodes.1 hn) hd

/-! ### Numbers of unknowns -/

theorem new_lt (h : R.Of P) {n : Nat} (hn : P.node n) : R.new n < R.s.counts.sum := (h.nodes _).2 ⟨n, hn, rfl⟩

theorem knows_owner {s : Setup} {n : Nat} (h : n < s.counts.sum) : s.Knows (s.owner n) n := Or.inl (owns_owner h).2

theorem dofs_owner {s : Setup} (h : s.Ok) {r n j : Nat} (hr : r < s.counts.length) (hn : s.owns r n = true ∨ n ∈ s.ghosts r ++ s.pghosts r) :
    s.dofs r n j = s.dofs (s.owner n) n j := by
  have hlt := local_lt h hr hn
  have ho := owns_owner hlt
  apply Option.ext
  intro k
  have h1 := dofs_iff h hr j k hn
  have h2 := dofs_iff h ho.1 j k (Or.inl ho.2)
  rw [h1, h2]

/-- Visits as listed. -/
theorem sees_of_eq {R : Run} {r : Nat} {ws : List Visit} (hok : R.s.Ok) (hr : r < R.nr) (h : R.s.visits r = ws.map fun w => ⟨w.nodes.map R.new, w.active⟩) : R.Sees r ws := by
  unfold Run.Sees
  rw [h]
  refine ⟨fun m j => ?_, fun w hw n hn => ?_⟩
  · constructor
    · rintro ⟨_, hw, hm, hj⟩
      obtain ⟨w, hw', rfl⟩ := List.mem_map.1 hw
      exact ⟨w, hw', hm, hj⟩
    · rintro ⟨w, hw, hm, hj⟩
      exact ⟨_, List.mem_map.2 ⟨w, hw, rfl⟩, hm, hj⟩
  · exact (hok.visits r hr ⟨w.nodes.map R.new, w.active⟩ (by rw [h]; exact List.mem_map.2 ⟨w, hw, rfl⟩)).1 _ (List.mem_map.2 ⟨n, hn, rfl⟩)

theorem active_iff (hP : P.Ok) (h : R.Of P) {n j : Nat} (hn : P.node n) :
    (∃ m < R.s.counts.sum, R.s.Active m j ∧ R.s.rep m j = R.s.rep (R.new n) j) ↔ ∃ w ∈ P.visits, ∃ m ∈ w.nodes, j ∈ w.active ∧ P.ident j m n := by
  constructor
  · rintro ⟨m, _, ⟨r, hr, w, hw, hm, hj⟩, he⟩
    obtain ⟨w', hw', hm, hj⟩ := ((h.setup r hr).1 m j).1 ⟨w, hw, hm, hj⟩
    obtain ⟨m', hm', rfl⟩ := List.mem_map.1 hm
    have hw'' : w' ∈ P.visits := h.visits.subset (List.mem_flatMap.2 ⟨r, List.mem_range.2 hr, hw'⟩)
    exact ⟨w', hw'', m', hm', hj, (h.ident j m' n ((hP.node w' hw'').1 m' hm') hn).1 he⟩
  · rintro ⟨w, hw, m, hm, hj, hi⟩
    obtain ⟨r, hr, hw'⟩ := List.mem_flatMap.1 (h.visits.symm.subset hw)
    have hr := List.mem_range.1 hr
    have hmn := (hP.node w hw).1 m hm
    exact ⟨R.new m, new_lt h hmn, ⟨r, hr, ((h.setup r hr).1 _ j).2 ⟨w, hw', List.mem_map.2 ⟨m, hm, rfl⟩, hj⟩⟩, (h.ident j m n hmn hn).2 hi⟩

theorem some_iff (hP : P.Ok) (h : R.Of P) (hm : R.Marked) {n j : Nat} (hn : P.node n) (hj : j < P.dpn) :
    (R.s.dofs (R.s.owner (R.new n)) (R.new n) j).isSome = true ↔ P.toProblem.used (n, j) := by
  have hlt := new_lt h hn
  have ho := owns_owner hlt
  rw [C39_active_partial h.ok ho.1 (knows_owner hlt) (by rw [h.dpn]; exact hj) fun m => hm j m, active_iff hP h hn]
  exact ⟨fun hh => ⟨hn, hj, hh⟩, fun hh => hh.2.2⟩

theorem used_num (hP : P.Ok) (h : R.Of P) (hm : R.Marked) {k : Nat × Nat} (hk : P.toProblem.used k) :
    R.s.dofs (R.s.owner (R.new k.1)) (R.new k.1) k.2 = some (R.num k) := by
  have := (some_iff hP h hm hk.1 hk.2.1).2 hk
  obtain ⟨g, hg⟩ := Option.isSome_iff_exists.1 this
  unfold Run.num
  rw [hg]; rfl

theorem num_inj (hP : P.Ok) (h : R.Of P) (hm : R.Marked) {k k' : Nat × Nat} (hk : P.toProblem.used k) (hk' : P.toProblem.used k') :
    R.num k = R.num k' ↔ P.toProblem.same k k' := by
  have h1 := used_num hP h hm hk
  have h2 := used_num hP h hm hk'
  have l1 := new_lt h hk.1
  have l2 := new_lt h hk'.1
  constructor
  · intro he
    rw [← he] at h2
    obtain ⟨e1, e2⟩ := C39_unique h.ok (owns_owner l1).1 (owns_owner l2).1 (knows_owner l1) (knows_owner l2) h1 h2
    refine ⟨e1, (h.ident k.2 _ _ hk.1 hk'.1).1 ?_⟩
    rw [e2, e1]
  · rintro ⟨e1, e2⟩
    rw [dofs_iff h.ok (owns_owner l1).1 _ _ (Or.inl (owns_owner l1).2), (h.ident k.2 _ _ hk.1 hk'.1).2 e2] at h1
    rw [dofs_iff h.ok (owns_owner l2).1 _ _ (Or.inl (owns_owner l2).2), ← e1] at h2
    obtain ⟨b1, g1⟩ := List.getElem?_eq_some_iff.1 h1
    obtain ⟨b2, g2⟩ := List.getElem?_eq_some_iff.1 h2
    exact ((all_nodup R.s).getElem_inj_iff).1 (g1.trans g2.symm)

theorem num_lt (hP : P.Ok) (h : R.Of P) (hm : R.Marked) {k : Nat × Nat} (hk : P.toProblem.used k) : R.num k < R.s.total :=
  have l := new_lt h hk.1
  dof_lt_total h.ok (owns_owner l).1 (Or.inl (owns_owner l).2) (used_num hP h hm hk)

theorem num_surj (hP : P.Ok) (h : R.Of P) (hm : R.Marked) {g : Nat} (hg : g < R.s.total) : ∃ k, P.toProblem.used k ∧ R.num k = g := by
  obtain ⟨r, hr, n, j, hn, hj, hd⟩ := (C39_fill h.ok g).1 hg
  have hlt := local_lt h.ok hr (knows_local hn)
  obtain ⟨n', hn', rfl⟩ := (h.nodes n).1 hlt
  rw [dofs_owner h.ok hr (knows_local hn)] at hd
  refine ⟨(n', j), (some_iff hP h hm hn' (by rw [← h.dpn]; exact hj)).1 (by rw [hd]; rfl), ?_⟩
  unfold Run.num
  rw [hd]; rfl

/-! ### Elements -/

theorem local_dof (hP : P.Ok) (h : R.Of P) (hm : R.Marked) {r : Nat} (hr : r < R.nr) {e : MElem} (he : e ∈ R.part r) {n j : Nat}
    (hn : n ∈ e.nodes) (hj : j ∈ e.inds) :
    ((R.s.localDof r (R.new n) j).join).getD 0 < (R.l2g r).length ∧ (R.l2g r).getD (((R.s.localDof r (R.new n) j).join).getD 0) 0 = R.num (n, j) := by
  obtain ⟨w, hw, hwn, hwj⟩ := h.covered r hr e he
  have hwP : w ∈ P.visits := h.visits.subset (List.mem_flatMap.2 ⟨r, List.mem_range.2 hr, hw⟩)
  have hnode := (hP.node w hwP).1 n (hwn hn)
  have hjd := (hP.node w hwP).2 j (hwj hj)
  have hused : P.toProblem.used (n, j) := ⟨hnode, hjd, w, hwP, n, hwn hn, hwj hj, hP.refl j n hnode⟩
  have hkn : R.s.Knows r (R.new n) := (h.setup r hr).2 w hw n (hwn hn)
  have hd : R.s.dofs r (R.new n) j = some (R.num (n, j)) := by
    rw [dofs_owner h.ok hr (knows_local hkn)]; exact used_num hP h hm hused
  obtain ⟨o, ho, _, hl⟩ := C39_ownership (s := R.s) (r := r)
  obtain ⟨l, h1, h2, h3, _⟩ := hl _ (mem_localNodes.2 (knows_local hkn)) j (by rw [h.dpn]; exact hjd) _ hd
  rw [h1]
  have hg : (R.l2g r)[l]? = some (R.num (n, j)) := (l2g_get ho l).trans h3
  refine ⟨(List.getElem?_eq_some_iff.1 hg).1, ?_⟩
  rw [List.getD_eq_getElem?_getD]
  change ((R.l2g r)[l]?).getD 0 = _
  rw [hg]; rfl

theorem mem_elem_dofs {r : Nat} {e : MElem} {d : Nat} (hd : d ∈ (R.elem r e).dofs) :
    ∃ n ∈ e.nodes, ∃ j ∈ e.inds, d = ((R.s.localDof r (R.new n) j).join).getD 0 := by
  obtain ⟨n, hn, hd⟩ := List.mem_flatMap.1 hd
  obtain ⟨n', hn', rfl⟩ := List.mem_map.1 hn
  obtain ⟨j, hj, rfl⟩ := List.mem_map.1 hd
  exact ⟨n', hn', j, hj, rfl⟩

theorem elem_numbered (hP : P.Ok) (h : R.Of P) (hm : R.Marked) {r : Nat} (hr : r < R.nr) {e : MElem} (he : e ∈ R.part r) :
    Numbered R.num (R.l2g r) e.keyed (R.elem r e) := by
  refine ⟨?_, rfl, rfl⟩
  have key : ∀ ns : List Nat, ns ⊆ e.nodes →
      ((ns.map R.new).flatMap fun n => e.inds.map fun j => ((R.s.localDof r n j).join).getD 0).map (fun d => (R.l2g r).getD d 0) =
        (ns.flatMap fun n => e.inds.map fun j => (n, j)).map R.num := by
    intro ns
    induction ns with
    | nil => intro _; rfl
    | cons n ns ih =>
      intro hs
      rw [List.map_cons, List.flatMap_cons, List.flatMap_cons, List.map_append, List.map_append, ih fun a ha => hs (by simp [ha])]
      congr 1
      rw [List.map_map, List.map_map]
      refine List.map_congr_left fun j hj => ?_
      exact (local_dof hP h hm hr he (hs (by simp)) hj).2
  exact key e.nodes fun _ ha => ha

theorem run_represents (hP : P.Ok) (h : R.Of P) (hm : R.Marked) :
    Represents P.toProblem R.s.total R.nr (R.D P) R.rank R.v R.num := by
  refine ⟨⟨?_, ?_, ?_, ?_, ?_, ?_, ?_⟩, ⟨fun q => (R.part q).map MElem.keyed, ?_, ?_⟩, ?_, ?_, ?_, ?_, h.val⟩
  · exact fun q _ => l2g_nodup R q
  · exact fun q hq g hg => l2g_lt h hq hg
  · intro q _
    change R.s.numOwned q ≤ (R.l2g q).length
    rw [l2g_length]; omega
  · intro q hq e he d hd
    obtain ⟨e1, he1, rfl⟩ := List.mem_map.1 he
    obtain ⟨e2, he2, rfl⟩ := List.mem_map.1 he1
    obtain ⟨e3, he3, rfl⟩ := List.mem_map.1 he2
    obtain ⟨n, hn, j, hj, rfl⟩ := mem_elem_dofs hd
    exact (local_dof hP h hm hq he3 hn hj).1
  · intro q hq q' hq' a ha b hb hab
    change (R.l2g q).getD a 0 = (R.l2g q').getD b 0 at hab
    have ha : a < R.s.numOwned q := ha
    have hb : b < R.s.numOwned q' := hb
    rw [l2g_owned R ha, l2g_owned R hb] at hab
    exact block_unique (s := R.s) (g := R.s.base q + a) ⟨by omega, by omega⟩ ⟨by omega, by omega⟩
  · exact h.con
  · exact h.dir
  · have hmap : ((List.range R.nr).flatMap fun q => (R.part q).map MElem.keyed) = ((List.range R.nr).flatMap R.part).map MElem.keyed := by
      rw [List.map_flatMap]
    rw [hmap]
    exact h.elems.map _
  · intro q hq
    change List.Forall₂ _ _ ((R.part q).map (R.elem q))
    rw [List.forall₂_map_left_iff, List.forall₂_map_right_iff]
    refine List.forall₂_same.2 fun e he => elem_numbered hP h hm hq he
  · exact fun k k' hk hk' => num_inj hP h hm hk hk'
  · exact fun k hk => num_lt hP h hm hk
  · exact fun g hg => num_surj hP h hm hg
  · exact fun g _ => Iff.rfl

theorem run_cover (g : Nat) (hg : g < R.s.total) : ∃ q < R.nr, ∃ a < (R.rank q).nOwned, (R.rank q).l2g.getD a 0 = g := by
  obtain ⟨r, hr, h1, h2⟩ := block_exists hg
  refine ⟨r, hr, g - R.s.base r, ?_, ?_⟩
  · change g - R.s.base r < R.s.numOwned r; omega
  · change (R.l2g r).getD _ 0 = g
    rw [l2g_owned R (by omega)]; omega

end

end Verif.Distr
