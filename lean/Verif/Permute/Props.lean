import Verif.Permute.Model
import Verif.Mesh.Props

/-! # Property C38: reassigning mesh parts to ranks -/
namespace Verif.Permute
open Verif Verif.Own

/-- `src` is a permutation of the ranks and ghost lists have no repetitions. -/
structure Ok (w : World) (src : List Nat) : Prop where
  valid : w.Valid
  ghosts : ∀ l ∈ w.shared, l.Nodup
  perm : src.Perm (List.range w.counts.length)

/-- Node `g` is owned by part `p`. -/
def Owns (w : World) (p g : Nat) : Prop := w.begin p ≤ g ∧ g < w.begin p + (w.counts[p]?).getD 0

/-- Part `p` knows node `g`, as owner or as ghost. -/
def Knows (w : World) (p g : Nat) : Prop := Owns w p g ∨ g ∈ (w.shared[p]?).getD []

theorem owner_of {w : World} {g : Nat} (hg : g < w.counts.sum) : ∃ p, p < w.counts.length ∧ Owns w p g ∧ getOwner (ownDist w.counts) g = p := by
  obtain ⟨h, h1, h2, _⟩ := C09_owner_unique w.counts g hg
  exact ⟨_, h, ⟨h1, by rw [List.getElem?_eq_getElem h]; exact h2⟩, rfl⟩

theorem owns_lt {w : World} {p g : Nat} (h : Owns w p g) : g < w.counts.sum ∧ p < w.counts.length := by
  obtain ⟨h1, h2⟩ := h
  by_cases hp : p < w.counts.length
  · rw [List.getElem?_eq_getElem hp] at h2
    have h3 := Std.sum_take_succ w.counts hp
    have h4 := Std.sum_take_le_sum w.counts (p + 1)
    unfold World.begin at h2
    simp only [Option.getD_some] at h2
    exact ⟨by omega, hp⟩
  · rw [List.getElem?_eq_none (by omega)] at h2
    simp at h2; omega

theorem newId_owned {w : World} {src : List Nat} {p g : Nat} (h : Owns w p g) : newId w src g = newBegin w src p + (g - w.begin p) := by
  unfold newId
  rw [(w.owner_iff g (owns_lt h).1 p).2 h]

theorem dest_lt {w : World} {src : List Nat} (h : Ok w src) {p : Nat} (hp : p < w.counts.length) : dest src p < src.length ∧ src[dest src p]? = some p := by
  have hm : p ∈ src := h.perm.mem_iff.2 (List.mem_range.2 hp)
  have hl := List.idxOf_lt_length_of_mem hm
  exact ⟨hl, by unfold dest; rw [List.getElem?_eq_getElem hl, List.getElem_idxOf hl]⟩

theorem newCounts_dest {w : World} {src : List Nat} (h : Ok w src) {p : Nat} (hp : p < w.counts.length) :
    (newCounts w src)[dest src p]? = some ((w.counts[p]?).getD 0) := by
  unfold newCounts
  rw [List.getElem?_map, (dest_lt h hp).2]; rfl

theorem sum_newCounts {w : World} {src : List Nat} (h : Ok w src) : (newCounts w src).sum = w.counts.sum := by
  unfold newCounts
  rw [(h.perm.map _).sum_nat]
  congr 1
  apply List.ext_getElem (by simp)
  intro i h1 h2
  simp [List.getElem?_eq_getElem h2]

/-- The new id lies in the block of the rank which receives the owning part. -/
theorem newId_block {w : World} {src : List Nat} (h : Ok w src) {p g : Nat} (hg : Owns w p g) :
    ((newCounts w src).take (dest src p)).sum ≤ newId w src g ∧
      newId w src g < ((newCounts w src).take (dest src p)).sum + ((newCounts w src)[dest src p]?).getD 0 := by
  rw [newId_owned hg, newCounts_dest h (owns_lt hg).2]
  obtain ⟨h1, h2⟩ := hg
  unfold newBegin
  simp only [Option.getD_some]
  omega

/-- **C38** (new ids): nodes get new ids below the number of nodes, distinct nodes get distinct ids, and rank `q` owns the
`q`-th consecutive block. -/
theorem C38_new_ids {w : World} {src : List Nat} (h : Ok w src) :
    (∀ g, g < w.counts.sum → newId w src g < w.counts.sum) ∧
    (∀ g g', g < w.counts.sum → g' < w.counts.sum → newId w src g = newId w src g' → g = g') ∧
    ∀ q p g, src[q]? = some p → (Owns w p g ↔ g < w.counts.sum ∧ ((newCounts w src).take q).sum ≤ newId w src g ∧ newId w src g < ((newCounts w src).take (q + 1)).sum) := by
  have hlt : ∀ g, g < w.counts.sum → newId w src g < w.counts.sum := by
    intro g hg
    obtain ⟨p, hp, ho, _⟩ := owner_of hg
    obtain ⟨_, h2⟩ := newId_block h ho
    rw [← sum_newCounts h]
    have hd := (dest_lt h hp).1
    have hl : dest src p < (newCounts w src).length := by simpa [newCounts] using hd
    rw [List.getElem?_eq_getElem hl] at h2
    have h3 := Std.sum_take_succ (newCounts w src) hl
    have h4 := Std.sum_take_le_sum (newCounts w src) (dest src p + 1)
    simp only [Option.getD_some] at h2
    omega
  have hblock : ∀ g p, Owns w p g → getOwner (ownDist (newCounts w src)) (newId w src g) = dest src p := by
    intro g p ho
    exact ((⟨newCounts w src, []⟩ : World).owner_iff (newId w src g) (by rw [sum_newCounts h]; exact hlt g (owns_lt ho).1) (dest src p)).2 (newId_block h ho)
  refine ⟨hlt, fun g g' hg hg' he => ?_, fun q p g hq => ?_⟩
  · obtain ⟨p, hp, ho, _⟩ := owner_of hg
    obtain ⟨p', hp', ho', _⟩ := owner_of hg'
    have h1 := hblock g p ho
    have h2 := hblock g' p' ho'
    rw [he, h2] at h1
    have h3 := (dest_lt h hp).2
    have h4 := (dest_lt h hp').2
    rw [h1] at h4
    obtain rfl := Option.some.inj (h3.symm.trans h4)
    rw [newId_owned ho, newId_owned ho'] at he
    obtain ⟨a1, _⟩ := ho
    obtain ⟨b1, _⟩ := ho'
    omega
  · have hnd : src.Nodup := h.perm.nodup_iff.2 List.nodup_range
    have hql := (List.getElem?_eq_some_iff.1 hq).1
    have hpl : p < w.counts.length := List.mem_range.1 (h.perm.mem_iff.1 (List.mem_of_getElem? hq))
    have hdq : dest src p = q := by
      obtain ⟨h1, h2⟩ := dest_lt h hpl
      rw [List.getElem?_eq_getElem h1] at h2
      rw [List.getElem?_eq_getElem hql] at hq
      exact (List.Nodup.getElem_inj_iff hnd).1 (Option.some.inj (h2.trans hq.symm))
    have hnl : q < (newCounts w src).length := by simpa [newCounts] using hql
    constructor
    · intro ho
      have := newId_block h ho
      rw [hdq, List.getElem?_eq_getElem hnl] at this
      rw [Std.sum_take_succ _ hnl]
      exact ⟨(owns_lt ho).1, this⟩
    · rintro ⟨hg, h1, h2⟩
      obtain ⟨p', hp', ho, _⟩ := owner_of hg
      have h3 := hblock g p' ho
      have h4 : getOwner (ownDist (newCounts w src)) (newId w src g) = q := by
        refine ((⟨newCounts w src, []⟩ : World).owner_iff (newId w src g) (by rw [sum_newCounts h]; exact hlt g hg) q).2 ⟨h1, ?_⟩
        rw [Std.sum_take_succ _ hnl] at h2
        simp only [World.begin]
        rw [List.getElem?_eq_getElem hnl]
        exact h2
      rw [h4] at h3
      have h5 := (dest_lt h hp').2
      rw [← h3, hq] at h5
      rw [Option.some.inj h5]; exact ho

theorem shared_mem {w : World} {src : List Nat} (h : Ok w src) {p : Nat} (hp : p < w.counts.length) :
    ∃ hl : p < w.shared.length, (w.shared[p]?).getD [] = w.shared[p] := by
  have hl : p < w.shared.length := by rw [h.valid.len]; exact hp
  exact ⟨hl, by rw [List.getElem?_eq_getElem hl]; rfl⟩

theorem ghost_lt {w : World} {src : List Nat} (h : Ok w src) {p : Nat} (hp : p < w.counts.length) {g : Nat} (hg : g ∈ (w.shared[p]?).getD []) :
    g < w.counts.sum ∧ ¬ Owns w p g := by
  obtain ⟨hl, he⟩ := shared_mem h hp
  rw [he] at hg
  exact ⟨h.valid.exist _ (List.getElem_mem hl) g hg, h.valid.notOwn p hl g hg⟩

theorem newShared_nodup {w : World} {src : List Nat} (h : Ok w src) {p : Nat} (hp : p < w.counts.length) : (newShared w src p).Nodup := by
  unfold newShared
  obtain ⟨hl, he⟩ := shared_mem h hp
  refine List.Nodup.map_on (fun a ha b hb hab => ?_) (Std.sort_nodup (he ▸ h.ghosts _ (List.getElem_mem hl)))
  exact (C38_new_ids h).2.1 a b (ghost_lt h hp (Std.mem_sort.1 ha)).1 (ghost_lt h hp (Std.mem_sort.1 hb)).1 hab

/-- Both ownership objects can be built. -/
theorem owns_exist {w : World} {src : List Nat} (h : Ok w src) {p : Nat} (hp : p < w.counts.length) :
    w.own p = some ⟨w.begin p, (w.counts[p]?).getD 0, Std.sort ((w.shared[p]?).getD [])⟩ ∧
      newOwn w src p = some ⟨newBegin w src p, (w.counts[p]?).getD 0, Std.sort (newShared w src p)⟩ := by
  constructor
  · cases ho : w.own p with
    | none =>
      obtain ⟨s, hs, hc⟩ := (C08_constructor _ _ _).1 ho
      exact absurd hc (ghost_lt h hp hs).2
    | some o => rw [(make_some ho).1]
  · cases ho : newOwn w src p with
    | none =>
      obtain ⟨s, hs, hc⟩ := (C08_constructor _ _ _).1 ho
      obtain ⟨g, hg, rfl⟩ := List.mem_map.1 hs
      obtain ⟨g1, g2⟩ := ghost_lt h hp (Std.mem_sort.1 hg)
      have hd := dest_lt h hp
      have hnl : dest src p < (newCounts w src).length := by simpa [newCounts] using hd.1
      refine absurd (((C38_new_ids h).2.2 (dest src p) p g hd.2).2 ⟨g1, hc.1, ?_⟩) g2
      rw [Std.sum_take_succ _ hnl]
      have := newCounts_dest h hp
      rw [List.getElem?_eq_getElem hnl] at this
      rw [Option.some.inj this]; exact hc.2
    | some o => rw [(make_some ho).1]

/-- What `old2new` computes: owned nodes get their new id; the `j`-th ghost in old order gets the `j`-th smallest
new ghost id. -/
theorem C38_old2new {w : World} {src : List Nat} (h : Ok w src) {p : Nat} (hp : p < w.counts.length) :
    (∀ g, Owns w p g → old2new w src p g = some (newId w src g)) ∧
    ∀ (j g : Nat), (Std.sort ((w.shared[p]?).getD []))[j]? = some g → old2new w src p g = (Std.sort (newShared w src p))[j]? := by
  obtain ⟨h1, h2⟩ := owns_exist h hp
  refine ⟨fun g hg => ?_, fun j g hj => ?_⟩
  · unfold old2new
    rw [h1, h2, Option.bind_some, Option.bind_some, newId_owned hg]
    unfold SegOwn.getLocal SegOwn.isOwned
    obtain ⟨a, b⟩ := hg
    rw [if_pos (by simpa using ⟨a, b⟩)]
    unfold SegOwn.getGlobal
    simp only
    rw [if_pos (by omega)]
  · unfold old2new
    rw [h1, h2, Option.bind_some, Option.bind_some]
    obtain ⟨hjl, hje⟩ := List.getElem?_eq_some_iff.1 hj
    obtain ⟨hl, he⟩ := shared_mem h hp
    have hnd : ((w.shared[p]?).getD []).Nodup := he ▸ h.ghosts _ (List.getElem_mem hl)
    have hmem : g ∈ (w.shared[p]?).getD [] := Std.mem_sort.1 (List.mem_of_getElem? hj)
    unfold SegOwn.getLocal SegOwn.isOwned
    rw [if_neg (by simpa using fun a => Nat.le_of_not_lt fun b => (ghost_lt h hp hmem).2 ⟨a, b⟩)]
    unfold SegOwn.getGlobal
    simp only
    rw [if_neg (by omega), ← hje, Std.lowerBound_getElem (Std.sort_strict hnd) hjl]
    congr 1; omega

/-- C38 as one would like it: on every part, each known node is renamed to its new id. -/
def C38Statement : Prop := ∀ (w : World) (src : List Nat), Ok w src → ∀ p g, p < w.counts.length → Knows w p g → old2new w src p g = some (newId w src g)

/-- Three parts with one node each; part 2 has both other nodes as ghosts; parts 0 and 1 are exchanged. -/
def exWorld : World := ⟨[1, 1, 1], [[], [], [0, 1]]⟩

theorem ex_ok : Ok exWorld [1, 0, 2] := by
  refine ⟨⟨rfl, by decide, ?_⟩, by decide, by decide⟩
  intro r hr i hi
  have : ∀ r < 3, ∀ i ∈ (exWorld.shared[r]?).getD [], ¬ (exWorld.begin r ≤ i ∧ i < exWorld.begin r + (exWorld.counts[r]?).getD 0) := by decide
  exact this r hr i (by rw [List.getElem?_eq_getElem hr]; exact hi)

/-- **C38** fails: exchanging two ranks leaves the ghosts of a third one with each other's ids, so that ranks disagree about
the same node. -/
theorem C38_ghosts_violated : ¬ C38Statement := fun h =>
  absurd (h exWorld [1, 0, 2] ex_ok 2 0 (by decide) (Or.inr (by decide))) (by decide +kernel)

/-- The same situation seen by two ranks: the owner calls the node 1, the ghost holder calls it 0. -/
theorem C38_disagree_violated : ∃ (w : World) (src : List Nat) (p p' g : Nat), Ok w src ∧ p < w.counts.length ∧ p' < w.counts.length ∧ Knows w p g ∧ Knows w p' g ∧
    old2new w src p g ≠ old2new w src p' g :=
  ⟨exWorld, [1, 0, 2], 0, 2, 0, ex_ok, by decide, by decide, Or.inl ⟨by decide, by decide⟩, Or.inr (by decide), by decide +kernel⟩

/-- **C38** (exactly when it holds): a part is renamed correctly if and only if the new ids of its ghosts increase with the old
ones; in particular for parts without ghosts, and for all parts if the order of the ranks is kept. -/
theorem C38_renaming_partial {w : World} {src : List Nat} (h : Ok w src) {p : Nat} (hp : p < w.counts.length) :
    (∀ g, Knows w p g → old2new w src p g = some (newId w src g)) ↔
      ((Std.sort ((w.shared[p]?).getD [])).map (newId w src)).Pairwise (· < ·) := by
  obtain ⟨h1, h2⟩ := C38_old2new h hp
  constructor
  · intro ha
    have he : Std.sort (newShared w src p) = newShared w src p := by
      apply List.ext_getElem?
      intro j
      by_cases hj : j < (Std.sort ((w.shared[p]?).getD [])).length
      · have hm : (Std.sort ((w.shared[p]?).getD []))[j] ∈ (w.shared[p]?).getD [] := Std.mem_sort.1 (List.getElem_mem hj)
        rw [← h2 j _ (List.getElem?_eq_getElem hj), ha _ (Or.inr hm)]
        unfold newShared
        rw [List.getElem?_map, List.getElem?_eq_getElem hj]; rfl
      · rw [List.getElem?_eq_none (by rw [Std.length_sort]; simp [newShared] at hj ⊢; omega), List.getElem?_eq_none (by simp [newShared] at hj ⊢; omega)]
    have := Std.sort_strict (newShared_nodup h hp)
    rw [he] at this
    exact this
  · intro hs g hk
    rcases hk with ho | hg
    · exact h1 g ho
    · obtain ⟨j, hj⟩ := List.mem_iff_getElem?.1 (Std.mem_sort.2 hg)
      rw [h2 j g hj, show Std.sort (newShared w src p) = newShared w src p from Std.sort_eq_of_sorted (hs.imp Nat.le_of_lt)]
      unfold newShared
      rw [List.getElem?_map, hj]; rfl

/-- **C38** (saved ids).  The list of old ids handed over with a part stays attached to its nodes: whatever the renaming does, the
local index of a node is unchanged, so the entry at the new local index is the one the node had. -/
theorem C38_saved_ids_attached {w : World} {src : List Nat} (h : Ok w src) {p : Nat} (hp : p < w.counts.length) :
    ∃ old new, w.own p = some old ∧ newOwn w src p = some new ∧ ∀ (ids : List Nat) (g : Nat), Knows w p g →
      ∃ g', old2new w src p g = some g' ∧ ids[new.getLocal g']? = ids[old.getLocal g]? := by
  obtain ⟨h1, h2⟩ := owns_exist h hp
  refine ⟨_, _, h1, h2, fun ids g hk => ?_⟩
  obtain ⟨hl, he⟩ := shared_mem h hp
  have hnd : ((w.shared[p]?).getD []).Nodup := he ▸ h.ghosts _ (List.getElem_mem hl)
  have hg := C08_global_local_global _ _ _ hnd _ h1 g hk
  have hsz : (⟨newBegin w src p, (w.counts[p]?).getD 0, Std.sort (newShared w src p)⟩ : SegOwn).localSize =
      (⟨w.begin p, (w.counts[p]?).getD 0, Std.sort ((w.shared[p]?).getD [])⟩ : SegOwn).localSize := by
    simp [SegOwn.localSize, Std.length_sort, newShared]
  obtain ⟨g', hg1, hg2, _⟩ := C08_local_global_local _ _ _ (newShared_nodup h hp) _ h2 _ (hsz ▸ hg.2.1)
  refine ⟨g', ?_, by rw [hg2]⟩
  unfold old2new
  rw [h1, h2, Option.bind_some, Option.bind_some, hg1]

/-- **C38** (old ids after partitioning): the entry at a node's local index is its old id. -/
theorem C38_old_node_ids {first cnt : Nat} {sh : List Nat} (hsh : sh.Nodup) {o : SegOwn} (ho : SegOwn.make first cnt sh = some o) {newToOld : List (Nat × Nat)}
    {ids : List Nat} (h : oldNodeIds o newToOld = some ids) :
    ids.length = o.localSize ∧ ∀ g, ((first ≤ g ∧ g < first + cnt) ∨ g ∈ sh) → ids[o.getLocal g]? = newToOld.lookup g := by
  obtain ⟨rfl, _⟩ := make_some ho
  unfold oldNodeIds at h
  have hf := Mesh.mapM_forall₂ _ _ _ h
  have hlen := hf.length_eq
  refine ⟨by rw [← hlen]; simp [SegOwn.localSize], fun g hg => ?_⟩
  obtain ⟨h1, h2, _⟩ := C08_global_local_global _ _ _ hsh _ ho g hg
  set l := SegOwn.getLocal ⟨first, cnt, Std.sort sh⟩ g with hl
  have hget : ((List.range cnt).map (first + ·) ++ Std.sort sh)[l]? = some g := by
    unfold SegOwn.getGlobal at h1
    simp only at h1
    by_cases hc : l < cnt
    · rw [if_pos hc] at h1
      rw [List.getElem?_append_left (by simpa using hc)]
      simpa [hc] using h1
    · rw [if_neg hc] at h1
      rw [List.getElem?_append_right (by simpa using hc)]
      simpa using h1
  obtain ⟨hl1, hl2⟩ := List.getElem?_eq_some_iff.1 hget
  have hi := (List.forall₂_iff_get.1 hf).2 l hl1 (by rw [← hlen]; exact hl1)
  simp only [List.get_eq_getElem] at hi
  rw [hl2] at hi
  rw [hi, List.getElem?_eq_getElem]

theorem mapM_eq_some {α β : Type} {f : α → Option β} {g : α → β} : ∀ {l : List α}, (∀ a ∈ l, f a = some (g a)) → l.mapM f = some (l.map g)
  | [], _ => rfl
  | a :: l, h => by
    rw [List.mapM_cons, h a (by simp), mapM_eq_some (fun b hb => h b (by simp [hb]))]; rfl

theorem min_block (a : Nat) : ∀ n, 0 < n → ((List.range n).map (a + ·)).min? = some a := by
  intro n hn
  rw [List.min?_eq_some_iff]
  exact ⟨List.mem_map.2 ⟨0, by simpa using hn, rfl⟩, fun b hb => by obtain ⟨i, _, rfl⟩ := List.mem_map.1 hb; omega⟩

/-- The ownership of the reindexed part; where it owns nothing the first id is 0 (MeshPartition.hpp 175), without consequences. -/
theorem ownership_any {w : World} {src : List Nat} (h : Ok w src) {p : Nat} (hp : p < w.counts.length) :
    ∃ o, reindexedOwn w src p = some o ∧ o.cnt = (w.counts[p]?).getD 0 ∧ o.shared.Pairwise (· < ·) ∧
      (∀ n, o.isOwned n = true ↔ ∃ g, Owns w p g ∧ newId w src g = n) ∧
      ∀ n, n ∈ o.shared ↔ ∃ g ∈ (w.shared[p]?).getD [], newId w src g = n := by
  obtain ⟨h1, h2⟩ := owns_exist h hp
  obtain ⟨h3, h4⟩ := C38_old2new h hp
  have hown : ((List.range ((w.counts[p]?).getD 0)).mapM fun i => old2new w src p (w.begin p + i)) =
      some ((List.range ((w.counts[p]?).getD 0)).map (newBegin w src p + ·)) := by
    refine mapM_eq_some fun i hi => ?_
    have ho : Owns w p (w.begin p + i) := ⟨by omega, by have := List.mem_range.1 hi; omega⟩
    rw [h3 _ ho, newId_owned ho]
    congr 2; omega
  have hsh : (Std.sort ((w.shared[p]?).getD [])).mapM (old2new w src p) = some (Std.sort (newShared w src p)) := by
    have hlen : (Std.sort ((w.shared[p]?).getD [])).length = (Std.sort (newShared w src p)).length := by simp [Std.length_sort, newShared]
    have : (Std.sort (newShared w src p)) = (Std.sort ((w.shared[p]?).getD [])).map (fun g => (old2new w src p g).getD 0) := by
      apply List.ext_getElem?
      intro j
      rw [List.getElem?_map]
      by_cases hj : j < (Std.sort ((w.shared[p]?).getD [])).length
      · rw [List.getElem?_eq_getElem hj, Option.map_some, h4 j _ (List.getElem?_eq_getElem hj), List.getElem?_eq_getElem (hlen ▸ hj)]
        rfl
      · rw [List.getElem?_eq_none (by omega), List.getElem?_eq_none (by omega)]; rfl
    rw [this]
    refine mapM_eq_some fun g hg => ?_
    obtain ⟨j, hj⟩ := List.mem_iff_getElem?.1 hg
    have hjl := (List.getElem?_eq_some_iff.1 hj).1
    rw [h4 j g hj, List.getElem?_eq_getElem (hlen ▸ hjl)]
    rfl
  obtain ⟨b, hb, hre⟩ : ∃ b, (0 < (w.counts[p]?).getD 0 → b = newBegin w src p) ∧
      reindexedOwn w src p = some ⟨b, (w.counts[p]?).getD 0, Std.sort (newShared w src p)⟩ := by
    refine ⟨(((List.range ((w.counts[p]?).getD 0)).map (newBegin w src p + ·)).min?).getD 0, fun hc => ?_, ?_⟩
    · rw [min_block _ _ hc]; rfl
    · unfold reindexedOwn
      rw [h1, Option.bind_some]
      simp only
      rw [hown, Option.bind_some, hsh, Option.bind_some]
      cases hm : SegOwn.make ((((List.range ((w.counts[p]?).getD 0)).map (newBegin w src p + ·)).min?).getD 0) ((w.counts[p]?).getD 0) (Std.sort (newShared w src p)) with
      | none =>
        obtain ⟨s, hs, hb⟩ := (C08_constructor _ _ _).1 hm
        rw [min_block _ _ (by omega), Option.getD_some] at hb
        have h2' := h2
        unfold newOwn at h2'
        exact absurd ((C08_constructor _ _ _).2 ⟨s, Std.mem_sort.1 hs, hb⟩) (by rw [h2']; simp)
      | some o => rw [(make_some hm).1, Std.sort_eq_of_sorted (Std.sort_sorted _)]
  refine ⟨_, hre, rfl, Std.sort_strict (newShared_nodup h hp), fun n => ?_, fun n => ?_⟩
  · unfold SegOwn.isOwned
    simp only [Bool.and_eq_true, decide_eq_true_eq]
    constructor
    · rintro ⟨a, b'⟩
      have hb := hb (by omega)
      subst hb
      have ho : Owns w p (w.begin p + (n - newBegin w src p)) := ⟨by omega, by omega⟩
      exact ⟨_, ho, by rw [newId_owned ho]; omega⟩
    · rintro ⟨g, ho, rfl⟩
      rw [newId_owned ho]
      obtain ⟨a, b'⟩ := ho
      have hb := hb (by omega)
      omega
  · simp only [Std.mem_sort, newShared, List.mem_map]

/-- **C38** (ownership): whatever the renaming does to individual ghosts, the ownership of the reindexed part is the right one:
the block of the new rank, and as ghosts exactly the new ids of the old ghosts. -/
theorem C38_ownership {w : World} {src : List Nat} (h : Ok w src) {p : Nat} (hp : p < w.counts.length) :
    ∃ o, reindexedOwn w src p = some o ∧ (∀ n, o.isOwned n = true ↔ ∃ g, Owns w p g ∧ newId w src g = n) ∧
      ∀ n, n ∈ o.shared ↔ ∃ g ∈ (w.shared[p]?).getD [], newId w src g = n := by
  obtain ⟨o, h1, _, _, h2, h3⟩ := ownership_any h hp
  exact ⟨o, h1, h2, h3⟩

/-- Two of three parts exchanged, ghosts in monotone position: everything is right. -/
example : Ok ⟨[2, 1, 1], [[2], [0], [1, 2]]⟩ [0, 2, 1] ∧
    ((Std.sort [1, 2]).map (newId ⟨[2, 1, 1], [[2], [0], [1, 2]]⟩ [0, 2, 1])).Pairwise (· < ·) ∧
    old2new ⟨[2, 1, 1], [[2], [0], [1, 2]]⟩ [0, 2, 1] 2 2 = some 3 := by
  refine ⟨⟨⟨rfl, by decide, ?_⟩, by decide, by decide⟩, by decide +kernel, by decide +kernel⟩
  intro r hr i hi
  have : ∀ r < 3, ∀ i ∈ (([[2], [0], [1, 2]] : List (List Nat))[r]?).getD [], ¬ (World.begin ⟨[2, 1, 1], [[2], [0], [1, 2]]⟩ r ≤ i ∧ i < World.begin ⟨[2, 1, 1], [[2], [0], [1, 2]]⟩ r + (([2, 1, 1] : List Nat)[r]?).getD 0) := by decide
  exact this r hr i (by simp only at hr hi ⊢; rw [List.getElem?_eq_getElem hr]; exact hi)

example : oldNodeIds ⟨4, 2, [1, 9]⟩ [(1, 10), (4, 40), (5, 50), (9, 90)] = some [40, 50, 10, 90] := by decide

end Verif.Permute
