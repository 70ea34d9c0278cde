import Verif.Mesh.Model
import Verif.Elem.Props
import Verif.Own.Props

/-! # Properties C21, C22, C23: meshes -/
namespace Verif.Mesh
open Verif Verif.Elem

/-! ## C21: lookup -/

/-- All elements of a mesh, independent of any visiting machinery. -/
def Holds (m : DomMap) (e : Element) : Prop := ∃ d ∈ m, ∃ v ∈ d.2.vecs, e ∈ v

theorem findVecs_some {p : Element → Bool} {vs : List (List Element)} {e : Element} (h : findVecs p vs = some e) :
    (∃ v ∈ vs, e ∈ v) ∧ p e = true := by
  induction vs with
  | nil => simp [findVecs] at h
  | cons v vs ih =>
    simp only [findVecs] at h
    split at h
    · rename_i e' he
      cases h
      exact ⟨⟨v, by simp, List.mem_of_find?_eq_some he⟩, List.find?_some he⟩
    · obtain ⟨⟨w, hw, hm⟩, hp⟩ := ih h
      exact ⟨⟨w, by simp [hw], hm⟩, hp⟩

theorem findVecs_none {p : Element → Bool} {vs : List (List Element)} :
    findVecs p vs = none ↔ ∀ v ∈ vs, ∀ e ∈ v, p e = false := by
  induction vs with
  | nil => simp [findVecs]
  | cons v vs ih =>
    simp only [findVecs]
    cases hf : v.find? p with
    | some e =>
      have h1 := List.mem_of_find?_eq_some hf
      have h2 := List.find?_some hf
      simp only [reduceCtorEq, List.mem_cons, forall_eq_or_imp, false_iff, not_and]
      intro h
      have := h e h1
      rw [h2] at this; simp at this
    | none =>
      rw [List.find?_eq_none] at hf
      simp only [ih, List.mem_cons, forall_eq_or_imp]
      exact ⟨fun h => ⟨fun e he => by simpa using hf e he, h⟩, fun h => h.2⟩

/-- Elements of the domains with the given ids. -/
def HoldsIn (m : DomMap) (ids : List Nat) (e : Element) : Prop := ∃ i ∈ ids, ∃ d, m.lookup i = some d ∧ ∃ v ∈ d.vecs, e ∈ v

theorem findPred_some {m : DomMap} {ids : List Nat} {p : Element → Bool} {e : Element} (h : findPred m ids p = some e) :
    HoldsIn m ids e ∧ p e = true := by
  unfold findPred at h
  obtain ⟨i, hi, h⟩ := List.exists_of_findSome?_eq_some h
  rw [Option.bind_eq_some_iff] at h
  obtain ⟨d, hd, h⟩ := h
  obtain ⟨hv, hp⟩ := findVecs_some h
  exact ⟨⟨i, (List.mem_filter.1 hi).1, d, hd, hv⟩, hp⟩

theorem findPred_none {m : DomMap} {ids : List Nat} {p : Element → Bool} :
    findPred m ids p = none ↔ ∀ e, HoldsIn m ids e → p e = false := by
  unfold findPred
  rw [List.findSome?_eq_none_iff]
  constructor
  · rintro h e ⟨i, hi, d, hd, v, hv, he⟩
    have := h i (by simp [existing, hi, hd])
    rw [hd, Option.bind_some, findVecs_none] at this
    exact this v hv e he
  · intro h i hi
    cases hd : m.lookup i with
    | none => rfl
    | some d =>
      rw [Option.bind_some, findVecs_none]
      intro v hv e he
      exact h e ⟨i, (List.mem_filter.1 hi).1, d, hd, v, hv, he⟩

/-- **C21** (predicate lookup): `find(pred, ids)` returns an element of one of the named domains
satisfying the predicate exactly if there is one. -/
theorem C21_find_predicate (m : DomMap) (ids : List Nat) (p : Element → Bool) :
    (∀ e, findPred m ids p = some e → HoldsIn m ids e ∧ p e = true) ∧
    (findPred m ids p = none ↔ ¬ ∃ e, HoldsIn m ids e ∧ p e = true) := by
  refine ⟨fun e h => findPred_some h, ?_⟩
  rw [findPred_none]
  constructor
  · rintro h ⟨e, he, hp⟩; rw [h e he] at hp; simp at hp
  · intro h e he; by_contra hc; exact h ⟨e, he, by simpa using hc⟩

/-- C21 as one would like it. -/
def C21Statement : Prop :=
  ∀ (m : DomMap) (id : Nat), (∀ e, findId m id = some e → Holds m e ∧ e.id = id) ∧
    (findId m id = none ↔ ¬ ∃ e, Holds m e ∧ e.id = id)

/-- Three elements whose ids are not in increasing order. -/
def unsortedMesh : DomMap := [(0, ⟨some 1, [[⟨.line, 2, 0, [0, 1]⟩, ⟨.line, 2, 2, [1, 2]⟩, ⟨.line, 2, 1, [2, 3]⟩, ⟨.line, 2, 3, [3, 4]⟩]]⟩)]

/-- **C21** fails in general: with ids `0, 2, 1, 3` the shortcut for contiguous ids returns element 2
when asked for element 1. -/
theorem C21_unsorted_violated : ¬ C21Statement := fun h => by
  have := (h unsortedMesh 1).1 ⟨.line, 2, 2, [1, 2]⟩ (by decide)
  exact absurd this.2 (by decide)

/-- The other failure: the id is present but reported missing. -/
theorem C21_unsorted_missing_violated :
    ∃ m : DomMap, findId m 5 = none ∧ ∃ e, Holds m e ∧ e.id = 5 :=
  ⟨[(0, ⟨some 1, [[⟨.line, 2, 0, [0, 1]⟩, ⟨.line, 2, 5, [1, 2]⟩, ⟨.line, 2, 2, [2, 3]⟩]]⟩)], by decide,
   ⟨.line, 2, 5, [1, 2]⟩, ⟨_, List.mem_singleton.2 rfl, _, List.mem_singleton.2 rfl, by simp⟩, rfl⟩

theorem strict_contig {l : List Nat} (h : l.Pairwise (· < ·)) (hl : 0 < l.length)
    (hc : l[l.length - 1]! - l[0]! + 1 = l.length) : ∀ i (hi : i < l.length), l[i] = l[0] + i := by
  have mono : ∀ i j (hi : i < l.length) (hj : j < l.length), i ≤ j → l[i] + (j - i) ≤ l[j] := by
    intro i j hi hj hij
    induction j with
    | zero => have : i = 0 := by omega
              subst this; simp
    | succ j ih =>
      rcases Nat.eq_or_lt_of_le hij with rfl | h1
      · simp
      · have h2 := ih (by omega) (by omega)
        have h3 := List.pairwise_iff_getElem.1 h j (j + 1) (by omega) hj (by omega)
        omega
  intro i hi
  have h1 := mono 0 i hl hi (by omega)
  have h2 := mono i (l.length - 1) hi (by omega) (by omega)
  rw [getElem!_pos l _ (by omega), getElem!_pos l 0 hl] at hc
  have h3 := mono 0 (l.length - 1) hl (by omega) (by omega)
  omega

/-- One vector with increasing ids: the search is exact. -/
theorem findInVec_spec {v : List Element} (hs : (v.map (·.id)).Pairwise (· < ·)) (hb : ∀ e ∈ v, e.id < 2 ^ 64) (id : Nat) :
    (∀ e, findInVec id v = some e → e ∈ v ∧ e.id = id) ∧ (findInVec id v = none ↔ ∀ e ∈ v, e.id ≠ id) := by
  cases v with
  | nil => simp [findInVec]
  | cons f v =>
    set w := f :: v with hw
    have hlen : 0 < w.length := by simp [hw]
    have hf : w.head? = some (w[0]) := by simp [hw]
    have hl : w.getLast? = some (w[w.length - 1]) := by
      rw [List.getLast?_eq_getElem?, List.getElem?_eq_getElem]
    have hidx : ∀ i (hi : i < w.length), (w.map (·.id))[i]'(by simpa using hi) = w[i].id := by intro i hi; simp
    have hlt : ∀ i j (hi : i < w.length) (hj : j < w.length), i < j → w[i].id < w[j].id := by
      intro i j hi hj hij
      have := List.pairwise_iff_getElem.1 hs i j (by simpa using hi) (by simpa using hj) hij
      simpa using this
    have hle : ∀ i j (hi : i < w.length) (hj : j < w.length), i ≤ j → w[i].id ≤ w[j].id := by
      intro i j hi hj hij
      rcases Nat.eq_or_lt_of_le hij with rfl | h
      · exact Nat.le_refl _
      · exact Nat.le_of_lt (hlt i j hi hj h)
    unfold findInVec
    rw [hf, hl]
    simp only
    by_cases h1 : id < w[0].id ∨ w[w.length - 1].id < id
    · rw [if_pos h1]
      refine ⟨by simp, ⟨fun _ e he => ?_, fun _ => rfl⟩⟩
      obtain ⟨i, hi, rfl⟩ := List.mem_iff_getElem.1 he
      have a := hle 0 i hlen hi (by omega)
      have b := hle i (w.length - 1) hi (by omega) (by omega)
      omega
    · rw [if_neg h1]
      have h1' : w[0].id ≤ id ∧ id ≤ w[w.length - 1].id := by omega
      by_cases h2 : (w[w.length - 1].id - w[0].id + 1) % 2 ^ 64 = w.length
      · rw [if_pos h2]
        have hbl := hb w[w.length - 1] (List.getElem_mem _)
        have hc : w[w.length - 1].id - w[0].id + 1 = w.length := by
          rcases Nat.lt_or_ge (w[w.length - 1].id - w[0].id + 1) (2 ^ 64) with h | h
          · rwa [Nat.mod_eq_of_lt h] at h2
          · have : w[w.length - 1].id - w[0].id + 1 = 2 ^ 64 := by omega
            rw [this, Nat.mod_self] at h2; omega
        have hcont : ∀ i (hi : i < w.length), w[i].id = w[0].id + i := by
          intro i hi
          have := strict_contig hs (by simpa using hlen) (by
            rw [getElem!_pos _ _ (by simp; omega), getElem!_pos _ 0 (by simpa using hlen)]
            simpa using hc) i (by simpa using hi)
          simpa using this
        have hin : id - w[0].id < w.length := by omega
        rw [List.getElem?_eq_getElem hin]
        have hid := hcont _ hin
        refine ⟨fun e he => ?_, ?_⟩
        · simp only [Option.some.injEq] at he
          rw [← he]
          exact ⟨List.getElem_mem _, by rw [hid]; omega⟩
        · simp only [reduceCtorEq, false_iff, not_forall]
          exact ⟨_, List.getElem_mem hin, by simp only [ne_eq, not_not]; rw [hid]; omega⟩
      · rw [if_neg h2]
        have hlb : (w.map (·.id)).findIdx (fun x => !decide (x < id)) = Std.lowerBound (w.map (·.id)) id := rfl
        rw [hlb]
        have key := Std.mem_iff_lowerBound hs id
        rw [List.getElem?_map] at key
        generalize Std.lowerBound (w.map (·.id)) id = p at key
        cases hp : w[p]? with
        | none =>
          rw [hp] at key
          refine ⟨by simp, ⟨fun _ e he hid => ?_, fun _ => by simp⟩⟩
          have := key.1 (List.mem_map.2 ⟨e, he, hid⟩)
          simp at this
        | some e0 =>
          rw [hp] at key
          simp only [Option.map_some, Option.some.injEq] at key
          by_cases h3 : e0.id = id
          · simp only [h3, if_true]
            refine ⟨fun e he => ?_, ?_⟩
            · cases he; exact ⟨List.mem_of_getElem? hp, h3⟩
            · simp only [reduceCtorEq, false_iff, not_forall]
              exact ⟨e0, List.mem_of_getElem? hp, by simp [h3]⟩
          · simp only [h3, if_false]
            refine ⟨by simp, ⟨fun _ e he hid => ?_, fun _ => by simp⟩⟩
            exact h3 (key.1 (List.mem_map.2 ⟨e, he, hid⟩))

/-- **C21** (lookup by id), for meshes whose element vectors are sorted by id: the element returned
has the requested id, and nothing is returned exactly if no element has it. -/
theorem C21_find_id_partial (m : DomMap) (hs : ∀ d ∈ m, ∀ v ∈ d.2.vecs, (v.map (·.id)).Pairwise (· < ·))
    (hb : ∀ e, Holds m e → e.id < 2 ^ 64) (id : Nat) :
    (∀ e, findId m id = some e → Holds m e ∧ e.id = id) ∧
    (findId m id = none ↔ ¬ ∃ e, Holds m e ∧ e.id = id) := by
  unfold findId
  have spec : ∀ d ∈ m, ∀ v ∈ d.2.vecs, _ := fun d hd v hv =>
    findInVec_spec (hs d hd v hv) (fun e he => hb e ⟨d, hd, v, hv, he⟩) id
  constructor
  · intro e h
    obtain ⟨d, hd, h⟩ := List.exists_of_findSome?_eq_some h
    obtain ⟨v, hv, h⟩ := List.exists_of_findSome?_eq_some h
    obtain ⟨h1, h2⟩ := (spec d hd v hv).1 e h
    exact ⟨⟨d, hd, v, hv, h1⟩, h2⟩
  · rw [List.findSome?_eq_none_iff]
    constructor
    · rintro h ⟨e, ⟨d, hd, v, hv, he⟩, hid⟩
      have := h d hd
      rw [List.findSome?_eq_none_iff] at this
      exact (spec d hd v hv).2.1 (this v hv) e he hid
    · intro h d hd
      rw [List.findSome?_eq_none_iff]
      intro v hv
      exact (spec d hd v hv).2.2 fun e he hid => h ⟨e, ⟨d, hd, v, hv, he⟩, hid⟩

/-- Ids with a gap, two domains. -/
example : let m : DomMap := [(1, ⟨some 1, [[⟨.line, 2, 3, [0, 1]⟩, ⟨.line, 2, 7, [1, 2]⟩], []]⟩), (4, ⟨some 2, [[⟨.quad, 2, 4, [0, 1, 2, 3]⟩]]⟩)]
    (∀ d ∈ m, ∀ v ∈ d.2.vecs, (v.map (·.id)).Pairwise (· < ·)) ∧ (findId m 4).map (·.ty) = some .quad ∧ findId m 5 = none := by
  decide

/-! ## C22: ownership -/

/-- The node occurs in some element. -/
def NodeIn (m : DomMap) (x : Nat) : Prop := ∃ e, Holds m e ∧ x ∈ e.nodes

/-- Keys of a `std::map` are distinct. -/
abbrev KeysNodup (m : DomMap) : Prop := (m.map (·.1)).Nodup

theorem lookup_of_mem {m : DomMap} (hk : KeysNodup m) {d : Nat × Domain} (hd : d ∈ m) : m.lookup d.1 = some d.2 := by
  induction m with
  | nil => simp at hd
  | cons a m ih =>
    obtain ⟨ak, av⟩ := a
    simp only [KeysNodup, List.map_cons, List.nodup_cons] at hk
    rcases List.mem_cons.1 hd with rfl | hd
    · simp [List.lookup]
    · have : (d.1 == ak) = false := by
        have : d.1 ≠ ak := fun e => hk.1 (List.mem_map.2 ⟨d, hd, e⟩)
        simpa using this
      rw [List.lookup_cons, this]
      exact ih hk.2 hd

theorem mem_of_lookup {m : DomMap} {i : Nat} {d : Domain} (h : m.lookup i = some d) : (i, d) ∈ m := by
  induction m with
  | nil => simp at h
  | cons a m ih =>
    obtain ⟨ak, av⟩ := a
    rw [List.lookup_cons] at h
    split at h
    · rename_i he
      have : i = ak := by simpa using he
      cases h; subst this; simp
    · simp [ih h]

theorem mem_visitAll {m : DomMap} (hk : KeysNodup m) {e : Element} : e ∈ visitAll m ↔ Holds m e := by
  unfold visitAll visitIds Holds
  simp only [List.mem_flatMap]
  constructor
  · rintro ⟨i, hi, he⟩
    cases hl : m.lookup i with
    | none => rw [hl] at he; simp at he
    | some d =>
      rw [hl] at he
      simp only [Option.map_some, Option.getD_some, Domain.elems, List.mem_flatten] at he
      obtain ⟨v, hv, he⟩ := he
      exact ⟨(i, d), mem_of_lookup hl, v, hv, he⟩
  · rintro ⟨d, hd, v, hv, he⟩
    have hl := lookup_of_mem hk hd
    refine ⟨d.1, ?_, ?_⟩
    · simp only [existing, List.mem_filter, hl, Option.isSome_some, and_true]
      exact List.mem_map.2 ⟨d, hd, rfl⟩
    · simp only [hl, Option.map_some, Option.getD_some, Domain.elems, List.mem_flatten]
      exact ⟨v, hv, he⟩

theorem mem_nodeSet {m : DomMap} (hk : KeysNodup m) {x : Nat} : x ∈ nodeSet m ↔ NodeIn m x := by
  unfold nodeSet NodeIn
  rw [Std.mem_sortUniq]
  simp only [List.mem_flatMap, mem_visitAll hk]

/-- C22 as one would like it (constructor without explicit range). -/
def C22Statement : Prop :=
  ∀ m : DomMap, KeysNodup m → ∃ o, ownershipAll m = some o ∧ ∀ x, o.isOwned x = true ↔ NodeIn m x

theorem ownershipAll_eq (m : DomMap) : ownershipAll m = some ⟨(nodeSet m).head?.getD 0, (nodeSet m).length, []⟩ := by
  simp [ownershipAll, Own.SegOwn.make, Std.sort]

/-- **C22** fails in general: the element nodes 0 and 5 give the owned range [0, 2). -/
theorem C22_gap_violated : ¬ C22Statement := fun h => by
  obtain ⟨o, ho, hx⟩ := h [(0, ⟨some 1, [[⟨.line, 2, 0, [0, 5]⟩]]⟩)] (by decide)
  rw [ownershipAll_eq] at ho
  have e : o = ⟨0, 2, []⟩ := by
    have : (some (⟨0, 2, []⟩ : Own.SegOwn)) = some o := by rw [← ho]; decide +kernel
    simpa using this.symm
  have := (hx 1).1 (by rw [e]; decide)
  rw [← mem_nodeSet (by decide)] at this
  revert this
  decide +kernel

/-- **C22** (exact characterisation): the derived range is the node set exactly if the node ids are
consecutive; it always has the right size and starts at the smallest node. -/
theorem C22_all_nodes_partial (m : DomMap) (hk : KeysNodup m) :
    ∃ o, ownershipAll m = some o ∧ o.shared = [] ∧ o.cnt = (nodeSet m).length ∧
      ((∀ x, o.isOwned x = true ↔ NodeIn m x) ↔
        ∀ a b c, NodeIn m a → NodeIn m c → a ≤ b → b ≤ c → NodeIn m b) := by
  refine ⟨_, ownershipAll_eq m, rfl, rfl, ?_⟩
  simp only [← mem_nodeSet hk]
  have hs : (nodeSet m).Pairwise (· < ·) := Std.sortUniq_strict _
  generalize nodeSet m = l at hs ⊢
  have hown : ∀ x, (⟨l.head?.getD 0, l.length, []⟩ : Own.SegOwn).isOwned x = true ↔ l.head?.getD 0 ≤ x ∧ x < l.head?.getD 0 + l.length := by
    intro x; simp [Own.SegOwn.isOwned]
  simp only [hown]
  exact Std.strict_range_iff hs

/-- **C22** (explicit range): the owned nodes are exactly the given range, the ghosts exactly the
element nodes outside it, listed in increasing order without repetition; construction succeeds. -/
theorem C22_explicit_range (m : DomMap) (hk : KeysNodup m) (begin cnt : Nat) :
    ∃ o, ownershipRange m begin cnt = some o ∧ (∀ x, o.isOwned x = true ↔ begin ≤ x ∧ x < begin + cnt) ∧
      o.shared.Pairwise (· < ·) ∧ (∀ x, x ∈ o.shared ↔ NodeIn m x ∧ ¬ (begin ≤ x ∧ x < begin + cnt)) := by
  have hs : (nodeSet m).Pairwise (· < ·) := Std.sortUniq_strict _
  have hf := List.Pairwise.filter (fun x => decide (x < begin ∨ begin + cnt ≤ x)) hs
  refine ⟨⟨begin, cnt, Std.sort ((nodeSet m).filter fun x => decide (x < begin ∨ begin + cnt ≤ x))⟩, ?_, ?_, ?_, ?_⟩
  · unfold ownershipRange Own.SegOwn.make
    rw [if_neg]
    simp only [List.any_eq_true, List.mem_filter, decide_eq_true_eq, Own.SegOwn.isOwned, not_exists, not_and]
    intro x hx
    omega
  · intro x; simp [Own.SegOwn.isOwned]
  · rw [Std.sort_eq_of_sorted (hf.imp le_of_lt)]; exact hf
  · intro x
    rw [Std.mem_sort, List.mem_filter, mem_nodeSet hk, decide_eq_true_eq]
    constructor
    · rintro ⟨h1, h2⟩; exact ⟨h1, by omega⟩
    · rintro ⟨h1, h2⟩; exact ⟨h1, by omega⟩

example : ownershipRange [(0, ⟨some 1, [[⟨.line, 2, 0, [4, 9]⟩, ⟨.line, 2, 1, [9, 2]⟩]]⟩)] 4 3 = some ⟨4, 3, [2, 9]⟩ := by
  decide +kernel

/-! ## C23: boundary views -/

/-- Nodes on a side of an element, by the side table. -/
def sideNodes (e : Element) (s : Nat) : Option (List Nat) :=
  (sideNodeInds e.ty e.n s).map fun inds => inds.map fun i => e.nodes.getD i 0

theorem sideMatches_iff (e : Element) (s : Nat) (b : List Nat) :
    sideMatches e s (Std.sort b) = true ↔ ∃ l, sideNodes e s = some l ∧ l.Perm b := by
  unfold sideMatches sideNodes
  cases h : sideNodeInds e.ty e.n s with
  | none => simp
  | some inds =>
    simp only [Option.map_some, Option.some.injEq, exists_eq_left']
    constructor
    · intro h
      split at h
      · have := of_decide_eq_true h
        exact (Std.sort_perm _).symm.trans (this ▸ Std.sort_perm b)
      · simp at h
    · intro hp
      have hl : inds.length = (Std.sort b).length := by rw [Std.length_sort, ← hp.length_eq]; simp
      rw [if_pos hl]
      exact decide_eq_true (Std.sort_congr hp)

theorem matchSide_some {e : Element} {b : List Nat} {s : Nat} (h : matchSide e (Std.sort b) = some s) :
    ∃ l, sideNodes e s = some l ∧ l.Perm b := by
  unfold matchSide at h
  have := List.find?_some h
  exact (sideMatches_iff e s b).1 this

theorem matchSide_none {e : Element} {b : List Nat} :
    matchSide e (Std.sort b) = none ↔ ¬ ∃ s l, sideNodes e s = some l ∧ l.Perm b := by
  unfold matchSide
  rw [List.find?_eq_none]
  constructor
  · rintro h ⟨s, hs⟩
    have hlt : s < nSides e := by
      obtain ⟨l, hl, _⟩ := hs
      unfold sideNodes sideNodeInds at hl
      rw [Option.map_eq_some_iff] at hl
      obtain ⟨a, ha, _⟩ := hl
      exact (List.getElem?_eq_some_iff.1 ha).1
    exact h s (by simpa using hlt) ((sideMatches_iff e s b).2 hs)
  · intro h s _ hs
    exact h ⟨s, (sideMatches_iff e s b).1 hs⟩

/-- `e` is a parent of boundary element `b`: an element one dimension up having `b`'s nodes on side `s`. -/
def IsParent (m : DomMap) (b e : Element) (s : Nat) : Prop :=
  (∃ d ∈ m, d.2.dim = some (b.ty.dim + 1) ∧ ∃ v ∈ d.2.vecs, e ∈ v) ∧ ∃ l, sideNodes e s = some l ∧ l.Perm b.nodes

theorem holdsIn_dim {m : DomMap} (hk : KeysNodup m) {dim : Nat} {e : Element} :
    HoldsIn m (domainsOfDim m dim) e ↔ ∃ d ∈ m, d.2.dim = some dim ∧ ∃ v ∈ d.2.vecs, e ∈ v := by
  unfold HoldsIn domainsOfDim
  constructor
  · rintro ⟨i, hi, d, hd, hv⟩
    obtain ⟨d', hd', rfl⟩ := List.mem_map.1 hi
    obtain ⟨h1, h2⟩ := List.mem_filter.1 hd'
    have := lookup_of_mem hk h1
    rw [this] at hd
    cases hd
    exact ⟨d', h1, by simpa using h2, hv⟩
  · rintro ⟨d, hd, hdim, hv⟩
    exact ⟨d.1, List.mem_map.2 ⟨d, List.mem_filter.2 ⟨hd, by simpa using hdim⟩, rfl⟩, d.2, lookup_of_mem hk hd, hv⟩

theorem viewOf_some {m : DomMap} (hk : KeysNodup m) {b e : Element} {s : Nat} (h : viewOf m b = some (e, s)) : IsParent m b e s := by
  unfold viewOf at h
  simp only [Option.bind_eq_some_iff, Option.map_eq_some_iff, Prod.mk.injEq] at h
  obtain ⟨e', h1, s', h2, rfl, rfl⟩ := h
  exact ⟨(holdsIn_dim hk).1 (findPred_some h1).1, matchSide_some h2⟩

theorem viewOf_none {m : DomMap} (hk : KeysNodup m) {b : Element} : viewOf m b = none ↔ ¬ ∃ e s, IsParent m b e s := by
  unfold viewOf
  simp only
  constructor
  · rintro h ⟨e, s, he, l, hl, hp⟩
    cases hf : findPred m (domainsOfDim m (b.ty.dim + 1)) (fun e => (matchSide e (Std.sort b.nodes)).isSome) with
    | none =>
      have := findPred_none.1 hf e ((holdsIn_dim hk).2 he)
      have hn : matchSide e (Std.sort b.nodes) = none := by simpa using this
      exact matchSide_none.1 hn ⟨s, l, hl, hp⟩
    | some e' =>
      have hsome := (findPred_some hf).2
      rw [hf, Option.bind_some] at h
      obtain ⟨x, hx⟩ := Option.isSome_iff_exists.1 hsome
      rw [hx] at h; simp at h
  · intro h
    cases hf : findPred m (domainsOfDim m (b.ty.dim + 1)) (fun e => (matchSide e (Std.sort b.nodes)).isSome) with
    | none => rfl
    | some e' =>
      exfalso
      obtain ⟨h1, h2⟩ := findPred_some hf
      obtain ⟨s, hs⟩ := Option.isSome_iff_exists.1 h2
      exact h ⟨e', s, (holdsIn_dim hk).1 h1, matchSide_some hs⟩

theorem mapM_forall₂ {α β : Type} (f : α → Option β) (l : List α) (r : List β) (h : l.mapM f = some r) :
    List.Forall₂ (fun a b => f a = some b) l r := by
  induction l generalizing r with
  | nil => simp at h; subst h; exact .nil
  | cons a l ih =>
    rw [List.mapM_cons] at h
    simp only [Option.bind_eq_bind, Option.bind_eq_some_iff, Option.pure_def, Option.some.injEq] at h
    obtain ⟨b, hb, r', hr', rfl⟩ := h
    exact .cons hb (ih r' hr')

theorem mapM_none {α β : Type} (f : α → Option β) (l : List α) : l.mapM f = none ↔ ∃ a ∈ l, f a = none := by
  induction l with
  | nil => simp
  | cons a l ih =>
    rw [List.mapM_cons]
    cases hf : f a with
    | none => simp [hf]
    | some b =>
      cases hl : l.mapM f with
      | none => simp only [Option.bind_eq_bind, Option.bind_some, Option.bind_none, true_iff]; obtain ⟨x, hx, e⟩ := ih.1 hl; exact ⟨x, by simp [hx], e⟩
      | some r =>
        simp only [Option.bind_eq_bind, Option.bind_some, Option.pure_def, reduceCtorEq, false_iff]
        rintro ⟨x, hx, e⟩
        rcases List.mem_cons.1 hx with rfl | hx
        · rw [hf] at e; simp at e
        · have := ih.2 ⟨x, hx, e⟩; rw [hl] at this; simp at this

/-- **C23**: whatever order the boundary elements are visited in, if the construction succeeds each
boundary element has contributed exactly one (parent, side) pair (`Forall₂` with the visited order, a
permutation of the domain's elements) and that side of the parent has exactly its nodes; and it
fails exactly if some boundary element has no parent. -/
theorem C23_boundary_views (m : DomMap) (hk : KeysNodup m) (bnd : Nat) (d : Domain) (hd : m.lookup bnd = some d)
    (hdim : ∀ b ∈ d.elems, some b.ty.dim = d.dim) (hne : d.elems ≠ [])
    (order : List Element → List Element) (hord : ∀ l, (order l).Perm l) :
    (∀ views, boundaryViews m bnd order = some views →
      List.Forall₂ (fun b v => IsParent m b v.1 v.2) (order d.elems) views ∧ views.length = d.elems.length) ∧
    (boundaryViews m bnd order = none ↔ ∃ b ∈ d.elems, ¬ ∃ e s, IsParent m b e s) := by
  unfold boundaryViews
  rw [hd]
  simp only
  constructor
  · intro views h
    split at h
    · simp at h
    · have hf := mapM_forall₂ _ _ _ h
      refine ⟨hf.imp fun b v hv => viewOf_some hk hv, ?_⟩
      rw [← hf.length_eq, (hord _).length_eq]
  · constructor
    · intro h
      split at h
      · rename_i hno
        obtain ⟨b, hb⟩ := List.exists_mem_of_ne_nil _ hne
        refine ⟨b, hb, ?_⟩
        rintro ⟨e, s, ⟨d', hd', hdim', _⟩, _⟩
        have hbd := hdim b hb
        have : d'.1 ∈ domainsOfDim m (d.dim.getD 0 + 1) := by
          rw [← hbd]
          exact List.mem_map.2 ⟨d', List.mem_filter.2 ⟨hd', by simpa using hdim'⟩, rfl⟩
        rw [hno] at this; simp at this
      · obtain ⟨b, hb, h⟩ := (mapM_none _ _).1 h
        exact ⟨b, (hord _).mem_iff.1 hb, (viewOf_none hk).1 h⟩
    · rintro ⟨b, hb, h⟩
      split
      · rfl
      · exact (mapM_none _ _).2 ⟨b, (hord _).mem_iff.2 hb, (viewOf_none hk).2 h⟩

/-- Two quads and one boundary edge given in reversed node order. -/
def exMesh : DomMap :=
  [(0, ⟨some 2, [[], [⟨.quad, 2, 0, [0, 1, 3, 4]⟩, ⟨.quad, 2, 1, [1, 2, 4, 5]⟩]]⟩),
   (1, ⟨some 1, [[⟨.line, 2, 2, [5, 2]⟩, ⟨.line, 2, 3, [3, 0]⟩], []]⟩)]

example : KeysNodup exMesh ∧ (boundaryViews exMesh 1 List.reverse).map (·.map fun v => (v.1.id, v.2)) = some [(0, 2), (1, 3)] := by
  decide +kernel

example : (∀ l : List Element, l.reverse.Perm l) := fun l => List.reverse_perm l

end Verif.Mesh
