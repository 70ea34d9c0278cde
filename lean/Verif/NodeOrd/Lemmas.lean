import Verif.NodeOrd.Spec
import Verif.Bitset.Lemmas
import Verif.Elem.Props
import Mathlib.Data.List.Nodup
import Mathlib.Data.List.Perm.Basic

/-! # Lemmas for node ordering and node weights -/
namespace Verif.NodeOrd
open Verif Verif.Mesh Verif.Own

theorem foldlM_mark (l v : List Nat) (hv : v.Nodup) :
    l.foldlM mark v = if (v ++ l).Nodup then some (v ++ l) else none := by
  induction l generalizing v with
  | nil => simp [hv]
  | cons x l ih =>
    rw [List.foldlM_cons]
    by_cases hx : x ∈ v
    · have : ¬ (v ++ x :: l).Nodup := by
        intro h
        exact (List.nodup_append.mp h).2.2 x hx x List.mem_cons_self rfl
      simp [mark, hx, this]
    · have hv' : (v ++ [x]).Nodup := by
        rw [List.nodup_append]
        refine ⟨hv, by simp, ?_⟩
        intro a ha b hb
        simp at hb; subst hb
        exact fun h => hx (h ▸ ha)
      have := ih (v ++ [x]) hv'
      simp only [List.append_assoc, List.singleton_append] at this
      simp [mark, hx, this]

theorem internalVec_eq (m : DomMap) : internalVec m =
    if ((topElems m).flatMap internalNodes).Nodup then some ((topElems m).flatMap internalNodes) else none := by
  simpa [internalVec] using foldlM_mark ((topElems m).flatMap internalNodes) [] List.nodup_nil

theorem owned_nodup (o : SegOwn) : (owned o).Nodup := List.nodup_range'

theorem mem_owned (o : SegOwn) (x : Nat) : x ∈ owned o ↔ o.isOwned x = true := by
  simp [owned, SegOwn.isOwned, List.mem_range'_1]

/-- The owned nodes of `v`, counted from either side. -/
theorem filter_owned_perm (o : SegOwn) (v : List Nat) (hv : v.Nodup) :
    ((owned o).filter fun x => decide (x ∈ v)).Perm (v.filter fun x => decide (x ∈ owned o)) := by
  rw [List.perm_ext_iff_of_nodup ((owned_nodup o).filter _) (hv.filter _)]
  intro a; simp [and_comm]

theorem count_iff (o : SegOwn) (v : List Nat) (hv : v.Nodup) :
    (owned o).countP (fun x => !decide (x ∈ v)) + v.length + o.shared.length = o.localSize ↔
      ∀ x ∈ v, x ∈ owned o := by
  have h1 := List.length_eq_countP_add_countP (fun x => decide (x ∈ v)) (l := owned o)
  have h2 := (filter_owned_perm o v hv).length_eq
  have h3 := List.length_eq_countP_add_countP (fun x => decide (x ∈ owned o)) (l := v)
  rw [← List.countP_eq_length_filter, ← List.countP_eq_length_filter] at h2
  have hl : (owned o).length = o.cnt := by simp [owned]
  have h4 : v.countP (fun x => decide (¬ (decide (x ∈ owned o)) = true)) = 0 ↔ ∀ x ∈ v, x ∈ owned o := by
    rw [List.countP_eq_zero]; simp
  have h5 : (owned o).countP (fun x => decide (¬ (decide (x ∈ v)) = true)) =
      (owned o).countP (fun x => !decide (x ∈ v)) := by
    congr 1; funext x; simp
  rw [← h4]
  simp only [SegOwn.localSize]
  omega

theorem order_perm (o : SegOwn) (v : List Nat) (hv : v.Nodup) (h : ∀ x ∈ v, x ∈ owned o) :
    ((owned o).filter (fun x => !decide (x ∈ v)) ++ v ++ o.shared).Perm (owned o ++ o.shared) := by
  apply List.Perm.append_right
  have hp : v.Perm ((owned o).filter fun x => decide (x ∈ v)) := by
    refine List.Perm.trans ?_ (filter_owned_perm o v hv).symm
    rw [List.filter_eq_self.mpr (by simpa using h)]
  refine (List.Perm.append_left _ hp).trans ?_
  refine List.perm_append_comm.trans ?_
  exact List.filter_append_perm (fun x => decide (x ∈ v)) (owned o)

/-! ## Traversal -/

theorem le_foldl_max (l : List Nat) (a : Nat) : a ≤ l.foldl max a ∧ ∀ x ∈ l, x ≤ l.foldl max a := by
  induction l generalizing a with
  | nil => simp
  | cons b l ih =>
    obtain ⟨h1, h2⟩ := ih (max a b)
    refine ⟨by simp only [List.foldl_cons]; omega, ?_⟩
    intro x hx
    simp only [List.mem_cons] at hx
    rcases hx with rfl | hx
    · simp only [List.foldl_cons]; omega
    · exact h2 x hx

theorem foldl_max_mem (l : List Nat) (a : Nat) : l.foldl max a = a ∨ l.foldl max a ∈ l := by
  induction l generalizing a with
  | nil => simp
  | cons b l ih =>
    simp only [List.foldl_cons, List.mem_cons]
    rcases ih (max a b) with h | h
    · rcases max_choice a b with h' | h'
      · left; rw [h, h']
      · right; left; rw [h, h']
    · right; right; exact h

theorem dim_eq_max_iff (m : DomMap) (p : Nat × Domain) (hp : p ∈ m) :
    dimOf p.2 = maxDim m ↔ ∀ q ∈ m, dimOf q.2 ≤ dimOf p.2 := by
  have hm : m ≠ [] := by rintro rfl; simp at hp
  simp only [maxDim, hm, if_false]
  obtain ⟨-, hle⟩ := le_foldl_max (m.map fun p => dimOf p.2) 0
  constructor
  · intro h q hq
    rw [h]; exact hle _ (List.mem_map.mpr ⟨q, hq, rfl⟩)
  · intro h
    apply le_antisymm
    · exact hle _ (List.mem_map.mpr ⟨p, hp, rfl⟩)
    · rcases foldl_max_mem (m.map fun p => dimOf p.2) 0 with h0 | h0
      · rw [h0]; exact Nat.zero_le _
      · obtain ⟨q, hq, e⟩ := List.mem_map.mp h0
        rw [← e]; exact h q hq

theorem mem_topElems (m : DomMap) (e : Element) : e ∈ topElems m ↔ TopDim m e := by
  simp only [topElems, List.mem_flatMap, TopDim]
  constructor
  · rintro ⟨p, hp, h⟩
    by_cases hd : dimOf p.2 = maxDim m
    · rw [if_pos hd] at h
      exact ⟨p, hp, h, (dim_eq_max_iff m p hp).mp hd⟩
    · rw [if_neg hd] at h; simp at h
  · rintro ⟨p, hp, h, hd⟩
    exact ⟨p, hp, by rw [if_pos ((dim_eq_max_iff m p hp).mpr hd)]; exact h⟩

theorem mem_internalNodes (e : Element) (x : Nat) : x ∈ internalNodes e ↔ Interior e x := by
  simp only [internalNodes, List.mem_map, Interior, Elem.internalInds, List.mem_filter, List.mem_range]
  constructor
  · rintro ⟨i, ⟨hi, hb⟩, rfl⟩
    refine ⟨i, hi, ?_, rfl⟩
    intro s hs his
    have : i ∈ Elem.boundaryInds e.ty e.n :=
      Std.mem_sortUniq.mpr (List.mem_flatten.mpr ⟨s, hs, his⟩)
    have hb' : Std.binarySearch (Elem.boundaryInds e.ty e.n) i = true :=
      (Std.binarySearch_iff ((Std.sortUniq_strict _).imp (fun h => Nat.le_of_lt h)) i).mpr this
    rw [hb'] at hb; simp at hb
  · rintro ⟨i, hi, hs, rfl⟩
    refine ⟨i, ⟨hi, ?_⟩, rfl⟩
    rw [Bool.not_eq_true', Bool.eq_false_iff]
    intro hb
    have := (Std.binarySearch_iff ((Std.sortUniq_strict _).imp (fun h => Nat.le_of_lt h)) i).mp hb
    obtain ⟨s, hs', his⟩ := List.mem_flatten.mp (Std.mem_sortUniq.mp this)
    exact hs s hs' his

theorem internalNodes_eq (e : Element) : internalNodes e = interiorList e := by
  simp only [internalNodes, interiorList, Elem.internalInds]
  congr 1
  apply List.filter_congr
  intro i _
  rw [Bool.eq_iff_iff, Bool.not_eq_true', Bool.eq_false_iff, ne_eq, Elem.boundaryInds,
    Std.binarySearch_iff ((Std.sortUniq_strict _).imp (fun h => Nat.le_of_lt h)) i]
  simp only [Std.mem_sortUniq, List.mem_flatten, decide_eq_true_eq]
  exact ⟨fun h s hs hi => h ⟨s, hs, hi⟩, fun h ⟨s, hs, hi⟩ => h s hs hi⟩

theorem occurrences_eq (m : DomMap) : (topElems m).flatMap internalNodes = interiorOccurrences m := by
  have h : ∀ l : DomMap, (∀ p ∈ l, p ∈ m) →
      (l.flatMap fun p => if dimOf p.2 = maxDim m then p.2.elems else []).flatMap internalNodes =
      (l.filter fun p => decide (∀ q ∈ m, dimOf q.2 ≤ dimOf p.2)).flatMap fun p =>
        p.2.elems.flatMap interiorList := by
    intro l
    induction l with
    | nil => intro _; rfl
    | cons p l ih =>
      intro hl
      have hp := dim_eq_max_iff m p (hl p List.mem_cons_self)
      have ih := ih fun q hq => hl q (List.mem_cons_of_mem _ hq)
      rw [List.flatMap_cons, List.flatMap_append, ih]
      by_cases hd : dimOf p.2 = maxDim m
      · rw [if_pos hd, List.filter_cons_of_pos (by simpa using hp.mp hd), List.flatMap_cons]
        congr 1
        apply List.flatMap_congr
        intro e _
        exact internalNodes_eq e
      · have hf : ¬ (decide (∀ q ∈ m, dimOf q.2 ≤ dimOf p.2)) = true :=
          fun h => hd (hp.mpr (of_decide_eq_true h))
        rw [if_neg hd, List.filter_cons, if_neg hf]
        rfl
  exact h m fun p hp => hp

/-! ## Node weights -/

theorem mapM_some {α β : Type} (f : α → Option β) (g : α → β) (l : List α) (h : ∀ x ∈ l, f x = some (g x)) :
    l.mapM f = some (l.map g) := by
  induction l with
  | nil => rfl
  | cons a l ih =>
    rw [List.mapM_cons, h a List.mem_cons_self, ih fun x hx => h x (List.mem_cons_of_mem _ hx)]
    rfl

theorem mem_visitIds (m : DomMap) (ids : List Nat) (e : Element) :
    e ∈ visitIds m ids ↔ ∃ dom ∈ ids, ∃ D, m.lookup dom = some D ∧ e ∈ D.elems := by
  simp only [visitIds, List.mem_flatMap, existing, List.mem_filter]
  constructor
  · rintro ⟨i, ⟨hi, hs⟩, he⟩
    obtain ⟨D, hD⟩ := Option.isSome_iff_exists.mp hs
    rw [hD] at he
    exact ⟨i, hi, D, hD, by simpa using he⟩
  · rintro ⟨i, hi, D, hD, he⟩
    exact ⟨i, ⟨hi, by rw [hD]; rfl⟩, by rw [hD]; simpa using he⟩

theorem mem_trueInds (b : List Bool) (k : Nat) : k ∈ trueInds b ↔ b[k]? = some true := by
  simp only [trueInds, List.mem_filter, List.mem_range]
  constructor
  · rintro ⟨hk, h⟩
    rw [List.getD_eq_getElem?_getD, List.getElem?_eq_getElem hk] at h
    rw [List.getElem?_eq_getElem hk]; simpa using h
  · intro h
    obtain ⟨hk, h'⟩ := List.getElem?_eq_some_iff.mp h
    refine ⟨hk, ?_⟩
    rw [List.getD_eq_getElem?_getD, h]; rfl

theorem mem_weightOps (nd : Nat) (m : DomMap) (defs : List DomDef) (op : Bitset.Op) :
    op ∈ weightOps nd m defs ↔ ∃ x k, ActiveAt m defs x k ∧ op = .set (k + x * nd) := by
  simp only [weightOps, List.mem_flatMap, List.mem_map, ActiveAt]
  constructor
  · rintro ⟨d, hd, e, he, x, hx, k, hk, rfl⟩
    obtain ⟨dom, hdom, D, hD, heD⟩ := (mem_visitIds m _ e).mp he
    exact ⟨x, k, ⟨d, hd, (mem_trueInds _ _).mp hk, dom, hdom, D, hD, e, heD, hx⟩, rfl⟩
  · rintro ⟨x, k, ⟨d, hd, hk, dom, hdom, D, hD, e, heD, hx⟩, rfl⟩
    exact ⟨d, hd, e, (mem_visitIds m _ e).mpr ⟨dom, hdom, D, hD, heD⟩, x, hx, k, (mem_trueInds _ _).mpr hk, rfl⟩

/-- A history of `set`s in range: all bits end up as expected. -/
theorem run_sets (n : Nat) (ops : List Bitset.Op) (h : ∀ op ∈ ops, ∃ p, p < n ∧ op = .set p) :
    ∃ b, (Bitset.Bits.new n).run ops = some b ∧ n ≤ 64 * b.data.length ∧
      ∀ p < n, (b.test p = some true ↔ Bitset.Op.set p ∈ ops) := by
  have gen : ∀ (l : List Bitset.Op) (s : Bitset.ASet), s.size = n → (∀ op ∈ l, ∃ p, p < n ∧ op = .set p) →
      s.allInRange l ∧ s.noLossyShrink l ∧ (s.run l).size = n ∧
        ∀ p, (s.run l).mem p = true ↔ s.mem p = true ∨ Bitset.Op.set p ∈ l := by
    intro l
    induction l with
    | nil => intro s hs _; exact ⟨trivial, trivial, hs, by simp [Bitset.ASet.run]⟩
    | cons op l ih =>
      intro s hs hl
      obtain ⟨q, hq, rfl⟩ := hl _ List.mem_cons_self
      obtain ⟨a, b, c, d⟩ := ih (s.step (.set q)) hs fun op ho => hl op (List.mem_cons_of_mem _ ho)
      refine ⟨⟨by simp only [Bitset.ASet.inRange]; omega, a⟩, ⟨trivial, b⟩, c, ?_⟩
      intro p
      have := d p
      simp only [Bitset.ASet.run, List.foldl_cons] at this ⊢
      rw [this]
      simp only [Bitset.ASet.step, List.mem_cons]
      by_cases hpq : p = q
      · subst hpq; simp
      · simp [hpq]
  obtain ⟨h1, h2, h3, h4⟩ := gen ops (Bitset.ASet.new n) rfl h
  obtain ⟨b, e, r⟩ := (Bitset.Rel.new n).run ops h1 h2
  have hsz : n ≤ 64 * b.data.length := by
    rw [r.alloc, Bitset.allocUls_eq]
    have := h3
    simp only [Bitset.ASet.run] at this
    omega
  refine ⟨b, e, hsz, ?_⟩
  intro p hp
  rw [Bitset.test_eq b p (by omega), r.bits]
  have := h4 p
  simp only [Bitset.ASet.new, Bitset.ASet.run] at this ⊢
  simpa using this

theorem countP_eq_ncard (lo n : Nat) (P : Nat → Prop) [DecidablePred P] (q : Nat → Bool)
    (hq : ∀ d < n, (q (lo + d) = true ↔ P d)) (hP : ∀ d, P d → d < n) :
    (List.range' lo n).countP q = {d | P d}.ncard := by
  have h1 : (List.range' lo n).countP q = (List.range n).countP fun d => decide (P d) := by
    rw [List.range'_eq_map_range, List.countP_map]
    apply List.countP_congr
    intro d hd
    rw [List.mem_range] at hd
    simp only [Function.comp, decide_eq_true_eq]
    exact hq d hd
  rw [h1]
  have h2 : {d | P d} = ((Finset.range n).filter P : Finset Nat) := by
    ext d
    simp only [Set.mem_setOf_eq, Finset.coe_filter, Finset.mem_range]
    exact ⟨fun h => ⟨hP d h, h⟩, fun h => h.2⟩
  rw [h2, Set.ncard_coe_finset, Finset.card_filter, ← Finset.card_filter]
  rw [List.countP_eq_length_filter]
  rfl

end Verif.NodeOrd
