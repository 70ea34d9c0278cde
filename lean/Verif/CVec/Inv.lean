import Verif.CVec.Lemmas

namespace Verif.CVec

variable {α : Type}

/-- Vector `v` holds the elements `l` in heap `h`. -/
def Rep (h : Heap α) (v : Vec) (l : List α) : Prop :=
  (∃ p, v.data = some p ∧ v.size = l.length ∧ l.length ≤ v.cap ∧
      h[p]? = some (some (l.map some ++ List.replicate (v.cap - l.length) none))) ∨
    (v = Vec.empty ∧ l = [])

/-- Going from `h` to `h'` while vector `v` becomes `v'` does not touch the blocks of others, leaves no block
without an owner and takes nothing from others. -/
structure Local (h : Heap α) (v : Vec) (h' : Heap α) (v' : Vec) : Prop where
  frame : ∀ q b, v.data ≠ some q → h[q]? = some (some b) → h'[q]? = some (some b)
  live : ∀ q b, h'[q]? = some (some b) → v'.data ≠ some q → h[q]? = some (some b) ∧ v.data ≠ some q
  fresh : ∀ q, v'.data = some q → v.data = some q ∨ h.length ≤ q

theorem Local.refl (h : Heap α) (v : Vec) : Local h v h v :=
  ⟨fun _ _ _ hb => hb, fun _ _ hb hq => ⟨hb, hq⟩, fun _ hq => Or.inl hq⟩

theorem alloc_get (h : Heap α) (n : Nat) :
    (alloc h n).1[(alloc h n).2]? = some (some (List.replicate n none)) := by
  simp [alloc]

theorem alloc_old (h : Heap α) (n q : Nat) (hq : q < h.length) : (alloc h n).1[q]? = h[q]? := by
  simp [alloc, List.getElem?_append_left hq]

theorem alloc_ne {h : Heap α} {n p : Nat} {x : Option (Block α)} (hp : h[p]? = some x) : p ≠ (alloc h n).2 := by
  have := getElem?_lt hp
  simp only [alloc]
  omega

theorem alloc_some {h : Heap α} {n p : Nat} {x : Option (Block α)} (hp : h[p]? = some x) :
    (alloc h n).1[p]? = some x := by
  rw [alloc_old _ _ _ (getElem?_lt hp), hp]

theorem alloc_inv {h : Heap α} {n p : Nat} {x : Option (Block α)} (hp : (alloc h n).1[p]? = some x)
    (hne : p ≠ (alloc h n).2) : h[p]? = some x := by
  have := getElem?_lt hp
  simp only [alloc, List.length_append, List.length_singleton] at this hne
  rw [← alloc_old h n p (by omega), hp]

/-! ### What each member function does to memory -/

theorem set_local {h : Heap α} {v : Vec} {p : Nat} {b b' : Block α} (s c : Nat) (hv : v.data = some p)
    (_hp : h[p]? = some (some b)) : Local h v (h.set p (some b')) ⟨v.data, s, c⟩ := by
  refine ⟨fun q x hq hx => ?_, fun q x hx hq => ?_, fun q hq => Or.inl hq⟩
  · rw [set_ne _ _ _ _ (by rintro rfl; exact hq hv), hx]
  · have hne : p ≠ q := by rintro rfl; exact hq hv
    rw [set_ne _ _ _ _ hne] at hx
    exact ⟨hx, hq⟩

theorem clear_ok {h : Heap α} {v : Vec} {l : List α} (hr : Rep h v l) :
    ∃ h', clearHeap h v = some h' ∧ Rep h' ⟨v.data, 0, v.cap⟩ ([] : List α) ∧ Local h v h' ⟨v.data, 0, v.cap⟩ := by
  rcases hr with ⟨p, hd, hs, hc, hp⟩ | ⟨rfl, rfl⟩
  · have := destroyAll_eq l 0 (v.cap - l.length) h p (by simpa using hp)
    refine ⟨_, by rw [clearHeap, hd]; simp only; rw [hs, this], Or.inl ⟨p, hd, rfl, Nat.zero_le _, ?_⟩,
      set_local _ _ hd hp⟩
    rw [set_self _ _ _ _ hp]
    have : 0 + l.length + (v.cap - l.length) = v.cap := by omega
    rw [this]
    simp
  · exact ⟨h, rfl, Or.inr ⟨rfl, rfl⟩, Local.refl _ _⟩

theorem dealloc_ok {h : Heap α} {v : Vec} (hr : Rep h v ([] : List α)) :
    ∃ h', deallocHeap h v = some h' ∧ Local h v h' Vec.empty := by
  rcases hr with ⟨p, hd, hs, hc, hp⟩ | ⟨rfl, _⟩
  · simp only [List.map_nil, List.nil_append, List.length_nil, Nat.sub_zero] at hp
    refine ⟨h.set p none, by rw [deallocHeap, hd]; exact dealloc_eq hp, fun q x hq hx => ?_, fun q x hx _ => ?_,
      fun q hq => by cases hq⟩
    · rw [set_ne _ _ _ _ (by rintro rfl; exact hq hd), hx]
    · rcases Decidable.em (p = q) with rfl | hne
      · rw [set_self _ _ _ _ hp] at hx; cases hx
      · rw [set_ne _ _ _ _ hne] at hx
        exact ⟨hx, by rw [hd]; intro he; exact hne (Option.some.inj he)⟩
  · exact ⟨h, rfl, Local.refl _ _⟩

theorem Local.trans {h h' h'' : Heap α} {v v' v'' : Vec} (a : Local h v h' v') (b : Local h' v' h'' v'')
    (hl : h.length ≤ h'.length) : Local h v h'' v'' := by
  refine ⟨fun q x hq hx => ?_, fun q x hx hq => ?_, fun q hq => ?_⟩
  · refine b.frame q x ?_ (a.frame q x hq hx)
    intro he
    rcases a.fresh q he with he' | he'
    · exact hq he'
    · have := getElem?_lt hx; omega
  · obtain ⟨h1, h2⟩ := b.live q x hx hq
    exact a.live q x h1 h2
  · rcases b.fresh q hq with he | he
    · exact a.fresh q he
    · exact Or.inr (by omega)

theorem clearHeap_length {h h' : Heap α} {v : Vec} {l : List α} (hr : Rep h v l) (hc : clearHeap h v = some h') :
    h.length ≤ h'.length := by
  rcases hr with ⟨p, hd, hs, hc', hp⟩ | ⟨rfl, rfl⟩
  · have := destroyAll_eq l 0 (v.cap - l.length) h p (by simpa using hp)
    rw [clearHeap, hd] at hc
    simp only at hc
    rw [hs, this] at hc
    cases hc
    simp
  · simp [clearHeap, Vec.empty] at hc
    simp [hc]

theorem dtor_ok {h : Heap α} {v : Vec} {l : List α} (hr : Rep h v l) :
    ∃ h', dtor h v = some h' ∧ Local h v h' Vec.empty := by
  obtain ⟨h1, e1, r1, l1⟩ := clear_ok hr
  obtain ⟨h2, e2, l2⟩ := dealloc_ok r1
  refine ⟨h2, ?_, l1.trans l2 (clearHeap_length hr e1)⟩
  rw [dtor, e1]
  exact e2

theorem reallocate_ok {h : Heap α} {v : Vec} {l : List α} (hr : Rep h v l) (n : Nat) (hn : v.cap ≤ n) :
    ∃ h', reallocate h v n = some (h', ⟨some h.length, v.size, n⟩) ∧ Rep h' ⟨some h.length, v.size, n⟩ l ∧
      Local h v h' ⟨some h.length, v.size, n⟩ := by
  rcases hr with ⟨p, hd, hs, hc, hp⟩ | ⟨rfl, rfl⟩
  · have hne : p ≠ (alloc h n).2 := alloc_ne hp
    have hm := moveAll_eq l [] n (List.replicate (v.cap - l.length) none) (alloc h n).1 p (alloc h n).2 hne
      (by omega) (by rw [alloc_some hp]; simp) (by rw [alloc_get]; simp)
    simp only [List.length_nil, List.nil_append, Nat.zero_add] at hm
    rw [show List.replicate l.length none ++ List.replicate (v.cap - l.length) none =
      List.replicate v.cap (none : Option α) by rw [List.replicate_append_replicate]; congr 1; omega] at hm
    have hde : dealloc (((alloc h n).1.set (alloc h n).2
        (some (l.map some ++ List.replicate (n - l.length) none))).set p (some (List.replicate v.cap none))) p v.cap =
        some (((alloc h n).1.set (alloc h n).2
        (some (l.map some ++ List.replicate (n - l.length) none))).set p none) := by
      rw [dealloc_eq (set_self _ _ _ (some (l.map some ++ List.replicate (v.cap - l.length) none)) ?_), List.set_set]
      rw [set_ne _ _ _ _ hne.symm, alloc_some hp]
    refine ⟨((alloc h n).1.set (alloc h n).2 (some (l.map some ++ List.replicate (n - l.length) none))).set p none,
      ?_, Or.inl ⟨h.length, rfl, hs, by simp only; omega, ?_⟩, fun q x hq hx => ?_, fun q x hx hq => ?_,
      fun q hq => Or.inr ?_⟩
    · rw [reallocate, hd]
      simp only
      rw [hs, hm]
      simp only [Option.bind_some]
      rw [hde]
      rfl
    · rw [set_ne _ _ _ _ (by simpa [alloc] using hne)]
      exact set_self _ _ _ _ (alloc_get h n)
    · rw [set_ne _ _ _ _ (by rintro rfl; exact hq hd), set_ne _ _ _ _ (alloc_ne hx).symm, alloc_some hx]
    · have hq' : (alloc h n).2 ≠ q := by rintro rfl; exact hq rfl
      rcases Decidable.em (p = q) with rfl | hpq
      · rw [set_self _ _ _ (some (l.map some ++ List.replicate (v.cap - l.length) none)) (by rw [set_ne _ _ _ _ hne.symm, alloc_some hp])] at hx
        cases hx
      · rw [set_ne _ _ _ _ hpq, set_ne _ _ _ _ hq'] at hx
        exact ⟨alloc_inv hx (Ne.symm hq'), by rw [hd]; intro he; exact hpq (Option.some.inj he)⟩
    · cases hq; exact Nat.le_refl _
  · refine ⟨(alloc h n).1, rfl, Or.inl ⟨h.length, rfl, rfl, Nat.zero_le _, ?_⟩, fun q x _ hx => alloc_some hx,
      fun q x hx hq => ⟨alloc_inv hx ?_, by simp [Vec.empty]⟩, fun q hq => Or.inr ?_⟩
    · have := alloc_get h n
      simpa [alloc] using this
    · rintro rfl; exact hq rfl
    · cases hq; exact Nat.le_refl _

theorem growIfFull_ok {h : Heap α} {v : Vec} {l : List α} (hr : Rep h v l) :
    ∃ h' v', growIfFull h v = some (h', v') ∧ Rep h' v' l ∧ Local h v h' v' ∧ l.length < v'.cap ∧
      (v.size < v.cap → h' = h ∧ v' = v) ∧ h.length ≤ h'.length ∧
      v'.cap = (if v.cap = v.size then (if v.cap = 0 then 1 else 2 * v.cap) else v.cap) := by
  have hsl : v.size = l.length ∧ l.length ≤ v.cap := by
    rcases hr with ⟨p, hd, hs, hc, hp⟩ | ⟨rfl, rfl⟩
    · exact ⟨hs, hc⟩
    · exact ⟨rfl, Nat.le_refl _⟩
  by_cases hf : v.cap = v.size
  · rw [growIfFull, if_pos hf, grow]
    obtain ⟨h', e, r, lo⟩ := reallocate_ok hr (if v.cap = 0 then 1 else 2 * v.cap) (by split <;> omega)
    refine ⟨h', _, e, r, lo, ?_, fun hlt => by omega, ?_, by rw [if_pos hf]⟩
    · simp only; split <;> omega
    · rcases r with ⟨p, hd, -, -, hp⟩ | ⟨he, -⟩
      · have := getElem?_lt hp
        cases hd
        omega
      · simp [Vec.empty] at he
  · refine ⟨h, v, by rw [growIfFull, if_neg hf], hr, Local.refl _ _, by omega, fun _ => ⟨rfl, rfl⟩, Nat.le_refl _,
      by rw [if_neg hf]⟩

theorem constructBack_ok {h : Heap α} {v : Vec} {l : List α} (hr : Rep h v l) (hc : l.length < v.cap) (x : α) :
    ∃ h', constructBack h v x = some (h', ⟨v.data, v.size + 1, v.cap⟩) ∧
      Rep h' ⟨v.data, v.size + 1, v.cap⟩ (l ++ [x]) ∧ Local h v h' ⟨v.data, v.size + 1, v.cap⟩ := by
  rcases hr with ⟨p, hd, hs, hc', hp⟩ | ⟨rfl, rfl⟩
  · have := constructAll_eq [x] l (v.cap - l.length) h p (by simp; omega) hp
    simp only [constructAll] at this
    have hcon : construct h p l.length x =
        some (h.set p (some ((l ++ [x]).map some ++ List.replicate (v.cap - l.length - 1) none))) := by
      rcases hh : construct h p l.length x with _ | y
      · rw [hh] at this; cases this
      · rw [hh] at this
        simp only [Option.bind_some] at this
        rw [this]
        rfl
    refine ⟨h.set p (some ((l ++ [x]).map some ++ List.replicate (v.cap - l.length - 1) none)), ?_,
      Or.inl ⟨p, hd, by simp [hs], by simp; omega, ?_⟩, set_local _ _ hd hp⟩
    · rw [constructBack, hd]
      simp only
      rw [hs, hcon]
      rfl
    · rw [set_self _ _ _ _ hp]
      congr 4
      simp
      omega
  · simp [Vec.empty] at hc

theorem push_ok {h : Heap α} {v : Vec} {l : List α} (hr : Rep h v l) (x : α) :
    ∃ h' v', pushVal h v x = some (h', v') ∧ Rep h' v' (l ++ [x]) ∧ Local h v h' v' ∧
      (v.size < v.cap → v'.data = v.data) ∧
      v'.cap = (if v.cap = v.size then (if v.cap = 0 then 1 else 2 * v.cap) else v.cap) := by
  obtain ⟨h1, v1, e1, r1, l1, c1, k1, m1, n1⟩ := growIfFull_ok hr
  obtain ⟨h2, e2, r2, l2⟩ := constructBack_ok r1 c1 x
  refine ⟨h2, _, ?_, r2, l1.trans l2 m1, fun hlt => by rw [(k1 hlt).2], n1⟩
  rw [pushVal, e1]
  exact e2

theorem read_rep {h : Heap α} {v : Vec} {l : List α} (hr : Rep h v l) (k : Nat) :
    (v.data.bind fun p => read h p k) = l[k]? := by
  rcases hr with ⟨p, hd, hs, hc, hp⟩ | ⟨rfl, rfl⟩
  · rw [hd]
    simp only [Option.bind_some, read, hp]
    rcases Nat.lt_or_ge k l.length with hk | hk
    · simp [List.getElem?_append_left, hk]
    · rw [List.getElem?_append_right (by simpa using hk), List.getElem?_eq_none hk]
      simp only [List.length_map, List.getElem?_replicate]
      split
      · rename_i x hx; split at hx <;> simp at hx
      · rfl
  · simp [Vec.empty]

theorem pushRef_other {h : Heap α} {v w : Vec} {l m : List α} (hr : Rep h v l) (hw : Rep h w m) (q k : Nat)
    (hq : w.data = some q) (hvq : v.data ≠ some q) (x : α) (hx : m[k]? = some x) :
    pushRef h v q k = pushVal h v x := by
  obtain ⟨h1, v1, e1, r1, l1, c1, k1, m1, -⟩ := growIfFull_ok hr
  rw [pushRef, pushVal, e1]
  simp only [Option.bind_some]
  have hw1 : Rep h1 w m := by
    rcases hw with ⟨p, hd, hs, hc, hp⟩ | ⟨rfl, rfl⟩
    · obtain rfl : p = q := by rw [hd] at hq; exact Option.some.inj hq
      exact Or.inl ⟨p, hd, hs, hc, l1.frame p _ hvq hp⟩
    · cases hq
  have := read_rep hw1 k
  rw [hq] at this
  simp only [Option.bind_some] at this
  rw [this, hx]
  rfl

theorem pushRef_own {h : Heap α} {v : Vec} {l : List α} (hr : Rep h v l) (q k : Nat) (hq : v.data = some q)
    (hlt : v.size < v.cap) (x : α) (hx : l[k]? = some x) : pushRef h v q k = pushVal h v x := by
  have hg : growIfFull h v = some (h, v) := by rw [growIfFull, if_neg (by omega)]
  rw [pushRef, pushVal, hg]
  simp only [Option.bind_some]
  have := read_rep hr k
  rw [hq] at this
  simp only [Option.bind_some] at this
  rw [this, hx]
  rfl

theorem pop_ok {h : Heap α} {v : Vec} {l : List α} (hr : Rep h v l) (hl : l ≠ []) :
    ∃ p h', v.data = some p ∧ v.size ≠ 0 ∧ destroy h p (v.size - 1) = some h' ∧
      Rep h' ⟨v.data, v.size - 1, v.cap⟩ l.dropLast ∧ Local h v h' ⟨v.data, v.size - 1, v.cap⟩ := by
  rcases hr with ⟨p, hd, hs, hc, hp⟩ | ⟨rfl, rfl⟩
  · obtain ⟨a, x, rfl⟩ : ∃ a x, l = a ++ [x] := ⟨l.dropLast, l.getLast hl, (List.dropLast_concat_getLast hl).symm⟩
    have hc1 : ((a ++ [x]).map some ++ List.replicate (v.cap - (a ++ [x]).length) none)[a.length]? =
        some (some x) := by
      have := cell_mid (a.map some) (some x) (List.replicate (v.cap - (a ++ [x]).length) none)
      simpa using this
    have hs1 : ((a ++ [x]).map some ++ List.replicate (v.cap - (a ++ [x]).length) none).set a.length none =
        a.map some ++ List.replicate (v.cap - a.length) none := by
      have := set_mid (a.map some) (some x) none (List.replicate (v.cap - (a ++ [x]).length) none)
      simp only [List.length_append, List.length_singleton] at hc
      rw [show v.cap - a.length = (v.cap - (a ++ [x]).length) + 1 by simp; omega, List.replicate_succ]
      simpa using this
    have hsz : v.size - 1 = a.length := by rw [hs]; simp
    refine ⟨p, _, hd, by rw [hs]; simp, by rw [hsz]; exact destroy_eq hp hc1, Or.inl ⟨p, hd, ?_, ?_, ?_⟩,
      set_local _ _ hd hp⟩
    · simp [hsz]
    · simp at hc ⊢; omega
    · rw [set_self _ _ _ _ hp, hs1]
      simp
  · exact absurd rfl hl

theorem assign_ok {h : Heap α} {v : Vec} {l : List α} (hr : Rep h v l) (k : Nat) (hk : k < l.length) (x : α) :
    ∃ p h', v.data = some p ∧ assign h p k x = some h' ∧ Rep h' v (l.set k x) ∧ Local h v h' v := by
  rcases hr with ⟨p, hd, hs, hc, hp⟩ | ⟨rfl, rfl⟩
  · have hc1 : (l.map some ++ List.replicate (v.cap - l.length) none)[k]? = some (some l[k]) := by
      rw [List.getElem?_append_left (by simpa using hk)]
      simp [hk]
    refine ⟨p, _, hd, assign_eq x hp hc1, Or.inl ⟨p, hd, by simp [hs], by simpa using hc, ?_⟩, ?_⟩
    · rw [set_self _ _ _ _ hp, List.set_append_left _ _ (by simpa using hk), ← List.map_set]
      simp
    · have := set_local (b' := (l.map some ++ List.replicate (v.cap - l.length) none).set k (some x)) v.size v.cap
        hd hp
      exact this
  · simp at hk

theorem fresh_local (h : Heap α) (n s c : Nat) (b : Block α) :
    Local h Vec.empty ((alloc h n).1.set (alloc h n).2 (some b)) ⟨some h.length, s, c⟩ := by
  refine ⟨fun q x _ hx => ?_, fun q x hx hq => ⟨?_, by simp [Vec.empty]⟩, fun q hq => Or.inr ?_⟩
  · rw [set_ne _ _ _ _ (alloc_ne hx).symm, alloc_some hx]
  · have hq' : (alloc h n).2 ≠ q := by rintro rfl; exact hq rfl
    rw [set_ne _ _ _ _ hq'] at hx
    exact alloc_inv hx (Ne.symm hq')
  · cases hq; exact Nat.le_refl _

theorem ctorList_ok (st : St α) (l : List α) : ∃ h, ctorList st l =
      some (st.add h ⟨some st.heap.length, l.length, l.length⟩) ∧
      Rep h ⟨some st.heap.length, l.length, l.length⟩ l ∧
      Local st.heap Vec.empty h ⟨some st.heap.length, l.length, l.length⟩ := by
  have hc := constructAll_eq l [] l.length (alloc st.heap l.length).1 (alloc st.heap l.length).2 (Nat.le_refl _)
    (by rw [alloc_get]; simp)
  simp only [List.length_nil, List.nil_append] at hc
  exact ⟨_, by rw [ctorList, hc]; rfl,
    Or.inl ⟨_, rfl, rfl, Nat.le_refl _, set_self _ _ _ _ (alloc_get st.heap l.length)⟩, fresh_local _ _ _ _ _⟩

theorem ctorCopy_ok (st : St α) (v : Vec) (l : List α) (hr : Rep st.heap v l) : ∃ h, ctorCopy st v =
      some (st.add h ⟨some st.heap.length, l.length, l.length⟩) ∧
      Rep h ⟨some st.heap.length, l.length, l.length⟩ l ∧
      Local st.heap Vec.empty h ⟨some st.heap.length, l.length, l.length⟩ := by
  rcases hr with ⟨p, hd, hs, hc, hp⟩ | ⟨rfl, rfl⟩
  · have hc := copyAll_eq l [] l.length (List.replicate (v.cap - l.length) none) (alloc st.heap l.length).1 p
      (alloc st.heap l.length).2 (alloc_ne hp) (Nat.le_refl _) (by rw [alloc_some hp]; simp)
      (by rw [alloc_get]; simp)
    simp only [List.length_nil, List.nil_append] at hc
    exact ⟨_, by rw [ctorCopy, hd]; simp only; rw [hs, hc]; rfl,
      Or.inl ⟨_, rfl, rfl, Nat.le_refl _, set_self _ _ _ _ (alloc_get st.heap l.length)⟩, fresh_local _ _ _ _ _⟩
  · obtain ⟨h, e, r, lo⟩ := ctorList_ok st []
    refine ⟨h, ?_, r, lo⟩
    rw [← e]
    rfl

end Verif.CVec
