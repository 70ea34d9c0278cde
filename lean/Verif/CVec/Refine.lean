import Verif.CVec.Inv

namespace Verif.CVec

variable {α : Type}

/-- The vectors hold the lists, no two share a block, and no block is without an owner. -/
structure Inv (st : St α) (ls : Lists α) : Prop where
  len : st.vecs.length = ls.length
  gone : ∀ s : Nat, st.vecs[s]? = some none → ls[s]? = some none
  rep : ∀ (s : Nat) (v : Vec), st.vecs[s]? = some (some v) → ∃ l, ls[s]? = some (some l) ∧ Rep st.heap v l
  inj : ∀ (s t : Nat) (v w : Vec) (p : Nat), st.vecs[s]? = some (some v) → st.vecs[t]? = some (some w) → v.data = some p →
    w.data = some p → s = t
  own : ∀ (p : Nat) (b : Block α), st.heap[p]? = some (some b) →
    ∃ (s : Nat) (v : Vec), st.vecs[s]? = some (some v) ∧ v.data = some p

theorem Inv.init : Inv (St.init : St α) [] := by
  refine ⟨rfl, ?_, ?_, ?_, ?_⟩ <;> simp [St.init]

theorem at_eq {ls : Lists α} {s : Nat} {l : List α} (h : ls.at s = some l) : ls[s]? = some (some l) := by
  unfold Lists.at at h
  split at h
  · rename_i l' he; cases h; exact he
  · cases h

theorem vec_eq {st : St α} {s : Nat} {v : Vec} (h : st.vecs[s]? = some (some v)) : st.vec s = some v := by
  simp only [St.vec, h]

theorem vec_inv {st : St α} {s : Nat} {v : Vec} (h : st.vec s = some v) : st.vecs[s]? = some (some v) := by
  unfold St.vec at h
  split at h
  · rename_i l' he; cases h; exact he
  · cases h

theorem Inv.find {st : St α} {ls : Lists α} (i : Inv st ls) {s : Nat} {l : List α} (h : ls.at s = some l) :
    ∃ v, st.vecs[s]? = some (some v) ∧ st.vec s = some v ∧ Rep st.heap v l := by
  have hl := at_eq h
  have hlt : s < st.vecs.length := by rw [i.len]; exact getElem?_lt hl
  rcases ho : st.vecs[s] with _ | v
  · have := i.gone s (by rw [List.getElem?_eq_getElem hlt, ho])
    rw [hl] at this; cases this
  · have hv : st.vecs[s]? = some (some v) := by rw [List.getElem?_eq_getElem hlt, ho]
    obtain ⟨l', hl', r⟩ := i.rep s v hv
    rw [hl] at hl'
    cases hl'
    exact ⟨v, hv, vec_eq hv, r⟩

theorem rep_data {h : Heap α} {v : Vec} {l : List α} (r : Rep h v l) {q : Nat} (hq : v.data = some q) :
    ∃ b, h[q]? = some (some b) := by
  rcases r with ⟨p, hd, -, -, hp⟩ | ⟨rfl, -⟩
  · rw [hq] at hd; cases hd; exact ⟨_, hp⟩
  · cases hq

theorem rep_frame {h h' : Heap α} {v : Vec} {l : List α} (r : Rep h v l)
    (hf : ∀ q b, v.data = some q → h[q]? = some (some b) → h'[q]? = some (some b)) : Rep h' v l := by
  rcases r with ⟨p, hd, a, c, hp⟩ | ⟨rfl, rfl⟩
  · exact Or.inl ⟨p, hd, a, c, hf p _ hd hp⟩
  · exact Or.inr ⟨rfl, rfl⟩

/-- The entry of one vector changes. -/
theorem Inv.upd {st : St α} {ls : Lists α} (i : Inv st ls) {s : Nat} {v : Vec} (hv : st.vecs[s]? = some (some v))
    {h' : Heap α} {v' : Vec} {l' : List α} (lo : Local st.heap v h' v') (r : Rep h' v' l') (m : Nat) :
    Inv ⟨h', st.vecs.set s (some v'), m⟩ (ls.set s (some l')) := by
  have hlt := getElem?_lt hv
  have hoth : ∀ t w, t ≠ s → st.vecs[t]? = some (some w) → ∀ q, w.data = some q → v'.data ≠ some q ∧ v.data ≠ some q := by
    intro t w ht hw q hq
    have hvq : v.data ≠ some q := fun he => ht (i.inj t s w v q hw hv hq he)
    refine ⟨fun he => ?_, hvq⟩
    rcases lo.fresh q he with he' | he'
    · exact hvq he'
    · obtain ⟨l, -, rw'⟩ := i.rep t w hw
      obtain ⟨b, hb⟩ := rep_data rw' hq
      have := getElem?_lt hb
      omega
  refine ⟨by simp [i.len], fun t ht => ?_, fun t w hw => ?_, fun t u w x p hw hx hwp hxp => ?_, fun p b hb => ?_⟩
  · rcases Decidable.em (s = t) with rfl | hst
    · simp only at ht
      rw [set_self _ _ _ _ hv] at ht; cases ht
    · simp only at ht
      rw [set_ne _ _ _ _ hst] at ht ⊢
      exact i.gone t ht
  · simp only at hw
    rcases Decidable.em (s = t) with rfl | hst
    · rw [set_self _ _ _ _ hv] at hw
      cases hw
      refine ⟨l', ?_, r⟩
      simp [List.getElem?_set, ← i.len, hlt]
    · rw [set_ne _ _ _ _ hst] at hw ⊢
      obtain ⟨l, hl, rr⟩ := i.rep t w hw
      exact ⟨l, hl, rep_frame rr fun q b hq hb => lo.frame q b (hoth t w (Ne.symm hst) hw q hq).2 hb⟩
  · simp only at hw hx
    rcases Decidable.em (s = t) with rfl | hst <;> rcases Decidable.em (s = u) with rfl | hsu
    · rfl
    · rw [set_self _ _ _ _ hv] at hw
      cases hw
      rw [set_ne _ _ _ _ hsu] at hx
      exact absurd hwp (hoth u x (Ne.symm hsu) hx p hxp).1
    · rw [set_self _ _ _ _ hv] at hx
      cases hx
      rw [set_ne _ _ _ _ hst] at hw
      exact absurd hxp (hoth t w (Ne.symm hst) hw p hwp).1
    · rw [set_ne _ _ _ _ hst] at hw
      rw [set_ne _ _ _ _ hsu] at hx
      exact i.inj t u w x p hw hx hwp hxp
  · simp only at hb ⊢
    rcases Decidable.em (v'.data = some p) with hp | hp
    · exact ⟨s, v', set_self _ _ _ _ hv, hp⟩
    · obtain ⟨hb', hvp⟩ := lo.live p b hb hp
      obtain ⟨t, w, hw, hwp⟩ := i.own p b hb'
      refine ⟨t, w, ?_, hwp⟩
      rw [set_ne _ _ _ _ ?_, hw]
      rintro rfl
      rw [hv] at hw
      cases hw
      exact hvp hwp

/-- A vector is added. -/
theorem Inv.addVec {st : St α} {ls : Lists α} (i : Inv st ls) {h' : Heap α} {v' : Vec} {l' : List α}
    (lo : Local st.heap Vec.empty h' v') (r : Rep h' v' l') :
    Inv (st.add h' v') (ls ++ [some l']) := by
  have i0 : Inv ⟨st.heap, st.vecs ++ [some Vec.empty], st.moves⟩ (ls ++ [some []]) := by
    have key : ∀ s w, (st.vecs ++ [some Vec.empty])[s]? = some (some w) →
        st.vecs[s]? = some (some w) ∨ (s = st.vecs.length ∧ w = Vec.empty) := by
      intro s w hw
      rcases Nat.lt_trichotomy s st.vecs.length with hs | hs | hs
      · rw [List.getElem?_append_left hs] at hw; exact Or.inl hw
      · subst hs; simp at hw; exact Or.inr ⟨rfl, hw.symm⟩
      · rw [List.getElem?_eq_none (by simp; omega)] at hw; cases hw
    refine ⟨by simp [i.len], fun t ht => ?_, fun t w hw => ?_, fun t u w x p hw hx hwp hxp => ?_,
      fun p b hb => ?_⟩
    · simp only at ht
      have hlt := getElem?_lt ht
      simp only [List.length_append, List.length_singleton] at hlt
      rcases Nat.lt_or_ge t st.vecs.length with hs | hs
      · rw [List.getElem?_append_left hs] at ht
        rw [List.getElem?_append_left (by rw [← i.len]; exact hs)]
        exact i.gone t ht
      · obtain rfl : t = st.vecs.length := by omega
        simp at ht
    · simp only at hw
      rcases key t w hw with hw' | ⟨rfl, rfl⟩
      · obtain ⟨l, hl, rr⟩ := i.rep t w hw'
        exact ⟨l, by rw [List.getElem?_append_left (getElem?_lt hl), hl], rr⟩
      · exact ⟨[], by rw [i.len]; simp, Or.inr ⟨rfl, rfl⟩⟩
    · simp only at hw hx
      rcases key t w hw with hw' | ⟨rfl, rfl⟩
      · rcases key u x hx with hx' | ⟨rfl, rfl⟩
        · exact i.inj t u w x p hw' hx' hwp hxp
        · cases hxp
      · cases hwp
    · obtain ⟨s, v, hs, hvp⟩ := i.own p b hb
      exact ⟨s, v, by simp only; rw [List.getElem?_append_left (getElem?_lt hs), hs], hvp⟩
  have hl : (st.vecs ++ [some Vec.empty])[st.vecs.length]? = some (some Vec.empty) := by simp
  have := i0.upd hl lo r st.moves
  simpa [St.add, i.len] using this

/-- A vector is destroyed. -/
theorem Inv.kill {st : St α} {ls : Lists α} (i : Inv st ls) {s : Nat} (hv : st.vecs[s]? = some (some Vec.empty))
    : Inv ⟨st.heap, st.vecs.set s none, st.moves⟩ (ls.set s none) := by
  have hlt := getElem?_lt hv
  have key : ∀ t w, (st.vecs.set s none)[t]? = some (some w) → st.vecs[t]? = some (some w) ∧ s ≠ t := by
    intro t w hw
    rcases Decidable.em (s = t) with rfl | hst
    · rw [set_self _ _ _ _ hv] at hw; cases hw
    · rw [set_ne _ _ _ _ hst] at hw; exact ⟨hw, hst⟩
  refine ⟨by simp [i.len], fun t ht => ?_, fun t w hw => ?_, fun t u w x p hw hx hwp hxp => ?_,
    fun p b hb => ?_⟩
  · simp only at ht
    rcases Decidable.em (s = t) with rfl | hst
    · simp [List.getElem?_set, ← i.len, hlt]
    · rw [set_ne _ _ _ _ hst] at ht ⊢
      exact i.gone t ht
  · obtain ⟨hw', hst⟩ := key t w hw
    rw [set_ne _ _ _ _ hst]
    exact i.rep t w hw'
  · exact i.inj t u w x p (key t w hw).1 (key u x hx).1 hwp hxp
  · obtain ⟨t, w, hw, hwp⟩ := i.own p b hb
    refine ⟨t, w, ?_, hwp⟩
    simp only
    rw [set_ne _ _ _ _ ?_, hw]
    rintro rfl
    rw [hv] at hw
    cases hw
    cases hwp

/-- The contents of vector `s` move to vector `d`, which is empty. -/
theorem Inv.hand {st : St α} {ls : Lists α} (i : Inv st ls) {d s : Nat} {v : Vec} {l : List α} (hds : d ≠ s)
    (hd : st.vecs[d]? = some (some Vec.empty)) (hv : st.vecs[s]? = some (some v)) (hl : ls[s]? = some (some l)) :
    Inv ⟨st.heap, (st.vecs.set d (some v)).set s (some Vec.empty), st.moves⟩
      ((ls.set d (some l)).set s (some [])) := by
  have hdl := getElem?_lt hd
  have hsl := getElem?_lt hv
  have r : Rep st.heap v l := by
    obtain ⟨l', hl', r⟩ := i.rep s v hv
    rw [hl] at hl'; cases hl'; exact r
  have hs1 : ((st.vecs.set d (some v)).set s (some Vec.empty))[s]? = some (some Vec.empty) := by
    simp [List.getElem?_set, hsl]
  have hd1 : ((st.vecs.set d (some v)).set s (some Vec.empty))[d]? = some (some v) := by
    rw [set_ne _ _ _ _ hds.symm, set_self _ _ _ _ hd]
  have ho : ∀ t, t ≠ d → t ≠ s → ((st.vecs.set d (some v)).set s (some Vec.empty))[t]? = st.vecs[t]? := by
    intro t h1 h2
    rw [set_ne _ _ _ _ h2.symm, set_ne _ _ _ _ h1.symm]
  have key : ∀ t w p, ((st.vecs.set d (some v)).set s (some Vec.empty))[t]? = some (some w) → w.data = some p →
      (t = d ∧ w = v) ∨ (t ≠ d ∧ t ≠ s ∧ st.vecs[t]? = some (some w)) := by
    intro t w p hw hp
    rcases Decidable.em (t = s) with rfl | hts
    · rw [hs1] at hw; cases hw; cases hp
    · rcases Decidable.em (t = d) with rfl | htd
      · rw [hd1] at hw; cases hw; exact Or.inl ⟨rfl, rfl⟩
      · rw [ho t htd hts] at hw; exact Or.inr ⟨htd, hts, hw⟩
  refine ⟨by simp [i.len], fun t ht => ?_, fun t w hw => ?_, fun t u w x p hw hx hwp hxp => ?_,
    fun p b hb => ?_⟩
  · simp only at ht
    rcases Decidable.em (t = s) with rfl | hts
    · rw [hs1] at ht; cases ht
    · rcases Decidable.em (t = d) with rfl | htd
      · rw [hd1] at ht; cases ht
      · rw [ho t htd hts] at ht
        rw [set_ne _ _ _ _ (Ne.symm hts), set_ne _ _ _ _ (Ne.symm htd)]
        exact i.gone t ht
  · simp only at hw
    rcases Decidable.em (t = s) with rfl | hts
    · rw [hs1] at hw; cases hw
      exact ⟨[], by simp [List.getElem?_set, ← i.len, hsl], Or.inr ⟨rfl, rfl⟩⟩
    · rcases Decidable.em (t = d) with rfl | htd
      · rw [hd1] at hw; cases hw
        exact ⟨l, by rw [set_ne _ _ _ _ hds.symm]; simp [List.getElem?_set, ← i.len, hdl], r⟩
      · rw [ho t htd hts] at hw
        rw [set_ne _ _ _ _ (Ne.symm hts), set_ne _ _ _ _ (Ne.symm htd)]
        exact i.rep t w hw
  · rcases key t w p hw hwp with ⟨rfl, rfl⟩ | ⟨h1, h2, h3⟩ <;> rcases key u x p hx hxp with ⟨rfl, rfl⟩ | ⟨h4, h5, h6⟩
    · rfl
    · exact absurd (i.inj _ _ _ _ p h6 hv hxp hwp) h5
    · exact absurd (i.inj _ _ _ _ p h3 hv hwp hxp) h2
    · exact i.inj _ _ _ _ p h3 h6 hwp hxp
  · obtain ⟨t, w, hw, hwp⟩ := i.own p b hb
    simp only
    rcases Decidable.em (t = s) with rfl | hts
    · rw [hv] at hw; cases hw
      exact ⟨d, v, hd1, hwp⟩
    · rcases Decidable.em (t = d) with rfl | htd
      · rw [hd] at hw; cases hw; cases hwp
      · exact ⟨t, w, by rw [ho t htd hts, hw], hwp⟩

theorem local_empty_rep (h : Heap α) : Rep h Vec.empty ([] : List α) := Or.inr ⟨rfl, rfl⟩

/-- One operation does what the lists do. -/
theorem step_ok {st : St α} {ls ls' : Lists α} (i : Inv st ls) (o : Op α) (hs : spec ls o = some ls')
    (hroom : Room st o) : ∃ st', step st o = some st' ∧ Inv st' ls' := by
  cases o with
  | default =>
    cases hs
    exact ⟨_, rfl, i.addVec (Local.refl _ _) (local_empty_rep _)⟩
  | fill n v =>
    cases hs
    obtain ⟨h, e, r, lo⟩ := ctorList_ok st (List.replicate n v)
    exact ⟨_, e, i.addVec lo r⟩
  | ofList l =>
    cases hs
    obtain ⟨h, e, r, lo⟩ := ctorList_ok st l
    exact ⟨_, e, i.addVec lo r⟩
  | copy s =>
    rcases hl : ls.at s with _ | l
    · simp [spec, hl] at hs
    simp only [spec, hl, Option.bind_some, Option.some.injEq] at hs
    subst hs
    obtain ⟨v, hv, hv', r⟩ := i.find hl
    obtain ⟨h, e, r', lo⟩ := ctorCopy_ok st v l r
    exact ⟨_, by rw [step, hv']; exact e, i.addVec lo r'⟩
  | move s =>
    rcases hl : ls.at s with _ | l
    · simp [spec, hl] at hs
    simp only [spec, hl, Option.bind_some, Option.some.injEq] at hs
    subst hs
    obtain ⟨v, hv, hv', r⟩ := i.find hl
    refine ⟨_, by rw [step, hv']; rfl, ?_⟩
    have i1 := i.addVec (Local.refl st.heap Vec.empty) (local_empty_rep _)
    have hsl := getElem?_lt hv
    have hll := getElem?_lt (at_eq hl)
    have i2 := i1.hand (d := st.vecs.length) (s := s) (v := v) (l := l) (by omega) (by simp [St.add])
      (by simp only [St.add]; rw [List.getElem?_append_left hsl, hv])
      (by rw [List.getElem?_append_left hll, at_eq hl])
    have e1 : ((st.vecs ++ [some Vec.empty]).set st.vecs.length (some v)).set s (some Vec.empty) =
        st.vecs.set s (some Vec.empty) ++ [some v] := by
      rw [List.set_append_right _ _ (Nat.le_refl _)]
      simp only [Nat.sub_self, List.set_cons_zero]
      rw [List.set_append_left _ _ hsl]
    have e2 : ((ls ++ [some []]).set st.vecs.length (some l)).set s (some []) =
        ls.set s (some []) ++ [some l] := by
      rw [List.set_append_right _ _ (Nat.le_of_eq i.len.symm)]
      rw [i.len]
      simp only [Nat.sub_self, List.set_cons_zero]
      rw [List.set_append_left _ _ hll]
    simp only [St.add] at i2
    rw [e1, e2] at i2
    exact i2
  | moveAssign d s =>
    rcases hld : ls.at d with _ | ld
    · simp [spec, hld] at hs
    rcases hl : ls.at s with _ | l
    · simp [spec, hld, hl] at hs
    simp only [spec, hld, hl, Option.bind_some] at hs
    obtain ⟨vd, hvd, hvd', rd⟩ := i.find hld
    obtain ⟨v, hv, hv', r⟩ := i.find hl
    by_cases hds : d = s
    · rw [if_pos hds] at hs
      cases hs
      exact ⟨st, by rw [step, hvd']; simp only [Option.bind_some]; rw [hv']; simp [hds], i⟩
    · rw [if_neg hds] at hs
      cases hs
      obtain ⟨h', e, lo⟩ := dtor_ok rd
      refine ⟨⟨h', (st.vecs.set d (some v)).set s (some Vec.empty), st.moves⟩, ?_, ?_⟩
      · rw [step, hvd']
        simp only [Option.bind_some]
        rw [hv']
        simp only [Option.bind_some]
        rw [if_neg hds, assignMove, e]
        rfl
      · have i1 := i.upd hvd lo (local_empty_rep h') st.moves
        have i2 := i1.hand (d := d) (s := s) (v := v) (l := l) hds (set_self _ _ _ _ hvd)
          (by simp only; rw [set_ne _ _ _ _ hds, hv]) (by rw [set_ne _ _ _ _ hds, at_eq hl])
        simpa [List.set_set] using i2
  | destroy s =>
    rcases hl : ls.at s with _ | l
    · simp [spec, hl] at hs
    simp only [spec, hl, Option.bind_some, Option.some.injEq] at hs
    subst hs
    obtain ⟨v, hv, hv', r⟩ := i.find hl
    obtain ⟨h', e, lo⟩ := dtor_ok r
    refine ⟨⟨h', st.vecs.set s none, st.moves⟩, by rw [step, hv']; simp only [Option.bind_some]; rw [e]; rfl, ?_⟩
    have i1 := i.upd hv lo (local_empty_rep h') st.moves
    have i2 := i1.kill (s := s) (set_self _ _ _ _ hv)
    simpa [List.set_set] using i2
  | reserve s n =>
    rcases hl : ls.at s with _ | l
    · simp [spec, hl] at hs
    simp only [spec, hl, Option.bind_some, Option.some.injEq] at hs
    subst hs
    obtain ⟨v, hv, hv', r⟩ := i.find hl
    by_cases hn : v.cap < n
    · obtain ⟨h', e, r', lo⟩ := reallocate_ok r n (by omega)
      refine ⟨_, by rw [step, hv']; simp only [Option.bind_some]; rw [if_pos hn, e]; rfl, ?_⟩
      have := i.upd hv lo r' (st.moves + v.size)
      rw [set_same ls s _ (at_eq hl)] at this
      exact this
    · exact ⟨st, by rw [step, hv']; simp only [Option.bind_some]; rw [if_neg hn], i⟩
  | push s x =>
    rcases hl : ls.at s with _ | l
    · simp [spec, hl] at hs
    simp only [spec, hl, Option.bind_some, Option.some.injEq] at hs
    subst hs
    obtain ⟨v, hv, hv', r⟩ := i.find hl
    obtain ⟨h', v', e, r', lo, -⟩ := push_ok r x
    exact ⟨_, by rw [step, hv']; simp only [Option.bind_some]; rw [e]; rfl, i.upd hv lo r' _⟩
  | pushOf s d k =>
    rcases hl : ls.at s with _ | l
    · simp [spec, hl] at hs
    rcases hlm : ls.at d with _ | m
    · simp [spec, hl, hlm] at hs
    simp only [spec, hl, hlm, Option.bind_some] at hs
    rcases hx : m[k]? with _ | x
    · rw [hx] at hs; cases hs
    rw [hx] at hs
    cases hs
    obtain ⟨v, hv, hv', r⟩ := i.find hl
    obtain ⟨w, hw, hw', rw'⟩ := i.find hlm
    obtain ⟨h', v', e, r', lo, -⟩ := push_ok r x
    have hq : ∃ q, w.data = some q := by
      rcases rw' with ⟨p, hd, -⟩ | ⟨rfl, rfl⟩
      · exact ⟨p, hd⟩
      · simp at hx
    obtain ⟨q, hq⟩ := hq
    have hpush : pushRef st.heap v q k = pushVal st.heap v x := by
      by_cases hsd : s = d
      · subst hsd
        rw [hv] at hw
        cases hw
        have : l = m := by rw [hl] at hlm; exact Option.some.inj hlm
        subst this
        exact pushRef_own r q k hq (hroom rfl v hv') x hx
      · exact pushRef_other r rw' q k hq (fun he => hsd (i.inj s d v w q hv hw he hq)) x hx
    refine ⟨_, ?_, i.upd hv lo r' (st.moves + pushMoves v)⟩
    rw [step, hv']
    simp only [Option.bind_some]
    rw [hw']
    simp only [Option.bind_some]
    rw [hq]
    simp only [Option.bind_some]
    rw [hpush, e]
    rfl
  | pop s =>
    rcases hl : ls.at s with _ | l
    · simp [spec, hl] at hs
    simp only [spec, hl, Option.bind_some] at hs
    obtain ⟨v, hv, hv', r⟩ := i.find hl
    by_cases hnil : l = []
    · rw [if_pos hnil] at hs; cases hs
    · rw [if_neg hnil] at hs
      cases hs
      obtain ⟨p, h', hd, hsz, e, r', lo⟩ := pop_ok r hnil
      refine ⟨_, ?_, i.upd hv lo r' st.moves⟩
      rw [step, hv']
      simp only [Option.bind_some]
      rw [hd]
      simp only [Option.bind_some]
      rw [if_neg hsz, e]
      rfl
  | clear s =>
    rcases hl : ls.at s with _ | l
    · simp [spec, hl] at hs
    simp only [spec, hl, Option.bind_some, Option.some.injEq] at hs
    subst hs
    obtain ⟨v, hv, hv', r⟩ := i.find hl
    obtain ⟨h', e, r', lo⟩ := clear_ok r
    exact ⟨_, by rw [step, hv']; simp only [Option.bind_some]; rw [e]; rfl, i.upd hv lo r' st.moves⟩
  | set s k x =>
    rcases hl : ls.at s with _ | l
    · simp [spec, hl] at hs
    simp only [spec, hl, Option.bind_some] at hs
    obtain ⟨v, hv, hv', r⟩ := i.find hl
    by_cases hk : k < l.length
    · rw [if_pos hk] at hs
      cases hs
      obtain ⟨p, h', hd, e, r', lo⟩ := assign_ok r k hk x
      refine ⟨_, ?_, i.upd hv lo r' st.moves⟩
      rw [step, hv']
      simp only [Option.bind_some]
      rw [hd]
      simp only [Option.bind_some]
      rw [e]
      rfl
    · rw [if_neg hk] at hs; cases hs

theorem Inv.shows {st : St α} {ls : Lists α} (i : Inv st ls) : Shows st ls := by
  have hnone : ∀ s, ls.at s = none → st.vec s = none := by
    intro s hs
    rcases hv : st.vec s with _ | v
    · rfl
    · obtain ⟨l, hl, -⟩ := i.rep s v (vec_inv hv)
      simp [Lists.at, hl] at hs
  refine ⟨fun s => ?_, fun s k => ?_⟩
  · rcases hl : ls.at s with _ | l
    · simp [St.size, hnone s hl]
    · obtain ⟨v, hv, hv', r⟩ := i.find hl
      rw [St.size, hv']
      rcases r with ⟨p, hd, hs, -⟩ | ⟨rfl, rfl⟩
      · simp [hs]
      · simp [Vec.empty]
  · rcases hl : ls.at s with _ | l
    · simp [St.get, hnone s hl]
    · obtain ⟨v, hv, hv', r⟩ := i.find hl
      rw [St.get, hv']
      exact read_rep r k

theorem Inv.clean {st : St α} {ls : Lists α} (i : Inv st ls) (hl : ∀ x ∈ ls, x = none) : Clean st := by
  intro b hb
  rcases b with _ | b
  · rfl
  · obtain ⟨p, hp, he⟩ := List.getElem_of_mem hb
    obtain ⟨s, v, hv, -⟩ := i.own p b (by rw [List.getElem?_eq_getElem hp, he])
    obtain ⟨l, hll, -⟩ := i.rep s v hv
    have := hl _ (List.mem_of_getElem? hll)
    cases this

end Verif.CVec
