import Verif.RefStable.Spec
import Verif.CVec.Refine

namespace Verif.RefStable

open Verif
open Verif.CVec (getElem?_lt set_self set_ne Rep Local)

variable {α : Type}

/-! ### The collection -/

/-- The collection holds the list `l`. -/
structure CInv (bs : Nat) (c : Coll α) (l : List α) : Prop where
  rep : Rep c.vheap c.vec (List.range c.blocks.length)
  blk : ∀ i : Nat, i < c.blocks.length → ∃ b : List α, c.blocks[i]? = some (some b) ∧ b.length = bs ∧
    ∀ j : Nat, j < bs → i * bs + j < l.length → b[j]? = l[i * bs + j]?
  size : c.size = l.length
  fits : l.length ≤ c.blocks.length * bs
  tight : c.blocks.length * bs < l.length + bs
  own : ∀ (q : Nat) (b : CVec.Block Nat), c.vheap[q]? = some (some b) → c.vec.data = some q

theorem CInv.empty (bs : Nat) (hbs : 0 < bs) : CInv bs (Coll.empty : Coll α) [] := by
  refine ⟨Or.inr ⟨rfl, rfl⟩, ?_, rfl, ?_, ?_, ?_⟩
  · intro i hi; simp [Coll.empty] at hi
  · simp
  · simp [Coll.empty, hbs]
  · intro q b h; simp [Coll.empty] at h

theorem rep_size {h : CVec.Heap Nat} {v : CVec.Vec} {l : List Nat} (r : Rep h v l) : v.size = l.length := by
  rcases r with ⟨p, -, hs, -⟩ | ⟨rfl, rfl⟩
  · exact hs
  · rfl

theorem div_lt {bs n pos : Nat} (h : pos < n * bs) : pos / bs < n :=
  Nat.div_lt_of_lt_mul (by rw [Nat.mul_comm]; exact h)

theorem CInv.addr {bs : Nat} {c : Coll α} {l : List α} (i : CInv bs c l) {pos : Nat}
    (h : pos < c.blocks.length * bs) : c.addr bs pos = some (pos / bs, pos % bs) := by
  have hr := CVec.read_rep i.rep (pos / bs)
  rw [List.getElem?_range (div_lt h)] at hr
  rcases hd : c.vec.data with _ | p
  · rw [hd] at hr; cases hr
  · rw [hd] at hr
    simp only [Option.bind_some] at hr
    rw [Coll.addr, hd]
    simp only [Option.bind_some]
    rw [hr]
    rfl

theorem CInv.load {bs : Nat} (hbs : 0 < bs) {c : Coll α} {l : List α} (i : CInv bs c l) {k : Nat}
    (h : k < l.length) : load c.blocks (k / bs, k % bs) = l[k]? := by
  have hk : k < c.blocks.length * bs := Nat.lt_of_lt_of_le h i.fits
  obtain ⟨b, hb, hlen, hj⟩ := i.blk (k / bs) (div_lt hk)
  have hkk : k / bs * bs + k % bs = k := by rw [Nat.mul_comm]; exact Nat.div_add_mod k bs
  have := hj (k % bs) (Nat.mod_lt _ hbs) (by rw [hkk]; exact h)
  rw [hkk] at this
  simp only [RefStable.load, hb]
  exact this

theorem pos_inj {bs i i' j j' : Nat} (hj : j < bs) (hj' : j' < bs) (h : i * bs + j = i' * bs + j') :
    i = i' ∧ j = j' := by
  have h1 : (i * bs + j) / bs = i := by
    rw [Nat.mul_comm, Nat.mul_add_div (by omega), Nat.div_eq_of_lt hj, Nat.add_zero]
  have h2 : (i' * bs + j') / bs = i' := by
    rw [Nat.mul_comm, Nat.mul_add_div (by omega), Nat.div_eq_of_lt hj', Nat.add_zero]
  have : i = i' := by rw [← h1, ← h2, h]
  subst this
  exact ⟨rfl, by omega⟩

/-- Storing at a position which is within the list or just behind it. -/
theorem CInv.store {bs : Nat} (hbs : 0 < bs) {c : Coll α} {l : List α} (i : CInv bs c l) {k : Nat}
    (h : k < c.blocks.length * bs) (v : α) (l' : List α) (hl' : l'[k]? = some v)
    (hsame : ∀ m : Nat, m ≠ k → m < l'.length → l'[m]? = l[m]?) :
    ∃ b, store c.blocks (k / bs, k % bs) v = some b ∧ b.length = c.blocks.length ∧
      ∀ i : Nat, i < b.length → ∃ x : List α, b[i]? = some (some x) ∧ x.length = bs ∧
        ∀ j : Nat, j < bs → i * bs + j < l'.length → x[j]? = l'[i * bs + j]? := by
  obtain ⟨b, hb, hlen, hj⟩ := i.blk (k / bs) (div_lt h)
  have hkk : k / bs * bs + k % bs = k := by rw [Nat.mul_comm]; exact Nat.div_add_mod k bs
  have hmod := Nat.mod_lt k hbs
  refine ⟨c.blocks.set (k / bs) (some (b.set (k % bs) v)), ?_, by simp, ?_⟩
  · simp only [RefStable.store, hb]
    rw [if_pos (by omega)]
  · intro a ha
    simp only [List.length_set] at ha
    rcases Decidable.em (k / bs = a) with rfl | hne
    · refine ⟨_, set_self _ _ _ _ hb, by simpa using hlen, fun j hjb hjl => ?_⟩
      rcases Decidable.em (k % bs = j) with rfl | hnj
      · rw [hkk, hl']
        have hbm : k % bs < b.length := by omega
        rw [List.getElem?_set_self hbm]
      · rw [set_ne _ _ _ _ hnj]
        have hm : k / bs * bs + j ≠ k := by
          intro he
          exact hnj (pos_inj hmod hjb (hkk.trans he.symm)).2
        have hs := hsame _ hm hjl
        rw [hs]
        refine hj j hjb ?_
        rw [List.getElem?_eq_getElem hjl] at hs
        exact getElem?_lt hs.symm
    · obtain ⟨x, hx, hxl, hxj⟩ := i.blk a ha
      refine ⟨x, by rw [set_ne _ _ _ _ hne, hx], hxl, fun j hjb hjl => ?_⟩
      have hm : a * bs + j ≠ k := by
        intro he
        exact hne (pos_inj hmod hjb (hkk.trans he.symm)).1
      have hs := hsame _ hm hjl
      rw [hs]
      refine hxj j hjb ?_
      rw [List.getElem?_eq_getElem hjl] at hs
      exact getElem?_lt hs.symm

/-- `growIfNeeded` makes room for one more element and moves nothing. -/
theorem CInv.growIfNeeded {bs : Nat} (hbs : 0 < bs) {c : Coll α} {l : List α} (i : CInv bs c l) (dflt : α) :
    ∃ c', c.growIfNeeded bs dflt = some c' ∧ c'.size = c.size ∧ l.length < c'.blocks.length * bs ∧
      (∀ (q : Nat) (b : List α), c.blocks[q]? = some (some b) → c'.blocks[q]? = some (some b)) ∧
      Rep c'.vheap c'.vec (List.range c'.blocks.length) ∧
      (∀ i : Nat, i < c'.blocks.length → ∃ b : List α, c'.blocks[i]? = some (some b) ∧ b.length = bs ∧
        ∀ j : Nat, j < bs → i * bs + j < l.length → b[j]? = l[i * bs + j]?) ∧
      c'.blocks.length * bs ≤ l.length + bs ∧
      (∀ (q : Nat) (b : CVec.Block Nat), c'.vheap[q]? = some (some b) → c'.vec.data = some q) := by
  have hvs : c.vec.size = c.blocks.length := by rw [rep_size i.rep]; simp
  by_cases hg : c.vec.size ≤ c.size / bs
  · rw [Coll.growIfNeeded, if_pos hg, Coll.grow]
    obtain ⟨h', v', e, r, lo, -, -⟩ := CVec.push_ok i.rep c.blocks.length
    have hfull : c.blocks.length * bs ≤ l.length := by
      rw [hvs, i.size] at hg
      exact (Nat.le_div_iff_mul_le hbs).mp hg
    refine ⟨⟨h', v', c.blocks ++ [some (List.replicate bs dflt)], c.size⟩, by rw [e]; rfl, rfl, ?_, ?_, ?_, ?_, ?_, ?_⟩
    · simp only [List.length_append, List.length_singleton, Nat.add_mul, Nat.one_mul]
      have := i.fits
      omega
    · intro q b hb
      simp only
      rw [List.getElem?_append_left (getElem?_lt hb), hb]
    · simp only [List.length_append, List.length_singleton, List.range_succ]
      exact r
    · intro a ha
      simp only [List.length_append, List.length_singleton] at ha
      rcases Nat.lt_or_ge a c.blocks.length with hlt | hge
      · obtain ⟨b, hb, hbl, hj⟩ := i.blk a hlt
        exact ⟨b, by simp only; rw [List.getElem?_append_left hlt, hb], hbl, hj⟩
      · obtain rfl : a = c.blocks.length := by omega
        refine ⟨List.replicate bs dflt, by simp, by simp, fun j _ hjl => ?_⟩
        have := i.fits
        omega
    · simp only [List.length_append, List.length_singleton, Nat.add_mul, Nat.one_mul]
      omega
    · intro q b hb
      simp only at hb ⊢
      rcases Decidable.em (v'.data = some q) with h | h
      · exact h
      · obtain ⟨hb', hne⟩ := lo.live q b hb h
        exact absurd (i.own q b hb') hne
  · rw [Coll.growIfNeeded, if_neg hg]
    refine ⟨c, rfl, rfl, ?_, fun _ _ h => h, i.rep, i.blk, Nat.le_of_lt i.tight, i.own⟩
    rw [hvs, i.size] at hg
    exact (Nat.div_lt_iff_lt_mul hbs).mp (by omega)

theorem CInv.emplace {bs : Nat} (hbs : 0 < bs) {c : Coll α} {l : List α} (i : CInv bs c l) (dflt v : α) :
    ∃ c', c.emplace bs dflt v = some c' ∧ CInv bs c' (l ++ [v]) := by
  obtain ⟨c1, e1, hsz, hlt, -, hr, hb, ht, ho⟩ := i.growIfNeeded hbs dflt
  have hd := CVec.read_rep hr (l.length / bs)
  rw [List.getElem?_range (div_lt hlt)] at hd
  have haddr : c1.addr bs c1.size = some (l.length / bs, l.length % bs) := by
    rw [hsz, i.size]
    rcases hp : c1.vec.data with _ | p
    · rw [hp] at hd; cases hd
    · rw [hp] at hd
      simp only [Option.bind_some] at hd
      rw [Coll.addr, hp]
      simp only [Option.bind_some]
      rw [hd]
      rfl
  obtain ⟨b, hb1, hlen, hjj⟩ := hb (l.length / bs) (div_lt hlt)
  have hkk : l.length / bs * bs + l.length % bs = l.length := by rw [Nat.mul_comm]; exact Nat.div_add_mod _ bs
  have hmod := Nat.mod_lt l.length hbs
  refine ⟨⟨c1.vheap, c1.vec, c1.blocks.set (l.length / bs) (some (b.set (l.length % bs) v)), c1.size + 1⟩, ?_, ?_⟩
  · rw [Coll.emplace, e1]
    simp only [Option.bind_some]
    rw [Coll.place, haddr]
    simp only [Option.bind_some, RefStable.store, hb1]
    rw [if_pos (by omega)]
    rfl
  · refine ⟨by simpa using hr, ?_, by simp [hsz, i.size], by simp; omega, by simp; omega, ho⟩
    intro a ha
    simp only [List.length_set] at ha
    rcases Decidable.em (l.length / bs = a) with rfl | hne
    · refine ⟨_, set_self _ _ _ _ hb1, by simpa using hlen, fun j hjb hjl => ?_⟩
      rcases Decidable.em (l.length % bs = j) with rfl | hnj
      · rw [hkk, List.getElem?_set_self (by omega)]
        simp
      · rw [set_ne _ _ _ _ hnj]
        have hm : l.length / bs * bs + j ≠ l.length := by
          intro he
          exact hnj (pos_inj hmod hjb (hkk.trans he.symm)).2
        simp only [List.length_append, List.length_singleton] at hjl
        rw [List.getElem?_append_left (by omega)]
        exact hjj j hjb (by omega)
    · obtain ⟨x, hx, hxl, hxj⟩ := hb a ha
      refine ⟨x, by simp only; rw [set_ne _ _ _ _ hne, hx], hxl, fun j hjb hjl => ?_⟩
      have hm : a * bs + j ≠ l.length := by
        intro he
        exact hne (pos_inj hmod hjb (hkk.trans he.symm)).1
      simp only [List.length_append, List.length_singleton] at hjl
      rw [List.getElem?_append_left (by omega)]
      exact hxj j hjb (by omega)

theorem load_mono {blocks blocks' : List (Option (List α))} {a : Nat × Nat} {v : α}
    (h : ∀ (q : Nat) (b : List α), blocks[q]? = some (some b) → blocks'[q]? = some (some b))
    (hl : load blocks a = some v) : load blocks' a = some v := by
  unfold load at hl ⊢
  split at hl
  · rename_i b hb
    rw [h _ _ hb]
    exact hl
  · cases hl

theorem CInv.step {bs : Nat} (hbs : 0 < bs) {c : Coll α} {l l' : List α} (i : CInv bs c l) (dflt : α) (o : Op α)
    (hs : spec l o = some l') : ∃ c', step bs dflt c o = some c' ∧ CInv bs c' l' := by
  cases o with
  | emplace v => cases hs; exact i.emplace hbs dflt v
  | emplaceOf k =>
    rcases hx : l[k]? with _ | v
    · simp [spec, hx] at hs
    simp only [spec, hx, Option.bind_some, Option.some.injEq] at hs
    subst hs
    have hk := getElem?_lt hx
    obtain ⟨c2, e2, i2⟩ := i.emplace hbs dflt v
    refine ⟨c2, ?_, i2⟩
    obtain ⟨c1, e1, -, -, hmono, -⟩ := i.growIfNeeded hbs dflt
    have hl := i.load hbs hk
    rw [hx] at hl
    rw [RefStable.step, Coll.emplaceOf, i.addr (Nat.lt_of_lt_of_le hk i.fits)]
    simp only [Option.bind_some]
    rw [Coll.emplace, e1] at e2
    rw [e1]
    simp only [Option.bind_some] at e2 ⊢
    rw [load_mono hmono hl]
    exact e2
  | write k v =>
    simp only [spec] at hs
    by_cases hk : k < l.length
    · rw [if_pos hk] at hs
      cases hs
      have hk' := Nat.lt_of_lt_of_le hk i.fits
      obtain ⟨b, e, hbl, hb⟩ := i.store hbs hk' v (l.set k v) (List.getElem?_set_self hk)
        (fun m hm _ => set_ne _ _ _ _ (Ne.symm hm))
      refine ⟨⟨c.vheap, c.vec, b, c.size⟩, ?_, ?_⟩
      · rw [RefStable.step, Coll.write, i.addr hk']
        simp only [Option.bind_some]
        rw [e]
        rfl
      · exact ⟨by simp only; rw [hbl]; exact i.rep, hb, by simpa using i.size, by simp only; rw [hbl]; simpa using i.fits,
          by simp only; rw [hbl]; simpa using i.tight, i.own⟩
    · rw [if_neg hk] at hs; cases hs

theorem CInv.run {bs : Nat} (hbs : 0 < bs) {c : Coll α} {l l' : List α} (i : CInv bs c l) (dflt : α)
    (ops : List (Op α)) (hs : specRun l ops = some l') :
    ∃ c', run bs dflt c ops = some c' ∧ CInv bs c' l' := by
  induction ops generalizing c l with
  | nil => cases hs; exact ⟨c, rfl, i⟩
  | cons o os ih =>
    rcases h1 : spec l o with _ | l1
    · simp [specRun, h1] at hs
    · simp only [specRun, h1, Option.bind_some] at hs
      obtain ⟨c1, e1, i1⟩ := i.step hbs dflt o h1
      obtain ⟨c2, e2, i2⟩ := ih i1 hs
      exact ⟨c2, by rw [RefStable.run, e1]; exact e2, i2⟩

theorem spec_length {l l' : List α} {o : Op α} (h : spec l o = some l') : l.length ≤ l'.length := by
  cases o with
  | emplace v => cases h; simp
  | emplaceOf k =>
    rcases hx : l[k]? with _ | v
    · simp [spec, hx] at h
    · simp only [spec, hx, Option.bind_some, Option.some.injEq] at h
      subst h; simp
  | write k v =>
    simp only [spec] at h
    split at h
    · cases h; simp
    · cases h

theorem specRun_length {l l' : List α} {ops : List (Op α)} (h : specRun l ops = some l') :
    l.length ≤ l'.length := by
  induction ops generalizing l with
  | nil => cases h; exact Nat.le_refl _
  | cons o os ih =>
    rcases h1 : spec l o with _ | l1
    · simp [specRun, h1] at h
    · simp only [specRun, h1, Option.bind_some] at h
      exact Nat.le_trans (spec_length h1) (ih h)

theorem specRun_append {l l1 : List α} {a b : List (Op α)} (h : specRun l a = some l1) :
    specRun l (a ++ b) = specRun l1 b := by
  induction a generalizing l with
  | nil => cases h; rfl
  | cons o os ih =>
    rcases h1 : spec l o with _ | l2
    · simp [specRun, h1] at h
    · simp only [specRun, h1, Option.bind_some, List.cons_append] at h ⊢
      exact ih h

theorem run_append {bs : Nat} {dflt : α} {c c1 : Coll α} {a b : List (Op α)} (h : run bs dflt c a = some c1) :
    run bs dflt c (a ++ b) = run bs dflt c1 b := by
  induction a generalizing c with
  | nil => cases h; rfl
  | cons o os ih =>
    rcases h1 : step bs dflt c o with _ | c2
    · simp [run, h1] at h
    · simp only [run, h1, Option.bind_some, List.cons_append] at h ⊢
      exact ih h

/-- Freeing all blocks from number `i` on. -/
theorem freeAll_eq {vh : CVec.Heap Nat} {p m : Nat} (hr : ∀ i, i < m → CVec.read vh p i = some i) (n i : Nat)
    (him : i + n = m) (blocks : List (Option (List α))) (hlen : blocks.length = m)
    (hdead : ∀ j : Nat, j < i → blocks[j]? = some none)
    (hlive : ∀ j : Nat, i ≤ j → j < m → ∃ b, blocks[j]? = some (some b)) :
    freeAll vh p i blocks n = some (List.replicate m none) := by
  induction n generalizing i blocks with
  | zero =>
    simp only [freeAll]
    congr 1
    apply List.ext_getElem?
    intro j
    rcases Nat.lt_or_ge j m with hj | hj
    · rw [hdead j (by omega)]; simp [hj]
    · rw [List.getElem?_eq_none (by omega), List.getElem?_eq_none (by simpa using hj)]
  | succ n ih =>
    obtain ⟨b, hb⟩ := hlive i (Nat.le_refl _) (by omega)
    rw [freeAll, hr i (by omega)]
    simp only [Option.bind_some]
    have hf : free blocks i = some (blocks.set i none) := by simp only [free, hb]
    rw [hf]
    simp only [Option.bind_some]
    refine ih (i + 1) (by omega) _ (by simpa using hlen) (fun j hj => ?_) (fun j h1 h2 => ?_)
    · rcases Decidable.em (i = j) with rfl | hne
      · exact set_self _ _ _ _ hb
      · rw [set_ne _ _ _ _ hne]; exact hdead j (by omega)
    · obtain ⟨x, hx⟩ := hlive j (by omega) h2
      exact ⟨x, by rw [set_ne _ _ _ _ (by omega), hx]⟩

theorem CInv.dtor {bs : Nat} {c : Coll α} {l : List α} (i : CInv bs c l) :
    ∃ h b, c.dtor = some (h, b) ∧ (∀ x ∈ h, x = none) ∧ (∀ x ∈ b, x = none) := by
  obtain ⟨h, e, lo⟩ := CVec.dtor_ok i.rep
  have hclean : ∀ x ∈ h, x = none := by
    intro x hx
    rcases x with _ | b
    · rfl
    · obtain ⟨q, hq, he⟩ := List.getElem_of_mem hx
      obtain ⟨h1, h2⟩ := lo.live q b (by rw [List.getElem?_eq_getElem hq, he]) (by simp [CVec.Vec.empty])
      exact absurd (i.own q b h1) h2
  have hsz : c.vec.size = c.blocks.length := by rw [rep_size i.rep]; simp
  rcases hd : c.vec.data with _ | p
  · refine ⟨h, c.blocks, by rw [Coll.dtor, hd]; simp only; rw [e]; rfl, hclean, ?_⟩
    have : c.blocks.length = 0 := by
      rcases i.rep with ⟨p, hp, -⟩ | ⟨-, hl⟩
      · rw [hd] at hp; cases hp
      · have := congrArg List.length hl; simpa using this
    intro x hx
    have := List.length_pos_of_mem hx
    omega
  · have hr : ∀ k, k < c.blocks.length → CVec.read c.vheap p k = some k := by
      intro k hk
      have := CVec.read_rep i.rep k
      rw [hd, List.getElem?_range hk] at this
      exact this
    have hf := freeAll_eq hr c.vec.size 0 (by omega) c.blocks rfl (fun j hj => by omega)
      (fun j _ hj => by obtain ⟨b, hb, -⟩ := i.blk j hj; exact ⟨b, hb⟩)
    refine ⟨h, List.replicate c.blocks.length none, by rw [Coll.dtor, hd]; simp only; rw [hf]; simp only [Option.bind_some]; rw [e]; rfl,
      hclean, fun x hx => (List.mem_replicate.mp hx).2⟩

/-! ### Unique pointers -/

structure UInv (st : UState α) (l : List Bool) : Prop where
  len : st.ptrs.length = l.length
  alive : ∀ s : Nat, l[s]? = some true → ∃ p, st.ptrs[s]? = some (some p)
  dead : ∀ s : Nat, l[s]? = some false → st.ptrs[s]? = some none
  live : ∀ s p : Nat, st.ptrs[s]? = some (some (some p)) → ∃ v, st.objs[p]? = some (some v)
  inj : ∀ s t p : Nat, st.ptrs[s]? = some (some (some p)) → st.ptrs[t]? = some (some (some p)) → s = t

/-- Every object has a pointer. -/
def Owned (st : UState α) : Prop :=
  ∀ (p : Nat) (v : α), st.objs[p]? = some (some v) → ∃ s : Nat, st.ptrs[s]? = some (some (some p))

theorem ptr_eq {st : UState α} {s : Nat} {p : Option Nat} (h : st.ptrs[s]? = some (some p)) :
    st.ptr s = some p := by
  simp only [UState.ptr, h]

theorem ptr_inv {st : UState α} {s : Nat} {p : Option Nat} (h : st.ptr s = some p) :
    st.ptrs[s]? = some (some p) := by
  unfold UState.ptr at h
  split at h
  · rename_i l' he; cases h; exact he
  · cases h

theorem snoc_get {β : Type} {l : List β} {x y : β} {s : Nat} (h : (l ++ [x])[s]? = some y) :
    l[s]? = some y ∨ (s = l.length ∧ y = x) := by
  rcases Nat.lt_trichotomy s l.length with hs | hs | hs
  · rw [List.getElem?_append_left hs] at h; exact Or.inl h
  · subst hs; simp at h; exact Or.inr ⟨rfl, h.symm⟩
  · rw [List.getElem?_eq_none (by simp; omega)] at h; cases h

/-- Adding a pointer. -/
theorem UInv.add {st : UState α} {l : List Bool} (i : UInv st l) (objs : List (Option α)) (p : Option Nat)
    (hobj : ∀ (q : Nat) (v : α), st.objs[q]? = some (some v) → objs[q]? = some (some v))
    (hp : ∀ q, p = some q → (∃ v, objs[q]? = some (some v)) ∧ ∀ s : Nat, st.ptrs[s]? ≠ some (some (some q))) :
    UInv ⟨objs, st.ptrs ++ [some p]⟩ (l ++ [true]) := by
  refine ⟨by simp [i.len], fun s hs => ?_, fun s hs => ?_, fun s q hs => ?_, fun s t q hs ht => ?_⟩
  · rcases snoc_get hs with h | ⟨rfl, -⟩
    · obtain ⟨q, hq⟩ := i.alive s h
      exact ⟨q, by simp only; rw [List.getElem?_append_left (getElem?_lt hq), hq]⟩
    · exact ⟨p, by simp only; rw [← i.len]; simp⟩
  · rcases snoc_get hs with h | ⟨-, h⟩
    · have := i.dead s h
      simp only
      rw [List.getElem?_append_left (getElem?_lt this), this]
    · cases h
  · rcases snoc_get hs with h | ⟨-, h⟩
    · obtain ⟨v, hv⟩ := i.live s q h
      exact ⟨v, hobj q v hv⟩
    · exact (hp q (Option.some.inj h).symm).1
  · rcases snoc_get hs with h | ⟨rfl, h⟩ <;> rcases snoc_get ht with h' | ⟨rfl, h'⟩
    · exact i.inj s t q h h'
    · exact absurd h ((hp q (Option.some.inj h').symm).2 s)
    · exact absurd h' ((hp q (Option.some.inj h).symm).2 t)
    · rfl

theorem UInv.step {st : UState α} {l l' : List Bool} (i : UInv st l) (o : UOp α) (h : ualive l o = some l') :
    ∃ st', ustep st o = some st' ∧ UInv st' l' ∧ (Owned st → NullTarget st o → Owned st') := by
  cases o with
  | null =>
    cases h
    refine ⟨_, rfl, i.add st.objs none (fun _ _ h => h) (by simp), fun ho _ p v hv => ?_⟩
    obtain ⟨s, hs⟩ := ho p v hv
    exact ⟨s, by simp only; rw [List.getElem?_append_left (getElem?_lt hs), hs]⟩
  | make v =>
    cases h
    refine ⟨_, rfl, i.add (st.objs ++ [some v]) (some st.objs.length)
      (fun q x hx => by rw [List.getElem?_append_left (getElem?_lt hx), hx]) (fun q hq => ?_), fun ho _ p x hx => ?_⟩
    · cases hq
      refine ⟨⟨v, by simp⟩, fun s hs => ?_⟩
      obtain ⟨x, hx⟩ := i.live s _ hs
      have := getElem?_lt hx
      omega
    · rcases snoc_get hx with h | ⟨rfl, -⟩
      · obtain ⟨s, hs⟩ := ho p x h
        exact ⟨s, by simp only; rw [List.getElem?_append_left (getElem?_lt hs), hs]⟩
      · exact ⟨st.ptrs.length, by simp⟩
  | move s =>
    simp only [ualive] at h
    by_cases hs : l[s]? = some true
    · rw [if_pos hs] at h
      cases h
      obtain ⟨p, hp⟩ := i.alive s hs
      refine ⟨⟨st.objs, st.ptrs.set s (some none) ++ [some p]⟩, by rw [ustep, ptr_eq hp]; rfl, ?_, ?_⟩
      · have i1 : UInv ⟨st.objs, st.ptrs.set s (some none)⟩ l := by
          refine ⟨by simp [i.len], fun t ht => ?_, fun t ht => ?_, fun t q ht => ?_, fun t u q ht hu => ?_⟩
          · rcases Decidable.em (s = t) with rfl | hne
            · exact ⟨none, set_self _ _ _ _ hp⟩
            · obtain ⟨q, hq⟩ := i.alive t ht
              exact ⟨q, by simp only; rw [set_ne _ _ _ _ hne, hq]⟩
          · rcases Decidable.em (s = t) with rfl | hne
            · rw [hs] at ht; cases ht
            · simp only; rw [set_ne _ _ _ _ hne]; exact i.dead t ht
          · rcases Decidable.em (s = t) with rfl | hne
            · simp only at ht; rw [set_self _ _ _ _ hp] at ht; cases ht
            · simp only at ht; rw [set_ne _ _ _ _ hne] at ht; exact i.live t q ht
          · simp only at ht hu
            rcases Decidable.em (s = t) with rfl | hne
            · rw [set_self _ _ _ _ hp] at ht; cases ht
            · rcases Decidable.em (s = u) with rfl | hne'
              · rw [set_self _ _ _ _ hp] at hu; cases hu
              · rw [set_ne _ _ _ _ hne] at ht
                rw [set_ne _ _ _ _ hne'] at hu
                exact i.inj t u q ht hu
        refine i1.add st.objs p (fun _ _ h => h) (fun q hq => ?_)
        subst hq
        refine ⟨i.live s q hp, fun t ht => ?_⟩
        simp only at ht
        rcases Decidable.em (s = t) with rfl | hne
        · rw [set_self _ _ _ _ hp] at ht; cases ht
        · rw [set_ne _ _ _ _ hne] at ht
          exact hne (i.inj s t q hp ht)
      · intro ho _ q v hv
        obtain ⟨t, ht⟩ := ho q v hv
        rcases Decidable.em (s = t) with rfl | hne
        · rw [hp] at ht
          cases ht
          exact ⟨st.ptrs.length, by simp⟩
        · refine ⟨t, ?_⟩
          simp only
          rw [List.getElem?_append_left (by simpa using getElem?_lt ht), set_ne _ _ _ _ hne, ht]
    · rw [if_neg hs] at h; cases h
  | moveAssign d s =>
    simp only [ualive] at h
    by_cases hs : l[d]? = some true ∧ l[s]? = some true
    · rw [if_pos hs] at h
      cases h
      obtain ⟨hd, hs⟩ := hs
      obtain ⟨pd, hpd⟩ := i.alive d hd
      obtain ⟨p, hp⟩ := i.alive s hs
      by_cases hds : d = s
      · refine ⟨st, ?_, i, fun ho _ => ho⟩
        rw [ustep, ptr_eq hpd]
        simp only [Option.bind_some]
        rw [ptr_eq hp]
        simp [hds]
      · have e1 : ((st.ptrs.set d (some p)).set s (some none))[s]? = some (some none) :=
          set_self _ _ _ _ (by rw [set_ne _ _ _ _ hds, hp])
        have e2 : ((st.ptrs.set d (some p)).set s (some none))[d]? = some (some p) := by
          rw [set_ne _ _ _ _ (Ne.symm hds), set_self _ _ _ _ hpd]
        have e3 : ∀ t : Nat, t ≠ d → t ≠ s → ((st.ptrs.set d (some p)).set s (some none))[t]? = st.ptrs[t]? := by
          intro t h1 h2
          rw [set_ne _ _ _ _ h2.symm, set_ne _ _ _ _ h1.symm]
        have key : ∀ t q : Nat, ((st.ptrs.set d (some p)).set s (some none))[t]? = some (some (some q)) →
            (t = d ∧ p = some q) ∨ (t ≠ d ∧ t ≠ s ∧ st.ptrs[t]? = some (some (some q))) := by
          intro t q ht
          rcases Decidable.em (t = s) with rfl | h2
          · rw [e1] at ht; cases ht
          · rcases Decidable.em (t = d) with rfl | h1
            · rw [e2] at ht; cases ht; exact Or.inl ⟨rfl, rfl⟩
            · rw [e3 t h1 h2] at ht; exact Or.inr ⟨h1, h2, ht⟩
        refine ⟨⟨st.objs, (st.ptrs.set d (some p)).set s (some none)⟩, ?_, ⟨by simp [i.len], fun t ht => ?_,
          fun t ht => ?_, fun t q ht => ?_, fun t u q ht hu => ?_⟩, ?_⟩
        · rw [ustep, ptr_eq hpd]
          simp only [Option.bind_some]
          rw [ptr_eq hp]
          simp only [Option.bind_some]
          rw [if_neg hds]
        · rcases Decidable.em (t = s) with rfl | h2
          · exact ⟨_, e1⟩
          · rcases Decidable.em (t = d) with rfl | h1
            · exact ⟨_, e2⟩
            · simp only; rw [e3 t h1 h2]; exact i.alive t ht
        · rcases Decidable.em (t = s) with rfl | h2
          · rw [hs] at ht; cases ht
          · rcases Decidable.em (t = d) with rfl | h1
            · rw [hd] at ht; cases ht
            · simp only; rw [e3 t h1 h2]; exact i.dead t ht
        · rcases key t q ht with ⟨rfl, rfl⟩ | ⟨h1, h2, h3⟩
          · exact i.live s q hp
          · exact i.live t q h3
        · rcases key t q ht with ⟨rfl, rfl⟩ | ⟨h1, h2, h3⟩ <;> rcases key u q hu with ⟨rfl, h'⟩ | ⟨h4, h5, h6⟩
          · rfl
          · exact absurd (i.inj u s q h6 hp) h5
          · exact absurd (i.inj t s q h3 (by rw [hp, h'])) h2
          · exact i.inj t u q h3 h6
        · intro ho hn q v hv
          obtain ⟨t, ht⟩ := ho q v hv
          have hdn : st.ptrs[d]? = some (some none) := by
            rcases hn with rfl | hn
            · exact absurd rfl hds
            · exact ptr_inv hn
          rcases Decidable.em (t = s) with rfl | h2
          · rw [hp] at ht; cases ht
            exact ⟨d, e2⟩
          · rcases Decidable.em (t = d) with rfl | h1
            · rw [hdn] at ht; cases ht
            · exact ⟨t, by simp only; rw [e3 t h1 h2, ht]⟩
    · rw [if_neg hs] at h; cases h
  | destroy s =>
    simp only [ualive] at h
    by_cases hs : l[s]? = some true
    · rw [if_pos hs] at h
      cases h
      obtain ⟨p, hp⟩ := i.alive s hs
      have hdt : ∃ objs, ptrDtor st.objs p = some objs ∧
          (∀ (q : Nat) (v : α), some q ≠ p → st.objs[q]? = some (some v) → objs[q]? = some (some v)) ∧
          (∀ (q : Nat) (v : α), objs[q]? = some (some v) → st.objs[q]? = some (some v) ∧ some q ≠ p) := by
        rcases p with _ | p
        · exact ⟨st.objs, rfl, fun _ _ _ h => h, fun _ _ h => ⟨h, by simp⟩⟩
        · obtain ⟨v, hv⟩ := i.live s p hp
          refine ⟨st.objs.set p none, by simp only [ptrDtor, free, hv], fun q x hq hx => ?_, fun q x hx => ?_⟩
          · rw [set_ne _ _ _ _ (by rintro rfl; exact hq rfl), hx]
          · rcases Decidable.em (p = q) with rfl | hne
            · rw [set_self _ _ _ _ hv] at hx; cases hx
            · rw [set_ne _ _ _ _ hne] at hx
              exact ⟨hx, by intro he; exact hne (Option.some.inj he).symm⟩
      obtain ⟨objs, e, hk, hb⟩ := hdt
      have key : ∀ t q : Nat, (st.ptrs.set s none)[t]? = some (some (some q)) →
          t ≠ s ∧ st.ptrs[t]? = some (some (some q)) := by
        intro t q ht
        rcases Decidable.em (s = t) with rfl | hne
        · rw [set_self _ _ _ _ hp] at ht; cases ht
        · rw [set_ne _ _ _ _ hne] at ht; exact ⟨Ne.symm hne, ht⟩
      refine ⟨⟨objs, st.ptrs.set s none⟩, ?_, ⟨by simp [i.len], fun t ht => ?_, fun t ht => ?_, fun t q ht => ?_,
        fun t u q ht hu => ?_⟩, ?_⟩
      · rw [ustep, ptr_eq hp]
        simp only [Option.bind_some]
        rw [e]
        rfl
      · rcases Decidable.em (s = t) with rfl | hne
        · rw [set_self _ _ _ _ hs] at ht; cases ht
        · rw [set_ne _ _ _ _ hne] at ht
          simp only
          rw [set_ne _ _ _ _ hne]
          exact i.alive t ht
      · rcases Decidable.em (s = t) with rfl | hne
        · exact set_self _ _ _ _ hp
        · rw [set_ne _ _ _ _ hne] at ht
          simp only
          rw [set_ne _ _ _ _ hne]
          exact i.dead t ht
      · obtain ⟨hts, ht'⟩ := key t q ht
        obtain ⟨v, hv⟩ := i.live t q ht'
        refine ⟨v, hk q v ?_ hv⟩
        rintro rfl
        exact hts (i.inj t s q ht' hp)
      · exact i.inj t u q (key t q ht).2 (key u q hu).2
      · intro ho _ q v hv
        obtain ⟨hv', hq⟩ := hb q v hv
        obtain ⟨t, ht⟩ := ho q v hv'
        refine ⟨t, ?_⟩
        simp only
        rw [set_ne _ _ _ _ ?_, ht]
        rintro rfl
        rw [hp] at ht
        cases ht
        exact hq rfl
    · rw [if_neg hs] at h; cases h

theorem UInv.run {st : UState α} {l l' : List Bool} (i : UInv st l) (ops : List (UOp α))
    (h : ualiveRun l ops = some l') :
    ∃ st', urun st ops = some st' ∧ UInv st' l' ∧ (Owned st → NullTargets st ops → Owned st') := by
  induction ops generalizing st l with
  | nil => cases h; exact ⟨st, rfl, i, fun ho _ => ho⟩
  | cons o os ih =>
    rcases h1 : ualive l o with _ | l1
    · simp [ualiveRun, h1] at h
    · simp only [ualiveRun, h1, Option.bind_some] at h
      obtain ⟨s1, e1, i1, o1⟩ := i.step o h1
      obtain ⟨s2, e2, i2, o2⟩ := ih i1 h
      exact ⟨s2, by rw [urun, e1]; exact e2, i2, fun ho hn => o2 (o1 ho hn.1) (hn.2 s1 e1)⟩

theorem UInv.init : UInv (⟨[], []⟩ : UState α) [] := by
  refine ⟨rfl, ?_, ?_, ?_, ?_⟩ <;> simp

end Verif.RefStable
