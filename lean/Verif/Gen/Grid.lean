import Verif.Gen.Geometry
import Verif.Gen.Conv
import Verif.Prim.Build

/-! # Structured meshes are ready for distribution and for conversion -/
namespace Verif.Gen
open Verif Verif.Elem Verif.Mesh Verif.Convert Verif.Partition Verif.Pipeline Verif.Prim

noncomputable section

/-- The call emplacing a box in a domain. -/
def emitOf (n : Fin 3 → Nat) (P : Fin 3 → Nat → ℝ) (q : Nat × Box) : Emit (ℝ × ℝ × ℝ) :=
  ⟨q.1, tyOf q.2.w, q.2.nodes n, (List.range (2 ^ (tyOf q.2.w).dim)).map fun k => (q.2.data P k 0, q.2.data P k 1, q.2.data P k 2)⟩

/-- Directions without `c`. -/
def drop (W : Fin 3 → Bool) (c : Fin 3) : Fin 3 → Bool := fun i => if i = c then false else W i

/-- A structured mesh on the grid of `n` points: all cells, in domain `dom`, and in other domains some of the boxes on the border. -/
structure IsGrid (n : Fin 3 → Nat) (W : Fin 3 → Bool) (dom : Nat) (Bs : List (Nat × Box)) : Prop where
  size : ∀ c, if W c = true then 2 ≤ n c else n c = 1
  nonempty : axes W ≠ []
  cell : ∀ lo, (⟨lo, W⟩ : Box).InGrid n → (dom, ⟨lo, W⟩) ∈ Bs
  main : ∀ q ∈ Bs, q.1 = dom → q.2.w = W
  rest : ∀ q ∈ Bs, q.1 ≠ dom → 2 ≤ (axes W).length ∧ ∃ c, W c = true ∧ q.2.w = drop W c ∧ (q.2.lo c = 0 ∨ q.2.lo c + 1 = n c)
  grid : ∀ q ∈ Bs, q.2.InGrid n
  nodup : (Bs.map (·.2)).Nodup

theorem length_drop {W : Fin 3 → Bool} {c : Fin 3} (h : W c = true) : (axes (drop W c)).length + 1 = (axes W).length := by
  revert W c; decide

section
variable {n : Fin 3 → Nat} {P : Fin 3 → Nat → ℝ} {W : Fin 3 → Bool} {dom : Nat} {Bs : List (Nat × Box)}

theorem IsGrid.ne (h : IsGrid n W dom Bs) {q : Nat × Box} (hq : q ∈ Bs) : axes q.2.w ≠ [] := by
  by_cases hd : q.1 = dom
  · rw [h.main q hq hd]; exact h.nonempty
  · obtain ⟨h2, c, hc, hw, _⟩ := h.rest q hq hd
    have := length_drop hc
    rw [hw]
    intro h0
    rw [h0, List.length_nil] at this
    omega

theorem IsGrid.dim (h : IsGrid n W dom Bs) {q : Nat × Box} (hq : q ∈ Bs) :
    (tyOf q.2.w).dim = if q.1 = dom then (axes W).length else (axes W).length - 1 := by
  rw [axes_length _ (h.ne hq)]
  split
  · rename_i hd; rw [h.main q hq hd]
  · rename_i hd
    obtain ⟨_, c, hc, hw, _⟩ := h.rest q hq hd
    have := length_drop hc
    rw [hw]; omega

theorem IsGrid.good (h : IsGrid n W dom Bs) : GoodEmits (Bs.map (emitOf n P)) := by
  intro a ha b hb hab
  obtain ⟨q, hq, rfl⟩ := List.mem_map.1 ha
  obtain ⟨q', hq', rfl⟩ := List.mem_map.1 hb
  have h1 := h.dim hq
  have h2 := h.dim hq'
  have hab : q.1 = q'.1 := hab
  rw [← hab, ← h1] at h2
  exact dim_inj h2.symm

/-- Box `b` as the element with number `i`. -/
def elB (n : Fin 3 → Nat) (i : Nat) (b : Box) : Element := ⟨tyOf b.w, 2, i, b.nodes n⟩

variable {res : List Nat} {m : DomMap}

theorem inDom_grid (h : IsGrid n W dom Bs) (hb : Built res (number (Bs.map (emitOf n P))) m) {k : Nat} {e : Element} :
    InDom m k e ↔ ∃ i b, Bs[i]? = some (k, b) ∧ e = elB n i b := by
  have key : e ∈ Prim.sel k (number (Bs.map (emitOf n P))) ↔ ∃ i b, Bs[i]? = some (k, b) ∧ e = elB n i b := by
    rw [Prim.mem_sel, mem_number]
    constructor
    · rintro ⟨ev, i, hi, he⟩
      rw [List.getElem?_map, Option.map_eq_some_iff] at hi
      obtain ⟨q, hq, rfl⟩ := hi
      simp only [Prod.mk.injEq] at he
      refine ⟨i, q.2, ?_, he.2⟩
      rw [hq, he.1]; rfl
    · rintro ⟨i, b, hi, rfl⟩
      exact ⟨emitOf n P (k, b), i, by rw [List.getElem?_map, hi]; rfl, rfl⟩
  rw [← key]
  constructor
  · rintro ⟨d, hd, he⟩
    rw [hb.look] at hd
    split at hd
    · simp only [Option.some.injEq] at hd
      rw [← hd, elems_domOf (good_number h.good)] at he
      exact he
    · cases hd
  · intro he
    refine ⟨domOf k (number (Bs.map (emitOf n P))), ?_, by rw [elems_domOf (good_number h.good)]; exact he⟩
    rw [hb.look, if_pos (.inr (List.mem_map.2 ⟨_, Prim.mem_sel.1 he, rfl⟩))]

theorem wf_grid (h : IsGrid n W dom Bs) (hb : Built res (number (Bs.map (emitOf n P))) m) : Mesh.WfMesh kinds1 m := by
  have hg := good_number (h.good (P := P))
  refine ⟨by decide, hb.sorted, fun k d hd => ?_⟩
  rw [hb.look] at hd
  split at hd
  · simp only [Option.some.injEq] at hd
    subst hd
    refine ⟨by simp [domOf], ?_, ?_⟩
    · intro i hi e he
      simp only [domOf, List.getElem_map, List.mem_filter, beq_iff_eq] at he
      exact he.2
    · intro e he
      rw [elems_domOf hg] at he
      simp only [domOf]
      cases hh : (Prim.sel k (number (Bs.map (emitOf n P)))).head? with
      | none => rw [List.head?_eq_none_iff] at hh; rw [hh] at he; simp at he
      | some x =>
        have hx := Prim.mem_sel.1 (List.mem_of_mem_head? hh)
        rw [Option.map_some, hg.dim _ hx _ (Prim.mem_sel.1 he) rfl]
  · cases hd

theorem holds_grid (h : IsGrid n W dom Bs) (hb : Built res (number (Bs.map (emitOf n P))) m) {e : Element} :
    Holds m e ↔ ∃ i q, Bs[i]? = some q ∧ e = elB n i q.2 := by
  rw [holds_iff_inDom (wf_grid h hb)]
  simp only [inDom_grid h hb]
  constructor
  · rintro ⟨k, i, b, hi, rfl⟩; exact ⟨i, _, hi, rfl⟩
  · rintro ⟨i, ⟨k, b⟩, hi, rfl⟩; exact ⟨k, i, b, hi, rfl⟩

theorem mem_of {i : Nat} {q : Nat × Box} (h : Bs[i]? = some q) : q ∈ Bs := List.mem_of_getElem? h

theorem IsGrid.index (h : IsGrid n W dom Bs) {i j : Nat} {q q' : Nat × Box} (hi : Bs[i]? = some q) (hj : Bs[j]? = some q') (he : q.2 = q'.2) : i = j := by
  obtain ⟨hi', rfl⟩ := List.getElem?_eq_some_iff.1 hi
  obtain ⟨hj', rfl⟩ := List.getElem?_eq_some_iff.1 hj
  refine (List.Nodup.getElem_inj_iff h.nodup (i := i) (j := j) (hi := by simpa using hi') (hj := by simpa using hj')).1 ?_
  simpa using he

/-- The sides of the elements. -/
theorem side_grid (h : IsGrid n W dom Bs) {e x : Nat × Box} (he : e ∈ Bs) (hx : x ∈ Bs) (h2 : 2 ≤ (axes e.2.w).length) {i s : Nat} :
    (∃ l, sideNodes (elB n i e.2) s = some l ∧ l.Perm (x.2.nodes n)) ↔
      s < Elem.nSides (tyOf e.2.w) ∧ e.2.w (sideDir e.2.w s) = true ∧ x.2 = e.2.side (sideDir e.2.w s) (s % 2 == 1) := by
  have hsm : 2 ^ (tyOf e.2.w).dim < 2 ^ 16 := by cases tyOf e.2.w <;> decide
  have hin : ∀ s, s < Elem.nSides (tyOf e.2.w) → (e.2.side (sideDir e.2.w s) (s % 2 == 1)).InGrid n := by
    intro s hs c
    have hw := (e.2.sideNodes n h2 hs).1
    have hg := h.grid e he c
    simp only [Box.side]
    by_cases hc : c = sideDir e.2.w s
    · rw [← hc] at hw
      rw [hw] at hg
      simp only [← hc, if_true, Bool.toNat_false]
      have := Bool.toNat_le (s % 2 == 1)
      simp only [Bool.toNat_true] at hg
      omega
    · simpa only [if_neg hc] using hg
  constructor
  · rintro ⟨l, hl, hp⟩
    obtain ⟨hs, rfl⟩ := (sideNodes_face le_rfl hsm).1 hl
    obtain ⟨hw, hn⟩ := e.2.sideNodes n h2 hs
    rw [hn] at hp
    exact ⟨hs, hw, (Box.eq_of_nodes (hin s hs) (h.grid x hx) fun v => hp.mem_iff).symm⟩
  · rintro ⟨hs, _, hx'⟩
    obtain ⟨hw, hn⟩ := e.2.sideNodes n h2 hs
    refine ⟨_, (sideNodes_face le_rfl hsm).2 ⟨hs, rfl⟩, ?_⟩
    rw [hn, hx']

theorem side_of : ∀ (W : Fin 3 → Bool) (c : Fin 3) (up : Bool), W c = true → 2 ≤ (axes W).length →
    ∃ s ∈ List.range (Elem.nSides (tyOf W)), sideDir W s = c ∧ (s % 2 == 1) = up := by decide +kernel

theorem side_inj : ∀ W : Fin 3 → Bool, 2 ≤ (axes W).length → ∀ s ∈ List.range (Elem.nSides (tyOf W)), ∀ s' ∈ List.range (Elem.nSides (tyOf W)),
    sideDir W s = sideDir W s' → (s % 2 == 1) = (s' % 2 == 1) → s = s' := by decide +kernel

theorem drop_inj {W : Fin 3 → Bool} {c c' : Fin 3} (hc : W c = true) (h : drop W c = drop W c') : c = c' := by
  by_contra hne
  have := congrFun h c
  simp [drop, hne, hc] at this

/-- **The elements next to a box on the border**: there is one, and it is a cell of the grid. -/
theorem parent_grid (h : IsGrid n W dom Bs) {x : Nat × Box} (hx : x ∈ Bs) (hd : x.1 ≠ dom) :
    (∃ i e s, Bs[i]? = some (dom, e) ∧ (tyOf e.w).dim = (tyOf x.2.w).dim + 1 ∧ ∃ l, sideNodes (elB n i e) s = some l ∧ l.Perm (x.2.nodes n)) ∧
    ∀ i q s i' q' s', Bs[i]? = some q → Bs[i']? = some q' → (tyOf q.2.w).dim = (tyOf x.2.w).dim + 1 → (tyOf q'.2.w).dim = (tyOf x.2.w).dim + 1 →
      (∃ l, sideNodes (elB n i q.2) s = some l ∧ l.Perm (x.2.nodes n)) → (∃ l, sideNodes (elB n i' q'.2) s' = some l ∧ l.Perm (x.2.nodes n)) →
      q.1 = dom ∧ q = q' ∧ i = i' ∧ s = s' := by
  obtain ⟨h2, c, hc, hw, hlo⟩ := h.rest x hx hd
  have hsz := h.size c
  rw [if_pos hc] at hsz
  have hxd := h.dim hx
  rw [if_neg hd] at hxd
  -- the position of the cell along `c` is determined
  have hcell : ∀ q ∈ Bs, (tyOf q.2.w).dim = (tyOf x.2.w).dim + 1 → q.1 = dom := by
    intro q hq hdim
    by_contra hne
    have := h.dim hq
    rw [if_neg hne] at this
    omega
  have huniq : ∀ q ∈ Bs, q.1 = dom → ∀ s, s < Elem.nSides (tyOf q.2.w) → x.2 = q.2.side (sideDir q.2.w s) (s % 2 == 1) →
      sideDir W s = c ∧ (s % 2 == 1) = decide (x.2.lo c ≠ 0) ∧ q.2 = ⟨fun i => if i = c then x.2.lo c - (decide (x.2.lo c ≠ 0)).toNat else x.2.lo i, W⟩ := by
    intro q hq hqd s hs he
    have hqw := h.main q hq hqd
    rw [hqw] at he
    have hww : drop W c = drop W (sideDir W s) := by
      rw [← hw, he]
      simp only [Box.side, hqw]
      rfl
    have hcs := drop_inj hc hww
    rw [← hcs] at he ⊢
    have hl : ∀ i, x.2.lo i = if i = c then q.2.lo i + (s % 2 == 1).toNat else q.2.lo i := by
      intro i; rw [he]; rfl
    have hlc := hl c
    rw [if_pos rfl] at hlc
    have hg := h.grid q hq c
    rw [hqw, hc] at hg
    simp only [Bool.toNat_true] at hg
    have hup : (s % 2 == 1) = decide (x.2.lo c ≠ 0) := by
      rcases hb : (s % 2 == 1) with _ | _
      · rw [hb] at hlc
        simp only [Bool.toNat_false] at hlc
        have : x.2.lo c = 0 := by omega
        simp [this]
      · rw [hb] at hlc
        simp only [Bool.toNat_true] at hlc
        have : x.2.lo c ≠ 0 := by omega
        simp [this]
    refine ⟨rfl, hup, Box.ext' (fun i => ?_) fun i => by rw [hqw]⟩
    by_cases hi : i = c
    · subst hi
      simp only [if_true]
      rw [hup] at hlc
      omega
    · have := hl i
      rw [if_neg hi] at this
      simp only [if_neg hi, this]
  constructor
  · have hin : (⟨fun i => if i = c then x.2.lo c - (decide (x.2.lo c ≠ 0)).toNat else x.2.lo i, W⟩ : Box).InGrid n := by
      intro i
      have hgx := h.grid x hx i
      rw [hw] at hgx
      simp only [drop] at hgx ⊢
      by_cases hi : i = c
      · subst hi
        simp only [if_true, hc, Bool.toNat_true, Bool.toNat_false] at hgx ⊢
        rcases hlo with h0 | h0
        · simp only [h0]; simp; omega
        · have : x.2.lo i ≠ 0 := by omega
          simp only [this, ne_eq, not_false_eq_true, decide_true, Bool.toNat_true]
          omega
      · simpa only [if_neg hi] using hgx
    have hm := h.cell _ hin
    obtain ⟨i, hi⟩ := List.mem_iff_getElem?.1 hm
    obtain ⟨s, hs, hs1, hs2⟩ := side_of W c (decide (x.2.lo c ≠ 0)) hc h2
    refine ⟨i, _, s, hi, ?_, (side_grid h hm hx h2).2 ⟨List.mem_range.1 hs, by rw [hs1]; exact hc, ?_⟩⟩
    · have := h.dim hm
      rw [if_pos rfl] at this
      have e : (tyOf W).dim = (axes W).length := this
      change (tyOf W).dim = _
      omega
    · rw [hs1, hs2]
      refine Box.ext' (fun j => ?_) fun j => ?_
      · simp only [Box.side]
        by_cases hj : j = c
        · subst hj
          simp only [if_true]
          by_cases h0 : x.2.lo j = 0
          · simp [h0]
          · simp only [h0, ne_eq, not_false_eq_true, decide_true, Bool.toNat_true]; omega
        · simp only [if_neg hj]
      · rw [hw]; rfl
  · intro i q s i' q' s' hi hi' hdq hdq' hs hs'
    have hqd := hcell q (mem_of hi) hdq
    have hqd' := hcell q' (mem_of hi') hdq'
    have hqw := h.main q (mem_of hi) hqd
    have hqw' := h.main q' (mem_of hi') hqd'
    obtain ⟨hs1, _, hs3⟩ := (side_grid h (mem_of hi) hx (by rw [hqw]; exact h2)).1 hs
    obtain ⟨hs1', _, hs3'⟩ := (side_grid h (mem_of hi') hx (by rw [hqw']; exact h2)).1 hs'
    obtain ⟨a1, a2, a3⟩ := huniq q (mem_of hi) hqd s hs1 hs3
    obtain ⟨b1, b2, b3⟩ := huniq q' (mem_of hi') hqd' s' hs1' hs3'
    have hqq : q.2 = q'.2 := a3.trans b3.symm
    refine ⟨hqd, Prod.ext (hqd.trans hqd'.symm) hqq, h.index hi hi' hqq, ?_⟩
    rw [hqw] at hs1
    rw [hqw'] at hs1'
    exact side_inj W h2 s (List.mem_range.2 hs1) s' (List.mem_range.2 hs1') (a1.trans b1.symm) (a2.trans b2.symm)

/-- Structured meshes are ready for distribution. -/
theorem ready_grid (h : IsGrid n W dom Bs) (hb : Built res (number (Bs.map (emitOf n P))) m) {bnds : List Nat} (hs : bnds.Pairwise (· < ·))
    (hbd : ∀ b ∈ bnds, b ≠ dom ∧ ∃ x, (b, x) ∈ Bs) : Ready 2 m bnds ((axes W).length - 1) (n 0 * n 1 * n 2) := by
  have wf := wf_grid h hb
  have hin := fun {k e} => inDom_grid (k := k) (e := e) h hb
  have hbx : ∀ {b y}, b ∈ bnds → InDom m b y → ∃ i x, Bs[i]? = some (b, x) ∧ y = elB n i x ∧ (b, x).1 ≠ dom := by
    intro b y hb' hy
    obtain ⟨i, x, hi, rfl⟩ := hin.1 hy
    exact ⟨i, x, hi, rfl, (hbd b hb').1⟩
  have hpar : ∀ {x y : Element} {s}, IsParent m x y s ↔ ∃ i q, Bs[i]? = some q ∧ y = elB n i q.2 ∧ (tyOf q.2.w).dim = x.ty.dim + 1 ∧
      ∃ l, sideNodes y s = some l ∧ l.Perm x.nodes := by
    intro x y s
    have hk := Split.wf_keys wf
    constructor
    · rintro ⟨⟨d, hd, hdim, v, hv, hy⟩, hs⟩
      have hl := lookup_of_mem hk hd
      have hyd : y ∈ d.2.elems := List.mem_flatten.2 ⟨v, hv, hy⟩
      obtain ⟨i, b, hi, rfl⟩ := hin.1 ⟨d.2, hl, hyd⟩
      have := (wf.dom _ _ hl).dim _ hyd
      rw [hdim, Option.some.injEq] at this
      exact ⟨i, _, hi, rfl, this.symm, hs⟩
    · rintro ⟨i, q, hi, rfl, hdim, hs⟩
      obtain ⟨d, hd, hy⟩ := hin.2 ⟨i, q.2, hi, rfl⟩
      obtain ⟨v, hv, hy'⟩ := List.mem_flatten.1 hy
      refine ⟨⟨_, mem_of_lookup hd, ?_, v, hv, hy'⟩, hs⟩
      have := (wf.dom _ _ hd).dim _ hy
      simp only [this]
      exact congrArg some hdim
  refine ⟨⟨wf, ?_, ?_, hs, ?_, ?_⟩, ?_, ?_, ?_⟩
  · intro e he
    obtain ⟨i, q, hi, rfl⟩ := (holds_grid h hb).1 he
    exact ⟨Nat.le_succ 1, by simp only [elB]; cases tyOf q.2.w <;> decide, q.2.length_nodes n⟩
  · have := (built_ids h.good hb)
    have h2 := this.nodup_iff.2 List.nodup_range
    rwa [visitAll, visitIds_tagged, List.map_map] at h2
  · intro b hb'
    obtain ⟨hne, x, hx⟩ := hbd b hb'
    obtain ⟨i, hi⟩ := List.mem_iff_getElem?.1 hx
    obtain ⟨d, hd, he⟩ := hin.2 ⟨i, x, hi, rfl⟩
    refine ⟨d, hd, ?_, List.ne_nil_of_mem he⟩
    rw [(wf.dom _ _ hd).dim _ he]
    have := h.dim hx
    rw [if_neg hne] at this
    exact congrArg some this
  · intro b hb' d hd y hy
    obtain ⟨i, x, hi, rfl, hne⟩ := hbx hb' ⟨d, hd, hy⟩
    obtain ⟨⟨j, e, s, hj, hdim, hl⟩, _⟩ := parent_grid h (mem_of hi) hne
    exact ⟨_, s, hpar.2 ⟨j, _, hj, rfl, hdim, hl⟩⟩
  · intro b hb' y hy
    obtain ⟨i, x, hi, rfl, hne⟩ := hbx hb' hy
    obtain ⟨⟨j, e, s, hj, hdim, hl⟩, hu⟩ := parent_grid h (mem_of hi) hne
    refine ⟨dom, ⟨elB n j e, hin.2 ⟨j, e, hj, rfl⟩, hdim, s, hl⟩, ?_⟩
    rintro k ⟨e', he', hdim', s', hl'⟩
    obtain ⟨j', b', hj', rfl⟩ := hin.1 he'
    exact (hu j' _ s' j' _ s' hj' hj' hdim' hdim' hl' hl').1
  · intro b hb' y hy e s e' s' hp hp'
    obtain ⟨i, x, hi, rfl, hne⟩ := hbx hb' hy
    obtain ⟨j, q, hj, rfl, hdim, hl⟩ := hpar.1 hp
    obtain ⟨j', q', hj', rfl, hdim', hl'⟩ := hpar.1 hp'
    obtain ⟨_, rfl, rfl, rfl⟩ := (parent_grid h (mem_of hi) hne).2 j q s j' q' s' hj hj' hdim hdim' hl hl'
    exact ⟨rfl, rfl⟩
  · intro v
    constructor
    · rintro ⟨e, he, hv⟩
      obtain ⟨i, q, hi, rfl⟩ := (holds_grid h hb).1 he
      obtain ⟨p, hp, rfl⟩ := Box.mem_nodes.1 hv
      exact node_lt (q.2.has_lt (h.grid q (mem_of hi)) hp)
    · intro hv
      obtain ⟨h1, h2⟩ := node_coordOf hv
      have hcell : (⟨fun c => coordOf n v c - if W c = true ∧ coordOf n v c + 1 = n c then 1 else 0, W⟩ : Box).InGrid n := by
        intro c
        have hc := h1 c
        have hsz := h.size c
        simp only
        by_cases hw : W c = true
        · rw [if_pos hw] at hsz
          simp only [hw, true_and, Bool.toNat_true]
          by_cases hl : coordOf n v c + 1 = n c
          · rw [if_pos hl]; omega
          · rw [if_neg hl]; omega
        · simp only [hw, false_and, if_false, Bool.false_eq_true, Bool.toNat_false]; omega
      obtain ⟨i, hi⟩ := List.mem_iff_getElem?.1 (h.cell _ hcell)
      refine ⟨_, (holds_grid h hb).2 ⟨i, _, hi, rfl⟩, Box.mem_nodes.2 ⟨coordOf n v, fun c => ?_, h2.symm⟩⟩
      have hsz := h.size c
      simp only
      by_cases hl : W c = true ∧ coordOf n v c + 1 = n c
      · rw [if_pos hl.1] at hsz
        rw [if_pos hl]
        exact .inr ⟨hl.1, by omega⟩
      · rw [if_neg hl]; exact .inl rfl

end
end
end Verif.Gen
