import Verif.ExtGen.Built

/-! # Extruded meshes are ready for distribution -/
namespace Verif.ExtGen
open Verif Verif.Elem Verif.Mesh Verif.Split Verif.Partition Verif.Merge Verif.Extrude Verif.Gen Verif.Pipeline

/-- A two-dimensional mesh of order 1, ready for distribution; no two of its areas have the same corners. -/
structure Planar (m : DomMap) (bnds : List Nat) (N : Nat) : Prop where
  ready : Ready 2 m bnds 1 N
  flat : ∀ e, Holds m e → e.ty ≠ .hex
  distinct : ∀ e e', Holds m e → Holds m e' → e.ty = .quad → e'.ty = .quad → e.nodes.Perm e'.nodes → e = e'
  area : ∃ e, Holds m e ∧ e.ty = .quad

/-! ## Layers of nodes -/

theorem level_div {N x l : Nat} (h : x < N) : (x + l * N) / N = l := by
  rw [Nat.add_mul_div_right _ _ (by omega), Nat.div_eq_of_lt h, Nat.zero_add]

theorem level_mod {N x l : Nat} (h : x < N) : (x + l * N) % N = x := by rw [Nat.add_mul_mod_self_right, Nat.mod_eq_of_lt h]

theorem level_inj {N x y l l' : Nat} (hx : x < N) (hy : y < N) (h : x + l * N = y + l' * N) : x = y ∧ l = l' := by
  have h1 := congrArg (· % N) h
  have h2 := congrArg (· / N) h
  simp only [level_mod hx, level_mod hy, level_div hx, level_div hy] at h1 h2
  exact ⟨h1, h2⟩

theorem one_level {N l l' : Nat} {A B : List Nat} (hA : ∀ x ∈ A, x < N) (hB : ∀ x ∈ B, x < N) (h0 : A ≠ [])
    (h : (A.map (· + l * N)).Perm (B.map (· + l' * N))) : l = l' ∧ A.Perm B := by
  have hm : ∀ {C : List Nat} {l}, (∀ x ∈ C, x < N) → (C.map (· + l * N)).map (· % N) = C := by
    intro C l hC
    rw [List.map_map]
    conv_rhs => rw [← List.map_id C]
    exact List.map_congr_left fun x hx => level_mod (hC x hx)
  refine ⟨?_, ?_⟩
  · obtain ⟨a, ha⟩ := List.exists_mem_of_ne_nil _ h0
    obtain ⟨b, hb, hab⟩ := List.mem_map.1 (h.mem_iff.1 (List.mem_map.2 ⟨a, ha, rfl⟩))
    exact (level_inj (hA a ha) (hB b hb) hab.symm).2
  · have := h.map (· % N)
    rwa [hm hA, hm hB] at this

theorem two_levels {N l l' : Nat} {A B : List Nat} (hA : ∀ x ∈ A, x < N) (hB : ∀ x ∈ B, x < N) (h0 : A ≠ [])
    (h : (A.map (· + l * N) ++ A.map (· + (l + 1) * N)).Perm (B.map (· + l' * N) ++ B.map (· + (l' + 1) * N))) : l = l' ∧ A.Perm B := by
  have hmem : ∀ {C : List Nat} {l y}, y ∈ C.map (· + l * N) ++ C.map (· + (l + 1) * N) → ∃ x ∈ C, y = x + l * N ∨ y = x + (l + 1) * N := by
    intro C l y hy
    rcases List.mem_append.1 hy with hy | hy
    · obtain ⟨x, hx, rfl⟩ := List.mem_map.1 hy; exact ⟨x, hx, .inl rfl⟩
    · obtain ⟨x, hx, rfl⟩ := List.mem_map.1 hy; exact ⟨x, hx, .inr rfl⟩
  have hle : ∀ {C D : List Nat} {l l'}, (∀ x ∈ C, x < N) → (∀ x ∈ D, x < N) → C ≠ [] → 
      (C.map (· + l * N) ++ C.map (· + (l + 1) * N)).Perm (D.map (· + l' * N) ++ D.map (· + (l' + 1) * N)) → l' ≤ l := by
    intro C D l l' hC hD h0 h
    obtain ⟨a, ha⟩ := List.exists_mem_of_ne_nil _ h0
    obtain ⟨b, hb, hab⟩ := hmem (h.mem_iff.1 (List.mem_append_left _ (List.mem_map.2 ⟨a, ha, rfl⟩)))
    rcases hab with hab | hab
    · have := (level_inj (hC a ha) (hD b hb) hab).2; omega
    · have := (level_inj (hC a ha) (hD b hb) hab).2; omega
  have hB0 : B ≠ [] := by
    rintro rfl
    rw [List.map_nil, List.map_nil, List.append_nil] at h
    have := h.eq_nil
    simp at this
    exact h0 this
  have hl : l = l' := le_antisymm (hle hB hA hB0 h.symm) (hle hA hB h0 h)
  subst hl
  refine ⟨rfl, ?_⟩
  have hf : ∀ {C : List Nat}, (∀ x ∈ C, x < N) → (C.map (· + l * N) ++ C.map (· + (l + 1) * N)).filter (fun y => y / N == l) = C.map (· + l * N) := by
    intro C hC
    rw [List.filter_append, List.filter_eq_self.2, List.filter_eq_nil_iff.2, List.append_nil]
    · intro y hy
      obtain ⟨x, hx, rfl⟩ := List.mem_map.1 hy
      simp [level_div (hC x hx)]
    · intro y hy
      obtain ⟨x, hx, rfl⟩ := List.mem_map.1 hy
      simp [level_div (hC x hx)]
  have := h.filter (fun y => y / N == l)
  rw [hf hA, hf hB] at this
  exact (one_level hA hB h0 this).2

theorem mixed_levels {N l l' : Nat} {A B : List Nat} (hA : ∀ x ∈ A, x < N) (hB : ∀ x ∈ B, x < N) (h0 : A ≠ [])
    (h : (A.map (· + l * N) ++ A.map (· + (l + 1) * N)).Perm (B.map (· + l' * N))) : False := by
  obtain ⟨a, ha⟩ := List.exists_mem_of_ne_nil _ h0
  obtain ⟨b, hb, h1⟩ := List.mem_map.1 (h.mem_iff.1 (List.mem_append_left _ (List.mem_map.2 ⟨a, ha, rfl⟩)))
  obtain ⟨b', hb', h2⟩ := List.mem_map.1 (h.mem_iff.1 (List.mem_append_right _ (List.mem_map.2 ⟨a, ha, rfl⟩)))
  have := (level_inj (hA a ha) (hB b hb) h1.symm).2
  have := (level_inj (hA a ha) (hB b' hb') h2.symm).2
  omega

section
variable {m : DomMap} {bnds : List Nat} {N : Nat} {back front : Nat}

theorem Planar.wf (h : Planar m bnds N) : Mesh.WfMesh Extrude.kinds1 m := h.ready.ok.wf

theorem Planar.holds (h : Planar m bnds N) {k : Nat} {e : Element} (he : e ∈ els m k) : Holds m e := (holds_iff_inDom h.wf).2 ⟨k, mem_els.1 he⟩

theorem Planar.n2 (h : Planar m bnds N) {e : Element} (he : Holds m e) : e.n = 2 := by
  obtain ⟨k, hk⟩ := (holds_iff_inDom h.wf).1 he
  have := els_kind h.wf (mem_els.2 hk)
  simp [Extrude.kinds1, Element.kind] at this
  rcases this with ⟨_, h⟩ | ⟨_, h⟩ | ⟨_, h⟩ <;> exact h

theorem Planar.node (h : Planar m bnds N) {e : Element} (he : Holds m e) : ∀ x ∈ e.nodes, x < N := fun x hx => (h.ready.nodes x).1 ⟨e, he, hx⟩

theorem Planar.ids (h : Planar m bnds N) : ((visitAll m).map (·.id)).Nodup := by
  have := h.ready.ok.ids
  rw [visitAll, visitIds_tagged, List.map_map]
  exact this

theorem Planar.ty (h : Planar m bnds N) {e : Element} (he : Holds m e) (hl : e.ty ≠ .line) : e.ty = .quad := by
  have := h.flat e he
  cases ht : e.ty
  · exact absurd ht hl
  · rfl
  · exact absurd ht this

theorem Planar.ne (h : Planar m bnds N) {e : Element} (he : Holds m e) : e.nodes ≠ [] := by
  intro h0
  have := (h.ready.ok.els e he).len
  rw [h0, h.n2 he] at this
  cases ht : e.ty <;> rw [ht] at this <;> simp [ElType.dim] at this

theorem Planar.key (h : Planar m bnds N) {k k' : Nat} {e : Element} (he : e ∈ els m k) (he' : e ∈ els m k') : k = k' := by
  have hv := List.Nodup.of_map _ h.ids
  rw [visitAll_flatMap, List.nodup_flatMap] at hv
  have hp := List.pairwise_iff_getElem.1 hv.2
  obtain ⟨i, hi, hik⟩ := List.mem_iff_getElem.1 (els_key he)
  obtain ⟨j, hj, hjk⟩ := List.mem_iff_getElem.1 (els_key he')
  rcases Nat.lt_trichotomy i j with hlt | rfl | hlt
  · have := hp i j hi hj hlt
    rw [hik, hjk] at this
    exact (this he he').elim
  · exact hik.symm.trans hjk
  · have := hp j i hj hi hlt
    rw [hik, hjk] at this
    exact (this he' he).elim

/-- The sides of a new element of three dimensions. -/
theorem side_src (h : Planar m bnds N) {e x : Element} (he : Holds m e) (hq : e.ty = .quad) (hx : Holds m x) {l i s : Nat} {c : Cell} :
    (∃ ns, sideNodes ⟨liftTy e.ty, 2, i, prismNodes N e l⟩ s = some ns ∧ ns.Perm (c.nodes N x)) ↔
      (c = .lay l ∧ ∃ s' ns, s = s' + 2 ∧ sideNodes e s' = some ns ∧ ns.Perm x.nodes) ∨
      (c = .lev l ∧ s = 0 ∧ e.nodes.Perm x.nodes) ∨ (c = .lev (l + 1) ∧ s = 1 ∧ e.nodes.Perm x.nodes) := by
  have hn := h.n2 he
  have wfe := h.ready.ok.els e he
  have hP : Prism N e l ⟨liftTy e.ty, 2, i, prismNodes N e l⟩ := by
    have := prism_ok (N := N) wfe hn (h.flat e he) l i
    rwa [hn] at this
  have hadd : ∀ x, x + l * N + N = x + (l + 1) * N := fun x => by rw [Nat.add_mul, Nat.one_mul]; omega
  have hpn : ∀ l, prismNodes N x l = x.nodes.map (· + l * N) ++ x.nodes.map (· + (l + 1) * N) := by
    intro l
    have hadd : ∀ x, x + l * N + N = x + (l + 1) * N := fun x => by rw [Nat.add_mul, Nat.one_mul]; omega
    unfold prismNodes
    simp only [List.map_map, Function.comp_def, hadd]
  have hxN := h.node hx
  have heN := h.node he
  -- sides of the planar element
  have hside : ∀ s' ns, sideNodes e s' = some ns → (∀ y ∈ ns, y < N) ∧ ns ≠ [] := by
    intro s' ns hs
    obtain ⟨ty, n, id, nodes⟩ := e
    simp only at hq hn
    subst hq; subst hn
    obtain ⟨hs', rfl⟩ := (sideNodes_face le_rfl (by decide)).1 hs
    have hlen : nodes.length = 4 := by simpa [ElType.dim] using wfe.len
    refine ⟨?_, ?_⟩
    · intro y hy
      obtain ⟨j, hj, rfl⟩ := List.mem_map.1 hy
      have hj4 : j < nodes.length := by
        rw [hlen]; exact (Convert.mem_faceInds.1 hj).1
      rw [List.getD_eq_getElem?_getD, List.getElem?_eq_getElem hj4]
      exact heN _ (List.getElem_mem hj4)
    · simp only [Elem.nSides] at hs'
      interval_cases s' <;> simp only [ne_eq, List.map_eq_nil_iff] <;> decide
  constructor
  · rintro ⟨ns, hs, hp⟩
    have hcases : s = 0 ∨ s = 1 ∨ ∃ s', s = s' + 2 ∧ ∃ ns', sideNodes e s' = some ns' := by
      have hs6 : s < 6 := by
        rw [hq] at hs
        have := ((sideNodes_face (t := .hex) le_rfl (by decide)).1 hs).1
        simpa [Elem.nSides] using this
      rcases Nat.lt_or_ge s 2 with h2 | h2
      · omega
      · refine .inr (.inr ⟨s - 2, by omega, ?_⟩)
        obtain ⟨ty, n, id, nodes⟩ := e
        simp only at hq hn
        subst hq; subst hn
        exact ⟨_, (sideNodes_face le_rfl (by decide)).2 ⟨by simp only [Elem.nSides]; omega, rfl⟩⟩
    rcases hcases with rfl | rfl | ⟨s', rfl, ns', hs'⟩
    · rw [hP.lower] at hs
      cases hs
      cases c with
      | lay l' => 
        change List.Perm _ (prismNodes N x l') at hp
        rw [hpn] at hp
        exact (mixed_levels hxN heN (h.ne hx) hp.symm).elim
      | lev l' =>
        obtain ⟨rfl, hp'⟩ := one_level heN hxN (h.ne he) hp
        exact .inr (.inl ⟨rfl, rfl, hp'⟩)
    · rw [hP.upper] at hs
      cases hs
      cases c with
      | lay l' => 
        change List.Perm _ (prismNodes N x l') at hp
        rw [hpn] at hp
        exact (mixed_levels hxN heN (h.ne hx) hp.symm).elim
      | lev l' =>
        obtain ⟨rfl, hp'⟩ := one_level heN hxN (h.ne he) hp
        exact .inr (.inr ⟨rfl, rfl, hp'⟩)
    · obtain ⟨ns'', h1, h2⟩ := hP.sides s' ns' hs'
      rw [hs] at h1
      cases h1
      obtain ⟨hlt, hne⟩ := hside s' ns' hs'
      cases c with
      | lay l' =>
        change List.Perm _ (prismNodes N x l') at hp
        rw [hpn] at hp
        obtain ⟨rfl, hp'⟩ := two_levels hlt hxN hne (h2.symm.trans hp)
        exact .inl ⟨rfl, s', ns', rfl, hs', hp'⟩
      | lev l' => exact (mixed_levels hlt hxN hne (h2.symm.trans hp)).elim
  · rintro (⟨rfl, s', ns, rfl, hs, hp⟩ | ⟨rfl, rfl, hp⟩ | ⟨rfl, rfl, hp⟩)
    · obtain ⟨ns', h1, h2⟩ := hP.sides s' ns hs
      refine ⟨ns', h1, h2.trans ?_⟩
      change List.Perm _ (prismNodes N x l)
      rw [hpn]
      exact (hp.map _).append (hp.map _)
    · exact ⟨_, hP.lower, hp.map _⟩
    · exact ⟨_, hP.upper, hp.map _⟩

/-! ## The mesh -/

/-- What is known about the new mesh: elements by number and source. -/
structure Ext (m : DomMap) (N L back front : Nat) (doms : DomMap) : Prop where
  wf : Mesh.WfMesh Extrude.kinds1 doms
  mem : ∀ {k y}, InDom doms k y ↔ ∃ i s, (sources L back front m)[i]? = some s ∧ s.1 = k ∧ y = elS N i s
  ids : ((visitAll doms).map (·.id)).Nodup
  asc : ∀ d ∈ doms, ∀ v ∈ d.2.vecs, (v.map (·.id)).Pairwise (· < ·)

theorem Planar.src (h : Planar m bnds N) {L : Nat} {s : Src} (hs : s ∈ sources L back front m) : Holds m s.2.1 := by
  rcases mem_sources.1 hs with ⟨k, e, he, l, hl, rfl⟩ | ⟨k, e, he, hne, rfl | rfl⟩ <;> exact h.holds he

theorem Planar.dim (h : Planar m bnds N) {L : Nat} {s : Src} (hs : s ∈ sources L back front m) : (s.2.2.lift s.2.1.ty).dim = s.2.1.ty.dim + s.2.2.dim := by
  have := h.flat _ (h.src hs)
  rcases s with ⟨k, e, c⟩
  cases c with
  | lev l => rfl
  | lay l =>
    simp only [Cell.lift, Cell.dim] at this ⊢
    cases ht : e.ty
    · rfl
    · rfl
    · exact absurd ht this

/-- The extruded mesh. -/
theorem ext_of {V : Type} (h : Planar m bnds N) {zs : List ℝ} (hz : 1 < zs.length) (verts : Element → List (V × ℝ)) (hb : els m back ≠ [] → back ∈ bnds) (hf : els m front ≠ [] → front ∈ bnds) :
    ∃ doms, extrude N zs verts back front m bnds = some (doms, bnds ++ [back, front]) ∧ Ext m N zs.length back front doms := by
  have hev := events_src (N := N) (verts := verts) (back := back) (front := front) (m := m) hz
  set S := sources zs.length back front m with hS
  let δ : Nat → Nat := fun k => if k = back ∨ k = front then 2 else ((m.lookup k).bind (·.dim)).getD 0 + 1
  have hδ : ∀ s ∈ S, (s.2.2.lift s.2.1.ty).dim = δ s.1 := by
    intro s hs
    rw [h.dim hs]
    rcases mem_sources.1 hs with ⟨k, e, he, l, hl, rfl⟩ | ⟨k, e, he, hne, rfl | rfl⟩
    · have hk := els_key he
      obtain ⟨d, hd, hed⟩ := mem_els.1 he
      by_cases hn : k = back ∨ k = front
      · have hkb : k ∈ bnds := by rcases hn with rfl | rfl; exacts [hb (List.ne_nil_of_mem he), hf (List.ne_nil_of_mem he)]
        obtain ⟨d', hd', hdim, _⟩ := h.ready.ok.bnd k hkb
        rw [hd] at hd'
        cases hd'
        have := (h.wf.dom k d hd).dim e hed
        rw [hdim, Option.some.injEq] at this
        simp only [δ, if_pos hn, Cell.dim]
        omega
      · simp only [δ, if_neg hn, Cell.dim]
        rw [hd, Option.bind_some, (h.wf.dom k d hd).dim e hed]; rfl
    · simp [δ, Cell.dim, h.ty (h.holds he) hne, ElType.dim]
    · simp [δ, Cell.dim, h.ty (h.holds he) hne, ElType.dim]
  have hty : ∀ s, (evOf N zs verts s).1 = s.1 ∧ (evOf N zs verts s).2.1.ty = s.2.2.lift s.2.1.ty ∧ (evOf N zs verts s).2.1.n = s.2.1.n ∧
      (evOf N zs verts s).2.1.nodes = s.2.2.nodes N s.2.1 := by
    rintro ⟨k, e, c⟩; cases c <;> exact ⟨rfl, rfl, rfl, rfl⟩
  have hdom : ∀ k ∈ m.map (·.1), ∀ ev ∈ Extrude.domainEvents N zs verts back front m k, ∃ s ∈ S, ev = evOf N zs verts s := by
    intro k hk ev hev'
    have : ev ∈ allEvents N zs verts back front m := List.mem_flatMap.2 ⟨k, hk, hev'⟩
    rw [hev] at this
    obtain ⟨s, hs, rfl⟩ := List.mem_map.1 this
    exact ⟨s, hs, rfl⟩
  obtain ⟨st, h1, h2⟩ := step_built (Extrude.domainEvents N zs verts back front m) δ (m.map (·.1))
    (by
      intro k hk ev hev'
      obtain ⟨s, hs, rfl⟩ := hdom k hk ev hev'
      obtain ⟨_, e2, e3, _⟩ := hty s
      unfold Element.kind
      rw [e2, e3, h.n2 (h.src hs)]
      cases s.2.2.lift s.2.1.ty <;> simp [Extrude.kinds1])
    (by
      intro k hk ev hev'
      obtain ⟨s, hs, rfl⟩ := hdom k hk ev hev'
      obtain ⟨e1, e2, _, _⟩ := hty s
      rw [e1, e2, hδ s hs])
  rw [show (m.map (·.1)).flatMap (Extrude.domainEvents N zs verts back front m) = allEvents N zs verts back front m from rfl, hev] at h2
  let emit : Src → Prim.Emit Unit := fun s => ⟨s.1, s.2.2.lift s.2.1.ty, s.2.2.nodes N s.2.1, []⟩
  have hnum : Extrude.number 0 (S.map (evOf N zs verts)) = Prim.number (S.map emit) := by
    unfold Extrude.number Prim.number
    rw [List.zipIdx_map, List.zipIdx_map, List.map_map, List.map_map]
    refine List.map_congr_left fun p hp => ?_
    obtain ⟨s, i⟩ := p
    have hp' : s ∈ S := (List.mem_zipIdx hp).2.2 ▸ List.getElem_mem _
    obtain ⟨e1, e2, e3, e4⟩ := hty s
    change ((evOf N zs verts s).1, Element.mk (evOf N zs verts s).2.1.ty (evOf N zs verts s).2.1.n i (evOf N zs verts s).2.1.nodes) = (s.1, ⟨s.2.2.lift s.2.1.ty, 2, i, s.2.2.nodes N s.2.1⟩)
    rw [e1, e2, e3, e4, h.n2 (h.src hp')]
  rw [hnum] at h2
  have hgood : Prim.GoodEmits (S.map emit) := by
    intro a ha b hb' hab
    obtain ⟨s, hs, rfl⟩ := List.mem_map.1 ha
    obtain ⟨s', hs', rfl⟩ := List.mem_map.1 hb'
    have hab : s.1 = s'.1 := hab
    refine Prim.dim_inj ?_
    change (s.2.2.lift s.2.1.ty).dim = (s'.2.2.lift s'.2.1.ty).dim
    rw [hδ s hs, hδ s' hs', hab]
  have hg := Prim.good_number hgood
  have hmem : ∀ {k y}, InDom st k y ↔ y ∈ Prim.sel k (Prim.number (S.map emit)) := by
    intro k y
    constructor
    · rintro ⟨d, hd, he⟩
      rw [h2.look] at hd
      split at hd
      · simp only [Option.some.injEq] at hd
        rw [← hd, Prim.elems_domOf hg] at he
        exact he
      · cases hd
    · intro he
      refine ⟨Prim.domOf k (Prim.number (S.map emit)), ?_, by rw [Prim.elems_domOf hg]; exact he⟩
      rw [h2.look, if_pos (.inr (List.mem_map.2 ⟨_, Prim.mem_sel.1 he, rfl⟩))]
  refine ⟨st, ?_, ⟨⟨by decide, h2.sorted, fun k d hd => ?_⟩, ?_, ?_, Prim.built_sorted h2⟩⟩
  · unfold extrude
    rw [if_neg, h1]
    · rfl
    · rw [not_or]
      refine ⟨by omega, ?_⟩
      rw [List.any_eq_true]
      rintro ⟨e, he, hh⟩
      obtain ⟨k, _, hek⟩ := Extrude.mem_visitAll.1 he
      exact h.flat e (h.holds hek) (by simpa using hh)
  · have hin : ∀ e ∈ d.elems, e ∈ Prim.sel k (Prim.number (S.map emit)) := fun e he => hmem.1 ⟨d, hd, he⟩
    rw [h2.look] at hd
    split at hd
    · simp only [Option.some.injEq] at hd
      subst hd
      refine ⟨by simp [Prim.domOf, Prim.kinds1, Extrude.kinds1], ?_, ?_⟩
      · intro i hi e he
        simp only [Prim.domOf, List.getElem_map, List.mem_filter, beq_iff_eq] at he
        exact he.2
      · intro e he
        have he' := hin e he
        simp only [Prim.domOf]
        cases hh : (Prim.sel k (Prim.number (S.map emit))).head? with
        | none => rw [List.head?_eq_none_iff] at hh; rw [hh] at he'; simp at he'
        | some e0 =>
          have h0 := Prim.mem_sel.1 (List.mem_of_mem_head? hh)
          exact congrArg some (hg.dim _ h0 _ (Prim.mem_sel.1 he') rfl)
    · cases hd
  · intro k y
    rw [hmem, Prim.mem_sel, Prim.mem_number]
    constructor
    · rintro ⟨ev, i, hi, he⟩
      rw [List.getElem?_map, Option.map_eq_some_iff] at hi
      obtain ⟨s, hs, rfl⟩ := hi
      simp only [Prod.mk.injEq] at he
      exact ⟨i, s, hs, he.1.symm, he.2⟩
    · rintro ⟨i, s, hi, rfl, rfl⟩
      exact ⟨emit s, i, by rw [List.getElem?_map, hi]; rfl, rfl⟩
  · exact (Prim.built_ids hgood h2).nodup_iff.2 List.nodup_range

/-- An extruded mesh is ready for distribution. -/
theorem ready_ext (h : Planar m bnds N) {L : Nat} (hL : 2 ≤ L) {doms : DomMap} (hx : Ext m N L back front doms)
    (hb : els m back ≠ [] → back ∈ bnds) (hf : els m front ≠ [] → front ∈ bnds) : Ready 2 doms (extBnds bnds back front) 2 (N * L) := by
  have hS := nodup_sources (back := back) (front := front) h.ids hL
  set S := sources L back front m with hSdef
  have hmem : ∀ {i s}, S[i]? = some s → s ∈ S := fun hi => List.mem_of_getElem? hi
  have hidx : ∀ {i j : Nat} {s : Src}, S[i]? = some s → S[j]? = some s → i = j := by
    intro i j s hi hj
    obtain ⟨hi', e1⟩ := List.getElem?_eq_some_iff.1 hi
    obtain ⟨hj', e2⟩ := List.getElem?_eq_some_iff.1 hj
    exact (List.Nodup.getElem_inj_iff hS).1 (e1.trans e2.symm)
  -- the domain is determined by the element and the cell
  have hdomain : ∀ {s s' : Src}, s ∈ S → s' ∈ S → s.2 = s'.2 → s = s' := by
    intro s s' hs hs' heq
    rcases mem_sources.1 hs with ⟨k, e, he, l, hl, rfl⟩ | ⟨k, e, he, hne, rfl | rfl⟩ <;>
      rcases mem_sources.1 hs' with ⟨k', e', he', l', hl', rfl⟩ | ⟨k', e', he', hne', rfl | rfl⟩ <;>
      simp only [Prod.mk.injEq, reduceCtorEq, and_false, Cell.lay.injEq, Cell.lev.injEq] at heq
    · obtain ⟨rfl, rfl⟩ := heq
      rw [h.key he he']
    · rw [heq.1]
    · omega
    · omega
    · rw [heq.1]
  have hsrcdim : ∀ {s}, s ∈ S → (s.2.2.lift s.2.1.ty).dim = s.2.1.ty.dim + s.2.2.dim := fun hs => h.dim hs
  have hpar : ∀ {x y : Element} {s}, IsParent doms x y s ↔ ∃ i q, S[i]? = some q ∧ y = elS N i q ∧ (q.2.2.lift q.2.1.ty).dim = x.ty.dim + 1 ∧
      ∃ l, sideNodes y s = some l ∧ l.Perm x.nodes := by
    intro x y s
    rw [isParent_iff hx.wf]
    constructor
    · rintro ⟨⟨k, hk⟩, hd, hs⟩
      obtain ⟨i, q, hi, _, rfl⟩ := hx.mem.1 hk
      exact ⟨i, q, hi, rfl, hd, hs⟩
    · rintro ⟨i, q, hi, rfl, hd, hs⟩
      exact ⟨⟨q.1, hx.mem.2 ⟨i, q, hi, rfl, rfl⟩⟩, hd, hs⟩
  -- sources of boundary elements
  have hbsrc : ∀ {b}, b ∈ extBnds bnds back front → ∀ {q}, q ∈ S → q.1 = b →
      (q.2.1.ty.dim = 1 ∧ b ∈ bnds ∧ q.2.1 ∈ els m b ∧ ∃ l < L - 1, q.2.2 = .lay l) ∨
      (q.2.1.ty = .quad ∧ (q.2.2 = .lev 0 ∨ q.2.2 = .lev (L - 1))) := by
    intro b hb' q hq hqb
    have hb'' : b ∈ bnds ∨ b = back ∨ b = front := by
      have := Std.mem_sortUniq.1 hb'
      simpa using this
    rcases mem_sources.1 hq with ⟨k, e, he, l, hl, rfl⟩ | ⟨k, e, he, hne, rfl | rfl⟩
    · simp only at hqb
      subst hqb
      have hk := els_key he
      have hbn : k ∈ bnds := by
        rcases hb'' with h0 | rfl | rfl
        · exact h0
        · exact hb (List.ne_nil_of_mem he)
        · exact hf (List.ne_nil_of_mem he)
      obtain ⟨d, hd, hdim, _⟩ := h.ready.ok.bnd k hbn
      obtain ⟨d', hd', hed⟩ := mem_els.1 he
      rw [hd] at hd'
      cases hd'
      have := (h.wf.dom k d hd).dim e hed
      rw [hdim, Option.some.injEq] at this
      exact .inl ⟨this.symm, hbn, he, l, hl, rfl⟩
    · exact .inr ⟨h.ty (h.holds he) hne, .inl rfl⟩
    · exact .inr ⟨h.ty (h.holds he) hne, .inr rfl⟩
  have hbdim : ∀ {b}, b ∈ extBnds bnds back front → ∀ {q}, q ∈ S → q.1 = b → (q.2.2.lift q.2.1.ty).dim = 2 := by
    intro b hb' q hq hqb
    rw [hsrcdim hq]
    rcases hbsrc hb' hq hqb with ⟨h1, _, _, l, _, h2⟩ | ⟨h1, h2 | h2⟩
    · rw [h1, h2]; rfl
    · rw [h1, h2]; rfl
    · rw [h1, h2]; rfl
  -- elements of three dimensions
  have hthree : ∀ {q}, q ∈ S → (q.2.2.lift q.2.1.ty).dim = 3 → q.2.1.ty = .quad ∧ ∃ l < L - 1, q.2.1 ∈ els m q.1 ∧ q.2.2 = .lay l := by
    intro q hq h3
    rw [hsrcdim hq] at h3
    rcases mem_sources.1 hq with ⟨k, e, he, l, hl, rfl⟩ | ⟨k, e, he, hne, rfl | rfl⟩
    · refine ⟨h.ty (h.holds he) ?_, l, hl, he, rfl⟩
      intro ht
      change e.ty = _ at ht
      simp [ht, Cell.dim, ElType.dim] at h3
    · simp [h.ty (h.holds he) hne, Cell.dim, ElType.dim] at h3
    · simp [h.ty (h.holds he) hne, Cell.dim, ElType.dim] at h3
  have hvol : ∀ {k e l}, e ∈ els m k → e.ty = .quad → l < L - 1 → ∃ i : Nat, S[i]? = some (k, e, Cell.lay l) := by
    intro k e l he _ hl
    exact List.mem_iff_getElem?.1 (mem_sources.2 (.inl ⟨k, e, he, l, hl, rfl⟩))
  -- parents
  have hexist : ∀ {b}, b ∈ extBnds bnds back front → ∀ {j q}, S[j]? = some q → q.1 = b → ∃ y s, IsParent doms (elS N j q) y s := by
    intro b hb' j q hj hqb
    have hq := hmem hj
    have hxh := h.src hq
    have hd2 := hbdim hb' hq hqb
    have key : ∀ {k e l s}, e ∈ els m k → e.ty = .quad → l < L - 1 →
        ((q.2.2 = .lay l ∧ ∃ s' ns, s = s' + 2 ∧ sideNodes e s' = some ns ∧ ns.Perm q.2.1.nodes) ∨
        (q.2.2 = .lev l ∧ s = 0 ∧ e.nodes.Perm q.2.1.nodes) ∨ (q.2.2 = .lev (l + 1) ∧ s = 1 ∧ e.nodes.Perm q.2.1.nodes)) → ∃ y s, IsParent doms (elS N j q) y s := by
      intro k e l s he ht hl hc
      obtain ⟨i, hi⟩ := hvol he ht hl
      obtain ⟨ns, h1, h2⟩ := (side_src h (h.holds he) ht hxh (i := i)).2 hc
      refine ⟨_, s, hpar.2 ⟨i, _, hi, rfl, ?_, ns, h1, h2⟩⟩
      change (liftTy e.ty).dim = (q.2.2.lift q.2.1.ty).dim + 1
      rw [hd2, ht]; rfl
    rcases hbsrc hb' hq hqb with ⟨h1, hbn, hin, l, hl, h2⟩ | ⟨h1, h2 | h2⟩
    · obtain ⟨d, hd, hed⟩ := mem_els.1 hin
      obtain ⟨e, s, hp⟩ := h.ready.ok.parent b hbn d hd _ hed
      obtain ⟨⟨k, hk⟩, hdim, ns, hns, hperm⟩ := (isParent_iff h.wf).1 hp
      have het : e.ty = .quad := by
        rw [h1] at hdim
        cases ht : e.ty <;> rw [ht] at hdim <;> simp [ElType.dim] at hdim ⊢
      exact key (s := s + 2) (mem_els.2 hk) het hl (.inl ⟨h2, s, ns, rfl, hns, hperm⟩)
    · obtain ⟨k, hk⟩ := (holds_iff_inDom h.wf).1 hxh
      exact key (s := 0) (l := 0) (mem_els.2 hk) h1 (by omega) (.inr (.inl ⟨h2, rfl, List.Perm.refl _⟩))
    · obtain ⟨k, hk⟩ := (holds_iff_inDom h.wf).1 hxh
      exact key (s := 1) (l := L - 2) (mem_els.2 hk) h1 (by omega) (.inr (.inr ⟨by rw [h2]; congr 1; omega, rfl, List.Perm.refl _⟩))
  have huniq : ∀ {b}, b ∈ extBnds bnds back front → ∀ {j : Nat} {q : Src}, S[j]? = some q → q.1 = b → ∀ {i : Nat} {p : Src} {s i' : Nat} {p' : Src} {s' : Nat},
      S[i]? = some p → S[i']? = some p' → (p.2.2.lift p.2.1.ty).dim = 3 → (p'.2.2.lift p'.2.1.ty).dim = 3 →
      (∃ l, sideNodes (elS N i p) s = some l ∧ l.Perm (q.2.2.nodes N q.2.1)) → (∃ l, sideNodes (elS N i' p') s' = some l ∧ l.Perm (q.2.2.nodes N q.2.1)) →
      p = p' ∧ i = i' ∧ s = s' := by
    intro b hb' j q hj hqb i p s i' p' s' hi hi' hd hd' hs hs'
    obtain ⟨ht, l, hl, he, hc⟩ := hthree (hmem hi) hd
    obtain ⟨ht', l', hl', he', hc'⟩ := hthree (hmem hi') hd'
    have hxh := h.src (hmem hj)
    unfold elS at hs hs'
    rw [hc] at hs
    rw [hc'] at hs'
    have hA := (side_src h (h.holds he) ht hxh).1 hs
    have hB := (side_src h (h.holds he') ht' hxh).1 hs'
    have hfin : p.2.1 = p'.2.1 → l = l' → s = s' → p = p' ∧ i = i' ∧ s = s' := by
      intro h1 h2 h3
      have hpp : p = p' := hdomain (hmem hi) (hmem hi') (Prod.ext h1 (by rw [hc, hc', h2]))
      subst hpp
      exact ⟨rfl, hidx hi hi', h3⟩
    have hdist : ∀ {e e' : Element}, Holds m e → Holds m e' → e.ty = .quad → e'.ty = .quad → e.nodes.Perm q.2.1.nodes → e'.nodes.Perm q.2.1.nodes → e = e' :=
      fun g g' t t' a b => h.distinct _ _ g g' t t' (a.trans b.symm)
    rcases hbsrc hb' (hmem hj) hqb with ⟨h1, hbn, hin, l0, hl0, h2⟩ | ⟨h1, h2⟩
    · rw [h2] at hA hB
      simp only [Cell.lay.injEq, reduceCtorEq, false_and, or_false] at hA hB
      obtain ⟨rfl, s1, n1, rfl, a1, a2⟩ := hA
      obtain ⟨rfl, s2, n2, rfl, b1, b2⟩ := hB
      have hpp : ∀ {e k}, e ∈ els m k → e.ty = .quad → e.ty.dim = q.2.1.ty.dim + 1 := by
        intro e k _ ht; rw [ht, h1]; rfl
      obtain ⟨r1, r2⟩ := h.ready.uni b hbn _ (mem_els.1 hin) p.2.1 s1 p'.2.1 s2 ((isParent_iff h.wf).2 ⟨⟨_, mem_els.1 he⟩, hpp he ht, n1, a1, a2⟩)
        ((isParent_iff h.wf).2 ⟨⟨_, mem_els.1 he'⟩, hpp he' ht', n2, b1, b2⟩)
      exact hfin r1 rfl (by rw [r2])
    · have hlev : ∃ t, q.2.2 = .lev t ∧ (t = 0 ∨ t = L - 1) := by
        rcases h2 with h2 | h2
        · exact ⟨_, h2, .inl rfl⟩
        · exact ⟨_, h2, .inr rfl⟩
      obtain ⟨t, h2, ht0⟩ := hlev
      rw [h2] at hA hB
      simp only [Cell.lev.injEq, reduceCtorEq, false_and, false_or] at hA hB
      rcases hA with ⟨rfl, rfl, a⟩ | ⟨rfl, rfl, a⟩ <;> rcases hB with ⟨r, rfl, b'⟩ | ⟨r, rfl, b'⟩
      · exact hfin (hdist (h.holds he) (h.holds he') ht ht' a b') r rfl
      · omega
      · omega
      · exact hfin (hdist (h.holds he) (h.holds he') ht ht' a b') (by omega) rfl
  have hbx : ∀ {b y}, InDom doms b y → ∃ (i : Nat) (q : Src), S[i]? = some q ∧ q.1 = b ∧ y = elS N i q := fun hy => hx.mem.1 hy
  refine ⟨⟨hx.wf, ?_, ?_, Std.sortUniq_strict _, ?_, ?_⟩, ?_, ?_, ?_⟩
  · intro y hy
    obtain ⟨k, hk⟩ := (holds_iff_inDom hx.wf).1 hy
    obtain ⟨i, q, hi, _, rfl⟩ := hx.mem.1 hk
    have he := h.src (hmem hi)
    have hlen := (h.ready.ok.els _ he).len
    rw [h.n2 he] at hlen
    have hd := hsrcdim (hmem hi)
    refine ⟨Nat.le_succ 1, by simp only [elS]; cases q.2.2.lift q.2.1.ty <;> decide, ?_⟩
    change (q.2.2.nodes N q.2.1).length = 2 ^ (q.2.2.lift q.2.1.ty).dim
    rw [hd, pow_add, ← hlen]
    cases hc : q.2.2 with
    | lay l => simp [Cell.nodes, prismNodes, Cell.dim]; omega
    | lev l => simp [Cell.nodes, Cell.dim]
  · have := hx.ids
    rwa [visitAll, visitIds_tagged, List.map_map] at this
  · intro b hb'
    have hex : ∃ (i : Nat) (q : Src), S[i]? = some q ∧ q.1 = b := by
      have hb'' : b ∈ bnds ∨ b = back ∨ b = front := by
        have := Std.mem_sortUniq.1 hb'
        simpa using this
      obtain ⟨e, he, ht⟩ := h.area
      obtain ⟨k, hk⟩ := (holds_iff_inDom h.wf).1 he
      have hsrc : ∀ s : Src, (s = (back, e, .lev 0) ∨ s = (front, e, .lev (L - 1))) → ∃ i, S[i]? = some s := fun s hs =>
        List.mem_iff_getElem?.1 (mem_sources.2 (.inr ⟨k, e, mem_els.2 hk, by rw [ht]; decide, hs⟩))
      rcases hb'' with h0 | rfl | rfl
      · obtain ⟨d, hd, _, hne⟩ := h.ready.ok.bnd b h0
        obtain ⟨x, hx'⟩ := List.exists_mem_of_ne_nil _ hne
        obtain ⟨i, hi⟩ := List.mem_iff_getElem?.1 (mem_sources.2 (.inl ⟨b, x, mem_els.2 ⟨d, hd, hx'⟩, 0, show 0 < L - 1 by omega, rfl⟩) : (b, x, Cell.lay 0) ∈ S)
        exact ⟨i, _, hi, rfl⟩
      · obtain ⟨i, hi⟩ := hsrc _ (.inl rfl)
        exact ⟨i, _, hi, rfl⟩
      · obtain ⟨i, hi⟩ := hsrc _ (.inr rfl)
        exact ⟨i, _, hi, rfl⟩
    obtain ⟨i, q, hi, hqb⟩ := hex
    obtain ⟨d, hd, he⟩ := hx.mem.2 ⟨i, q, hi, hqb, rfl⟩
    refine ⟨d, hd, ?_, List.ne_nil_of_mem he⟩
    rw [(hx.wf.dom _ _ hd).dim _ he]
    exact congrArg some (hbdim hb' (hmem hi) hqb)
  · intro b hb' d hd y hy
    obtain ⟨j, q, hj, hqb, rfl⟩ := hbx ⟨d, hd, hy⟩
    exact hexist hb' hj hqb
  · intro b hb' y hy
    obtain ⟨j, q, hj, hqb, rfl⟩ := hbx hy
    obtain ⟨y, s, hp⟩ := hexist hb' hj hqb
    obtain ⟨i, p, hi, rfl, hd, hl⟩ := hpar.1 hp
    have h2 := hbdim hb' (hmem hj) hqb
    refine ⟨p.1, ⟨elS N i p, hx.mem.2 ⟨i, p, hi, rfl, rfl⟩, hd, s, hl⟩, ?_⟩
    rintro k ⟨e', he', hd', s', hl'⟩
    obtain ⟨i', p', hi', rfl, rfl⟩ := hx.mem.1 he'
    rw [show (elS N j q).ty.dim = 2 from h2] at hd hd'
    rw [(huniq hb' hj hqb hi hi' hd hd' hl hl').1]
  · intro b hb' y hy e s e' s' hp hp'
    obtain ⟨j, q, hj, hqb, rfl⟩ := hbx hy
    obtain ⟨i, p, hi, rfl, hd, hl⟩ := hpar.1 hp
    obtain ⟨i', p', hi', rfl, hd', hl'⟩ := hpar.1 hp'
    have h2 := hbdim hb' (hmem hj) hqb
    rw [show (elS N j q).ty.dim = 2 from h2] at hd hd'
    obtain ⟨rfl, rfl, rfl⟩ := huniq hb' hj hqb hi hi' hd hd' hl hl'
    exact ⟨rfl, rfl⟩
  · intro v
    have hNpos : ∀ x, x < N → ∀ l < L, x + l * N < N * L := by
      intro x hx l hl
      calc x + l * N < N + l * N := by omega
        _ = (l + 1) * N := by rw [Nat.add_mul]; omega
        _ ≤ L * N := Nat.mul_le_mul_right _ hl
        _ = N * L := Nat.mul_comm _ _
    have hpn : ∀ (e : Element) l, prismNodes N e l = e.nodes.map (· + l * N) ++ e.nodes.map (· + (l + 1) * N) := by
      intro e l
      have hadd : ∀ x, x + l * N + N = x + (l + 1) * N := fun x => by rw [Nat.add_mul, Nat.one_mul]; omega
      unfold prismNodes
      simp only [List.map_map, Function.comp_def, hadd]
    constructor
    · rintro ⟨y, hy, hv⟩
      obtain ⟨k, hk⟩ := (holds_iff_inDom hx.wf).1 hy
      obtain ⟨i, q, hi, _, rfl⟩ := hx.mem.1 hk
      have hN := h.node (h.src (hmem hi))
      change v ∈ q.2.2.nodes N q.2.1 at hv
      rcases mem_sources.1 (hmem hi) with ⟨k, e, he, l, hl, rfl⟩ | ⟨k, e, he, hne, rfl | rfl⟩
      · change v ∈ prismNodes N e l at hv
        rw [hpn] at hv
        rcases List.mem_append.1 hv with hv | hv
        · obtain ⟨x, hx', rfl⟩ := List.mem_map.1 hv; exact hNpos x (hN x hx') l (by omega)
        · obtain ⟨x, hx', rfl⟩ := List.mem_map.1 hv; exact hNpos x (hN x hx') (l + 1) (by omega)
      · obtain ⟨x, hx', rfl⟩ := List.mem_map.1 hv; exact hNpos x (hN x hx') 0 (by omega)
      · obtain ⟨x, hx', rfl⟩ := List.mem_map.1 hv; exact hNpos x (hN x hx') _ (by omega)
    · intro hv
      have hN : 0 < N := by
        rcases Nat.eq_zero_or_pos N with h0 | h0
        · subst h0; simp at hv
        · exact h0
      obtain ⟨e, he, hxe⟩ := (h.ready.nodes (v % N)).2 (Nat.mod_lt v hN)
      obtain ⟨k, hk⟩ := (holds_iff_inDom h.wf).1 he
      have hq : v / N < L := Nat.div_lt_of_lt_mul hv
      have hdm : v = v % N + (v / N) * N := by rw [Nat.mul_comm]; exact (Nat.mod_add_div v N).symm
      have key : ∀ l < L - 1, (v / N = l ∨ v / N = l + 1) → NodeIn doms v := by
        intro l hl hc
        obtain ⟨i, hi⟩ := List.mem_iff_getElem?.1 (mem_sources.2 (.inl ⟨k, e, mem_els.2 hk, l, hl, rfl⟩) : (k, e, Cell.lay l) ∈ S)
        refine ⟨elS N i _, (holds_iff_inDom hx.wf).2 ⟨k, hx.mem.2 ⟨i, _, hi, rfl, rfl⟩⟩, ?_⟩
        change v ∈ prismNodes N e l
        rw [hpn]
        rcases hc with hc | hc
        · exact List.mem_append_left _ (List.mem_map.2 ⟨_, hxe, by rw [← hc]; exact hdm.symm⟩)
        · exact List.mem_append_right _ (List.mem_map.2 ⟨_, hxe, by rw [← hc]; exact hdm.symm⟩)
      by_cases hl : v / N < L - 1
      · exact key _ hl (.inl rfl)
      · exact key (L - 2) (by omega) (.inr (by omega))

end
end Verif.ExtGen
