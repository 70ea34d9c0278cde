import Verif.ExtGen.Geo

/-! # Extruded meshes are valid conforming meshes -/
namespace Verif.ExtGen
open Verif Verif.Elem Verif.Mesh Verif.Convert Verif.Extrude Verif.Gen Verif.Split Verif.Partition Verif.Merge Verif.Basis Verif.Poly

noncomputable section

/-- An element of the mesh to be extruded, with its vertices. -/
def pel (dat : Nat → VData) (e : Element) : El VData := ⟨e.ty, e.id, e.nodes, dat e.id⟩

/-- A new element, with its vertices. -/
def el3 (zs : List ℝ) (dat : Nat → VData) (N i : Nat) (s : Src) : El VData :=
  ⟨s.2.2.lift s.2.1.ty, i, s.2.2.nodes N s.2.1, dat3 zs (dat s.2.1.id) s.2.1.ty.dim s.2.2⟩

theorem nodes_getD {N : Nat} {e : Element} {c : Cell} (hl : e.nodes.length = 2 ^ e.ty.dim) {k : Nat} (hk : k < 2 ^ (e.ty.dim + c.dim)) :
    (c.nodes N e).getD k 0 = e.nodes.getD (k % 2 ^ e.ty.dim) 0 + (c.base + k / 2 ^ e.ty.dim) * N := by
  rw [List.getD_eq_getElem?_getD, List.getD_eq_getElem?_getD, List.getElem?_eq_getElem (l := e.nodes) (i := k % 2 ^ e.ty.dim) (by rw [hl]; exact Nat.mod_lt _ (by positivity))]
  cases c with
  | lev l =>
    have hk : k < 2 ^ e.ty.dim := hk
    simp only [Cell.nodes, Cell.base, List.getElem?_map, Nat.mod_eq_of_lt hk, Nat.div_eq_of_lt hk]
    rw [List.getElem?_eq_getElem (by omega)]
    simp
  | lay l =>
    have hk : k < 2 ^ (e.ty.dim + 1) := hk
    rw [pow_succ] at hk
    simp only [Cell.nodes, Cell.base, prismNodes]
    rcases Nat.lt_or_ge k (2 ^ e.ty.dim) with h | h
    · rw [List.getElem?_append_left (by simp [hl, h])]
      simp only [List.getElem?_map, Nat.mod_eq_of_lt h, Nat.div_eq_of_lt h]
      rw [List.getElem?_eq_getElem (by omega)]
      simp
    · obtain ⟨j, rfl⟩ := Nat.exists_eq_add_of_le h
      have hj : j < 2 ^ e.ty.dim := by omega
      rw [List.getElem?_append_right (by simp [hl])]
      simp only [List.getElem?_map, List.length_map, hl, Nat.add_sub_cancel_left, Nat.add_mod_left, Nat.mod_eq_of_lt hj,
        Nat.add_div_left _ (Nat.two_pow_pos _), Nat.div_eq_of_lt hj]
      rw [List.getElem?_eq_getElem (by omega)]
      simp [Nat.add_mul]
      omega

section
variable {m : DomMap} {bnds : List Nat} {N : Nat} {back front : Nat} {zs : List ℝ} {dat : Nat → VData} {n : Nat} {roots : List ℂ} {adjP : Nat → List Nat} {X : Nat → Nat → ℝ}

/-- A valid conforming mesh in the plane. -/
structure Flat (n : Nat) (roots : List ℂ) (adjP : Nat → List Nat) (N : Nat) (X : Nat → Nat → ℝ) (dat : Nat → VData) (m : DomMap) : Prop where
  geo : GeoMesh n roots adjP N X ((visit (withData dat m)).map (·.2))
  plane : ∀ v, v < N → X v 2 = 0

theorem pel_mem (hs : OMap.Sorted m) {k : Nat} {e : Element} (he : InDom m k e) : pel dat e ∈ (visit (withData dat m)).map (·.2) :=
  List.mem_map.2 ⟨(k, pel dat e), (mem_visit_withData hs).2 ⟨e, he, rfl⟩, rfl⟩

theorem Flat.zero (h : Flat n roots adjP N X dat m) (hs : OMap.Sorted m) {k : Nat} {e : Element} (he : InDom m k e) (ξ : Nat → ℝ) : image e.ty (dat e.id) ξ 2 = 0 := by
  have hm := pel_mem (dat := dat) hs he
  rw [image_vsum, ← vsum_const ξ e.ty.dim 0]
  refine vsum_congr fun v hv => ?_
  have h1 := h.geo.coords _ hm v hv 2 (by norm_num)
  have hlen := (h.geo.wf _ hm).len
  change (dat e.id) v 2 = _ at h1
  change e.nodes.length = 2 ^ e.ty.dim at hlen
  have h2 : e.nodes.getD v 0 ∈ e.nodes := by
    rw [List.getD_eq_getElem?_getD, List.getElem?_eq_getElem (by omega)]
    exact List.getElem_mem _
  change dat e.id v 2 = 0
  rw [h1]
  exact h.plane _ (h.geo.old _ hm _ h2)

/-- Equal points of prisms lie above equal points of the plane, at equal heights. -/
theorem Flat.below (h : Flat n roots adjP N X dat m) (hs : OMap.Sorted m) {k k' : Nat} {e e' : Element} (he : InDom m k e) (he' : InDom m k' e')
    (ht : e.ty ≠ .hex) (ht' : e'.ty ≠ .hex) {c c' : Cell} {ξ ξ' : Nat → ℝ}
    (hx : image (c.lift e.ty) (dat3 zs (dat e.id) e.ty.dim c) ξ = image (c'.lift e'.ty) (dat3 zs (dat e'.id) e'.ty.dim c') ξ') :
    image e.ty (dat e.id) ξ = image e'.ty (dat e'.id) ξ' ∧ zOf zs c (ξ e.ty.dim) = zOf zs c' (ξ' e'.ty.dim) := by
  have key := fun a => congrFun hx a
  simp only [image_lift ht, image_lift ht'] at key
  refine ⟨?_, by simpa using key 2⟩
  funext a
  fin_cases a
  · simpa using key 0
  · simpa using key 1
  · exact (h.zero hs he ξ).trans (h.zero hs he' ξ').symm

theorem high_le {t t' : ElType} {c c' : Cell} {f g : Nat} (ht : t ≠ .hex) (ht' : t' ≠ .hex) (hg : g ≤ c.dim) (hg' : g ≤ c'.dim)
    (hq : (∃ l, c = .lev l) → t = .quad) (hq' : (∃ l, c' = .lev l) → t' = .quad)
    (hc : (f ≤ highestDim t t') ∨ (t = t' ∧ f ≤ t.dim ∧ g = 0 ∧ (c.dim = 1 ∨ c'.dim = 1))) : f + g ≤ highestDim (c.lift t) (c'.lift t') := by
  rcases hc with hc | ⟨rfl, h1, h2, h3⟩
  · unfold highestDim at hc ⊢
    rw [lift_dim ht, lift_dim ht']
    cases c with
    | lay l =>
      cases c' with
      | lay l' =>
        have e1 : (Cell.lay l).dim = 1 := rfl
        have e2 : (Cell.lay l').dim = 1 := rfl
        have h1 : 1 ≤ t.dim := by cases t <;> decide
        by_cases hd : t.dim = t'.dim
        · rw [if_pos hd] at hc
          rw [if_pos (by omega)]
          omega
        · rw [if_neg hd] at hc
          rw [if_neg (by omega)]
          omega
      | lev l' =>
        simp only [Cell.dim] at *
        have := hq' ⟨_, rfl⟩
        subst this
        simp only [ElType.dim] at *
        cases t <;> simp at * <;> omega
    | lev l =>
      have := hq ⟨_, rfl⟩
      subst this
      cases c' with
      | lay l' => simp only [Cell.dim, ElType.dim] at *; cases t' <;> simp at * <;> omega
      | lev l' => 
        have := hq' ⟨_, rfl⟩
        subst this
        simp only [Cell.dim, ElType.dim] at *; simp at *; omega
  · subst h2
    unfold highestDim
    rw [lift_dim ht, lift_dim ht']
    have := c.dim_le
    have := c'.dim_le
    split <;> omega

/-- New elements are apart or share a face. -/
theorem meets_src (h : Flat n roots adjP N X dat m) (hs : OMap.Sorted m) (hz : Inc zs) {k k' : Nat} {e e' : Element} (he : InDom m k e) (he' : InDom m k' e')
    (ht : e.ty ≠ .hex) (ht' : e'.ty ≠ .hex) {c c' : Cell} (hc : c.In zs.length) (hc' : c'.In zs.length) (hq : (∃ l, c = .lev l) → e.ty = .quad)
    (hq' : (∃ l, c' = .lev l) → e'.ty = .quad) (hid : e.id = e'.id → e = e') (hne : ¬ (e = e' ∧ c = c')) (hlev : e = e' → (c.dim = 1 ∨ c'.dim = 1) ∨ (∀ ζ ζ', -1 ≤ ζ → ζ ≤ 1 → -1 ≤ ζ' → ζ' ≤ 1 → zOf zs c ζ ≠ zOf zs c' ζ')) (i i' : Nat) (d d' : Nat) :
    Meets (el3 zs dat N i (d, e, c)) (el3 zs dat N i' (d', e', c')) := by
  have hm := pel_mem (dat := dat) hs he
  have hm' := pel_mem (dat := dat) hs he'
  have hin : ∀ {t : ElType} {c : Cell} {ξ}, t ≠ .hex → InCell (c.lift t) ξ → InCell t ξ := by
    intro t c ξ ht hξ a ha
    exact hξ a (by rw [lift_dim ht]; omega)
  -- the height as a point of the interval
  have hζ : ∀ {t : ElType} {c : Cell} {ξ : Nat → ℝ}, t ≠ .hex → InCell (c.lift t) ξ → ∃ ζ, -1 ≤ ζ ∧ ζ ≤ 1 ∧ zOf zs c (ξ t.dim) = zOf zs c ζ ∧ (c.dim = 1 → ζ = ξ t.dim) := by
    intro t c ξ ht hξ
    cases c with
    | lay l =>
      have := hξ t.dim (by rw [lift_dim ht]; exact Nat.lt_succ_self _)
      exact ⟨ξ t.dim, this.1, this.2, rfl, fun _ => rfl⟩
    | lev l => exact ⟨0, by norm_num, by norm_num, rfl, fun h => absurd h (by simp [Cell.dim])⟩
  by_cases hzd : ∀ ζ ζ', -1 ≤ ζ → ζ ≤ 1 → -1 ≤ ζ' → ζ' ≤ 1 → zOf zs c ζ ≠ zOf zs c' ζ'
  · left
    intro ξ ξ' hξ hξ' hx
    obtain ⟨_, hz'⟩ := h.below hs he he' ht ht' hx
    obtain ⟨ζ, a1, a2, a3, _⟩ := hζ ht hξ
    obtain ⟨ζ', b1, b2, b3, _⟩ := hζ ht' hξ'
    exact hzd ζ ζ' a1 a2 b1 b2 (a3.symm.trans (hz'.trans b3))
  obtain ⟨G, G', g⟩ : ∃ G G', CellGlue zs c c' G G' := by
    rcases cells_meet hz hc hc' with h1 | h1
    · exact absurd h1 hzd
    · exact h1
  -- the planar elements
  have hpl : (∀ ξ ξ', InCell e.ty ξ → InCell e'.ty ξ' → image e.ty (dat e.id) ξ ≠ image e'.ty (dat e'.id) ξ') ∨
      ∃ F F' ax flip, Glue e.ty e'.ty F F' ax ∧ ((free F ≤ highestDim e.ty e'.ty) ∨ (e = e' ∧ free F ≤ e.ty.dim)) ∧
        (∀ k, k < 2 ^ e.ty.dim → onFace 2 F k = true → e.nodes.getD k 0 = e'.nodes.getD (glue 2 F' ax flip k) 0) ∧
        ∀ ξ ξ', InCell e.ty ξ → InCell e'.ty ξ' → image e.ty (dat e.id) ξ = image e'.ty (dat e'.id) ξ' → OnFaceR F ξ ∧ OnFaceR F' ξ' := by
    by_cases hee : e = e'
    · subst hee
      right
      obtain ⟨w1, w2, _⟩ := whole_face e.ty
      have hnone : ∀ {a : Nat} {x : Option Bool}, (List.replicate e.ty.dim (none : Option Bool))[a]? = some x → x = none := by
        intro a x hx
        obtain ⟨_, hx⟩ := List.getElem?_eq_some_iff.1 hx
        rw [List.getElem_replicate] at hx
        exact hx.symm
      refine ⟨_, _, id, fun _ => false, ⟨w1, w1, rfl, fun _ h => h, fun _ _ _ _ h => h, fun a ha => ⟨a, ha, rfl⟩⟩, .inr ⟨rfl, w2.le⟩, ?_, ?_⟩
      · intro k hk _
        congr 1
        symm
        refine digits_ext (t := e.ty) (glue_lt ⟨w1, w1, rfl, fun _ h => h, fun _ _ _ _ h => h, fun a ha => ⟨a, ha, rfl⟩⟩ (by norm_num) k) hk fun a ha => ?_
        rw [glue_digit (by norm_num) _ (by have := dim_le_three e.ty; omega), glueDigit, List.getElem?_eq_getElem (by simpa using ha), List.getElem_replicate]
        simp
      · intro ξ ξ' _ _ _
        exact ⟨fun a b hb => absurd (hnone hb) (by simp), fun a b hb => absurd (hnone hb) (by simp)⟩
    · rcases h.geo.meets _ hm _ hm' (fun hh => hee (hid hh)) with h1 | ⟨F, F', ax, flip, h1, h2, h3, h4⟩
      · exact .inl h1
      · exact .inr ⟨F, F', ax, flip, h1, .inl h2, h3, h4⟩
  rcases hpl with hd | ⟨F, F', ax, flip, g0, hfr, hnd, hon⟩
  · left
    intro ξ ξ' hξ hξ' hx
    exact hd ξ ξ' (hin ht hξ) (hin ht' hξ') (h.below hs he he' ht ht' hx).1
  right
  have g3 := glue_lift (c := c) (c' := c') ht ht' g0 g.len1 g.len2 g.free
  have hF := length_allFaces g0.mem1
  have hF' := length_allFaces g0.mem2
  refine ⟨F ++ G, F' ++ G', ax3 e.ty.dim e'.ty.dim ax, flip3 e'.ty.dim flip, g3, ?_, ?_, ?_⟩
  · have hfG : free (F ++ G) = free F + free G := by simp [free, List.count_append]
    rw [hfG]
    have hgl : free G ≤ c.dim := g.len1 ▸ List.count_le_length
    have hgl' : free G ≤ c'.dim := g.free ▸ g.len2 ▸ List.count_le_length
    refine high_le ht ht' hgl hgl' hq hq' ?_
    rcases hfr with h1 | ⟨h1, h2⟩
    · exact .inl h1
    · refine .inr ⟨by rw [h1], h2, g.same fun hcc => hne ⟨h1, hcc⟩, ?_⟩
      exact (hlev h1).resolve_right hzd
  · intro k hk hok
    change k < 2 ^ (c.lift e.ty).dim at hk
    rw [lift_dim ht] at hk
    have hlen := (h.geo.wf _ hm).len
    have hlen' := (h.geo.wf _ hm').len
    have hlt := glue_lt (flip := flip3 e'.ty.dim flip) g3 (by norm_num : 1 ≤ 2) k
    rw [lift_dim ht'] at hlt
    change (c.nodes N e).getD k 0 = (c'.nodes N e').getD _ 0
    have hkd : k / 2 ^ e.ty.dim < 2 ^ c.dim := Nat.div_lt_of_lt_mul (by rw [← pow_add]; exact hk)
    have hk2 : k / 2 ^ e.ty.dim < 2 := by
      have := c.dim_le
      rcases Nat.eq_zero_or_pos c.dim with h0 | h0
      · rw [h0] at hkd; omega
      · rw [show c.dim = 1 by omega] at hkd; omega
    rw [nodes_getD hlen hk, nodes_getD hlen' hlt, glue_mod g0]
    obtain ⟨q1, q2, q3⟩ := glue_div (flip := flip) ht' g0 g3 k hk2
    have hok' := onFace_iff.1 hok
    congr 1
    · refine hnd _ (Nat.mod_lt _ (by positivity)) (onFace_iff.2 fun a b hb => ?_)
      have ha := face_lt g0.mem1 hb
      rw [low_digit ha]
      exact hok' a b (by rw [List.getElem?_append_left (by omega)]; exact hb)
    · congr 1
      refine g.level _ _ (fun b hb => ?_) q1 (fun hb => ?_) q2 (fun _ hb => (q3 hb).symm)
      · have := hok' e.ty.dim b (by rw [List.getElem?_append_right (by omega), hF, Nat.sub_self]; exact hb)
        rwa [Nat.mod_eq_of_lt hk2] at this
      · have h0 : c.dim = 0 := by
          rw [← g.len1]
          rcases G with _ | ⟨x, G⟩
          · rfl
          · simp at hb
        rw [h0, pow_zero] at hkd
        exact Nat.lt_one_iff.1 hkd
  · intro ξ ξ' hξ hξ' hx
    obtain ⟨hp, hz'⟩ := h.below hs he he' ht ht' hx
    obtain ⟨o1, o2⟩ := hon ξ ξ' (hin ht hξ) (hin ht' hξ') hp
    obtain ⟨ζ, a1, a2, a3, a4⟩ := hζ ht hξ
    obtain ⟨ζ', b1, b2, b3, b4⟩ := hζ ht' hξ'
    obtain ⟨p1, p2⟩ := g.on ζ ζ' a1 a2 b1 b2 (a3.symm.trans (hz'.trans b3))
    have app : ∀ {F G : Face} {t : ElType} {c : Cell} {ξ : Nat → ℝ} {ζ : ℝ}, F.length = t.dim → G.length = c.dim → OnFaceR F ξ → (c.dim = 1 → ζ = ξ t.dim) →
        (∀ b, G[0]? = some (some b) → ζ = endPt b) → OnFaceR (F ++ G) ξ := by
      intro F G t c ξ ζ hF hG ho hζ hp a b hb
      by_cases ha : a < t.dim
      · rw [List.getElem?_append_left (by omega)] at hb
        exact ho a b hb
      · rw [List.getElem?_append_right (by omega)] at hb
        obtain ⟨hl, _⟩ := List.getElem?_eq_some_iff.1 hb
        have := c.dim_le
        have h0 : a = t.dim := by omega
        rw [h0, hF, Nat.sub_self] at hb
        rw [h0, ← hζ (by omega)]
        exact hp b hb
    exact ⟨app hF g.len1 o1 a4 p1, app hF' g.len2 o2 b4 p2⟩

/-! ## The mesh -/

/-- The coordinates the new elements carry. -/
theorem coords_src {i : Nat} {s : Src} (hz : 1 < zs.length) (hi : (sources zs.length back front m)[i]? = some s) (hd : (s.2.2.lift s.2.1.ty).dim = s.2.1.ty.dim + s.2.2.dim)
    {k : Nat} (hk : k < 2 ^ (s.2.2.lift s.2.1.ty).dim) {a : Nat} (ha : a < 3) :
    extCoords (allEvents N zs (planarVerts dat) back front m) i k a = dat3 zs (dat s.2.1.id) s.2.1.ty.dim s.2.2 k a := by
  unfold extCoords
  rw [events_src hz, List.getElem?_map, hi, Option.map_some, Option.bind_some]
  rw [hd] at hk
  obtain ⟨q, e, c⟩ := s
  have ha' : a = 0 ∨ a = 1 ∨ a = 2 := by omega
  have hcase : ∀ x : ℝ, (if a = 0 then dat e.id (k % 2 ^ e.ty.dim) 0 else if a = 1 then dat e.id (k % 2 ^ e.ty.dim) 1 else x) =
      if a < 2 then dat e.id (k % 2 ^ e.ty.dim) a else x := by
    intro x
    rcases ha' with rfl | rfl | rfl <;> simp
  cases c with
  | lev l =>
    have hk : k < 2 ^ e.ty.dim := hk
    simp only [evOf, planarVerts, List.map_map, List.getElem?_map, List.getElem?_range hk, Option.map_some, Option.getD_some, Function.comp_apply, dat3, Cell.base,
      Nat.div_eq_of_lt hk, Nat.add_zero]
    rw [← hcase, Nat.mod_eq_of_lt hk]
  | lay l =>
    have hk : k < 2 ^ (e.ty.dim + 1) := hk
    rw [pow_succ] at hk
    simp only [evOf, planarVerts, List.map_map, dat3, Cell.base]
    rcases Nat.lt_or_ge k (2 ^ e.ty.dim) with h | h
    · rw [List.getElem?_append_left (by simpa using h)]
      simp only [List.getElem?_map, List.getElem?_range h, Option.map_some, Option.getD_some, Function.comp_apply, Nat.div_eq_of_lt h, Nat.add_zero]
      rw [← hcase, Nat.mod_eq_of_lt h]
    · obtain ⟨j, rfl⟩ := Nat.exists_eq_add_of_le h
      have hj : j < 2 ^ e.ty.dim := by omega
      rw [List.getElem?_append_right (by simp)]
      simp only [List.getElem?_map, List.length_map, List.length_range, Nat.add_sub_cancel_left, List.getElem?_range hj, Option.map_some, Option.getD_some, Function.comp_apply,
        Nat.add_div_left _ (Nat.two_pow_pos _), Nat.div_eq_of_lt hj]
      rw [← hcase, Nat.add_mod_left, Nat.mod_eq_of_lt hj]

/-- The extruded mesh with its coordinates. -/
abbrev mesh3 (N : Nat) (zs : List ℝ) (dat : Nat → VData) (back front : Nat) (m doms : DomMap) : DMap VData :=
  withData (extCoords (allEvents N zs (planarVerts dat) back front m)) doms

theorem wf_mesh3 {doms : DomMap} {L : Nat} (hx : Ext m N L back front doms) : Convert.WfMesh (mesh3 N zs dat back front m doms) := by
  have wf := hx.wf
  have hsd : OMap.Sorted doms := wf.sorted
  have hmem : ∀ d ∈ doms, doms.lookup d.1 = some d.2 := fun d hd => (mem_lookup hsd).2 hd
  have hg : ∀ (v : List (List Element)) (f : Element → El VData) t, (v.map fun v => v.map f).getD (tyIdx t) [] = (v.getD (tyIdx t) []).map f := by
    intro v f t
    rw [List.getD_eq_getElem?_getD, List.getD_eq_getElem?_getD, List.getElem?_map]
    cases v[tyIdx t]? <;> rfl
  refine ⟨sorted_withData hsd, ?_, ?_, ?_, ?_⟩
  · intro d hd
    obtain ⟨d', hd', rfl⟩ := List.mem_map.1 hd
    simpa [Extrude.kinds1] using (wf.dom _ _ (hmem d' hd')).len
  · intro d hd t e he
    obtain ⟨d', hd', rfl⟩ := List.mem_map.1 hd
    rw [hg] at he
    obtain ⟨y, hy, rfl⟩ := List.mem_map.1 he
    have hlen := (wf.dom _ _ (hmem d' hd')).len
    have hlt : tyIdx t < d'.2.vecs.length := by rw [hlen]; cases t <;> decide
    rw [List.getD_eq_getElem?_getD, List.getElem?_eq_getElem hlt] at hy
    have := (wf.dom _ _ (hmem d' hd')).kind _ hlt y hy
    have ht : ∀ t, (Extrude.kinds1[tyIdx t]?).map (·.1) = some t := by intro t; cases t <;> rfl
    have ht' := ht t
    rw [List.getElem?_eq_getElem (by rw [← hlen]; exact hlt), ← this] at ht'
    exact Option.some.inj ht'
  · intro d hd t
    obtain ⟨d', hd', rfl⟩ := List.mem_map.1 hd
    rw [hg]
    refine List.pairwise_map.2 ?_
    by_cases hlt : tyIdx t < d'.2.vecs.length
    · rw [List.getD_eq_getElem?_getD, List.getElem?_eq_getElem hlt]
      have := hx.asc d' hd' _ (List.getElem_mem hlt)
      exact List.pairwise_map.1 this
    · rw [List.getD_eq_getElem?_getD, List.getElem?_eq_none (by omega)]
      exact List.Pairwise.nil
  · intro d hd e he
    obtain ⟨d', hd', rfl⟩ := List.mem_map.1 hd
    simp only [← List.map_flatten] at he
    obtain ⟨y, hy, rfl⟩ := List.mem_map.1 he
    exact (wf.dom _ _ (hmem d' hd')).dim y hy

theorem mem_mesh3 {doms : DomMap} {L : Nat} (hx : Ext m N L back front doms) {k : Nat} {e : El VData} :
    (k, e) ∈ visit (mesh3 N zs dat back front m doms) ↔ ∃ i s, (sources L back front m)[i]? = some s ∧ s.1 = k ∧
      e = ⟨s.2.2.lift s.2.1.ty, i, s.2.2.nodes N s.2.1, extCoords (allEvents N zs (planarVerts dat) back front m) i⟩ := by
  rw [mem_visit_withData hx.wf.sorted]
  simp only [hx.mem]
  constructor
  · rintro ⟨_, ⟨i, s, hi, rfl, rfl⟩, rfl⟩; exact ⟨i, s, hi, rfl, rfl⟩
  · rintro ⟨i, s, hi, rfl, rfl⟩; exact ⟨_, ⟨i, s, hi, rfl, rfl⟩, rfl⟩

/-- Coordinates of the nodes of the extruded mesh. -/
def X3 (N : Nat) (zs : List ℝ) (X : Nat → Nat → ℝ) (v c : Nat) : ℝ := if c < 2 then X (v % N) c else zs.getD (v / N) 0

/-- Areas with the same corners are the same. -/
theorem Flat.distinct (h : Flat n roots adjP N X dat m) (hs : OMap.Sorted m) {k k' : Nat} {e e' : Element} (he : InDom m k e) (he' : InDom m k' e')
    (hid : e.id = e'.id → e = e') (hq : e.ty = .quad) (hq' : e'.ty = .quad) (hp : e.nodes.Perm e'.nodes) : e = e' := by
  by_contra hne
  have hm := pel_mem (dat := dat) hs he
  have hm' := pel_mem (dat := dat) hs he'
  have G := geo_of h.geo
  have hlen : e.nodes.length = 2 ^ e.ty.dim := (h.geo.wf _ hm).len
  have hlen' : e'.nodes.length = 2 ^ e'.ty.dim := (h.geo.wf _ hm').len
  have hsh : ∀ i, i < 2 ^ e.ty.dim → ∃ j, j < 2 ^ e'.ty.dim ∧ e.nodes.getD i 0 = e'.nodes.getD j 0 := by
    intro i hi
    have h1 : e.nodes.getD i 0 ∈ e.nodes := by
      rw [List.getD_eq_getElem?_getD, List.getElem?_eq_getElem (by omega)]
      exact List.getElem_mem _
    obtain ⟨j, hj, h2⟩ := (mem_getD hlen').1 (hp.mem_iff.1 h1)
    exact ⟨j, hj, h2.symm⟩
  rcases G.conform _ hm _ hm' (fun hh => hne (hid hh)) with ⟨hno, _⟩ | ⟨F1, F2, V, hfr, _⟩
  · obtain ⟨j, hj, h1⟩ := hsh 0 (by positivity)
    exact hno 0 j (by change 0 < 2 ^ e.ty.dim; positivity) hj h1
  · obtain ⟨w1, w2, w3⟩ := whole_face e.ty
    have := face_le e.ty F1 V.mem1 _ w1 fun i hi _ => by
      obtain ⟨j, hj, h1⟩ := hsh i (List.mem_range.1 hi)
      exact (V.only i j (List.mem_range.1 hi) hj h1).1
    have h1 := this.1
    rw [w2] at h1
    have h2 : free F1 ≤ highestDim e.ty e'.ty := hfr
    rw [hq, hq'] at h2
    rw [hq] at h1
    simp [highestDim, ElType.dim] at h1 h2
    omega

/-- The extruded mesh is a valid conforming mesh in the sense of C34. -/
theorem geo_ext (hP : Planar m bnds N) (h : Flat n roots adjP N X dat m) (hz : AxisOk n roots zs.length fun i => zs.getD i 0) (bound : n ^ 3 < 2 ^ 16)
    {doms : DomMap} (hx : Ext m N zs.length back front doms) {adj : Nat → List Nat} (hadj : DualOf adj (mesh3 N zs dat back front m doms))
    (hb : els m back ≠ [] → back ∈ bnds) (hf : els m front ≠ [] → front ∈ bnds) :
    GeoMesh n roots adj (N * zs.length) (X3 N zs X) ((visit (mesh3 N zs dat back front m doms)).map (·.2)) := by
  have hL : 1 < zs.length := hz.size
  have hs : OMap.Sorted m := hP.wf.sorted
  have hinc : Inc zs := hz.inc
  have two := h.geo.two
  have L := lob_of n two roots h.geo.eig
  have R := ready_ext hP hz.size hx hb hf
  set evs := allEvents N zs (planarVerts dat) back front m with hevs
  have hels : ∀ y ∈ (visit (mesh3 N zs dat back front m doms)).map (·.2), ∃ i d e c, (sources zs.length back front m)[i]? = some (d, e, c) ∧
      (∃ k, InDom m k e) ∧ e.ty ≠ .hex ∧ c.In zs.length ∧ ((∃ l, c = .lev l) → e.ty = .quad) ∧
      y = ⟨c.lift e.ty, i, c.nodes N e, extCoords evs i⟩ ∧
      image (c.lift e.ty) (extCoords evs i) = image (c.lift e.ty) (dat3 zs (dat e.id) e.ty.dim c) := by
    intro y hy
    obtain ⟨⟨k, e'⟩, hq, rfl⟩ := List.mem_map.1 hy
    obtain ⟨i, ⟨d, e, c⟩, hi, rfl, rfl⟩ := (mem_mesh3 hx).1 hq
    have hsrc := List.mem_of_getElem? hi
    have hh := hP.src hsrc
    have hdim := hP.dim hsrc
    refine ⟨i, d, e, c, hi, (holds_iff_inDom hP.wf).1 hh, hP.flat _ hh, ?_, ?_, rfl, ?_⟩
    · rcases mem_sources.1 hsrc with ⟨k, e, he, l, hl, h1⟩ | ⟨k, e, he, hne, h1 | h1⟩ <;> simp only [Prod.mk.injEq] at h1 <;> obtain ⟨_, _, rfl⟩ := h1 <;>
        simp only [Cell.In] <;> omega
    · rintro ⟨l, rfl⟩
      rcases mem_sources.1 hsrc with ⟨k, e, he, l, hl, h1⟩ | ⟨k, e, he, hne, h1 | h1⟩ <;> simp only [Prod.mk.injEq, reduceCtorEq, and_false] at h1 <;> obtain ⟨_, rfl, _⟩ := h1 <;>
        exact hP.ty (hP.holds he) hne
    · exact image_data fun k hk a => coords_src hL hi hdim hk a.2
  have hlen : ∀ {k e}, InDom m k e → e.nodes.length = 2 ^ e.ty.dim := fun he => (h.geo.wf _ (pel_mem (dat := dat) hs he)).len
  have hnd : ∀ {k e}, InDom m k e → e.nodes.Nodup := fun he => (h.geo.wf _ (pel_mem (dat := dat) hs he)).nodup
  have hnode : ∀ {k e}, InDom m k e → ∀ x ∈ e.nodes, x < N := fun he => h.geo.old _ (pel_mem (dat := dat) hs he)
  have hid : ∀ {k k' e e'}, InDom m k e → InDom m k' e' → e.id = e'.id → e = e' := by
    intro k k' e e' he he' hh
    exact List.inj_on_of_nodup_map hP.ids (Extrude.mem_visitAll.2 ⟨k, els_key (mem_els.2 he), mem_els.2 he⟩) (Extrude.mem_visitAll.2 ⟨k', els_key (mem_els.2 he'), mem_els.2 he'⟩) hh
  have hgetlt : ∀ {k e}, InDom m k e → ∀ j, j < 2 ^ e.ty.dim → e.nodes.getD j 0 < N := by
    intro k e he j hj
    have h1 : e.nodes.getD j 0 ∈ e.nodes := by
      rw [List.getD_eq_getElem?_getD, List.getElem?_eq_getElem (by rw [hlen he]; exact hj)]
      exact List.getElem_mem _
    exact hnode he _ h1
  refine ⟨two, ?_, h.geo.eig, ?_, ?_, ?_, ?_, ?_, ?_, hadj, ?_⟩
  · intro y hy
    obtain ⟨i, d, e, c, hi, ⟨k, he⟩, ht, hc, hq, rfl, him⟩ := hels y hy
    refine lt_of_le_of_lt (Nat.pow_le_pow_right (by omega) ?_) bound
    exact dim_le_three _
  · intro y hy
    obtain ⟨i, d, e, c, hi, ⟨k, he⟩, ht, hc, hq, rfl, him⟩ := hels y hy
    have hl : (c.nodes N e).length = 2 ^ (c.lift e.ty).dim := by
      rw [lift_dim ht, pow_add, ← hlen he]
      cases c with
      | lay l => simp [Cell.nodes, prismNodes, Cell.dim]; omega
      | lev l => simp [Cell.nodes, Cell.dim]
    refine ⟨hl, ?_⟩
    change (c.nodes N e).Nodup
    rw [List.nodup_iff_injective_get]
    intro a b hab
    have key : ∀ a : Fin (c.nodes N e).length, (c.nodes N e).get a = e.nodes.getD (a % 2 ^ e.ty.dim) 0 + (c.base + a / 2 ^ e.ty.dim) * N := by
      intro a
      rw [← nodes_getD (hlen he) (by rw [← lift_dim ht, ← hl]; exact a.2), List.getD_eq_getElem?_getD, List.getElem?_eq_getElem a.2]
      rfl
    rw [key, key] at hab
    have hm2 : ∀ x, x % 2 ^ e.ty.dim < 2 ^ e.ty.dim := fun x => Nat.mod_lt _ (by positivity)
    obtain ⟨h1, h2⟩ := level_inj (hgetlt he _ (hm2 _)) (hgetlt he _ (hm2 _)) hab
    have h3 := WfEl.inj (h.geo.wf _ (pel_mem (dat := dat) hs he)) (hm2 a) (hm2 b) h1
    have h4 : (a : Nat) / 2 ^ e.ty.dim = b / 2 ^ e.ty.dim := by omega
    refine Fin.ext ?_
    rw [← Nat.div_add_mod (a : Nat) (2 ^ e.ty.dim), ← Nat.div_add_mod (b : Nat) (2 ^ e.ty.dim), h3, h4]
  · intro y hy v hv
    obtain ⟨i, d, e, c, hi, ⟨k, he⟩, ht, hc, hq, rfl, him⟩ := hels y hy
    exact (R.nodes v).1 ⟨elS N i (d, e, c), (holds_iff_inDom hx.wf).2 ⟨d, hx.mem.2 ⟨i, _, hi, rfl, rfl⟩⟩, hv⟩
  · have h1 := (wf_mesh3 (zs := zs) (dat := dat) hx).sorted
    have h2 := tagged_toMesh (n := 2) h1
    rw [toMesh_withData _ (fun e he => by
      obtain ⟨k, hk⟩ := (holds_iff_inDom hx.wf).1 he
      obtain ⟨i, s, _, _, rfl⟩ := hx.mem.1 hk
      rfl)] at h2
    have h3 := hx.ids
    rw [visitAll, visitIds_tagged, List.map_map, h2, List.map_map] at h3
    rw [List.map_map]
    exact h3
  · intro y hy k hk a ha
    obtain ⟨i, d, e, c, hi, ⟨q, he⟩, ht, hc, hq, rfl, him⟩ := hels y hy
    change k < 2 ^ (c.lift e.ty).dim at hk
    change extCoords evs i k a = X3 N zs X ((c.nodes N e).getD k 0) a
    rw [show extCoords evs i k a = _ from coords_src hL hi (lift_dim ht c) hk ha]
    rw [lift_dim ht] at hk
    have hm2 : k % 2 ^ e.ty.dim < 2 ^ e.ty.dim := Nat.mod_lt _ (by positivity)
    rw [nodes_getD (hlen he) hk, X3, level_mod (hgetlt he _ hm2), level_div (hgetlt he _ hm2), dat3]
    by_cases h2 : a < 2
    · rw [if_pos h2, if_pos h2]
      exact h.geo.coords _ (pel_mem (dat := dat) hs he) _ hm2 a ha
    · rw [if_neg h2, if_neg h2]
  · intro y hy ξ ξ' hξ hξ' hxx a ha
    obtain ⟨i, d, e, c, hi, ⟨q, he⟩, ht, hc, hq, rfl, him⟩ := hels y hy
    simp only [him] at hxx
    change InCell (c.lift e.ty) ξ at hξ
    change InCell (c.lift e.ty) ξ' at hξ'
    change a < (c.lift e.ty).dim at ha
    rw [lift_dim ht] at ha
    obtain ⟨h1, h2⟩ := h.below hs he he ht ht hxx
    have hin : ∀ {ξ}, InCell (c.lift e.ty) ξ → InCell e.ty ξ := fun hξ a ha => hξ a (by rw [lift_dim ht]; omega)
    by_cases had : a < e.ty.dim
    · exact h.geo.inj _ (pel_mem (dat := dat) hs he) ξ ξ' (hin hξ) (hin hξ') h1 a had
    · cases c with
      | lev l => simp only [Cell.dim] at ha; omega
      | lay l =>
        have : a = e.ty.dim := by simp only [Cell.dim] at ha; omega
        subst this
        exact zOf_inj hinc hc h2
  · intro y hy y' hy' hne
    obtain ⟨i, d, e, c, hi, ⟨q, he⟩, ht, hc, hq, rfl, him⟩ := hels y hy
    obtain ⟨i', d', e', c', hi', ⟨q', he'⟩, ht', hc', hq', rfl, him'⟩ := hels y' hy'
    have hsrc := List.mem_of_getElem? hi
    have hsrc' := List.mem_of_getElem? hi'
    have hne2 : ¬ (e = e' ∧ c = c') := by
      rintro ⟨rfl, rfl⟩
      have hS := nodup_sources (back := back) (front := front) hP.ids hz.size
      have hdd : d = d' := by
        rcases mem_sources.1 hsrc with ⟨k1, e1, he1, l1, hl1, h1⟩ | ⟨k1, e1, he1, hne1, h1 | h1⟩ <;>
          rcases mem_sources.1 hsrc' with ⟨k2, e2, he2, l2, hl2, h2⟩ | ⟨k2, e2, he2, hne2, h2 | h2⟩ <;>
          simp only [Prod.mk.injEq] at h1 h2 <;> obtain ⟨rfl, rfl, rfl⟩ := h1 <;> obtain ⟨rfl, h21, h22⟩ := h2 <;>
          simp only [reduceCtorEq, Cell.lay.injEq, Cell.lev.injEq] at h22
        · subst h21; exact hP.key he1 he2
        · rfl
        · omega
        · omega
        · rfl
      subst hdd
      obtain ⟨a1, e1⟩ := List.getElem?_eq_some_iff.1 hi
      obtain ⟨a2, e2⟩ := List.getElem?_eq_some_iff.1 hi'
      exact hne ((List.Nodup.getElem_inj_iff hS).1 (e1.trans e2.symm))
    have := meets_src (N := N) h hs hinc he he' ht ht' hc hc' hq hq' (hid he he') hne2 (by
      rintro rfl
      cases c with
      | lay l => exact .inl (.inl rfl)
      | lev l =>
        cases c' with
        | lay l' => exact .inl (.inr rfl)
        | lev l' =>
          right
          intro ζ ζ' _ _ _ _ hh
          change zs.getD l 0 = zs.getD l' 0 at hh
          have hll : l ≠ l' := fun h0 => hne2 ⟨rfl, by rw [h0]⟩
          rcases Nat.lt_or_gt_of_ne hll with h3 | h3
          · have := hinc.lt h3 hc'; linarith
          · have := hinc.lt h3 hc; linarith) i i' d d'
    unfold Meets at this ⊢
    simp only [el3, him, him'] at this ⊢
    exact this
  · intro y hy y' hy' p hp p' hp' hcl
    obtain ⟨i, d, e, c, hi, ⟨q, he⟩, ht, hc, hq, rfl, him⟩ := hels y hy
    obtain ⟨i', d', e', c', hi', ⟨q', he'⟩, ht', hc', hq', rfl, him'⟩ := hels y' hy'
    have hval : ∀ {i : Nat} {e : Element} {c : Cell} {k : Nat} {p : Pt}, InDom m k e → e.ty ≠ .hex → c.In zs.length → 
        image (c.lift e.ty) (extCoords evs i) = image (c.lift e.ty) (dat3 zs (dat e.id) e.ty.dim c) →
        p ∈ physLoc roots (c.lift e.ty) n (extCoords evs i) →
        p 2 ∈ axisNodes n roots zs.length (fun i => zs.getD i 0) ∧ ∃ p0 ∈ physLoc roots e.ty n (dat e.id), p0 0 = p 0 ∧ p0 1 = p 1 ∧ p0 2 = 0 := by
      intro i e c k p he ht hc him hp
      obtain ⟨j, hj⟩ := List.mem_iff_getElem?.1 hp
      have hlt : j < n ^ (c.lift e.ty).dim := by
        obtain ⟨hj', _⟩ := List.getElem?_eq_some_iff.1 hj
        rwa [physLoc_length roots _ _ _ L] at hj'
      have h1 := pos_eq roots n L ⟨c.lift e.ty, i, [], extCoords evs i⟩ hlt
      rw [pos] at h1
      simp only at h1
      rw [hj, Option.some.injEq, him] at h1
      have hlt0 : j % n ^ e.ty.dim < n ^ e.ty.dim := Nat.mod_lt _ (Nat.pow_pos (by omega))
      have h2 := pos_eq roots n L (pel dat e) hlt0
      rw [pos] at h2
      have him0 : image e.ty (dat e.id) (refPt e.ty n (lobattoAbsc n roots) (j % n ^ e.ty.dim)) =
          image e.ty (dat e.id) (refPt (c.lift e.ty) n (lobattoAbsc n roots) j) := by
        refine image_congr _ _ fun a ha => ?_
        rw [refPt, refPt, if_pos ha, if_pos (by rw [lift_dim ht]; omega), low_digit ha]
      refine ⟨?_, _, List.mem_of_getElem? h2, ?_, ?_, ?_⟩
      · rw [h1, image_lift ht]
        simp only [Fin.isValue, Fin.val_two, lt_self_iff_false, if_false]
        cases c with
        | lev l => exact .inl ⟨l, hc, rfl⟩
        | lay l =>
          refine .inr ⟨l, j / n ^ e.ty.dim % n, hc, Nat.mod_lt _ (by omega), ?_⟩
          rw [zOf_lay, refPt, if_pos (by rw [lift_dim ht]; exact Nat.lt_succ_self _)]
      · change image e.ty (dat e.id) (refPt e.ty n (lobattoAbsc n roots) (j % n ^ e.ty.dim)) 0 = _
        rw [him0, h1, image_lift ht]; rfl
      · change image e.ty (dat e.id) (refPt e.ty n (lobattoAbsc n roots) (j % n ^ e.ty.dim)) 1 = _
        rw [him0, h1, image_lift ht]; rfl
      · exact h.zero hs he _
    obtain ⟨z1, p0, m1, x1, y1, w1⟩ := hval he ht hc him hp
    obtain ⟨z2, p0', m2, x2, y2, w2⟩ := hval he' ht' hc' him' hp'
    have hz2 : p 2 = p' 2 := hz.sep _ z1 _ z2 (close_coord hcl 2)
    have hpp : p0 = p0' := by
      refine h.geo.sep _ (pel_mem (dat := dat) hs he) _ (pel_mem (dat := dat) hs he') p0 m1 p0' m2 ?_
      classical
      unfold closeTol at hcl ⊢
      rw [decide_eq_true_eq] at hcl ⊢
      refine lt_of_le_of_lt (Real.sqrt_le_sqrt ?_) hcl
      rw [Fin.sum_univ_three, Fin.sum_univ_three, x1, x2, y1, y2, w1, w2]
      nlinarith [sq_nonneg (p 2 - p' 2)]
    funext a
    fin_cases a
    · change p 0 = p' 0
      rw [← x1, ← x2, hpp]
    · change p 1 = p' 1
      rw [← y1, ← y2, hpp]
    · exact hz2

end
end
end Verif.ExtGen
