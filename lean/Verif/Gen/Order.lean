import Verif.Gen.Grid

/-! # Structured meshes satisfy what the conversion to higher order assumes -/
namespace Verif.Gen
open Verif Verif.Elem Verif.Mesh Verif.Convert Verif.Partition Verif.Pipeline Verif.Prim Verif.Basis Verif.Poly

noncomputable section

/-- Coordinates of the nodes along direction `c`: the grid lines and the nodes between them (`N` nodes per edge). -/
def axisVals (N : Nat) (roots : List ℂ) (n : Fin 3 → Nat) (P : Fin 3 → Nat → ℝ) (c : Fin 3) : Set ℝ :=
  {x | (∃ i, i < n c ∧ x = P c i) ∨ ∃ i j, i + 1 < n c ∧ j < N ∧ x = axisPt P c i ((lobattoAbsc N roots).getD j 0)}

/-- Different coordinates of nodes differ by at least the tolerance with which nodes are matched. -/
def Separated (N : Nat) (roots : List ℂ) (n : Fin 3 → Nat) (P : Fin 3 → Nat → ℝ) : Prop :=
  ∀ c, ∀ x ∈ axisVals N roots n P c, ∀ y ∈ axisVals N roots n P c, |x - y| < 1e-12 → x = y

section
variable {n : Fin 3 → Nat} {P : Fin 3 → Nat → ℝ} {W : Fin 3 → Bool} {dom : Nat} {Bs : List (Nat × Box)} {res : List Nat} {m : DomMap}
variable {N : Nat} {roots : List ℂ} {adj : Nat → List Nat}

theorem image_data {t : ElType} {v v' : VData} (h : ∀ k, k < 2 ^ t.dim → ∀ c : Fin 3, v k c = v' k c) : image t v = image t v' := by
  funext ξ c
  rw [image_eq, image_eq]
  exact Finset.sum_congr rfl fun k hk => by rw [h k (Finset.mem_range.1 hk)]

theorem coordsOf_box {i : Nat} {q : Nat × Box} (hi : Bs[i]? = some q) {k : Nat} (hk : k < 2 ^ (tyOf q.2.w).dim) (c : Fin 3) :
    coordsOf (Bs.map (emitOf n P)) i k c = q.2.data P k c := by
  unfold coordsOf
  rw [List.getElem?_map, hi]
  simp only [Option.map_some, Option.bind_some, emitOf, List.getElem?_map, List.getElem?_range hk, Option.getD_some]
  fin_cases c <;> rfl

/-- The generated mesh with the coordinates of the vertices. -/
abbrev meshOf (n : Fin 3 → Nat) (P : Fin 3 → Nat → ℝ) (Bs : List (Nat × Box)) (m : DomMap) : DMap VData := withData (coordsOf (Bs.map (emitOf n P))) m

theorem sorted_withData {D : Type} {dat : Nat → D} (h : OMap.Sorted m) : OMap.Sorted (withData dat m) := List.pairwise_map.2 h

theorem toMesh_withData {D : Type} (dat : Nat → D) (h : ∀ e, Holds m e → e.n = 2) : toMesh 2 (withData dat m) = m := by
  unfold toMesh withData
  rw [List.map_map]
  conv_rhs => rw [← List.map_id m]
  refine List.map_congr_left fun d hd => ?_
  obtain ⟨k, dim, vecs⟩ := d
  simp only [Function.comp_apply, List.map_map, id]
  congr 2
  conv_rhs => rw [← List.map_id vecs]
  refine List.map_congr_left fun v hv => ?_
  simp only [Function.comp_apply, List.map_map, id]
  conv_rhs => rw [← List.map_id v]
  refine List.map_congr_left fun e he => ?_
  have := h e ⟨_, hd, v, hv, he⟩
  obtain ⟨ty, n, id, nodes⟩ := e
  simp only at this
  subst this
  rfl

theorem mem_visit_withData {D : Type} {dat : Nat → D} (hs : OMap.Sorted m) {k : Nat} {e : El D} :
    (k, e) ∈ visit (withData dat m) ↔ ∃ y, InDom m k y ∧ e = ⟨y.ty, y.id, y.nodes, dat y.id⟩ := by
  rw [mem_visit]
  constructor
  · rintro ⟨d, hd, he⟩
    obtain ⟨d', hd', h⟩ := List.mem_map.1 hd
    simp only [Prod.mk.injEq] at h
    obtain ⟨rfl, rfl⟩ := h
    simp only [← List.map_flatten] at he
    obtain ⟨y, hy, rfl⟩ := List.mem_map.1 he
    exact ⟨y, ⟨d'.2, (mem_lookup hs).2 hd', hy⟩, rfl⟩
  · rintro ⟨y, ⟨d, hd, hy⟩, rfl⟩
    refine ⟨_, List.mem_map.2 ⟨_, (mem_lookup hs).1 hd, rfl⟩, ?_⟩
    simp only [← List.map_flatten]
    exact List.mem_map.2 ⟨y, hy, rfl⟩

theorem mem_meshOf (h : IsGrid n W dom Bs) (hb : Built res (number (Bs.map (emitOf n P))) m) {k : Nat} {e : El VData} :
    (k, e) ∈ visit (meshOf n P Bs m) ↔ ∃ i b, Bs[i]? = some (k, b) ∧ e = ⟨tyOf b.w, i, b.nodes n, coordsOf (Bs.map (emitOf n P)) i⟩ := by
  rw [mem_visit_withData hb.sorted]
  simp only [inDom_grid h hb]
  constructor
  · rintro ⟨_, ⟨i, b, hi, rfl⟩, rfl⟩; exact ⟨i, b, hi, rfl⟩
  · rintro ⟨i, b, hi, rfl⟩; exact ⟨_, ⟨i, b, hi, rfl⟩, rfl⟩

theorem wf_meshOf (h : IsGrid n W dom Bs) (hb : Built res (number (Bs.map (emitOf n P))) m) : Convert.WfMesh (meshOf n P Bs m) := by
  have wf := wf_grid h hb
  have hmem : ∀ d ∈ m, m.lookup d.1 = some d.2 := fun d hd => (mem_lookup hb.sorted).2 hd
  have hg : ∀ (v : List (List Element)) (f : Element → El VData) t, (v.map fun v => v.map f).getD (tyIdx t) [] = (v.getD (tyIdx t) []).map f := by
    intro v f t
    rw [List.getD_eq_getElem?_getD, List.getD_eq_getElem?_getD, List.getElem?_map]
    cases v[tyIdx t]? <;> rfl
  refine ⟨sorted_withData hb.sorted, ?_, ?_, ?_, ?_⟩
  · intro d hd
    obtain ⟨d', hd', rfl⟩ := List.mem_map.1 hd
    simpa [kinds1] using (wf.dom _ _ (hmem d' hd')).len
  · intro d hd t e he
    obtain ⟨d', hd', rfl⟩ := List.mem_map.1 hd
    rw [hg] at he
    obtain ⟨y, hy, rfl⟩ := List.mem_map.1 he
    have hlen := (wf.dom _ _ (hmem d' hd')).len
    have hlt : tyIdx t < d'.2.vecs.length := by rw [hlen]; cases t <;> decide
    rw [List.getD_eq_getElem?_getD, List.getElem?_eq_getElem hlt] at hy
    have := (wf.dom _ _ (hmem d' hd')).kind _ hlt y hy
    have ht : ∀ t, (kinds1[tyIdx t]?).map (·.1) = some t := by intro t; cases t <;> rfl
    have ht' := ht t
    rw [List.getElem?_eq_getElem (by rw [← hlen]; exact hlt), ← this] at ht'
    exact Option.some.inj ht'
  · intro d hd t
    obtain ⟨d', hd', rfl⟩ := List.mem_map.1 hd
    rw [hg]
    refine List.pairwise_map.2 ?_
    by_cases hlt : tyIdx t < d'.2.vecs.length
    · rw [List.getD_eq_getElem?_getD, List.getElem?_eq_getElem hlt]
      have := built_sorted hb d' hd' _ (List.getElem_mem hlt)
      exact List.pairwise_map.1 this
    · rw [List.getD_eq_getElem?_getD, List.getElem?_eq_none (by omega)]
      exact List.Pairwise.nil
  · intro d hd e he
    obtain ⟨d', hd', rfl⟩ := List.mem_map.1 hd
    simp only [← List.map_flatten] at he
    obtain ⟨y, hy, rfl⟩ := List.mem_map.1 he
    exact (wf.dom _ _ (hmem d' hd')).dim y hy

/-- Coordinates of a node of a box. -/
theorem axisVal_image (_L : Lob N (lobattoAbsc N roots)) (hN : 1 ≤ N) {b : Box} (hg : b.InGrid n) (i : Nat) (c : Fin 3) :
    image (tyOf b.w) (b.data P) (refPt (tyOf b.w) N (lobattoAbsc N roots) i) c ∈ axisVals N roots n P c := by
  rw [b.image_coord]
  have := hg c
  split
  · rename_i h
    rw [h] at this
    refine .inr ⟨b.lo c, _, this, Nat.mod_lt (i / N ^ Gen.loc b.w c) (by omega), ?_⟩
    rw [refPt, if_pos (loc_lt h)]
  · exact .inl ⟨b.lo c, by omega, rfl⟩

theorem close_coord {p q : Pt} (h : closeTol p q = true) (c : Fin 3) : |p c - q c| < 1e-12 := by
  classical
  unfold closeTol at h
  rw [decide_eq_true_eq] at h
  refine lt_of_le_of_lt ?_ h
  rw [← Real.sqrt_sq_eq_abs]
  refine Real.sqrt_le_sqrt ?_
  exact Finset.single_le_sum (f := fun c => (p c - q c) ^ 2) (fun c _ => sq_nonneg _) (Finset.mem_univ c)

/-- A structured mesh is a valid conforming mesh in the sense of C34. -/
theorem geo_grid (h : IsGrid n W dom Bs) (hb : Built res (number (Bs.map (emitOf n P))) m) (hP : Increasing n P)
    (two : 2 ≤ N) (bound : N ^ (axes W).length < 2 ^ 16) (eig : 4 ≤ N → LobattoRoots N roots) (sep : Separated N roots n P)
    (hadj : ∀ e ∈ (visit (meshOf n P Bs m)).map (·.2), ∀ e' ∈ (visit (meshOf n P Bs m)).map (·.2), e.id ≠ e'.id → ShareTwo e e' → e'.id ∈ adj e.id) :
    GeoMesh N roots adj (n 0 * n 1 * n 2) (fun v c => if hc : c < 3 then P ⟨c, hc⟩ (coordOf n v ⟨c, hc⟩) else 0) ((visit (meshOf n P Bs m)).map (·.2)) := by
  have L := lob_of N two roots eig
  have hels : ∀ e ∈ (visit (meshOf n P Bs m)).map (·.2), ∃ i q, Bs[i]? = some q ∧ q ∈ Bs ∧ e = ⟨tyOf q.2.w, i, q.2.nodes n, coordsOf (Bs.map (emitOf n P)) i⟩ ∧
      image (tyOf q.2.w) (coordsOf (Bs.map (emitOf n P)) i) = image (tyOf q.2.w) (q.2.data P) := by
    intro e he
    obtain ⟨⟨k, e'⟩, hq, rfl⟩ := List.mem_map.1 he
    obtain ⟨i, b, hi, rfl⟩ := (mem_meshOf h hb).1 hq
    exact ⟨i, _, hi, mem_of hi, rfl, image_data fun k hk c => coordsOf_box hi hk c⟩
  refine ⟨two, ?_, eig, ?_, ?_, ?_, ?_, ?_, ?_, hadj, ?_⟩
  · intro e he
    obtain ⟨i, q, hi, hq, rfl, _⟩ := hels e he
    refine lt_of_le_of_lt (Nat.pow_le_pow_right (by omega) ?_) bound
    change (tyOf q.2.w).dim ≤ _
    rw [h.dim hq]
    split <;> omega
  · intro e he
    obtain ⟨i, q, hi, hq, rfl, _⟩ := hels e he
    exact ⟨q.2.length_nodes n, q.2.nodup_nodes (h.ne hq) (h.grid q hq)⟩
  · intro e he v hv
    obtain ⟨i, q, hi, hq, rfl, _⟩ := hels e he
    obtain ⟨p, hp, rfl⟩ := Box.mem_nodes.1 hv
    exact node_lt (q.2.has_lt (h.grid q hq) hp)
  · have h1 := (wf_meshOf h hb).sorted
    have h2 := tagged_toMesh (n := 2) h1
    rw [toMesh_withData _ (fun e he => by obtain ⟨i, q, _, rfl⟩ := (holds_grid h hb).1 he; rfl)] at h2
    have h3 := ((built_ids h.good hb).nodup_iff.2 List.nodup_range)
    rw [visitAll, visitIds_tagged, List.map_map, h2, List.map_map] at h3
    rw [List.map_map]
    exact h3
  · intro e he k hk c hc
    obtain ⟨i, q, hi, hq, rfl, _⟩ := hels e he
    simp only [dif_pos hc]
    rw [show coordsOf (Bs.map (emitOf n P)) i k c = _ from coordsOf_box hi hk ⟨c, hc⟩, q.2.getD_nodes n hk]
    rw [coordOf_node (q.2.vert_lt (h.grid q hq) k), Box.data]
    simp only [dif_pos hc]
  · intro e he ξ ξ' _ _ hx
    obtain ⟨i, q, hi, hq, rfl, him⟩ := hels e he
    simp only [him] at hx
    exact q.2.inj hP (h.ne hq) (h.grid q hq) hx
  · intro e he e' he' hid
    obtain ⟨i, q, hi, hq, rfl, him⟩ := hels e he
    obtain ⟨i', q', hi', hq', rfl, him'⟩ := hels e' he'
    have hne : q.2 ≠ q'.2 := fun hh => hid (h.index hi hi' hh)
    have := box_meets hP (h.ne hq) (h.ne hq') (h.grid q hq) (h.grid q' hq') hne i i'
    unfold Meets at this ⊢
    simp only [Box.el, him, him'] at this ⊢
    exact this
  · intro e he e' he' p hp p' hp' hcl
    obtain ⟨i, q, hi, hq, rfl, him⟩ := hels e he
    obtain ⟨i', q', hi', hq', rfl, him'⟩ := hels e' he'
    have hval : ∀ (i : Nat) (q : Nat × Box) (p : Pt), q ∈ Bs → image (tyOf q.2.w) (coordsOf (Bs.map (emitOf n P)) i) = image (tyOf q.2.w) (q.2.data P) →
        p ∈ physLoc roots (tyOf q.2.w) N (coordsOf (Bs.map (emitOf n P)) i) → ∀ c, p c ∈ axisVals N roots n P c := by
      intro i q p hq him hp c
      obtain ⟨j, hj⟩ := List.mem_iff_getElem?.1 hp
      have hlt : j < N ^ (tyOf q.2.w).dim := by
        obtain ⟨hj', _⟩ := List.getElem?_eq_some_iff.1 hj
        rwa [physLoc_length roots _ _ _ L] at hj'
      have := pos_eq roots N L ⟨tyOf q.2.w, i, [], coordsOf (Bs.map (emitOf n P)) i⟩ hlt
      rw [pos] at this
      simp only at this
      rw [hj, Option.some.injEq] at this
      rw [this, him]
      exact axisVal_image L (by omega) (h.grid q hq) j c
    funext c
    exact sep c _ (hval i q p hq him hp c) _ (hval i' q' p' hq' him' hp' c) (close_coord hcl c)

end
end
end Verif.Gen
