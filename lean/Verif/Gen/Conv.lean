import Verif.Gen.Model
import Verif.Convert.Props
import Verif.Partition.Props

/-! # Conversion to higher order keeps a mesh ready for distribution -/
namespace Verif.Gen
open Verif Verif.Elem Verif.Mesh Verif.Convert Verif.Partition Verif.Pipeline

/-- A mesh of order `n - 1` ready for distribution: what C113 and C116-C118 assume about it, and its nodes are numbered `0, ..., N - 1`. -/
structure Ready (n : Nat) (m : DomMap) (bnds : List Nat) (D N : Nat) : Prop where
  ok : MeshOk (kindsOf n) m bnds D
  one : OneSided m bnds
  uni : UniqueParent m bnds
  nodes : ∀ x, NodeIn m x ↔ x < N

section
variable {P D : Type} {n : Nat} {M : DMap D} {ν : Nat → List Nat}

theorem lookup_toMesh (n : Nat) (M : DMap D) (k : Nat) :
    (toMesh n M).lookup k = (M.lookup k).map fun d => ⟨d.dim, d.vecs.map fun v => v.map (elemOf n)⟩ := by
  induction M with
  | nil => rfl
  | cons a M ih =>
    rw [toMesh, List.map_cons, List.lookup_cons, List.lookup_cons]
    by_cases h : k == a.1
    · simp [h]
    · rw [toMesh] at ih
      simpa [h] using ih

theorem keys_toMesh (n : Nat) (M : DMap D) : (toMesh n M).map (·.1) = M.map (·.1) := by simp [toMesh]

theorem sorted_toMesh (h : OMap.Sorted M) : OMap.Sorted (toMesh n M) := List.pairwise_map.2 h

theorem mem_lookup {B : Type} {M : List (Nat × B)} (h : OMap.Sorted M) {k : Nat} {d : B} : M.lookup k = some d ↔ (k, d) ∈ M := by
  induction M with
  | nil => simp
  | cons a M ih =>
    obtain ⟨h1, h2⟩ := List.pairwise_cons.1 h
    rw [List.lookup_cons, List.mem_cons]
    obtain ⟨k', d'⟩ := a
    by_cases hk : k = k'
    · subst hk
      simp only [BEq.rfl, Option.some.injEq, Prod.mk.injEq, true_and]
      constructor
      · rintro rfl; exact .inl rfl
      · rintro (rfl | h)
        · rfl
        · exact absurd (h1 _ h) (lt_irrefl _)
    · have : (k == k') = false := by simpa using hk
      simp only [this, ih h2, Prod.mk.injEq, hk, false_and, false_or]

theorem mem_visit {k : Nat} {e : El D} : (k, e) ∈ visit M ↔ ∃ d, (k, d) ∈ M ∧ e ∈ d.vecs.flatten := by
  unfold visit
  simp only [List.mem_flatMap, List.mem_map, Prod.mk.injEq, Prod.exists]
  constructor
  · rintro ⟨a, b, h, x, hx, rfl, rfl⟩; exact ⟨b, h, hx⟩
  · rintro ⟨d, h, hx⟩; exact ⟨k, d, h, e, hx, rfl, rfl⟩

theorem inDom_toMesh (h : OMap.Sorted M) {k : Nat} {y : Element} : InDom (toMesh n M) k y ↔ ∃ e, (k, e) ∈ visit M ∧ y = elemOf n e := by
  unfold InDom
  rw [lookup_toMesh]
  simp only [Option.map_eq_some_iff, mem_lookup h, mem_visit]
  constructor
  · rintro ⟨_, ⟨d, hd, rfl⟩, hy⟩
    rw [Domain.elems, ← List.map_flatten] at hy
    obtain ⟨e, he, rfl⟩ := List.mem_map.1 hy
    exact ⟨e, ⟨d, hd, he⟩, rfl⟩
  · rintro ⟨e, ⟨d, hd, he⟩, rfl⟩
    refine ⟨_, ⟨d, hd, rfl⟩, ?_⟩
    rw [Domain.elems, ← List.map_flatten]
    exact List.mem_map.2 ⟨e, he, rfl⟩

theorem holds_toMesh {y : Element} : Holds (toMesh n M) y ↔ ∃ q ∈ visit M, y = elemOf n q.2 := by
  constructor
  · rintro ⟨d, hd, v, hv, hy⟩
    obtain ⟨d', hd', rfl⟩ := List.mem_map.1 hd
    obtain ⟨v', hv', rfl⟩ := List.mem_map.1 hv
    obtain ⟨e, he, rfl⟩ := List.mem_map.1 hy
    exact ⟨(d'.1, e), mem_visit.2 ⟨d'.2, hd', List.mem_flatten.2 ⟨v', hv', he⟩⟩, rfl⟩
  · rintro ⟨⟨k, e⟩, hq, rfl⟩
    obtain ⟨d, hd, he⟩ := mem_visit.1 hq
    obtain ⟨v, hv, he⟩ := List.mem_flatten.1 he
    exact ⟨_, List.mem_map.2 ⟨_, hd, rfl⟩, _, List.mem_map.2 ⟨v, hv, rfl⟩, List.mem_map.2 ⟨e, he, rfl⟩⟩

theorem visit_relabel (ν : Nat → List Nat) (M : DMap D) : visit (relabel ν M) = (visit M).map fun q => (q.1, relab ν q.2) := by
  unfold visit relabel
  rw [List.flatMap_map, List.map_flatMap]
  congr 1
  funext d
  simp only [← List.map_flatten, List.map_map]
  rfl

theorem sorted_relabel (h : OMap.Sorted M) : OMap.Sorted (relabel ν M) := List.pairwise_map.2 h

/-- The nodes of a side are the nodes of a face. -/
theorem sideNodes_face {t : ElType} {n : Nat} (hn : 2 ≤ n) (hb : n ^ t.dim < 2 ^ 16) {id s : Nat} {nodes l : List Nat} :
    sideNodes ⟨t, n, id, nodes⟩ s = some l ↔ s < Elem.nSides t ∧ l = (faceInds t n (sideFace t s)).map fun i => nodes.getD i 0 := by
  unfold sideNodes
  by_cases hs : s < Elem.nSides t
  · rw [side_eq_layer t n s (by omega) hb hs, layer_eq_faceInds t n s hs]
    simp only [Option.map_some, Option.some.injEq, hs, true_and]
    exact eq_comm
  · have : sideNodeInds t n s = none := by
      rw [sideNodeInds, List.getElem?_eq_none]
      cases t <;> simp [table, lineTable, quadTable, hexTable, Elem.nSides] at hs ⊢ <;> omega
    simp only [this, Option.map_none, hs, false_and, reduceCtorEq]

theorem sideFace_mem {t : ElType} {s : Nat} (hs : s < Elem.nSides t) : sideFace t s ∈ allFaces t := by
  cases t <;> simp only [Elem.nSides] at hs <;> interval_cases s <;> decide

theorem mem_getD {l : List Nat} {N v : Nat} (h : l.length = N) : v ∈ l ↔ ∃ i, i < N ∧ l.getD i 0 = v := by
  rw [List.mem_iff_getElem]
  subst h
  constructor
  · rintro ⟨i, hi, rfl⟩; exact ⟨i, hi, by rw [List.getD_eq_getElem?_getD, List.getElem?_eq_getElem hi]; rfl⟩
  · rintro ⟨i, hi, rfl⟩; exact ⟨i, hi, by rw [List.getD_eq_getElem?_getD, List.getElem?_eq_getElem hi]; rfl⟩

theorem nodup_getD {l : List Nat} {N : Nat} (h : l.length = N) (hi : ∀ i j, i < N → j < N → l.getD i 0 = l.getD j 0 → i = j) : l.Nodup := by
  subst h
  rw [List.nodup_iff_injective_get]
  intro i j hij
  refine Fin.ext (hi i j i.2 j.2 ?_)
  rw [List.getD_eq_getElem?_getD, List.getD_eq_getElem?_getD, List.getElem?_eq_getElem i.2, List.getElem?_eq_getElem j.2]
  simpa using hij

theorem nodup_faceMap {t : ElType} {n : Nat} {F : Face} {f : Nat → Nat} (h : ∀ i j, i < n ^ t.dim → j < n ^ t.dim → f i = f j → i = j) :
    ((faceInds t n F).map f).Nodup := by
  refine List.Nodup.map_on ?_ ((faceInds_strict t n F).imp Nat.ne_of_lt)
  intro i hi j hj
  exact h i j (mem_faceInds.1 hi).1 (mem_faceInds.1 hj).1

/-- What C34 says about the new nodes, with the geometry. -/
structure Numbered (n : Nat) (loc : Loc P D) (nOld N : Nat) (els : List (El D)) (ν : Nat → List Nat) : Prop where
  len : ∀ e ∈ els, (ν e.id).length = n ^ e.ty.dim
  corner : ∀ e ∈ els, ∀ k, k < 2 ^ e.ty.dim → (ν e.id).getD (corner n k) 0 = e.nodes.getD k 0
  iff : ∀ e ∈ els, ∀ e' ∈ els, ∀ i j, i < n ^ e.ty.dim → j < n ^ e'.ty.dim →
    ((ν e.id).getD i 0 = (ν e'.id).getD j 0 ↔ pos n loc e i = pos n loc e' j)

variable {loc : Loc P D} {close : P → P → Bool} {adj : Nat → List Nat} {nOld N : Nat} {els : List (El D)}

theorem nodes_inj (G : Geo n loc close adj nOld els) {e : El D} (he : e ∈ els) {i j : Nat} (hi : i < 2 ^ e.ty.dim) (hj : j < 2 ^ e.ty.dim)
    (h : e.nodes.getD i 0 = e.nodes.getD j 0) : i = j := (G.wf e he).inj hi hj h

theorem new_inj (G : Geo n loc close adj nOld els) (I : Numbered n loc nOld N els ν) {e : El D} (he : e ∈ els) {i j : Nat} (hi : i < n ^ e.ty.dim) (hj : j < n ^ e.ty.dim)
    (h : (ν e.id).getD i 0 = (ν e.id).getD j 0) : i = j := G.inj e he i j hi hj ((I.iff e he e he i j hi hj).1 h)

/-- A side of the converted element having the nodes of a converted boundary element was a side having its nodes before. -/
theorem side_down (G : Geo n loc close adj nOld els) (I : Numbered n loc nOld N els ν) {e x : El D} (he : e ∈ els) (hx : x ∈ els) {s : Nat} {l : List Nat}
    (hl : sideNodes (elemOf n (relab ν e)) s = some l) (hp : l.Perm (ν x.id)) :
    ∃ l', sideNodes (elemOf 2 e) s = some l' ∧ l'.Perm x.nodes := by
  have hn := G.two
  have h2 : ∀ t : ElType, 2 ^ t.dim < 2 ^ 16 := by intro t; cases t <;> decide
  obtain ⟨hs, rfl⟩ := (sideNodes_face hn (G.bound e he)).1 hl
  refine ⟨_, (sideNodes_face le_rfl (h2 e.ty)).2 ⟨hs, rfl⟩, ?_⟩
  have hF := sideFace_mem hs
  rw [List.perm_ext_iff_of_nodup (nodup_faceMap fun i j hi hj => nodes_inj G he hi hj) (G.wf x hx).nodup]
  intro v
  rw [mem_getD (G.wf x hx).len]
  simp only [List.mem_map, mem_faceInds, elemOf]
  have hcl := fun (e : El D) (k : Nat) (hk : k < 2 ^ e.ty.dim) => corner_lt e.ty n k (by omega) hk
  constructor
  · rintro ⟨k, ⟨hk, ok⟩, rfl⟩
    have hm : e.nodes.getD k 0 ∈ ν x.id := by
      rw [← hp.mem_iff, List.mem_map]
      exact ⟨corner n k, mem_faceInds.2 ⟨hcl e k hk, by rw [onFace_corner hF hn]; exact ok⟩, I.corner e he k hk⟩
    obtain ⟨j, hj, hv⟩ := (mem_getD (I.len x hx)).1 hm
    rw [← I.corner e he k hk] at hv
    obtain ⟨l, hl, _, h⟩ := G.vcorner e he x hx k j hk hj ((I.iff e he x hx _ _ (hcl e k hk) hj).1 hv.symm)
    exact ⟨l, hl, h.symm⟩
  · rintro ⟨k, hk, rfl⟩
    have hm : x.nodes.getD k 0 ∈ ν x.id := (mem_getD (I.len x hx)).2 ⟨corner n k, hcl x k hk, I.corner x hx k hk⟩
    rw [← hp.mem_iff, List.mem_map] at hm
    obtain ⟨i, hi, hv⟩ := hm
    obtain ⟨hi, oi⟩ := mem_faceInds.1 hi
    rw [← I.corner x hx k hk] at hv
    obtain ⟨l, hl, rfl, h⟩ := G.vcorner x hx e he k i hk hi ((I.iff x hx e he _ _ (hcl x k hk) hi).1 hv.symm)
    exact ⟨l, ⟨hl, by rw [← onFace_corner hF hn]; exact oi⟩, h.symm⟩

/-- The face that is the whole element. -/
theorem whole_face (t : ElType) : List.replicate t.dim none ∈ allFaces t ∧ free (List.replicate t.dim none) = t.dim ∧
    ∀ F ∈ allFaces t, free F ≤ t.dim := by cases t <;> decide

theorem onFace_whole (t : ElType) (n i : Nat) : onFace n (List.replicate t.dim none) i = true := by
  cases t <;> simp [onFace, ElType.dim, List.replicate, List.zipIdx, coordOk]

/-- A face of one dimension less is a side. -/
theorem face_side (t : ElType) : 2 ≤ t.dim → ∀ F ∈ allFaces t, free F = t.dim - 1 → ∃ s ∈ List.range (Elem.nSides t), F = sideFace t s := by
  cases t <;> decide

/-- A side having the nodes of a boundary element has them after the conversion. -/
theorem side_up (G : Geo n loc close adj nOld els) (I : Numbered n loc nOld N els ν) {e x : El D} (he : e ∈ els) (hx : x ∈ els)
    (hd : e.ty.dim = x.ty.dim + 1) {s : Nat} {l : List Nat}
    (hl : sideNodes (elemOf 2 e) s = some l) (hp : l.Perm x.nodes) :
    ∃ s' l', sideNodes (elemOf n (relab ν e)) s' = some l' ∧ l'.Perm (ν x.id) := by
  have hn := G.two
  have h2 : ∀ t : ElType, 2 ^ t.dim < 2 ^ 16 := by intro t; cases t <;> decide
  obtain ⟨hs, rfl⟩ := (sideNodes_face le_rfl (h2 e.ty)).1 hl
  have hid : e.id ≠ x.id := by
    intro h
    have := List.inj_on_of_nodup_map G.ids he hx h
    rw [this] at hd; omega
  have hsh : ∀ k, k < 2 ^ x.ty.dim → ∃ i, i < 2 ^ e.ty.dim ∧ e.nodes.getD i 0 = x.nodes.getD k 0 := by
    intro k hk
    have hm : x.nodes.getD k 0 ∈ x.nodes := (mem_getD (G.wf x hx).len).2 ⟨k, hk, rfl⟩
    rw [← hp.mem_iff, List.mem_map] at hm
    obtain ⟨i, hi, h⟩ := hm
    exact ⟨i, (mem_faceInds.1 hi).1, h⟩
  have hx1 : 1 ≤ x.ty.dim := by cases x.ty <;> decide
  obtain ⟨w1, w2, w3⟩ := whole_face x.ty
  rcases G.conform e he x hx hid with ⟨hno, _⟩ | ⟨F1, F2, V, _, o12, s12⟩
  · obtain ⟨i, hi, h⟩ := hsh 0 (by positivity)
    exact absurd h (hno i 0 hi (by positivity))
  rcases G.conform x hx e he (Ne.symm hid) with ⟨hno, _⟩ | ⟨E2, E1, V', _, o21, s21⟩
  · obtain ⟨i, hi, h⟩ := hsh 0 (by positivity)
    exact absurd h.symm (hno 0 i (by positivity) hi)
  have hF2 : F2 = List.replicate x.ty.dim none := by
    have := face_le x.ty F2 V.mem2 _ w1 fun k hk _ => by
      obtain ⟨i, hi, h⟩ := hsh k (List.mem_range.1 hk)
      exact (V.only i k hi (List.mem_range.1 hk) h).2
    exact (this.2 (le_antisymm this.1 (by rw [w2]; exact w3 F2 V.mem2))).symm
  have hE2 : E2 = List.replicate x.ty.dim none := by
    have := face_le x.ty E2 V'.mem1 _ w1 fun k hk _ => by
      obtain ⟨i, hi, h⟩ := hsh k (List.mem_range.1 hk)
      exact (V'.only k i (List.mem_range.1 hk) hi h.symm).1
    exact (this.2 (le_antisymm this.1 (by rw [w2]; exact w3 E2 V'.mem1))).symm
  have hfr : free F1 = free E1 := by rw [V.dim, ← V'.dim, hF2, hE2]
  have hFE : F1 = E1 := by
    refine (face_le e.ty E1 V'.mem2 F1 V.mem1 fun k hk ok => ?_).2 hfr
    obtain ⟨i, hi, _, h⟩ := V.fwd k (List.mem_range.1 hk) ok
    exact (V'.only i k hi (List.mem_range.1 hk) h.symm).2
  obtain ⟨s', hs', hside⟩ := face_side e.ty (by omega) F1 V.mem1 (by rw [V.dim, hF2, w2, hd]; omega)
  rw [List.mem_range] at hs'
  refine ⟨s', _, (sideNodes_face hn (G.bound e he)).2 ⟨hs', rfl⟩, ?_⟩
  rw [← hside]
  have hnu : (ν x.id).Nodup := nodup_getD (I.len x hx) fun i j hi hj => new_inj G I hx hi hj
  change List.Perm ((faceInds e.ty n F1).map fun i => (ν e.id).getD i 0) (ν x.id)
  rw [List.perm_ext_iff_of_nodup (nodup_faceMap fun i j hi hj => new_inj G I he hi hj) hnu]
  intro v
  rw [mem_getD (I.len x hx)]
  simp only [List.mem_map, mem_faceInds]
  constructor
  · rintro ⟨i, ⟨hi, oi⟩, rfl⟩
    rw [hFE] at oi
    obtain ⟨j, hj, _, h⟩ := s21 i hi oi
    exact ⟨j, hj, (I.iff x hx e he j i hj hi).2 h⟩
  · rintro ⟨j, hj, rfl⟩
    obtain ⟨i, hi, oi, h⟩ := s12 j hj (by rw [hF2]; exact onFace_whole _ _ _)
    exact ⟨i, ⟨hi, oi⟩, (I.iff e he x hx i j hi hj).2 h⟩

/-! ## The mesh -/

theorem wf_relabel (W : Convert.WfMesh M) (ν : Nat → List Nat) : Convert.WfMesh (relabel ν M) := by
  have hg : ∀ (v : List (List (El D))) t, (v.map fun v => v.map (relab ν)).getD (tyIdx t) [] = (v.getD (tyIdx t) []).map (relab ν) := by
    intro v t
    rw [List.getD_eq_getElem?_getD, List.getD_eq_getElem?_getD, List.getElem?_map]
    cases v[tyIdx t]? <;> rfl
  refine ⟨sorted_relabel W.sorted, ?_, ?_, ?_, ?_⟩
  · intro d hd
    obtain ⟨d', hd', rfl⟩ := List.mem_map.1 hd
    simpa using W.len3 d' hd'
  · intro d hd t e he
    obtain ⟨d', hd', rfl⟩ := List.mem_map.1 hd
    rw [hg] at he
    obtain ⟨e', he', rfl⟩ := List.mem_map.1 he
    exact W.typed d' hd' t e' he'
  · intro d hd t
    obtain ⟨d', hd', rfl⟩ := List.mem_map.1 hd
    rw [hg]
    exact List.pairwise_map.2 (W.asc d' hd' t)
  · intro d hd e he
    obtain ⟨d', hd', rfl⟩ := List.mem_map.1 hd
    simp only [← List.map_flatten] at he
    obtain ⟨e', he', rfl⟩ := List.mem_map.1 he
    exact W.dims d' hd' e' he'

theorem wf_toMesh (W : Convert.WfMesh M) (n : Nat) : Mesh.WfMesh (kindsOf n) (toMesh n M) := by
  refine ⟨by simp [kindsOf], sorted_toMesh W.sorted, fun k d hd => ?_⟩
  rw [lookup_toMesh, Option.map_eq_some_iff] at hd
  obtain ⟨d', hd', rfl⟩ := hd
  rw [mem_lookup W.sorted] at hd'
  have hlen := W.len3 _ hd'
  have hty := W.typed _ hd'
  simp only at hlen hty
  refine ⟨by simpa [kindsOf] using hlen, ?_, ?_⟩
  · intro i hi e he
    simp only [List.length_map] at hi
    simp only [List.getElem_map] at he
    obtain ⟨e', he', rfl⟩ := List.mem_map.1 he
    have key : ∀ t, tyIdx t = i → e'.ty = t := by
      rintro t rfl
      refine hty t e' ?_
      rwa [List.getD_eq_getElem?_getD, List.getElem?_eq_getElem hi]
    rw [hlen] at hi
    interval_cases i
    · simp [Element.kind, elemOf, kindsOf, key .hex rfl]
    · simp [Element.kind, elemOf, kindsOf, key .quad rfl]
    · simp [Element.kind, elemOf, kindsOf, key .line rfl]
  · intro e he
    rw [Domain.elems, ← List.map_flatten] at he
    obtain ⟨e', he', rfl⟩ := List.mem_map.1 he
    exact W.dims _ hd' e' he'

theorem isParent_toMesh (W : Convert.WfMesh M) {x y : Element} {s : Nat} : IsParent (toMesh n M) x y s ↔
    ∃ q ∈ visit M, y = elemOf n q.2 ∧ q.2.ty.dim = x.ty.dim + 1 ∧ ∃ l, sideNodes y s = some l ∧ l.Perm x.nodes := by
  constructor
  · rintro ⟨⟨d, hd, hdim, v, hv, hy⟩, hs⟩
    obtain ⟨d', hd', rfl⟩ := List.mem_map.1 hd
    obtain ⟨v', hv', rfl⟩ := List.mem_map.1 hv
    obtain ⟨e, he, rfl⟩ := List.mem_map.1 hy
    have hef := List.mem_flatten.2 ⟨v', hv', he⟩
    refine ⟨(d'.1, e), mem_visit.2 ⟨d'.2, hd', hef⟩, rfl, ?_, hs⟩
    have := W.dims d' hd' e hef
    simp only [this, Option.some.injEq] at hdim
    exact hdim
  · rintro ⟨⟨k, e⟩, hq, rfl, hdim, hs⟩
    obtain ⟨d, hd, he⟩ := mem_visit.1 hq
    obtain ⟨v, hv, he'⟩ := List.mem_flatten.1 he
    refine ⟨⟨_, List.mem_map.2 ⟨_, hd, rfl⟩, ?_, _, List.mem_map.2 ⟨v, hv, rfl⟩, List.mem_map.2 ⟨e, he', rfl⟩⟩, hs⟩
    have := W.dims _ hd e he
    simp only at this hdim ⊢
    rw [this, hdim]

theorem tagged_toMesh (hs : OMap.Sorted M) : Split.tagged (toMesh n M) ((toMesh n M).map (·.1)) = (visit M).map fun q => (q.1, elemOf n q.2) := by
  rw [keys_toMesh]
  unfold Split.tagged visit
  rw [List.flatMap_map, List.map_flatMap]
  refine List.flatMap_congr fun d hd => ?_
  rw [Split.visitIds_single, lookup_toMesh, (mem_lookup hs).2 hd]
  simp only [Option.map_some, Option.getD_some, Domain.elems, ← List.map_flatten, List.map_map]
  rfl

/-- The converted mesh is ready if the original one was. -/
theorem ready_relabel (W : Convert.WfMesh M) (G : Geo n loc close adj nOld ((visit M).map (·.2))) (I : Numbered n loc nOld N ((visit M).map (·.2)) ν)
    (hle : nOld ≤ N) (hlt : ∀ q ∈ visit M, ∀ v ∈ ν q.2.id, v < N) (hused : ∀ v, nOld ≤ v → v < N → ∃ q ∈ visit M, v ∈ ν q.2.id)
    {bnds : List Nat} {dim : Nat} (R : Ready 2 (toMesh 2 M) bnds dim nOld) : Ready n (toMesh n (relabel ν M)) bnds dim N := by
  have hm : ∀ q ∈ visit M, q.2 ∈ (visit M).map (·.2) := fun q hq => List.mem_map.2 ⟨q, hq, rfl⟩
  have W' := wf_relabel W ν
  have hin : ∀ {k y}, InDom (toMesh n (relabel ν M)) k y ↔ ∃ e, (k, e) ∈ visit M ∧ y = elemOf n (relab ν e) := by
    intro k y
    rw [inDom_toMesh W'.sorted, visit_relabel]
    simp only [List.mem_map, Prod.mk.injEq, Prod.exists]
    constructor
    · rintro ⟨_, ⟨a, b, h, rfl, rfl⟩, rfl⟩; exact ⟨b, h, rfl⟩
    · rintro ⟨e, h, rfl⟩; exact ⟨_, ⟨k, e, h, rfl, rfl⟩, rfl⟩
  have hho : ∀ {y}, Holds (toMesh n (relabel ν M)) y ↔ ∃ q ∈ visit M, y = elemOf n (relab ν q.2) := by
    intro y
    rw [holds_toMesh, visit_relabel]
    simp
  have hpar : ∀ {x y s}, IsParent (toMesh n (relabel ν M)) x y s ↔
      ∃ q ∈ visit M, y = elemOf n (relab ν q.2) ∧ q.2.ty.dim = x.ty.dim + 1 ∧ ∃ l, sideNodes y s = some l ∧ l.Perm x.nodes := by
    intro x y s
    rw [isParent_toMesh W', visit_relabel]
    simp [relab]
  -- a parent after the conversion was one before
  have hdown : ∀ {q p : Nat × El D} {s}, q ∈ visit M → p ∈ visit M → (∃ l, sideNodes (elemOf n (relab ν q.2)) s = some l ∧ l.Perm (ν p.2.id)) →
      q.2.ty.dim = p.2.ty.dim + 1 → IsParent (toMesh 2 M) (elemOf 2 p.2) (elemOf 2 q.2) s := by
    rintro q p s hq hp ⟨l, hl, hpe⟩ hd
    exact (isParent_toMesh W).2 ⟨q, hq, rfl, hd, side_down G I (hm q hq) (hm p hp) hl hpe⟩
  have hlook : ∀ b, (toMesh n (relabel ν M)).lookup b = (M.lookup b).map fun d => ⟨d.dim, d.vecs.map fun v => v.map fun e => elemOf n (relab ν e)⟩ := by
    intro b
    by_cases h : ∃ d, M.lookup b = some d
    · obtain ⟨d, hd⟩ := h
      have h1 : (b, (⟨d.dim, d.vecs.map fun v => v.map (relab ν)⟩ : Convert.Dom D)) ∈ relabel ν M := List.mem_map.2 ⟨_, (mem_lookup W.sorted).1 hd, rfl⟩
      rw [lookup_toMesh, (mem_lookup W'.sorted).2 h1, hd]
      simp [Function.comp_def]
    · have h0 : M.lookup b = none := by
        cases hc : M.lookup b with
        | none => rfl
        | some d => exact absurd ⟨d, hc⟩ h
      rw [lookup_toMesh, h0]
      cases hc : (relabel ν M).lookup b with
      | none => rfl
      | some d =>
        obtain ⟨d', hd', hh⟩ := List.mem_map.1 ((mem_lookup W'.sorted).1 hc)
        simp only [Prod.mk.injEq] at hh
        have := (mem_lookup W.sorted (k := b) (d := d'.2)).2 (by rw [← hh.1]; exact hd')
        rw [this] at h0
        cases h0
  -- boundary elements
  have hbnd : ∀ {b y}, b ∈ bnds → InDom (toMesh n (relabel ν M)) b y → ∃ x, (b, x) ∈ visit M ∧ y = elemOf n (relab ν x) ∧ InDom (toMesh 2 M) b (elemOf 2 x) := by
    intro b y _ hy
    obtain ⟨x, hx, rfl⟩ := hin.1 hy
    exact ⟨x, hx, rfl, (inDom_toMesh W.sorted).2 ⟨x, hx, rfl⟩⟩
  -- a parent before the conversion gives one after it
  have hup : ∀ {p : Nat × El D} {y s}, p ∈ visit M → IsParent (toMesh 2 M) (elemOf 2 p.2) y s →
      ∃ q ∈ visit M, y = elemOf 2 q.2 ∧ q.2.ty.dim = p.2.ty.dim + 1 ∧ ∃ s' l, sideNodes (elemOf n (relab ν q.2)) s' = some l ∧ l.Perm (ν p.2.id) := by
    intro p y s hp h
    obtain ⟨q, hq, rfl, hd, l, hl, hpe⟩ := (isParent_toMesh W).1 h
    exact ⟨q, hq, rfl, hd, side_up G I (hm q hq) (hm p hp) hd hl hpe⟩
  refine ⟨⟨wf_toMesh W' n, ?_, ?_, R.ok.bndSorted, ?_, ?_⟩, ?_, ?_, ?_⟩
  · intro y hy
    obtain ⟨q, hq, rfl⟩ := hho.1 hy
    have h2 := G.two
    exact ⟨by simp only [elemOf]; omega, G.bound q.2 (hm q hq), I.len q.2 (hm q hq)⟩
  · rw [tagged_toMesh W'.sorted, visit_relabel, List.map_map, List.map_map]
    have := G.ids
    rwa [List.map_map] at this
  · intro b hb
    obtain ⟨d, hd, hdim, hne⟩ := R.ok.bnd b hb
    rw [lookup_toMesh, Option.map_eq_some_iff] at hd
    obtain ⟨d', hd', rfl⟩ := hd
    refine ⟨⟨d'.dim, d'.vecs.map fun v => v.map fun e => elemOf n (relab ν e)⟩, by rw [hlook, hd']; rfl, hdim, ?_⟩
    intro h
    refine hne ?_
    rw [Domain.elems, ← List.map_flatten] at h ⊢
    rw [List.map_eq_nil_iff] at h ⊢
    exact h
  · intro b hb d hd y hy
    obtain ⟨x, hx, rfl, hx2⟩ := hbnd hb ⟨d, hd, hy⟩
    obtain ⟨d2, hd2, hx2⟩ := hx2
    obtain ⟨e, s, h⟩ := R.ok.parent b hb d2 hd2 _ hx2
    obtain ⟨q, hq, _, hdim, s', l, hl, hpe⟩ := hup (p := (b, x)) hx h
    exact ⟨_, s', hpar.2 ⟨q, hq, rfl, hdim, l, hl, hpe⟩⟩
  · intro b hb y hy
    obtain ⟨x, hx, rfl, hx2⟩ := hbnd hb hy
    obtain ⟨k, ⟨e, he⟩, hu⟩ := R.one b hb _ hx2
    obtain ⟨⟨⟨d, hd, hed⟩, hdim, s, l, hl, hpe⟩⟩ := And.intro he trivial
    have hk : InDom (toMesh 2 M) k e := ⟨d, hd, hed⟩
    obtain ⟨q, hq, rfl⟩ := (inDom_toMesh W.sorted).1 hk
    obtain ⟨s', l', hl', hpe'⟩ := side_up G I (hm _ hq) (hm _ hx) hdim hl hpe
    refine ⟨k, ⟨_, hin.2 ⟨q, hq, rfl⟩, hdim, s', l', hl', hpe'⟩, ?_⟩
    rintro k' ⟨e', he', hdim', s'', l'', hl'', hpe''⟩
    obtain ⟨q', hq', rfl⟩ := hin.1 he'
    obtain ⟨l3, hl3, hpe3⟩ := side_down G I (hm _ hq') (hm _ hx) hl'' hpe''
    exact hu k' ⟨_, (inDom_toMesh W.sorted).2 ⟨q', hq', rfl⟩, hdim', s'', l3, hl3, hpe3⟩
  · intro b hb y hy e s e' s' h h'
    obtain ⟨x, hx, rfl, hx2⟩ := hbnd hb hy
    obtain ⟨q, hq, rfl, hd, hl⟩ := hpar.1 h
    obtain ⟨q', hq', rfl, hd', hl'⟩ := hpar.1 h'
    obtain ⟨h1, h2⟩ := R.uni b hb _ hx2 _ _ _ _ (hdown (p := (b, x)) hq hx hl hd) (hdown (p := (b, x)) hq' hx hl' hd')
    have hid : q.2.id = q'.2.id := congrArg Element.id h1
    have hqq : q.2 = q'.2 := List.inj_on_of_nodup_map G.ids (hm q hq) (hm q' hq') hid
    exact ⟨by rw [hqq], h2⟩
  · intro v
    constructor
    · rintro ⟨y, hy, hv⟩
      obtain ⟨q, hq, rfl⟩ := hho.1 hy
      exact hlt q hq v hv
    · intro hv
      by_cases h : nOld ≤ v
      · obtain ⟨q, hq, hq'⟩ := hused v h hv
        exact ⟨_, hho.2 ⟨q, hq, rfl⟩, hq'⟩
      · obtain ⟨y, hy, hvy⟩ := (R.nodes v).2 (by omega)
        obtain ⟨q, hq, rfl⟩ := holds_toMesh.1 hy
        refine ⟨_, hho.2 ⟨q, hq, rfl⟩, ?_⟩
        obtain ⟨k, hk, rfl⟩ := (mem_getD (G.wf _ (hm q hq)).len).1 hvy
        exact (mem_getD (I.len _ (hm q hq))).2 ⟨_, corner_lt q.2.ty n k (by have := G.two; omega) hk, I.corner _ (hm q hq) k hk⟩

end
end Verif.Gen
