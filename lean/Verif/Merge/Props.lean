import Verif.Merge.Copy
import Verif.Partition.Props

/-! # Property C31: merging two meshes -/
namespace Verif.Merge
open Verif Verif.Elem Verif.Mesh Verif.Split Verif.Partition

/-! ## Faces -/

theorem mapM_val {α β : Type} {f : α → Option β} : ∀ {l : List α} {r : List β}, l.mapM f = some r → ∀ a ∈ l, ∃ b, f a = some b := by
  intro l
  induction l with
  | nil => intro r _ a ha; simp at ha
  | cons x l ih =>
    intro r h a ha
    rw [List.mapM_cons] at h
    cases hx : f x with
    | none => rw [hx] at h; simp at h
    | some y =>
      rw [hx] at h
      cases hl : l.mapM f with
      | none => rw [hl] at h; simp at h
      | some ys =>
        rcases List.mem_cons.1 ha with rfl | ha
        · exact ⟨y, hx⟩
        · exact ih hl a ha

theorem views_isSome {kinds : List (ElType × Nat)} {mesh : Part} {D : Nat} (h : Ok kinds mesh D) {b : Nat} (hb : b ∈ mesh.bnds.map (·.1)) {x : Element}
    (hx : x ∈ els mesh.doms b) : ∃ v, viewOf mesh.doms x = some v := by
  obtain ⟨ord, hord, hv⟩ := h.views
  unfold initViews at hv
  obtain ⟨d, hd, hxd⟩ := mem_els.1 hx
  obtain ⟨bv, h1⟩ := mapM_val hv b hb
  rw [Option.map_eq_some_iff] at h1
  obtain ⟨l, hl, _⟩ := h1
  unfold boundaryViews at hl
  rw [hd] at hl
  simp only at hl
  split at hl
  · simp at hl
  · exact mapM_val hl x ((hord _ _).mem_iff.2 hxd)

/-- The face set of a mesh holds exactly the sorted node lists of its boundary elements. -/
theorem mem_faceSet {kinds : List (ElType × Nat)} {mesh : Part} {D : Nat} (h : Ok kinds mesh D) {f : List Nat} :
    f ∈ faceSet mesh ↔ ∃ b ∈ mesh.bnds.map (·.1), ∃ x ∈ els mesh.doms b, Std.sort x.nodes = f := by
  unfold faceSet
  rw [List.mem_map]
  constructor
  · rintro ⟨v, hv, rfl⟩
    obtain ⟨k, hk, d, hd, b, hb, hvb⟩ := (mem_views h).1 hv
    exact ⟨k, hk, b, by rw [els_some hd]; exact hb, (sortedSide_eq h.wf hvb).symm⟩
  · rintro ⟨b, hb, x, hx, rfl⟩
    obtain ⟨v, hv⟩ := views_isSome h hb hx
    obtain ⟨d, hd, hxd⟩ := mem_els.1 hx
    exact ⟨v, (mem_views h).2 ⟨b, hb, d, hd, x, hxd, hv⟩, sortedSide_eq h.wf hv⟩

/-- The face of the second mesh's boundary element `x2` is, after matching, that of `x1`. -/
def Glued (φ : Algo.AMap Nat Nat) (ν : Nat → Nat) (x1 x2 : Element) : Prop :=
  (∀ y ∈ x2.nodes, φ.find y ≠ none) ∧ (x2.nodes.map ν).Perm x1.nodes

theorem newNodeId_matched {φ : Algo.AMap Nat Nat} {N x y : Nat} (h : φ.find x = some y) : newNodeId φ N x = y := by
  unfold newNodeId; rw [h]

theorem checkFace_some {ex : List (List Nat)} {φ : Algo.AMap Nat Nat} (N : Nat) {face : List Nat} {r : List Nat × List Nat} :
    checkFace ex φ face = some r ↔ (∀ y ∈ face, φ.find y ≠ none) ∧ Std.sort (face.map (newNodeId φ N)) ∈ ex ∧ r = (Std.sort (face.map (newNodeId φ N)), face) := by
  unfold checkFace
  by_cases hall : ∀ y ∈ face, φ.find y ≠ none
  · have hm : (face.mapM fun x => φ.find x) = some (face.map (newNodeId φ N)) := mapM_map fun y hy => by
      cases hf : φ.find y with
      | none => exact absurd hf (hall y hy)
      | some z => rw [newNodeId_matched hf]
    rw [hm, Option.bind_some]
    by_cases hin : Std.sort (face.map (newNodeId φ N)) ∈ ex
    · rw [if_pos hin, Option.some.injEq]
      exact ⟨fun h => ⟨hall, hin, h.symm⟩, fun h => h.2.2.symm⟩
    · rw [if_neg hin]; simp [hin]
  · have hm : (face.mapM fun x => φ.find x) = none := by
      cases hf : face.mapM fun x => φ.find x with
      | none => rfl
      | some g =>
        exfalso; apply hall
        intro y hy
        obtain ⟨z, hz⟩ := mapM_val hf y hy
        rw [hz]; simp
    rw [hm]; simp [hall]

theorem sort_eq_iff {a b : List Nat} : Std.sort a = Std.sort b ↔ a.Perm b :=
  ⟨fun h => (Std.sort_perm a).symm.trans (h ▸ Std.sort_perm b), Std.sort_congr⟩

section Faces
variable {kinds : List (ElType × Nat)} {mesh1 mesh2 : Part} {D1 D2 : Nat} (h1 : Ok kinds mesh1 D1) (h2 : Ok kinds mesh2 D2) (φ : Algo.AMap Nat Nat) (N : Nat)
include h1 h2

theorem deleted1 (x1 : Element) (b : Nat) (hb : b ∈ mesh1.bnds.map (·.1)) (hx : x1 ∈ els mesh1.doms b) :
    isDeleted (facesToDelete (faceSet mesh1) (faceSet mesh2) φ).1 x1 = true ↔
      ∃ b2 ∈ mesh2.bnds.map (·.1), ∃ x2 ∈ els mesh2.doms b2, Glued φ (newNodeId φ N) x1 x2 := by
  unfold isDeleted facesToDelete
  simp only [decide_eq_true_eq, List.mem_map (f := fun x : List Nat × List Nat => x.1), List.mem_filterMap, checkFace_some N]
  constructor
  · rintro ⟨r, ⟨f, hf, hall, _, rfl⟩, heq⟩
    obtain ⟨b2, hb2, x2, hx2, rfl⟩ := (mem_faceSet h2).1 hf
    refine ⟨b2, hb2, x2, hx2, fun y hy => hall y (Std.mem_sort.2 hy), ?_⟩
    exact ((Std.sort_perm x2.nodes).symm.map _).trans (sort_eq_iff.1 heq)
  · rintro ⟨b2, hb2, x2, hx2, hall, hp⟩
    have hp' : ((Std.sort x2.nodes).map (newNodeId φ N)).Perm x1.nodes := ((Std.sort_perm x2.nodes).map _).trans hp
    refine ⟨_, ⟨Std.sort x2.nodes, (mem_faceSet h2).2 ⟨b2, hb2, x2, hx2, rfl⟩, fun y hy => hall y (Std.mem_sort.1 hy), ?_, rfl⟩, Std.sort_congr hp'⟩
    rw [Std.sort_congr hp']
    exact (mem_faceSet h1).2 ⟨b, hb, x1, hx, rfl⟩

theorem deleted2 (x2 : Element) (b : Nat) (hb : b ∈ mesh2.bnds.map (·.1)) (hx : x2 ∈ els mesh2.doms b) :
    isDeleted (facesToDelete (faceSet mesh1) (faceSet mesh2) φ).2 x2 = true ↔
      ∃ b1 ∈ mesh1.bnds.map (·.1), ∃ x1 ∈ els mesh1.doms b1, Glued φ (newNodeId φ N) x1 x2 := by
  unfold isDeleted facesToDelete
  simp only [decide_eq_true_eq, List.mem_map (f := fun x : List Nat × List Nat => x.2), List.mem_filterMap, checkFace_some N]
  have hperm : ∀ {x1 : Element}, Std.sort ((Std.sort x2.nodes).map (newNodeId φ N)) = Std.sort x1.nodes ↔ (x2.nodes.map (newNodeId φ N)).Perm x1.nodes := by
    intro x1
    rw [sort_eq_iff]
    have := (Std.sort_perm x2.nodes).map (newNodeId φ N)
    exact ⟨fun h => this.symm.trans h, fun h => this.trans h⟩
  constructor
  · rintro ⟨r, ⟨f, hf, hall, hin, rfl⟩, heq⟩
    simp only at heq
    subst heq
    obtain ⟨b1, hb1, x1, hx1, he⟩ := (mem_faceSet h1).1 hin
    exact ⟨b1, hb1, x1, hx1, fun y hy => hall y (Std.mem_sort.2 hy), hperm.1 he.symm⟩
  · rintro ⟨b1, hb1, x1, hx1, hall, hp⟩
    refine ⟨_, ⟨Std.sort x2.nodes, (mem_faceSet h2).2 ⟨b, hb, x2, hx, rfl⟩, fun y hy => hall y (Std.mem_sort.1 hy), ?_, rfl⟩, rfl⟩
    exact (mem_faceSet h1).2 ⟨b1, hb1, x1, hx1, (hperm.2 hp).symm⟩

end Faces

/-! ## Final ids -/

theorem lookup_fixIds (del : List Nat) (m : DomMap) (k : Nat) : (fixIds del m).lookup k = (m.lookup k).map fun d =>
    ⟨d.dim, d.vecs.map fun v => (v.map fun e => { e with id := updatedId del e.id }).insertionSort fun a b => a.id ≤ b.id⟩ := by
  unfold fixIds
  induction m with
  | nil => rfl
  | cons a m ih =>
    rw [List.map_cons, List.lookup_cons, List.lookup_cons, ih]
    cases k == a.1 <;> rfl

theorem keys_fixIds (del : List Nat) (m : DomMap) : (fixIds del m).map (·.1) = m.map (·.1) := by
  unfold fixIds; rw [List.map_map]; rfl

/-- The element with a new id. -/
def withId (f : Nat → Nat) (e : Element) : Element := { e with id := f e.id }

theorem els_fixIds (del : List Nat) (m : DomMap) (k : Nat) : (els (fixIds del m) k).Perm ((els m k).map (withId (updatedId del))) := by
  unfold els
  rw [visitIds_single, visitIds_single, lookup_fixIds]
  cases m.lookup k with
  | none => simp
  | some d =>
    simp only [Option.map_some, Option.getD_some, Domain.elems]
    rw [List.map_flatten]
    induction d.vecs with
    | nil => simp
    | cons v vs ih =>
      simp only [List.map_cons, List.flatten_cons]
      exact (List.perm_insertionSort _ _).append ih

/-- What `merge` needs to know about a mesh: as built by the library, element ids below the number of elements, nodes
`0 … N-1`. -/
structure MeshIn (kinds : List (ElType × Nat)) (mesh : Part) (D N : Nat) : Prop where
  ok : Ok kinds mesh D
  ids : ∀ k, ∀ e ∈ els mesh.doms k, e.id < (visitAll mesh.doms).length
  wfEl : ∀ k, ∀ e ∈ els mesh.doms k, WfElement e
  nodes : ∀ x, NodeIn mesh.doms x ↔ x < N

/-- A usable result of the node matching: distinct keys, all ids in range. -/
structure Matching (φ : Algo.AMap Nat Nat) (N1 N2 : Nat) : Prop where
  keys : (φ.map (·.1)).Nodup
  src : ∀ x ∈ φ.map (·.1), x < N2
  dst : ∀ x y, φ.find x = some y → y < N1

theorem find_none {φ : Algo.AMap Nat Nat} {x : Nat} : φ.find x = none ↔ x ∉ φ.map (·.1) := by
  unfold Algo.AMap.find
  rw [← OMap.lookup_isSome_iff]
  cases φ.lookup x <;> simp

theorem newNodeId_bij {φ : Algo.AMap Nat Nat} {N1 N2 : Nat} (h : Matching φ N1 N2) :
    φ.length ≤ N2 ∧ Set.BijOn (newNodeId φ N1) {x | x < N2 ∧ φ.find x = none} (Set.Ico N1 (N1 + N2 - φ.length)) ∧
      StrictMonoOn (newNodeId φ N1) {x | x < N2 ∧ φ.find x = none} := by
  have hst : (Std.sort (φ.map (·.1))).Pairwise (· < ·) := Std.sort_strict h.keys
  have hlt : ∀ a ∈ Std.sort (φ.map (·.1)), a < N2 := fun a ha => h.src a (Std.mem_sort.1 ha)
  have hlen : (Std.sort (φ.map (·.1))).length = φ.length := by rw [Std.length_sort, List.length_map]
  have hle : φ.length ≤ N2 := by
    have := count_add_lowerBound hst N2
    rw [lowerBound_all hst hlt, hlen] at this; omega
  obtain ⟨hb, hm⟩ := compress_bijOn hst hlt
  rw [hlen] at hb
  have hset : {x | x < N2 ∧ x ∉ Std.sort (φ.map (·.1))} = {x | x < N2 ∧ φ.find x = none} := by
    ext x; simp only [Set.mem_setOf_eq, find_none, Std.mem_sort]
  rw [hset] at hb hm
  have heq : ∀ x ∈ {x | x < N2 ∧ φ.find x = none}, newNodeId φ N1 x = (x - Std.lowerBound (Std.sort (φ.map (·.1))) x) + N1 := by
    intro x hx
    have := count_add_lowerBound hst x
    unfold newNodeId
    rw [hx.2]
    simp only
    omega
  refine ⟨hle, ⟨fun x hx => ?_, fun x hx y hy hxy => ?_, fun j hj => ?_⟩, fun x hx y hy hxy => ?_⟩
  · have := hb.1 hx
    rw [heq x hx]
    simp only [Set.mem_Iio, Set.mem_Ico] at this ⊢
    omega
  · rw [heq x hx, heq y hy] at hxy
    exact hb.2.1 hx hy (by simpa using hxy)
  · simp only [Set.mem_Ico] at hj
    obtain ⟨x, hx, hxj⟩ := hb.2.2 (show j - N1 ∈ Set.Iio (N2 - φ.length) by simp only [Set.mem_Iio]; omega)
    refine ⟨x, hx, ?_⟩
    rw [heq x hx]
    simp only at hxj
    omega
  · rw [heq x hx, heq y hy]
    have := hm hx hy hxy
    simp only at this
    omega

theorem keepsKind_translate (φ : Algo.AMap Nat Nat) (a b : Nat) : KeepsKind (translate φ a b) := fun _ => ⟨rfl, rfl⟩

theorem id_unique {mesh : Part} {kinds : List (ElType × Nat)} {D : Nat} (h : Ok kinds mesh D) {k k' : Nat} {e e' : Element} (he : e ∈ els mesh.doms k)
    (he' : e' ∈ els mesh.doms k') (hid : e.id = e'.id) : k = k' ∧ e = e' := by
  have hm : ∀ k e, e ∈ els mesh.doms k → (k, e) ∈ tagged mesh.doms (mesh.doms.map (·.1)) := by
    intro k e he
    obtain ⟨d, hd, hed⟩ := mem_els.1 he
    exact mem_tagged.2 ⟨List.mem_map.2 ⟨_, mem_of_lookup hd, rfl⟩, d, hd, hed⟩
  have := List.inj_on_of_nodup_map h.ids (hm k e he) (hm k' e' he') hid
  simpa using this

theorem els_ids_nodup {mesh : Part} {kinds : List (ElType × Nat)} {D : Nat} (h : Ok kinds mesh D) (k : Nat) : ((els mesh.doms k).map (·.id)).Nodup := by
  by_cases hk : k ∈ mesh.doms.map (·.1)
  · refine List.Nodup.sublist ?_ h.ids
    have hs : (tagged mesh.doms ((mesh.doms.map (·.1)).filter (· == k))).Sublist (tagged mesh.doms (mesh.doms.map (·.1))) := by
      rw [tagged_filter]; exact List.filter_sublist
    have hf : (mesh.doms.map (·.1)).filter (· == k) = [k] := by
      refine Std.eq_of_mem_of_strict ((sorted_keys h.wf.sorted).filter _) (by simp) fun x => ?_
      rw [List.mem_filter]
      constructor
      · rintro ⟨_, hx⟩; simpa using hx
      · intro hx; rw [List.mem_singleton] at hx; subst hx; exact ⟨hk, by simp⟩
    rw [hf] at hs
    have := hs.map (·.2.id)
    rwa [show (tagged mesh.doms [k]).map (·.2.id) = (els mesh.doms k).map (·.id) from by simp [tagged, els]] at this
  · have : els mesh.doms k = [] := by
      refine els_none ?_
      cases hl : mesh.doms.lookup k with
      | none => rfl
      | some d => exact absurd (List.mem_map.2 ⟨_, mem_of_lookup hl, rfl⟩) hk
    rw [this]; simp

theorem tagged_ids_nodup {m : DomMap} (hk : KeysNodup m) (h1 : ∀ k, ((els m k).map (·.id)).Nodup)
    (h2 : ∀ k k' e e', e ∈ els m k → e' ∈ els m k' → e.id = e'.id → k = k') : ((tagged m (m.map (·.1))).map (·.2.id)).Nodup := by
  unfold tagged
  rw [List.map_flatMap, List.Nodup, List.pairwise_flatMap]
  refine ⟨fun k _ => ?_, ?_⟩
  · rw [List.map_map]; exact h1 k
  · refine List.Pairwise.imp ?_ hk
    intro k k' hne x hx y hy hxy
    simp only [List.map_map, List.mem_map, Function.comp] at hx hy
    obtain ⟨e, he, rfl⟩ := hx
    obtain ⟨e', he', rfl⟩ := hy
    exact hne (h2 k k' e e' he he' hxy)

/-- Element ids of the two meshes, as numbered one after the other, that remain in the merged mesh. -/
def Survivor (mesh1 mesh2 : Part) (Gone1 Gone2 : Nat → Element → Prop) (i : Nat) : Prop :=
  (∃ k, ∃ e ∈ els mesh1.doms k, ¬ Gone1 k e ∧ e.id = i) ∨
  (∃ k, ∃ e ∈ els mesh2.doms k, ¬ Gone2 k e ∧ e.id + (visitAll mesh1.doms).length = i)

theorem visitAll_tagged (m : DomMap) : visitAll m = (tagged m (m.map (·.1))).map (·.2) := visitIds_tagged _ _

theorem perm_range_of {l : List Nat} {n : Nat} (hn : l.Nodup) (h : ∀ i, i ∈ l ↔ i < n) : l.Perm (List.range n) :=
  (List.perm_ext_iff_of_nodup hn List.nodup_range).2 fun i => by rw [h, List.mem_range]

theorem ids_surj {kinds : List (ElType × Nat)} {mesh : Part} {D N : Nat} (h : MeshIn kinds mesh D N) :
    ∀ i, (∃ k, ∃ e ∈ els mesh.doms k, e.id = i) ↔ i < (visitAll mesh.doms).length := by
  have hlen : (visitAll mesh.doms).length = ((tagged mesh.doms (mesh.doms.map (·.1))).map (·.2.id)).length := by
    rw [visitAll_tagged, List.length_map, List.length_map]
  have hin : ∀ i ∈ (tagged mesh.doms (mesh.doms.map (·.1))).map (·.2.id), ∃ k, ∃ e ∈ els mesh.doms k, e.id = i := by
    intro i hi
    obtain ⟨⟨k, e⟩, hke, rfl⟩ := List.mem_map.1 hi
    exact ⟨k, e, mem_els.2 (mem_tagged.1 hke).2, rfl⟩
  intro i
  constructor
  · rintro ⟨k, e, he, rfl⟩; exact h.ids k e he
  · intro hi
    apply hin
    have hsub : (tagged mesh.doms (mesh.doms.map (·.1))).map (·.2.id) ⊆ List.range (visitAll mesh.doms).length := by
      intro j hj
      obtain ⟨k, e, he, rfl⟩ := hin j hj
      exact List.mem_range.2 (h.ids k e he)
    have hp := (List.subperm_of_subset h.ok.ids hsub).perm_of_length_le (by rw [List.length_range, hlen])
    exact hp.mem_iff.2 (List.mem_range.2 hi)

theorem wf_fixIds {kinds : List (ElType × Nat)} {m : DomMap} (h : WfMesh kinds m) (del : List Nat) : WfMesh kinds (fixIds del m) := by
  refine ⟨h.nodup, List.pairwise_map.2 h.sorted, ?_⟩
  intro k d hd
  rw [lookup_fixIds, Option.map_eq_some_iff] at hd
  obtain ⟨d0, hd0, rfl⟩ := hd
  have w := h.dom k d0 hd0
  refine ⟨by simpa using w.len, ?_, ?_⟩
  · intro i hi e he
    simp only [List.length_map] at hi
    simp only [List.getElem_map, List.mem_insertionSort, List.mem_map] at he
    obtain ⟨e0, he0, rfl⟩ := he
    exact w.kind i hi e0 he0
  · intro e he
    obtain ⟨v, hv, hev⟩ := List.mem_flatten.1 he
    obtain ⟨v0, hv0, rfl⟩ := List.mem_map.1 hv
    simp only [List.mem_insertionSort, List.mem_map] at hev
    obtain ⟨e0, he0, rfl⟩ := hev
    exact w.dim e0 (List.mem_flatten.2 ⟨v0, hv0, he0⟩)

/-- C31 with the numbering of nodes spelled out. -/
theorem merge_spec {kinds : List (ElType × Nat)} {mesh1 mesh2 : Part} {D1 D2 N1 N2 : Nat} (h1 : MeshIn kinds mesh1 D1 N1) (h2 : MeshIn kinds mesh2 D2 N2)
    (hdim : ∀ k, ∀ a ∈ els mesh1.doms k, ∀ b ∈ els mesh2.doms k, a.ty.dim = b.ty.dim)
    (hrole : ∀ k ∈ mesh1.bnds.map (·.1), k ∈ mesh2.doms.map (·.1) → k ∈ mesh2.bnds.map (·.1))
    {φ : Algo.AMap Nat Nat} (hφ : Matching φ N1 N2) :
    ∃ doms N bnds ν ι, ∃ Gone1 Gone2 : Nat → Element → Prop, (ν = newNodeId φ N1 ∧ WfMesh kinds doms) ∧ merge kinds mesh1 mesh2 N1 N2 φ = some (doms, N, bnds) ∧ N + φ.length = N1 + N2 ∧ φ.length ≤ N2 ∧
      (∀ k x, Gone1 k x ↔ k ∈ mesh1.bnds.map (·.1) ∧ ∃ b2 ∈ mesh2.bnds.map (·.1), ∃ x2 ∈ els mesh2.doms b2, Glued φ ν x x2) ∧
      (∀ k x, Gone2 k x ↔ k ∈ mesh2.bnds.map (·.1) ∧ ∃ b1 ∈ mesh1.bnds.map (·.1), ∃ x1 ∈ els mesh1.doms b1, Glued φ ν x1 x) ∧
      (∀ x y, φ.find x = some y → ν x = y) ∧ Set.BijOn ν {x | x < N2 ∧ φ.find x = none} (Set.Ico N1 N) ∧ StrictMonoOn ν {x | x < N2 ∧ φ.find x = none} ∧
      (∀ x, NodeIn doms x ↔ x < N) ∧
      (∀ k e', e' ∈ els doms k ↔ (∃ e ∈ els mesh1.doms k, ¬ Gone1 k e ∧ e' = { e with id := ι e.id }) ∨
        (∃ e ∈ els mesh2.doms k, ¬ Gone2 k e ∧ e' = { e with id := ι (e.id + (visitAll mesh1.doms).length), nodes := e.nodes.map ν })) ∧
      StrictMonoOn ι {i | Survivor mesh1 mesh2 Gone1 Gone2 i} ∧ ((visitAll doms).map (·.id)).Perm (List.range (visitAll doms).length) ∧
      (∀ k d, doms.lookup k = some d → ∀ v ∈ d.vecs, (v.map (·.id)).Pairwise (· < ·)) ∧
      bnds.Pairwise (· < ·) ∧ ∀ b, b ∈ bnds ↔ (b ∈ mesh1.bnds.map (·.1) ∨ b ∈ mesh2.bnds.map (·.1)) ∧ els doms b ≠ [] := by
  set bnds1 := mesh1.bnds.map (·.1) with hb1
  set bnds2 := mesh2.bnds.map (·.1) with hb2
  set n1 := (visitAll mesh1.doms).length with hn1
  set n2 := (visitAll mesh2.doms).length with hn2
  set del := facesToDelete (faceSet mesh1) (faceSet mesh2) φ with hdel
  set ν := newNodeId φ N1 with hν
  set tr := translate φ N1 n1 with htr
  have hbn1 : bnds1.Nodup := Std.nodup_of_strict h1.ok.bndSorted
  have hbn2 : bnds2.Nodup := Std.nodup_of_strict h2.ok.bndSorted
  have hkk : KeepsKind (id : Element → Element) := fun _ => ⟨rfl, rfl⟩
  have hkt : KeepsKind tr := keepsKind_translate _ _ _
  obtain ⟨st1, a1, a2, a3, a4⟩ := copyElements_spec h1.ok.wf hbn1 hkk del.1 (inv_nil h1.ok.wf.nodup) (fun k a ha => by simp [els, visitIds, existing] at ha)
  have hels0 : ∀ k, els ([] : DomMap) k = [] := fun k => by simp [els, visitIds, existing]
  have hc1 : Compat st1 mesh2.doms := by
    intro k a ha b hb
    have := (a3 k).mem_iff.1 ha
    rw [hels0, List.nil_append] at this
    obtain ⟨a', ha', rfl⟩ := List.mem_map.1 this
    exact hdim k _ (List.mem_filter.1 ha').1 b hb
  obtain ⟨st2, b1, b2, b3, b4⟩ := copyElements_spec h2.ok.wf hbn2 hkt del.2 a2 hc1
  set L1 := Std.sort (bnds1.flatMap fun k => ((els mesh1.doms k).filter (isDeleted del.1)).map fun e => (id e).id) with hL1
  set L2 := Std.sort (bnds2.flatMap fun k => ((els mesh2.doms k).filter (isDeleted del.2)).map fun e => (tr e).id) with hL2
  set L := L1 ++ L2 with hL
  set ι := updatedId L with hι
  set doms := fixIds L st2 with hdoms
  -- deleted ids
  have hmL1 : ∀ i, i ∈ L1 ↔ ∃ k ∈ bnds1, ∃ e ∈ els mesh1.doms k, isDeleted del.1 e = true ∧ e.id = i := by
    intro i
    rw [hL1, Std.mem_sort, List.mem_flatMap]
    refine exists_congr fun k => and_congr_right fun _ => ?_
    rw [List.mem_map]
    constructor
    · rintro ⟨e, he, rfl⟩; exact ⟨e, (List.mem_filter.1 he).1, (List.mem_filter.1 he).2, rfl⟩
    · rintro ⟨e, he, hd, rfl⟩; exact ⟨e, List.mem_filter.2 ⟨he, hd⟩, rfl⟩
  have hmL2 : ∀ i, i ∈ L2 ↔ ∃ k ∈ bnds2, ∃ e ∈ els mesh2.doms k, isDeleted del.2 e = true ∧ e.id + n1 = i := by
    intro i
    rw [hL2, Std.mem_sort, List.mem_flatMap]
    refine exists_congr fun k => and_congr_right fun _ => ?_
    rw [List.mem_map]
    constructor
    · rintro ⟨e, he, rfl⟩; exact ⟨e, (List.mem_filter.1 he).1, (List.mem_filter.1 he).2, rfl⟩
    · rintro ⟨e, he, hd, rfl⟩; exact ⟨e, List.mem_filter.2 ⟨he, hd⟩, rfl⟩
  have hs1 : L1.Pairwise (· < ·) := by
    refine Std.sort_strict ?_
    rw [List.Nodup, List.pairwise_flatMap]
    refine ⟨fun k _ => List.Nodup.sublist (List.Sublist.map _ List.filter_sublist) (els_ids_nodup h1.ok k), List.Pairwise.imp ?_ hbn1⟩
    intro k k' hne x hx y hy hxy
    obtain ⟨e, he, rfl⟩ := List.mem_map.1 hx
    obtain ⟨e', he', rfl⟩ := List.mem_map.1 hy
    exact hne (id_unique h1.ok (List.mem_filter.1 he).1 (List.mem_filter.1 he').1 hxy).1
  have hs2 : L2.Pairwise (· < ·) := by
    refine Std.sort_strict ?_
    rw [List.Nodup, List.pairwise_flatMap]
    refine ⟨fun k _ => ?_, List.Pairwise.imp ?_ hbn2⟩
    · have := List.Nodup.sublist (List.Sublist.map (fun e : Element => e.id) List.filter_sublist) (els_ids_nodup h2.ok k) (l₁ := ((els mesh2.doms k).filter (isDeleted del.2)).map (·.id))
      have h3 := List.Nodup.map (f := fun i => i + n1) (fun a b hab => by simpa using hab) this
      rwa [List.map_map] at h3
    · intro k k' hne x hx y hy hxy
      obtain ⟨e, he, rfl⟩ := List.mem_map.1 hx
      obtain ⟨e', he', rfl⟩ := List.mem_map.1 hy
      have hxy' : e.id + n1 = e'.id + n1 := hxy
      exact hne (id_unique h2.ok (List.mem_filter.1 he).1 (List.mem_filter.1 he').1 (by omega)).1
  have hlt1 : ∀ i ∈ L1, i < n1 := by
    intro i hi
    obtain ⟨k, _, e, he, _, rfl⟩ := (hmL1 i).1 hi
    exact h1.ids k e he
  have hge2 : ∀ i ∈ L2, n1 ≤ i ∧ i < n1 + n2 := by
    intro i hi
    obtain ⟨k, _, e, he, _, rfl⟩ := (hmL2 i).1 hi
    have := h2.ids k e he
    omega
  have hs : L.Pairwise (· < ·) := List.pairwise_append.2 ⟨hs1, hs2, fun a ha b hb => by have := hlt1 a ha; have := (hge2 b hb).1; omega⟩
  have hltL : ∀ i ∈ L, i < n1 + n2 := by
    intro i hi
    rcases List.mem_append.1 hi with hi | hi
    · have := hlt1 i hi; omega
    · exact (hge2 i hi).2
  obtain ⟨hbij, hmono⟩ := compress_bijOn hs hltL
  -- the elements which remain
  set Gone1 : Nat → Element → Prop := fun k x => k ∈ bnds1 ∧ ∃ b2 ∈ bnds2, ∃ x2 ∈ els mesh2.doms b2, Glued φ ν x x2 with hG1
  set Gone2 : Nat → Element → Prop := fun k x => k ∈ bnds2 ∧ ∃ b1 ∈ bnds1, ∃ x1 ∈ els mesh1.doms b1, Glued φ ν x1 x with hG2
  have hg1 : ∀ k, ∀ e ∈ els mesh1.doms k, gone bnds1 del.1 k e = true ↔ Gone1 k e := by
    intro k e he
    unfold gone
    rw [Bool.and_eq_true, decide_eq_true_eq]
    exact and_congr_right fun hk => deleted1 h1.ok h2.ok φ N1 e k hk he
  have hg2 : ∀ k, ∀ e ∈ els mesh2.doms k, gone bnds2 del.2 k e = true ↔ Gone2 k e := by
    intro k e he
    unfold gone
    rw [Bool.and_eq_true, decide_eq_true_eq]
    exact and_congr_right fun hk => deleted2 h1.ok h2.ok φ N1 e k hk he
  have hnot1 : ∀ k, ∀ e ∈ els mesh1.doms k, e.id ∉ L ↔ ¬ Gone1 k e := by
    intro k e he
    rw [not_iff_not, ← hg1 k e he, hL, List.mem_append]
    unfold gone
    rw [Bool.and_eq_true, decide_eq_true_eq]
    constructor
    · rintro (hi | hi)
      · obtain ⟨k', hk', e', he', hd, hid⟩ := (hmL1 _).1 hi
        obtain ⟨rfl, rfl⟩ := id_unique h1.ok he' he hid
        exact ⟨hk', hd⟩
      · have := (hge2 _ hi).1
        have := h1.ids k e he
        omega
    · rintro ⟨hk, hd⟩
      exact Or.inl ((hmL1 _).2 ⟨k, hk, e, he, hd, rfl⟩)
  have hnot2 : ∀ k, ∀ e ∈ els mesh2.doms k, e.id + n1 ∉ L ↔ ¬ Gone2 k e := by
    intro k e he
    rw [not_iff_not, ← hg2 k e he, hL, List.mem_append]
    unfold gone
    rw [Bool.and_eq_true, decide_eq_true_eq]
    constructor
    · rintro (hi | hi)
      · have := hlt1 _ hi
        omega
      · obtain ⟨k', hk', e', he', hd, hid⟩ := (hmL2 _).1 hi
        obtain ⟨rfl, rfl⟩ := id_unique h2.ok he' he (by omega)
        exact ⟨hk', hd⟩
    · rintro ⟨hk, hd⟩
      exact Or.inr ((hmL2 _).2 ⟨k, hk, e, he, hd, rfl⟩)
  have hSset : {i | Survivor mesh1 mesh2 Gone1 Gone2 i} = {x | x < n1 + n2 ∧ x ∉ L} := by
    ext i
    simp only [Set.mem_setOf_eq, Survivor, ← hn1]
    constructor
    · rintro (⟨k, e, he, hg, rfl⟩ | ⟨k, e, he, hg, rfl⟩)
      · exact ⟨by have := h1.ids k e he; omega, (hnot1 k e he).2 hg⟩
      · exact ⟨by have := h2.ids k e he; omega, (hnot2 k e he).2 hg⟩
    · rintro ⟨hi, hiL⟩
      by_cases hlt : i < n1
      · obtain ⟨k, e, he, rfl⟩ := (ids_surj h1 i).2 hlt
        exact Or.inl ⟨k, e, he, (hnot1 k e he).1 hiL, rfl⟩
      · obtain ⟨k, e, he, hid⟩ := (ids_surj h2 (i - n1)).2 (by omega)
        have : e.id + n1 = i := by omega
        exact Or.inr ⟨k, e, he, (hnot2 k e he).1 (this ▸ hiL), this⟩
  -- contents of the merged domains
  have hperm : ∀ k, (els doms k).Perm ((((els mesh1.doms k).filter fun e => !gone bnds1 del.1 k e) ++
      ((els mesh2.doms k).filter fun e => !gone bnds2 del.2 k e).map tr).map (withId ι)) := by
    intro k
    refine (els_fixIds L st2 k).trans (List.Perm.map _ ?_)
    refine (b3 k).trans (List.Perm.append_right _ ?_)
    have := a3 k
    rwa [hels0, List.nil_append, List.map_id] at this
  have hmem : ∀ k e', e' ∈ els doms k ↔ (∃ e ∈ els mesh1.doms k, ¬ Gone1 k e ∧ e' = { e with id := ι e.id }) ∨
        (∃ e ∈ els mesh2.doms k, ¬ Gone2 k e ∧ e' = { e with id := ι (e.id + n1), nodes := e.nodes.map ν }) := by
    intro k e'
    rw [(hperm k).mem_iff, List.map_append, List.mem_append]
    refine or_congr ?_ ?_
    · rw [List.mem_map]
      constructor
      · rintro ⟨e, he, rfl⟩
        obtain ⟨h3, h4⟩ := List.mem_filter.1 he
        exact ⟨e, h3, fun hc => by simp [(hg1 k e h3).2 hc] at h4, rfl⟩
      · rintro ⟨e, he, hg, rfl⟩
        exact ⟨e, List.mem_filter.2 ⟨he, by simpa using fun hc => hg ((hg1 k e he).1 hc)⟩, rfl⟩
    · rw [List.map_map, List.mem_map]
      constructor
      · rintro ⟨e, he, rfl⟩
        obtain ⟨h3, h4⟩ := List.mem_filter.1 he
        exact ⟨e, h3, fun hc => by simp [(hg2 k e h3).2 hc] at h4, rfl⟩
      · rintro ⟨e, he, hg, rfl⟩
        exact ⟨e, List.mem_filter.2 ⟨he, by simpa using fun hc => hg ((hg2 k e he).1 hc)⟩, rfl⟩
  -- ids in the merged mesh
  have hkeysd : KeysNodup doms := by unfold KeysNodup; rw [hdoms, keys_fixIds]; exact wf_keys b2.wf
  have hsurv : ∀ k, ∀ e' ∈ els doms k, ∃ i, Survivor mesh1 mesh2 Gone1 Gone2 i ∧ e'.id = ι i ∧
      ((∃ e ∈ els mesh1.doms k, e.id = i ∧ i < n1 ∧ e' = { e with id := ι e.id }) ∨ (∃ e ∈ els mesh2.doms k, e.id + n1 = i ∧ e' = { e with id := ι (e.id + n1), nodes := e.nodes.map ν })) := by
    intro k e' he'
    rcases (hmem k e').1 he' with ⟨e, he, hg, rfl⟩ | ⟨e, he, hg, rfl⟩
    · exact ⟨e.id, Or.inl ⟨k, e, he, hg, rfl⟩, rfl, Or.inl ⟨e, he, rfl, h1.ids k e he, rfl⟩⟩
    · exact ⟨e.id + n1, Or.inr ⟨k, e, he, hg, rfl⟩, rfl, Or.inr ⟨e, he, rfl, rfl⟩⟩
  have hinj : Set.InjOn ι {i | Survivor mesh1 mesh2 Gone1 Gone2 i} := by rw [hSset]; exact hbij.2.1
  have huniq : ∀ k k' e e', e ∈ els doms k → e' ∈ els doms k' → e.id = e'.id → k = k' ∧ e = e' := by
    intro k k' e e' he he' hid
    obtain ⟨i, hi, hi1, hi2⟩ := hsurv k e he
    obtain ⟨j, hj, hj1, hj2⟩ := hsurv k' e' he'
    have hij : i = j := hinj hi hj (by rw [← hi1, ← hj1, hid])
    subst hij
    rcases hi2 with ⟨f, hf, hf1, hf2, hf3⟩ | ⟨f, hf, hf1, hf3⟩ <;> rcases hj2 with ⟨g, hg, hg1', hg2', hg3⟩ | ⟨g, hg, hg1', hg3⟩
    · obtain ⟨rfl, rfl⟩ := id_unique h1.ok hf hg (by omega)
      exact ⟨rfl, by rw [hf3, hg3]⟩
    · omega
    · omega
    · obtain ⟨rfl, rfl⟩ := id_unique h2.ok hf hg (by omega)
      exact ⟨rfl, by rw [hf3, hg3]⟩
  have hnd : ∀ k, ((els doms k).map (·.id)).Nodup := by
    intro k
    have hp := (hperm k).map (·.id)
    rw [hp.nodup_iff, List.map_map]
    have hcomp : (fun e : Element => e.id) ∘ withId ι = fun e => ι e.id := rfl
    rw [hcomp]
    have hbase : ((((els mesh1.doms k).filter fun e => !gone bnds1 del.1 k e) ++ ((els mesh2.doms k).filter fun e => !gone bnds2 del.2 k e).map tr).map (·.id)).Nodup := by
      rw [List.map_append, List.map_map, List.nodup_append]
      refine ⟨List.Nodup.sublist (List.Sublist.map _ List.filter_sublist) (els_ids_nodup h1.ok k), ?_, ?_⟩
      · have := List.Nodup.sublist (List.Sublist.map (fun e : Element => e.id) List.filter_sublist) (els_ids_nodup h2.ok k) (l₁ := ((els mesh2.doms k).filter fun e => !gone bnds2 del.2 k e).map (·.id))
        have h3 := List.Nodup.map (f := fun i => i + n1) (fun a b hab => by simpa using hab) this
        rwa [List.map_map] at h3
      · intro a ha b hb hab
        obtain ⟨e, he, rfl⟩ := List.mem_map.1 ha
        obtain ⟨e', he', rfl⟩ := List.mem_map.1 hb
        have h3 := h1.ids k e (List.mem_filter.1 he).1
        have h4 : e.id = e'.id + n1 := hab
        omega
    have hmm : ((((els mesh1.doms k).filter fun e => !gone bnds1 del.1 k e) ++ ((els mesh2.doms k).filter fun e => !gone bnds2 del.2 k e).map tr).map fun e => ι e.id) =
        ((((els mesh1.doms k).filter fun e => !gone bnds1 del.1 k e) ++ ((els mesh2.doms k).filter fun e => !gone bnds2 del.2 k e).map tr).map (·.id)).map ι := by
      rw [List.map_map]; rfl
    rw [hmm]
    have hsv : ∀ i ∈ ((((els mesh1.doms k).filter fun e => !gone bnds1 del.1 k e) ++ ((els mesh2.doms k).filter fun e => !gone bnds2 del.2 k e).map tr).map (·.id)), Survivor mesh1 mesh2 Gone1 Gone2 i := by
      intro i hi
      obtain ⟨e, he, rfl⟩ := List.mem_map.1 hi
      rcases List.mem_append.1 he with he | he
      · obtain ⟨h3, h4⟩ := List.mem_filter.1 he
        exact Or.inl ⟨k, e, h3, fun hc => by simp [(hg1 k e h3).2 hc] at h4, rfl⟩
      · obtain ⟨f, hf, rfl⟩ := List.mem_map.1 he
        obtain ⟨h3, h4⟩ := List.mem_filter.1 hf
        exact Or.inr ⟨k, f, h3, fun hc => by simp [(hg2 k f h3).2 hc] at h4, rfl⟩
    exact List.Nodup.map_on (fun a ha b hb hab => hinj (hsv a ha) (hsv b hb) hab) hbase
  have hallids : ((visitAll doms).map (·.id)).Perm (List.range (visitAll doms).length) := by
    have hA : (visitAll doms).map (·.id) = (tagged doms (doms.map (·.1))).map (·.2.id) := by
      rw [visitAll_tagged, List.map_map]; rfl
    have hnA : ((visitAll doms).map (·.id)).Nodup := by
      rw [hA]; exact tagged_ids_nodup hkeysd hnd fun k k' e e' he he' hid => (huniq k k' e e' he he' hid).1
    have hmA : ∀ i, i ∈ (visitAll doms).map (·.id) ↔ i < n1 + n2 - L.length := by
      intro i
      rw [hA]
      constructor
      · intro hi
        obtain ⟨⟨k, e⟩, hke, rfl⟩ := List.mem_map.1 hi
        obtain ⟨j, hj, hj1, _⟩ := hsurv k e (mem_els.2 (mem_tagged.1 hke).2)
        simp only [hj1]
        have hjm : j ∈ {x | x < n1 + n2 ∧ x ∉ L} := hSset ▸ (show j ∈ {i | Survivor mesh1 mesh2 Gone1 Gone2 i} from hj)
        exact hbij.1 hjm
      · intro hi
        obtain ⟨j, hj, hji⟩ := hbij.2.2 (show i ∈ Set.Iio (n1 + n2 - L.length) from hi)
        rw [← hSset] at hj
        have : ∃ k, ∃ e' ∈ els doms k, e'.id = ι j := by
          rcases hj with ⟨k, e, he, hg, rfl⟩ | ⟨k, e, he, hg, rfl⟩
          · exact ⟨k, _, (hmem k _).2 (Or.inl ⟨e, he, hg, rfl⟩), rfl⟩
          · exact ⟨k, _, (hmem k _).2 (Or.inr ⟨e, he, hg, rfl⟩), rfl⟩
        obtain ⟨k, e', he', hid⟩ := this
        obtain ⟨d, hd, hed⟩ := mem_els.1 he'
        refine List.mem_map.2 ⟨(k, e'), mem_tagged.2 ⟨List.mem_map.2 ⟨_, mem_of_lookup hd, rfl⟩, d, hd, hed⟩, ?_⟩
        rw [← hji]; exact hid
    have hp := perm_range_of hnA hmA
    have hl := hp.length_eq
    rw [List.length_map, List.length_range] at hl
    rw [hl]; exact hp
  -- nodes
  obtain ⟨hle, hνb, hνm⟩ := newNodeId_bij hφ
  have hNodeIn : ∀ {kinds' : List (ElType × Nat)} {m : DomMap}, KeysNodup m → ∀ x, NodeIn m x ↔ ∃ k, ∃ e ∈ els m k, x ∈ e.nodes := by
    intro _ m hk x
    constructor
    · rintro ⟨e, ⟨d, hd, v, hv, hev⟩, hx⟩
      exact ⟨d.1, e, mem_els.2 ⟨d.2, lookup_of_mem hk hd, List.mem_flatten.2 ⟨v, hv, hev⟩⟩, hx⟩
    · rintro ⟨k, e, he, hx⟩
      obtain ⟨d, hd, hed⟩ := mem_els.1 he
      obtain ⟨v, hv, hev⟩ := List.mem_flatten.1 hed
      exact ⟨e, ⟨(k, d), mem_of_lookup hd, v, hv, hev⟩, hx⟩
  -- every node lies in an element outside of the boundaries
  have hdomnode : ∀ {mesh : Part} {D N : Nat}, MeshIn kinds mesh D N → ∀ x < N, ∃ k, k ∉ mesh.bnds.map (·.1) ∧ ∃ e ∈ els mesh.doms k, x ∈ e.nodes := by
    intro mesh D N h x hx
    obtain ⟨k, e, he, hxe⟩ := (hNodeIn (kinds' := kinds) (wf_keys h.ok.wf) x).1 ((h.nodes x).2 hx)
    by_cases hk : k ∈ mesh.bnds.map (·.1)
    · obtain ⟨v, hv⟩ := views_isSome h.ok hk he
      have hdimD : e.ty.dim = D := by
        obtain ⟨d, hd, hed⟩ := mem_els.1 he
        have := (h.ok.wf.dom k d hd).dim e hed
        rw [h.ok.bndDim k hk d hd] at this
        exact (Option.some.inj this).symm
      have hpar := viewOf_some (wf_keys h.ok.wf) (show viewOf mesh.doms e = some (v.1, v.2) from hv)
      obtain ⟨k', d', hk', hd', _, he'⟩ := isParent_domain h.ok hdimD hpar
      obtain ⟨_, l, hl, hp⟩ := hpar
      have he'' : v.1 ∈ els mesh.doms k' := by rw [els_some hd']; exact he'
      refine ⟨k', hk', v.1, he'', ?_⟩
      have hxl := hp.mem_iff.2 hxe
      unfold sideNodes at hl
      rw [Option.map_eq_some_iff] at hl
      obtain ⟨inds, hi, rfl⟩ := hl
      obtain ⟨i, hii, rfl⟩ := List.mem_map.1 hxl
      have hlt := sideInds_lt (h.wfEl k' _ he'') hi i hii
      rw [List.getD_eq_getElem?_getD, List.getElem?_eq_getElem hlt]
      exact List.getElem_mem _
    · exact ⟨k, hk, e, he, hxe⟩
  have hnodes : ∀ x, NodeIn doms x ↔ x < N1 + N2 - φ.length := by
    intro x
    rw [hNodeIn (kinds' := kinds) hkeysd]
    constructor
    · rintro ⟨k, e', he', hx⟩
      rcases (hmem k e').1 he' with ⟨e, he, _, rfl⟩ | ⟨e, he, _, rfl⟩
      · have := (h1.nodes x).1 ((hNodeIn (kinds' := kinds) (wf_keys h1.ok.wf) x).2 ⟨k, e, he, hx⟩)
        omega
      · simp only [List.mem_map] at hx
        obtain ⟨y, hy, rfl⟩ := hx
        have hy2 := (h2.nodes y).1 ((hNodeIn (kinds' := kinds) (wf_keys h2.ok.wf) y).2 ⟨k, e, he, hy⟩)
        cases hf : φ.find y with
        | none => exact (hνb.1 ⟨hy2, hf⟩).2
        | some z =>
          have := hφ.dst y z hf
          rw [hν, newNodeId_matched hf]; omega
    · intro hx
      by_cases hx1 : x < N1
      · obtain ⟨k, hk, e, he, hxe⟩ := hdomnode h1 x hx1
        exact ⟨k, _, (hmem k _).2 (Or.inl ⟨e, he, fun hc => hk hc.1, rfl⟩), hxe⟩
      · obtain ⟨y, hy, hyx⟩ := hνb.2.2 (show x ∈ Set.Ico N1 (N1 + N2 - φ.length) from ⟨by omega, hx⟩)
        obtain ⟨k, hk, e, he, hye⟩ := hdomnode h2 y hy.1
        exact ⟨k, _, (hmem k _).2 (Or.inr ⟨e, he, fun hc => hk hc.1, rfl⟩), List.mem_map.2 ⟨y, hye, hyx⟩⟩
  -- boundary ids
  have hkeyd : ∀ b, b ∈ doms.map (·.1) ↔ (st2.lookup b).isSome = true := by
    intro b; rw [hdoms, keys_fixIds, OMap.lookup_isSome_iff]
  have hemp : ∀ b, els doms b = [] ↔ els st2 b = [] := by
    intro b
    have := els_fixIds L st2 b
    constructor
    · intro he
      rw [show els (fixIds L st2) b = [] from he] at this
      have h3 := this.symm.eq_nil
      simpa using h3
    · intro he
      rw [he] at this
      exact this.eq_nil
  refine ⟨doms, N1 + N2 - φ.length, (Std.sortUniq (bnds1 ++ bnds2)).filter (fun b => decide (b ∈ doms.map (·.1))), ν, ι, Gone1, Gone2, ⟨rfl, ?_⟩, ?_, by omega, hle,
    fun _ _ => Iff.rfl, fun _ _ => Iff.rfl, fun x y hxy => newNodeId_matched hxy, hνb, hνm, hnodes, hmem, by rw [hSset]; exact hmono, hallids, ?_, ?_, ?_⟩
  · exact wf_fixIds b2.wf L
  · unfold merge
    simp only
    rw [← hdel, a1, Option.bind_some]
    simp only
    rw [← hn1, ← htr, b1]
    rfl
  · intro k d hd v hv
    have hd' := hd
    rw [hdoms, lookup_fixIds, Option.map_eq_some_iff] at hd
    obtain ⟨d0, hd0, rfl⟩ := hd
    obtain ⟨v0, hv0, rfl⟩ := List.mem_map.1 hv
    have hsorted := List.pairwise_insertionSort (fun a b : Element => a.id ≤ b.id) (v0.map fun e => { e with id := updatedId L e.id })
    refine Std.lt_of_le_nodup (List.pairwise_map.2 hsorted) ?_
    have h3 := hnd k
    rw [els_some hd'] at h3
    refine List.Nodup.sublist (List.Sublist.map _ ?_) h3
    exact List.sublist_flatten_of_mem hv
  · exact (Std.sortUniq_strict _).filter _
  · intro b
    rw [List.mem_filter, Std.mem_sortUniq, List.mem_append, decide_eq_true_eq, hkeyd]
    refine and_congr_right fun hb => ?_
    have hb4 := b4 b
    rw [ne_eq, hemp]
    by_cases hbb : b ∈ bnds2
    · rw [if_pos hbb] at hb4; exact hb4
    · rw [if_neg hbb, a4 b] at hb4
      rw [hb4]
      have hbb1 : b ∈ bnds1 := hb.resolve_right hbb
      have hnk : b ∉ mesh2.doms.map (·.1) := fun hc => hbb (hrole b hbb1 hc)
      rw [if_pos hbb1]
      have he2 : els mesh2.doms b = [] := by
        refine els_none ?_
        cases hl : mesh2.doms.lookup b with
        | none => rfl
        | some d => exact absurd (List.mem_map.2 ⟨_, mem_of_lookup hl, rfl⟩) hnk
      have h3 := b3 b
      rw [he2] at h3
      simp only [List.filter_nil, List.map_nil, List.append_nil] at h3
      have h5 : els st2 b = [] ↔ els st1 b = [] := ⟨fun e => (e ▸ h3).symm.eq_nil, fun e => (e ▸ h3).eq_nil⟩
      rw [h5]
      simp [hnk]

/-- Full result of **C31**: with `Gone` the boundary elements glued to one of the other mesh, `merge` succeeds and
renumbers nodes by `ν` and elements by `ι`, such that
* matched nodes take the existing id, the others get distinct ids `N1 … N-1`, in order (`N = N1 + N2 - matched`), and the nodes of
  the merged mesh are exactly `0 … N-1`;
* the domains hold exactly the remaining elements; their new ids are `0 … n-1` where `n` is their number, order being kept (first mesh first), and
  every vector of elements is sorted by id;
* the boundaries are those of the two meshes with elements left. -/
theorem C31_merge {kinds : List (ElType × Nat)} {mesh1 mesh2 : Part} {D1 D2 N1 N2 : Nat} (h1 : MeshIn kinds mesh1 D1 N1) (h2 : MeshIn kinds mesh2 D2 N2)
    (hdim : ∀ k, ∀ a ∈ els mesh1.doms k, ∀ b ∈ els mesh2.doms k, a.ty.dim = b.ty.dim)
    (hrole : ∀ k ∈ mesh1.bnds.map (·.1), k ∈ mesh2.doms.map (·.1) → k ∈ mesh2.bnds.map (·.1))
    {φ : Algo.AMap Nat Nat} (hφ : Matching φ N1 N2) :
    ∃ doms N bnds ν ι, ∃ Gone1 Gone2 : Nat → Element → Prop, merge kinds mesh1 mesh2 N1 N2 φ = some (doms, N, bnds) ∧ N + φ.length = N1 + N2 ∧ φ.length ≤ N2 ∧
      (∀ k x, Gone1 k x ↔ k ∈ mesh1.bnds.map (·.1) ∧ ∃ b2 ∈ mesh2.bnds.map (·.1), ∃ x2 ∈ els mesh2.doms b2, Glued φ ν x x2) ∧
      (∀ k x, Gone2 k x ↔ k ∈ mesh2.bnds.map (·.1) ∧ ∃ b1 ∈ mesh1.bnds.map (·.1), ∃ x1 ∈ els mesh1.doms b1, Glued φ ν x1 x) ∧
      (∀ x y, φ.find x = some y → ν x = y) ∧ Set.BijOn ν {x | x < N2 ∧ φ.find x = none} (Set.Ico N1 N) ∧ StrictMonoOn ν {x | x < N2 ∧ φ.find x = none} ∧
      (∀ x, NodeIn doms x ↔ x < N) ∧
      (∀ k e', e' ∈ els doms k ↔ (∃ e ∈ els mesh1.doms k, ¬ Gone1 k e ∧ e' = { e with id := ι e.id }) ∨
        (∃ e ∈ els mesh2.doms k, ¬ Gone2 k e ∧ e' = { e with id := ι (e.id + (visitAll mesh1.doms).length), nodes := e.nodes.map ν })) ∧
      StrictMonoOn ι {i | Survivor mesh1 mesh2 Gone1 Gone2 i} ∧ ((visitAll doms).map (·.id)).Perm (List.range (visitAll doms).length) ∧
      (∀ k d, doms.lookup k = some d → ∀ v ∈ d.vecs, (v.map (·.id)).Pairwise (· < ·)) ∧
      bnds.Pairwise (· < ·) ∧ ∀ b, b ∈ bnds ↔ (b ∈ mesh1.bnds.map (·.1) ∨ b ∈ mesh2.bnds.map (·.1)) ∧ els doms b ≠ [] := by
  obtain ⟨doms, N, bnds, ν, ι, G1, G2, _, h⟩ := merge_spec h1 h2 hdim hrole hφ
  exact ⟨doms, N, bnds, ν, ι, G1, G2, h⟩

theorem mem_of_lookup' {β : Type} {m : List (Nat × β)} {k : Nat} {v : β} (h : m.lookup k = some v) : (k, v) ∈ m := by
  induction m with
  | nil => simp at h
  | cons a m ih =>
    rw [List.lookup_cons] at h
    by_cases hk : k = a.1
    · subst hk
      simp only [beq_self_eq_true] at h
      rw [List.mem_cons]; left
      rw [← Option.some.inj h]
    · rw [beq_false_of_ne hk] at h
      exact List.mem_cons_of_mem _ (ih h)

/-- Node matching (matchExistingNodes): a node of the incoming mesh is matched iff some existing candidate is close, and then with such
a candidate. -/
theorem C31_matching {P : Type} (prox : P → List (P × Nat)) (close : P → P → Bool) (toMatch : List (Nat × P)) (hk : (toMatch.map (·.1)).Nodup)
    {x : Nat} {p : P} (hx : (x, p) ∈ toMatch) :
    (∀ y, (matchExisting prox close toMatch).find x = some y → ∃ q, (q, y) ∈ prox p ∧ close p q = true) ∧
    ((matchExisting prox close toMatch).find x = none ↔ ∀ c ∈ prox p, close p c.1 = false) := by
  have key : (matchExisting prox close toMatch).find x = ((prox p).find? fun c => close p c.1).map (·.2) := by
    unfold matchExisting Algo.AMap.find
    induction toMatch with
    | nil => simp at hx
    | cons a l ih =>
      rw [List.map_cons, List.nodup_cons] at hk
      have hno : ∀ (q : List (Nat × P)), x ∉ q.map (·.1) →
          (q.filterMap fun q => ((prox q.2).find? fun c => close q.2 c.1).map fun c => (q.1, c.2)).lookup x = none := by
        intro q hq
        cases hl : (q.filterMap fun q => ((prox q.2).find? fun c => close q.2 c.1).map fun c => (q.1, c.2)).lookup x with
        | none => rfl
        | some y =>
          exfalso
          obtain ⟨r, hr, he⟩ := List.mem_filterMap.1 (mem_of_lookup' hl)
          rw [Option.map_eq_some_iff] at he
          obtain ⟨c, _, hc⟩ := he
          exact hq (List.mem_map.2 ⟨r, hr, (Prod.mk.injEq _ _ _ _ ▸ hc).1⟩)
      rcases List.mem_cons.1 hx with rfl | hx
      · rw [List.filterMap_cons]
        cases hf : (prox p).find? fun c => close p c.1 with
        | none => simp only [hf, Option.map_none]; exact hno l hk.1
        | some c => simp [hf]
      · have hne : x ≠ a.1 := fun hc => hk.1 (hc ▸ List.mem_map.2 ⟨_, hx, rfl⟩)
        rw [List.filterMap_cons]
        cases hf : (prox a.2).find? fun c => close a.2 c.1 with
        | none => simp only [Option.map_none]; exact ih hk.2 hx
        | some c =>
          simp only [Option.map_some]
          rw [List.lookup_cons, beq_false_of_ne hne]
          exact ih hk.2 hx
  rw [key]
  constructor
  · intro y hy
    rw [Option.map_eq_some_iff] at hy
    obtain ⟨c, hc, rfl⟩ := hy
    exact ⟨c.1, List.mem_of_find?_eq_some hc, by simpa using List.find?_some hc⟩
  · rw [Option.map_eq_none_iff, List.find?_eq_none]
    simp

/-! ## Concrete case: a second mesh glued to the right edge of `twoQuads` -/

/-- A quad with its left and right edges as boundaries 7 and 8. -/
def oneQuad : Part :=
  ⟨[(3, ⟨some 2, [[], [⟨.quad, 2, 0, [0, 1, 2, 3]⟩], []]⟩), (7, ⟨some 1, [[], [], [⟨.line, 2, 1, [0, 2]⟩]]⟩),
    (8, ⟨some 1, [[], [], [⟨.line, 2, 2, [1, 3]⟩]]⟩)], ⟨0, 4, []⟩,
   [(7, [(⟨.quad, 2, 0, [0, 1, 2, 3]⟩, 2)]), (8, [(⟨.quad, 2, 0, [0, 1, 2, 3]⟩, 3)])]⟩

theorem els_of_all {m : DomMap} {p : Element → Prop} (h : ∀ d ∈ m, ∀ e ∈ d.2.elems, p e) (k : Nat) : ∀ e ∈ els m k, p e := by
  intro e he
  obtain ⟨d, hd, hed⟩ := mem_els.1 he
  exact h _ (mem_of_lookup hd) e hed

theorem oneQuad_in : MeshIn lineKinds oneQuad 1 4 := by
  refine ⟨⟨wf_of_all (by decide) (by simp [OMap.Sorted, oneQuad]) (by decide), by decide, ?_, ⟨fun _ => id, fun _ _ => List.Perm.refl _, by decide +kernel⟩, by decide⟩, ?_, ?_, ?_⟩
  · intro b hb d hd
    have : ∀ p ∈ oneQuad.doms, p.1 ∈ oneQuad.bnds.map (·.1) → p.2.dim = some 1 := by decide
    exact this _ (mem_of_lookup hd) hb
  · exact fun k => els_of_all (by decide) k
  · intro k
    have := els_of_all (m := oneQuad.doms) (p := fun e => 1 ≤ e.n ∧ e.n ^ e.ty.dim < 2 ^ 16 ∧ e.nodes.length = e.n ^ e.ty.dim) (by decide) k
    exact fun e he => ⟨(this e he).1, (this e he).2.1, (this e he).2.2⟩
  · exact nodes_of_all (by decide) (by decide)

theorem twoQuads_in : MeshIn lineKinds twoQuads 1 6 := by
  refine ⟨twoQuads_ok, ?_, ?_, ?_⟩
  · exact fun k => els_of_all (by decide) k
  · intro k
    have := els_of_all (m := twoQuads.doms) (p := fun e => 1 ≤ e.n ∧ e.n ^ e.ty.dim < 2 ^ 16 ∧ e.nodes.length = e.n ^ e.ty.dim) (by decide) k
    exact fun e he => ⟨(this e he).1, (this e he).2.1, (this e he).2.2⟩
  · exact nodes_of_all (by decide) (by decide)

/-- Node 0 of the second mesh is node 2 of the first, node 2 is node 5. -/
def glue : Algo.AMap Nat Nat := [(2, 5), (0, 2)]

theorem glue_matching : Matching glue 6 4 := by
  refine ⟨by decide, by decide, ?_⟩
  intro x y h
  have := mem_of_lookup' h
  simp [glue] at this
  omega

example : ∃ doms N bnds, merge lineKinds twoQuads oneQuad 6 4 glue = some (doms, N, bnds) ∧ N = 8 ∧ ∀ x, NodeIn doms x ↔ x < 8 := by
  obtain ⟨doms, N, bnds, ν, ι, G1, G2, h, hN, _, _, _, _, _, _, hnode, _⟩ := C31_merge twoQuads_in oneQuad_in
    (by
      intro k a ha b hb
      obtain ⟨d, hd, had⟩ := mem_els.1 ha
      obtain ⟨d', hd', hbd⟩ := mem_els.1 hb
      have : ∀ p ∈ twoQuads.doms, ∀ q ∈ oneQuad.doms, p.1 = q.1 → ∀ a ∈ p.2.elems, ∀ b ∈ q.2.elems, a.ty.dim = b.ty.dim := by decide
      exact this _ (mem_of_lookup hd) _ (mem_of_lookup hd') rfl a had b hbd)
    (by decide) glue_matching
  have : N = 8 := by simp [glue] at hN; omega
  subst this
  exact ⟨doms, 8, bnds, h, rfl, hnode⟩

/-- The interface edge is removed from both meshes and the right edge gets the next free id. -/
example : merge lineKinds twoQuads oneQuad 6 4 glue = some
    ([(0, ⟨some 2, [[], [⟨.quad, 2, 0, [0, 1, 3, 4]⟩, ⟨.quad, 2, 1, [1, 2, 4, 5]⟩], []]⟩), (3, ⟨some 2, [[], [⟨.quad, 2, 3, [2, 6, 5, 7]⟩], []]⟩),
      (7, ⟨some 1, [[], [], [⟨.line, 2, 2, [0, 3]⟩]]⟩), (8, ⟨some 1, [[], [], [⟨.line, 2, 4, [6, 7]⟩]]⟩)], 8, [7, 8]) := by
  decide +kernel

example : (matchExisting (fun p : Int => if p < 0 then [] else [(p + 1, 4), (p, 5)]) (fun a b => a == b) [(0, -1), (1, 3)]).find 1 = some 5 := by decide

end Verif.Merge
