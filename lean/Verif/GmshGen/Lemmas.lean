import Verif.GmshGen.Spec

/-! # Sides of imported elements -/
namespace Verif.GmshGen
open Verif Verif.Elem Verif.Mesh Verif.Gmsh Verif.Partition

/-- `A`: places of the nodes in the library's order; `σ`: Gmsh's numbers of the sides. -/
def tableOk (ty : ElType) (A σ : List Nat) : Bool :=
  ((List.range (Elem.nSides ty)).all fun s =>
    match sideNodeInds ty 2 s, (gmshSides ty)[σ.getD s 0]? with
    | some inds, some gl => decide ((inds.map fun i => A.getD i 0).Perm gl) && inds.all fun i => decide (i < A.length)
    | _, _ => false) && decide (σ.Perm (List.range (gmshSides ty).length)) && decide (σ.length = Elem.nSides ty) &&
    (gmshSides ty).all fun gl => gl.all fun i => decide (i < 2 ^ ty.dim)

theorem table_quad : tableOk .quad [0, 1, 3, 2] [0, 2, 3, 1] = true := by decide +kernel
theorem table_flip : tableOk .quad [0, 3, 1, 2] [3, 1, 0, 2] = true := by decide +kernel
theorem table_hex : tableOk .hex [0, 1, 3, 2, 4, 5, 7, 6] [0, 5, 1, 4, 2, 3] = true := by decide +kernel

/-- The sides of an element correspond to those which Gmsh has. -/
structure SidesOf (ty : ElType) (e : Element) (ids : List Nat) (σ : Nat → Nat) : Prop where
  match_ : ∀ s l, sideNodes e s = some l → ∃ gl, (gmshSides ty)[σ s]? = some gl ∧ l.Perm (gl.map fun i => ids.getD i 0)
  surj : ∀ j, j < (gmshSides ty).length → ∃ s l, σ s = j ∧ sideNodes e s = some l
  inj : ∀ s s' l l', sideNodes e s = some l → sideNodes e s' = some l' → σ s = σ s' → s = s'
  lt : ∀ (j : Nat) gl, (gmshSides ty)[j]? = some gl → ∀ i ∈ gl, i < 2 ^ ty.dim

theorem sideInds_bound {ty : ElType} {n s : Nat} {inds : List Nat} (h : sideNodeInds ty n s = some inds) : s < Elem.nSides ty := by
  by_contra hc
  rw [(C20_invalid_side _ _ _).2 (by omega)] at h; cases h

theorem sides_of_table {ty : ElType} {A σ ids : List Nat} (h : tableOk ty A σ = true) (id : Nat) :
    SidesOf ty ⟨ty, 2, id, A.map fun i => ids.getD i 0⟩ ids fun s => σ.getD s 0 := by
  unfold tableOk at h
  simp only [Bool.and_eq_true, decide_eq_true_eq, List.all_eq_true, List.mem_range] at h
  obtain ⟨⟨⟨h1, h2⟩, h3⟩, h4⟩ := h
  have key : ∀ s, s < Elem.nSides ty → ∃ inds gl, sideNodeInds ty 2 s = some inds ∧ (gmshSides ty)[σ.getD s 0]? = some gl ∧ (inds.map fun i => A.getD i 0).Perm gl ∧
      ∀ i ∈ inds, i < A.length := by
    intro s hs
    have := h1 s hs
    cases ha : sideNodeInds ty 2 s with
    | none => rw [ha] at this; cases this
    | some inds =>
      cases hb : (gmshSides ty)[σ.getD s 0]? with
      | none => rw [ha, hb] at this; cases this
      | some gl =>
        rw [ha, hb] at this
        simp only [Bool.and_eq_true, decide_eq_true_eq, List.all_eq_true] at this
        exact ⟨inds, gl, rfl, rfl, this.1, this.2⟩
  have hnd : σ.Nodup := h2.nodup_iff.2 List.nodup_range
  have bnd : ∀ s l, sideNodes ⟨ty, 2, id, A.map fun i => ids.getD i 0⟩ s = some l → s < Elem.nSides ty := by
    intro s l hl
    unfold sideNodes at hl
    obtain ⟨inds, hi, -⟩ := Option.map_eq_some_iff.1 hl
    exact sideInds_bound hi
  refine ⟨?_, ?_, ?_, ?_⟩
  · intro s l hl
    obtain ⟨inds, gl, k1, k2, k3, k4⟩ := key s (bnd s l hl)
    refine ⟨gl, k2, ?_⟩
    unfold sideNodes at hl
    rw [show sideNodeInds ty 2 s = some inds from k1] at hl
    cases hl
    have : (inds.map fun i => (A.map fun i => ids.getD i 0).getD i 0) = (inds.map fun i => A.getD i 0).map fun i => ids.getD i 0 := by
      rw [List.map_map]
      refine List.map_congr_left fun i hi => ?_
      simp [List.getD_eq_getElem?_getD, k4 i hi]
    change (inds.map fun i => (A.map fun i => ids.getD i 0).getD i 0).Perm _
    rw [this]
    exact k3.map _
  · intro j hj
    obtain ⟨s, hs, he⟩ := List.mem_iff_getElem.1 (h2.mem_iff.2 (List.mem_range.2 hj))
    obtain ⟨inds, gl, k1, -⟩ := key s (by omega)
    refine ⟨s, inds.map fun i => (A.map fun i => ids.getD i 0).getD i 0, by simp [List.getD_eq_getElem?_getD, hs, he], ?_⟩
    unfold sideNodes
    rw [show sideNodeInds ty 2 s = some inds from k1]; rfl
  · intro s s' l l' hl hl' he
    have a := bnd s l hl
    have b := bnd s' l' hl'
    rw [← h3] at a b
    simp only [List.getD_eq_getElem?_getD, List.getElem?_eq_getElem a, List.getElem?_eq_getElem b, Option.getD_some] at he
    exact (List.Nodup.getElem_inj_iff hnd).1 he
  · intro j gl hgl i hi
    exact h4 gl (List.mem_of_getElem? hgl) i hi

variable {K : Type} [Field K] [LinearOrder K]

theorem arrange_places (eps : K) (ty : ElType) (info : List (Nat × Gmsh.Pt K)) (hl : info.length = 2 ^ ty.dim) (hd : 2 ≤ ty.dim) :
    ∃ A σ, tableOk ty A σ = true ∧ (arrange eps ty info).map (·.1) = A.map fun i => (info.map (·.1)).getD i 0 := by
  cases ty with
  | line => exact absurd hd (by decide)
  | quad =>
    match info, hl with
    | [a, b, c, d], _ =>
      unfold arrange
      dsimp only
      split
      · exact ⟨_, _, table_flip, rfl⟩
      · exact ⟨_, _, table_quad, rfl⟩
  | hex =>
    match info, hl with
    | [a, b, c, d, e, f, g, h], _ => exact ⟨_, _, table_hex, rfl⟩

/-- Tag of a node. -/
def tagOf (nodes : List (Nat × Gmsh.Pt K)) (i : Nat) : Nat := ((nodes.map (·.1))[i]?).getD 0

/-- Number of the node with a tag. -/
def idOf (nodes : List (Nat × Gmsh.Pt K)) (t : Nat) : Nat := (nodes.map (·.1)).idxOf t

omit [Field K] [LinearOrder K] in
theorem info_tags {nodes : List (Nat × Gmsh.Pt K)} (hn : (nodes.map (·.1)).Nodup) {ts : List Nat} {info : List (Nat × Gmsh.Pt K)}
    (h : List.Forall₂ (fun t i => nodes[i.1]? = some (t, i.2)) ts info) :
    ts = (info.map (·.1)).map (tagOf nodes) ∧ info.map (·.1) = ts.map (idOf nodes) ∧ ∀ i ∈ info.map (·.1), i < nodes.length := by
  induction h with
  | nil => exact ⟨rfl, rfl, by simp⟩
  | @cons t i ts info h _ ih =>
    obtain ⟨hlt, he⟩ := List.getElem?_eq_some_iff.1 h
    have h1 : tagOf nodes i.1 = t := by unfold tagOf; rw [List.getElem?_map, h]; rfl
    have h2 : idOf nodes t = i.1 := by
      unfold idOf
      have h3 : i.1 < (nodes.map (·.1)).length := by rw [List.length_map]; exact hlt
      have h4 : (nodes.map (·.1))[i.1] = t := by rw [List.getElem_map, he]
      rw [← h4]
      exact hn.idxOf_getElem _ h3
    refine ⟨?_, ?_, ?_⟩
    · rw [List.map_cons, List.map_cons, h1, ← ih.1]
    · rw [List.map_cons, List.map_cons, h2, ← ih.2.1]
    · intro j hj
      rw [List.map_cons] at hj
      rcases List.mem_cons.1 hj with rfl | hj
      · exact hlt
      · exact ih.2.2 j hj

omit [Field K] [LinearOrder K] in
theorem perm_tags {nodes : List (Nat × Gmsh.Pt K)} {ts tx ids idx : List Nat} (h1 : ts = ids.map (tagOf nodes)) (h2 : ids = ts.map (idOf nodes))
    (h3 : tx = idx.map (tagOf nodes)) (h4 : idx = tx.map (idOf nodes)) (gl : List Nat) (hl : ∀ i ∈ gl, i < ids.length) :
    (gl.map fun i => ids.getD i 0).Perm idx ↔ (gl.map fun i => ts.getD i 0).Perm tx := by
  have hlen : ts.length = ids.length := by rw [h1, List.length_map]
  have a : (gl.map fun i => ids.getD i 0).map (tagOf nodes) = gl.map fun i => ts.getD i 0 := by
    rw [List.map_map]
    refine List.map_congr_left fun i hi => ?_
    rw [h1]
    simp [List.getD_eq_getElem?_getD, hl i hi]
  have b : (gl.map fun i => ts.getD i 0).map (idOf nodes) = gl.map fun i => ids.getD i 0 := by
    rw [List.map_map]
    refine List.map_congr_left fun i hi => ?_
    have : i < ts.length := by rw [hlen]; exact hl i hi
    rw [h2]
    simp [List.getD_eq_getElem?_getD, this]
  constructor
  · intro h
    rw [← a, h3]; exact h.map _
  · intro h
    rw [← b, h4]; exact h.map _

end Verif.GmshGen
