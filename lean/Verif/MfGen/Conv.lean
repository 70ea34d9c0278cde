import Verif.MfGen.Lemmas
import Verif.Gen.Props
import Verif.Convert.Internal
namespace Verif.MfGen
open Verif Verif.Elem Verif.Split Verif.Mesh Verif.Partition Verif.Pipeline Verif.LocView Verif.Convert Verif.Gen Verif.MfPipe

/-! ### Meshes of order one -/

theorem inner_linear {m : DomMap} {bnds : List Nat} (h : ∀ e, Holds m e → e.n = 2) : Inner m bnds := by
  have hnil : ∀ e, Holds m e → internalInds e.ty e.n = [] := by
    intro e he
    rw [h e he]
    have : ∀ t : ElType, internalInds t 2 = [] := by intro t; cases t <;> decide +kernel
    exact this _
  refine ⟨fun k e _ he => ⟨0, fun j hj => ?_⟩, fun k e _ he e' _ _ x hx => ?_⟩
  · rw [hnil e (inDom_holds he)] at hj
    simp at hj
  · unfold internalNodes at hx
    rw [hnil e (inDom_holds he)] at hx
    simp at hx

theorem single_of {kinds : List (ElType × Nat)} {m : DomMap} {bnds : List Nat} {D : Nat} (hm : MeshOk kinds m bnds D)
    (hne : ∀ b ∈ bnds, ∀ b' ∈ bnds, ∀ x x', InDom m b x → InDom m b' x' → x.id ≠ x'.id → ¬ x.nodes.Perm x'.nodes) :
    ∀ b ∈ bnds, ∀ b' ∈ bnds, ∀ x x', InDom m b x → InDom m b' x' → viewOf m x = viewOf m x' → b = b' ∧ x = x' := by
  intro b hb b' hb' x x' hx hx' hv
  by_cases hid : x.id = x'.id
  · exact ids_inj hm hx hx' hid
  · refine absurd ?_ (hne b hb b' hb' x x' hx hx' hid)
    obtain ⟨d, hd, hxd⟩ := hx
    obtain ⟨e, s, hp⟩ := hm.parent b hb d hd x hxd
    cases hvx : viewOf m x with
    | none => exact absurd ⟨e, s, hp⟩ ((viewOf_none (wf_keys hm.wf)).1 hvx)
    | some v =>
      obtain ⟨_, l, hl, hlp⟩ := viewOf_some (wf_keys hm.wf) (b := x) (e := v.1) (s := v.2) hvx
      obtain ⟨_, l', hl', hlp'⟩ := viewOf_some (wf_keys hm.wf) (b := x') (e := v.1) (s := v.2) (hv.symm.trans hvx)
      rw [hl] at hl'
      obtain rfl := Option.some.inj hl'
      exact hlp.symm.trans hlp'

section
variable {P D : Type} {n : Nat} {M : DMap D} {ν : Nat → List Nat} {loc : Loc P D} {close : P → P → Bool} {adj : Nat → List Nat} {nOld N : Nat}

/-- Two elements of the same dimension do not have the same vertices. -/
theorem vertex_apart {els : List (El D)} (G : Geo n loc close adj nOld els) {e e' : El D} (he : e ∈ els) (he' : e' ∈ els) (hid : e.id ≠ e'.id)
    (hdim : e'.ty.dim ≤ e.ty.dim) : ∃ k < 2 ^ e.ty.dim, ∀ l < 2 ^ e'.ty.dim, e.nodes.getD k 0 ≠ e'.nodes.getD l 0 := by
  rcases G.conform e he e' he' hid with h | ⟨F, F', V, hfree, _⟩
  · exact ⟨0, Nat.pos_of_ne_zero (by simp), fun l hl => h.1 0 l (Nat.pos_of_ne_zero (by simp)) hl⟩
  · have hlt : free F < e.ty.dim := lt_of_le_of_lt hfree (highest_lt _ _ hdim)
    have key : ∀ t : ElType, ∀ F ∈ allFaces t, free F < t.dim → ∃ k < 2 ^ t.dim, onFace 2 F k = false := by
      intro t; cases t <;> decide +kernel
    obtain ⟨k, hk, hoff⟩ := key _ F V.mem1 hlt
    refine ⟨k, hk, fun l hl h => ?_⟩
    have := (V.only k l hk hl h).1
    rw [hoff] at this
    simp at this

theorem nodes_nodup {els : List (El D)} (G : Geo n loc close adj nOld els) {e : El D} (he : e ∈ els) : e.nodes.Nodup := by
  have hl := (G.wf e he).len
  rw [List.nodup_iff_injective_getElem]
  rintro ⟨i, hi⟩ ⟨j, hj⟩ h
  have hg : ∀ i (hi : i < e.nodes.length), e.nodes.getD i 0 = e.nodes[i] := fun i hi => by rw [List.getD_eq_getElem?_getD, List.getElem?_eq_getElem hi]; rfl
  exact Fin.ext (nodes_inj G he (by omega) (by omega) (by rw [hg i hi, hg j hj]; exact h))

theorem apart_linear (W : Convert.WfMesh M) (G : Geo n loc close adj nOld ((visit M).map (·.2))) {bnds : List Nat} {dim : Nat} (hok : MeshOk (kindsOf 2) (toMesh 2 M) bnds dim) :
    ∀ b ∈ bnds, ∀ b' ∈ bnds, ∀ x x', InDom (toMesh 2 M) b x → InDom (toMesh 2 M) b' x' → x.id ≠ x'.id → ¬ x.nodes.Perm x'.nodes := by
  intro b hb b' hb' x x' hx hx' hid hp
  obtain ⟨e, he, rfl⟩ := (inDom_toMesh W.sorted).1 hx
  obtain ⟨e', he', rfl⟩ := (inDom_toMesh W.sorted).1 hx'
  have hm : ∀ q ∈ visit M, q.2 ∈ (visit M).map (·.2) := fun q hq => List.mem_map.2 ⟨q, hq, rfl⟩
  have m1 : e ∈ (visit M).map (·.2) := hm _ he
  have m2 : e' ∈ (visit M).map (·.2) := hm _ he'
  have hlen := hp.length_eq
  change e.nodes.length = e'.nodes.length at hlen
  rw [(G.wf e m1).len, (G.wf e' m2).len] at hlen
  have hd : e.ty.dim = e'.ty.dim := Nat.pow_right_injective (Nat.le_refl 2) hlen
  obtain ⟨k, hk, hno⟩ := vertex_apart G m1 m2 hid (by omega)
  have hkm : e.nodes.getD k 0 ∈ e'.nodes := hp.subset (getD_mem (by change k < e.nodes.length; rw [(G.wf e m1).len]; exact hk))
  obtain ⟨l, hl, hle⟩ := List.mem_iff_getElem.1 hkm
  refine hno l (by rw [← (G.wf e' m2).len]; exact hl) ?_
  rw [← hle, List.getD_eq_getElem?_getD, List.getElem?_eq_getElem hl]; rfl

/-! ### Converted meshes -/

theorem inDom_relabel (W : Convert.WfMesh M) {k : Nat} {y : Element} : InDom (toMesh n (relabel ν M)) k y ↔ ∃ e, (k, e) ∈ visit M ∧ y = elemOf n (relab ν e) := by
  rw [inDom_toMesh (wf_relabel W ν).sorted, visit_relabel]
  simp only [List.mem_map, Prod.mk.injEq, Prod.exists]
  constructor
  · rintro ⟨_, ⟨a, b, h, rfl, rfl⟩, rfl⟩; exact ⟨b, h, rfl⟩
  · rintro ⟨e, h, rfl⟩; exact ⟨_, ⟨k, e, h, rfl, rfl⟩, rfl⟩

theorem holds_relabel {y : Element} : Holds (toMesh n (relabel ν M)) y ↔ ∃ q ∈ visit M, y = elemOf n (relab ν q.2) := by
  rw [holds_toMesh, visit_relabel]
  simp

theorem getElem_getD {l : List Nat} {i : Nat} (hi : i < l.length) : l.getD i 0 = l[i] := by
  rw [List.getD_eq_getElem?_getD, List.getElem?_eq_getElem hi]; rfl

theorem inner_relabel (W : Convert.WfMesh M) (G : Geo n loc close adj nOld ((visit M).map (·.2))) (I : PInv n loc nOld ((visit M).map (·.2)) ν N) {bnds : List Nat}
    (htop : ∀ q ∈ visit M, q.1 ∉ bnds → ∀ q' ∈ visit M, q'.2.ty.dim ≤ q.2.ty.dim) : Inner (toMesh n (relabel ν M)) bnds := by
  have hm : ∀ q ∈ visit M, q.2 ∈ (visit M).map (·.2) := fun q hq => List.mem_map.2 ⟨q, hq, rfl⟩
  refine ⟨fun k y hk hy => ?_, fun k y hk hy y' hy' hid x hx hx' => ?_⟩
  · obtain ⟨e, he, rfl⟩ := (inDom_relabel W).1 hy
    refine internal_consec G I (e := e) (hm _ he) fun e' he' => ?_
    obtain ⟨q, hq, rfl⟩ := List.mem_map.1 he'
    exact htop _ he hk q hq
  · obtain ⟨e, he, rfl⟩ := (inDom_relabel W).1 hy
    obtain ⟨q, hq, rfl⟩ := holds_relabel.1 hy'
    obtain ⟨i, hi, rfl⟩ := List.mem_map.1 hx
    obtain ⟨j, hj, hje⟩ := List.mem_iff_getElem.1 hx'
    change i ∈ internalInds e.ty n at hi
    change j < (ν q.2.id).length at hj
    change (ν q.2.id)[j] = (ν e.id).getD i 0 at hje
    have hi' : i < n ^ e.ty.dim := inds_lt e.ty n i (by have := G.two; omega) (G.bound e (hm _ he)) (Or.inr hi)
    have hj' : j < n ^ q.2.ty.dim := by rw [← I.len _ (hm q hq)]; exact hj
    rw [← getElem_getD hj] at hje
    exact internal_alone G (hm _ he) (hm q hq) hid (htop _ he hk q hq) hi hj' ((I.iff _ (hm _ he) _ (hm q hq) i j hi' hj').1 hje.symm)

theorem nodup_relabel (G : Geo n loc close adj nOld ((visit M).map (·.2))) (I : PInv n loc nOld ((visit M).map (·.2)) ν N) {y : Element}
    (hy : Holds (toMesh n (relabel ν M)) y) : 2 ≤ y.n ∧ y.nodes.Nodup := by
  obtain ⟨q, hq, rfl⟩ := holds_relabel.1 hy
  have hm : q.2 ∈ (visit M).map (·.2) := List.mem_map.2 ⟨q, hq, rfl⟩
  refine ⟨G.two, ?_⟩
  change (ν q.2.id).Nodup
  have hl := I.len _ hm
  rw [List.nodup_iff_injective_getElem]
  rintro ⟨i, hi⟩ ⟨j, hj⟩ h
  refine Fin.ext (G.inj _ hm i j (by omega) (by omega) ((I.iff _ hm _ hm i j (by omega) (by omega)).1 ?_))
  rw [getElem_getD hi, getElem_getD hj]; exact h

theorem apart_relabel (W : Convert.WfMesh M) (G : Geo n loc close adj nOld ((visit M).map (·.2))) (I : PInv n loc nOld ((visit M).map (·.2)) ν N) {bnds : List Nat} :
    ∀ b ∈ bnds, ∀ b' ∈ bnds, ∀ x x', InDom (toMesh n (relabel ν M)) b x → InDom (toMesh n (relabel ν M)) b' x' → x.id ≠ x'.id → ¬ x.nodes.Perm x'.nodes := by
  intro b hb b' hb' x x' hx hx' hid hp
  obtain ⟨e, he, rfl⟩ := (inDom_relabel W).1 hx
  obtain ⟨e', he', rfl⟩ := (inDom_relabel W).1 hx'
  have hm : ∀ q ∈ visit M, q.2 ∈ (visit M).map (·.2) := fun q hq => List.mem_map.2 ⟨q, hq, rfl⟩
  have m1 : e ∈ (visit M).map (·.2) := hm _ he
  have m2 : e' ∈ (visit M).map (·.2) := hm _ he'
  have hlen := hp.length_eq
  change (ν e.id).length = (ν e'.id).length at hlen
  rw [I.len _ m1, I.len _ m2] at hlen
  have hd : e.ty.dim = e'.ty.dim := Nat.pow_right_injective G.two hlen
  obtain ⟨k, hk, hno⟩ := vertex_apart G m1 m2 hid (by omega)
  have hc : corner n k < n ^ e.ty.dim := corner_lt e.ty n k (by have := G.two; omega) hk
  have hkm : (ν e.id).getD (corner n k) 0 ∈ ν e'.id := hp.subset (getD_mem (by change corner n k < (ν e.id).length; rw [I.len _ m1]; exact hc))
  obtain ⟨j, hj, hje⟩ := List.mem_iff_getElem.1 hkm
  rw [← getElem_getD hj] at hje
  have hj' : j < n ^ e'.ty.dim := by rw [← I.len _ m2]; exact hj
  obtain ⟨l, hl, _, h⟩ := G.vcorner e m1 e' m2 k j hk hj' ((I.iff _ m1 _ m2 _ _ hc hj').1 hje.symm)
  exact hno l hl h
end

end Verif.MfGen
