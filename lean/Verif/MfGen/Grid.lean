import Verif.MfGen.Size
namespace Verif.MfGen
open Verif Verif.Elem Verif.Split Verif.Mesh Verif.Partition Verif.Pipeline Verif.LocView Verif.Convert Verif.Gen Verif.MfPipe Verif.Prim Verif.Basis Verif.Poly

noncomputable section
variable {n : Fin 3 → Nat} {P : Fin 3 → Nat → ℝ} {W : Fin 3 → Bool} {dom : Nat} {Bs : List (Nat × Box)} {res : List Nat} {m : DomMap} {N : Nat} {roots : List ℂ} {adj : Nat → List Nat}

theorem mf_conversion {n : Nat} {nOld : Nat} {X : Nat → Nat → ℝ} {M : DMap VData} {bnds : List Nat} {dim : Nat}
    (W : Convert.WfMesh M) (G : GeoMesh n roots adj nOld X ((visit M).map (·.2))) (R : Ready 2 (toMesh 2 M) bnds dim nOld)
    (htop : ∀ q ∈ visit M, q.1 ∉ bnds → ∀ q' ∈ visit M, q'.2.ty.dim ≤ q.2.ty.dim) (hb : ∀ b ∈ bnds, b < invalidDom) :
    ∃ M' N, generate n (physLoc roots) closeTol adj nOld M = some (M', N) ∧ Ready n (toMesh n M') bnds dim N ∧ Inner (toMesh n M') bnds ∧ MfMesh (toMesh n M') bnds ∧
      (visit M').map keyOf = (visit M).map keyOf := by
  obtain ⟨M', N, h1, R'⟩ := C119_conversion W G R
  refine ⟨M', N, h1, R', ?_⟩
  unfold generate at h1
  by_cases h2 : n = 2
  · subst h2
    rw [if_pos rfl] at h1
    obtain ⟨rfl, rfl⟩ := Prod.mk.inj (Option.some.inj h1)
    refine ⟨inner_linear fun e he => ?_, ⟨fun e he => ?_, hb, R.uni, single_of R.ok (apart_linear W (geo_of G) R.ok)⟩, rfl⟩
    · obtain ⟨q, _, rfl⟩ := holds_toMesh.1 he; rfl
    · obtain ⟨q, hq, rfl⟩ := holds_toMesh.1 he
      exact ⟨Nat.le_refl 2, nodes_nodup (geo_of G) (e := q.2) (List.mem_map.2 ⟨q, hq, rfl⟩)⟩
  · rw [if_neg h2] at h1
    obtain ⟨ν, N', h3, I⟩ := convert_spec W (geo_of G)
    rw [h3] at h1
    obtain ⟨rfl, rfl⟩ := Prod.mk.inj (Option.some.inj h1)
    refine ⟨inner_relabel W (geo_of G) I htop, ⟨fun e he => nodup_relabel (geo_of G) I he, hb, R'.uni, single_of R'.ok (apart_relabel W (geo_of G) I)⟩, ?_⟩
    rw [visit_relabel, List.map_map]
    rfl

theorem mf_grid (h : IsGrid n W dom Bs) (hb : Built res (number (Bs.map (emitOf n P))) m) (hP : Increasing n P)
    (two : 2 ≤ N) (bound : N ^ (axes W).length < 2 ^ 16) (eig : 4 ≤ N → LobattoRoots N roots) (sep : Separated N roots n P)
    (hadj : ∀ e ∈ (visit (meshOf n P Bs m)).map (·.2), ∀ e' ∈ (visit (meshOf n P Bs m)).map (·.2), e.id ≠ e'.id → ShareTwo e e' → e'.id ∈ adj e.id)
    {bnds : List Nat} (hs : bnds.Pairwise (· < ·)) (hbd : ∀ b ∈ bnds, b ≠ dom ∧ ∃ x, (b, x) ∈ Bs) (hall : ∀ q ∈ Bs, q.1 = dom ∨ q.1 ∈ bnds) (hlt : ∀ b ∈ bnds, b < invalidDom) :
    ∃ M' N', generate N (physLoc roots) closeTol adj (n 0 * n 1 * n 2) (meshOf n P Bs m) = some (M', N') ∧
      Ready N (toMesh N M') bnds ((axes W).length - 1) N' ∧ Inner (toMesh N M') bnds ∧ MfMesh (toMesh N M') bnds ∧
      (N ^ (axes W).length * Bs.length < 2 ^ 32 - 1 → Small (toMesh N M') N') := by
  have R := ready_grid h hb hs hbd
  have hm : toMesh 2 (meshOf n P Bs m) = m := toMesh_withData _ (fun e he => by obtain ⟨i, q, _, rfl⟩ := (holds_grid h hb).1 he; rfl)
  have R2 : Ready 2 (toMesh 2 (meshOf n P Bs m)) bnds ((axes W).length - 1) (n 0 * n 1 * n 2) := by rw [hm]; exact R
  have htop : ∀ q ∈ visit (meshOf n P Bs m), q.1 ∉ bnds → ∀ q' ∈ visit (meshOf n P Bs m), q'.2.ty.dim ≤ q.2.ty.dim := by
    rintro ⟨k, e⟩ hq hk ⟨k', e'⟩ hq'
    obtain ⟨i, b, hi, rfl⟩ := (mem_meshOf h hb).1 hq
    obtain ⟨i', b', hi', rfl⟩ := (mem_meshOf h hb).1 hq'
    have hb1 := List.mem_of_getElem? hi
    have hb2 := List.mem_of_getElem? hi'
    have hkd : k = dom := (hall _ hb1).resolve_right hk
    have hw : b.w = W := h.main _ hb1 hkd
    change (tyOf b'.w).dim ≤ (tyOf b.w).dim
    rw [hw, axes_length W h.nonempty]
    by_cases hd : k' = dom
    · rw [show b'.w = W from h.main _ hb2 hd, axes_length W h.nonempty]
    · obtain ⟨_, c, hc, hw', _⟩ := h.rest _ hb2 hd
      have hne : axes b'.w ≠ [] := h.ne hb2
      rw [axes_length _ hne, show b'.w = drop W c from hw']
      have := length_drop hc
      omega
  obtain ⟨M', N', h1, h2, h3, h4, h5⟩ := mf_conversion (wf_meshOf h hb) (geo_grid h hb hP two bound eig sep hadj) R2 htop hlt
  refine ⟨M', N', h1, h2, h3, h4, fun hsz => ?_⟩
  have hlen : (visit M').length ≤ Bs.length := by
    refine keys_length (wf_meshOf h hb).sorted R2 ?_ h5
    rintro ⟨k, e⟩ hq
    obtain ⟨i, b, hi, rfl⟩ := (mem_meshOf h hb).1 hq
    exact (List.getElem?_eq_some_iff.1 hi).1
  refine small_of h2 (d := (axes W).length) ?_ (by omega) (lt_of_le_of_lt (Nat.mul_le_mul_left _ hlen) hsz)
  intro q hq
  have h6 : keyOf q ∈ (visit (meshOf n P Bs m)).map keyOf := h5 ▸ List.mem_map.2 ⟨q, hq, rfl⟩
  obtain ⟨⟨k, e⟩, hq', heq⟩ := List.mem_map.1 h6
  obtain ⟨i, b, hi, rfl⟩ := (mem_meshOf h hb).1 hq'
  have h7 : tyOf b.w = q.2.ty := congrArg (fun z => z.2.1) heq
  rw [← h7, h.dim (List.mem_of_getElem? hi)]
  split <;> omega
end
end Verif.MfGen
