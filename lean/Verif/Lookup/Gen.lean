import Verif.Lookup.Spec
import Verif.Gen.Props

/-! Ids of the elements of generated meshes of any order. -/

namespace Verif.Lookup

open Verif Verif.Elem Verif.Mesh Verif.Convert Verif.Partition Verif.Pipeline Verif.Prim Verif.Basis Verif.Poly Verif.Gen

noncomputable section

/-- Ids of the elements in the vectors of a domain. -/
def vecIds (d : Domain) : List (List Nat) := d.vecs.map fun v => v.map (·.id)

/-- Both meshes have the same ids in the same vectors. -/
def SameIds (m m' : DomMap) : Prop := ∀ k, (m.lookup k).map vecIds = (m'.lookup k).map vecIds

theorem SameIds.look {m m' : DomMap} (h : SameIds m m') {k : Nat} {d' : Domain} (hd : m'.lookup k = some d') : ∃ d, m.lookup k = some d ∧ vecIds d = vecIds d' := by
  have := h k
  rw [hd] at this
  exact Option.map_eq_some_iff.1 this

theorem mem_vecIds {d : Domain} {i : Nat} : i ∈ (vecIds d).flatten ↔ ∃ e ∈ d.elems, e.id = i := by
  unfold vecIds Domain.elems
  rw [← List.map_flatten, List.mem_map]

theorem SameIds.inDom {m m' : DomMap} (h : SameIds m m') {k : Nat} {e' : Element} (he : InDom m' k e') : ∃ e, InDom m k e ∧ e.id = e'.id := by
  obtain ⟨d', hd', he'⟩ := he
  obtain ⟨d, hd, hv⟩ := h.look hd'
  have : e'.id ∈ (vecIds d').flatten := mem_vecIds.2 ⟨e', he', rfl⟩
  rw [← hv] at this
  obtain ⟨e, he, hid⟩ := mem_vecIds.1 this
  exact ⟨e, ⟨d, hd, he⟩, hid⟩

theorem SameIds.sortedIds {m m' : DomMap} (h : SameIds m m') {bnds : List Nat} (hs : SortedIds m bnds) : SortedIds m' bnds := by
  intro k d' hk hd' v' hv'
  obtain ⟨d, hd, hv⟩ := h.look hd'
  have : v'.map (·.id) ∈ vecIds d := by rw [hv]; exact List.mem_map.2 ⟨v', hv', rfl⟩
  obtain ⟨v, hvm, hvi⟩ := List.mem_map.1 this
  obtain ⟨h1, h2⟩ := hs k d hk hd v hvm
  refine ⟨hvi ▸ h1, fun e he => ?_⟩
  have : e.id ∈ v.map (·.id) := by rw [hvi]; exact List.mem_map.2 ⟨e, he, rfl⟩
  obtain ⟨e0, he0, hid⟩ := List.mem_map.1 this
  rw [← hid]
  exact h2 e0 he0

theorem SameIds.apart {m m' : DomMap} (h : SameIds m m') {bnds : List Nat} (ha : Apart m bnds) : Apart m' bnds := by
  intro b hb k hk x y e hx hy he
  obtain ⟨x0, hx0, h1⟩ := h.inDom hx
  obtain ⟨y0, hy0, h2⟩ := h.inDom hy
  obtain ⟨e0, he0, h3⟩ := h.inDom he
  rw [← h1, ← h2, ← h3]
  exact ha b hb k hk x0 y0 e0 hx0 hy0 he0

theorem lookup_relabel {D : Type} (ν : Nat → List Nat) (M : DMap D) (k : Nat) :
    (relabel ν M).lookup k = (M.lookup k).map fun d => ⟨d.dim, d.vecs.map fun v => v.map (relab ν)⟩ := by
  induction M with
  | nil => rfl
  | cons a M ih =>
    rw [relabel, List.map_cons, List.lookup_cons, List.lookup_cons]
    by_cases h : k == a.1
    · simp [h]
    · rw [relabel] at ih
      simpa [h] using ih

theorem sameIds_relabel {D : Type} (n : Nat) (ν : Nat → List Nat) (M : DMap D) : SameIds (toMesh 2 M) (toMesh n (relabel ν M)) := by
  intro k
  rw [lookup_toMesh, lookup_toMesh, lookup_relabel]
  cases M.lookup k with
  | none => rfl
  | some d =>
    simp only [Option.map_some, vecIds, List.map_map]
    congr 1
    refine List.map_congr_left fun v _ => ?_
    simp only [Function.comp_apply, List.map_map]
    rfl

variable {n : Fin 3 → Nat} {P : Fin 3 → Nat → ℝ} {W : Fin 3 → Bool} {dom : Nat} {Bs : List (Nat × Box)} {res : List Nat} {m : DomMap} {N : Nat} {roots : List ℂ} {adj : Nat → List Nat}

theorem sorted_grid (h : IsGrid n W dom Bs) (hb : Built res (number (Bs.map (emitOf n P))) m) (hsz : Bs.length ≤ 2 ^ 64) (bnds : List Nat) : SortedIds m bnds := by
  intro k d _ hd v hv
  refine ⟨built_sorted hb _ (mem_of_lookup hd) v hv, fun e he => ?_⟩
  obtain ⟨i, b, hi, rfl⟩ := (inDom_grid h hb).1 ⟨d, hd, List.mem_flatten.2 ⟨v, hv, he⟩⟩
  have := (List.getElem?_eq_some_iff.1 hi).1
  change i < 2 ^ 64
  omega

theorem apart_grid (h : IsGrid n W dom Bs) (hb : Built res (number (Bs.map (emitOf n P))) m) {bnds : List Nat} {A B : List (Nat × Box)} (hAB : Bs = A ++ B)
    (hA : ∀ q ∈ A, q.1 ∉ bnds) (hB : ∀ q ∈ B, q.1 ∈ bnds) : Apart m bnds := by
  intro b hbb k hk x y e hx _ he hc
  obtain ⟨i, b1, hi, rfl⟩ := (inDom_grid h hb).1 hx
  obtain ⟨j, b2, hj, rfl⟩ := (inDom_grid h hb).1 he
  have h1 : i ≤ j := hc.1
  rw [hAB] at hi hj
  have hj' : j < A.length := by
    by_contra hge
    rw [List.getElem?_append_right (by omega)] at hj
    exact hk (hB _ (List.mem_of_getElem? hj))
  rw [List.getElem?_append_left (by omega)] at hi
  exact hA _ (List.mem_of_getElem? hi) hbb

theorem generate_lookup (h : IsGrid n W dom Bs) (hb : Built res (number (Bs.map (emitOf n P))) m) (hP : Increasing n P)
    (two : 2 ≤ N) (bound : N ^ (axes W).length < 2 ^ 16) (eig : 4 ≤ N → LobattoRoots N roots) (sep : Separated N roots n P)
    (hadj : ∀ e ∈ (visit (meshOf n P Bs m)).map (·.2), ∀ e' ∈ (visit (meshOf n P Bs m)).map (·.2), e.id ≠ e'.id → ShareTwo e e' → e'.id ∈ adj e.id)
    {M' : DMap VData} {N' : Nat} (hgen : generate N (physLoc roots) closeTol adj (n 0 * n 1 * n 2) (meshOf n P Bs m) = some (M', N')) : SameIds m (toMesh N M') := by
  have hm : toMesh 2 (meshOf n P Bs m) = m := toMesh_withData _ (fun e he => by obtain ⟨i, q, _, rfl⟩ := (holds_grid h hb).1 he; rfl)
  unfold generate at hgen
  by_cases h2 : N = 2
  · subst h2
    rw [if_pos rfl] at hgen
    obtain ⟨rfl, rfl⟩ := Prod.mk.inj (Option.some.inj hgen)
    rw [hm]
    exact fun _ => rfl
  · rw [if_neg h2] at hgen
    obtain ⟨ν, N1, h1, _⟩ := convert_spec (wf_meshOf h hb) (geo_of (geo_grid h hb hP two bound eig sep hadj))
    rw [h1] at hgen
    obtain ⟨rfl, rfl⟩ := Prod.mk.inj (Option.some.inj hgen)
    have := sameIds_relabel N ν (meshOf n P Bs m)
    rwa [hm] at this

variable {nn nx ny nz : Nat} {dx dy dz : Nat → ℝ}

theorem square_lookup (ho : OrderOk nn roots 2) (hx : AxisOk nn roots nx dx) (hy : AxisOk nn roots ny dy) {ids : SquareIds}
    (hd : ids.domain ∉ [ids.bottom, ids.top, ids.left, ids.right])
    (hadj : ∀ m, makeSquare nx ny dx dy ids = some m → DualOf adj (withData (coordsOf (squareEmits nx ny dx dy ids)) m))
    (hsz : (squareEmits nx ny dx dy ids).length ≤ 2 ^ 64) {M : DMap VData} {K : Nat} (hM : squareOfOrder nn (physLoc roots) closeTol adj nx ny dx dy ids = some (M, K)) :
    SortedIds (toMesh nn M) (squareBnds ids) ∧ Apart (toMesh nn M) (squareBnds ids) := by
  have hg := square_grid hx.size hy.size hd
  have he := squareEmits_eq nx ny dx dy ids
  obtain ⟨m, h1, h2⟩ := built_of (P := ![dx, dy, fun _ => 0]) hg ids.list
  have hm : makeSquare nx ny dx dy ids = some m := by rw [makeSquare, he]; exact h1
  have hsame : SameIds m (toMesh nn M) := by
    refine generate_lookup (roots := roots) (adj := adj) (N' := K) hg h2 ?_ ho.two ho.bound ho.eig ?_ ?_ ?_
    · intro c i hi
      fin_cases c
      · exact hx.inc i hi
      · exact hy.inc i hi
      · exact absurd hi (by simp)
    · intro c
      fin_cases c
      · exact hx.sep
      · exact hy.sep
      · exact zero_sep nn roots
    · have := hadj m hm
      rw [he] at this
      exact this
    · rw [squareOfOrder, hm, Option.bind_some, he] at hM
      simpa using hM
  refine ⟨hsame.sortedIds (sorted_grid hg h2 (by rw [he, List.length_map] at hsz; exact hsz) _), hsame.apart (apart_grid hg h2 (bnds := squareBnds ids) (List.append_assoc _ _ _) ?_ ?_)⟩
  · intro q hq
    obtain ⟨_, _, hq⟩ := List.mem_flatMap.1 hq
    obtain ⟨_, _, rfl⟩ := List.mem_map.1 hq
    exact fun h => hd (Std.mem_sortUniq.1 h)
  · intro q hq
    refine Std.mem_sortUniq.2 ?_
    rcases List.mem_append.1 hq with hq | hq <;> obtain ⟨_, _, hq⟩ := List.mem_flatMap.1 hq <;>
      simp only [List.mem_cons, List.not_mem_nil, or_false] at hq <;> rcases hq with rfl | rfl <;> simp

theorem cube_lookup (ho : OrderOk nn roots 3) (hx : AxisOk nn roots nx dx) (hy : AxisOk nn roots ny dy) (hz : AxisOk nn roots nz dz) {ids : CubeIds}
    (hd : ids.domain ∉ [ids.back, ids.front, ids.bottom, ids.top, ids.left, ids.right])
    (hadj : ∀ m, makeCube nx ny nz dx dy dz ids = some m → DualOf adj (withData (coordsOf (cubeEmits nx ny nz dx dy dz ids)) m))
    (hsz : (cubeEmits nx ny nz dx dy dz ids).length ≤ 2 ^ 64) {M : DMap VData} {K : Nat} (hM : cubeOfOrder nn (physLoc roots) closeTol adj nx ny nz dx dy dz ids = some (M, K)) :
    SortedIds (toMesh nn M) (cubeBnds ids) ∧ Apart (toMesh nn M) (cubeBnds ids) := by
  have hg := cube_grid hx.size hy.size hz.size hd
  have he := cubeEmits_eq nx ny nz dx dy dz ids
  obtain ⟨m, h1, h2⟩ := built_of (P := ![dx, dy, dz]) hg ids.list
  have hm : makeCube nx ny nz dx dy dz ids = some m := by rw [makeCube, he]; exact h1
  have hsame : SameIds m (toMesh nn M) := by
    refine generate_lookup (roots := roots) (adj := adj) (N' := K) hg h2 ?_ ho.two ho.bound ho.eig ?_ ?_ ?_
    · intro c i hi
      fin_cases c
      · exact hx.inc i hi
      · exact hy.inc i hi
      · exact hz.inc i hi
    · intro c
      fin_cases c
      · exact hx.sep
      · exact hy.sep
      · exact hz.sep
    · have := hadj m hm
      rw [he] at this
      exact this
    · rw [cubeOfOrder, hm, Option.bind_some, he] at hM
      simpa using hM
  refine ⟨hsame.sortedIds (sorted_grid hg h2 (by rw [he, List.length_map] at hsz; exact hsz) _),
    hsame.apart (apart_grid hg h2 (bnds := cubeBnds ids) ((List.append_assoc _ _ _).trans (List.append_assoc _ _ _)) ?_ ?_)⟩
  · intro q hq
    obtain ⟨_, _, hq⟩ := List.mem_flatMap.1 hq
    obtain ⟨_, _, hq⟩ := List.mem_flatMap.1 hq
    obtain ⟨_, _, rfl⟩ := List.mem_map.1 hq
    exact fun h => hd (Std.mem_sortUniq.1 h)
  · intro q hq
    refine Std.mem_sortUniq.2 ?_
    rcases List.mem_append.1 hq with hq | hq
    · obtain ⟨_, _, hq⟩ := List.mem_flatMap.1 hq
      obtain ⟨_, _, hq⟩ := List.mem_flatMap.1 hq
      simp only [List.mem_cons, List.not_mem_nil, or_false] at hq
      rcases hq with rfl | rfl <;> simp
    · rcases List.mem_append.1 hq with hq | hq <;> obtain ⟨_, _, hq⟩ := List.mem_flatMap.1 hq <;> obtain ⟨_, _, hq⟩ := List.mem_flatMap.1 hq <;>
        simp only [List.mem_cons, List.not_mem_nil, or_false] at hq <;> rcases hq with rfl | rfl <;> simp

end

end Verif.Lookup
