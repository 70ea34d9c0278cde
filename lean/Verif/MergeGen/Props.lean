import Verif.MergeGen.Sample
import Verif.ExtGen.Props

/-! # C128, C129: meshes merged by the positions of their nodes, and the cylinder meshes -/
namespace Verif.MergeGen
open Verif Verif.Elem Verif.Mesh Verif.Split Verif.Partition Verif.Merge Verif.Gen Verif.Pipeline Verif.Prim Verif.Cyl

/-! ## C128: merging -/

/-- **C128** (matching).  If nodes at different places are farther apart than the tolerance, the search finds exactly the pairs of boundary nodes at the same place, whatever
the order in which the hash maps are iterated. -/
theorem C128_match {D N1 N2 : Nat} {A B : Part} {pos1 pos2 : Nat → Pt} (hA : Block A N1 pos1 D) (hB : Block B N2 pos2 D) (hlen : ∀ y, (pos2 y).length = 3) (hsep : Apart A B pos1 pos2)
    {o1 o2 : List (Nat × Pt) → List (Nat × Pt)} (h1 : ∀ l, (o1 l).Perm l) (h2 : ∀ l, (o2 l).Perm l) (x y : Nat) :
    (matchMap o1 o2 A B pos1 pos2).find y = some x ↔ BndNode A x ∧ BndNode B y ∧ pos1 x = pos2 y :=
  (matchOk hA hB hlen hsep h1 h2).find y x

/-- **C128** (two meshes).  Two meshes of order 1 which meet in boundary faces only are merged to a mesh with the elements of both at the same places, without the faces they
have in common; each place has one node, and the merged mesh gives the same answer on any distribution. -/
theorem C128_merge {D : Nat} {A B : LMesh} {o : Orders} (ho : o.Ok) (hA : Located D A) (hB : Located D B) (hf : Fits D A.size B.size A.part B.part A.pos B.pos)
    (hs : Apart A.part B.part A.pos B.pos) :
    ∃ M, mergeMeshes o A B = some M ∧ Ready 2 M.part.doms (bids M.part) D M.size ∧ SameAnswer 2 M.part.doms (bids M.part) ∧
      (∀ x y, x < M.size → y < M.size → M.pos x = M.pos y → x = y) ∧
      (∀ k ty ps, Cell M.part M.pos k ty ps ↔ (Cell A.part A.pos k ty ps ∧ ¬ (k ∈ bids A.part ∧ Face B.part B.pos ps)) ∨
        (Cell B.part B.pos k ty ps ∧ ¬ (k ∈ bids B.part ∧ Face A.part A.pos ps))) ∧
      ∀ b, b ∈ bids M.part ↔ (b ∈ bids A.part ∨ b ∈ bids B.part) ∧ els M.part.doms b ≠ [] := by
  obtain ⟨M, h1, h2, h3, h4⟩ := merge_two ho hA hB hf hs
  exact ⟨M, h1, h2.block.ready, h2.block.ready.answer, h2.block.inj, h3, h4⟩

/-- **C128** (many meshes).  The same for any number of meshes merged one after the other: what remains are the elements of all of them, without the faces which two of them
have in common. -/
theorem C128_all {D : Nat} {A : LMesh} {Bs : List LMesh} (hF : FitAll D (A :: Bs)) {o : Nat → Orders} (ho : ∀ i, (o i).Ok) :
    ∃ M, mergeAll o A Bs = some M ∧ Ready 2 M.part.doms (bids M.part) D M.size ∧ SameAnswer 2 M.part.doms (bids M.part) ∧
      (∀ x y, x < M.size → y < M.size → M.pos x = M.pos y → x = y) ∧
      ∀ k ty ps, Cell M.part M.pos k ty ps ↔
        ∃ (i : Nat) (B : LMesh), (A :: Bs)[i]? = some B ∧ Cell B.part B.pos k ty ps ∧ ¬ (k ∈ bids B.part ∧ ∃ (i' : Nat) (B' : LMesh), i' ≠ i ∧ (A :: Bs)[i']? = some B' ∧ Face B'.part B'.pos ps) := by
  obtain ⟨M, h1, h2⟩ := merge_all hF ho
  refine ⟨M, h1, h2.located.block.ready, h2.located.block.ready.answer, h2.located.block.inj, fun k ty ps => ?_⟩
  rw [h2.cells]
  have lt : ∀ {i : Nat} {B : LMesh}, (A :: Bs)[i]? = some B → i < Bs.length + 1 := fun h => (List.getElem?_eq_some_iff.1 h).1
  constructor
  · rintro ⟨i, B, _, hB, hc, hn⟩
    exact ⟨i, B, hB, hc, fun ⟨hk, i', B', h3, h4, h5⟩ => hn ⟨hk, i', B', lt h4, h3, h4, h5⟩⟩
  · rintro ⟨i, B, hB, hc, hn⟩
    exact ⟨i, B, lt hB, hB, hc, fun ⟨hk, i', B', _, h3, h4, h5⟩ => hn ⟨hk, i', B', h3, h4, h5⟩⟩

/-- **C128** (deformed squares).  Squares made by the library, deformed so that they fit, are merged. -/
theorem C128_squares {dom : Nat} {bs : List Sq} (h : SqFit dom bs) (hne : bs ≠ []) {ord : Nat → Nat → List Element → List Element} (hord : ∀ i k l, (ord i k l).Perm l)
    {o : Nat → Orders} (ho : ∀ i, (o i).Ok) :
    ∃ M, (blockMeshes ord (bs.map Sq.ids) (bs.map Sq.emits)).bind (mergeList o) = some M ∧ Joined (bs.map Sq.emits) M ∧ SameAnswer 2 M.part.doms (bids M.part) := by
  obtain ⟨M, h1, h2⟩ := joined h hne hord ho
  exact ⟨M, h1, h2, h2.ready.answer⟩

/-- Iteration in the order of insertion. -/
def plain : Orders := ⟨id, id, fun _ l => l⟩

theorem plain_ok : plain.Ok := ⟨fun _ => .refl _, fun _ => .refl _, fun _ _ => .refl _⟩

/-- Two unit squares side by side: two cells, and the edge between them is gone. -/
example : ∃ M, (blockMeshes (fun _ _ l => l) [⟨0, 1, 2, 3, 4⟩, ⟨0, 1, 2, 3, 4⟩] [(unitSq 0).emits, (unitSq 1).emits]).bind (mergeList fun _ => plain) = some M ∧
    Joined [(unitSq 0).emits, (unitSq 1).emits] M := by
  obtain ⟨M, h1, h2, _⟩ := C128_squares pair_fit (by simp) (ord := fun _ _ l => l) (fun _ _ _ => .refl _) (o := fun _ => plain) fun _ => plain_ok
  exact ⟨M, h1, h2⟩

/-- They are blocks which fit, so that the other theorems apply too. -/
example : ∃ A B, FitAll 1 [A, B] ∧ A.part.doms ≠ [] := by
  obtain ⟨Ms, _, h2⟩ := meshes_ok pair_fit (fun _ _ l => l) (fun _ _ _ => .refl _) 0
  match Ms, h2 with
  | [A, B], h2 =>
    refine ⟨A, B, fitAll_of pair_fit h2, fun h => ?_⟩
    have hA := (fitAll_of pair_fit h2).located A (by simp)
    obtain ⟨b, hb, hq⟩ := h2.get (i := 0) rfl
    obtain ⟨e, he, _⟩ := at_mem (pair_fit.ok b (List.mem_of_getElem? hb)) (x := 0) (y := 0) (Nat.zero_le _) (Nat.zero_le _)
    have hc : Cell A.part A.pos e.dom e.ty (e.verts.map ptOf) := (hq.cells _ _ _).2 ⟨e, he, rfl, rfl, rfl⟩
    have := hc.key
    rw [h] at this
    exact absurd this (by simp)

/-! ## C128: the tolerance -/

/-- What `match` suggests: a node within the tolerance of a node of the table is matched. -/
def C128FindStatement : Prop := ∀ (l : List (Nat × Pt)) (x y : Nat) (p q : Pt), p.length = 3 → q.length = 3 → (x, p) ∈ l → close q p = true →
  ∃ x', (matchExisting (table l).proximate close [(y, q)]).find y = some x'

theorem flat_snap (z : ℝ) : (Spatial.Table.new (τ := Nat) minDx (gridStep [[0, 0, 0]]) (origin [[0, 0, 0]])).snap [0, 0, z] = [0, 0, Spatial.lround (z / minDx)] := by
  have h0 : ∀ c, ([0, 0, 0] : List ℝ).getD c 0 = 0 := by
    intro c
    match c with
    | 0 => rfl
    | 1 => rfl
    | 2 => rfl
    | _ + 3 => rfl
  have hl : ∀ c, lowest [[0, 0, 0]] c = 0 := fun c => h0 c
  have hh : ∀ c, highest [[0, 0, 0]] c = 0 := fun c => by
    have : highest [[0, 0, 0]] c = -(-([0, 0, 0] : List ℝ).getD c 0) := rfl
    rw [this, h0]; simp
  have hr : Spatial.lround (0 : ℝ) = 0 := by unfold Spatial.lround; norm_num
  have hm : max |(0 : ℝ)| minDx = minDx := by rw [abs_zero]; exact max_eq_right (by unfold minDx; positivity)
  simp only [Spatial.Table.snap, Spatial.Table.new, gridStep, origin, List.map_cons, List.map_nil, hl, hh, sub_zero, mul_zero, add_zero, hm, List.zip_cons_cons, List.zip_nil_right, zero_div, hr]

theorem flat_prox {z : ℝ} {c : Pt × Nat} : c ∈ (table [(0, [0, 0, 0])]).proximate [0, 0, z] ↔ c = ([0, 0, 0], 0) ∧ |Spatial.lround (z / minDx)| ≤ 1 := by
  rw [mem_prox _ (by rfl)]
  simp only [List.mem_singleton, Prod.mk.injEq, List.map_cons, List.map_nil]
  constructor
  · rintro ⟨⟨h1, h2⟩, h3⟩
    refine ⟨Prod.ext h2 h1, ?_⟩
    rw [h2, flat_snap, flat_snap] at h3
    unfold Spatial.Near at h3
    simp only [List.forall₂_cons, zero_div] at h3
    have hr : Spatial.lround (0 : ℝ) = 0 := by unfold Spatial.lround; norm_num
    have := h3.2.2.1
    rw [hr] at this
    rw [abs_le]
    have h4 := abs_le.1 (by simpa using this : |Spatial.lround (z / minDx)| ≤ 1)
    exact h4
  · rintro ⟨rfl, h⟩
    refine ⟨⟨rfl, rfl⟩, ?_⟩
    rw [flat_snap, flat_snap]
    have hr : Spatial.lround (0 : ℝ) = 0 := by unfold Spatial.lround; norm_num
    unfold Spatial.Near
    simp only [List.forall₂_cons, zero_div, hr]
    refine ⟨by simp, by simp, ?_, List.Forall₂.nil⟩
    simpa using h

theorem flat_close (z : ℝ) : close [0, 0, z] [0, 0, 0] = true ↔ |z| < 1 / 10 ^ 12 := by
  unfold close
  rw [decide_eq_true_eq]
  have : (((([0, 0, z] : List ℝ).zip [0, 0, 0]).map fun r => (r.1 - r.2) * (r.1 - r.2)).sum) = z ^ 2 := by simp; ring
  rw [this, Real.sqrt_sq_eq_abs]

/-- **C128** violated: on a flat mesh the search looks at most one and a half steps of `256 ε` out of the plane, which is much less than the tolerance. -/
theorem C128_find_violated : ¬ C128FindStatement := by
  intro h
  obtain ⟨x, hx⟩ := h [(0, [0, 0, 0])] 0 7 [0, 0, 0] [0, 0, 5 / 10 ^ 13] rfl rfl (by simp) ((flat_close _).2 (by rw [abs_of_pos (by norm_num)]; norm_num))
  have hne : (table [(0, [0, 0, 0])]).proximate [0, 0, 5 / 10 ^ 13] = [] := by
    rw [List.eq_nil_iff_forall_not_mem]
    intro c hc
    have h1 := (flat_prox.1 hc).2
    have h2 : (8 : Int) ≤ Spatial.lround ((5 / 10 ^ 13 : ℝ) / minDx) := by
      unfold Spatial.lround minDx
      rw [if_pos (by positivity), Int.le_floor]
      norm_num
    have h3 := le_abs_self (Spatial.lround ((5 / 10 ^ 13 : ℝ) / minDx))
    omega
  simp [matchExisting, hne, Algo.AMap.find] at hx

/-- What the merge relies on: matched nodes are at the same place. -/
def C128PlaceStatement : Prop := ∀ (l : List (Nat × Pt)) (x y : Nat) (q : Pt), q.length = 3 → (matchExisting (table l).proximate close [(y, q)]).find y = some x → (x, q) ∈ l

/-- **C128** violated: the tolerance does not depend on the size of the mesh, so different nodes of a small enough mesh are matched. -/
theorem C128_place_violated : ¬ C128PlaceStatement := by
  intro h
  have hp : ([0, 0, 0], 0) ∈ (table [(0, [0, 0, 0])]).proximate [0, 0, 1 / 10 ^ 14] := by
    refine flat_prox.2 ⟨rfl, ?_⟩
    have h2 : Spatial.lround ((1 / 10 ^ 14 : ℝ) / minDx) = 0 := by
      unfold Spatial.lround minDx
      rw [if_pos (by positivity), Int.floor_eq_iff]
      norm_num
    rw [h2]; simp
  have hc : close [0, 0, 1 / 10 ^ 14] [0, 0, 0] = true := (flat_close _).2 (by rw [abs_of_pos (by norm_num)]; norm_num)
  cases hf : ((table [(0, [0, 0, 0])]).proximate [0, 0, 1 / 10 ^ 14]).find? fun c => close [0, 0, 1 / 10 ^ 14] c.1 with
  | none => exact absurd hc (List.find?_eq_none.1 hf _ hp)
  | some c =>
    have hcm := (flat_prox.1 (List.mem_of_find?_eq_some hf)).1
    subst hcm
    have hm : matchExisting (table [(0, [0, 0, 0])]).proximate close [(7, [0, 0, 1 / 10 ^ 14])] = [(7, 0)] := by
      unfold matchExisting
      rw [List.filterMap_cons, hf]
      rfl
    have := h [(0, [0, 0, 0])] 0 7 [0, 0, 1 / 10 ^ 14] rfl (by rw [hm]; rfl)
    simp at this

/-- **C128** (partial: places nearer than the tolerance are only found within a step of the grid).  A node which is found is nearer than the tolerance, and a node which is at
the place of a node of the table is found. -/
theorem C128_tolerance_partial (l : List (Nat × Pt)) (y : Nat) (q : Pt) (hq : q.length = 3) :
    (∀ x, (matchExisting (table l).proximate close [(y, q)]).find y = some x → ∃ p, (x, p) ∈ l ∧ close q p = true) ∧
      ∀ x, (x, q) ∈ l → ∃ x', (matchExisting (table l).proximate close [(y, q)]).find y = some x' := by
  constructor
  · intro x hx
    cases hf : ((table l).proximate q).find? fun c => close q c.1 with
    | none => simp [matchExisting, hf, Algo.AMap.find] at hx
    | some c =>
      simp [matchExisting, hf, Algo.AMap.find] at hx
      subst hx
      exact ⟨c.1, ((mem_prox l hq).1 (List.mem_of_find?_eq_some hf)).1, by simpa using List.find?_some hf⟩
  · intro x hx
    cases hf : ((table l).proximate q).find? fun c => close q c.1 with
    | none => exact absurd (close_self q) (List.find?_eq_none.1 hf (q, x) ((mem_prox l hq).2 ⟨hx, near_self _⟩))
    | some c => exact ⟨c.2, by simp [matchExisting, hf, Algo.AMap.find]⟩

/-! ## C129: the cylinder meshes -/

/-- Areas are in the domain, which has nothing else. -/
def OneArea (dom : Nat) (M : LMesh) : Prop := ∀ k, ∀ e ∈ els M.part.doms k, e.ty = .quad ↔ k = dom

/-- An edge of the mesh with vertices at the given points. -/
def EdgeAt (M : LMesh) (k : Nat) (vs : List Cyl.Pt) : Prop := ∃ e ∈ els M.part.doms k, e.ty = .line ∧ e.nodes.map M.pos = vs.map ptOf

theorem Meets.shared {bs : List (List (Emit Cyl.Pt))} {a : Nat} {e : Emit Cyl.Pt} (h : Meets bs a e) : Shared bs a e := by
  obtain ⟨b, B', h1, h2, e', h3, h4, h5⟩ := h
  exact ⟨b, B', h1, h2, e', h3, h4, h5 ▸ .refl _⟩

theorem Free.bnd {bs : List (List (Emit Cyl.Pt))} {M : LMesh} (J : Joined bs M) {k : Nat} (h : Free bs k) : k ∈ bids M.part := by
  obtain ⟨a, B, hB, e, he, h1, h2, h3⟩ := h
  obtain ⟨x, hx, ht, _⟩ := (J.cells k .line (e.verts.map ptOf)).2 ⟨a, B, hB, e, he, h1, h2, rfl, fun h => h3 h.2⟩
  exact (J.bnds k).2 ⟨x, hx, ht⟩

theorem oneArea {dom : Nat} {bs : List Sq} {M : LMesh} (h : SqFit dom bs) (J : Joined (bs.map Sq.emits) M) : OneArea dom M := by
  intro k e he
  obtain ⟨a, B, hB, e', he', hk, ht, _⟩ := (J.cells k e.ty _).1 ⟨e, he, rfl, rfl⟩
  rw [List.getElem?_map, Option.map_eq_some_iff] at hB
  obtain ⟨b, hb, rfl⟩ := hB
  have hbm := List.mem_of_getElem? hb
  have ok := h.ok b hbm
  rw [← ht, ← hk]
  constructor
  · intro hq
    obtain ⟨_, _, _, _, hd, _⟩ := mem_quad ok.lenx ok.leny he' hq
    exact hd.trans (h.dom b hbm).1
  · intro hd
    refine (ty_cases he').resolve_right fun hl => ?_
    have := (line_bedge ok.lenx ok.leny he' hl).1
    rw [hd] at this
    exact (h.dom b hbm).2 (Std.mem_sortUniq.1 this)

section
variable {ord : Nat → Nat → List Element → List Element} {o : Nat → Orders} {g : Geom}

/-- **C129** (partial: the inner radius must be positive, the domain id must not be 1, 2, 3, 4, and vertices must not be too close).  The mesh of a cylinder in a channel is
made, from the blocks of C104, without the edges between blocks; it is ready for distribution, its areas are the domain, its boundaries are exactly the four sides of the
channel and the cylinder, and every edge lies on the side (or on the cylinder) it is said to belong to. -/
theorem C129_cylinder_partial {i : Ids} (hg : g.correct) (hr : 0 < g.rInner) (hd : i.domain ∉ [1, 2, 3, 4, i.bottom, i.top, i.left, i.right, i.cylinder])
    (hord : ∀ a k l, (ord a k l).Perm l) (ho : ∀ a, (o a).Ok) (hfar : ∀ bs, makeCylinder g i = some bs → Far bs) :
    ∃ bs M, makeCylinder g i = some bs ∧ cylinderMesh ord o g i = some M ∧ Joined bs M ∧ OneArea i.domain M ∧
      (∀ b, b ∈ bids M.part ↔ b ∈ [i.bottom, i.top, i.left, i.right, i.cylinder]) ∧
      ∀ k vs, EdgeAt M k vs → (∃ s, s < 4 ∧ k = i.side s ∧ ∀ v ∈ vs, g.onSide s v) ∨ (k = i.cylinder ∧ ∀ v ∈ vs, g.onCyl v) := by
  obtain ⟨m, rad, cir, ys, X, hf, d1, d2, d3, dX, heq⟩ := blocks_eq hg hr i
  have hmk : makeCylinder g i = some ((cylSq g i m rad cir ys X).map Sq.emits) := (makeCylinder_eq hg i).trans heq
  have ok : ∀ b ∈ cylSq g i m rad cir ys X, b.Ok := by
    intro b hb
    obtain ⟨j, hj⟩ := List.mem_iff_getElem?.1 hb
    obtain ⟨_, _, h⟩ := forall₂_get (cyl_kinds hf d1 d2 d3 dX) hj
    exact h.ok
  have fit := cyl_fit hf d1 d2 d3 dX hd (farApart_of ok (hfar _ hmk))
  obtain ⟨M, h1, J⟩ := joined fit (by simp [cylSq]) hord ho
  obtain ⟨bs', h2, h3⟩ := C104_interfaces_partial g i hg hr
  obtain rfl : bs' = _ := Option.some.inj (h2.symm.trans hmk)
  have main : ∀ k vs, EdgeAt M k vs → (∃ s, s < 4 ∧ k = i.side s ∧ ∀ v ∈ vs, g.onSide s v) ∨ (k = i.cylinder ∧ ∀ v ∈ vs, g.onCyl v) := by
    rintro k vs ⟨e, he, ht, hp⟩
    obtain ⟨a, B, hB, e', he', rfl, ht', hv, hn⟩ := (J.cells k .line (vs.map ptOf)).1 ⟨e, he, ht, hp⟩
    have hvs : e'.verts = vs := List.map_injective_iff.2 (fun _ _ => ptOf_inj) hv
    subst hvs
    rcases h3 a B hB e' he' ht' with h | h | h
    · exact .inl h
    · exact .inr h
    · exact absurd ⟨rfl, Meets.shared h⟩ hn
  refine ⟨_, M, hmk, ?_, J, oneArea fit J, fun b => ⟨fun hb => ?_, fun hb => ?_⟩, main⟩
  · show (makeCylinder g i).bind _ = _
    rw [hmk]
    exact h1
  · obtain ⟨e, he, ht⟩ := (J.bnds b).1 hb
    obtain ⟨a, B, hB, e', he', hk, ht', hv, hn⟩ := (J.cells b .line (e.nodes.map M.pos)).1 ⟨e, he, ht, rfl⟩
    rcases main b e'.verts ⟨e, he, ht, hv.symm⟩ with ⟨s, hs, rfl, _⟩ | ⟨rfl, _⟩
    · interval_cases s <;> simp [Ids.side]
    · simp
  · obtain ⟨f1, f2⟩ := cyl_free (i := i) hf d1 d2 d3 dX
    simp only [List.mem_cons, List.not_mem_nil, or_false] at hb
    rcases hb with rfl | rfl | rfl | rfl | rfl
    · exact Free.bnd J (f1 3 (by omega))
    · exact Free.bnd J (f1 1 (by omega))
    · exact Free.bnd J (f1 2 (by omega))
    · exact Free.bnd J (f1 0 (by omega))
    · exact Free.bnd J f2

/-- **C129** (half cylinder; partial as for the cylinder).  The same for the half cylinder, whose boundaries are the three sides of the channel, the two parts of the axis
and the cylinder. -/
theorem C129_half_partial {i : HalfIds} (hg : g.halfCorrect) (hr : 0 < g.rInner) (hd : i.domain ∉ [1, 2, 3, 4, i.bottomLeft, i.cylinder, i.bottomRight, i.top, i.left, i.right])
    (hord : ∀ a k l, (ord a k l).Perm l) (ho : ∀ a, (o a).Ok) (hfar : ∀ bs, makeHalf g i = some bs → Far bs) :
    ∃ bs M, makeHalf g i = some bs ∧ halfCylinderMesh ord o g i = some M ∧ Joined bs M ∧ OneArea i.domain M ∧ SameAnswer 2 M.part.doms (bids M.part) ∧
      (∀ b, b ∈ bids M.part ↔ b ∈ [i.bottomLeft, i.cylinder, i.bottomRight, i.top, i.left, i.right]) ∧
      ∀ k vs, EdgeAt M k vs → (∃ s, s < 3 ∧ k = i.side s ∧ ∀ v ∈ vs, g.onSide s v) ∨ (k = i.bottomRight ∧ ∀ v ∈ vs, v.2.1 = 0 ∧ 0 < v.1) ∨
        (k = i.bottomLeft ∧ ∀ v ∈ vs, v.2.1 = 0 ∧ v.1 < 0) ∨ (k = i.cylinder ∧ ∀ v ∈ vs, g.onCyl v) := by
  obtain ⟨m, rad, cir, y0, y1, y2, X, hf, d1, d2, d3, d4, d5, dX, heq⟩ := half_eq hg hr i
  have hmk : makeHalf g i = some ((halfSq g i m rad cir y0 y1 y2 X).map Sq.emits) := (makeHalf_eq hg i).trans heq
  have ok : ∀ b ∈ halfSq g i m rad cir y0 y1 y2 X, b.Ok := by
    intro b hb
    obtain ⟨j, hj⟩ := List.mem_iff_getElem?.1 hb
    obtain ⟨_, _, h⟩ := forall₂_get (half_kinds hf d1 d2 d3 d4 d5 dX) hj
    exact h.ok
  have fit := half_fit hf d1 d2 d3 d4 d5 dX hd (farApart_of ok (hfar _ hmk))
  obtain ⟨M, h1, J⟩ := joined fit (by simp [halfSq]) hord ho
  obtain ⟨bs', h2, h3⟩ := C104_half_interfaces_partial g i hg hr
  obtain rfl : bs' = _ := Option.some.inj (h2.symm.trans hmk)
  have main : ∀ k vs, EdgeAt M k vs → (∃ s, s < 3 ∧ k = i.side s ∧ ∀ v ∈ vs, g.onSide s v) ∨ (k = i.bottomRight ∧ ∀ v ∈ vs, v.2.1 = 0 ∧ 0 < v.1) ∨
        (k = i.bottomLeft ∧ ∀ v ∈ vs, v.2.1 = 0 ∧ v.1 < 0) ∨ (k = i.cylinder ∧ ∀ v ∈ vs, g.onCyl v) := by
    rintro k vs ⟨e, he, ht, hp⟩
    obtain ⟨a, B, hB, e', he', rfl, ht', hv, hn⟩ := (J.cells k .line (vs.map ptOf)).1 ⟨e, he, ht, hp⟩
    have hvs : e'.verts = vs := List.map_injective_iff.2 (fun _ _ => ptOf_inj) hv
    subst hvs
    rcases h3 a B hB e' he' ht' with h | h | h | h | h
    · exact .inl h
    · exact .inr (.inl h)
    · exact .inr (.inr (.inl h))
    · exact .inr (.inr (.inr h))
    · exact absurd ⟨rfl, Meets.shared h⟩ hn
  refine ⟨_, M, hmk, ?_, J, oneArea fit J, J.ready.answer, fun b => ⟨fun hb => ?_, fun hb => ?_⟩, main⟩
  · show (makeHalf g i).bind _ = _
    rw [hmk]
    exact h1
  · obtain ⟨e, he, ht⟩ := (J.bnds b).1 hb
    obtain ⟨a, B, hB, e', he', hk, ht', hv, hn⟩ := (J.cells b .line (e.nodes.map M.pos)).1 ⟨e, he, ht, rfl⟩
    rcases main b e'.verts ⟨e, he, ht, hv.symm⟩ with ⟨s, hs, rfl, _⟩ | ⟨rfl, _⟩ | ⟨rfl, _⟩ | ⟨rfl, _⟩
    · interval_cases s <;> simp [HalfIds.side]
    · simp
    · simp
    · simp
  · exact Free.bnd J (half_free (i := i) hf d1 d2 d3 d4 d5 dX b hb)

/-- **C129** (answer; partial as for the cylinder).  Programs run on the cylinder mesh give the same answer on any distribution. -/
theorem C129_answer_partial {i : Ids} (hg : g.correct) (hr : 0 < g.rInner) (hd : i.domain ∉ [1, 2, 3, 4, i.bottom, i.top, i.left, i.right, i.cylinder])
    (hord : ∀ a k l, (ord a k l).Perm l) (ho : ∀ a, (o a).Ok) (hfar : ∀ bs, makeCylinder g i = some bs → Far bs) :
    ∃ M, cylinderMesh ord o g i = some M ∧ SameAnswer 2 M.part.doms (bids M.part) := by
  obtain ⟨_, M, _, h1, J, _⟩ := C129_cylinder_partial hg hr hd hord ho hfar
  exact ⟨M, h1, J.ready.answer⟩

theorem planar_of {bs : List (List (Emit Cyl.Pt))} {M : LMesh} (J : Joined bs M) (hne : ∃ B ∈ bs, ∃ e ∈ B, e.ty = .quad) :
    ExtGen.Planar M.part.doms (bids M.part) M.size := by
  have wf := J.ready.ok.wf
  have key : ∀ {e}, Holds M.part.doms e → ∃ k, e ∈ els M.part.doms k := fun he => by
    obtain ⟨k, hk⟩ := (holds_iff_inDom wf).1 he
    exact ⟨k, mem_els.2 hk⟩
  refine ⟨J.ready, fun e he => ?_, fun e e' he he' hq hq' hp => ?_, ?_⟩
  · obtain ⟨k, hk⟩ := key he
    rcases J.types k e hk with h | h <;> rw [h] <;> simp
  · obtain ⟨k, hk⟩ := key he
    obtain ⟨k', hk'⟩ := key he'
    exact J.distinct k k' e hk e' hk' hq hq' hp
  · obtain ⟨B, hB, e, he, hq⟩ := hne
    obtain ⟨a, ha⟩ := List.mem_iff_getElem?.1 hB
    obtain ⟨x, hx, ht, _⟩ := (J.cells e.dom .quad (e.verts.map ptOf)).2 ⟨a, B, ha, e, he, rfl, hq, rfl, by simp⟩
    exact ⟨x, (holds_iff_inDom wf).2 ⟨_, mem_els.1 hx⟩, ht⟩

theorem cyl_quad {i : Ids} (hg : g.correct) (hr : 0 < g.rInner) {bs : List (List (Emit Cyl.Pt))} (h : makeCylinder g i = some bs) : ∃ B ∈ bs, ∃ e ∈ B, e.ty = .quad := by
  obtain ⟨m, rad, cir, ys, X, hf, d1, d2, d3, dX, heq⟩ := blocks_eq hg hr i
  have hmk : makeCylinder g i = some ((cylSq g i m rad cir ys X).map Sq.emits) := (makeCylinder_eq hg i).trans heq
  obtain rfl : bs = _ := Option.some.inj (h.symm.trans hmk)
  have hb : (cylSq g i m rad cir ys X)[0]? = some (ringQ rad cir (ringIds i) g.nRadial m 0) := rfl
  obtain ⟨_, _, hfk⟩ := forall₂_get (cyl_kinds hf d1 d2 d3 dX) hb
  obtain ⟨e, he, hq, _⟩ := quad_mem hfk.ok
  exact ⟨_, List.mem_map.2 ⟨_, List.mem_of_getElem? hb, rfl⟩, e, he, hq⟩

/-- **C129** (in space; partial as for the cylinder).  The extruded cylinder mesh is made and ready for distribution, whatever ids its two ends have, as long as these are not
the id of the domain; programs run on it give the same answer on any distribution. -/
theorem C129_extruded_partial {i : Ids} (hg : g.correct) (hr : 0 < g.rInner) (hd : i.domain ∉ [1, 2, 3, 4, i.bottom, i.top, i.left, i.right, i.cylinder])
    (hord : ∀ a k l, (ord a k l).Perm l) (ho : ∀ a, (o a).Ok) (hfar : ∀ bs, makeCylinder g i = some bs → Far bs)
    {zs : List ℝ} (hz : 2 ≤ zs.length) {back front : Nat} (hb : back ≠ i.domain) (hf : front ≠ i.domain) :
    ∃ M doms bnds, cylinderMesh ord o g i = some M ∧ cylinder3DMesh ord o zs g i back front = some (doms, bnds) ∧
      (∀ b, b ∈ bnds ↔ b ∈ [i.bottom, i.top, i.left, i.right, i.cylinder, back, front]) ∧
      Ready 2 doms (Std.sortUniq bnds) 2 (M.size * zs.length) ∧ SameAnswer 2 doms (Std.sortUniq bnds) := by
  obtain ⟨bs, M, h0, h1, J, hA, hB, _⟩ := C129_cylinder_partial hg hr hd hord ho hfar
  have face : ∀ k, k ≠ i.domain → els M.part.doms k ≠ [] → k ∈ bids M.part := by
    intro k hk hne
    obtain ⟨e, he⟩ := List.exists_mem_of_ne_nil _ hne
    exact (J.bnds k).2 ⟨e, he, (J.types k e he).resolve_left fun hq => hk ((hA k e he).1 hq)⟩
  obtain ⟨doms, h2, h3, h4⟩ := ExtGen.C127_ready (planar_of J (cyl_quad hg hr h0)) hz (vertsOf M) (face back hb) (face front hf)
  refine ⟨M, doms, _, h1, ?_, ?_, h3, h4⟩
  · show (cylinderMesh ord o g i).bind _ = _
    rw [h1]
    exact h2
  · intro b
    rw [List.mem_append, hB]
    simp only [List.mem_cons, List.not_mem_nil, or_false]
    tauto

theorem bad_block {b : Sq} (ok : b.Ok) (h : b.ids.domain ∈ [b.ids.bottom, b.ids.top, b.ids.left, b.ids.right]) (o : Nat → List Element → List Element) : meshOf o b.ids b.emits = none := by
  obtain ⟨q, hq, hqt, hqd⟩ := quad_mem ok
  have key : ∀ {p r : Cyl.Pt} {k : Nat}, HasEdge b k p r → b.ids.domain = k → meshOf o b.ids b.emits = none := by
    rintro p r k ⟨e, he, hk, ht, _⟩ hd
    unfold meshOf
    rw [build_fail hq he (by rw [hqd, hd, hk]) hqt ht]
    rfl
  simp only [List.mem_cons, List.not_mem_nil, or_false] at h
  rcases h with h | h | h | h
  · exact key (edge_bottom ok ok.n_pos) h
  · exact key (edge_top ok ok.n_pos) h
  · exact key (edge_left ok ok.m_pos) h
  · exact key (edge_right ok ok.m_pos) h

theorem bad_blocks {bs : List Sq} (ok : ∀ b ∈ bs, b.Ok) {b : Sq} (hb : b ∈ bs) (h : b.ids.domain ∈ [b.ids.bottom, b.ids.top, b.ids.left, b.ids.right]) :
    blockMeshes ord (bs.map Sq.ids) (bs.map Sq.emits) = none := by
  rw [blockMeshes_eq]
  have key : ∀ (l : List Sq) (s : Nat), b ∈ l → (l.zipIdx s).mapM (fun q => meshOf (ord q.2) q.1.ids q.1.emits) = none := by
    intro l
    induction l with
    | nil => intro s h; simp at h
    | cons c l ih =>
      intro s hm
      rw [List.zipIdx_cons, List.mapM_cons]
      rcases List.mem_cons.1 hm with rfl | hm
      · rw [bad_block (ok _ hb) h]; rfl
      · cases meshOf (ord s) c.ids c.emits with
        | none => rfl
        | some M => rw [ih _ hm]; rfl
  exact key bs 0 hb

/-- **C129** (ids; partial: positive inner radius and vertices not too close).  The mesh of the cylinder is made if and only if the id of the domain is not one of the ids of
the boundaries and not 1, 2, 3 or 4. -/
theorem C129_ids_partial {i : Ids} (hg : g.correct) (hr : 0 < g.rInner) (hord : ∀ a k l, (ord a k l).Perm l) (ho : ∀ a, (o a).Ok)
    (hfar : ∀ bs, makeCylinder g i = some bs → Far bs) :
    (cylinderMesh ord o g i).isSome ↔ i.domain ∉ [1, 2, 3, 4, i.bottom, i.top, i.left, i.right, i.cylinder] := by
  constructor
  · intro h hd
    obtain ⟨m, rad, cir, ys, X, hf, d1, d2, d3, dX, heq⟩ := blocks_eq hg hr i
    have hmk : makeCylinder g i = some ((cylSq g i m rad cir ys X).map Sq.emits) := (makeCylinder_eq hg i).trans heq
    have ok : ∀ b ∈ cylSq g i m rad cir ys X, b.Ok := by
      intro b hb
      obtain ⟨j, hj⟩ := List.mem_iff_getElem?.1 hb
      obtain ⟨_, _, h⟩ := forall₂_get (cyl_kinds hf d1 d2 d3 dX) hj
      exact h.ok
    have hnone : ∀ (j : Nat) (b : Sq), (cylSq g i m rad cir ys X)[j]? = some b → b.ids.domain ∈ [b.ids.bottom, b.ids.top, b.ids.left, b.ids.right] → False := by
      intro j b hj hb
      have h1 : cylinderMesh ord o g i = none := by
        show (makeCylinder g i).bind _ = _
        rw [hmk, Option.bind_some]
        have := bad_blocks (ord := ord) ok (List.mem_of_getElem? hj) hb
        rw [cylSq_ids] at this
        rw [this]
        rfl
      rw [h1] at h
      simp at h
    simp only [List.mem_cons, List.not_mem_nil, or_false] at hd
    rcases hd with hd | hd | hd | hd | hd | hd | hd | hd | hd
    · exact hnone 0 _ rfl (show i.domain ∈ [1, 2, i.cylinder, 4] by simp [hd])
    · exact hnone 0 _ rfl (show i.domain ∈ [1, 2, i.cylinder, 4] by simp [hd])
    · exact hnone 2 _ rfl (show i.domain ∈ [1, 2, 3, i.right] by simp [hd])
    · exact hnone 0 _ rfl (show i.domain ∈ [1, 2, i.cylinder, 4] by simp [hd])
    · exact hnone 4 _ rfl (show i.domain ∈ [1, 2, 3, i.bottom] by simp [hd])
    · exact hnone 5 _ rfl (show i.domain ∈ [1, 2, 3, i.top] by simp [hd])
    · exact hnone 3 _ rfl (show i.domain ∈ [1, 2, 3, i.left] by simp [hd])
    · exact hnone 2 _ rfl (show i.domain ∈ [1, 2, 3, i.right] by simp [hd])
    · exact hnone 0 _ rfl (show i.domain ∈ [1, 2, i.cylinder, 4] by simp [hd])
  · intro hd
    obtain ⟨_, M, _, h1, _⟩ := C129_cylinder_partial hg hr hd hord ho hfar
    rw [h1]; rfl

end

/-- What a user expects: different ids are enough. -/
def C129Statement : Prop := ∀ (g : Geom) (i : Ids), g.correct → 0 < g.rInner → (∀ bs, makeCylinder g i = some bs → Far bs) →
  [i.domain, i.bottom, i.top, i.left, i.right, i.cylinder].Nodup → (cylinderMesh (fun _ _ l => l) (fun _ => plain) g i).isSome

/-- **C129** violated: the ids 1 to 4 are used for the edges between blocks. -/
theorem C129_violated : ¬ C129Statement := by
  intro h
  have h1 := h coarse ⟨1, 2, 3, 4, 5, 6⟩ coarse_correct (by norm_num [coarse]) (coarse_far _) (by decide)
  exact absurd ((C129_ids_partial coarse_correct (by norm_num [coarse]) (fun _ _ _ => .refl _) (fun _ => plain_ok) (coarse_far _)).1 h1) (by decide)

/-- The coarse cylinder with the default ids, in the plane and in space. -/
example : ∃ M doms bnds, cylinderMesh (fun _ _ l => l) (fun _ => plain) coarse ⟨0, 1, 2, 3, 4, 5⟩ = some M ∧
    cylinder3DMesh (fun _ _ l => l) (fun _ => plain) [0, 1, 2] coarse ⟨0, 1, 2, 3, 4, 5⟩ 6 7 = some (doms, bnds) ∧
      Ready 2 doms (Std.sortUniq bnds) 2 (M.size * 3) := by
  obtain ⟨M, doms, bnds, h1, h2, _, h3, _⟩ := C129_extruded_partial (i := ⟨0, 1, 2, 3, 4, 5⟩) (ord := fun _ _ l => l) (o := fun _ => plain) coarse_correct (by norm_num [coarse]) (by decide)
    (fun _ _ _ => .refl _) (fun _ => plain_ok) (coarse_far _) (zs := [0, 1, 2]) (by simp) (back := 6) (front := 7) (by decide) (by decide)
  exact ⟨M, doms, bnds, h1, h2, h3⟩

/-- Its boundaries are the given ones. -/
example : ∃ M, cylinderMesh (fun _ _ l => l) (fun _ => plain) coarse ⟨0, 1, 2, 3, 4, 5⟩ = some M ∧ ∀ b, b ∈ bids M.part ↔ b ∈ [1, 2, 3, 4, 5] := by
  obtain ⟨_, M, _, h1, _, _, h2, _⟩ := C129_cylinder_partial (i := ⟨0, 1, 2, 3, 4, 5⟩) (ord := fun _ _ l => l) (o := fun _ => plain) coarse_correct (by norm_num [coarse]) (by decide)
    (fun _ _ _ => .refl _) (fun _ => plain_ok) (coarse_far _)
  exact ⟨M, h1, h2⟩

/-- The half cylinder. -/
example : ∃ M, halfCylinderMesh (fun _ _ l => l) (fun _ => plain) coarse ⟨0, 1, 2, 3, 4, 5, 6⟩ = some M ∧ ∀ b, b ∈ bids M.part ↔ b ∈ [1, 2, 3, 4, 5, 6] := by
  obtain ⟨_, M, _, h1, _, _, _, h2, _⟩ := C129_half_partial (i := ⟨0, 1, 2, 3, 4, 5, 6⟩) (ord := fun _ _ l => l) (o := fun _ => plain) coarse_half (by norm_num [coarse]) (by decide)
    (fun _ _ _ => .refl _) (fun _ => plain_ok) (coarse_half_far _)
  exact ⟨M, h1, h2⟩

end Verif.MergeGen
