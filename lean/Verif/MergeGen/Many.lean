import Verif.MergeGen.Match

/-! # Merging many meshes one after the other -/
namespace Verif.MergeGen
open Verif Verif.Elem Verif.Mesh Verif.Split Verif.Partition Verif.Merge Verif.Gen Verif.Pipeline

/-! ## Sides in terms of points -/

/-- The points of side `s` of an element of order 1 with the given points. -/
def sidePts {P : Type} (ty : ElType) (s : Nat) (ps : List P) : Option (List P) := (sideNodeInds ty 2 s).map fun inds => inds.filterMap fun i => ps[i]?

theorem filterMap_getElem {P : Type} (pos : Nat → P) (nodes inds : List Nat) (h : ∀ i ∈ inds, i < nodes.length) :
    (inds.filterMap fun i => (nodes.map pos)[i]?) = (inds.map fun i => nodes.getD i 0).map pos := by
  induction inds with
  | nil => rfl
  | cons i inds ih =>
    have hi := h i (by simp)
    rw [List.filterMap_cons, List.getElem?_map, List.getElem?_eq_getElem hi]
    simp only [Option.map_some, List.map_cons]
    rw [ih fun j hj => h j (by simp [hj]), List.getD_eq_getElem?_getD, List.getElem?_eq_getElem hi]
    rfl

theorem sidePts_eq {P : Type} {pos : Nat → P} {e : Element} (h : WfElement e) (hn : e.n = 2) (s : Nat) : sidePts e.ty s (e.nodes.map pos) = (sideNodes e s).map (List.map pos) := by
  unfold sidePts sideNodes
  rw [hn]
  cases hs : sideNodeInds e.ty 2 s with
  | none => rfl
  | some inds =>
    simp only [Option.map_some, Option.some.injEq]
    exact filterMap_getElem pos e.nodes inds fun i hi => sideInds_lt h (by rw [hn]; exact hs) i hi

variable {P : Type} {A : Part} {N D : Nat} {pos : Nat → P}

theorem Block.two (h : Block A N pos D) {k : Nat} {e : Element} (he : e ∈ els A.doms k) : e.n = 2 := by
  obtain ⟨d, hd, hed⟩ := mem_els.1 he
  have := (h.wf.dom k d hd).mem_kind hed
  simp only [kinds1, List.mem_cons, List.not_mem_nil, or_false, Element.kind, Prod.mk.injEq] at this
  omega

theorem side_iff (h : Block A N pos D) {ps : List P} :
    Side D A pos ps ↔ ∃ k ty qs, Cell A pos k ty qs ∧ ty.dim = D + 1 ∧ ∃ s l, sidePts ty s qs = some l ∧ l.Perm ps := by
  constructor
  · rintro ⟨k, e, he, hd, s, l, hl, hp⟩
    exact ⟨k, e.ty, _, ⟨e, he, rfl, rfl⟩, hd, s, _, by rw [sidePts_eq (h.wfEl he) (h.two he), hl]; rfl, hp⟩
  · rintro ⟨k, ty, qs, ⟨e, he, rfl, rfl⟩, hd, s, l, hl, hp⟩
    rw [sidePts_eq (h.wfEl he) (h.two he), Option.map_eq_some_iff] at hl
    obtain ⟨l0, hl0, rfl⟩ := hl
    exact ⟨k, e, he, hd, s, l0, hl0, hp⟩

theorem face_iff {ps : List P} : Face A pos ps ↔ ∃ b ∈ bids A, ∃ ty qs, Cell A pos b ty qs ∧ qs.Perm ps := by
  constructor
  · rintro ⟨b, hb, x, hx, hp⟩
    exact ⟨b, hb, x.ty, _, ⟨x, hx, rfl, rfl⟩, hp⟩
  · rintro ⟨b, hb, ty, qs, ⟨x, hx, rfl, rfl⟩, hp⟩
    exact ⟨b, hb, x, hx, hp⟩

theorem Block.dim_of_bnd (h : Block A N pos D) {b : Nat} (hb : b ∈ bids A) {ty : ElType} {ps : List P} (hc : Cell A pos b ty ps) : ty.dim = D := by
  obtain ⟨e, he, rfl, _⟩ := hc
  exact h.bndDim hb he

theorem Cell.key {k : Nat} {ty : ElType} {ps : List P} (hc : Cell A pos k ty ps) : k ∈ A.doms.map (·.1) := by
  obtain ⟨e, he, _⟩ := hc
  exact Extrude.els_key he

theorem Cell.ne {k : Nat} {ty : ElType} {ps : List P} (hc : Cell A pos k ty ps) : els A.doms k ≠ [] := by
  obtain ⟨e, he, _⟩ := hc
  exact List.ne_nil_of_mem he

theorem cell_of_ne {k : Nat} (h : els A.doms k ≠ []) : ∃ ty ps, Cell A pos k ty ps := by
  obtain ⟨e, he⟩ := List.exists_mem_of_ne_nil _ h
  exact ⟨_, _, e, he, rfl, rfl⟩

theorem Block.node_cell (h : Block A N pos D) {x : Nat} (hx : x < N) : ∃ k ty ps, Cell A pos k ty ps ∧ pos x ∈ ps := by
  obtain ⟨e, he, hx⟩ := (h.ready.nodes x).2 hx
  obtain ⟨k, hk⟩ := (holds_iff_inDom h.wf).1 he
  exact ⟨k, _, _, ⟨e, mem_els.2 hk, rfl, rfl⟩, List.mem_map.2 ⟨x, hx, rfl⟩⟩

theorem Block.cell_node (h : Block A N pos D) {k : Nat} {ty : ElType} {ps : List P} (hc : Cell A pos k ty ps) {p : P} (hp : p ∈ ps) : ∃ x, x < N ∧ pos x = p := by
  obtain ⟨e, he, _, rfl⟩ := hc
  obtain ⟨x, hx, rfl⟩ := List.mem_map.1 hp
  exact ⟨x, h.lt he hx, rfl⟩

/-- Nodes of faces are boundary nodes. -/
theorem Block.face_node (h : Block A N pos D) {ps : List P} (hf : Face A pos ps) {x : Nat} (hx : x < N) (hp : pos x ∈ ps) : BndNode A x := by
  obtain ⟨b, hb, e, he, hpm⟩ := hf
  obtain ⟨y, hy, hxy⟩ := List.mem_map.1 (hpm.mem_iff.2 hp)
  rw [h.inj x y hx (h.lt he hy) hxy.symm]
  exact ⟨b, hb, e, he, hy⟩

/-! ## One merge -/

/-- A mesh with positions which can be merged with others. -/
structure Located (D : Nat) (M : LMesh) : Prop where
  block : Block M.part M.size M.pos D
  three : ∀ x, (M.pos x).length = 3

/-- Hash maps are iterated in any order. -/
structure Orders.Ok (o : Orders) : Prop where
  first : ∀ l, (o.first l).Perm l
  second : ∀ l, (o.second l).Perm l
  bnd : ∀ k l, (o.bnd k l).Perm l

theorem merge_two {A B : LMesh} {o : Orders} (ho : o.Ok) (hA : Located D A) (hB : Located D B) (hf : Fits D A.size B.size A.part B.part A.pos B.pos)
    (hs : Apart A.part B.part A.pos B.pos) :
    ∃ M, mergeMeshes o A B = some M ∧ Located D M ∧
      (∀ k ty ps, Cell M.part M.pos k ty ps ↔ (Cell A.part A.pos k ty ps ∧ ¬ (k ∈ bids A.part ∧ Face B.part B.pos ps)) ∨
        (Cell B.part B.pos k ty ps ∧ ¬ (k ∈ bids B.part ∧ Face A.part A.pos ps))) ∧
      ∀ b, b ∈ bids M.part ↔ (b ∈ bids A.part ∨ b ∈ bids B.part) ∧ els M.part.doms b ≠ [] := by
  obtain ⟨doms, N, bnds, h1, h2, h3, h4, hdist, h5, h6⟩ := merge_block hA.block hB.block hf (matchOk hA.block hB.block hB.three hs ho.first ho.second)
  obtain ⟨vs, h7, h8⟩ := initViews_ok (wf_keys h2.ok.wf) (bnds := bnds) (by
    intro b hb d hd
    obtain ⟨d', hd', hdim, hne⟩ := h2.ok.bnd b hb
    rw [hd, Option.some.injEq] at hd'
    subst hd'
    exact ⟨hne, fun x hx => ((h2.ok.wf.dom b d hd).dim x hx).symm, h2.ok.parent b hb d hd⟩) o.bnd ho.bnd
  have hb : bids ⟨doms, ⟨0, N, []⟩, vs⟩ = bnds := h8
  refine ⟨⟨⟨doms, ⟨0, N, []⟩, vs⟩, N, mergedPos (matchMap o.first o.second A.part B.part A.pos B.pos) A.size B.size A.pos B.pos⟩, ?_, ⟨⟨?_, ?_, h3, h4, hdist⟩, ?_⟩, h5, ?_⟩
  · simp only [mergeMeshes, h1, Option.bind_some, build, h7, Option.map_some]
  · rw [hb]; exact h2
  · exact ⟨o.bnd, ho.bnd, by rw [hb]; exact h7⟩
  · intro x
    simp only [mergedPos]
    split
    · exact hA.three _
    · exact hB.three _
  · rw [hb]; exact h6

/-! ## Many merges -/

/-- Meshes which can be merged in the given order. -/
structure FitAll (D : Nat) (Bs : List LMesh) : Prop where
  located : ∀ B ∈ Bs, Located D B
  dim : ∀ A ∈ Bs, ∀ B ∈ Bs, ∀ k, ∀ a ∈ els A.part.doms k, ∀ b ∈ els B.part.doms k, a.ty.dim = b.ty.dim
  role : ∀ A ∈ Bs, ∀ B ∈ Bs, ∀ k ∈ bids A.part, k ∈ B.part.doms.map (·.1) → k ∈ bids B.part
  /-- a node which a mesh has in common with earlier ones is on a face which it has in common with an earlier one -/
  common : ∀ (i j : Nat) (A B : LMesh), i < j → Bs[i]? = some A → Bs[j]? = some B → ∀ x y, x < A.size → y < B.size → A.pos x = B.pos y →
    ∃ (i' : Nat) (A' : LMesh), i' < j ∧ Bs[i']? = some A' ∧ ∃ ps, Face A'.part A'.pos ps ∧ Face B.part B.pos ps ∧ B.pos y ∈ ps
  sides : ∀ (i j : Nat) (A B : LMesh), i < j → Bs[i]? = some A → Bs[j]? = some B → ∀ ps, Side D A.part A.pos ps → Side D B.part B.pos ps → Face A.part A.pos ps ∧ Face B.part B.pos ps
  /-- no two meshes have an element of full dimension in common -/
  cells : ∀ (i j : Nat) (A B : LMesh), i < j → Bs[i]? = some A → Bs[j]? = some B → ∀ k k' ty ty' ps ps', Cell A.part A.pos k ty ps → Cell B.part B.pos k' ty' ps' →
    ty.dim = D + 1 → ty'.dim = D + 1 → ¬ ps.Perm ps'
  /-- no face belongs to three meshes -/
  two : ∀ (i j k : Nat) (A B C : LMesh), i < j → j < k → Bs[i]? = some A → Bs[j]? = some B → Bs[k]? = some C → ∀ ps, Face A.part A.pos ps → Face B.part B.pos ps → ¬ Face C.part C.pos ps
  apart : ∀ A ∈ Bs, ∀ B ∈ Bs, ∀ x y, x < A.size → y < B.size → close (B.pos y) (A.pos x) = true → A.pos x = B.pos y

/-- Face of one of the first `j` meshes, other than number `i`. -/
def OtherFace (Bs : List LMesh) (j i : Nat) (ps : List Pt) : Prop := ∃ i' B', i' < j ∧ i' ≠ i ∧ Bs[i']? = some B' ∧ Face B'.part B'.pos ps

/-- `M` is what the first `j` meshes are merged to: their elements, without the boundaries between them. -/
structure Merged (D : Nat) (Bs : List LMesh) (j : Nat) (M : LMesh) : Prop where
  located : Located D M
  cells : ∀ k ty ps, Cell M.part M.pos k ty ps ↔ ∃ i B, i < j ∧ Bs[i]? = some B ∧ Cell B.part B.pos k ty ps ∧ ¬ (k ∈ bids B.part ∧ OtherFace Bs j i ps)
  bnds : ∀ b, b ∈ bids M.part ↔ (∃ i B, i < j ∧ Bs[i]? = some B ∧ b ∈ bids B.part) ∧ els M.part.doms b ≠ []

section
variable {Bs : List LMesh} {j : Nat} {M : LMesh}

theorem Merged.bnd_of (h : Merged D Bs j M) (hF : FitAll D Bs) {i : Nat} {B : LMesh} (hB : Bs[i]? = some B) {b : Nat} (hb : b ∈ bids M.part)
    (hk : b ∈ B.part.doms.map (·.1)) : b ∈ bids B.part := by
  obtain ⟨⟨i', B', _, hB', hb'⟩, _⟩ := (h.bnds b).1 hb
  exact hF.role B' (List.mem_of_getElem? hB') B (List.mem_of_getElem? hB) b hb' hk

theorem Merged.face (h : Merged D Bs j M) (hF : FitAll D Bs) {ps : List Pt} :
    Face M.part M.pos ps ↔ ∃ i B, i < j ∧ Bs[i]? = some B ∧ Face B.part B.pos ps ∧ ¬ OtherFace Bs j i ps := by
  rw [face_iff]
  constructor
  · rintro ⟨b, hb, ty, qs, hc, hp⟩
    obtain ⟨i, B, hi, hB, hcB, hno⟩ := (h.cells b ty qs).1 hc
    have hbB := h.bnd_of hF hB hb hcB.key
    refine ⟨i, B, hi, hB, face_iff.2 ⟨b, hbB, ty, qs, hcB, hp⟩, ?_⟩
    rintro ⟨i', B', h1, h2, h3, h4⟩
    exact hno ⟨hbB, i', B', h1, h2, h3, h4.congr hp.symm⟩
  · rintro ⟨i, B, hi, hB, hf, hno⟩
    obtain ⟨b, hb, ty, qs, hcB, hp⟩ := face_iff.1 hf
    have hc : Cell M.part M.pos b ty qs := (h.cells b ty qs).2 ⟨i, B, hi, hB, hcB, fun hn => by
      obtain ⟨_, i', B', h1, h2, h3, h4⟩ := hn
      exact hno ⟨i', B', h1, h2, h3, h4.congr hp⟩⟩
    exact ⟨b, (h.bnds b).2 ⟨⟨i, B, hi, hB, hb⟩, hc.ne⟩, ty, qs, hc, hp⟩

theorem Merged.side (h : Merged D Bs j M) (hF : FitAll D Bs) {ps : List Pt} : Side D M.part M.pos ps ↔ ∃ i B, i < j ∧ Bs[i]? = some B ∧ Side D B.part B.pos ps := by
  rw [side_iff h.located.block]
  constructor
  · rintro ⟨k, ty, qs, hc, hd, s, l, hl, hp⟩
    obtain ⟨i, B, hi, hB, hcB, _⟩ := (h.cells k ty qs).1 hc
    exact ⟨i, B, hi, hB, (side_iff (hF.located B (List.mem_of_getElem? hB)).block).2 ⟨k, ty, qs, hcB, hd, s, l, hl, hp⟩⟩
  · rintro ⟨i, B, hi, hB, hs⟩
    have bl := (hF.located B (List.mem_of_getElem? hB)).block
    obtain ⟨k, ty, qs, hcB, hd, s, l, hl, hp⟩ := (side_iff bl).1 hs
    refine ⟨k, ty, qs, (h.cells k ty qs).2 ⟨i, B, hi, hB, hcB, fun hn => ?_⟩, hd, s, l, hl, hp⟩
    have := bl.dim_of_bnd hn.1 hcB
    omega

/-- A face shared by one of the first meshes and the next one is a face of the merged mesh. -/
theorem Merged.shared (h : Merged D Bs j M) (hF : FitAll D Bs) {i : Nat} {A B : LMesh} (hi : i < j) (hA : Bs[i]? = some A) (hB : Bs[j]? = some B) {ps : List Pt}
    (h1 : Face A.part A.pos ps) (h2 : Face B.part B.pos ps) : Face M.part M.pos ps := by
  refine (h.face hF).2 ⟨i, A, hi, hA, h1, ?_⟩
  rintro ⟨i', A', hi', hne, hA', h3⟩
  rcases lt_or_gt_of_ne hne with hlt | hlt
  · exact hF.two i' i j A' A B hlt hi hA' hA hB ps h3 h1 h2
  · exact hF.two i i' j A A' B hlt hi' hA hA' hB ps h1 h3 h2

theorem Merged.node (h : Merged D Bs j M) (hF : FitAll D Bs) {x : Nat} (hx : x < M.size) : ∃ i B y, i < j ∧ Bs[i]? = some B ∧ y < B.size ∧ B.pos y = M.pos x := by
  obtain ⟨k, ty, ps, hc, hp⟩ := h.located.block.node_cell hx
  obtain ⟨i, B, hi, hB, hcB, _⟩ := (h.cells k ty ps).1 hc
  obtain ⟨y, hy, h1⟩ := (hF.located B (List.mem_of_getElem? hB)).block.cell_node hcB hp
  exact ⟨i, B, y, hi, hB, hy, h1⟩

theorem Merged.step (h : Merged D Bs j M) (hF : FitAll D Bs) {B : LMesh} (hB : Bs[j]? = some B) {o : Orders} (ho : o.Ok) :
    ∃ M', mergeMeshes o M B = some M' ∧ Merged D Bs (j + 1) M' := by
  have hBm := List.mem_of_getElem? hB
  have bl := (hF.located B hBm).block
  have hcom : ∀ x y, x < M.size → y < B.size → M.pos x = B.pos y → BndNode M.part x ∧ BndNode B.part y := by
    intro x y hx hy hxy
    obtain ⟨i, A, z, hi, hA, hz, hzx⟩ := h.node hF hx
    obtain ⟨i', A', hi', hA', ps, h1, h2, h3⟩ := hF.common i j A B hi hA hB z y hz hy (hzx.trans hxy)
    exact ⟨h.located.block.face_node (h.shared hF hi' hA' hB h1 h2) hx (by rw [hxy]; exact h3), bl.face_node h2 hy h3⟩
  have hfit : Fits D M.size B.size M.part B.part M.pos B.pos := by
    refine ⟨?_, ?_, ?_, hcom, ?_, ?_⟩
    · intro k a ha b hb
      obtain ⟨i, A, hi, hA, ⟨a', ha', h1, _⟩, _⟩ := (h.cells k a.ty _).1 ⟨a, ha, rfl, rfl⟩
      rw [← h1]
      exact hF.dim A (List.mem_of_getElem? hA) B hBm k a' ha' b hb
    · exact fun k hk hkB => h.bnd_of hF hB hk hkB
    · intro k hk hne
      obtain ⟨ty, ps, hc⟩ := cell_of_ne (pos := M.pos) hne
      obtain ⟨i, A, hi, hA, hcA, _⟩ := (h.cells k ty ps).1 hc
      exact (h.bnds k).2 ⟨⟨i, A, hi, hA, hF.role B hBm A (List.mem_of_getElem? hA) k hk hcA.key⟩, hne⟩
    · intro ps h1 h2
      obtain ⟨i, A, hi, hA, hsA⟩ := (h.side hF).1 h1
      obtain ⟨h3, h4⟩ := hF.sides i j A B hi hA hB ps hsA h2
      exact ⟨h.shared hF hi hA hB h3 h4, h4⟩
    · intro k k' ty ty' ps ps' h1 h2
      obtain ⟨i, A, hi, hA, hcA, _⟩ := (h.cells k ty ps).1 h1
      exact hF.cells i j A B hi hA hB k k' ty ty' ps ps' hcA h2
  have hap : Apart M.part B.part M.pos B.pos := by
    intro x y hx hy hc
    obtain ⟨i, A, z, hi, hA, hz, hzx⟩ := h.node hF (h.located.block.bndLt hx)
    rw [← hzx] at hc ⊢
    exact hF.apart A (List.mem_of_getElem? hA) B hBm z y hz (bl.bndLt hy) hc
  obtain ⟨M', h1, h2, h3, h4⟩ := merge_two ho h.located (hF.located B hBm) hfit hap
  have hcells : ∀ k ty ps, Cell M'.part M'.pos k ty ps ↔ ∃ i B, i < j + 1 ∧ Bs[i]? = some B ∧ Cell B.part B.pos k ty ps ∧ ¬ (k ∈ bids B.part ∧ OtherFace Bs (j + 1) i ps) := by
    intro k ty ps
    rw [h3]
    constructor
    · rintro (⟨hc, hno⟩ | ⟨hc, hno⟩)
      · obtain ⟨i, A, hi, hA, hcA, hn⟩ := (h.cells k ty ps).1 hc
        refine ⟨i, A, by omega, hA, hcA, ?_⟩
        rintro ⟨hk, i', A', hi', hne, hA', hf⟩
        by_cases hij : i' < j
        · exact hn ⟨hk, i', A', hij, hne, hA', hf⟩
        · obtain rfl : i' = j := by omega
          rw [hB, Option.some.injEq] at hA'
          subst hA'
          exact hno ⟨(h.bnds k).2 ⟨⟨i, A, hi, hA, hk⟩, hc.ne⟩, hf⟩
      · refine ⟨j, B, by omega, hB, hc, ?_⟩
        rintro ⟨hk, i', A', hi', hne, hA', hf⟩
        exact hno ⟨hk, h.shared hF (by omega) hA' hB hf (face_iff.2 ⟨k, hk, ty, ps, hc, List.Perm.refl _⟩)⟩
    · rintro ⟨i, A, hi, hA, hcA, hno⟩
      by_cases hij : i < j
      · left
        have hc : Cell M.part M.pos k ty ps := (h.cells k ty ps).2 ⟨i, A, hij, hA, hcA, fun hn => by
          obtain ⟨hk, i', A', h1, h2, h3, h4⟩ := hn
          exact hno ⟨hk, i', A', by omega, h2, h3, h4⟩⟩
        exact ⟨hc, fun hn => hno ⟨h.bnd_of hF hA hn.1 hcA.key, j, B, by omega, by omega, hB, hn.2⟩⟩
      · obtain rfl : i = j := by omega
        rw [hB, Option.some.injEq] at hA
        subst hA
        right
        refine ⟨hcA, fun hn => ?_⟩
        obtain ⟨i', A', hi', hA', hf, _⟩ := (h.face hF).1 hn.2
        exact hno ⟨hn.1, i', A', by omega, by omega, hA', hf⟩
  refine ⟨M', h1, h2, hcells, ?_⟩
  intro b
  rw [h4]
  constructor
  · rintro ⟨hb | hb, hne⟩
    · obtain ⟨⟨i, A, hi, hA, hbA⟩, _⟩ := (h.bnds b).1 hb
      exact ⟨⟨i, A, by omega, hA, hbA⟩, hne⟩
    · exact ⟨⟨j, B, by omega, hB, hb⟩, hne⟩
  · rintro ⟨⟨i, A, hi, hA, hbA⟩, hne⟩
    refine ⟨?_, hne⟩
    obtain ⟨ty, ps, hc⟩ := cell_of_ne (pos := M'.pos) hne
    rcases (h3 b ty ps).1 hc with ⟨hcM, _⟩ | ⟨hcB, _⟩
    · by_cases hij : i < j
      · exact .inl ((h.bnds b).2 ⟨⟨i, A, hij, hA, hbA⟩, hcM.ne⟩)
      · obtain rfl : i = j := by omega
        rw [hB, Option.some.injEq] at hA
        exact .inr (hA ▸ hbA)
    · exact .inr (hF.role A (List.mem_of_getElem? hA) B hBm b hbA hcB.key)

theorem merged_one {A : LMesh} {Bs : List LMesh} (hF : FitAll D (A :: Bs)) : Merged D (A :: Bs) 1 A := by
  have hA := hF.located A (by simp)
  refine ⟨hA, ?_, ?_⟩
  · intro k ty ps
    constructor
    · intro hc
      refine ⟨0, A, by omega, rfl, hc, ?_⟩
      rintro ⟨_, i, _, h1, h2, _⟩
      omega
    · rintro ⟨i, B, hi, hB, hc, _⟩
      obtain rfl : i = 0 := by omega
      simp only [List.getElem?_cons_zero, Option.some.injEq] at hB
      exact hB ▸ hc
  · intro b
    constructor
    · intro hb
      obtain ⟨d, hd, _, hne⟩ := hA.block.ready.ok.bnd b hb
      exact ⟨⟨0, A, by omega, rfl, hb⟩, by rw [els_some hd]; exact hne⟩
    · rintro ⟨⟨i, B, hi, hB, hb⟩, _⟩
      obtain rfl : i = 0 := by omega
      simp only [List.getElem?_cons_zero, Option.some.injEq] at hB
      exact hB ▸ hb

/-- All merges succeed, and the result holds the elements of all meshes. -/
theorem merge_all {A : LMesh} {Bs : List LMesh} (hF : FitAll D (A :: Bs)) {o : Nat → Orders} (ho : ∀ i, (o i).Ok) :
    ∃ M, mergeAll o A Bs = some M ∧ Merged D (A :: Bs) (Bs.length + 1) M := by
  have key : ∀ (rest pre : List LMesh) (c : Nat) (M : LMesh), A :: Bs = pre ++ rest → Merged D (A :: Bs) pre.length M →
      ∃ M', (rest.zipIdx c).foldlM (fun M q => mergeMeshes (o q.2) M q.1) M = some M' ∧ Merged D (A :: Bs) (Bs.length + 1) M' := by
    intro rest
    induction rest with
    | nil =>
      intro pre c M heq hM
      refine ⟨M, rfl, ?_⟩
      rw [List.append_nil] at heq
      rwa [← heq, List.length_cons] at hM
    | cons B rest ih =>
      intro pre c M heq hM
      have hB : (A :: Bs)[pre.length]? = some B := by rw [heq]; simp
      obtain ⟨M1, h1, h2⟩ := hM.step hF hB (ho c)
      obtain ⟨M2, h3, h4⟩ := ih (pre ++ [B]) (c + 1) M1 (by rw [heq]; simp) (by simpa using h2)
      refine ⟨M2, ?_, h4⟩
      rw [List.zipIdx_cons, List.foldlM_cons]
      simp only [h1]
      exact h3
  exact key Bs [A] 0 A rfl (merged_one hF)

end

end Verif.MergeGen
