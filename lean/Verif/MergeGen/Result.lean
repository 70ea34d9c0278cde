import Verif.MergeGen.Cyl
import Verif.Gen.Props

/-! # What blocks are merged to, in terms of their elements -/
namespace Verif.MergeGen
open Verif Verif.Elem Verif.Mesh Verif.Split Verif.Partition Verif.Merge Verif.Gen Verif.Pipeline Verif.Prim Verif.Cyl

/-- Different vertices are at least as far from each other as the tolerance. -/
def Far (Bs : List (List (Emit Cyl.Pt))) : Prop := ∀ B ∈ Bs, ∀ e ∈ B, ∀ v ∈ e.verts, ∀ B' ∈ Bs, ∀ e' ∈ B', ∀ v' ∈ e'.verts, v ≠ v' →
  1 / 10 ^ 12 ≤ Real.sqrt ((v.1 - v'.1) ^ 2 + (v.2.1 - v'.2.1) ^ 2 + (v.2.2 - v'.2.2) ^ 2)

/-- Another block than number `a` has an edge with the same ends. -/
def Shared (Bs : List (List (Emit Cyl.Pt))) (a : Nat) (e : Emit Cyl.Pt) : Prop := ∃ b B', b ≠ a ∧ Bs[b]? = some B' ∧ ∃ e' ∈ B', e'.ty = .line ∧ e'.verts.Perm e.verts

/-- `M` has the elements of all blocks, without the edges between them; each place has one node. -/
structure Joined (Bs : List (List (Emit Cyl.Pt))) (M : LMesh) : Prop where
  ready : Ready 2 M.part.doms (M.part.bnds.map (·.1)) 1 M.size
  inj : ∀ x y, x < M.size → y < M.size → M.pos x = M.pos y → x = y
  cells : ∀ k ty ps, (∃ e ∈ els M.part.doms k, e.ty = ty ∧ e.nodes.map M.pos = ps) ↔
    ∃ a B, Bs[a]? = some B ∧ ∃ e ∈ B, e.dom = k ∧ e.ty = ty ∧ e.verts.map ptOf = ps ∧ ¬ (ty = .line ∧ Shared Bs a e)
  bnds : ∀ b, b ∈ M.part.bnds.map (·.1) ↔ ∃ e ∈ els M.part.doms b, e.ty = .line
  types : ∀ k, ∀ e ∈ els M.part.doms k, e.ty = .quad ∨ e.ty = .line
  distinct : ∀ k k', ∀ e ∈ els M.part.doms k, ∀ e' ∈ els M.part.doms k', e.ty = .quad → e'.ty = .quad → e.nodes.Perm e'.nodes → e = e'

theorem at_mem {b : Sq} (ok : b.Ok) {x y : Nat} (hx : x ≤ b.n) (hy : y ≤ b.m) : ∃ e ∈ b.emits, b.at x y ∈ e.verts := by
  have h1 := ok.lenx
  have h2 := ok.leny
  have h3 := ok.n_pos
  have h4 := ok.m_pos
  have key : ∀ i j, i < b.n → j < b.m → ∃ e ∈ b.emits, e.verts = [b.at i j, b.at (i + 1) j, b.at i (j + 1), b.at (i + 1) (j + 1)] := by
    intro i j hi hj
    unfold Sq.emits deform square squareEmits
    refine ⟨_, List.mem_map.2 ⟨_, List.mem_append_left _ (List.mem_append_left _ (List.mem_flatMap.2 ⟨j, List.mem_range.2 (by omega), List.mem_map.2 ⟨i, List.mem_range.2 (by omega), rfl⟩⟩)), rfl⟩, rfl⟩
  obtain ⟨i, hi, hi'⟩ : ∃ i, i < b.n ∧ (x = i ∨ x = i + 1) := by
    rcases Nat.lt_or_ge x b.n with c | c
    · exact ⟨x, c, .inl rfl⟩
    · exact ⟨b.n - 1, by omega, by omega⟩
  obtain ⟨j, hj, hj'⟩ : ∃ j, j < b.m ∧ (y = j ∨ y = j + 1) := by
    rcases Nat.lt_or_ge y b.m with c | c
    · exact ⟨y, c, .inl rfl⟩
    · exact ⟨b.m - 1, by omega, by omega⟩
  obtain ⟨e, he, hv⟩ := key i j hi hj
  refine ⟨e, he, ?_⟩
  rw [hv]
  rcases hi' with rfl | rfl <;> rcases hj' with rfl | rfl <;> simp

theorem farApart_of {bs : List Sq} (ok : ∀ b ∈ bs, b.Ok) (h : Far (bs.map Sq.emits)) : FarApart bs := by
  intro b hb c hc x y x' y' hx hy hx' hy' hcl
  obtain ⟨e, he, hv⟩ := at_mem (ok b hb) hx hy
  obtain ⟨e', he', hv'⟩ := at_mem (ok c hc) hx' hy'
  by_contra hne
  have h1 := h _ (List.mem_map.2 ⟨c, hc, rfl⟩) e' he' _ hv' _ (List.mem_map.2 ⟨b, hb, rfl⟩) e he _ hv (fun e => hne e.symm)
  have h2 : Real.sqrt ((((ptOf (c.at x' y')).zip (ptOf (b.at x y))).map fun r => (r.1 - r.2) * (r.1 - r.2)).sum) < 1 / 10 ^ 12 := by
    unfold close at hcl
    exact of_decide_eq_true hcl
  have h3 : ((((ptOf (c.at x' y')).zip (ptOf (b.at x y))).map fun r => (r.1 - r.2) * (r.1 - r.2)).sum) =
      ((c.at x' y').1 - (b.at x y).1) ^ 2 + ((c.at x' y').2.1 - (b.at x y).2.1) ^ 2 + ((c.at x' y').2.2 - (b.at x y).2.2) ^ 2 := by
    simp [ptOf]; ring
  rw [h3] at h2
  linarith

theorem Quad.face_line {b : Sq} {M : LMesh} (h : Quad b.F b.xs b.ys b.ids M) (ok : b.Ok) {vs : List Cyl.Pt} :
    Face M.part M.pos (vs.map ptOf) ↔ ∃ e ∈ b.emits, e.ty = .line ∧ e.verts.Perm vs := by
  have hinj : Function.Injective ptOf := fun _ _ => ptOf_inj
  rw [face_iff]
  constructor
  · rintro ⟨k, hk, ty, qs, hc, hp⟩
    have hdim := h.located.block.dim_of_bnd hk hc
    obtain ⟨e, he, rfl, rfl, rfl⟩ := (h.cells _ _ _).1 hc
    have hl : e.ty = .line := (ty_cases he).resolve_left fun h => by rw [h] at hdim; simp [ElType.dim] at hdim
    exact ⟨e, he, hl, (List.map_perm_map_iff hinj).1 hp⟩
  · rintro ⟨e, he, hl, hp⟩
    refine ⟨e.dom, ?_, e.ty, _, (h.cells _ _ _).2 ⟨e, he, rfl, rfl, rfl⟩, hp.map _⟩
    rw [h.bnds]
    exact (line_bedge ok.lenx ok.leny he hl).1

theorem blockMeshes_eq (ord : Nat → Nat → List Element → List Element) (bs : List Sq) :
    blockMeshes ord (bs.map Sq.ids) (bs.map Sq.emits) = (bs.zipIdx).mapM fun q => meshOf (ord q.2) q.1.ids q.1.emits := by
  unfold blockMeshes
  have key : ∀ (l : List Sq) (s : Nat), (((l.map Sq.ids).zip (l.map Sq.emits)).zipIdx s).mapM (fun q => meshOf (ord q.2) q.1.1 q.1.2) =
      (l.zipIdx s).mapM fun q => meshOf (ord q.2) q.1.ids q.1.emits := by
    intro l
    induction l with
    | nil => intro s; rfl
    | cons b l ih =>
      intro s
      simp only [List.map_cons, List.zip_cons_cons, List.zipIdx_cons, List.mapM_cons, ih]
  exact key bs 0

/-- Squares which fit are merged. -/
theorem joined {dom : Nat} {bs : List Sq} (h : SqFit dom bs) (hne : bs ≠ []) {ord : Nat → Nat → List Element → List Element} (hord : ∀ i k l, (ord i k l).Perm l)
    {o : Nat → Orders} (ho : ∀ i, (o i).Ok) : ∃ M, (blockMeshes ord (bs.map Sq.ids) (bs.map Sq.emits)).bind (mergeList o) = some M ∧ Joined (bs.map Sq.emits) M := by
  obtain ⟨Ms, h1, h2⟩ := meshes_ok h ord hord 0
  have hlen : bs.length = Ms.length := List.Forall₂.length_eq h2
  obtain ⟨A, Bs, rfl⟩ : ∃ A Bs, Ms = A :: Bs := by
    cases Ms with
    | nil => exact absurd (List.length_eq_zero_iff.1 hlen) hne
    | cons A Bs => exact ⟨A, Bs, rfl⟩
  have hF := fitAll_of h h2
  obtain ⟨M, h3, h4⟩ := merge_all hF ho
  refine ⟨M, by rw [blockMeshes_eq, h1]; exact h3, ?_⟩
  have hcells : ∀ k ty ps, Cell M.part M.pos k ty ps ↔ ∃ a B, (bs.map Sq.emits)[a]? = some B ∧ ∃ e ∈ B, e.dom = k ∧ e.ty = ty ∧ e.verts.map ptOf = ps ∧
      ¬ (ty = .line ∧ Shared (bs.map Sq.emits) a e) := by
    intro k ty ps
    rw [h4.cells]
    have other : ∀ {i : Nat} {e : Emit Cyl.Pt}, OtherFace (A :: Bs) (Bs.length + 1) i (e.verts.map ptOf) ↔ Shared (bs.map Sq.emits) i e := by
      intro i e
      constructor
      · rintro ⟨i', B', hi', hne', hB', hf⟩
        obtain ⟨b', hb', hq'⟩ := h2.get hB'
        obtain ⟨e', he', ht', hp'⟩ := (hq'.face_line (h.ok b' (List.mem_of_getElem? hb'))).1 hf
        exact ⟨i', _, hne', by rw [List.getElem?_map, hb']; rfl, e', he', ht', hp'⟩
      · rintro ⟨i', B', hne', hB', e', he', ht', hp'⟩
        rw [List.getElem?_map, Option.map_eq_some_iff] at hB'
        obtain ⟨b', hb', rfl⟩ := hB'
        obtain ⟨M', hM', hq'⟩ := h2.get' hb'
        have hlt := (List.getElem?_eq_some_iff.1 hM').1
        exact ⟨i', M', by simpa using hlt, hne', hM', (hq'.face_line (h.ok b' (List.mem_of_getElem? hb'))).2 ⟨e', he', ht', hp'⟩⟩
    have isline : ∀ {b : Sq} {M' : LMesh} {e : Emit Cyl.Pt}, b ∈ bs → Quad b.F b.xs b.ys b.ids M' → e ∈ b.emits → (e.dom ∈ bids M'.part ↔ e.ty = .line) := by
      intro b M' e hb hq he
      rw [hq.bnds]
      constructor
      · intro hd
        refine (ty_cases he).resolve_left fun ht => ?_
        obtain ⟨_, _, _, _, hdom, _⟩ := mem_quad (h.ok b hb).lenx (h.ok b hb).leny he ht
        rw [hdom] at hd
        exact ((h.dom b hb).1 ▸ (h.dom b hb).2) (Std.mem_sortUniq.1 hd)
      · exact fun ht => (line_bedge (h.ok b hb).lenx (h.ok b hb).leny he ht).1
    constructor
    · rintro ⟨i, B, hi, hB, hc, hn⟩
      obtain ⟨b, hb, hq⟩ := h2.get hB
      obtain ⟨e, he, rfl, rfl, rfl⟩ := (hq.cells _ _ _).1 hc
      refine ⟨i, _, by rw [List.getElem?_map, hb]; rfl, e, he, rfl, rfl, rfl, fun hs => hn ⟨?_, other.2 hs.2⟩⟩
      exact (isline (List.mem_of_getElem? hb) hq he).2 hs.1
    · rintro ⟨i, B, hB, e, he, rfl, rfl, rfl, hn⟩
      rw [List.getElem?_map, Option.map_eq_some_iff] at hB
      obtain ⟨b, hb, rfl⟩ := hB
      obtain ⟨M', hM', hq⟩ := h2.get' hb
      have hlt := (List.getElem?_eq_some_iff.1 hM').1
      refine ⟨i, M', by simpa using hlt, hM', (hq.cells _ _ _).2 ⟨e, he, rfl, rfl, rfl⟩, fun hs => hn ⟨?_, other.1 hs.2⟩⟩
      exact (isline (List.mem_of_getElem? hb) hq he).1 hs.1
  refine ⟨h4.located.block.ready, h4.located.block.inj, hcells, ?_, ?_, ?_⟩
  · intro b
    constructor
    · intro hb
      obtain ⟨_, hne'⟩ := (h4.bnds b).1 hb
      obtain ⟨ty, ps, hc⟩ := cell_of_ne (pos := M.pos) hne'
      have hd := h4.located.block.dim_of_bnd hb hc
      obtain ⟨e, he, rfl, _⟩ := hc
      refine ⟨e, he, ?_⟩
      obtain ⟨a, B, hB, e', he', _, ht, _⟩ := (hcells b e.ty _).1 ⟨e, he, rfl, rfl⟩
      rw [List.getElem?_map, Option.map_eq_some_iff] at hB
      obtain ⟨b', hb', rfl⟩ := hB
      rw [← ht]
      refine (ty_cases he').resolve_left fun hq => ?_
      rw [← ht, hq] at hd
      simp [ElType.dim] at hd
    · rintro ⟨e, he, ht⟩
      refine (h4.bnds b).2 ⟨?_, List.ne_nil_of_mem he⟩
      obtain ⟨a, B, hB, e', he', hd, ht', _⟩ := (hcells b e.ty _).1 ⟨e, he, rfl, rfl⟩
      rw [List.getElem?_map, Option.map_eq_some_iff] at hB
      obtain ⟨b', hb', rfl⟩ := hB
      obtain ⟨M', hM', hq⟩ := h2.get' hb'
      have hlt := (List.getElem?_eq_some_iff.1 hM').1
      refine ⟨a, M', by simpa using hlt, hM', ?_⟩
      have ok := h.ok b' (List.mem_of_getElem? hb')
      rw [hq.bnds, ← hd]
      exact (line_bedge ok.lenx ok.leny he' (ht'.trans ht)).1
  · intro k e he
    obtain ⟨a, B, hB, e', he', _, ht, _⟩ := (hcells k e.ty _).1 ⟨e, he, rfl, rfl⟩
    rw [List.getElem?_map, Option.map_eq_some_iff] at hB
    obtain ⟨b', hb', rfl⟩ := hB
    rw [← ht]
    exact ty_cases he'
  · intro k k' e he e' he' hq hq'
    exact h4.located.block.distinct k k' e he e' he' (by rw [hq]; rfl) (by rw [hq']; rfl)

end Verif.MergeGen
