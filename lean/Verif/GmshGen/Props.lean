import Verif.GmshGen.Lemmas

/-! # Property C141: Gmsh files of conforming meshes are ready for distribution -/
namespace Verif.GmshGen
open Verif Verif.Elem Verif.Mesh Verif.Gmsh Verif.GmshText Verif.Partition Verif.Merge Verif.Extrude Verif.Split Verif.Gen Verif.Pipeline

variable {K : Type} [Field K] [LinearOrder K] {entities : List ((Nat × Nat) × Nat)} {nodes : List (Nat × Gmsh.Pt K)} {blocks : List Block} {bnds : List Nat} {D : Nat} {eps : K}

/-- The import of element `g` of the file. -/
structure Elt (eps : K) (entities : List ((Nat × Nat) × Nat)) (nodes : List (Nat × Gmsh.Pt K)) (g : Block × List Nat) (k : Nat) (e : Element) (info : List (Nat × Gmsh.Pt K)) : Prop where
  dom : entities.lookup (g.1.dim, g.1.tag) = some k
  ty : elType g.1.type = some e.ty
  two : e.n = 2
  len : info.length = 2 ^ e.ty.dim
  tags : g.2 = (info.map (·.1)).map (tagOf nodes)
  ids : info.map (·.1) = g.2.map (idOf nodes)
  lt : ∀ i ∈ info.map (·.1), i < nodes.length
  nodes_eq : e.nodes = (arrange eps e.ty info).map (·.1)

theorem Elt.perm {g : Block × List Nat} {k : Nat} {e : Element} {info : List (Nat × Gmsh.Pt K)} (h : Elt eps entities nodes g k e info) : e.nodes.Perm (info.map (·.1)) := by
  rw [h.nodes_eq]; exact (arrange_perm _ _ _).map _

theorem elt_of (ok : FileOk entities nodes blocks) {g : Block × List Nat} (hg : g ∈ gels blocks) {ev : Nat × Element × List (Gmsh.Pt K)} (h : Imports eps entities nodes g ev) (i : Nat) :
    ∃ info, Elt eps entities nodes g ev.1 { ev.2.1 with id := i } info := by
  obtain ⟨h1, h2, h3, info, h4, h5, -⟩ := h
  obtain ⟨b, hb, hts⟩ := List.mem_flatMap.1 hg
  obtain ⟨ts, hts', rfl⟩ := List.mem_map.1 hts
  obtain ⟨dom, ty, -, hty, hlen⟩ := ok.block b hb
  have : ty = ev.2.1.ty := Option.some.inj (hty.symm.trans h2)
  subst this
  obtain ⟨t1, t2, t3⟩ := info_tags ok.tags h4
  exact ⟨info, h1, h2, h3, by rw [← h4.length_eq]; exact (hlen ts hts').1, t1, t2, t3, h5⟩

/-- Sides of the imported elements and sides in the file. -/
theorem core {g gx : Block × List Nat} {k kx : Nat} {e x : Element} {info infox : List (Nat × Gmsh.Pt K)} (h : Elt eps entities nodes g k e info) (hx : Elt eps entities nodes gx kx x infox)
    (hd : e.ty.dim = x.ty.dim + 1) :
    ∃ σ : Nat → Nat, (∀ s l, sideNodes e s = some l → l.Perm x.nodes → Borders g (σ s) gx) ∧
      (∀ j, Borders g j gx → ∃ s l, σ s = j ∧ sideNodes e s = some l ∧ l.Perm x.nodes) ∧
      ∀ s s' l l', sideNodes e s = some l → sideNodes e s' = some l' → σ s = σ s' → s = s' := by
  have hpos : 1 ≤ x.ty.dim := by cases x.ty <;> decide
  obtain ⟨A, σ, ht, ha⟩ := arrange_places eps e.ty info h.len (by omega)
  have S := sides_of_table (ids := info.map (·.1)) ht e.id
  have he : (⟨e.ty, 2, e.id, A.map fun i => (info.map (·.1)).getD i 0⟩ : Element) = e := by
    rw [← ha, ← h.nodes_eq, ← h.two]
  rw [he] at S
  have hlen : (info.map (·.1)).length = 2 ^ e.ty.dim := by rw [List.length_map]; exact h.len
  refine ⟨_, ?_, ?_, S.inj⟩
  · intro s l hl hp
    obtain ⟨gl, g1, g2⟩ := S.match_ s l hl
    refine ⟨e.ty, x.ty, gl, h.ty, hx.ty, hd, g1, ?_⟩
    exact (perm_tags h.tags h.ids hx.tags hx.ids gl (fun i hi => by rw [hlen]; exact S.lt _ gl g1 i hi)).1 (g2.symm.trans (hp.trans hx.perm))
  · rintro j ⟨ty, tx, gl, b1, b2, b3, b4, b5⟩
    have : ty = e.ty := Option.some.inj (b1.symm.trans h.ty)
    subst this
    obtain ⟨s, l, rfl, hl⟩ := S.surj j (List.getElem?_eq_some_iff.1 b4).1
    obtain ⟨gl', g1, g2⟩ := S.match_ s l hl
    have : gl' = gl := Option.some.inj (g1.symm.trans b4)
    subst this
    refine ⟨s, l, rfl, hl, g2.trans (List.Perm.trans ?_ hx.perm.symm)⟩
    exact (perm_tags h.tags h.ids hx.tags hx.ids gl' (fun i hi => by rw [hlen]; exact S.lt _ gl' g1 i hi)).2 b5

/-- **C141** (mesh).  A file with a conforming mesh is read, and the mesh is ready for distribution: it can be partitioned, boundaries find their elements, the nodes are numbered without gaps, and the
answer of a problem set up on it does not depend on the distribution. -/
theorem C141_mesh (eps : K) (h : Conforming entities nodes blocks bnds D) :
    ∃ doms, Gmsh.readMesh eps entities nodes blocks = some doms ∧ Ready 2 doms bnds D nodes.length ∧ SameAnswer 2 doms bnds := by
  obtain ⟨doms, evs, hr, -, W, hF, hels, hids, -⟩ := C33_read eps h.ok
  change List.Forall₂ _ (gels blocks) evs at hF
  have inDom : ∀ k e, InDom doms k e ↔ ∃ (i : Nat) (ev : Nat × Element × List (Gmsh.Pt K)), evs[i]? = some ev ∧ ev.1 = k ∧ e = { ev.2.1 with id := i } := by
    intro k e
    rw [← mem_els, (hels k).mem_iff, List.mem_map]
    constructor
    · rintro ⟨⟨ev, i⟩, hm, rfl⟩
      rw [List.mem_filter] at hm
      exact ⟨i, ev, List.mem_zipIdx_iff_getElem?.1 hm.1, by simpa using hm.2, rfl⟩
    · rintro ⟨i, ev, h1, h2, rfl⟩
      exact ⟨(ev, i), List.mem_filter.2 ⟨List.mem_zipIdx_iff_getElem?.2 h1, by simpa using h2⟩, rfl⟩
  have hlen : (gels blocks).length = evs.length := hF.length_eq
  have imp : ∀ (i : Nat) (hi : i < (gels blocks).length) (hi' : i < evs.length), Imports eps entities nodes (gels blocks)[i] evs[i] := by
    intro i hi hi'
    exact (List.forall₂_iff_get.1 hF).2 i hi hi'
  -- from the mesh to the file
  have toFile : ∀ k e, InDom doms k e → ∃ (i : Nat) (g : Block × List Nat) (info : List (Nat × Gmsh.Pt K)), (gels blocks)[i]? = some g ∧ Elt eps entities nodes g k e info ∧ e.id = i := by
    intro k e he
    obtain ⟨i, ev, h1, rfl, rfl⟩ := (inDom k e).1 he
    obtain ⟨hi, rfl⟩ := List.getElem?_eq_some_iff.1 h1
    have hi' : i < (gels blocks).length := by omega
    obtain ⟨info, hinfo⟩ := elt_of h.ok (List.getElem_mem hi') (imp i hi' hi) i
    exact ⟨i, _, info, List.getElem?_eq_getElem hi', hinfo, rfl⟩
  -- and back
  have toMesh : ∀ (i : Nat) (g : Block × List Nat), (gels blocks)[i]? = some g → ∃ k e, ∃ info : List (Nat × Gmsh.Pt K), InDom doms k e ∧ Elt eps entities nodes g k e info ∧ e.id = i := by
    intro i g hg
    obtain ⟨hi', rfl⟩ := List.getElem?_eq_some_iff.1 hg
    have hi : i < evs.length := by omega
    obtain ⟨info, hinfo⟩ := elt_of h.ok (List.getElem_mem hi') (imp i hi' hi) i
    exact ⟨_, _, info, (inDom _ _).2 ⟨i, evs[i], List.getElem?_eq_getElem hi, rfl, rfl⟩, hinfo, rfl⟩
  have same : ∀ k e k' e', InDom doms k e → InDom doms k' e' → e.id = e'.id → k = k' ∧ e = e' := by
    intro k e k' e' he he' hh
    obtain ⟨i, ev, h1, rfl, rfl⟩ := (inDom k e).1 he
    obtain ⟨i', ev', h1', rfl, rfl⟩ := (inDom k' e').1 he'
    have : i = i' := hh
    subst this
    have : ev = ev' := Option.some.inj (h1.symm.trans h1')
    subst this
    exact ⟨rfl, rfl⟩
  have dimOf : ∀ k e d, doms.lookup k = some d → e ∈ d.elems → d.dim = some e.ty.dim := fun k e d hd he => (W.dom k d hd).dim e he
  have par : ∀ x e s, IsParent doms x e s ↔ (∃ k, InDom doms k e) ∧ e.ty.dim = x.ty.dim + 1 ∧ ∃ l, sideNodes e s = some l ∧ l.Perm x.nodes := by
    intro x e s
    constructor
    · rintro ⟨⟨d, hd, h1, v, hv, he⟩, h2⟩
      have hl := lookup_of_mem (wf_keys W) hd
      have hmem : e ∈ d.2.elems := List.mem_flatten.2 ⟨v, hv, he⟩
      have := dimOf _ e _ hl hmem
      rw [h1] at this
      exact ⟨⟨d.1, d.2, hl, hmem⟩, (Option.some.inj this).symm, h2⟩
    · rintro ⟨⟨k, d, hl, hmem⟩, h1, h2⟩
      obtain ⟨v, hv, he⟩ := List.mem_flatten.1 hmem
      exact ⟨⟨(k, d), mem_of_lookup hl, by rw [← h1]; exact dimOf _ e _ hl hmem, v, hv, he⟩, h2⟩
  -- boundary elements
  have hparent : ∀ b ∈ bnds, ∀ x, InDom doms b x → ∃ e s, IsParent doms x e s := by
    intro b hb x hx
    obtain ⟨ix, gx, infox, hgx, ex, -⟩ := toFile b x hx
    obtain ⟨p, ⟨g, hg, hB⟩, -⟩ := h.parent b hb gx (List.mem_of_getElem? hgx) ex.dom
    obtain ⟨k, e, info, he, ee, -⟩ := toMesh p.1 g hg
    have hd : e.ty.dim = x.ty.dim + 1 := by
      obtain ⟨ty, tx, l, b1, b2, b3, -⟩ := hB
      rw [Option.some.inj (ee.ty.symm.trans b1), Option.some.inj (ex.ty.symm.trans b2)]; exact b3
    obtain ⟨σ, -, h2, -⟩ := core ee ex hd
    obtain ⟨s, l, -, hl, hp⟩ := h2 _ hB
    exact ⟨e, s, (par x e s).2 ⟨⟨k, he⟩, hd, l, hl, hp⟩⟩
  have huni : UniqueParent doms bnds := by
    intro b hb x hx e s e' s' hp hp'
    obtain ⟨⟨k, he⟩, hd, l, hl, hpl⟩ := (par x e s).1 hp
    obtain ⟨⟨k', he'⟩, hd', l', hl', hpl'⟩ := (par x e' s').1 hp'
    obtain ⟨ix, gx, infox, hgx, ex, -⟩ := toFile b x hx
    obtain ⟨i, g, info, hg, ee, hi⟩ := toFile k e he
    obtain ⟨i', g', info', hg', ee', hi'⟩ := toFile k' e' he'
    obtain ⟨p, -, hu⟩ := h.parent b hb gx (List.mem_of_getElem? hgx) ex.dom
    obtain ⟨σ, h1, -, h3⟩ := core ee ex hd
    obtain ⟨σ', h1', -, -⟩ := core ee' ex hd'
    have a := hu (i, σ s) ⟨g, hg, h1 s l hl hpl⟩
    have a' := hu (i', σ' s') ⟨g', hg', h1' s' l' hl' hpl'⟩
    have hii : i = i' := congrArg Prod.fst (a.trans a'.symm)
    have hee : e = e' := (same k e k' e' he he' (by rw [hi, hi', hii])).2
    subst hee
    have a2 := hu (i, σ s') ⟨g, hg, h1 s' l' hl' hpl'⟩
    exact ⟨rfl, h3 s s' l l' hl hl' (congrArg Prod.snd (a.trans a2.symm))⟩
  have hone : OneSided doms bnds := by
    intro b hb x hx
    obtain ⟨e, s, hp⟩ := hparent b hb x hx
    obtain ⟨⟨k, he⟩, hd, l, hl, hpl⟩ := (par x e s).1 hp
    refine ⟨k, ⟨e, he, hd, s, l, hl, hpl⟩, ?_⟩
    rintro k' ⟨e', he', hd', s', l', hl', hpl'⟩
    have := (huni b hb x hx e s e' s' hp ((par x e' s').2 ⟨⟨k', he'⟩, hd', l', hl', hpl'⟩)).1
    subst this
    exact (same k' e k e he' he rfl).1
  have hok : MeshOk (kindsOf 2) doms bnds D := by
    refine ⟨W, ?_, ?_, h.sorted, ?_, ?_⟩
    · intro e he
      obtain ⟨k, hk⟩ := (holds_iff_inDom W).1 he
      obtain ⟨i, g, info, -, ee, -⟩ := toFile k e hk
      refine ⟨by rw [ee.two]; decide, ?_, ?_⟩
      · rw [ee.two]; cases e.ty <;> decide
      · rw [ee.perm.length_eq, List.length_map, ee.len, ee.two]
    · have := hids.nodup_iff.2 List.nodup_range
      rw [visitAll, visitIds_tagged, List.map_map] at this
      exact this
    · intro b hb
      obtain ⟨g, hg, hdom, ty, hty, hD⟩ := h.bnd b hb
      obtain ⟨i, hi, rfl⟩ := List.mem_iff_getElem.1 hg
      obtain ⟨k, e, info, ⟨d, hd, he⟩, ee, -⟩ := toMesh i _ (List.getElem?_eq_getElem hi)
      have : k = b := Option.some.inj (ee.dom.symm.trans hdom)
      subst this
      refine ⟨d, hd, ?_, List.ne_nil_of_mem he⟩
      rw [dimOf k e d hd he, Option.some.inj (ee.ty.symm.trans hty), hD]
    · intro b hb d hd x hx
      exact hparent b hb x ⟨d, hd, hx⟩
  have R : Ready 2 doms bnds D nodes.length := by
    refine ⟨hok, hone, huni, fun v => ?_⟩
    constructor
    · rintro ⟨e, he, hv⟩
      obtain ⟨k, hk⟩ := (holds_iff_inDom W).1 he
      obtain ⟨i, g, info, -, ee, -⟩ := toFile k e hk
      exact ee.lt v (ee.perm.mem_iff.1 hv)
    · intro hv
      obtain ⟨g, hg, hm⟩ := h.used nodes[v] (List.getElem_mem hv)
      obtain ⟨i, hi, rfl⟩ := List.mem_iff_getElem.1 hg
      obtain ⟨k, e, info, he, ee, -⟩ := toMesh i _ (List.getElem?_eq_getElem hi)
      refine ⟨e, (holds_iff_inDom W).2 ⟨k, he⟩, ee.perm.mem_iff.2 ?_⟩
      rw [ee.ids]
      refine List.mem_map.2 ⟨_, hm, ?_⟩
      have h3 : v < (nodes.map (·.1)).length := by rw [List.length_map]; exact hv
      have h4 : (nodes.map (·.1))[v] = nodes[v].1 := List.getElem_map _
      unfold idOf
      rw [← h4]
      exact h.ok.tags.idxOf_getElem _ h3
  exact ⟨doms, hr, R, R.answer⟩

/-- **C141** (text).  The same from the text of the file. -/
theorem C141_text_partial (dec : List Char → Option K) (eps : K) (M : MeshFile K) (file : List Char) (hr : M.InRange) (ht : M.IsText dec file) (hn : ∀ b ∈ M.nodeBlocks, b.nodes ≠ [])
    (h : Conforming M.physical M.nodes M.blocks bnds D) :
    ∃ doms, readText eps dec file = .ok doms ∧ Ready 2 doms bnds D M.nodes.length ∧ SameAnswer 2 doms bnds := by
  obtain ⟨doms, h1, h2, h3⟩ := C141_mesh eps h
  refine ⟨doms, ?_, h2, h3⟩
  rw [C86_text_partial dec eps M file hr ht hn]
  unfold described
  rw [h1]

/-- **C141** is false as C86 is: an empty block of nodes makes the reader refuse the file. -/
theorem C141_violated : ¬ C141Statement := by
  intro h
  have hc : Conforming exEmpty.physical exEmpty.nodes exEmpty.blocks [] 1 := by
    refine ⟨⟨by decide, ?_, ?_⟩, by decide, List.Pairwise.nil, by simp, by simp⟩
    · intro b hb
      obtain rfl : b = ⟨1, 3, 1, [[1, 2]]⟩ := List.mem_singleton.1 hb
      exact ⟨7, .line, by decide, by decide, by decide⟩
    · intro b hb b' hb' dom ty ty' _ _ h3 h4
      obtain rfl : b = ⟨1, 3, 1, [[1, 2]]⟩ := List.mem_singleton.1 hb
      obtain rfl : b' = ⟨1, 3, 1, [[1, 2]]⟩ := List.mem_singleton.1 hb'
      rw [Option.some.inj (h3.symm.trans h4)]
  obtain ⟨doms, h1, -⟩ := h ℚ exDec (1 / 10 ^ 9) exEmpty exEmptyText [] 1 exEmpty_range exEmpty_text hc
  rw [C86_empty_block] at h1
  cases h1

/-! ## Example -/

/-- The square of C33, listed clockwise, with one boundary. -/
theorem ex_conforming : Conforming exEntities exNodes exBlocks [6] 1 := by
  refine ⟨ex_ok, by decide, by decide, ?_, ?_⟩
  · intro b hb
    obtain rfl := List.mem_singleton.1 hb
    exact ⟨(⟨1, 4, 1, [[10, 3]]⟩, [10, 3]), by simp [gels, exBlocks], by decide, .line, by decide, by decide⟩
  · intro b hb x hx hdom
    obtain rfl := List.mem_singleton.1 hb
    have hG : gels exBlocks = [(⟨2, 1, 3, [[10, 7, 8, 3]]⟩, [10, 7, 8, 3]), (⟨1, 4, 1, [[10, 3]]⟩, [10, 3])] := rfl
    rw [hG] at hx
    simp only [List.mem_cons, List.not_mem_nil, or_false] at hx
    rcases hx with rfl | rfl
    · exact absurd hdom (by decide)
    · refine ⟨(0, 3), ⟨_, rfl, .quad, .line, [3, 0], rfl, rfl, rfl, rfl, by decide⟩, ?_⟩
      rintro ⟨i, j⟩ ⟨g, hg, ty, tx, l, h1, h2, h3, h4, h5⟩
      rw [hG] at hg
      obtain ⟨hi, rfl⟩ := List.getElem?_eq_some_iff.1 hg
      have hi2 : i < 2 := hi
      obtain rfl : tx = .line := (Option.some.inj h2).symm
      obtain rfl | rfl : i = 0 ∨ i = 1 := by omega
      · obtain rfl : ty = .quad := (Option.some.inj h1).symm
        obtain ⟨hj, rfl⟩ := List.getElem?_eq_some_iff.1 h4
        have hj4 : j < 4 := hj
        obtain rfl | rfl | rfl | rfl : j = 0 ∨ j = 1 ∨ j = 2 ∨ j = 3 := by omega
        · exact absurd (show ([10, 7] : List Nat).Perm [10, 3] from h5) (by decide)
        · exact absurd (show ([7, 8] : List Nat).Perm [10, 3] from h5) (by decide)
        · exact absurd (show ([8, 3] : List Nat).Perm [10, 3] from h5) (by decide)
        · rfl
      · obtain rfl : ty = .line := (Option.some.inj h1).symm
        exact absurd h3 (by decide)

example : ∃ doms, Gmsh.readMesh (1 / 10 ^ 9 : ℚ) exEntities exNodes exBlocks = some doms ∧ Ready 2 doms [6] 1 4 ∧ SameAnswer 2 doms [6] :=
  C141_mesh _ ex_conforming

theorem Conforming.congr {entities' : List ((Nat × Nat) × Nat)} (h : Conforming entities nodes blocks bnds D) (he : ∀ k, entities'.lookup k = entities.lookup k) :
    Conforming entities' nodes blocks bnds D := by
  obtain ⟨⟨h1, h2, h3⟩, h4, h5, h6, h7⟩ := h
  refine ⟨⟨h1, ?_, ?_⟩, h4, h5, ?_, ?_⟩ <;> simp only [he] <;> assumption

/-- The same square in a file. -/
def exSquare : MeshFile ℚ where
  version := 41 / 10
  dataSize := 8
  ents := fun d => if d = 1 then [⟨4, [0, 0, 1, 1, 0, 1], some 6, [1, -2]⟩] else if d = 2 then [⟨1, [0, 0, 1, 1, 1, 1], some 5, [4]⟩] else []
  nodeHdr := (4, 3, 10)
  nodeBlocks := [⟨2, 1, exNodes⟩]
  elHdr := (2, 1, 2)
  elBlocks := [⟨2, 1, 3, [(1, [10, 7, 8, 3])]⟩, ⟨1, 4, 1, [(2, [10, 3])]⟩]

theorem exSquare_range : exSquare.InRange := by
  refine ⟨by norm_num [exSquare], by decide, ?_, ?_, by decide, ?_, by decide, ?_, ?_⟩
  · intro d _; simp only [exSquare]; split <;> [skip; split] <;> simp
  · intro d _ e he
    simp only [exSquare] at he
    split at he
    · rename_i hd; subst hd
      simp only [List.mem_singleton] at he
      subst he
      simp
    · split at he
      · rename_i hd; subst hd
        simp only [List.mem_singleton] at he
        subst he
        simp
      · simp at he
  · intro b hb
    simp only [exSquare, List.mem_singleton] at hb
    subst hb; simp [exNodes]
  · intro b hb
    simp only [exSquare, List.mem_cons, List.not_mem_nil, or_false] at hb
    rcases hb with rfl | rfl <;>
    · simp only [List.mem_singleton]
      refine ⟨by omega, by omega, by omega, by simp, ?_⟩
      rintro e rfl
      refine ⟨by omega, by simp, ?_⟩
      intro ty hty
      cases hty; rfl
  · intro d _; simp only [exSquare]; split <;> [skip; split] <;> simp

theorem exSquare_text : exSquare.IsText exDec (layout "\n4.1 0 8" "\n0 1 1 0\n4 0 0 1 1 0 1 1 6 2 1 -2\n1 0 0 1 1 1 1 1 5 1 4"
    "\n1 4 3 10\n2 1 0 4\n10\n7\n8\n3\n0 0 1\n0 1 1\n1 1 1\n1 0 1" "\n2 2 1 2\n2 1 3 1\n1 10 7 8 3\n1 4 1 1\n2 10 3") :=
  layout_isText (by decide +kernel) (by decide +kernel) (by decide +kernel) (by decide +kernel)

example : ∃ doms, readText (1 / 10 ^ 9) exDec (layout "\n4.1 0 8" "\n0 1 1 0\n4 0 0 1 1 0 1 1 6 2 1 -2\n1 0 0 1 1 1 1 1 5 1 4"
    "\n1 4 3 10\n2 1 0 4\n10\n7\n8\n3\n0 0 1\n0 1 1\n1 1 1\n1 0 1" "\n2 2 1 2\n2 1 3 1\n1 10 7 8 3\n1 4 1 1\n2 10 3") = .ok doms ∧ Ready 2 doms [6] 1 4 ∧ SameAnswer 2 doms [6] := by
  refine C141_text_partial exDec _ exSquare _ exSquare_range exSquare_text (by simp [exSquare, exNodes]) ?_
  refine ex_conforming.congr fun k => ?_
  rw [show exSquare.physical = [((1, 4), 6), ((2, 1), 5)] from by decide]
  unfold exEntities
  by_cases h1 : k = (1, 4)
  · subst h1; rfl
  · by_cases h2 : k = (2, 1)
    · subst h2; rfl
    · simp [List.lookup_cons, beq_eq_false_iff_ne.2 h1, beq_eq_false_iff_ne.2 h2]

end Verif.GmshGen
