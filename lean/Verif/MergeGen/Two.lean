import Verif.MergeGen.Model
import Verif.Merge.Props
import Verif.Extrude.Props
import Verif.Gen.Conv

/-! # Merging two meshes which fit -/
namespace Verif.MergeGen
open Verif Verif.Elem Verif.Mesh Verif.Split Verif.Partition Verif.Merge Verif.Gen Verif.Pipeline

variable {P : Type} {A B : Part} {N1 N2 D : Nat} {pos1 pos2 : Nat → P}

/-- Ids of the boundaries. -/
abbrev bids (A : Part) : List Nat := A.bnds.map (·.1)

/-- A mesh of order 1 as built by the library, ready for distribution, with element ids `0, ..., n - 1`, and its nodes at different places. -/
structure Block (A : Part) (N : Nat) (pos : Nat → P) (D : Nat) : Prop where
  ready : Ready 2 A.doms (bids A) D N
  views : ∃ ord : Nat → List Element → List Element, (∀ k l, (ord k l).Perm l) ∧ initViews A.doms (bids A) ord = some A.bnds
  ids : ∀ k, ∀ e ∈ els A.doms k, e.id < (visitAll A.doms).length
  inj : ∀ x y, x < N → y < N → pos x = pos y → x = y
  distinct : ∀ k k', ∀ e ∈ els A.doms k, ∀ e' ∈ els A.doms k', e.ty.dim = D + 1 → e'.ty.dim = D + 1 → e.nodes.Perm e'.nodes → e = e'

/-- Domain `k` has an element of the given type whose nodes are at the given points. -/
def Cell (A : Part) (pos : Nat → P) (k : Nat) (ty : ElType) (ps : List P) : Prop := ∃ e ∈ els A.doms k, e.ty = ty ∧ e.nodes.map pos = ps

/-- Some boundary has an element whose nodes are at the given points, in any order. -/
def Face (A : Part) (pos : Nat → P) (ps : List P) : Prop := ∃ b ∈ bids A, ∃ x ∈ els A.doms b, (x.nodes.map pos).Perm ps

/-- Some element of dimension `D + 1` has a side with nodes at the given points, in any order. -/
def Side (D : Nat) (A : Part) (pos : Nat → P) (ps : List P) : Prop :=
  ∃ k, ∃ e ∈ els A.doms k, e.ty.dim = D + 1 ∧ ∃ s l, sideNodes e s = some l ∧ (l.map pos).Perm ps

/-- The point is a node of a boundary element. -/
def BndNode (A : Part) (x : Nat) : Prop := ∃ b ∈ bids A, ∃ e ∈ els A.doms b, x ∈ e.nodes

/-- Two meshes which can be merged. -/
structure Fits (D N1 N2 : Nat) (A B : Part) (pos1 pos2 : Nat → P) : Prop where
  /-- domains with the same id have the same dimension -/
  dim : ∀ k, ∀ a ∈ els A.doms k, ∀ b ∈ els B.doms k, a.ty.dim = b.ty.dim
  /-- boundaries of one mesh are not other domains of the other one -/
  role1 : ∀ k ∈ bids A, k ∈ B.doms.map (·.1) → k ∈ bids B
  role2 : ∀ k ∈ bids B, els A.doms k ≠ [] → k ∈ bids A
  /-- they meet in boundary nodes only -/
  common : ∀ x y, x < N1 → y < N2 → pos1 x = pos2 y → BndNode A x ∧ BndNode B y
  /-- sides they have in common are boundaries of both -/
  sides : ∀ ps, Side D A pos1 ps → Side D B pos2 ps → Face A pos1 ps ∧ Face B pos2 ps
  /-- they do not cover each other -/
  cells : ∀ k k' ty ty' ps ps', Cell A pos1 k ty ps → Cell B pos2 k' ty' ps' → ty.dim = D + 1 → ty'.dim = D + 1 → ¬ ps.Perm ps'

/-- The matching is the one of equal positions of boundary nodes. -/
structure MatchOk (φ : Algo.AMap Nat Nat) (A B : Part) (pos1 pos2 : Nat → P) : Prop where
  keys : (φ.map (·.1)).Nodup
  find : ∀ y x, φ.find y = some x ↔ BndNode A x ∧ BndNode B y ∧ pos1 x = pos2 y

/-! ## Blocks -/

theorem Block.ok (h : Block A N1 pos1 D) : Ok kinds1 A D :=
  ⟨h.ready.ok.wf, h.ready.ok.bndSorted, fun b hb d hd => by
    obtain ⟨d', h1, h2, _⟩ := h.ready.ok.bnd b hb
    rw [hd, Option.some.injEq] at h1
    exact h1 ▸ h2, h.views, h.ready.ok.ids⟩

theorem Block.wf (h : Block A N1 pos1 D) : WfMesh kinds1 A.doms := h.ready.ok.wf

theorem Block.holds (h : Block A N1 pos1 D) {k : Nat} {e : Element} (he : e ∈ els A.doms k) : Holds A.doms e := (holds_iff_inDom h.wf).2 ⟨k, mem_els.1 he⟩

theorem Block.wfEl (h : Block A N1 pos1 D) {k : Nat} {e : Element} (he : e ∈ els A.doms k) : WfElement e := h.ready.ok.els e (h.holds he)

theorem Block.meshIn (h : Block A N1 pos1 D) : MeshIn kinds1 A D N1 := ⟨h.ok, h.ids, fun _ _ he => h.wfEl he, h.ready.nodes⟩

theorem Block.lt (h : Block A N1 pos1 D) {k : Nat} {e : Element} (he : e ∈ els A.doms k) {x : Nat} (hx : x ∈ e.nodes) : x < N1 :=
  (h.ready.nodes x).1 ⟨e, h.holds he, hx⟩

theorem Block.bndLt (h : Block A N1 pos1 D) {x : Nat} (hx : BndNode A x) : x < N1 := by
  obtain ⟨b, _, e, he, hx⟩ := hx
  exact h.lt he hx

theorem Block.bndDim (h : Block A N1 pos1 D) {b : Nat} (hb : b ∈ bids A) {e : Element} (he : e ∈ els A.doms b) : e.ty.dim = D := by
  obtain ⟨d, hd, hdim, _⟩ := h.ready.ok.bnd b hb
  obtain ⟨d', hd', hed⟩ := mem_els.1 he
  rw [hd, Option.some.injEq] at hd'
  subst hd'
  have := (h.wf.dom b d hd).dim e hed
  rw [hdim, Option.some.injEq] at this
  exact this.symm

theorem Block.parent (h : Block A N1 pos1 D) {b : Nat} (hb : b ∈ bids A) {x : Element} (hx : x ∈ els A.doms b) : ∃ e s, IsParent A.doms x e s := by
  obtain ⟨d, hd, hxd⟩ := mem_els.1 hx
  exact h.ready.ok.parent b hb d hd x hxd

/-- Boundary elements are sides. -/
theorem Block.side (h : Block A N1 pos1 D) {b : Nat} (hb : b ∈ bids A) {x : Element} (hx : x ∈ els A.doms b) {ps : List P} (hp : (x.nodes.map pos1).Perm ps) : Side D A pos1 ps := by
  obtain ⟨e, s, he⟩ := h.parent hb hx
  obtain ⟨⟨k, hk⟩, hd, l, hl, hlp⟩ := (isParent_iff h.wf).1 he
  exact ⟨k, e, mem_els.2 hk, by rw [hd, h.bndDim hb hx], s, l, hl, (hlp.map pos1).trans hp⟩

theorem Face.congr {pos : Nat → P} {ps ps' : List P} (h : Face A pos ps) (hp : ps.Perm ps') : Face A pos ps' := by
  obtain ⟨b, hb, x, hx, hx'⟩ := h
  exact ⟨b, hb, x, hx, hx'.trans hp⟩

theorem Side.congr {pos : Nat → P} {ps ps' : List P} (h : Side D A pos ps) (hp : ps.Perm ps') : Side D A pos ps' := by
  obtain ⟨k, e, he, hd, s, l, hl, hx'⟩ := h
  exact ⟨k, e, he, hd, s, l, hl, hx'.trans hp⟩

theorem Block.face_side (h : Block A N1 pos1 D) {ps : List P} (hf : Face A pos1 ps) : Side D A pos1 ps := by
  obtain ⟨b, hb, x, hx, hp⟩ := hf
  exact h.side hb hx hp

/-- Elements with sides are not in boundaries. -/
theorem Block.not_bnd (h : Block A N1 pos1 D) {k : Nat} {e : Element} (he : e ∈ els A.doms k) (hd : e.ty.dim = D + 1) : k ∉ bids A := by
  intro hk
  have := h.bndDim hk he
  omega

theorem side_lt {e : Element} (h : WfElement e) {s : Nat} {l : List Nat} (hs : sideNodes e s = some l) : ∀ x ∈ l, x ∈ e.nodes := by
  unfold sideNodes at hs
  rw [Option.map_eq_some_iff] at hs
  obtain ⟨inds, hi, rfl⟩ := hs
  intro x hx
  obtain ⟨i, hi', rfl⟩ := List.mem_map.1 hx
  have := sideInds_lt h hi i hi'
  rw [List.getD_eq_getElem?_getD, List.getElem?_eq_getElem this]
  exact List.getElem_mem _

theorem perm_of_map {α β : Type} {f : α → β} {l l' : List α} (hinj : ∀ a ∈ l, ∀ b ∈ l', f a = f b → a = b) (hl : ∀ a ∈ l', ∀ b ∈ l', f a = f b → a = b)
    (h : (l.map f).Perm (l'.map f)) : l.Perm l' := by
  classical
  induction l generalizing l' with
  | nil => simpa using h.symm.eq_nil
  | cons a l ih =>
    have : f a ∈ l'.map f := h.mem_iff.1 (by simp)
    obtain ⟨b, hb, hfb⟩ := List.mem_map.1 this
    obtain rfl := hinj a (by simp) b hb hfb.symm
    have hp := List.perm_cons_erase hb
    refine List.Perm.trans ((ih ?_ ?_ ?_).cons a) hp.symm
    · exact fun c hc d hd => hinj c (by simp [hc]) d (List.mem_of_mem_erase hd)
    · exact fun c hc d hd => hl c (List.mem_of_mem_erase hc) d (List.mem_of_mem_erase hd)
    · exact (List.perm_cons (f a)).1 (h.trans (by simpa using hp.map f))

theorem key_unique {m : DomMap} {e e' : Element} {k k' : Nat} (h : ((tagged m (m.map (·.1))).map (·.2.id)).Nodup) (he : e ∈ els m k) (he' : e' ∈ els m k') (hid : e.id = e'.id) : k = k' ∧ e = e' := by
  have h1 : (k, e) ∈ tagged m (m.map (·.1)) := mem_tagged.2 ⟨Extrude.els_key he, mem_els.1 he⟩
  have h2 : (k', e') ∈ tagged m (m.map (·.1)) := mem_tagged.2 ⟨Extrude.els_key he', mem_els.1 he'⟩
  have := List.inj_on_of_nodup_map h h1 h2 hid
  exact ⟨congrArg Prod.fst this, congrArg Prod.snd this⟩

/-- Boundary elements with one parent are in one domain. -/
theorem oneSided_of {m : DomMap} {bnds : List Nat} (h : MeshOk (kindsOf 2) m bnds D) (hu : UniqueParent m bnds) : OneSided m bnds := by
  intro b hb x hx
  obtain ⟨d, hd, hxd⟩ := hx
  obtain ⟨e, s, hp⟩ := h.parent b hb d hd x hxd
  obtain ⟨⟨k, hk⟩, hdim, l, hl, hlp⟩ := (isParent_iff h.wf).1 hp
  refine ⟨k, ⟨e, hk, hdim, s, l, hl, hlp⟩, ?_⟩
  rintro k' ⟨e', hk', hdim', s', l', hl', hlp'⟩
  have hp' : IsParent m x e' s' := (isParent_iff h.wf).2 ⟨⟨k', hk'⟩, hdim', l', hl', hlp'⟩
  obtain ⟨rfl, _⟩ := hu b hb x ⟨d, hd, hxd⟩ e s e' s' hp hp'
  exact (key_unique h.ids (mem_els.2 hk') (mem_els.2 hk) rfl).1

/-! ## The merged mesh -/

variable {φ : Algo.AMap Nat Nat}

theorem MatchOk.matching (h : MatchOk φ A B pos1 pos2) (hA : Block A N1 pos1 D) (hB : Block B N2 pos2 D) : Matching φ N1 N2 := by
  refine ⟨h.keys, ?_, fun x y hxy => hA.bndLt ((h.find x y).1 hxy).1⟩
  intro x hx
  cases hf : φ.find x with
  | none => exact absurd hx (find_none.1 hf)
  | some y => exact hB.bndLt ((h.find x y).1 hf).2.1

theorem merge_block (hA : Block A N1 pos1 D) (hB : Block B N2 pos2 D) (hf : Fits D N1 N2 A B pos1 pos2) (hφ : MatchOk φ A B pos1 pos2) :
    ∃ doms N bnds, merge kinds1 A B N1 N2 φ = some (doms, N, bnds) ∧ Ready 2 doms bnds D N ∧
      (∀ k, ∀ e ∈ els doms k, e.id < (visitAll doms).length) ∧
      (∀ x y, x < N → y < N → mergedPos φ N1 N2 pos1 pos2 x = mergedPos φ N1 N2 pos1 pos2 y → x = y) ∧
      (∀ k k', ∀ e ∈ els doms k, ∀ e' ∈ els doms k', e.ty.dim = D + 1 → e'.ty.dim = D + 1 → e.nodes.Perm e'.nodes → e = e') ∧
      (∀ k ty ps, (∃ e ∈ els doms k, e.ty = ty ∧ e.nodes.map (mergedPos φ N1 N2 pos1 pos2) = ps) ↔
        (Cell A pos1 k ty ps ∧ ¬ (k ∈ bids A ∧ Face B pos2 ps)) ∨ (Cell B pos2 k ty ps ∧ ¬ (k ∈ bids B ∧ Face A pos1 ps))) ∧
      ∀ b, b ∈ bnds ↔ (b ∈ bids A ∨ b ∈ bids B) ∧ els doms b ≠ [] := by
  have hM := hφ.matching hA hB
  obtain ⟨doms, N, bnds, ν, ι, G1, G2, ⟨hν, hwf⟩, hm, hN, hle, hg1, hg2, hmatch, hbij, hmono, hnodes, hmem, hι, hids, hsorted, hbs, hb⟩ := merge_spec hA.meshIn hB.meshIn hf.dim hf.role1 hM
  set pos := mergedPos φ N1 N2 pos1 pos2 with hpos
  -- numbers of the nodes of the second mesh
  have hν1 : ∀ y, y < N2 → φ.find y = none → N1 ≤ ν y ∧ ν y < N := fun y hy hn => hbij.1 ⟨hy, hn⟩
  have hνinj : ∀ x y, x < N2 → y < N2 → ν x = ν y → x = y := by
    intro x y hx hy hxy
    cases h1 : φ.find x with
    | none =>
      cases h2 : φ.find y with
      | none => exact hbij.2.1 ⟨hx, h1⟩ ⟨hy, h2⟩ hxy
      | some b =>
        have := (hν1 x hx h1).1
        have h3 := hM.dst y b h2
        rw [hxy, hmatch y b h2] at this
        omega
    | some a =>
      have h3 := hM.dst x a h1
      cases h2 : φ.find y with
      | none =>
        have := (hν1 y hy h2).1
        rw [← hxy, hmatch x a h1] at this
        omega
      | some b =>
        rw [hmatch x a h1, hmatch y b h2] at hxy
        subst hxy
        exact hB.inj x y hx hy (((hφ.find x a).1 h1).2.2.symm.trans ((hφ.find y a).1 h2).2.2)
  have hp1 : ∀ x, x < N1 → pos x = pos1 x := fun x hx => by rw [hpos, mergedPos, if_pos hx]
  have hp2 : ∀ y, y < N2 → pos (ν y) = pos2 y := by
    intro y hy
    cases h1 : φ.find y with
    | some a =>
      rw [hmatch y a h1, hp1 a (hM.dst y a h1)]
      exact ((hφ.find y a).1 h1).2.2
    | none =>
      have h2 := (hν1 y hy h1).1
      rw [hpos, mergedPos, if_neg (by omega)]
      have hy' : y ∈ List.range N2 := List.mem_range.2 hy
      cases h3 : (List.range N2).find? fun z => (φ.find z).isNone && newNodeId φ N1 z == ν y with
      | none =>
        have := List.find?_eq_none.1 h3 y hy'
        simp [h1, hν] at this
      | some z =>
        have h4 := List.find?_some h3
        have h5 := List.mem_range.1 (List.mem_of_find?_eq_some h3)
        simp only [Bool.and_eq_true, beq_iff_eq, ← hν] at h4
        rw [Option.getD_some, hνinj z y h5 hy h4.2]
  have hnode : ∀ x, x < N → x < N1 ∨ ∃ y, y < N2 ∧ φ.find y = none ∧ ν y = x := by
    intro x hx
    by_cases h1 : x < N1
    · exact .inl h1
    · obtain ⟨y, hy, h2⟩ := hbij.2.2 (show x ∈ Set.Ico N1 N from ⟨by omega, hx⟩)
      exact .inr ⟨y, hy.1, hy.2, h2⟩
  have hcross : ∀ x y, x < N1 → y < N2 → φ.find y = none → pos1 x ≠ pos2 y := by
    intro x y hx hy hn hxy
    obtain ⟨h1, h2⟩ := hf.common x y hx hy hxy
    rw [(hφ.find y x).2 ⟨h1, h2, hxy⟩] at hn
    cases hn
  have hposinj : ∀ x y, x < N → y < N → pos x = pos y → x = y := by
    intro x y hx hy hxy
    rcases hnode x hx with h1 | ⟨x', h1, h2, rfl⟩ <;> rcases hnode y hy with h3 | ⟨y', h3, h4, rfl⟩
    · rw [hp1 x h1, hp1 y h3] at hxy
      exact hA.inj x y h1 h3 hxy
    · rw [hp1 x h1, hp2 y' h3] at hxy
      exact absurd hxy (hcross x y' h1 h3 h4)
    · rw [hp1 y h3, hp2 x' h1] at hxy
      exact absurd hxy.symm (hcross y x' h3 h1 h2)
    · rw [hp2 x' h1, hp2 y' h3] at hxy
      rw [hB.inj x' y' h1 h3 hxy]
  have hmapA : ∀ {k e}, e ∈ els A.doms k → e.nodes.map pos = e.nodes.map pos1 := fun he => List.map_congr_left fun x hx => hp1 x (hA.lt he hx)
  have hmapB : ∀ {k e}, e ∈ els B.doms k → (e.nodes.map ν).map pos = e.nodes.map pos2 := fun he => by
    rw [List.map_map]
    exact List.map_congr_left fun x hx => hp2 x (hB.lt he hx)
  have hltA : ∀ {k e}, e ∈ els A.doms k → ∀ x ∈ e.nodes, x < N := fun he x hx => by
    have := hA.lt he hx
    omega
  have hltB : ∀ {k e}, e ∈ els B.doms k → ∀ x ∈ e.nodes.map ν, x < N := fun he x hx => by
    obtain ⟨y, hy, rfl⟩ := List.mem_map.1 hx
    have hy2 := hB.lt he hy
    cases h1 : φ.find y with
    | none => exact (hν1 y hy2 h1).2
    | some a =>
      rw [hmatch y a h1]
      have := hM.dst y a h1
      omega
  -- faces which are glued
  have hglue : ∀ {b1 b2 x1 x2}, b1 ∈ bids A → x1 ∈ els A.doms b1 → b2 ∈ bids B → x2 ∈ els B.doms b2 →
      (Glued φ ν x1 x2 ↔ (x2.nodes.map pos2).Perm (x1.nodes.map pos1)) := by
    intro b1 b2 x1 x2 hb1 hx1 hb2 hx2
    constructor
    · rintro ⟨_, h2⟩
      have := h2.map pos
      rwa [hmapA hx1, hmapB hx2] at this
    · intro hp
      refine ⟨?_, ?_⟩
      · intro y hy hn
        have : pos2 y ∈ x1.nodes.map pos1 := hp.mem_iff.1 (List.mem_map.2 ⟨y, hy, rfl⟩)
        obtain ⟨x, hx, hxy⟩ := List.mem_map.1 this
        exact hcross x y (hA.lt hx1 hx) (hB.lt hx2 hy) hn hxy
      · refine perm_of_map (f := pos) ?_ ?_ ?_
        · exact fun a ha b hb => hposinj a b (hltB hx2 a ha) (hltA hx1 b hb)
        · exact fun a ha b hb => hposinj a b (hltA hx1 a ha) (hltA hx1 b hb)
        · rwa [hmapA hx1, hmapB hx2]
  have hG1 : ∀ {k e}, e ∈ els A.doms k → (G1 k e ↔ k ∈ bids A ∧ Face B pos2 (e.nodes.map pos1)) := by
    intro k e he
    rw [hg1]
    refine and_congr_right fun hk => ?_
    exact exists_congr fun b => and_congr_right fun hb => exists_congr fun x => and_congr_right fun hx => hglue hk he hb hx
  have hG2 : ∀ {k e}, e ∈ els B.doms k → (G2 k e ↔ k ∈ bids B ∧ Face A pos1 (e.nodes.map pos2)) := by
    intro k e he
    rw [hg2]
    refine and_congr_right fun hk => ?_
    refine exists_congr fun b => and_congr_right fun hb => exists_congr fun x => and_congr_right fun hx => ?_
    rw [hglue hb hx hk he]
    exact List.perm_comm
  have hbA : ∀ {b e}, b ∈ bnds → e ∈ els A.doms b → b ∈ bids A := by
    intro b e hbb he
    rcases ((hb b).1 hbb).1 with h1 | h1
    · exact h1
    · exact hf.role2 b h1 (List.ne_nil_of_mem he)
  have hbB : ∀ {b e}, b ∈ bnds → e ∈ els B.doms b → b ∈ bids B := by
    intro b e hbb he
    rcases ((hb b).1 hbb).1 with h1 | h1
    · exact hf.role1 b h1 (Extrude.els_key he)
    · exact h1
  have hdims : ∀ {b e}, b ∈ bnds → e ∈ els doms b → e.ty.dim = D := by
    intro b e hbb he
    rcases (hmem b e).1 he with ⟨e0, he0, _, rfl⟩ | ⟨e0, he0, _, rfl⟩
    · exact (hA.bndDim (hbA hbb he0) he0 : e0.ty.dim = D)
    · exact (hB.bndDim (hbB hbb he0) he0 : e0.ty.dim = D)
  -- sides
  have hsB : ∀ {k e}, e ∈ els B.doms k → ∀ (i s : Nat), sideNodes { e with id := i, nodes := e.nodes.map ν } s = (sideNodes e s).map (List.map ν) :=
    fun he i s => sideNodes_mapEl (hB.wfEl he) ν s
  have hsmall : ∀ {k e s l}, e ∈ els B.doms k → sideNodes e s = some l → ∀ x ∈ l, x < N2 := fun he hl x hx => hB.lt he (side_lt (hB.wfEl he) hl x hx)
  have hsmallA : ∀ {k e s l}, e ∈ els A.doms k → sideNodes e s = some l → ∀ x ∈ l, x < N1 := fun he hl x hx => hA.lt he (side_lt (hA.wfEl he) hl x hx)
  have hparent : ∀ b ∈ bnds, ∀ d, doms.lookup b = some d → ∀ x ∈ d.elems, ∃ e s, IsParent doms x e s := by
    intro b hbb d hd x hx
    have hxe : x ∈ els doms b := mem_els.2 ⟨d, hd, hx⟩
    rcases (hmem b x).1 hxe with ⟨x0, hx0, _, rfl⟩ | ⟨x0, hx0, _, rfl⟩
    · obtain ⟨e, s, hp⟩ := hA.parent (hbA hbb hx0) hx0
      obtain ⟨⟨k, hk⟩, hdim, l, hl, hlp⟩ := (isParent_iff hA.wf).1 hp
      have hek := mem_els.2 hk
      have hnb : k ∉ bids A := hA.not_bnd hek (by rw [hdim, hA.bndDim (hbA hbb hx0) hx0])
      refine ⟨{ e with id := ι e.id }, s, (isParent_iff hwf).2 ⟨⟨k, mem_els.1 ((hmem k _).2 (.inl ⟨e, hek, fun hc => hnb ((hG1 hek).1 hc).1, rfl⟩))⟩, hdim, l, hl, hlp⟩⟩
    · obtain ⟨e, s, hp⟩ := hB.parent (hbB hbb hx0) hx0
      obtain ⟨⟨k, hk⟩, hdim, l, hl, hlp⟩ := (isParent_iff hB.wf).1 hp
      have hek := mem_els.2 hk
      have hnb : k ∉ bids B := hB.not_bnd hek (by rw [hdim, hB.bndDim (hbB hbb hx0) hx0])
      refine ⟨{ e with id := ι (e.id + (visitAll A.doms).length), nodes := e.nodes.map ν }, s,
        (isParent_iff hwf).2 ⟨⟨k, mem_els.1 ((hmem k _).2 (.inr ⟨e, hek, fun hc => hnb ((hG2 hek).1 hc).1, rfl⟩))⟩, hdim, l.map ν, ?_, hlp.map ν⟩⟩
      rw [hsB hek, hl]
      rfl
  -- a boundary element which is left has no parent in the other mesh
  have hclash1 : ∀ {b x k e s l}, b ∈ bids A → x ∈ els A.doms b → ¬ G1 b x → e ∈ els B.doms k → e.ty.dim = D + 1 → sideNodes e s = some l → (l.map ν).Perm x.nodes → False := by
    intro b x k e s l hbb hx hng he hd hl hlp
    have hp : (l.map pos2).Perm (x.nodes.map pos1) := by
      have := hlp.map pos
      rw [hmapA hx, List.map_map] at this
      rwa [show l.map (pos ∘ ν) = l.map pos2 from List.map_congr_left fun y hy => hp2 y (hsmall he hl y hy)] at this
    have h1 : Side D B pos2 (x.nodes.map pos1) := ⟨k, e, he, hd, s, l, hl, hp⟩
    exact hng ((hG1 hx).2 ⟨hbb, (hf.sides _ (hA.side hbb hx (List.Perm.refl _)) h1).2⟩)
  have hclash2 : ∀ {b x k e s l}, b ∈ bids B → x ∈ els B.doms b → ¬ G2 b x → e ∈ els A.doms k → e.ty.dim = D + 1 → sideNodes e s = some l → l.Perm (x.nodes.map ν) → False := by
    intro b x k e s l hbb hx hng he hd hl hlp
    have hp : (l.map pos1).Perm (x.nodes.map pos2) := by
      have := hlp.map pos
      rw [hmapB hx] at this
      rwa [show l.map pos = l.map pos1 from List.map_congr_left fun y hy => hp1 y (hsmallA he hl y hy)] at this
    have h1 : Side D A pos1 (x.nodes.map pos2) := ⟨k, e, he, hd, s, l, hl, hp⟩
    exact hng ((hG2 hx).2 ⟨hbb, (hf.sides _ h1 (hB.side hbb hx (List.Perm.refl _))).1⟩)
  have huni : UniqueParent doms bnds := by
    intro b hbb x hx e s e' s' hp hp'
    obtain ⟨⟨k, hk⟩, hdim, l, hl, hlp⟩ := (isParent_iff hwf).1 hp
    obtain ⟨⟨k', hk'⟩, hdim', l', hl', hlp'⟩ := (isParent_iff hwf).1 hp'
    have hxe : x ∈ els doms b := mem_els.2 hx
    rw [hdims hbb hxe] at hdim hdim'
    rcases (hmem b x).1 hxe with ⟨x0, hx0, hng, rfl⟩ | ⟨x0, hx0, hng, rfl⟩
    · have hbb0 := hbA hbb hx0
      rcases (hmem k e).1 (mem_els.2 hk) with ⟨e0, he0, _, rfl⟩ | ⟨e0, he0, _, rfl⟩
      · rcases (hmem k' e').1 (mem_els.2 hk') with ⟨e0', he0', _, rfl⟩ | ⟨e0', he0', _, rfl⟩
        · have q : IsParent A.doms x0 e0 s := (isParent_iff hA.wf).2 ⟨⟨k, mem_els.1 he0⟩, by rw [hA.bndDim hbb0 hx0]; exact hdim, l, hl, hlp⟩
          have q' : IsParent A.doms x0 e0' s' := (isParent_iff hA.wf).2 ⟨⟨k', mem_els.1 he0'⟩, by rw [hA.bndDim hbb0 hx0]; exact hdim', l', hl', hlp'⟩
          obtain ⟨rfl, rfl⟩ := hA.ready.uni b hbb0 x0 (mem_els.1 hx0) _ _ _ _ q q'
          exact ⟨rfl, rfl⟩
        · rw [hsB he0', Option.map_eq_some_iff] at hl'
          obtain ⟨l0, hl0, rfl⟩ := hl'
          exact (hclash1 hbb0 hx0 hng he0' hdim' hl0 hlp').elim
      · rw [hsB he0, Option.map_eq_some_iff] at hl
        obtain ⟨l0, hl0, rfl⟩ := hl
        exact (hclash1 hbb0 hx0 hng he0 hdim hl0 hlp).elim
    · have hbb0 := hbB hbb hx0
      rcases (hmem k e).1 (mem_els.2 hk) with ⟨e0, he0, _, rfl⟩ | ⟨e0, he0, _, rfl⟩
      · exact (hclash2 hbb0 hx0 hng he0 hdim hl hlp).elim
      · rcases (hmem k' e').1 (mem_els.2 hk') with ⟨e0', he0', _, rfl⟩ | ⟨e0', he0', _, rfl⟩
        · exact (hclash2 hbb0 hx0 hng he0' hdim' hl' hlp').elim
        · rw [hsB he0, Option.map_eq_some_iff] at hl
          obtain ⟨l0, hl0, rfl⟩ := hl
          rw [hsB he0', Option.map_eq_some_iff] at hl'
          obtain ⟨l0', hl0', rfl⟩ := hl'
          have back : ∀ {j f t m}, f ∈ els B.doms j → sideNodes f t = some m → (m.map ν).Perm (x0.nodes.map ν) → m.Perm x0.nodes := by
            intro j f t m hf' hm' hpm
            refine perm_of_map (f := ν) ?_ ?_ hpm
            · exact fun a ha c hc => hνinj a c (hsmall hf' hm' a ha) (hB.lt hx0 hc)
            · exact fun a ha c hc => hνinj a c (hB.lt hx0 ha) (hB.lt hx0 hc)
          have q : IsParent B.doms x0 e0 s := (isParent_iff hB.wf).2 ⟨⟨k, mem_els.1 he0⟩, by rw [hB.bndDim hbb0 hx0]; exact hdim, l0, hl0, back he0 hl0 hlp⟩
          have q' : IsParent B.doms x0 e0' s' := (isParent_iff hB.wf).2 ⟨⟨k', mem_els.1 he0'⟩, by rw [hB.bndDim hbb0 hx0]; exact hdim', l0', hl0', back he0' hl0' hlp'⟩
          obtain ⟨rfl, rfl⟩ := hB.ready.uni b hbb0 x0 (mem_els.1 hx0) _ _ _ _ q q'
          exact ⟨rfl, rfl⟩
  have hok : MeshOk (kindsOf 2) doms bnds D := by
    refine ⟨hwf, ?_, ?_, hbs, ?_, hparent⟩
    · intro e he
      obtain ⟨k, hk⟩ := (holds_iff_inDom hwf).1 he
      rcases (hmem k e).1 (mem_els.2 hk) with ⟨e0, he0, _, rfl⟩ | ⟨e0, he0, _, rfl⟩
      · have w := hA.wfEl he0
        exact ⟨w.pos, w.small, w.len⟩
      · have w := hB.wfEl he0
        exact ⟨w.pos, w.small, by simpa using w.len⟩
    · have := hids.nodup_iff.2 List.nodup_range
      rw [visitAll_tagged, List.map_map] at this
      exact this
    · intro b hbb
      have hne := ((hb b).1 hbb).2
      obtain ⟨e, he⟩ := List.exists_mem_of_ne_nil _ hne
      obtain ⟨d, hd, hed⟩ := mem_els.1 he
      refine ⟨d, hd, ?_, List.ne_nil_of_mem hed⟩
      rw [(hwf.dom b d hd).dim e hed, hdims hbb he]
  refine ⟨doms, N, bnds, hm, ⟨hok, oneSided_of hok huni, huni, hnodes⟩, ?_, hposinj, ?_, ?_, hb⟩
  · intro k e he
    have : e.id ∈ (visitAll doms).map (·.id) := List.mem_map.2 ⟨e, Extrude.mem_visitAll.2 ⟨k, Extrude.els_key he, he⟩, rfl⟩
    exact List.mem_range.1 (hids.mem_iff.1 this)
  · intro k k' e he e' he' hd hd' hp
    rcases (hmem k e).1 he with ⟨e0, he0, _, rfl⟩ | ⟨e0, he0, _, rfl⟩ <;> rcases (hmem k' e').1 he' with ⟨e0', he0', _, rfl⟩ | ⟨e0', he0', _, rfl⟩
    · rw [hA.distinct k k' e0 he0 e0' he0' hd hd' hp]
    · refine (hf.cells k k' _ _ _ _ ⟨e0, he0, rfl, rfl⟩ ⟨e0', he0', rfl, rfl⟩ hd hd' ?_).elim
      have := hp.map pos
      rwa [hmapA he0, hmapB he0'] at this
    · refine (hf.cells k' k _ _ _ _ ⟨e0', he0', rfl, rfl⟩ ⟨e0, he0, rfl, rfl⟩ hd' hd ?_).elim
      have := hp.symm.map pos
      rwa [hmapA he0', hmapB he0] at this
    · rw [hB.distinct k k' e0 he0 e0' he0' hd hd' (perm_of_map (f := ν) (fun a ha c hc => hνinj a c (hB.lt he0 ha) (hB.lt he0' hc))
        (fun a ha c hc => hνinj a c (hB.lt he0' ha) (hB.lt he0' hc)) hp)]
  · intro k ty ps
    constructor
    · rintro ⟨e, he, rfl, rfl⟩
      rcases (hmem k e).1 he with ⟨e0, he0, hng, rfl⟩ | ⟨e0, he0, hng, rfl⟩
      · left
        rw [show ({ e0 with id := ι e0.id } : Element).nodes = e0.nodes from rfl, hmapA he0]
        exact ⟨⟨e0, he0, rfl, rfl⟩, fun hc => hng ((hG1 he0).2 hc)⟩
      · right
        simp only
        rw [hmapB he0]
        exact ⟨⟨e0, he0, rfl, rfl⟩, fun hc => hng ((hG2 he0).2 hc)⟩
    · rintro (⟨⟨e, he, rfl, rfl⟩, hng⟩ | ⟨⟨e, he, rfl, rfl⟩, hng⟩)
      · exact ⟨_, (hmem k _).2 (.inl ⟨e, he, fun hc => hng ((hG1 he).1 hc), rfl⟩), rfl, (hmapA he : e.nodes.map pos = _)⟩
      · exact ⟨_, (hmem k _).2 (.inr ⟨e, he, fun hc => hng ((hG2 he).1 hc), rfl⟩), rfl, hmapB he⟩

end Verif.MergeGen
