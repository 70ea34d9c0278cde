import Verif.MergeGen.Quad

/-! # Many deformed squares which fit -/
namespace Verif.MergeGen
open Verif Verif.Elem Verif.Mesh Verif.Split Verif.Partition Verif.Merge Verif.Gen Verif.Pipeline Verif.Prim Verif.Cyl

/-- `p`, `q` are the ends of an edge on the border of a grid of `n × m` cells. -/
def BEdge {P : Type} (f : Nat → Nat → P) (n m : Nat) (p q : P) : Prop :=
  (∃ i, i < n ∧ ((p = f i 0 ∧ q = f (i + 1) 0) ∨ (p = f i m ∧ q = f (i + 1) m))) ∨
  (∃ j, j < m ∧ ((p = f 0 j ∧ q = f 0 (j + 1)) ∨ (p = f n j ∧ q = f n (j + 1))))

/-- `p`, `q` are the ends of an edge of a grid of `n × m` cells. -/
def GEdge {P : Type} (f : Nat → Nat → P) (n m : Nat) (p q : P) : Prop :=
  (∃ i j, i < n ∧ j ≤ m ∧ p = f i j ∧ q = f (i + 1) j) ∨ (∃ i j, i ≤ n ∧ j < m ∧ p = f i j ∧ q = f i (j + 1))

/-- In one direction or the other. -/
def Sym {P : Type} (R : P → P → Prop) (p q : P) : Prop := R p q ∨ R q p

theorem Sym.swap {P : Type} {R : P → P → Prop} {p q : P} (h : Sym R p q) : Sym R q p := Or.symm h

theorem perm_pair {P : Type} {a b c d : P} : [a, b].Perm [c, d] ↔ (a = c ∧ b = d) ∨ (a = d ∧ b = c) := by
  constructor
  · intro h
    have h1 : a = c ∨ a = d := by simpa using h.mem_iff.1 (by simp : a ∈ [a, b])
    rcases h1 with rfl | rfl
    · have := (List.perm_cons a).1 h
      exact .inl ⟨rfl, by simpa using this⟩
    · have := (List.perm_cons a).1 (h.trans (List.Perm.swap a c []))
      exact .inr ⟨rfl, by simpa using this⟩
  · rintro (⟨rfl, rfl⟩ | ⟨rfl, rfl⟩)
    · exact List.Perm.refl _
    · exact List.Perm.swap _ _ _

variable {F : Cyl.Pt → Cyl.Pt} {xs ys : List ℝ} {ids : SquareIds} {M : LMesh} {n m : Nat}

theorem mem_quad (hx : xs.length = n + 1) (hy : ys.length = m + 1) {e : Emit Cyl.Pt} (he : e ∈ deform F (square xs ys ids)) (hq : e.ty = .quad) :
    ∃ i j, i < n ∧ j < m ∧ e.dom = ids.domain ∧ e.verts = [v0 F xs ys i j, v0 F xs ys (i + 1) j, v0 F xs ys i (j + 1), v0 F xs ys (i + 1) (j + 1)] := by
  obtain ⟨e0, h0, h1, h2, h3, h4⟩ := mem_deform he
  unfold square squareEmits at h0
  rw [hx, hy] at h0
  rcases List.mem_append.1 h0 with h0 | h0
  · rcases List.mem_append.1 h0 with h0 | h0
    · simp only [squareArea, List.mem_flatMap, List.mem_map, List.mem_range] at h0
      obtain ⟨iy, hy, ix, hx, rfl⟩ := h0
      exact ⟨ix, iy, by omega, by omega, h1, h4⟩
    · simp only [squareY, List.mem_flatMap, List.mem_range] at h0
      obtain ⟨ix, hi, h0⟩ := h0
      simp only [List.mem_cons, List.not_mem_nil, or_false] at h0
      rcases h0 with rfl | rfl <;> simp [hq] at h2
  · simp only [squareX, List.mem_flatMap, List.mem_range] at h0
    obtain ⟨ix, hi, h0⟩ := h0
    simp only [List.mem_cons, List.not_mem_nil, or_false] at h0
    rcases h0 with rfl | rfl <;> simp [hq] at h2

theorem ty_cases {e : Emit Cyl.Pt} (he : e ∈ deform F (square xs ys ids)) : e.ty = .quad ∨ e.ty = .line := by
  obtain ⟨e0, h0, h1, h2, h3, h4⟩ := mem_deform he
  rw [h2]
  unfold square squareEmits at h0
  rcases List.mem_append.1 h0 with h0 | h0
  · rcases List.mem_append.1 h0 with h0 | h0
    · simp only [squareArea, List.mem_flatMap, List.mem_map, List.mem_range] at h0
      obtain ⟨iy, hy, ix, hx, rfl⟩ := h0
      exact .inl rfl
    · simp only [squareY, List.mem_flatMap, List.mem_range] at h0
      obtain ⟨ix, hi, h0⟩ := h0
      simp only [List.mem_cons, List.not_mem_nil, or_false] at h0
      rcases h0 with rfl | rfl <;> exact .inr rfl
  · simp only [squareX, List.mem_flatMap, List.mem_range] at h0
    obtain ⟨ix, hi, h0⟩ := h0
    simp only [List.mem_cons, List.not_mem_nil, or_false] at h0
    rcases h0 with rfl | rfl <;> exact .inr rfl

theorem line_bedge (hx : xs.length = n + 1) (hy : ys.length = m + 1) {e : Emit Cyl.Pt} (he : e ∈ deform F (square xs ys ids)) (hq : e.ty = .line) :
    e.dom ∈ squareBnds ids ∧ ∃ p q, e.verts = [p, q] ∧ BEdge (v0 F xs ys) n m p q := by
  have hb : ∀ b, b ∈ [ids.bottom, ids.top, ids.left, ids.right] → b ∈ squareBnds ids := fun b h => Std.mem_sortUniq.2 h
  rcases mem_line hx hy he hq with ⟨i, hi, h1, h2⟩ | ⟨i, hi, h1, h2⟩ | ⟨j, hj, h1, h2⟩ | ⟨j, hj, h1, h2⟩
  · exact ⟨hb _ (by simp [h1]), _, _, h2, .inl ⟨i, hi, .inl ⟨rfl, rfl⟩⟩⟩
  · exact ⟨hb _ (by simp [h1]), _, _, h2, .inl ⟨i, hi, .inr ⟨rfl, rfl⟩⟩⟩
  · exact ⟨hb _ (by simp [h1]), _, _, h2, .inr ⟨j, hj, .inl ⟨rfl, rfl⟩⟩⟩
  · exact ⟨hb _ (by simp [h1]), _, _, h2, .inr ⟨j, hj, .inr ⟨rfl, rfl⟩⟩⟩

theorem bedge_line (hx : xs.length = n + 1) (hy : ys.length = m + 1) {p q : Cyl.Pt} (h : BEdge (v0 F xs ys) n m p q) : HasLine (deform F (square xs ys ids)) [p, q] := by
  rcases h with ⟨i, hi, ⟨rfl, rfl⟩ | ⟨rfl, rfl⟩⟩ | ⟨j, hj, ⟨rfl, rfl⟩ | ⟨rfl, rfl⟩⟩
  · exact has_bottom hx hy hi
  · exact has_top hx hy hi
  · exact has_left hx hy hj
  · exact has_right hx hy hj

theorem Quad.face (h : Quad F xs ys ids M) (hx : xs.length = n + 1) (hy : ys.length = m + 1) {ps : List Pt} :
    Face M.part M.pos ps ↔ ∃ p q, Sym (BEdge (v0 F xs ys) n m) p q ∧ ps = [ptOf p, ptOf q] := by
  rw [face_iff]
  constructor
  · rintro ⟨b, hb, ty, qs, hc, hp⟩
    have hdim := h.located.block.dim_of_bnd hb hc
    obtain ⟨e, he, rfl, rfl, rfl⟩ := (h.cells _ _ _).1 hc
    have hl : e.ty = .line := (ty_cases he).resolve_left fun h => by rw [h] at hdim; simp [ElType.dim] at hdim
    obtain ⟨_, p, q, hv, hbe⟩ := line_bedge hx hy he hl
    rw [hv] at hp
    have hlen := hp.length_eq
    simp only [List.map_cons, List.map_nil, List.length_cons, List.length_nil] at hlen
    obtain ⟨a, b, rfl⟩ : ∃ a b, ps = [a, b] := by
      rcases ps with _ | ⟨a, _ | ⟨b, _ | _⟩⟩ <;> simp at hlen
      exact ⟨a, b, rfl⟩
    rcases perm_pair.1 hp with ⟨rfl, rfl⟩ | ⟨rfl, rfl⟩
    · exact ⟨p, q, .inl hbe, rfl⟩
    · exact ⟨q, p, .inr hbe, rfl⟩
  · rintro ⟨p, q, hbe, rfl⟩
    have key : ∀ {p q}, BEdge (v0 F xs ys) n m p q → ∃ b ∈ bids M.part, ∃ ty qs, Cell M.part M.pos b ty qs ∧ qs.Perm [ptOf p, ptOf q] := by
      intro p q hbe
      obtain ⟨e, he, hl, hv⟩ := bedge_line (ids := ids) hx hy hbe
      refine ⟨e.dom, ?_, _, _, (h.cells _ _ _).2 ⟨e, he, rfl, rfl, rfl⟩, by rw [hv]; exact List.Perm.refl _⟩
      rw [h.bnds]
      exact (line_bedge hx hy he hl).1
    rcases hbe with hbe | hbe
    · exact key hbe
    · obtain ⟨b, hb, ty, qs, hc, hp⟩ := key hbe
      exact ⟨b, hb, ty, qs, hc, hp.trans (List.Perm.swap _ _ _)⟩

theorem sidePts_quad {P : Type} {a b c d : P} {s : Nat} {l : List P} (h : sidePts .quad s [a, b, c, d] = some l) : l = [a, b] ∨ l = [c, d] ∨ l = [a, c] ∨ l = [b, d] := by
  have ht : Elem.table .quad 2 = [[0, 1], [2, 3], [0, 2], [1, 3]] := by decide +kernel
  unfold sidePts sideNodeInds at h
  rw [ht] at h
  match s with
  | 0 => left; simpa using h.symm
  | 1 => right; left; simpa using h.symm
  | 2 => right; right; left; simpa using h.symm
  | 3 => right; right; right; simpa using h.symm
  | s + 4 => simp at h

theorem Quad.side (h : Quad F xs ys ids M) (hx : xs.length = n + 1) (hy : ys.length = m + 1) {ps : List Pt} (hs : Side 1 M.part M.pos ps) :
    ∃ p q, Sym (GEdge (v0 F xs ys) n m) p q ∧ ps = [ptOf p, ptOf q] := by
  obtain ⟨k, ty, qs, hc, hd, s, l, hl, hp⟩ := (side_iff h.located.block).1 hs
  obtain ⟨e, he, rfl, rfl, rfl⟩ := (h.cells _ _ _).1 hc
  have hq : e.ty = .quad := (ty_cases he).resolve_right fun h => by rw [h] at hd; simp [ElType.dim] at hd
  obtain ⟨i, j, hi, hj, _, hv⟩ := mem_quad hx hy he hq
  rw [hq, hv] at hl
  have key : ∀ {p q}, GEdge (v0 F xs ys) n m p q → [ptOf p, ptOf q].Perm ps → ∃ p q, Sym (GEdge (v0 F xs ys) n m) p q ∧ ps = [ptOf p, ptOf q] := by
    intro p q hg hp
    have hlen := hp.length_eq
    simp only [List.length_cons, List.length_nil] at hlen
    obtain ⟨a, b, rfl⟩ : ∃ a b, ps = [a, b] := by
      rcases ps with _ | ⟨a, _ | ⟨b, _ | _⟩⟩ <;> simp at hlen
      exact ⟨a, b, rfl⟩
    rcases perm_pair.1 hp with ⟨rfl, rfl⟩ | ⟨rfl, rfl⟩
    · exact ⟨p, q, .inl hg, rfl⟩
    · exact ⟨q, p, .inr hg, rfl⟩
  rcases sidePts_quad hl with rfl | rfl | rfl | rfl
  · exact key (.inl ⟨i, j, hi, by omega, rfl, rfl⟩) hp
  · exact key (.inl ⟨i, j + 1, hi, by omega, rfl, rfl⟩) hp
  · exact key (.inr ⟨i, j, by omega, hj, rfl, rfl⟩) hp
  · exact key (.inr ⟨i + 1, j, by omega, hj, rfl, rfl⟩) hp

theorem Quad.node (h : Quad F xs ys ids M) (hx : xs.length = n + 1) (hy : ys.length = m + 1) {x : Nat} (hxs : x < M.size) :
    ∃ i j, i ≤ n ∧ j ≤ m ∧ M.pos x = ptOf (v0 F xs ys i j) := by
  obtain ⟨k, ty, ps, hc, hp⟩ := h.located.block.node_cell hxs
  obtain ⟨e, he, rfl, rfl, rfl⟩ := (h.cells _ _ _).1 hc
  obtain ⟨v, hv, hvp⟩ := List.mem_map.1 hp
  rw [← hvp]
  rcases ty_cases he with ht | ht
  · obtain ⟨i, j, hi, hj, _, hv'⟩ := mem_quad hx hy he ht
    rw [hv'] at hv
    simp only [List.mem_cons, List.not_mem_nil, or_false] at hv
    rcases hv with rfl | rfl | rfl | rfl
    · exact ⟨i, j, by omega, by omega, rfl⟩
    · exact ⟨i + 1, j, by omega, by omega, rfl⟩
    · exact ⟨i, j + 1, by omega, by omega, rfl⟩
    · exact ⟨i + 1, j + 1, by omega, by omega, rfl⟩
  · rcases mem_line hx hy he ht with ⟨i, hi, h1, h2⟩ | ⟨i, hi, h1, h2⟩ | ⟨j, hj, h1, h2⟩ | ⟨j, hj, h1, h2⟩ <;> rw [h2] at hv <;>
      simp only [List.mem_cons, List.not_mem_nil, or_false] at hv <;> rcases hv with rfl | rfl
    · exact ⟨i, 0, by omega, by omega, rfl⟩
    · exact ⟨i + 1, 0, by omega, by omega, rfl⟩
    · exact ⟨i, m, by omega, by omega, rfl⟩
    · exact ⟨i + 1, m, by omega, by omega, rfl⟩
    · exact ⟨0, j, by omega, by omega, rfl⟩
    · exact ⟨0, j + 1, by omega, by omega, rfl⟩
    · exact ⟨n, j, by omega, by omega, rfl⟩
    · exact ⟨n, j + 1, by omega, by omega, rfl⟩

/-! ## Lists of deformed squares -/

/-- A deformed square of `n × m` cells. -/
structure Sq where
  F : Cyl.Pt → Cyl.Pt
  xs : List ℝ
  ys : List ℝ
  ids : SquareIds
  n : Nat
  m : Nat

/-- Vertex at a grid point. -/
noncomputable def Sq.at (b : Sq) : Nat → Nat → Cyl.Pt := v0 b.F b.xs b.ys

/-- Corners of a cell. -/
noncomputable def Sq.corners (b : Sq) (i j : Nat) : List Cyl.Pt := [b.at i j, b.at (i + 1) j, b.at i (j + 1), b.at (i + 1) (j + 1)]

/-- Its elements. -/
noncomputable def Sq.emits (b : Sq) : List (Emit Cyl.Pt) := deform b.F (square b.xs b.ys b.ids)

/-- Sizes agree, and the grid points are different. -/
structure Sq.Ok (b : Sq) : Prop where
  lenx : b.xs.length = b.n + 1
  leny : b.ys.length = b.m + 1
  n_pos : 0 < b.n
  m_pos : 0 < b.m
  inj : ∀ i j i' j', i ≤ b.n → j ≤ b.m → i' ≤ b.n → j' ≤ b.m → b.at i j = b.at i' j' → i = i' ∧ j = j'

/-- Squares which fit. -/
structure SqFit (dom : Nat) (bs : List Sq) : Prop where
  ok : ∀ b ∈ bs, b.Ok
  dom : ∀ b ∈ bs, b.ids.domain = dom ∧ dom ∉ [b.ids.bottom, b.ids.top, b.ids.left, b.ids.right]
  common : ∀ (i j : Nat) (b c : Sq), i < j → bs[i]? = some b → bs[j]? = some c → ∀ x y x' y', x ≤ b.n → y ≤ b.m → x' ≤ c.n → y' ≤ c.m → b.at x y = c.at x' y' →
    ∃ (i' : Nat) (b' : Sq), i' < j ∧ bs[i']? = some b' ∧ ∃ p q, Sym (BEdge b'.at b'.n b'.m) p q ∧ Sym (BEdge c.at c.n c.m) p q ∧ (c.at x' y' = p ∨ c.at x' y' = q)
  sides : ∀ (i j : Nat) (b c : Sq), i < j → bs[i]? = some b → bs[j]? = some c → ∀ p q, Sym (GEdge b.at b.n b.m) p q → Sym (GEdge c.at c.n c.m) p q →
    Sym (BEdge b.at b.n b.m) p q ∧ Sym (BEdge c.at c.n c.m) p q
  cells : ∀ (i j : Nat) (b c : Sq), i < j → bs[i]? = some b → bs[j]? = some c → ∀ x y x' y', x < b.n → y < b.m → x' < c.n → y' < c.m → ¬ (b.corners x y).Perm (c.corners x' y')
  two : ∀ (i j k : Nat) (b c d : Sq), i < j → j < k → bs[i]? = some b → bs[j]? = some c → bs[k]? = some d → ∀ p q, Sym (BEdge b.at b.n b.m) p q → Sym (BEdge c.at c.n c.m) p q →
    ¬ Sym (BEdge d.at d.n d.m) p q
  apart : ∀ b ∈ bs, ∀ c ∈ bs, ∀ x y x' y', x ≤ b.n → y ≤ b.m → x' ≤ c.n → y' ≤ c.m → close (ptOf (c.at x' y')) (ptOf (b.at x y)) = true → b.at x y = c.at x' y'

/-- The meshes of the squares. -/
def Meshes (bs : List Sq) (Ms : List LMesh) : Prop := List.Forall₂ (fun (b : Sq) M => Quad b.F b.xs b.ys b.ids M) bs Ms

theorem Meshes.get {bs : List Sq} {Ms : List LMesh} (h : Meshes bs Ms) {i : Nat} {M : LMesh} (hi : Ms[i]? = some M) : ∃ b, bs[i]? = some b ∧ Quad b.F b.xs b.ys b.ids M := by
  unfold Meshes at h
  induction h generalizing i with
  | nil => simp at hi
  | cons hq _ ih =>
    cases i with
    | zero =>
      simp only [List.getElem?_cons_zero, Option.some.injEq] at hi
      exact ⟨_, rfl, hi ▸ hq⟩
    | succ i =>
      rw [List.getElem?_cons_succ] at hi
      simpa using ih hi

theorem Meshes.get' {bs : List Sq} {Ms : List LMesh} (h : Meshes bs Ms) {i : Nat} {b : Sq} (hi : bs[i]? = some b) : ∃ M, Ms[i]? = some M ∧ Quad b.F b.xs b.ys b.ids M := by
  unfold Meshes at h
  induction h generalizing i with
  | nil => simp at hi
  | cons hq _ ih =>
    cases i with
    | zero =>
      simp only [List.getElem?_cons_zero, Option.some.injEq] at hi
      exact ⟨_, rfl, hi ▸ hq⟩
    | succ i =>
      rw [List.getElem?_cons_succ] at hi
      simpa using ih hi

theorem Meshes.mem {bs : List Sq} {Ms : List LMesh} (h : Meshes bs Ms) {M : LMesh} (hM : M ∈ Ms) : ∃ b ∈ bs, Quad b.F b.xs b.ys b.ids M := by
  obtain ⟨i, hi⟩ := List.mem_iff_getElem?.1 hM
  obtain ⟨b, hb, hq⟩ := h.get hi
  exact ⟨b, List.mem_of_getElem? hb, hq⟩

theorem pair_inj {p q p' q' : Cyl.Pt} (h : [ptOf p, ptOf q] = [ptOf p', ptOf q']) : p = p' ∧ q = q' := by
  simp only [List.cons.injEq, and_true] at h
  exact ⟨ptOf_inj h.1, ptOf_inj h.2⟩

theorem fitAll_of {dom : Nat} {bs : List Sq} {Ms : List LMesh} (h : SqFit dom bs) (hM : Meshes bs Ms) : FitAll 1 Ms := by
  have hbnd : ∀ {b : Sq} {M : LMesh}, Quad b.F b.xs b.ys b.ids M → b ∈ bs → ∀ k, k ∈ bids M.part ↔ k ∈ [b.ids.bottom, b.ids.top, b.ids.left, b.ids.right] := by
    intro b M hq _ k
    rw [hq.bnds]
    exact Std.mem_sortUniq
  have hnd : ∀ {b : Sq} {M : LMesh}, Quad b.F b.xs b.ys b.ids M → b ∈ bs → ∀ k ∈ M.part.doms.map (·.1), k ≠ dom → k ∈ bids M.part := by
    intro b M hq hb k hk hne
    have := hq.keys k hk
    simp only [SquareIds.list, List.mem_cons, List.not_mem_nil, or_false, (h.dom b hb).1, hne, false_or] at this
    rw [hbnd hq hb]
    simpa using this
  have hdim : ∀ {b : Sq} {M : LMesh}, Quad b.F b.xs b.ys b.ids M → b ∈ bs → ∀ k, ∀ a ∈ els M.part.doms k, (k = dom → a.ty.dim = 2) ∧ (k ≠ dom → a.ty.dim = 1) := by
    intro b M hq hb k a ha
    constructor
    · rintro rfl
      obtain ⟨e, he, h1, h2, _⟩ := (hq.cells k a.ty _).1 ⟨a, ha, rfl, rfl⟩
      rcases ty_cases he with ht | ht
      · rw [← h2, ht]; rfl
      · obtain ⟨h3, _⟩ := line_bedge (h.ok b hb).lenx (h.ok b hb).leny he ht
        rw [h1] at h3
        exact absurd (Std.mem_sortUniq.1 h3) (h.dom b hb).2
    · intro hne
      exact hq.located.block.bndDim (hnd hq hb k (Extrude.els_key ha) hne) ha
  refine ⟨?_, ?_, ?_, ?_, ?_, ?_, ?_, ?_⟩
  · intro M hm
    obtain ⟨b, _, hq⟩ := hM.mem hm
    exact hq.located
  · intro A hA B hB k a ha b hb
    obtain ⟨a', ha', hqa⟩ := hM.mem hA
    obtain ⟨b', hb', hqb⟩ := hM.mem hB
    by_cases hk : k = dom
    · rw [(hdim hqa ha' k a ha).1 hk, (hdim hqb hb' k b hb).1 hk]
    · rw [(hdim hqa ha' k a ha).2 hk, (hdim hqb hb' k b hb).2 hk]
  · intro A hA B hB k hk hkB
    obtain ⟨a', ha', hqa⟩ := hM.mem hA
    obtain ⟨b', hb', hqb⟩ := hM.mem hB
    refine hnd hqb hb' k hkB ?_
    rintro rfl
    exact (h.dom a' ha').2 ((hbnd hqa ha' k).1 hk)
  · intro i j A B hij hi hj x y hx hy hxy
    obtain ⟨b, hb, hqb⟩ := hM.get hi
    obtain ⟨c, hc, hqc⟩ := hM.get hj
    have ob := h.ok b (List.mem_of_getElem? hb)
    have oc := h.ok c (List.mem_of_getElem? hc)
    obtain ⟨x1, y1, h1, h2, h3⟩ := hqb.node ob.lenx ob.leny hx
    obtain ⟨x2, y2, h4, h5, h6⟩ := hqc.node oc.lenx oc.leny hy
    obtain ⟨i', b', hi', hb', p, q, h7, h8, h9⟩ := h.common i j b c hij hb hc x1 y1 x2 y2 h1 h2 h4 h5 (ptOf_inj (h3.symm.trans (hxy.trans h6)))
    obtain ⟨A', hA', hqA'⟩ := hM.get' hb'
    have ob' := h.ok b' (List.mem_of_getElem? hb')
    refine ⟨i', A', hi', hA', [ptOf p, ptOf q], (hqA'.face ob'.lenx ob'.leny).2 ⟨p, q, h7, rfl⟩, (hqc.face oc.lenx oc.leny).2 ⟨p, q, h8, rfl⟩, ?_⟩
    rw [h6]
    rcases h9 with h9 | h9
    · have : v0 c.F c.xs c.ys x2 y2 = p := h9
      simp [this]
    · have : v0 c.F c.xs c.ys x2 y2 = q := h9
      simp [this]
  · intro i j A B hij hi hj ps h1 h2
    obtain ⟨b, hb, hqb⟩ := hM.get hi
    obtain ⟨c, hc, hqc⟩ := hM.get hj
    have ob := h.ok b (List.mem_of_getElem? hb)
    have oc := h.ok c (List.mem_of_getElem? hc)
    obtain ⟨p, q, h3, rfl⟩ := hqb.side ob.lenx ob.leny h1
    obtain ⟨p', q', h4, h5⟩ := hqc.side oc.lenx oc.leny h2
    obtain ⟨rfl, rfl⟩ := pair_inj h5
    obtain ⟨h6, h7⟩ := h.sides i j b c hij hb hc p q h3 h4
    exact ⟨(hqb.face ob.lenx ob.leny).2 ⟨p, q, h6, rfl⟩, (hqc.face oc.lenx oc.leny).2 ⟨p, q, h7, rfl⟩⟩
  · intro i j A B hij hi hj k k' ty ty' ps ps' h1 h2 hd hd' hp
    obtain ⟨b, hb, hqb⟩ := hM.get hi
    obtain ⟨c, hc, hqc⟩ := hM.get hj
    have ob := h.ok b (List.mem_of_getElem? hb)
    have oc := h.ok c (List.mem_of_getElem? hc)
    obtain ⟨e, he, rfl, rfl, rfl⟩ := (hqb.cells _ _ _).1 h1
    obtain ⟨e', he', rfl, rfl, rfl⟩ := (hqc.cells _ _ _).1 h2
    have hq : e.ty = .quad := (ty_cases he).resolve_right fun h => by rw [h] at hd; simp [ElType.dim] at hd
    have hq' : e'.ty = .quad := (ty_cases he').resolve_right fun h => by rw [h] at hd'; simp [ElType.dim] at hd'
    obtain ⟨x, y, hx, hy, _, hv⟩ := mem_quad ob.lenx ob.leny he hq
    obtain ⟨x', y', hx', hy', _, hv'⟩ := mem_quad oc.lenx oc.leny he' hq'
    refine h.cells i j b c hij hb hc x y x' y' hx hy hx' hy' ?_
    have := perm_of_map (f := ptOf) (fun a _ c _ => ptOf_inj) (fun a _ c _ => ptOf_inj) hp
    rwa [hv, hv'] at this
  · intro i j k A B C hij hjk hi hj hk ps h1 h2 h3
    obtain ⟨b, hb, hqb⟩ := hM.get hi
    obtain ⟨c, hc, hqc⟩ := hM.get hj
    obtain ⟨d, hd, hqd⟩ := hM.get hk
    have ob := h.ok b (List.mem_of_getElem? hb)
    have oc := h.ok c (List.mem_of_getElem? hc)
    have od := h.ok d (List.mem_of_getElem? hd)
    obtain ⟨p, q, h4, rfl⟩ := (hqb.face ob.lenx ob.leny).1 h1
    obtain ⟨p', q', h5, h6⟩ := (hqc.face oc.lenx oc.leny).1 h2
    obtain ⟨rfl, rfl⟩ := pair_inj h6
    obtain ⟨p', q', h7, h8⟩ := (hqd.face od.lenx od.leny).1 h3
    obtain ⟨rfl, rfl⟩ := pair_inj h8
    exact h.two i j k b c d hij hjk hb hc hd p q h4 h5 h7
  · intro A hA B hB x y hx hy hcl
    obtain ⟨b, hb, hqb⟩ := hM.mem hA
    obtain ⟨c, hc, hqc⟩ := hM.mem hB
    obtain ⟨x1, y1, h1, h2, h3⟩ := hqb.node (h.ok b hb).lenx (h.ok b hb).leny hx
    obtain ⟨x2, y2, h4, h5, h6⟩ := hqc.node (h.ok c hc).lenx (h.ok c hc).leny hy
    rw [h3, h6] at hcl ⊢
    exact congrArg ptOf (h.apart b hb c hc x1 y1 x2 y2 h1 h2 h4 h5 hcl)

/-- The meshes of squares are made. -/
theorem meshes_ok {dom : Nat} {bs : List Sq} (h : SqFit dom bs) (ord : Nat → Nat → List Element → List Element) (ho : ∀ i k l, (ord i k l).Perm l) (s : Nat) :
    ∃ Ms, ((bs.zipIdx s).mapM fun q => meshOf (ord q.2) q.1.ids q.1.emits) = some Ms ∧ Meshes bs Ms := by
  have key : ∀ (l : List Sq) (s : Nat), (∀ b ∈ l, b ∈ bs) → ∃ Ms, ((l.zipIdx s).mapM fun q => meshOf (ord q.2) q.1.ids q.1.emits) = some Ms ∧ Meshes l Ms := by
    intro l
    induction l with
    | nil => exact fun s _ => ⟨[], rfl, .nil⟩
    | cons b l ih =>
      intro s hl
      have hb := hl b (by simp)
      have ob := h.ok b hb
      have h1 := ob.lenx
      have h2 := ob.leny
      have h3 := ob.n_pos
      have h4 := ob.m_pos
      obtain ⟨M, e1, hq⟩ := quad_ok (F := b.F) (xs := b.xs) (ys := b.ys) (ids := b.ids) (by omega) (by omega) ((h.dom b hb).1 ▸ (h.dom b hb).2)
        (fun i j i' j' a1 a2 a3 a4 he => ob.inj i j i' j' (by omega) (by omega) (by omega) (by omega) he) (ho s)
      obtain ⟨Ms, e2, hqs⟩ := ih (s + 1) fun b hb => hl b (by simp [hb])
      refine ⟨M :: Ms, ?_, .cons hq hqs⟩
      rw [List.zipIdx_cons, List.mapM_cons]
      have e1' : meshOf (ord s) b.ids b.emits = some M := e1
      simp only [e1', e2]
      rfl
  exact key bs s fun _ h => h

end Verif.MergeGen
