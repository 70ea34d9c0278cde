import Verif.Gmsh.Model
import Verif.Extrude.Props
import Mathlib.Tactic.Ring
import Mathlib.Tactic.Linarith
import Mathlib.Tactic.NormNum
import Mathlib.Algebra.Order.Ring.Rat
import Mathlib.Algebra.Field.Rat

/-! # Property C33: import of Gmsh meshes -/
namespace Verif.Gmsh
open Verif Verif.Elem Verif.Mesh Verif.Split Verif.Partition Verif.Merge Verif.Extrude

section
variable {K : Type} [Field K] [LinearOrder K]

/-! ## Nodes -/

/-- **C33** (nodes).  With distinct tags, the `i`-th node of the file gets the id `i` and keeps its coordinates; other tags are unknown. -/
theorem C33_nodes (nodes : List (Nat × Pt K)) (h : (nodes.map (·.1)).Nodup) (t i : Nat) (p : Pt K) :
    (parseNodes nodes).find t = some (i, p) ↔ nodes[i]? = some (t, p) := by
  have key : ∀ (l : List (Nat × Pt K)) (c : Nat) (m : Algo.AMap Nat (Nat × Pt K)), (l.map (·.1)).Nodup → (∀ q ∈ l, m.find q.1 = none) →
      (((l.zipIdx c).foldl (fun (m : Algo.AMap Nat (Nat × Pt K)) p => m.emplace p.1.1 (p.2, p.1.2)) m).find t = some (i, p) ↔
        m.find t = some (i, p) ∨ (c ≤ i ∧ l[i - c]? = some (t, p))) := by
    intro l
    induction l with
    | nil => intro c m _ _; simp
    | cons a l ih =>
      intro c m hn hm
      rw [List.map_cons, List.nodup_cons] at hn
      rw [List.zipIdx_cons, List.foldl_cons, ih _ _ hn.2]
      · have hl := Algo.lookup_emplace m a.1 (c, a.2) t
        unfold Algo.AMap.find
        rw [hl]
        have ha : m.lookup a.1 = none := hm a (by simp)
        constructor
        · rintro (h1 | ⟨h1, h2⟩)
          · cases hmt : m.lookup t with
            | some v => rw [hmt] at h1; left; simpa using h1
            | none =>
              rw [hmt] at h1
              simp only at h1
              split at h1
              · rename_i hta
                right
                simp only [Option.some.injEq, Prod.mk.injEq] at h1
                obtain ⟨rfl, h1⟩ := h1
                refine ⟨Nat.le_refl _, ?_⟩
                simp only [Nat.sub_self, List.getElem?_cons_zero, Option.some.injEq]
                rw [← h1, hta]
              · simp at h1
          · right
            refine ⟨by omega, ?_⟩
            rw [show i - c = (i - (c + 1)) + 1 by omega, List.getElem?_cons_succ]; exact h2
        · rintro (h1 | ⟨h1, h2⟩)
          · left; rw [h1]
          · by_cases hic : i = c
            · subst hic
              simp only [Nat.sub_self, List.getElem?_cons_zero, Option.some.injEq] at h2
              subst h2
              left
              simp only at ha
              rw [ha]; simp
            · right
              refine ⟨by omega, ?_⟩
              rwa [show i - c = (i - (c + 1)) + 1 by omega, List.getElem?_cons_succ] at h2
      · intro q hq
        have hne : q.1 ≠ a.1 := fun hc => hn.1 (hc ▸ List.mem_map.2 ⟨q, hq, rfl⟩)
        have hq2 : m.lookup q.1 = none := hm q (by simp [hq])
        unfold Algo.AMap.find
        rw [Algo.lookup_emplace, hq2]; simp [hne]
  have := key nodes 0 [] h (fun q _ => rfl)
  unfold parseNodes
  rw [this]
  simp [Algo.AMap.find]

/-! ## Arrangement of an element -/

/-- Gmsh's reference elements: reference coordinates of the corners in Gmsh's order. -/
def gmshRef : ElType → List (List Int)
  | .line => [[-1], [1]]
  | .quad => [[-1, -1], [1, -1], [1, 1], [-1, 1]]
  | .hex => [[-1, -1, -1], [1, -1, -1], [1, 1, -1], [-1, 1, -1], [-1, -1, 1], [1, -1, 1], [1, 1, 1], [-1, 1, 1]]

theorem locs_line : nodeLocs .line [(-1 : Int), 1] = [[-1], [1]] := by decide
theorem locs_quad : nodeLocs .quad [(-1 : Int), 1] = [[-1, -1], [1, -1], [-1, 1], [1, 1]] := by decide
theorem locs_hex : nodeLocs .hex [(-1 : Int), 1] =
    [[-1, -1, -1], [1, -1, -1], [-1, 1, -1], [1, 1, -1], [-1, -1, 1], [1, -1, 1], [-1, 1, 1], [1, 1, 1]] := by decide

/-- **C33** (order).  Each node ends up at the place of the library's reference element (`nodeLocs`) where Gmsh has it; for quadrilaterals possibly
with the two reference axes exchanged.  Ids and coordinates stay together. -/
theorem C33_order (eps : K) (ty : ElType) (info : List (Nat × Pt K)) (hl : info.length = 2 ^ ty.dim) :
    ∃ flip : Bool, (flip = true → ty = .quad) ∧
      ((nodeLocs ty [(-1 : Int), 1]).zip (arrange eps ty info)).Perm (((gmshRef ty).map fun r => if flip then r.reverse else r).zip info) := by
  cases ty with
  | line =>
    refine ⟨false, by simp, ?_⟩
    match info, hl with
    | [a, b], _ => rw [locs_line]; exact List.Perm.refl _
  | hex =>
    refine ⟨false, by simp, ?_⟩
    match info, hl with
    | [a, b, c, d, e, f, g, h], _ =>
      rw [locs_hex]
      simp only [arrange, swap, gmshRef, Bool.false_eq_true, if_false, List.map_id']
      simp only [List.getElem?_cons_succ, List.getElem?_cons_zero, List.set_cons_succ, List.set_cons_zero, List.zip_cons_cons, List.zip_nil_left]
      exact .cons _ (.cons _ ((List.Perm.swap _ _ _).trans (.cons _ (.cons _ (.cons _ (.cons _ (List.Perm.swap _ _ _)))))))
  | quad =>
    match info, hl with
    | [a, b, c, d], _ =>
      rw [locs_quad]
      by_cases hf : (planar eps ((swap [a, b, c, d] 2 3).map (·.2)) && upsideDown ((swap [a, b, c, d] 2 3).map (·.2))) = true
      · refine ⟨true, by simp, ?_⟩
        simp only [arrange, if_pos hf]
        simp only [swap, gmshRef, List.getElem?_cons_succ, List.getElem?_cons_zero, List.set_cons_succ, List.set_cons_zero, List.map_cons, List.map_nil,
          List.reverse_cons, List.reverse_nil, List.nil_append, List.cons_append, List.zip_cons_cons, List.zip_nil_left, if_true]
        refine .cons _ ?_
        exact (List.Perm.swap _ _ _).trans (.cons _ (List.Perm.swap _ _ _))
      · refine ⟨false, by simp, ?_⟩
        simp only [arrange, if_neg hf]
        simp only [swap, gmshRef, List.getElem?_cons_succ, List.getElem?_cons_zero, List.set_cons_succ, List.set_cons_zero, Bool.false_eq_true, if_false,
          List.map_id', List.zip_cons_cons, List.zip_nil_left]
        exact .cons _ (.cons _ (List.Perm.swap _ _ _))

theorem swap_perm {α : Type} (l : List α) (i j : Nat) : (swap l i j).Perm l := by
  unfold swap
  cases hi : l[i]? with
  | none => rfl
  | some a =>
    cases hj : l[j]? with
    | none => rfl
    | some b =>
      obtain ⟨h1, rfl⟩ := List.getElem?_eq_some_iff.1 hi
      obtain ⟨h2, rfl⟩ := List.getElem?_eq_some_iff.1 hj
      exact List.set_set_perm h1 h2

theorem arrange_perm (eps : K) (ty : ElType) (info : List (Nat × Pt K)) : (arrange eps ty info).Perm info := by
  cases ty with
  | line => exact List.Perm.refl _
  | hex => exact (swap_perm _ _ _).trans (swap_perm _ _ _)
  | quad =>
    simp only [arrange]
    split
    · exact (swap_perm _ _ _).trans (swap_perm _ _ _)
    · exact swap_perm _ _ _

end

/-! ## Orientation -/

section
variable {K : Type} [Field K] [LinearOrder K] [IsStrictOrderedRing K]

/-- Cross product of the edges leaving `b` towards `c` and arriving from `a` (positive for a left turn). -/
def turn (a b c : Pt K) : K := (b.x - a.x) * (c.y - b.y) - (b.y - a.y) * (c.x - b.x)

/-- `16 ·` Jacobian determinant of the bilinear map with corners `v0` (-1,-1), `v1` (1,-1), `v2` (-1,1), `v3` (1,1). -/
def jac16 (v0 v1 v2 v3 : Pt K) (ξ η : K) : K :=
  ((1 - η) * (v1.x - v0.x) + (1 + η) * (v3.x - v2.x)) * ((1 - ξ) * (v2.y - v0.y) + (1 + ξ) * (v3.y - v1.y)) -
  ((1 - ξ) * (v2.x - v0.x) + (1 + ξ) * (v3.x - v1.x)) * ((1 - η) * (v1.y - v0.y) + (1 + η) * (v3.y - v2.y))

/-- **C33** (orientation).  A strictly convex quadrilateral in a plane of constant height, given by Gmsh in either
direction, becomes an element whose Jacobian determinant is positive everywhere. -/
theorem C33_positive (eps : K) (heps : 0 < eps) (a b c d : Nat × Pt K) (hz : b.2.z = a.2.z ∧ c.2.z = a.2.z ∧ d.2.z = a.2.z)
    (hconv : (0 < turn a.2 b.2 c.2 ∧ 0 < turn b.2 c.2 d.2 ∧ 0 < turn c.2 d.2 a.2 ∧ 0 < turn d.2 a.2 b.2) ∨
      (turn a.2 b.2 c.2 < 0 ∧ turn b.2 c.2 d.2 < 0 ∧ turn c.2 d.2 a.2 < 0 ∧ turn d.2 a.2 b.2 < 0)) :
    ∃ v0 v1 v2 v3, arrange eps .quad [a, b, c, d] = [v0, v1, v2, v3] ∧
      ∀ ξ η, -1 ≤ ξ → ξ ≤ 1 → -1 ≤ η → η ≤ 1 → 0 < jac16 v0.2 v1.2 v2.2 v3.2 ξ η := by
  have hsw : swap [a, b, c, d] 2 3 = [a, b, d, c] := rfl
  have hpl : planar eps (([a, b, d, c] : List (Nat × Pt K)).map (·.2)) = true := by
    simp [planar, hz.1, hz.2.1, hz.2.2, heps]
  have hcomb : ∀ (ξ η p q r s : K), -1 ≤ ξ → ξ ≤ 1 → -1 ≤ η → η ≤ 1 → 0 < p → 0 < q → 0 < r → 0 < s →
      0 < (1 - ξ) * (1 - η) * p + (1 + ξ) * (1 - η) * q + (1 - ξ) * (1 + η) * r + (1 + ξ) * (1 + η) * s := by
    intro ξ η p q r s h1 h2 h3 h4 hp hq hr hs
    have a1 : 0 ≤ 1 - ξ := by linarith
    have a2 : 0 ≤ 1 + ξ := by linarith
    have b1 : 0 ≤ 1 - η := by linarith
    have b2 : 0 ≤ 1 + η := by linarith
    have c1 := mul_nonneg (mul_nonneg a1 b1) hp.le
    have c2 := mul_nonneg (mul_nonneg a2 b1) hq.le
    have c3 := mul_nonneg (mul_nonneg a1 b2) hr.le
    have c4 := mul_nonneg (mul_nonneg a2 b2) hs.le
    -- one of the four products of the weights is positive
    by_cases hx : ξ < 1
    · have a1' : 0 < 1 - ξ := by linarith
      by_cases hy : η < 1
      · have := mul_pos (mul_pos a1' (by linarith : 0 < 1 - η)) hp
        linarith
      · have := mul_pos (mul_pos a1' (by linarith : 0 < 1 + η)) hr
        linarith
    · have a2' : 0 < 1 + ξ := by linarith
      by_cases hy : η < 1
      · have := mul_pos (mul_pos a2' (by linarith : 0 < 1 - η)) hq
        linarith
      · have := mul_pos (mul_pos a2' (by linarith : 0 < 1 + η)) hs
        linarith
  have hnz : (b.2.x - a.2.x) * (d.2.y - a.2.y) - (b.2.y - a.2.y) * (d.2.x - a.2.x) = turn d.2 a.2 b.2 := by unfold turn; ring
  rcases hconv with ⟨h1, h2, h3, h4⟩ | ⟨h1, h2, h3, h4⟩
  · refine ⟨a, b, d, c, ?_, fun ξ η x1 x2 y1 y2 => ?_⟩
    · simp only [arrange, hsw, hpl, Bool.true_and]
      rw [if_neg]
      simp only [upsideDown, List.map_cons, List.map_nil, decide_eq_true_eq, not_lt]
      rw [hnz]; exact h4.le
    · have := hcomb ξ η _ _ _ _ x1 x2 y1 y2 h4 h1 h3 h2
      have heq : jac16 a.2 b.2 d.2 c.2 ξ η = (1 - ξ) * (1 - η) * turn d.2 a.2 b.2 + (1 + ξ) * (1 - η) * turn a.2 b.2 c.2 +
          (1 - ξ) * (1 + η) * turn c.2 d.2 a.2 + (1 + ξ) * (1 + η) * turn b.2 c.2 d.2 := by unfold jac16 turn; ring
      rw [heq]; exact this
  · refine ⟨a, d, b, c, ?_, fun ξ η x1 x2 y1 y2 => ?_⟩
    · simp only [arrange, hsw, hpl, Bool.true_and]
      rw [if_pos]
      · rfl
      · simp only [upsideDown, List.map_cons, List.map_nil, decide_eq_true_eq]
        rw [hnz]; exact h4
    · have := hcomb ξ η _ _ _ _ x1 x2 y1 y2 (neg_pos.2 h4) (neg_pos.2 h3) (neg_pos.2 h1) (neg_pos.2 h2)
      have heq : jac16 a.2 d.2 b.2 c.2 ξ η = (1 - ξ) * (1 - η) * -turn d.2 a.2 b.2 + (1 + ξ) * (1 - η) * -turn c.2 d.2 a.2 +
          (1 - ξ) * (1 + η) * -turn a.2 b.2 c.2 + (1 + ξ) * (1 + η) * -turn b.2 c.2 d.2 := by unfold jac16 turn; ring
      rw [heq]; exact this

end

/-! ## Whole file -/

section
variable {K : Type} [Field K] [LinearOrder K]

/-- What is required of the contents of the file. -/
structure FileOk (entities : List ((Nat × Nat) × Nat)) (nodes : List (Nat × Pt K)) (blocks : List Block) : Prop where
  tags : (nodes.map (·.1)).Nodup
  block : ∀ b ∈ blocks, ∃ dom ty, entities.lookup (b.dim, b.tag) = some dom ∧ elType b.type = some ty ∧
    ∀ ts ∈ b.els, ts.length = 2 ^ ty.dim ∧ ∀ t ∈ ts, t ∈ nodes.map (·.1)
  dims : ∀ b ∈ blocks, ∀ b' ∈ blocks, ∀ dom ty ty', entities.lookup (b.dim, b.tag) = some dom → entities.lookup (b'.dim, b'.tag) = some dom →
    elType b.type = some ty → elType b'.type = some ty' → ty.dim = ty'.dim

/-- The element `ev` (domain, element, vertices) is the import of the Gmsh element of block `b` with node tags `ts`. -/
def Imports (eps : K) (entities : List ((Nat × Nat) × Nat)) (nodes : List (Nat × Pt K)) (g : Block × List Nat) (ev : Nat × Element × List (Pt K)) : Prop :=
  entities.lookup (g.1.dim, g.1.tag) = some ev.1 ∧ elType g.1.type = some ev.2.1.ty ∧ ev.2.1.n = 2 ∧
    ∃ info : List (Nat × Pt K), List.Forall₂ (fun t i => nodes[i.1]? = some (t, i.2)) g.2 info ∧
      ev.2.1.nodes = (arrange eps ev.2.1.ty info).map (·.1) ∧ ev.2.2 = (arrange eps ev.2.1.ty info).map (·.2)

theorem forall2_flatten {α β γ : Type} {R : α × β → γ → Prop} {as : List α} {f : α → List β} {gs : List (List γ)}
    (h : List.Forall₂ (fun a l => List.Forall₂ (fun b c => R (a, b) c) (f a) l) as gs) :
    List.Forall₂ R (as.flatMap fun a => (f a).map fun b => (a, b)) gs.flatten := by
  induction h with
  | nil => exact .nil
  | cons h1 _ ih =>
    rw [List.flatMap_cons, List.flatten_cons]
    refine List.rel_append ?_ ih
    exact List.forall₂_map_left_iff.2 h1

theorem sortVecs_id {m : DomMap} (h : ∀ d ∈ m, ∀ v ∈ d.2.vecs, v.Pairwise fun a b => a.id ≤ b.id) : sortVecs m = m := by
  unfold sortVecs
  rw [List.map_congr_left (g := id)]
  · exact List.map_id _
  · intro d hd
    have : d.2.vecs.map (fun v => v.insertionSort fun a b => a.id ≤ b.id) = d.2.vecs := by
      rw [List.map_congr_left (g := id)]
      · exact List.map_id _
      · exact fun v hv => List.Pairwise.insertionSort_eq (h d hd v hv)
    rw [this]; rfl

/-- **C33** (file).  A well-formed file is read into a mesh holding exactly one element per Gmsh element, in the domain of its
physical tag, with consecutive ids in file order; its nodes and vertices are the arrangement of the nodes named by the tags. -/
theorem C33_read (eps : K) {entities : List ((Nat × Nat) × Nat)} {nodes : List (Nat × Pt K)} {blocks : List Block} (h : FileOk entities nodes blocks) :
    ∃ doms evs, readMesh eps entities nodes blocks = some doms ∧ readEvents eps entities nodes blocks = some evs ∧ WfMesh kinds1 doms ∧
      List.Forall₂ (Imports eps entities nodes) (blocks.flatMap fun b => b.els.map fun ts => (b, ts)) evs ∧
      (∀ k, (els doms k).Perm (((evs.zipIdx).filter fun p => p.1.1 == k).map fun p => { p.1.2.1 with id := p.2 })) ∧
      ((visitAll doms).map (·.id)).Perm (List.range evs.length) ∧
      ∀ k d, doms.lookup k = some d → ∀ v ∈ d.vecs, (v.map (·.id)).Pairwise (· < ·) := by
  have hinfo : ∀ b ∈ blocks, ∀ ts ∈ b.els, ∃ info, (ts.mapM fun t => (parseNodes nodes).find t) = some info ∧
      List.Forall₂ (fun t i => nodes[i.1]? = some (t, i.2)) ts info := by
    intro b hb ts hts
    obtain ⟨dom, ty, _, _, hn⟩ := h.block b hb
    obtain ⟨info, hinfo⟩ := mapM_isSome (f := fun t => (parseNodes nodes).find t) (l := ts) fun t ht => by
      obtain ⟨q, hq, rfl⟩ := List.mem_map.1 ((hn ts hts).2 t ht)
      obtain ⟨i, hi, rfl⟩ := List.mem_iff_getElem.1 hq
      exact ⟨(i, nodes[i].2), (C33_nodes nodes h.tags _ _ _).2 (by simp [hi])⟩
    refine ⟨info, hinfo, ?_⟩
    exact (mapM_forall₂ _ _ _ hinfo).imp fun t i hti => (C33_nodes nodes h.tags t i.1 i.2).1 hti
  have hblock : ∀ b ∈ blocks, ∃ l, blockEvents eps entities (parseNodes nodes) b = some l ∧ List.Forall₂ (fun ts ev => Imports eps entities nodes (b, ts) ev) b.els l := by
    intro b hb
    obtain ⟨dom, ty, h1, h2, _⟩ := h.block b hb
    obtain ⟨l, hl⟩ := mapM_isSome (l := b.els) (f := fun tags => (tags.mapM fun t => (parseNodes nodes).find t).map fun info =>
      (dom, (⟨ty, 2, 0, (arrange eps ty info).map (·.1)⟩ : Element), (arrange eps ty info).map (·.2))) fun ts hts => by
        obtain ⟨info, hi, _⟩ := hinfo b hb ts hts
        exact ⟨_, by rw [hi]; rfl⟩
    refine ⟨l, by unfold blockEvents; rw [h1, Option.bind_some, h2, Option.bind_some]; exact hl, ?_⟩
    have hf := mapM_forall₂ _ _ _ hl
    rw [List.forall₂_iff_get] at hf ⊢
    refine ⟨hf.1, fun i hi1 hi2 => ?_⟩
    have hfi := hf.2 i hi1 hi2
    rw [Option.map_eq_some_iff] at hfi
    obtain ⟨info, hi, heq⟩ := hfi
    obtain ⟨info', hi', hfo⟩ := hinfo b hb (b.els.get ⟨i, hi1⟩) (List.getElem_mem _)
    obtain rfl := Option.some.inj (hi'.symm.trans hi)
    rw [← heq]
    exact ⟨h1, h2, rfl, info', hfo, rfl, rfl⟩
  obtain ⟨ls, hls⟩ := mapM_isSome (f := blockEvents eps entities (parseNodes nodes)) (l := blocks) fun b hb => (hblock b hb).imp fun _ hh => hh.1
  have hread : readEvents eps entities nodes blocks = some ls.flatten := by unfold readEvents; rw [hls]; rfl
  have hforall : List.Forall₂ (Imports eps entities nodes) (blocks.flatMap fun b => b.els.map fun ts => (b, ts)) ls.flatten := by
    refine forall2_flatten (f := fun b : Block => b.els) ?_
    have hf := mapM_forall₂ _ _ _ hls
    rw [List.forall₂_iff_get] at hf ⊢
    refine ⟨hf.1, fun i hi1 hi2 => ?_⟩
    obtain ⟨l, hl, hfo⟩ := hblock (blocks.get ⟨i, hi1⟩) (List.getElem_mem _)
    obtain rfl := Option.some.inj (hl.symm.trans (hf.2 i hi1 hi2))
    exact hfo
  set evs := ls.flatten with hevs
  have hev : ∀ ev ∈ evs, ∃ b ∈ blocks, ∃ ts ∈ b.els, Imports eps entities nodes (b, ts) ev := by
    intro ev hev
    obtain ⟨g, hg, hI⟩ := forall2_mem_right hforall hev
    obtain ⟨b, hb, hg⟩ := List.mem_flatMap.1 hg
    obtain ⟨ts, hts, rfl⟩ := List.mem_map.1 hg
    exact ⟨b, hb, ts, hts, hI⟩
  -- dimensions
  let δ : Nat → Nat := fun k => ((evs.find? fun ev => ev.1 == k).map fun ev => ev.2.1.ty.dim).getD 0
  have hδ : ∀ ev ∈ evs, ev.2.1.ty.dim = δ ev.1 := by
    intro ev he
    simp only [δ]
    cases hf : evs.find? fun e => e.1 == ev.1 with
    | none => rw [List.find?_eq_none] at hf; exact absurd (by simp) (hf ev he)
    | some e' =>
      have hm := List.mem_of_find?_eq_some hf
      have hp : e'.1 = ev.1 := by simpa using List.find?_some hf
      obtain ⟨b, hb, ts, _, h1⟩ := hev ev he
      obtain ⟨b', hb', ts', _, h1'⟩ := hev e' hm
      exact h.dims b hb b' hb' ev.1 _ _ h1.1 (hp ▸ h1'.1) h1.2.1 h1'.2.1
  have hnum : ∀ ev ∈ number 0 evs, ∃ ev' ∈ evs, ev'.1 = ev.1 ∧ ev.2.ty = ev'.2.1.ty ∧ ev.2.n = ev'.2.1.n := by
    intro ev hev
    obtain ⟨⟨x, i⟩, hx, rfl⟩ := List.mem_map.1 hev
    exact ⟨x, (List.mem_zipIdx hx).2.2 ▸ List.getElem_mem _, rfl, rfl, rfl⟩
  obtain ⟨doms, p1, p2, p3, _, p5⟩ := push_events δ (inv_nil (kinds := kinds1) (by decide)) (fun k e he => by simp [els, visitIds, existing] at he) (number 0 evs)
    (fun ev hevm => by
      obtain ⟨ev', he', _, h2, h3⟩ := hnum ev hevm
      obtain ⟨b, hb, ts, _, hI⟩ := hev ev' he'
      unfold Element.kind
      rw [h2, h3, hI.2.2.1]
      cases ev'.2.1.ty <;> simp [kinds1])
    (fun ev hevm => by
      obtain ⟨ev', he', h1, h2, _⟩ := hnum ev hevm
      rw [h2, hδ ev' he', h1])
  have p3' : ∀ k, (els doms k).Perm (sel k (number 0 evs)) := by
    intro k
    have := p3 k
    rwa [show els ([] : DomMap) k = [] from by simp [els, visitIds, existing], List.nil_append] at this
  have hsel : ∀ k, sel k (number 0 evs) = ((evs.zipIdx).filter fun p => p.1.1 == k).map fun p => { p.1.2.1 with id := p.2 } := by
    intro k
    unfold sel number
    rw [List.filter_map, List.map_map]; rfl
  have hinc : ((number 0 evs).map (·.2)).Pairwise fun a b => a.id < b.id := by
    rw [List.pairwise_map]
    have : ((number 0 evs).map (·.2.id)).Pairwise (· < ·) := by rw [number_ids]; exact List.pairwise_lt_range'
    rwa [List.pairwise_map] at this
  -- the vectors are sorted already
  have hvec : ∀ k d, doms.lookup k = some d → ∀ v ∈ d.vecs, v.Sublist ((number 0 evs).map (·.2)) := by
    have hok : PushOk kinds1 [] (number 0 evs) := by
      refine ⟨by decide, by simp [OMap.Sorted], by simp, fun ev hevm => ?_, fun a ha b hb hab => ?_, by simp⟩
      · obtain ⟨ev', he', _, h2, h3⟩ := hnum ev hevm
        obtain ⟨b, hb, ts, _, hI⟩ := hev ev' he'
        unfold Element.kind
        rw [h2, h3, hI.2.2.1]
        cases ev'.2.1.ty <;> simp [kinds1]
      · obtain ⟨a', ha', a1, a2, _⟩ := hnum a ha
        obtain ⟨b', hb', b1, b2, _⟩ := hnum b hb
        rw [a2, b2, hδ a' ha', hδ b' hb', a1, b1, hab]
    obtain ⟨m', q1, _, q3⟩ := pushAll_spec hok
    obtain rfl := Option.some.inj (p1.symm.trans q1)
    intro k d hd v hv
    rw [q3] at hd
    split at hd
    · rw [← Option.some.inj hd] at hv
      simp only [grow, List.lookup_nil, Option.getD_none] at hv
      obtain ⟨i, hi, rfl⟩ := List.mem_iff_getElem.1 hv
      simp only [List.getElem_zipWith]
      simp only [emptyDom, List.getElem_map, List.nil_append]
      refine List.filter_sublist.trans ?_
      unfold sel
      exact List.Sublist.map _ List.filter_sublist
    · simp at hd
  have hsorted : ∀ k d, doms.lookup k = some d → ∀ v ∈ d.vecs, v.Pairwise fun a b => a.id < b.id := fun k d hd v hv => hinc.sublist (hvec k d hd v hv)
  have hsv : sortVecs doms = doms := sortVecs_id fun d hd v hv =>
    (hsorted d.1 d.2 (lookup_of_mem (wf_keys p2.wf) hd) v hv).imp Nat.le_of_lt
  refine ⟨doms, evs, ?_, hread, p2.wf, hforall, fun k => hsel k ▸ p3' k, ?_, fun k d hd v hv => ?_⟩
  · unfold readMesh
    rw [hread, Option.bind_some, p1, Option.map_some, hsv]
  · have := (visitAll_perm (wf_keys p2.wf) p3' fun ev hev => by
      rw [← OMap.lookup_isSome_iff, p5]; right; exact List.mem_map.2 ⟨ev, hev, rfl⟩).map (·.id)
    rw [List.map_map] at this
    rw [show (number 0 evs).map ((fun e : Element => e.id) ∘ fun x => x.2) = List.range' 0 evs.length from number_ids 0 evs, ← List.range_eq_range'] at this
    exact this
  · exact List.pairwise_map.2 (hsorted k d hd v hv)

/-- **C33** (orientation): the reading direction of a quadrilateral is reversed exactly if its four vertices have the same third coordinate up to
`eps` (in either direction) and its first three corners turn clockwise; any other quadrilateral keeps the direction of the file. -/
theorem C33_flip [IsStrictOrderedRing K] (eps : K) (a b c d : Nat × Pt K) :
    arrange eps .quad [a, b, c, d] =
      if |b.2.z - a.2.z| < eps ∧ |c.2.z - a.2.z| < eps ∧ |d.2.z - a.2.z| < eps ∧
          (b.2.x - a.2.x) * (d.2.y - a.2.y) < (b.2.y - a.2.y) * (d.2.x - a.2.x) then [a, d, b, c] else [a, b, d, c] := by
  have hsw : swap [a, b, c, d] 2 3 = [a, b, d, c] := rfl
  have hsw2 : swap [a, b, d, c] 1 2 = [a, d, b, c] := rfl
  unfold arrange
  simp only [hsw, hsw2, planar, upsideDown, List.map_cons, List.map_nil, List.all_cons, List.all_nil, Bool.and_true, Bool.and_eq_true,
    decide_eq_true_eq]
  refine if_congr ?_ rfl rfl
  rw [sub_neg]
  tauto

/-- **C33** (unsupported elements): a file with a block of any Gmsh type other than 1 (line), 3 (quadrilateral) or 5 (hexahedron) is rejected. -/
theorem C33_unsupported (eps : K) (entities : List ((Nat × Nat) × Nat)) (nodes : List (Nat × Pt K)) (blocks : List Block) (b : Block)
    (hb : b ∈ blocks) (h1 : b.type ≠ 1) (h3 : b.type ≠ 3) (h5 : b.type ≠ 5) : readMesh eps entities nodes blocks = none := by
  have hty : elType b.type = none := by
    unfold elType
    split <;> first | contradiction | rfl
  have hbe : blockEvents eps entities (parseNodes nodes) b = none := by
    unfold blockEvents
    rw [hty]
    cases entities.lookup (b.dim, b.tag) <;> rfl
  have hm : blocks.mapM (blockEvents eps entities (parseNodes nodes)) = none := by
    induction blocks with
    | nil => simp at hb
    | cons x xs ih =>
      rw [List.mapM_cons]
      rcases List.mem_cons.1 hb with rfl | hb
      · rw [hbe]; rfl
      · cases blockEvents eps entities (parseNodes nodes) x with
        | none => rfl
        | some v => rw [ih hb]; rfl
  unfold readMesh readEvents
  rw [hm]; rfl

end

/-! ## Concrete cases -/

/-- A unit square, listed clockwise by Gmsh, with a physical curve. -/
def exNodes : List (Nat × Pt ℚ) := [(10, ⟨0, 0, 1⟩), (7, ⟨0, 1, 1⟩), (8, ⟨1, 1, 1⟩), (3, ⟨1, 0, 1⟩)]
def exEntities : List ((Nat × Nat) × Nat) := [((2, 1), 5), ((1, 4), 6)]
def exBlocks : List Block := [⟨2, 1, 3, [[10, 7, 8, 3]]⟩, ⟨1, 4, 1, [[10, 3]]⟩]

theorem ex_ok : FileOk exEntities exNodes exBlocks := by
  refine ⟨by decide, ?_, ?_⟩
  · intro b hb
    simp only [exBlocks, List.mem_cons, List.not_mem_nil, or_false] at hb
    rcases hb with rfl | rfl
    · exact ⟨5, .quad, by decide, by decide, by decide⟩
    · exact ⟨6, .line, by decide, by decide, by decide⟩
  · intro b hb b' hb' dom ty ty' h1 h2 h3 h4
    simp only [exBlocks, List.mem_cons, List.not_mem_nil, or_false] at hb hb'
    rcases hb with rfl | rfl <;> rcases hb' with rfl | rfl 
    · rw [Option.some.inj (h3.symm.trans h4)]
    · exact absurd (h1.trans h2.symm) (by decide)
    · exact absurd (h1.trans h2.symm) (by decide)
    · rw [Option.some.inj (h3.symm.trans h4)]

example : ∃ doms, readMesh (1 / 10 ^ 9) exEntities exNodes exBlocks = some doms ∧ WfMesh kinds1 doms := by
  obtain ⟨doms, _, h1, _, h2, _⟩ := C33_read (1 / 10 ^ 9) ex_ok
  exact ⟨doms, h1, h2⟩

/-- The clockwise square is flipped. -/
example : arrange (1 / 10 ^ 9 : ℚ) .quad [(0, ⟨0, 0, 1⟩), (1, ⟨0, 1, 1⟩), (2, ⟨1, 1, 1⟩), (3, ⟨1, 0, 1⟩)] =
    [(0, ⟨0, 0, 1⟩), (3, ⟨1, 0, 1⟩), (1, ⟨0, 1, 1⟩), (2, ⟨1, 1, 1⟩)] := by
  norm_num [arrange, swap, planar, upsideDown]

example : ∀ ξ η : ℚ, -1 ≤ ξ → ξ ≤ 1 → -1 ≤ η → η ≤ 1 → ∃ v0 v1 v2 v3,
    arrange (1 / 10 ^ 9) .quad [(0, (⟨0, 0, 1⟩ : Pt ℚ)), (1, ⟨0, 1, 1⟩), (2, ⟨1, 1, 1⟩), (3, ⟨1, 0, 1⟩)] = [v0, v1, v2, v3] ∧ 0 < jac16 v0.2 v1.2 v2.2 v3.2 ξ η := by
  intro ξ η h1 h2 h3 h4
  obtain ⟨v0, v1, v2, v3, ha, hj⟩ := C33_positive (1 / 10 ^ 9) (by norm_num) (0, (⟨0, 0, 1⟩ : Pt ℚ)) (1, ⟨0, 1, 1⟩) (2, ⟨1, 1, 1⟩) (3, ⟨1, 0, 1⟩)
    (by norm_num) (Or.inr (by norm_num [turn]))
  exact ⟨v0, v1, v2, v3, ha, hj ξ η h1 h2 h3 h4⟩

/-- Not flat: the direction of the file is kept although the projection turns clockwise. -/
example : arrange (1 / 10 ^ 9 : ℚ) .quad [(0, ⟨0, 0, 1⟩), (1, ⟨0, 1, 1⟩), (2, ⟨1, 1, 0⟩), (3, ⟨1, 0, 1⟩)] =
    [(0, ⟨0, 0, 1⟩), (1, ⟨0, 1, 1⟩), (3, ⟨1, 0, 1⟩), (2, ⟨1, 1, 0⟩)] := by
  rw [C33_flip]; norm_num

example : readMesh (1 / 10 ^ 9) exEntities exNodes (⟨2, 1, 2, [[10, 7, 8]]⟩ :: exBlocks) = none :=
  C33_unsupported _ _ _ _ ⟨2, 1, 2, [[10, 7, 8]]⟩ (by simp) (by decide) (by decide) (by decide)

end Verif.Gmsh
