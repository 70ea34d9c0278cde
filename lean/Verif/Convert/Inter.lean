import Verif.Convert.Faces
/-! # The intersection of two elements -/
namespace Verif.Convert
open Verif Verif.Elem

variable {P D : Type}

/-- The common vertices of two elements are exactly those of a face `F1` of the first and a face `F2` of the second. -/
structure VMeet (e1 e2 : El D) (F1 F2 : Face) : Prop where
  mem1 : F1 ∈ allFaces e1.ty
  mem2 : F2 ∈ allFaces e2.ty
  dim : free F1 = free F2
  only : ∀ k l, k < 2 ^ e1.ty.dim → l < 2 ^ e2.ty.dim → e1.nodes.getD k 0 = e2.nodes.getD l 0 → onFace 2 F1 k ∧ onFace 2 F2 l
  fwd : ∀ k, k < 2 ^ e1.ty.dim → onFace 2 F1 k → ∃ l, l < 2 ^ e2.ty.dim ∧ onFace 2 F2 l ∧ e1.nodes.getD k 0 = e2.nodes.getD l 0
  bwd : ∀ l, l < 2 ^ e2.ty.dim → onFace 2 F2 l → ∃ k, k < 2 ^ e1.ty.dim ∧ onFace 2 F1 k ∧ e1.nodes.getD k 0 = e2.nodes.getD l 0

/-- Vertex ids of an element. -/
structure WfEl (e : El D) : Prop where
  len : e.nodes.length = 2 ^ e.ty.dim
  nodup : e.nodes.Nodup

theorem WfEl.inj {e : El D} (h : WfEl e) {k l : Nat} (hk : k < 2 ^ e.ty.dim) (hl : l < 2 ^ e.ty.dim)
    (heq : e.nodes.getD k 0 = e.nodes.getD l 0) : k = l := by
  rw [← h.len] at hk hl
  simp only [List.getD_eq_getElem?_getD, List.getElem?_eq_getElem hk, List.getElem?_eq_getElem hl, Option.getD_some] at heq
  exact (List.Nodup.getElem_inj_iff h.nodup).1 heq

/-- Same sorted vertex lists of a pair of faces. -/
def Same (e1 e2 : El D) (G1 G2 : Face) : Prop :=
  nodesAt e1.nodes (faceInds e1.ty 2 G1) = nodesAt e2.nodes (faceInds e2.ty 2 G2)

instance (e1 e2 : El D) (G1 G2 : Face) : Decidable (Same e1 e2 G1 G2) := by unfold Same; infer_instance

theorem interAt_eq (n d : Nat) (e1 e2 : El D) (hn : 2 ≤ n) (h1 : n ^ e1.ty.dim < 2 ^ 16) (h2 : n ^ e2.ty.dim < 2 ^ 16) :
    interAt n d e1 e2 = ((codeFaces e1.ty d).findSome? fun G1 => (codeFaces e2.ty d).findSome? fun G2 =>
      if Same e1 e2 G1 G2 then some (faceInds e1.ty n G1, faceInds e2.ty n G2) else none).getD ([], []) := by
  have hz : ∀ (t : ElType), n ^ t.dim < 2 ^ 16 → (features t 2 d).zip (features t n d) = (codeFaces t d).map fun F => (faceInds t 2 F, faceInds t n F) := by
    intro t ht
    rw [features_eq t n d hn ht, features_eq t 2 d (by omega) (by cases t <;> decide), List.zip_map']
  unfold interAt
  rw [hz _ h1, hz _ h2, List.findSome?_map]
  congr 2
  funext G1
  simp only [Function.comp, List.findSome?_map]
  rfl

theorem same_mem {e1 e2 : El D} {G1 G2 : Face} (h : Same e1 e2 G1 G2) (x : Nat) :
    (∃ k, k < 2 ^ e1.ty.dim ∧ onFace 2 G1 k ∧ e1.nodes.getD k 0 = x) ↔ ∃ l, l < 2 ^ e2.ty.dim ∧ onFace 2 G2 l ∧ e2.nodes.getD l 0 = x := by
  have := congrArg (fun l => x ∈ l) h
  simp only [nodesAt, Std.mem_sort, List.mem_map, mem_faceInds, and_assoc] at this
  exact iff_of_eq this

theorem same_of_vmeet {e1 e2 : El D} {F1 F2 : Face} (w1 : WfEl e1) (w2 : WfEl e2) (h : VMeet e1 e2 F1 F2) : Same e1 e2 F1 F2 := by
  have hnd : ∀ (e : El D), WfEl e → ∀ G, ((faceInds e.ty 2 G).map fun i => e.nodes.getD i 0).Nodup := by
    intro e w G
    refine List.Nodup.map_on ?_ (Std.nodup_of_strict (faceInds_strict _ _ _))
    intro a ha b hb hab
    exact w.inj (mem_faceInds.1 ha).1 (mem_faceInds.1 hb).1 hab
  refine Std.sort_congr ((List.perm_ext_iff_of_nodup (hnd e1 w1 F1) (hnd e2 w2 F2)).2 fun x => ?_)
  simp only [List.mem_map, mem_faceInds]
  constructor
  · rintro ⟨k, ⟨hk, ok⟩, rfl⟩
    obtain ⟨l, hl, ol, e⟩ := h.fwd k hk ok
    exact ⟨l, ⟨hl, ol⟩, e.symm⟩
  · rintro ⟨l, ⟨hl, ol⟩, rfl⟩
    obtain ⟨k, hk, ok, e⟩ := h.bwd l hl ol
    exact ⟨k, ⟨hk, ok⟩, e⟩

theorem same_le {e1 e2 : El D} {F1 F2 G1 G2 : Face} (h : VMeet e1 e2 F1 F2) (g1 : G1 ∈ allFaces e1.ty) (g2 : G2 ∈ allFaces e2.ty)
    (hs : Same e1 e2 G1 G2) : (free G1 ≤ free F1 ∧ (free G1 = free F1 → G1 = F1)) ∧ (free G2 ≤ free F2 ∧ (free G2 = free F2 → G2 = F2)) := by
  constructor
  · refine face_le e1.ty F1 h.mem1 G1 g1 fun k hk ok => ?_
    rw [List.mem_range] at hk
    obtain ⟨l, hl, ol, e⟩ := (same_mem hs _).1 ⟨k, hk, ok, rfl⟩
    exact (h.only k l hk hl e.symm).1
  · refine face_le e2.ty F2 h.mem2 G2 g2 fun l hl ol => ?_
    rw [List.mem_range] at hl
    obtain ⟨k, hk, ok, e⟩ := (same_mem hs _).2 ⟨l, hl, ol, rfl⟩
    exact (h.only k l hk hl e).2

theorem findSome_unique {α β γ : Type} (l1 : List α) (l2 : List β) (c : α → β → Prop) [∀ a b, Decidable (c a b)] (g : α → β → γ)
    {A : α} {B : β} (hA : A ∈ l1) (hB : B ∈ l2) (hc : c A B) (hu : ∀ a ∈ l1, ∀ b ∈ l2, c a b → a = A ∧ b = B) :
    (l1.findSome? fun a => l2.findSome? fun b => if c a b then some (g a b) else none) = some (g A B) := by
  have hin : ∀ a ∈ l1, (l2.findSome? fun b => if c a b then some (g a b) else none).isSome → (l2.findSome? fun b => if c a b then some (g a b) else none) = some (g A B) := by
    intro a ha hs
    obtain ⟨v, hv⟩ := Option.isSome_iff_exists.1 hs
    obtain ⟨b, hb, e⟩ := List.exists_of_findSome?_eq_some hv
    by_cases h : c a b
    · rw [if_pos h] at e
      obtain ⟨rfl, rfl⟩ := hu a ha b hb h
      rw [hv, ← e]
    · rw [if_neg h] at e; simp at e
  have hsome : (l1.findSome? fun a => l2.findSome? fun b => if c a b then some (g a b) else none).isSome := by
    rw [List.findSome?_isSome_iff]
    refine ⟨A, hA, ?_⟩
    rw [List.findSome?_isSome_iff]
    exact ⟨B, hB, by simp [hc]⟩
  obtain ⟨v, hv⟩ := Option.isSome_iff_exists.1 hsome
  obtain ⟨a, ha, e⟩ := List.exists_of_findSome?_eq_some hv
  rw [hv, ← e]
  exact hin a ha (by rw [e]; rfl)

theorem findSome_none {α β γ : Type} (l1 : List α) (l2 : List β) (c : α → β → Prop) [∀ a b, Decidable (c a b)] (g : α → β → γ)
    (hu : ∀ a ∈ l1, ∀ b ∈ l2, ¬ c a b) :
    (l1.findSome? fun a => l2.findSome? fun b => if c a b then some (g a b) else none) = none := by
  rw [List.findSome?_eq_none_iff]
  intro a ha
  rw [List.findSome?_eq_none_iff]
  intro b hb
  rw [if_neg (hu a ha b hb)]

theorem interAt_found {n : Nat} {e1 e2 : El D} {F1 F2 : Face} (hn : 2 ≤ n) (h1 : n ^ e1.ty.dim < 2 ^ 16) (h2 : n ^ e2.ty.dim < 2 ^ 16)
    (w1 : WfEl e1) (w2 : WfEl e2) (h : VMeet e1 e2 F1 F2) (hd : 1 ≤ free F1) :
    interAt n (free F1) e1 e2 = (faceInds e1.ty n F1, faceInds e2.ty n F2) := by
  rw [interAt_eq n _ e1 e2 hn h1 h2, findSome_unique _ _ _ _ (A := F1) (B := F2)]
  · rfl
  · exact codeFaces_complete _ _ h.mem1 hd
  · rw [h.dim]; exact codeFaces_complete _ _ h.mem2 (by rw [← h.dim]; exact hd)
  · exact same_of_vmeet w1 w2 h
  · intro G1 g1 G2 g2 hs
    obtain ⟨a1, b1⟩ := codeFaces_sound _ _ _ g1
    obtain ⟨a2, b2⟩ := codeFaces_sound _ _ _ g2
    obtain ⟨c1, c2⟩ := same_le h a1 a2 hs
    exact ⟨c1.2 b1, c2.2 (by rw [b2]; exact h.dim)⟩

theorem interAt_higher {n d : Nat} {e1 e2 : El D} {F1 F2 : Face} (hn : 2 ≤ n) (h1 : n ^ e1.ty.dim < 2 ^ 16) (h2 : n ^ e2.ty.dim < 2 ^ 16)
    (h : VMeet e1 e2 F1 F2) (hd : free F1 < d) : interAt n d e1 e2 = ([], []) := by
  rw [interAt_eq n _ e1 e2 hn h1 h2, findSome_none]
  · rfl
  · intro G1 g1 G2 g2 hs
    obtain ⟨a1, b1⟩ := codeFaces_sound _ _ _ g1
    obtain ⟨a2, b2⟩ := codeFaces_sound _ _ _ g2
    have := (same_le h a1 a2 hs).1.1
    omega

theorem interAt_disjoint {n d : Nat} {e1 e2 : El D} (hn : 2 ≤ n) (h1 : n ^ e1.ty.dim < 2 ^ 16) (h2 : n ^ e2.ty.dim < 2 ^ 16)
    (h : ∀ k l, k < 2 ^ e1.ty.dim → l < 2 ^ e2.ty.dim → e1.nodes.getD k 0 ≠ e2.nodes.getD l 0) : interAt n d e1 e2 = ([], []) := by
  rw [interAt_eq n _ e1 e2 hn h1 h2, findSome_none]
  · rfl
  · intro G1 g1 G2 g2 hs
    obtain ⟨a1, b1⟩ := codeFaces_sound _ _ _ g1
    obtain ⟨k, hk, ok⟩ := face_vert _ _ a1
    rw [List.mem_range] at hk
    obtain ⟨l, hl, _, e⟩ := (same_mem hs _).1 ⟨k, hk, ok, rfl⟩
    exact h k l hk hl e.symm

theorem faceInds_ne_nil {t : ElType} {n : Nat} {F : Face} (hn : 2 ≤ n) (hF : F ∈ allFaces t) : faceInds t n F ≠ [] := by
  obtain ⟨k, hk, ok⟩ := face_vert t F hF
  rw [List.mem_range] at hk
  exact List.ne_nil_of_mem (mem_faceInds.2 ⟨corner_lt t n k (by omega) hk, by rw [onFace_corner hF hn]; exact ok⟩)

/-- The code finds the common face. -/
theorem inter_found {n : Nat} {e1 e2 : El D} {F1 F2 : Face} (hn : 2 ≤ n) (h1 : n ^ e1.ty.dim < 2 ^ 16) (h2 : n ^ e2.ty.dim < 2 ^ 16)
    (w1 : WfEl e1) (w2 : WfEl e2) (h : VMeet e1 e2 F1 F2) (hd : 1 ≤ free F1) (hm : free F1 ≤ highestDim e1.ty e2.ty) :
    inter n e1 e2 = (faceInds e1.ty n F1, faceInds e2.ty n F2) := by
  have hf := interAt_found hn h1 h2 w1 w2 h hd
  have hne := faceInds_ne_nil hn h.mem1
  have hb : highestDim e1.ty e2.ty ≤ 2 := by cases e1.ty <;> cases e2.ty <;> decide
  unfold inter
  rw [if_neg (by omega)]
  by_cases hh : highestDim e1.ty e2.ty = 1
  · rw [if_pos hh]
    have : free F1 = 1 := by omega
    rw [this] at hf; exact hf
  · rw [if_neg hh]
    by_cases h12 : free F1 = 2
    · rw [h12] at hf
      rw [if_pos (by rw [hf]; exact hne), hf]
    · have h11 : free F1 = 1 := by omega
      rw [if_neg (by rw [interAt_higher hn h1 h2 h (by omega)]; simp)]
      rw [h11] at hf; exact hf

theorem inter_point {n : Nat} {e1 e2 : El D} {F1 F2 : Face} (hn : 2 ≤ n) (h1 : n ^ e1.ty.dim < 2 ^ 16) (h2 : n ^ e2.ty.dim < 2 ^ 16)
    (h : VMeet e1 e2 F1 F2) (hd : free F1 = 0) : inter n e1 e2 = ([], []) := by
  unfold inter
  rw [interAt_higher hn h1 h2 h (d := 1) (by omega), interAt_higher hn h1 h2 h (d := 2) (by omega)]
  simp

theorem inter_disjoint {n : Nat} {e1 e2 : El D} (hn : 2 ≤ n) (h1 : n ^ e1.ty.dim < 2 ^ 16) (h2 : n ^ e2.ty.dim < 2 ^ 16)
    (h : ∀ k l, k < 2 ^ e1.ty.dim → l < 2 ^ e2.ty.dim → e1.nodes.getD k 0 ≠ e2.nodes.getD l 0) : inter n e1 e2 = ([], []) := by
  unfold inter
  rw [interAt_disjoint hn h1 h2 h (d := 1), interAt_disjoint hn h1 h2 h (d := 2)]
  simp

end Verif.Convert
