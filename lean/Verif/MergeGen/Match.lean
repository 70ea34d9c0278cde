import Verif.MergeGen.Two
import Verif.Spatial.Props

/-! # The matching of nodes by their positions -/
namespace Verif.MergeGen
open Verif Verif.Elem Verif.Mesh Verif.Split Verif.Partition Verif.Merge Verif.Gen Verif.Pipeline

variable {A B : Part} {N1 N2 D : Nat} {pos1 pos2 : Nat → Pt}

theorem mem_bndNodes {P : Type} {pos1 : Nat → P} (h : Block A N1 pos1 D) {x : Nat} : x ∈ bndNodes A ↔ BndNode A x := by
  unfold bndNodes
  rw [Std.mem_sortUniq, List.mem_flatMap]
  constructor
  · rintro ⟨v, hv, hx⟩
    obtain ⟨b, hb, e, he, h1⟩ := (mem_faceSet h.ok (f := sortedSide v)).1 (List.mem_map.2 ⟨v, hv, rfl⟩)
    exact ⟨b, hb, e, he, Std.mem_sort.1 (h1 ▸ hx)⟩
  · rintro ⟨b, hb, e, he, hx⟩
    obtain ⟨v, hv, h1⟩ := List.mem_map.1 ((mem_faceSet h.ok).2 ⟨b, hb, e, he, rfl⟩)
    exact ⟨v, hv, h1 ▸ Std.mem_sort.2 hx⟩

theorem mem_bndCoords {P : Type} {pos1 : Nat → P} (h : Block A N1 pos1 D) {x : Nat} {p : P} : (x, p) ∈ bndCoords pos1 A ↔ BndNode A x ∧ p = pos1 x := by
  unfold bndCoords
  rw [List.mem_map]
  constructor
  · rintro ⟨y, hy, h1⟩
    simp only [Prod.mk.injEq] at h1
    obtain ⟨rfl, rfl⟩ := h1
    exact ⟨(mem_bndNodes h).1 hy, rfl⟩
  · rintro ⟨h1, rfl⟩
    exact ⟨x, (mem_bndNodes h).2 h1, rfl⟩

theorem keys_bndCoords {P : Type} {pos1 : Nat → P} : ((bndCoords pos1 A).map (·.1)).Nodup := by
  have : (bndCoords pos1 A).map (·.1) = bndNodes A := by rw [bndCoords, List.map_map]; exact List.map_id _
  rw [this]
  exact Std.sortUniq_nodup _

theorem close_self (p : Pt) : close p p = true := by
  have : ((p.zip p).map fun r => (r.1 - r.2) * (r.1 - r.2)).sum = 0 := by
    induction p with
    | nil => rfl
    | cons a p ih => simp [ih]
  unfold close
  rw [this]
  simp

theorem mem_prox (l : List (Nat × Pt)) {p : Pt} (hp : p.length = 3) {c : Pt × Nat} :
    c ∈ (table l).proximate p ↔ (c.2, c.1) ∈ l ∧ Spatial.Near ((Spatial.Table.new (τ := Nat) minDx (gridStep (l.map (·.2))) (origin (l.map (·.2)))).snap p)
      ((Spatial.Table.new (τ := Nat) minDx (gridStep (l.map (·.2))) (origin (l.map (·.2)))).snap c.1) := by
  have := Spatial.C12_proximate_exact (τ := Nat) minDx (gridStep (l.map (·.2))) (origin (l.map (·.2))) (by simp [gridStep, origin]) (l.map fun q => (q.2, q.1)) p (by simp [gridStep, hp])
  unfold table
  rw [this.mem_iff, List.mem_filter, decide_eq_true_eq]
  refine and_congr_left fun _ => ?_
  rw [List.mem_map]
  constructor
  · rintro ⟨q, hq, rfl⟩; exact hq
  · intro h; exact ⟨_, h, rfl⟩

theorem near_self (a : List Int) : Spatial.Near a a := by
  unfold Spatial.Near
  exact List.forall₂_same.2 fun x _ => by simp

/-- Positions which are not equal are farther apart than the tolerance of the matching. -/
def Apart (A B : Part) (pos1 pos2 : Nat → Pt) : Prop := ∀ x y, BndNode A x → BndNode B y → close (pos2 y) (pos1 x) = true → pos1 x = pos2 y

theorem matchOk (hA : Block A N1 pos1 D) (hB : Block B N2 pos2 D) (hlen : ∀ y, (pos2 y).length = 3) (hsep : Apart A B pos1 pos2)
    {o1 o2 : List (Nat × Pt) → List (Nat × Pt)} (h1 : ∀ l, (o1 l).Perm l) (h2 : ∀ l, (o2 l).Perm l) : MatchOk (matchMap o1 o2 A B pos1 pos2) A B pos1 pos2 := by
  have hkeys : ((o2 (bndCoords pos2 B)).map (·.1)).Nodup := ((h2 _).map _).nodup_iff.2 keys_bndCoords
  have hsub : ∀ l : List (Nat × Pt), ((matchExisting (table (o1 (bndCoords pos1 A))).proximate close l).map (·.1)).Sublist (l.map (·.1)) := by
    intro l
    unfold matchExisting
    induction l with
    | nil => simp
    | cons a l ih =>
      rw [List.filterMap_cons]
      cases h : ((table (o1 (bndCoords pos1 A))).proximate a.2).find? fun c => close a.2 c.1 with
      | none => simpa using ih.cons a.1
      | some c => simpa using ih.cons_cons a.1
  have hto : ∀ {y x}, (matchMap o1 o2 A B pos1 pos2).find y = some x → BndNode A x ∧ BndNode B y ∧ pos1 x = pos2 y := by
    intro y x hf
    have hy : y ∈ (o2 (bndCoords pos2 B)).map (·.1) := by
      refine (hsub _).subset ?_
      by_contra hc
      have := find_none.2 hc
      unfold matchMap at hf
      rw [this] at hf
      cases hf
    obtain ⟨⟨y', p⟩, hq, rfl⟩ := List.mem_map.1 hy
    obtain ⟨hby, rfl⟩ := (mem_bndCoords hB).1 ((h2 _).mem_iff.1 hq)
    obtain ⟨q, hq', hc⟩ := (C31_matching _ close _ hkeys hq).1 x hf
    have h3 := ((mem_prox _ (hlen y')).1 hq').1
    obtain ⟨hbx, h4⟩ := (mem_bndCoords hA).1 ((h1 _).mem_iff.1 h3)
    obtain rfl : q = pos1 x := h4
    exact ⟨hbx, hby, hsep _ _ hbx hby hc⟩
  refine ⟨List.Nodup.sublist (hsub _) hkeys, fun y x => ⟨hto, ?_⟩⟩
  rintro ⟨hx, hy, hxy⟩
  have hq : (y, pos2 y) ∈ o2 (bndCoords pos2 B) := (h2 _).mem_iff.2 ((mem_bndCoords hB).2 ⟨hy, rfl⟩)
  cases hf : (matchMap o1 o2 A B pos1 pos2).find y with
  | none =>
    have := (C31_matching _ close _ hkeys hq).2.1 hf (pos1 x, x) ((mem_prox _ (hlen y)).2 ⟨(h1 _).mem_iff.2 ((mem_bndCoords hA).2 ⟨hx, rfl⟩), by rw [hxy]; exact near_self _⟩)
    rw [hxy, close_self] at this
    cases this
  | some x' =>
    obtain ⟨g1, _, g3⟩ := hto hf
    rw [hA.inj x' x (hA.bndLt g1) (hA.bndLt hx) (g3.trans hxy.symm)]

end Verif.MergeGen
