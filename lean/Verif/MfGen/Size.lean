import Verif.MfGen.Conv
import Verif.MfPipe.Props
import Verif.Gen.Props

/-! # Sizes of meshes -/
namespace Verif.MfGen
open Verif Verif.Elem Verif.Split Verif.Mesh Verif.Partition Verif.Pipeline Verif.Convert Verif.Gen Verif.MfPipe

/-- Numbers fit into 32 bits: node ids, and for each domain the number of elements times the nodes of one. -/
def Small (m : DomMap) (N : Nat) : Prop := N < 2 ^ 32 ∧ ∀ k e, InDom m k e → e.nodes.length * (domEls m k).length < 2 ^ 32 - 1

variable {D : Type} {n : Nat} {M : DMap D} {bnds : List Nat} {dim N : Nat}

theorem mem_of_lookup' {B : Type} {M : List (Nat × B)} {k : Nat} {d : B} (h : M.lookup k = some d) : (k, d) ∈ M := by
  induction M with
  | nil => simp at h
  | cons a M ih =>
    rw [List.lookup_cons] at h
    by_cases hk : k == a.1
    · rw [hk] at h
      obtain rfl : k = a.1 := by simpa using hk
      obtain rfl := Option.some.inj h
      exact List.mem_cons_self
    · rw [Bool.not_eq_true] at hk
      rw [hk] at h
      exact List.mem_cons_of_mem _ (ih h)

theorem domEls_length_le (n : Nat) (M : DMap D) (k : Nat) : (domEls (toMesh n M) k).length ≤ (visit M).length := by
  unfold domEls
  rw [lookup_toMesh]
  cases h : M.lookup k with
  | none => simp
  | some d =>
    have hm := mem_of_lookup' h
    simp only [Option.map_some, Option.getD_some, Domain.elems, ← List.map_flatten, List.length_map]
    obtain ⟨l1, l2, rfl⟩ := List.append_of_mem hm
    simp only [visit, List.flatMap_append, List.flatMap_cons, List.length_append, List.length_map]
    omega

theorem small_of (R : Ready n (toMesh n M) bnds dim N) {d : Nat} (hd : ∀ q ∈ visit M, q.2.ty.dim ≤ d) (hn : 1 ≤ n)
    (h : n ^ d * (visit M).length < 2 ^ 32 - 1) : Small (toMesh n M) N := by
  have hl : ∀ e, Holds (toMesh n M) e → e.nodes.length ≤ n ^ d := by
    intro e he
    obtain ⟨q, hq, rfl⟩ := holds_toMesh.1 he
    rw [(R.ok.els _ he).len]
    exact Nat.pow_le_pow_right hn (hd q hq)
  constructor
  · have hsub : (List.range N) ⊆ (visit M).flatMap fun q => q.2.nodes := by
      intro x hx
      obtain ⟨e, he, hxe⟩ := (R.nodes x).2 (List.mem_range.1 hx)
      obtain ⟨q, hq, rfl⟩ := holds_toMesh.1 he
      exact List.mem_flatMap.2 ⟨q, hq, hxe⟩
    have h1 := (List.subperm_of_subset List.nodup_range hsub).length_le
    rw [List.length_range, List.length_flatMap] at h1
    have h2 : ((visit M).map fun q => q.2.nodes.length).sum ≤ (visit M).length * n ^ d := by
      have := List.sum_le_card_nsmul ((visit M).map fun q => q.2.nodes.length) (n ^ d) (by
        intro x hx
        obtain ⟨q, hq, rfl⟩ := List.mem_map.1 hx
        exact hl (elemOf n q.2) (holds_toMesh.2 ⟨q, hq, rfl⟩))
      simpa using this
    rw [Nat.mul_comm] at h2
    omega
  · intro k e he
    have h1 := Nat.mul_le_mul (hl e (inDom_holds he)) (domEls_length_le n M k)
    omega

/-- Domain, type and id of an element. -/
def keyOf (q : Nat × El D) : Nat × ElType × Nat := (q.1, q.2.ty, q.2.id)

theorem keys_length {E : Type} {M' : DMap E} {N' : Nat} (hs : OMap.Sorted M) (R : Ready n (toMesh n M) bnds dim N') {K : Nat} (h : ∀ q ∈ visit M, q.2.id < K)
    (hk : (visit M').map keyOf = (visit M).map keyOf) : (visit M').length ≤ K := by
  have h1 : (visit M').length = ((visit M).map fun q => q.2.id).length := by
    rw [List.length_map, ← List.length_map (f := keyOf) (as := visit M), ← hk, List.length_map]
  rw [h1]
  refine nodup_length_le ?_ fun x hx => ?_
  · have h2 := R.ok.ids
    rw [tagged_toMesh hs, List.map_map] at h2
    exact h2
  · obtain ⟨q, hq, rfl⟩ := List.mem_map.1 hx
    exact h q hq

theorem squareBoxes_length (nx ny : Nat) (ids : Prim.SquareIds) :
    (squareBoxes nx ny ids).length = (nx - 1) * (ny - 1) + 2 * (nx - 1) + 2 * (ny - 1) := by
  simp [squareBoxes, List.length_flatMap, Nat.mul_comm, Nat.add_assoc]

theorem cubeBoxes_length (nx ny nz : Nat) (ids : Prim.CubeIds) :
    (cubeBoxes nx ny nz ids).length = (nx - 1) * (ny - 1) * (nz - 1) + 2 * ((nx - 1) * (ny - 1)) + 2 * ((nx - 1) * (nz - 1)) + 2 * ((ny - 1) * (nz - 1)) := by
  simp only [cubeBoxes, List.length_append, List.length_flatMap, List.length_map, List.length_range, List.map_const', List.sum_replicate, List.length_cons, List.length_nil, smul_eq_mul]
  ring

end Verif.MfGen
