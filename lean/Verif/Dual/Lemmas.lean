import Verif.Dual.Spec
import Verif.Mesh.Props

/-! # The arrays given to METIS -/
namespace Verif.Dual
open Verif Verif.Elem Verif.Mesh

/-- Offsets of lists stored one after another. -/
def offs (ns : Nat → List Nat) (i : Nat) : Nat := ((List.range i).flatMap ns).length

theorem offs_succ (ns : Nat → List Nat) (i : Nat) : offs ns (i + 1) = offs ns i + (ns i).length := by
  simp [offs, List.range_succ]

theorem getD_offs (ns : Nat → List Nat) {n i : Nat} (hi : i ≤ n) : ((List.range (n + 1)).map (offs ns)).getD i 0 = offs ns i := by
  rw [List.getD_eq_getElem?_getD, List.getElem?_map, List.getElem?_range (by omega)]; rfl

theorem toMetis_eq {find : Nat → Option Element} {ns : Nat → List Nat} (n : Nat) (h : ∀ i, i < n → ∃ e, find i = some e ∧ e.nodes = ns i) :
    toMetis find n = some ((List.range (n + 1)).map (offs ns), (List.range n).flatMap ns) := by
  induction n with
  | zero => rfl
  | succ n ih =>
    have ih := ih fun i hi => h i (by omega)
    unfold toMetis at ih ⊢
    rw [List.range_succ, List.foldlM_append, ih]
    obtain ⟨e, h1, h2⟩ := h n (by omega)
    change Option.bind (some _) _ = _
    rw [Option.bind_some, List.foldlM_cons, h1]
    change some _ = some _
    congr 1
    refine Prod.ext ?_ ?_
    · change ((List.range (n + 1)).map (offs ns)) ++ [_] = _
      rw [List.range_succ (n := n + 1), List.map_append, h2]
      congr 2
      rw [List.range_succ, List.map_append]
      simp [offs_succ]
    · change _ ++ e.nodes = _
      rw [h2]
      simp

theorem isCsr_offs (ns : Nat → List Nat) (n : Nat) : IsCsr n ((List.range (n + 1)).map (offs ns)) ((List.range n).flatMap ns) := by
  refine ⟨by simp, by rw [getD_offs ns (by omega)]; rfl, fun i hi => ?_, by rw [getD_offs ns (Nat.le_refl _)]; rfl⟩
  rw [getD_offs ns (by omega), getD_offs ns (by omega), offs_succ]; omega

theorem seg_offs (ns : Nat → List Nat) {n i : Nat} (hi : i < n) : seg ((List.range (n + 1)).map (offs ns)) ((List.range n).flatMap ns) i = ns i := by
  unfold seg
  rw [getD_offs ns (by omega), getD_offs ns (by omega), offs_succ, Nat.add_sub_cancel_left]
  obtain ⟨d, rfl⟩ := Nat.exists_eq_add_of_le (show i + 1 ≤ n from hi)
  rw [List.range_add, List.flatMap_append, List.range_succ, List.flatMap_append, List.append_assoc]
  rw [show offs ns i = ((List.range i).flatMap ns).length from rfl, List.drop_left]
  simp

theorem has_iff {m : DomMap} {e : Element} : Has m e ↔ Holds m e := by
  unfold Has allEls Holds
  simp only [List.mem_flatMap, List.mem_flatten]

variable {maxId N : Nat} {m : DomMap}

theorem Whole.id_lt (h : Whole maxId m N) {e : Element} (he : Has m e) : e.id < (allEls m).length :=
  List.mem_range.1 (h.ids.mem_iff.1 (List.mem_map.2 ⟨e, he, rfl⟩))

theorem Whole.unique (h : Whole maxId m N) {e e' : Element} (he : Has m e) (he' : Has m e') (hid : e.id = e'.id) : e = e' :=
  List.inj_on_of_nodup_map (h.ids.nodup_iff.2 List.nodup_range) he he' hid

theorem Whole.at (h : Whole maxId m N) {i : Nat} (hi : i < (allEls m).length) : ∃ e, Has m e ∧ e.id = i := by
  obtain ⟨e, he, hid⟩ := List.mem_map.1 (h.ids.mem_iff.2 (List.mem_range.2 hi))
  exact ⟨e, he, hid⟩

theorem Whole.find (h : Whole maxId m N) {e : Element} (he : Has m e) : findId m e.id = some e := by
  have key := C21_find_id_partial m h.sorted (fun e he => by
    have h1 := h.id_lt (has_iff.2 he)
    have h2 := h.els
    have h3 := h.max
    omega) e.id
  cases hf : findId m e.id with
  | none => exact absurd ⟨e, has_iff.1 he, rfl⟩ (key.2.1 hf)
  | some e' =>
    obtain ⟨h1, h2⟩ := key.1 e' hf
    rw [h.unique (has_iff.2 h1) he h2]

/-- Nodes of the element with an id. -/
def nodesOf (m : DomMap) (i : Nat) : List Nat := ((findId m i).map (·.nodes)).getD []

theorem Whole.nodesOf (h : Whole maxId m N) {e : Element} (he : Has m e) : nodesOf m e.id = e.nodes := by
  unfold Dual.nodesOf; rw [h.find he]; rfl

theorem Whole.topo_eq (h : Whole maxId m N) : ((List.range (allEls m).length).flatMap (Dual.nodesOf m)).length = ((allEls m).map fun e => e.nodes.length).sum := by
  rw [← (h.ids.flatMap_right (Dual.nodesOf m)).length_eq, List.flatMap_map, List.length_flatMap]
  congr 1
  refine List.map_congr_left fun e he => ?_
  rw [h.nodesOf he]

theorem Whole.metisIn (h : Whole maxId m N) (hmax : N ≤ maxId) : MetisIn maxId (allEls m).length N ((List.range ((allEls m).length + 1)).map (offs (Dual.nodesOf m))) ((List.range (allEls m).length).flatMap (Dual.nodesOf m)) := by
  have hn : ∀ v ∈ (List.range (allEls m).length).flatMap (Dual.nodesOf m), v < N := by
    intro v hv
    obtain ⟨i, hi, hv⟩ := List.mem_flatMap.1 hv
    obtain ⟨e, he, rfl⟩ := h.at (List.mem_range.1 hi)
    rw [h.nodesOf he] at hv
    exact h.node e he v hv
  refine ⟨isCsr_offs _ _, fun v hv => Int.ofNat_lt.2 (hn v hv), by have := h.els; omega, by omega, by omega, by rw [h.topo_eq]; exact h.topo, fun v hv => ?_⟩
  have := hn v hv
  have := h.nodes
  omega

/-- Reading of the graph. -/
theorem adjacent_eq {n i : Nat} {xadj adjncy : List Nat} (h : IsCsr n xadj adjncy) (hi : i < n) : Graph.adjacent ⟨xadj, adjncy, n⟩ i = some (seg xadj adjncy i) := by
  have hl := h.len
  have hg : ∀ k, k ≤ n → xadj[k]? = some (xadj.getD k 0) := by
    intro k hk
    rw [List.getD_eq_getElem?_getD, List.getElem?_eq_getElem (by omega)]; rfl
  have mono : ∀ k, i + 1 + k ≤ n → xadj.getD (i + 1) 0 ≤ xadj.getD (i + 1 + k) 0 := by
    intro k
    induction k with
    | zero => intro _; exact Nat.le_refl _
    | succ k ih =>
      intro hk
      exact Nat.le_trans (ih (by omega)) (h.mono (i + 1 + k) (by omega))
  have h2 := mono (n - (i + 1)) (by omega)
  rw [show i + 1 + (n - (i + 1)) = n by omega] at h2
  unfold Graph.adjacent
  dsimp only
  rw [if_pos (by omega), hg i (by omega), hg (i + 1) (by omega), hg n (Nat.le_refl _), Option.bind_some, Option.bind_some, Option.bind_some, if_pos ⟨h.mono i hi, h2, by rw [h.last]⟩]
  rfl

theorem unpartitioned_range (hN : 0 < N) : isUnpartitioned (List.range N) [] = true ∧ (List.range N).getLast? = some (N - 1) := by
  obtain ⟨k, rfl⟩ : ∃ k, N = k + 1 := ⟨N - 1, by omega⟩
  have : (List.range (k + 1)).getLast? = some k := by rw [List.range_succ, List.getLast?_concat]
  refine ⟨?_, by rw [this]; rfl⟩
  unfold isUnpartitioned
  rw [this]
  simp

end Verif.Dual
