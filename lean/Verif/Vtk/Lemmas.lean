import Verif.Vtk.Model
import Verif.Vtk.Spec
import Mathlib.Tactic.Ring
import Mathlib.Tactic.Linarith
import Mathlib.Algebra.Group.Action.Defs
import Mathlib.Algebra.BigOperators.Group.List.Basic
/-! Helper lemmas for the VTK topology. -/
namespace Verif.Vtk
open Verif Verif.Elem Spec

theorem flatMap_flatMap_range {β : Type} (m k : Nat) (f : Nat → Nat → List β) :
    ((List.range m).flatMap fun i => (List.range k).flatMap fun j => f i j) =
      (List.range (m * k)).flatMap fun q => f (q / k) (q % k) := by
  have h : ((List.range m).flatMap fun i => (List.range k).flatMap fun j => f i j) =
      (Tensor.pairs m k).flatMap fun p => f p.1 p.2 := by
    simp only [Tensor.pairs, List.flatMap_assoc, List.flatMap_map]
  rw [h, Tensor.pairs_eq, List.flatMap_map]

theorem numSubels_eq (t : ElType) (n : Nat) : numSubels t n = (n - 1) ^ t.dim := by
  cases t <;> simp [numSubels, ElType.dim, pow_succ]

theorem numSubelNodes_eq (t : ElType) : numSubelNodes t = (corners t).length := by cases t <;> rfl

theorem flatMap_congr' {α β : Type} {l : List α} {f g : α → List β} (h : ∀ x ∈ l, f x = g x) : l.flatMap f = l.flatMap g := by
  rw [List.flatMap_def, List.flatMap_def, List.map_congr_left h]

/-- The loops visit the cells of the grid in order and list their corners in VTK order. -/
theorem subIdx_eq (t : ElType) (n : Nat) : subIdx t n = (cells t n).flatten := by
  unfold cells
  rw [← List.flatMap_def]
  cases t with
  | line =>
    simp only [subIdx, ElType.dim, pow_one]
    refine flatMap_congr' fun q hq => ?_
    have := List.mem_range.1 hq
    simp [corners, cellCoords, gridIndex, Nat.mod_eq_of_lt this]
  | quad =>
    simp only [subIdx, ElType.dim, pow_two]
    rw [flatMap_flatMap_range]
    refine flatMap_congr' fun q hq => ?_
    have hq := List.mem_range.1 hq
    have hm : 0 < n - 1 := by
      rcases Nat.eq_zero_or_pos (n - 1) with h | h
      · rw [h] at hq; simp at hq
      · exact h
    have h1 : q / (n - 1) < n - 1 := Nat.div_lt_of_lt_mul hq
    simp only [corners, cellCoords, gridIndex, List.map_cons, List.map_nil, List.zipWith_cons_cons, List.zipWith_nil_left,
      Nat.mod_eq_of_lt h1, List.cons.injEq, and_true]
    refine ⟨?_, ?_, ?_, ?_⟩ <;> ring
  | hex =>
    simp only [subIdx, ElType.dim, pow_succ, pow_zero, one_mul]
    have e : ∀ layer : Nat, ((List.range (n - 1)).flatMap fun row => (List.range (n - 1)).flatMap fun col =>
        [layer * (n * n) + row * n + col, layer * (n * n) + row * n + col + 1,
         layer * (n * n) + row * n + col + n + 1, layer * (n * n) + row * n + col + n,
         layer * (n * n) + row * n + col + n * n, layer * (n * n) + row * n + col + 1 + n * n,
         layer * (n * n) + row * n + col + n + 1 + n * n, layer * (n * n) + row * n + col + n + n * n]) = _ :=
      fun layer => flatMap_flatMap_range (n - 1) (n - 1) _
    simp only [e]
    rw [flatMap_flatMap_range, ← Nat.mul_assoc]
    refine flatMap_congr' fun q hq => ?_
    have hq := List.mem_range.1 hq
    have hm : 0 < n - 1 := by
      rcases Nat.eq_zero_or_pos (n - 1) with h | h
      · rw [h] at hq; simp at hq
      · exact h
    have h1 : q / (n - 1) / (n - 1) < n - 1 := by
      rw [Nat.div_div_eq_div_mul]; exact Nat.div_lt_of_lt_mul hq
    have h2 : q % ((n - 1) * (n - 1)) / (n - 1) = q / (n - 1) % (n - 1) := Nat.mod_mul_right_div_self ..
    have h3 : q % ((n - 1) * (n - 1)) % (n - 1) = q % (n - 1) := Nat.mod_mul_left_mod ..
    simp only [corners, cellCoords, gridIndex, List.map_cons, List.map_nil, List.zipWith_cons_cons, List.zipWith_nil_left,
      Nat.mod_eq_of_lt h1, List.cons.injEq, and_true, h2, h3, ← Nat.div_div_eq_div_mul]
    refine ⟨?_, ?_, ?_, ?_, ?_, ?_, ?_, ?_⟩ <;> ring

theorem cellCoords_lt {m : Nat} (hm : 0 < m) (d q : Nat) : ∀ x ∈ cellCoords m d q, x < m := by
  induction d generalizing q with
  | zero => simp [cellCoords]
  | succ d ih =>
    intro x hx
    rcases List.mem_cons.1 hx with rfl | hx
    · exact Nat.mod_lt _ hm
    · exact ih _ x hx

theorem cellCoords_length (m d q : Nat) : (cellCoords m d q).length = d := by
  induction d generalizing q with
  | zero => rfl
  | succ d ih => simp [cellCoords, ih]

theorem gridIndex_lt {n : Nat} (xs : List Nat) (h : ∀ x ∈ xs, x < n) : gridIndex n xs < n ^ xs.length := by
  induction xs with
  | nil => simp [gridIndex]
  | cons x xs ih =>
    rw [gridIndex, List.length_cons, pow_succ']
    exact Tensor.lt_mul_of_digits (h x (by simp)) (ih fun y hy => h y (by simp [hy]))

theorem gridIndex_cellCoords {m : Nat} (hm : 0 < m) (d q : Nat) (hq : q < m ^ d) : gridIndex m (cellCoords m d q) = q := by
  induction d generalizing q with
  | zero => simp at hq; simp [cellCoords, gridIndex, hq]
  | succ d ih =>
    rw [cellCoords, gridIndex, ih _ (Nat.div_lt_of_lt_mul (by rwa [← pow_succ'])), Nat.mod_add_div]

theorem cellCoords_gridIndex {m : Nat} (xs : List Nat) (h : ∀ x ∈ xs, x < m) : cellCoords m xs.length (gridIndex m xs) = xs := by
  induction xs with
  | nil => rfl
  | cons x xs ih =>
    have := Tensor.two_digits (n := m) (y := gridIndex m xs) (h x (by simp))
    rw [List.length_cons, cellCoords, gridIndex, this.1, this.2, ih fun y hy => h y (by simp [hy])]

/-- All positions used lie inside the element. -/
theorem cells_lt (t : ElType) (n : Nat) : ∀ c ∈ cells t n, ∀ i ∈ c, i < n ^ t.dim := by
  intro c hc i hi
  simp only [cells, List.mem_map, List.mem_range] at hc
  obtain ⟨q, hq, rfl⟩ := hc
  obtain ⟨o, ho, rfl⟩ := List.mem_map.1 hi
  have hm : 0 < n - 1 := by
    rcases Nat.eq_zero_or_pos (n - 1) with h | h
    · rw [h] at hq; cases t <;> simp [ElType.dim] at hq
    · exact h
  have ho' : o.length = t.dim ∧ ∀ x ∈ o, x ≤ 1 := by
    clear hi
    revert ho; revert o; cases t <;> decide
  have hl : (List.zipWith (· + ·) (cellCoords (n - 1) t.dim q) o).length = t.dim := by
    rw [List.length_zipWith, cellCoords_length, ho'.1, Nat.min_self]
  have h := gridIndex_lt (n := n) (List.zipWith (· + ·) (cellCoords (n - 1) t.dim q) o) (by
    intro x hx
    obtain ⟨k, hk, rfl⟩ := List.mem_iff_getElem.1 hx
    have hk' := hk
    rw [List.length_zipWith] at hk'
    rw [List.getElem_zipWith]
    have a := cellCoords_lt hm t.dim q _ (List.getElem_mem (l := cellCoords (n - 1) t.dim q) (n := k) (by omega))
    have b := ho'.2 _ (List.getElem_mem (l := o) (n := k) (by omega))
    omega)
  rwa [hl] at h

/-! ### Reading back -/

/-- Running sums. -/
def cum : Nat → List Nat → List Nat
  | _, [] => []
  | off, s :: ss => (off + s) :: cum (off + s) ss

theorem cum_append (off : Nat) (a b : List Nat) : cum off (a ++ b) = cum off a ++ cum (off + a.sum) b := by
  induction a generalizing off with
  | nil => simp [cum]
  | cons s a ih => simp [cum, ih, Nat.add_assoc]

theorem readCells_cum (cs : List (Nat × List Nat)) (pre : List Nat) :
    readCells (pre ++ (cs.map Prod.snd).flatten) pre.length (cum pre.length (cs.map fun c => c.2.length)) (cs.map Prod.fst) = cs := by
  induction cs generalizing pre with
  | nil => rfl
  | cons c cs ih =>
    simp only [List.map_cons, cum, readCells, List.flatten_cons]
    have h := ih (pre ++ c.2)
    rw [List.append_assoc, List.length_append] at h
    rw [h]
    simp [List.take_append]

theorem genOffsets_eq (sz k off : Nat) (h : off + k * sz < 2 ^ 32) :
    genOffsets sz k off = (cum off (List.replicate k sz), off + k * sz) := by
  induction k generalizing off with
  | zero => simp [genOffsets, cum]
  | succ k ih =>
    have e : off + (k + 1) * sz = off + sz + k * sz := by ring
    rw [e] at h
    have hm : (off + sz) % 2 ^ 32 = off + sz := Nat.mod_eq_of_lt (by omega)
    rw [genOffsets, hm, ih _ h, List.replicate_succ, cum, e]

/-- The cells of an element as a reader should see them. -/
def elCells (own : Own.SegOwn) (e : El) : List (Nat × List Nat) :=
  (cells e.t e.n).map fun c => (code e.t, c.map fun i => own.getLocal (e.nodes.getD i 0))

theorem cells_length (t : ElType) (n : Nat) : (cells t n).length = (n - 1) ^ t.dim := by simp [cells]

theorem cell_length (t : ElType) (n : Nat) : ∀ c ∈ cells t n, c.length = numSubelNodes t := by
  intro c hc
  obtain ⟨q, _, rfl⟩ := List.mem_map.1 hc
  rw [List.length_map, numSubelNodes_eq]

theorem mapM_some {α β : Type} (l : List α) (f : α → Option β) (g : α → β) (h : ∀ x ∈ l, f x = some (g x)) : l.mapM f = some (l.map g) := by
  induction l with
  | nil => rfl
  | cons a l ih =>
    rw [List.mapM_cons, h a (by simp), ih fun x hx => h x (by simp [hx])]; rfl

theorem subtopo_eq (e : El) (h : e.nodes.length = e.n ^ e.t.dim) :
    subtopo e = some ((cells e.t e.n).flatten.map fun i => e.nodes.getD i 0) := by
  rw [subtopo, subIdx_eq]
  refine mapM_some _ _ _ fun i hi => ?_
  obtain ⟨c, hc, hi⟩ := List.mem_flatten.1 hi
  have := cells_lt e.t e.n c hc i hi
  rw [List.getD_eq_getElem?_getD, List.getElem?_eq_getElem (by omega)]; rfl

/-- Total number of connectivity entries. -/
def entries (els : List El) : Nat := (els.map fun e => numSubels e.t e.n * numSubelNodes e.t).sum

theorem buildTopo_eq (own : Own.SegOwn) (els : List El) (hn : ∀ e ∈ els, e.nodes.length = e.n ^ e.t.dim)
    (hl : ∀ e ∈ els, ∀ i ∈ e.nodes, own.getLocal i < 2 ^ 32) (cs : List (Nat × List Nat))
    (hb : (cs.map fun c => c.2.length).sum + entries els < 2 ^ 32) :
    els.foldlM (processElement own) ⟨(cs.map Prod.snd).flatten, cum 0 (cs.map fun c => c.2.length), cs.map Prod.fst,
        (cs.map fun c => c.2.length).sum⟩ =
      some (let ds := cs ++ els.flatMap (elCells own)
        ⟨(ds.map Prod.snd).flatten, cum 0 (ds.map fun c => c.2.length), ds.map Prod.fst, (ds.map fun c => c.2.length).sum⟩) := by
  induction els generalizing cs with
  | nil => simp
  | cons e els ih =>
    have hs := subtopo_eq e (hn e (by simp))
    have hrep : (elCells own e).map (fun c => c.2.length) = List.replicate (numSubels e.t e.n) (numSubelNodes e.t) := by
      rw [List.eq_replicate_iff]
      refine ⟨by simp [elCells, cells_length, numSubels_eq], fun b hb => ?_⟩
      obtain ⟨p, hp, rfl⟩ := List.mem_map.1 hb
      obtain ⟨c, hc, rfl⟩ := List.mem_map.1 hp
      simpa using cell_length e.t e.n c hc
    have hsum : ((elCells own e).map fun c => c.2.length).sum = numSubels e.t e.n * numSubelNodes e.t := by
      rw [hrep, List.sum_replicate, smul_eq_mul]
    have hfst : (elCells own e).map Prod.fst = List.replicate (numSubels e.t e.n) (subelCellType e.t) := by
      rw [List.eq_replicate_iff]
      refine ⟨by simp [elCells, cells_length, numSubels_eq], fun b hb => ?_⟩
      obtain ⟨p, hp, rfl⟩ := List.mem_map.1 hb
      obtain ⟨c, hc, rfl⟩ := List.mem_map.1 hp
      cases e.t <;> rfl
    have hconn : ((elCells own e).map Prod.snd).flatten =
        ((cells e.t e.n).flatten.map fun i => e.nodes.getD i 0).map fun i => own.getLocal i % 2 ^ 32 := by
      rw [elCells, List.map_map, List.map_map, List.map_flatten]
      refine congrArg _ (List.map_congr_left fun c hc => List.map_congr_left fun i hi => ?_)
      have hlt := cells_lt e.t e.n c hc i hi
      have hmem : e.nodes.getD i 0 ∈ e.nodes := by
        rw [List.getD_eq_getElem?_getD, List.getElem?_eq_getElem (by rw [hn e (by simp)]; exact hlt)]
        exact List.getElem_mem _
      exact (Nat.mod_eq_of_lt (hl e (by simp) _ hmem)).symm
    rw [entries, List.map_cons, List.sum_cons] at hb
    rw [List.foldlM_cons, processElement, hs]
    have hg := genOffsets_eq (numSubelNodes e.t) (numSubels e.t e.n) (cs.map fun c => c.2.length).sum (by omega)
    have := ih (fun e' he' => hn e' (by simp [he'])) (fun e' he' => hl e' (by simp [he'])) (cs ++ elCells own e)
      (by rw [List.map_append, List.sum_append, hsum, entries]; omega)
    rw [List.map_append, List.map_append, List.map_append, List.flatten_append, List.sum_append, hfst, hconn, hrep,
      cum_append, List.sum_replicate, smul_eq_mul, Nat.zero_add] at this
    rw [List.flatMap_cons, ← List.append_assoc, ← this]
    simp only [Option.map_some, hg]
    rfl

theorem localTopoSize_eq (els : List El) : localTopoSize els = ((els.map fun e => numSubels e.t e.n).sum, entries els) := by
  have key : ∀ (els : List El) (a : Nat × Nat),
      els.foldl (fun a e => (a.1 + numSubels e.t e.n, a.2 + numSubels e.t e.n * numSubelNodes e.t)) a =
        (a.1 + (els.map fun e => numSubels e.t e.n).sum, a.2 + entries els) := by
    intro els
    induction els with
    | nil => intro a; simp [entries]
    | cons e els ih => intro a; simp [ih, entries, Nat.add_assoc]
  simpa [localTopoSize] using key els (0, 0)

end Verif.Vtk
