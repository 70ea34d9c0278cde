import Verif.Dual.Model

/-! # What METIS requires and promises (METIS 5 manual, 5.1 "Graph data structure", 5.6 "Mesh data structure", `METIS_MeshToDual`) -/
namespace Verif.Dual
open Verif Verif.Elem Verif.Mesh

/-- List number `i` of lists stored one after another. -/
def seg (ptr ind : List Nat) (i : Nat) : List Nat := (ind.drop (ptr.getD i 0)).take (ptr.getD (i + 1) 0 - ptr.getD i 0)

/-- `n` lists stored one after another. -/
structure IsCsr (n : Nat) (ptr ind : List Nat) : Prop where
  len : ptr.length = n + 1
  first : ptr.getD 0 0 = 0
  mono : ∀ i, i < n → ptr.getD i 0 ≤ ptr.getD (i + 1) 0
  last : ptr.getD n 0 = ind.length

/-- Valid input: all numbers fit, nodes are numbered from 0 to `nn - 1`. -/
structure MetisIn (maxId ne : Nat) (nn : Int) (eptr eind : List Nat) : Prop where
  csr : IsCsr ne eptr eind
  node : ∀ v ∈ eind, (v : Int) < nn
  fits : ne ≤ maxId ∧ 0 ≤ nn ∧ nn ≤ maxId ∧ eind.length ≤ maxId ∧ ∀ v ∈ eind, v ≤ maxId

/-- The output is a graph of the elements in which at least those with two common nodes are adjacent.  (METIS also joins smaller elements with fewer common nodes.) -/
structure MetisOut (ne : Nat) (eptr eind xadj adjncy : List Nat) : Prop where
  csr : IsCsr ne xadj adjncy
  range : ∀ j ∈ adjncy, j < ne
  common : ∀ i j, i < ne → j < ne → i ≠ j → (∃ u v, u ≠ v ∧ u ∈ seg eptr eind i ∧ u ∈ seg eptr eind j ∧ v ∈ seg eptr eind i ∧ v ∈ seg eptr eind j) → j ∈ seg xadj adjncy i

/-- METIS keeps its promise. -/
def MetisOk (maxId : Nat) (metis : Nat → Int → List Nat → List Nat → Option (List Nat × List Nat)) : Prop :=
  ∀ ne nn eptr eind, MetisIn maxId ne nn eptr eind → ∃ xadj adjncy, metis ne nn eptr eind = some (xadj, adjncy) ∧ MetisOut ne eptr eind xadj adjncy

/-- The elements of a mesh. -/
def Has (m : DomMap) (e : Element) : Prop := e ∈ allEls m

/-- An unpartitioned mesh with `N` nodes, within the limits checked by the code (MeshUtils.hpp 52-55, 63): vectors of elements are sorted by id, ids are consecutive from 0, nodes are `0, ..., N - 1`, numbers fit `idx_t`. -/
structure Whole (maxId : Nat) (m : DomMap) (N : Nat) : Prop where
  sorted : ∀ d ∈ m, ∀ v ∈ d.2.vecs, (v.map (·.id)).Pairwise (· < ·)
  ids : ((allEls m).map (·.id)).Perm (List.range (allEls m).length)
  node : ∀ e, Has m e → ∀ v ∈ e.nodes, v < N
  max : maxId < 2 ^ 63
  els : (allEls m).length + 1 ≤ maxId
  nodes : N ≤ maxId + 1
  topo : ((allEls m).map fun e => e.nodes.length).sum ≤ maxId

/-- The graph connects elements with two common nodes, and its edges lead to elements of the mesh. -/
def IsDual (m : DomMap) (g : Graph) : Prop :=
  ∀ e, Has m e → ∃ l, g.adjacent e.id = some l ∧ (∀ j ∈ l, ∃ e', Has m e' ∧ e'.id = j) ∧
    ∀ e', Has m e' → e'.id ≠ e.id → (∃ u v, u ≠ v ∧ u ∈ e.nodes ∧ u ∈ e'.nodes ∧ v ∈ e.nodes ∧ v ∈ e'.nodes) → e'.id ∈ l

/-- **C143**: the dual graph of every whole mesh is computed. -/
def C143Statement : Prop :=
  ∀ maxId metis m N, MetisOk maxId metis → Whole maxId m N → ∃ g, computeDual maxId metis m (List.range N) [] = .ok g ∧ IsDual m g

end Verif.Dual
