import Verif.NodeOrd.Model
import Mathlib.Data.Set.Card

/-! # Specification vocabulary for node ordering and node weights -/
namespace Verif.NodeOrd
open Verif Verif.Mesh Verif.Own

/-- `x` is the node at a position of `e` that lies on no side of the element. -/
def Interior (e : Element) (x : Nat) : Prop :=
  ∃ i, i < Elem.nNodes e.ty e.n ∧ (∀ side ∈ Elem.table e.ty e.n, i ∉ side) ∧ e.nodes.getD i 0 = x

/-- `e` belongs to a domain of the largest dimension of the mesh. -/
def TopDim (m : DomMap) (e : Element) : Prop :=
  ∃ p ∈ m, e ∈ p.2.elems ∧ ∀ q ∈ m, dimOf q.2 ≤ dimOf p.2

/-- The interior nodes of an element, position by position. -/
def interiorList (e : Element) : List Nat :=
  ((List.range (Elem.nNodes e.ty e.n)).filter fun i => decide (∀ side ∈ Elem.table e.ty e.n, i ∉ side)).map
    fun i => e.nodes.getD i 0

/-- All occurrences of interior nodes in the elements of the largest dimension. -/
def interiorOccurrences (m : DomMap) : List Nat :=
  (m.filter fun p => decide (∀ q ∈ m, dimOf q.2 ≤ dimOf p.2)).flatMap fun p => p.2.elems.flatMap interiorList

/-- Dof `d` is defined at node `x`: some definition with the dof has a domain with an element with the node. -/
def ActiveAt (m : DomMap) (defs : List DomDef) (x d : Nat) : Prop :=
  ∃ df ∈ defs, df.dofs[d]? = some true ∧
    ∃ dom ∈ df.domains, ∃ D, m.lookup dom = some D ∧ ∃ e ∈ D.elems, x ∈ e.nodes

end Verif.NodeOrd
