import Verif.SetVals.Model
import Verif.NodeVals.Props

/-!
# What calls setting values should do, in terms of the undistributed mesh

`specCall` is stated on the mesh the user gave: for every node and component the average of what the kernel gives at the node in all elements (or sides) of the listed
domains (or boundaries) which have it, otherwise the value which was there before.
-/
namespace Verif.SetVals
open Verif Verif.Elem Verif.Mesh Verif.Dofs Verif.Reach Verif.NodeVals Verif.Pipeline

section
variable {K : Type} [Field K]

/-- What the points of `L` contribute to component `k.2` at node `k.1`. -/
def contribsAt (L : List Pt) (inds : List Nat) (F : Kern K) (k : Nat × Nat) : List (Nat → K) :=
  L.flatMap fun pt => (inds.zipIdx.filter fun q => decide (pt.node = k.1 ∧ q.1 = k.2)).map fun q => F.at pt q.2

/-- What a call should do to the values by (node, component) and right-hand side. -/
def specCall (m : DomMap) (c : Call K) (v : Nat × Nat → Nat → K) (k : Nat × Nat) (rhs : Nat) : K :=
  expected (v k rhs) (contribsAt ((c.pts m).getD []) c.inds c.kern k) rhs

end

/-- A sensible call: domain kernels on domains, boundary kernels on boundaries, each listed once; the kernel's dimension is that of the elements; its components are active
where it is evaluated. -/
structure Call.Ok {K : Type} (c : Call K) (p : Prog) (m : DomMap) (bnds : List Nat) : Prop where
  some : (c.pts m).isSome = true
  ids : if c.boundary then c.ids ⊆ bnds ∧ c.ids.Nodup ∧ 0 < c.dim else ∀ k ∈ c.ids, k ∉ bnds
  active : c.boundary = false → ∀ k ∈ c.ids, ∃ d ∈ p.pdef, k ∈ d.1 ∧ c.inds ⊆ d.2
  bactive : c.boundary = true → ∀ x ∈ visitIds m c.ids, ∀ e s, viewOf m x = Option.some (e, s) → ∀ k, Partition.InDom m k e → ∃ d ∈ p.pdef, k ∈ d.1 ∧ c.inds ⊆ d.2

/-- The ranks hold the values `v`: for every unknown, at its place on the rank owning it. -/
def Rep {K : Type} (p : Prog) (m : DomMap) (parts : List Split.Part) (f : Nat → Nat) (arr : Nat → Nat → Nat → K) (v : Nat × Nat → Nat → K) : Prop :=
  ∀ k, p.unknown m k → ∀ rhs, arr (dofHome (p.setup parts) (p.dof parts (f k.1, k.2))).1 (dofHome (p.setup parts) (p.dof parts (f k.1, k.2))).2 rhs = v k rhs

end Verif.SetVals
