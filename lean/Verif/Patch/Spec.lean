import Verif.Patch.Model
import Verif.Lsq.Props

/-!
# C109: exact solutions in the finite element space are found
-/
namespace Verif.Patch
open Verif.Elem Verif.Mapping Verif.Quad Finset

/-- The reference element. -/
def cube (d : Nat) : Set (Fin d → ℝ) := Set.Icc (fun _ => -1) fun _ => 1

/-- The points of an element. -/
def body (t : ElType) (vert : Nat → Nat → ℝ) : Set (Fin t.dim → ℝ) := phys t vert '' cube t.dim

/-- On the element `g` is a function of the finite element space with `n` nodes per direction: read through the geometric map it is a
polynomial of degree below `n` in each reference coordinate. -/
def InSpace (t : ElType) (n : Nat) (vert : Nat → Nat → ℝ) (g : (Fin t.dim → ℝ) → ℝ) : Prop :=
  ∃ ts : List (ℝ × (Fin t.dim → Fin n)), ∀ q ∈ cube t.dim,
    g (phys t vert q) = (ts.map fun m => m.1 * ∏ k, q k ^ (m.2 k : Nat)).sum

/-- Reference coordinates of the quadrature points used for the pair, with the normal for boundary kernels. -/
def IsPoint {t : ElType} (e : PElem t) (q : Fin t.dim → ℝ) (normal : Option (Fin t.dim → ℝ)) : Prop :=
  match e.side with
  | none => normal = none ∧ ∃ pw ∈ AsmOrd.elemRule t e.rule, ∀ k : Fin t.dim, q k = pw.1 k
  | some s => ∃ uw ∈ Flux.sideRule t e.rule, sidePoint t s uw.1 = some q ∧ ∃ v, boundaryNormal t s (jacobiMat t e.vert (emb q)) = some v ∧ normal = some v

/-- At the quadrature points of the pair the equations of the kernel hold for the fields `u` (right-hand side number `c`); the derivatives are
taken within the element, so the fields may have kinks between elements. -/
def Exact {t : ElType} (e : PElem t) (u : Nat → (Fin t.dim → ℝ) → ℝ) (c : Nat) : Prop :=
  ∀ q normal, IsPoint e q normal → ∃ du : Nat → (Fin t.dim → ℝ) →L[ℝ] ℝ,
    (∀ v < e.nu, HasFDerivWithinAt (u (e.unk v)) (du v) (body t e.vert) (phys t e.vert q)) ∧
    ∀ i < e.us, (∑ v ∈ range e.nu, (e.eval (emb q) normal).op 0 i v * u (e.unk v) (phys t e.vert q)) +
      (∑ d : Fin t.dim, ∑ v ∈ range e.nu, (e.eval (emb q) normal).op (d + 1) i v * du v (Pi.single d 1)) = (e.eval (emb q) normal).F i c

/-- The pairs of all ranks give the local systems of `ranks`: nothing was thrown and every side exists; nodes are distinct points of [-1, 1],
rules are the library's, every node has one dof per unknown, and boundary views lie on elements that are not degenerate there (domain kernels check
that themselves). -/
structure Assembles {t : ElType} (nr : Nat) (pel : Nat → List (PElem t)) (ranks : Nat → Lsq.LRank) : Prop where
  elems : ∀ q < nr, (pel q).mapM PElem.toL = some (ranks q).elems
  pos : ∀ q < nr, ∀ e ∈ pel q, 0 < e.n
  inj : ∀ q < nr, ∀ e ∈ pel q, Set.InjOn e.x (Set.Iio e.n)
  nodes : ∀ q < nr, ∀ e ∈ pel q, ∀ i < e.n, -1 ≤ e.x i ∧ e.x i ≤ 1
  rule : ∀ q < nr, ∀ e ∈ pel q, ∃ qo, IsReferenceRule qo e.rule
  dofs : ∀ q < nr, ∀ e ∈ pel q, e.dofs.length = e.n ^ t.dim * e.nu
  sides : ∀ q < nr, ∀ e ∈ pel q, e.side ≠ none → ∀ p normal, IsPoint e p normal → (jacobiMat t e.vert (emb p)).det ≠ 0

/-- `X` holds the values of the fields `u` at the nodes (`nodePhysicalLocation`). -/
def Nodal {t : ElType} (nr : Nat) (pel : Nat → List (PElem t)) (ranks : Nat → Lsq.LRank) (u : Nat → (Fin t.dim → ℝ) → ℝ) (X : Nat → ℝ) : Prop :=
  ∀ q < nr, ∀ e ∈ pel q, ∀ b < e.n ^ t.dim, ∀ v < e.nu,
    X ((ranks q).l2g.getD (e.dofs.getD (b * e.nu + v) 0) 0) = u (e.unk v) fun k => nodePhysicalLocation t e.vert (nodeLoc e.n e.x b) k

end Verif.Patch
