import Verif.MfPipe.Model
import Verif.DimCheck.Model

/-!
# Model of which nodes `setValues` and `setDirichletBCValues` write to

Sources: `/repo/include/l3ster/algsys/ComputeValuesAtNodes.hpp` 208-592, `/repo/include/l3ster/mesh/LocalMeshView.hpp` 118-203 and 495-497.

Averaging and communication are modelled in `NodeVals` (C59) for given entries; here it is the entries: the nodes of elements (or of their
sides) at which the overloads store a constant or a kernel's values.  A point is a node together with the element, side and position which
determine what a kernel evaluates to.  The threads' order of execution is left out: lists are meant up to permutation.
-/
namespace Verif.Reach
open Verif Verif.Elem Verif.Mesh Verif.LocView Verif.MfPipe

/-- `invalid_dim`, Typedefs.h 12 and 28: the largest `std::uint_fast8_t`. -/
def invalidDim : Nat := 255

/-- `LocalMeshView`: dimensions of all domains of the part it was made of, and the elements of those which are not boundaries.
(LocalMeshView.hpp 141-144) -/
structure View where
  dims : List (Nat × Nat)
  doms : List (Nat × List (List VElem))

/-- Constructor, LocalMeshView.hpp 460-497; the last loop fills `m_dims`, boundaries included. -/
def mkView (full : Own.SegOwn) (part : Split.Part) (ord : Nat → Orders) : Option View :=
  (makeView full part ord).map fun v => ⟨part.doms.map fun d => (d.1, d.2.dim.getD invalidDim), v⟩

/-- `getDomainDim`, LocalMeshView.hpp 121-128. -/
def View.dim (v : View) (k : Nat) : Option Nat := v.dims.lookup k

/-- `checkDomainDims`, LocalMeshView.hpp 129-138. -/
def View.check (v : View) (ids : List Nat) (dim : Nat) : Bool := ids.all fun k => (v.dim k).getD dim == dim

/-- `getMaxDim`, LocalMeshView.hpp 139. -/
def View.maxDim (v : View) : Nat := if v.dims = [] then invalidDim else (v.dims.map (·.2)).foldl max 0

/-- `visit` of listed domains, LocalMeshView.hpp 147-165. -/
def View.visit (v : View) (ids : List Nat) : List VElem := ids.flatMap (visitView v.doms)

/-- `visitBoundaries`, LocalMeshView.hpp 174-192: all elements (167-172), those sides of theirs which are on listed boundaries. -/
def View.visitBnd (v : View) (ids : List Nat) : List (VElem × Nat) :=
  (v.visit (v.doms.map (·.1))).flatMap fun a => (a.loc.boundaries.filter fun sb => decide (sb.2 ∈ ids)).map fun sb => (a, sb.1)

/-- A node visited at an element: the node, what determines the values of a kernel there. (ComputeValuesAtNodes.hpp 420-426, 565-572) -/
structure Pt where
  node : Nat
  ty : ElType
  n : Nat
  id : Nat
  side : Option Nat
  ind : Nat
  deriving DecidableEq, Repr

/-- The nodes of an element, in order. (ComputeValuesAtNodes.hpp 294-295, 420) -/
def elPts (nodes : List Nat) (t : ElType) (n id : Nat) : List Pt := nodes.zipIdx.map fun p => ⟨p.1, t, n, id, none, p.2⟩

/-- The nodes of a side, in the order of `getSideNodeInds`. (ComputeValuesAtNodes.hpp 303-305, 541-543, 563-565) -/
def sidePts (nodes : List Nat) (t : ElType) (n id s : Nat) : List Pt :=
  ((sideNodeInds t n s).getD []).map fun i => ⟨nodes.getD i 0, t, n, id, some s, i⟩

/-- Points of a local element. (ComputeValuesAtNodes.hpp 415-420) -/
def VElem.pts (v : VElem) : List Pt := elPts v.loc.nodes v.loc.ty v.loc.n v.id

/-- Points of a side of a local element. (ComputeValuesAtNodes.hpp 556-565) -/
def vSide (a : VElem × Nat) : List Pt := sidePts a.1.loc.nodes a.1.loc.ty a.1.loc.n a.1.id a.2

/-- Points of an element of the mesh. (ComputeValuesAtNodes.hpp 340-352) -/
def gEl (e : Element) : List Pt := elPts e.nodes e.ty e.n e.id

/-- Points of a side of an element of the mesh. (ComputeValuesAtNodes.hpp 473-502) -/
def gSide (a : Element × Nat) : List Pt := sidePts a.1.nodes a.1.ty a.1.n a.1.id a.2

/-! ### Matrix-free system -/

/-- `max_dim`, ComputeValuesAtNodes.hpp 255. -/
def maxDim (vi vb : View) : Nat := max vi.maxDim vb.maxDim

/-- `has_max_dim`, ComputeValuesAtNodes.hpp 256-259. -/
def hasMax (vi vb : View) (k : Nat) : Bool := maxDim vi vb == (vi.dim k).getD (maxDim vi vb) || maxDim vi vb == (vb.dim k).getD (maxDim vi vb)

/-- `not_max_dim`, ComputeValuesAtNodes.hpp 260-263. -/
def notMax (vi vb : View) (k : Nat) : Bool := maxDim vi vb != (vi.dim k).getD invalidDim && maxDim vi vb != (vb.dim k).getD invalidDim

/-- Whether the ids are taken for domains (`true`) or boundaries; `none` when the assertion throws. (ComputeValuesAtNodes.hpp 264-266) -/
def mode (vi vb : View) (ids : List Nat) : Option Bool :=
  if xor (ids.all (hasMax vi vb)) (ids.all (notMax vi vb)) then some (ids.all (hasMax vi vb)) else none

/-- `do_mesh`, ComputeValuesAtNodes.hpp 288-309. -/
def doMesh (asDomains : Bool) (v : View) (ids : List Nat) : List Pt :=
  if asDomains then (v.visit ids).flatMap VElem.pts else (v.visitBnd ids).flatMap vSide

/-- The overload for constants, ComputeValuesAtNodes.hpp 243-314: points of interior and border elements. -/
def mfConst (vi vb : View) (ids : List Nat) : Option (List Pt × List Pt) := (mode vi vb ids).map fun b => (doMesh b vi ids, doMesh b vb ids)

/-- Elements the visitor of a domain kernel does not skip. (ComputeValuesAtNodes.hpp 413) -/
def mfDomPts (v : View) (ids : List Nat) (dim : Nat) : List Pt := ((v.visit ids).filter fun a => decide (dim = a.loc.ty.dim)).flatMap VElem.pts

/-- The overload for domain kernels, ComputeValuesAtNodes.hpp 371-447. -/
def mfDom (vi vb : View) (ids : List Nat) (dim : Nat) : Option (List Pt × List Pt) :=
  if vi.check ids dim && vb.check ids dim then some (mfDomPts vi ids dim, mfDomPts vb ids dim) else none

/-- Sides the visitor of a boundary kernel does not skip. (ComputeValuesAtNodes.hpp 554) -/
def mfBndPts (v : View) (ids : List Nat) (dim : Nat) : List Pt := ((v.visitBnd ids).filter fun a => decide (dim = a.1.loc.ty.dim)).flatMap vSide

/-- The overload for boundary kernels, ComputeValuesAtNodes.hpp 508-592. -/
def mfBnd (vi vb : View) (ids : List Nat) (dim : Nat) : Option (List Pt × List Pt) :=
  if vi.check ids (dim - 1) && vb.check ids (dim - 1) then some (mfBndPts vi ids dim, mfBndPts vb ids dim) else none

/-- The two views of the system of a rank. (MatrixFreeSystem.hpp 992-995) -/
def views (kinds : List (ElType × Nat)) (q : Split.Part) (interior : Element → Bool) (ord : Bool → Nat → List Element → List Element)
    (ords : Bool → Nat → Orders) : Option (View × View) :=
  (Split.split kinds q interior ord).bind fun tf => (mkView q.own tf.1 (ords true)).bind fun vi => (mkView q.own tf.2 (ords false)).map fun vb => (vi, vb)

/-! ### Assembled system -/

/-- The overload for constants, ComputeValuesAtNodes.hpp 208-241. -/
def asmConst (m : DomMap) (ids : List Nat) : List Pt := (visitIds m ids).flatMap gEl

/-- The overload for domain kernels, ComputeValuesAtNodes.hpp 316-369. -/
def asmDom (m : DomMap) (ids : List Nat) (dim : Nat) : Option (List Pt) := (DimCheck.assemble m ids dim).map fun l => l.flatMap gEl

/-- The overload for boundary kernels, ComputeValuesAtNodes.hpp 449-506. -/
def asmBnd (m : DomMap) (ids : List Nat) (dim : Nat) : Option (List Pt) := (DimCheck.assembleBnd m ids dim).map fun l => l.flatMap gSide

end Verif.Reach
