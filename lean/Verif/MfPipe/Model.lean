import Verif.Pipeline.Model
import Verif.LocView.Model
import Verif.SolUpd.Model

/-!
# Model of the elements a matrix-free system evaluates

Sources: `/repo/include/l3ster/algsys/MatrixFreeSystem.hpp` 158-176 (kernel maps), 270-276, 539-551, 716-785, 888-941, 969-1017, 1053-1110;
`/repo/include/l3ster/mesh/LocalMeshView.hpp` 143-160, 406-422, 460-497; `/repo/include/l3ster/mesh/SplitMesh.hpp` (area Split).

The elements of a rank are split into interior and border ones, local views are made of both, kernels are kept in maps by domain id,
and every view is visited domain by domain.  Element data (coordinates) is again represented by the element's id.  The order in which
threads process the elements does not matter here: the result is a list up to permutation.  The init maps and the eval maps are filled
and read by the same code and have one model.
-/
namespace Verif.MfPipe
open Verif Verif.Elem Verif.Mesh Verif.Dofs Verif.Lsq Verif.LocView Verif.Pipeline

/-- A `LocalElementView` with its data: the element it was made from is known by its id. (LocalMeshView.hpp 54-56, 205-231) -/
structure VElem where
  loc : LocElem
  id : Nat
  deriving DecidableEq, Repr, Inhabited

/-- `element_to_local`, LocalMeshView.hpp 470-474. -/
def toView (o : Own.SegOwn) (sm : List (Nat × List (Nat × Nat))) (e : Element) : Option VElem := (toLocal o sm e).map fun v => ⟨v, e.id⟩

/-- `make_vec_view`, LocalMeshView.hpp 484-490, as `LocView.viewVecs`, with data. -/
def viewVecs (o : Own.SegOwn) (sm : List (Nat × List (Nat × Nat))) (ord : Nat → Orders) :
    List (List Element) → Nat → Cache → Option (List (List VElem) × Nat × Cache)
  | [], k, c => some ([], k, c)
  | v :: vs, k, c =>
    (v.mapM (toView o sm)).bind fun lv =>
    (if v = [] then some ([], c) else reorder (fun a : VElem => a.loc.nodes) (ord k) lv c).bind fun r =>
    (viewVecs o sm ord vs (k + 1) r.2).map fun t => (r.1 :: t.1, t.2)

/-- The loop over domains, LocalMeshView.hpp 477-493, as `LocView.viewDomains`, with data. -/
def viewDomains (o : Own.SegOwn) (sm : List (Nat × List (Nat × Nat))) (bnds : List Nat) (ord : Nat → Orders) :
    DomMap → Nat → Cache → Option (List (Nat × List (List VElem)))
  | [], _, _ => some []
  | d :: ds, k, c =>
    if Std.binarySearch bnds d.1 then viewDomains o sm bnds ord ds k c
    else (viewVecs o sm ord d.2.vecs k c).bind fun r =>
      (viewDomains o sm bnds ord ds r.2.1 r.2.2).map fun t => (d.1, r.1) :: t

/-- Constructor of `LocalMeshView`, 460-497: elements of `part`, local numbers of the full mesh. -/
def makeView (full : Own.SegOwn) (part : Split.Part) (ord : Nat → Orders) : Option (List (Nat × List (List VElem))) :=
  viewDomains full (sidesMap part.bnds) (part.bnds.map (·.1)) ord part.doms 0 []

/-- `visit` of one domain; absent ones are passed over. (LocalMeshView.hpp 143-160) -/
def visitView (view : List (Nat × List (List VElem))) (k : Nat) : List VElem := ((view.lookup k).map List.flatten).getD []

noncomputable section

/-- The kernels in the map of domain `k`: pushed once for every time the domain is listed. (MatrixFreeSystem.hpp 732-748, 768-784) -/
def domKernels (p : Prog) (k : Nat) : List Kernel := p.kernels.flatMap fun K => (K.doms.filter (· == k)).map fun _ => K

/-- The kernels in the map of boundary `b`. (MatrixFreeSystem.hpp 732-748, 768-784) -/
def bndKernels (p : Prog) (b : Nat) : List BKernel := p.bkernels.flatMap fun K => (K.bnds.filter (· == b)).map fun _ => K

/-- Keys of the maps of boundary kernels: all domains of the rank's mesh (270-276), and those named in calls (732-748). (MatrixFreeSystem.hpp) -/
def bndKeys (p : Prog) (m : DomMap) : List Nat := m.map (·.1) ++ p.bkernels.flatMap (·.bnds)

/-- `getDofs`, MatrixFreeSystem.hpp 297-311; `ldm` is the map from local nodes to local dofs. -/
def locDofs (ldm : Nat → Nat → Option Nat) (v : VElem) (inds : List Nat) : List Nat := v.loc.nodes.flatMap fun l => inds.map fun j => (ldm l j).getD 0

/-- A domain kernel at an element. (MatrixFreeSystem.hpp 1064-1065, 1080-1081) -/
def atElem (ldm : Nat → Nat → Option Nat) (v : VElem) (K : Kernel) : LElem := ⟨locDofs ldm v K.inds, K.dims v.loc.ty v.loc.n, K.pts v.loc.ty v.loc.n v.id⟩

/-- A boundary kernel at a side of an element. (MatrixFreeSystem.hpp 545-550) -/
def atSide (ldm : Nat → Nat → Option Nat) (v : VElem) (s : Nat) (K : BKernel) : LElem :=
  ⟨locDofs ldm v K.inds, K.dims v.loc.ty v.loc.n, K.pts v.loc.ty v.loc.n v.id s⟩

/-- The body of the loop of `invokeBoundaryKernels`, MatrixFreeSystem.hpp 545-550; `none` when `at` throws. -/
def sideEvals (p : Prog) (m : DomMap) (ldm : Nat → Nat → Option Nat) (v : VElem) (sb : Nat × Nat) : Option (List LElem) :=
  if sb.2 ∈ bndKeys p m then some ((bndKernels p sb.2).map (atSide ldm v sb.1)) else none

/-- What is done at one element of domain `k`: its domain kernels, then the boundary kernels of its sides.
(`eval_border`, `eval_interior`, MatrixFreeSystem.hpp 1062-1068, 1078-1083; `init_border`, `init_interior`, 893-897, 903-907) -/
def evals (p : Prog) (m : DomMap) (ldm : Nat → Nat → Option Nat) (k : Nat) (v : VElem) : Option (List LElem) :=
  (v.loc.boundaries.mapM (sideEvals p m ldm v)).map fun bs => (domKernels p k).map (atElem ldm v) ++ bs.flatten

/-- All elements of one domain. (`visit_border_domain`, `visit_interior_domain`, MatrixFreeSystem.hpp 1060-1071, 1076-1089, 890-911) -/
def evalDomain (p : Prog) (m : DomMap) (ldm : Nat → Nat → Option Nat) (view : List (Nat × List (List VElem))) (k : Nat) : Option (List LElem) :=
  ((visitView view k).mapM (evals p m ldm k)).map List.flatten

/-- One view, over all domains of the rank's mesh. (MatrixFreeSystem.hpp 1042, 1070, 1102; 920, 933, 936) -/
def evalView (p : Prog) (m : DomMap) (ldm : Nat → Nat → Option Nat) (view : List (Nat × List (List VElem))) : Option (List LElem) :=
  ((m.map (·.1)).mapM (evalDomain p m ldm view)).map List.flatten

/-- Everything a rank evaluates, given how its mesh is split: interior elements, border elements. (constructor, MatrixFreeSystem.hpp 992-994; 1053-1105) -/
def mfEvals (kinds : List (ElType × Nat)) (p : Prog) (q : Split.Part) (interior : Element → Bool) (ldm : Nat → Nat → Option Nat)
    (ord : Bool → Nat → List Element → List Element) (ords : Bool → Nat → Orders) : Option (List LElem × List LElem) :=
  (Split.split kinds q interior ord).bind fun tf =>
  (makeView q.own tf.1 (ords true)).bind fun vi => (makeView q.own tf.2 (ords false)).bind fun vb =>
  (evalView p q.doms ldm vi).bind fun a => (evalView p q.doms ldm vb).map fun b => (a, b)

/-- `is_interior` of `splitBorderAndInterior`, MatrixFreeSystem.hpp 974-978: all dofs of the element's nodes that exist are owned. -/
def isInterior (s : Setup) (r : Nat) (e : Element) : Bool :=
  e.nodes.all fun n => (List.range s.dpn).all fun j => ((s.dofs r n j).map fun g => decide (s.base r ≤ g ∧ g < s.base r + s.numOwned r)).getD true

/-- The ingredients of `LocalDofMap` on rank `r`. (NodeToDofMap.hpp 144-163) -/
def dofSys (s : Setup) (own : Own.SegOwn) (r : Nat) : SolUpd.Sys := ⟨own, (s.dofOwn r).getD ⟨0, 0, []⟩, s.dpn, 0, s.dofs r, []⟩

/-- `m_node_dof_map(node)[component]`. (MatrixFreeSystem.hpp 306-308, NodeToDofMap.hpp 144-163) -/
def nodeDofs (s : Setup) (own : Own.SegOwn) (r : Nat) : Nat → Nat → Option Nat := fun l => (dofSys s own r).localDofs.getD l fun _ => none

/-- The mesh of a rank with the boundary views it holds. (MeshPartition.hpp 184-194) -/
def rankMesh (parts : List Split.Part) (bnds : List Nat) (ord : Nat → List Element → List Element) (r : Nat) : Option Split.Part :=
  (Split.initViews (part parts r).doms bnds ord).map fun v => ⟨(part parts r).doms, (part parts r).own, v⟩

/-- What the matrix-free system of rank `r` evaluates on its part of the mesh. (MatrixFreeSystem.hpp 983-1017, 1019-1140) -/
def rankEvals (kinds : List (ElType × Nat)) (p : Prog) (parts : List Split.Part) (bnds : List Nat) (r : Nat) (ordM : Nat → List Element → List Element)
    (ord : Bool → Nat → List Element → List Element) (ords : Bool → Nat → Orders) : Option (List LElem × List LElem) :=
  (rankMesh parts bnds ordM r).bind fun q =>
    mfEvals kinds p q (isInterior (p.setup parts) r) (nodeDofs (p.setup parts) q.own r) ord ords

end

end Verif.MfPipe
