import Verif.Flux.Model
import Verif.Lsq.Model

/-!
# Model of the local systems of a problem given by kernels

Sources: `/repo/include/l3ster/algsys/AssembleLocalSystem.hpp` 218-300 (`evalKernel` and the two overloads of `assembleLocalSystem`),
`mapping/MapReferenceToPhysical.hpp` 14-90, `basisfun/ReferenceElementBasisAtQuadrature.hpp` 38-92.

Exact real arithmetic.  All elements have one dimension (`params.dimension` is the native dimension of the element).  The time is part of the
kernel.  The local systems are the ones C54 proves to be computed from these updates, `Lsq` assembles them.
-/
namespace Verif.Patch
open Verif.Elem Verif.Mapping Verif.Quad Finset

noncomputable section

/-- What an equation kernel returns: operators (`k = 0`: value, `d + 1`: derivative in direction `d`; equation; unknown), right-hand sides
(equation, number). -/
structure KOut where
  op : Nat → Nat → Nat → ℝ
  F : Nat → Nat → ℝ

/-- A kernel: domain kernels see the external fields and the point, boundary kernels (`KernelInterface::BoundaryInput`) the normal as well. (AssembleLocalSystem.hpp 218-232) -/
abbrev Kern (dim nfld : Nat) := SumOp.KIn dim nfld → Option (Fin dim → ℝ) → KOut

/-- One (element, kernel) pair.  `n` nodes `x` per direction, `side` of a boundary view, rule of the chosen order, sizes of the kernel,
`unk v` the field which is unknown `v` of the kernel (`dof_inds`), nodal values of the external fields. (AssembleLocalSystem.hpp 234-280) -/
structure PElem (t : ElType) where
  n : Nat
  x : Nat → ℝ
  vert : Nat → Nat → ℝ
  side : Option Nat
  rule : Rule1
  nu : Nat
  us : Nat
  target : Nat
  nfld : Nat
  nv : Nat → Nat → ℝ
  kern : Kern t.dim nfld
  unk : Nat → Nat
  dofs : List Nat

variable {t : ElType}

/-- `evalKernel`, 218-232. -/
def PElem.eval (e : PElem t) (p : Nat → ℝ) (normal : Option (Fin t.dim → ℝ)) : KOut :=
  e.kern ⟨fun i => ∑ b ∈ range (e.n ^ t.dim), e.nv b i * basisFun t e.n e.x b p,
    fun d i => ∑ b ∈ range (e.n ^ t.dim), SumOp.physDer t e.n e.x e.vert p d b * e.nv b i, fun k => mapToPhysical t e.vert p k⟩ normal

/-- The update of one quadrature point. (`process_qp`, AssembleLocalSystem.hpp 247-253, 271-277) -/
def PElem.upd (e : PElem t) (p : Nat → ℝ) (normal : Option (Fin t.dim → ℝ)) (w : ℝ) : Batch.Upd where
  op := (e.eval p normal).op
  F := (e.eval p normal).F
  bv := fun b => basisFun t e.n e.x b p
  bd := fun d b => SumOp.physDer t e.n e.x e.vert p d b
  w := w

open Classical in
/-- `process_qp` for domain kernels, 248-255; `none`: `throwingAssert(jacobian > 0.)`. -/
def PElem.domainPt (e : PElem t) (pw : (Nat → ℝ) × ℝ) : Option Batch.Upd :=
  if 0 < (jacobiMat t e.vert pw.1).det then some (e.upd pw.1 none ((jacobiMat t e.vert pw.1).det * pw.2)) else none

/-- `process_qp` for boundary kernels, 275-282; `none`: a side past the tables. -/
def PElem.sidePt (e : PElem t) (s : Nat) (uw : (Fin (t.dim - 1) → ℝ) × ℝ) : Option Batch.Upd :=
  (sidePoint t s uw.1).bind fun p =>
    (boundaryNormal t s (jacobiMat t e.vert (emb p))).bind fun v =>
      (boundaryJacobian t s (jacobiMat t e.vert (emb p))).map fun m => e.upd (emb p) (some v) (m * uw.2)

/-- `basis_at_qps.forEach(process_qp)`. (`basis_at_qps.forEach`, AssembleLocalSystem.hpp 254, 278) -/
def PElem.pts (e : PElem t) : Option (List Batch.Upd) :=
  match e.side with
  | none => (AsmOrd.elemRule t e.rule).mapM e.domainPt
  | some s => (Flux.sideRule t e.rule).mapM (e.sidePt s)

/-- The local system. (AssembleLocalSystem.hpp 234-280) -/
def PElem.toL (e : PElem t) : Option Lsq.LElem :=
  e.pts.map fun pts => ⟨e.dofs, ⟨e.us, e.nu, e.n ^ t.dim, t.dim, e.target⟩, pts⟩

end

end Verif.Patch
