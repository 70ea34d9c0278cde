import Verif.SumFact.Model
import Verif.Batch.Model
import Verif.Mapping.Model
import Verif.Quad.Model

/-!
# Model of the two element operators of the matrix-free system

Sources: `/repo/include/l3ster/algsys/SumFactorization.hpp` 505-919 (sum factorisation), `algsys/EvaluateLocalOperator.hpp` 211-236,
`algsys/AssembleLocalSystem.hpp` 218-231 (`evalKernel`) and `common/ElementMapping` as modelled in `Mapping` (standard path).

Exact real arithmetic.  The user kernel is an arbitrary function of its input; the time is the same in both paths and is part of the function.
-/
namespace Verif.SumOp
open Finset Verif.SumFact Verif.Elem Verif.Mapping Verif.Basis Matrix

noncomputable section

/-- `KernelInterface::DomainInput`: external field values, their physical derivatives, the point. (KernelInterface.hpp 44-49) -/
structure KIn (dim nfld : Nat) where
  vals : Fin nfld → ℝ
  ders : Fin dim → Fin nfld → ℝ
  point : Fin 3 → ℝ

/-- Operators returned by the kernel: `A k equation unknown` (0: value, `d + 1`: derivative in direction `d`). -/
abbrev Kern (dim nfld : Nat) := KIn dim nfld → Nat → Nat → Nat → ℝ

/-- Compile-time sizes: 1D basis functions, unknowns, columns of the operand, equations, external fields. -/
structure Cfg where
  nb : Nat
  nu : Nat
  nrhs : Nat
  ne : Nat
  nfld : Nat

/-- `num_operands` (626). -/
def Cfg.nops (c : Cfg) : Nat := c.nu * c.nrhs

/-- `num_fields_total` (627). -/
def Cfg.total (c : Cfg) : Nat := c.nops + c.nfld

/-- Body of the loops of `evalAtQuadQPs` (643-669) and `evalAtHexQPs` (718-750) for one quadrature point: `jm` is the Jacobi matrix built by
`makeJacobianMat`, `row k` the row of the point in the buffer of values (`k = 0`) or of the `k`-th reference derivative.  The result
is the row of the point in the three (four) output buffers.  `operand_map_t` is column-major: column `f` of the operand is unknown `f % nu`,
right-hand side `f / nu`. -/
def evalQP {dim : Nat} (c : Cfg) (kern : Kern dim c.nfld) (jm : Matrix (Fin dim) (Fin dim) ℝ) (pt : Fin 3 → ℝ) (wgt : ℝ)
    (row : Fin (dim + 1) → Nat → ℝ) : Fin (dim + 1) → Nat → ℝ :=
  let jinv := jm⁻¹
  let fieldVals : Fin c.nfld → ℝ := fun i => row 0 (c.nops + i)
  let fieldDers : Fin dim → Fin c.nfld → ℝ := fun d i => ∑ k, jinv k d * row k.succ (c.nops + i)
  let A := kern ⟨fieldVals, fieldDers, pt⟩
  let D : Fin (dim + 1) → Nat → Nat → ℝ := Fin.cases (A 0) fun k e u => ∑ d : Fin dim, A (d + 1) e u * jinv k d
  let t : Nat → Nat → ℝ := fun e r => wgt * ∑ k, ∑ u ∈ range c.nu, D k e u * row k (u + c.nu * r)
  fun k f => ∑ e ∈ range c.ne, D k e (f % c.nu) * t e (f / c.nu)

/-- 1D interpolation matrix: basis function `i` of the Lagrange basis on the nodes `x` at point `q` (`makeInterpolationMatrix`, 25-36). -/
def interp (n : Nat) (x qp : Nat → ℝ) : Nat → Nat → ℝ := fun i q => line n x i (qp q)

/-- 1D derivative matrix (`makeDerivativeMatrix`, 38-49). -/
def deriv (n : Nat) (x qp : Nat → ℝ) : Nat → Nat → ℝ := fun i q => lineDer n x i (qp q)

/-- Data of one call: nodes of the basis, points and weights of the 1D rule, vertices. -/
structure Data where
  x : Nat → ℝ
  qp : Nat → ℝ
  wt : Nat → ℝ
  nq : Nat
  vert : Nat → Nat → ℝ

/-- `computeGeomDataLin` for quads, 505-519; `st` is the uninitialised memory of the buffers. -/
def geoQuad (d : Data) (st : Bufs ℝ) : Bufs ℝ :=
  backQuad (interp 2 absc1 d.qp) (deriv 2 absc1 d.qp) ⟨2, d.nq, 2⟩ st (fillCoords 4 d.vert)

/-- For hexes, 521-536. -/
def geoHex (d : Data) (st : Bufs ℝ) : Bufs ℝ :=
  backHex (interp 2 absc1 d.qp) (deriv 2 absc1 d.qp) ⟨2, d.nq, 3⟩ st (fillCoords 8 d.vert)

/-- Row `qi` of the row-major views of the backward results. (`evalAtQuadQPs`, SumFactorization.hpp 614-675) -/
def rowQuad (w : Nat) (b : Bufs ℝ) (qi : Nat) : Fin 3 → Nat → ℝ := fun k f =>
  if k = 0 then b.r0 (f + w * qi) else if k = 1 then b.r1 (f + w * qi) else b.r2 (f + w * qi)

/-- `evalAtHexQPs`, SumFactorization.hpp 678-755 -/
def rowHex (w : Nat) (b : Bufs ℝ) (qi : Nat) : Fin 4 → Nat → ℝ := fun k f =>
  if k = 0 then b.r0 (f + w * qi) else if k = 1 then b.r1 (f + w * qi) else if k = 2 then b.r2 (f + w * qi) else b.r3 (f + w * qi)

/-- `evalAtQuadQPs`, 610-672, row `qi = qy * n + qx`: `makeJacobianMat(dx_dxi(qi, 0), dx_deta(qi, 0), dx_dxi(qi, 1), dx_deta(qi, 1))`. -/
def quadQP (c : Cfg) (kern : Kern 2 c.nfld) (d : Data) (geo bk : Bufs ℝ) (qi : Nat) : Fin 3 → Nat → ℝ :=
  let jm : Matrix (Fin 2) (Fin 2) ℝ := !![geo.r1 (0 + 2 * qi), geo.r2 (0 + 2 * qi); geo.r1 (1 + 2 * qi), geo.r2 (1 + 2 * qi)]
  evalQP (dim := 2) c kern jm ![geo.r0 (0 + 2 * qi), geo.r0 (1 + 2 * qi), 0] (d.wt (qi % d.nq) * d.wt (qi / d.nq) * jm.det) (rowQuad c.total bk qi)

/-- `evalAtHexQPs`, 674-755, row `qi = qz * n * n + qy * n + qx`. -/
def hexQP (c : Cfg) (kern : Kern 3 c.nfld) (d : Data) (geo bk : Bufs ℝ) (qi : Nat) : Fin 4 → Nat → ℝ :=
  let jm : Matrix (Fin 3) (Fin 3) ℝ :=
    !![geo.r1 (0 + 3 * qi), geo.r2 (0 + 3 * qi), geo.r3 (0 + 3 * qi);
       geo.r1 (1 + 3 * qi), geo.r2 (1 + 3 * qi), geo.r3 (1 + 3 * qi);
       geo.r1 (2 + 3 * qi), geo.r2 (2 + 3 * qi), geo.r3 (2 + 3 * qi)]
  evalQP (dim := 3) c kern jm ![geo.r0 (0 + 3 * qi), geo.r0 (1 + 3 * qi), 0]
    (d.wt (qi % (d.nq * d.nq) % d.nq) * d.wt (qi % (d.nq * d.nq) / d.nq) * d.wt (qi / (d.nq * d.nq)) * jm.det) (rowHex c.total bk qi)

/-- Contents of the uninitialised buffers of one call. (the `fill` argument, SumFactorization.hpp 816-880) -/
structure Init where
  geo : Bufs ℝ
  back : Bufs ℝ
  fwd : Bufs ℝ

/-- `sumFactImpl` for quads, 815-843: backward transformation of operand and fields, evaluation at the points (column-major output, rows =
points), forward transformation with the first backward buffer as temporary.  The result is the first buffer, fields fastest. -/
def sumFactQuad (c : Cfg) (kern : Kern 2 c.nfld) (d : Data) (i : Init) (fill : Nat → ℝ) : Nat → ℝ :=
  let B := interp c.nb d.x d.qp
  let D := deriv c.nb d.x d.qp
  let bk := backQuad B D ⟨c.nb, d.nq, c.total⟩ i.back fill
  let out := fun k idx => quadQP c kern d (geoQuad d i.geo) bk (idx % (d.nq * d.nq)) k (idx / (d.nq * d.nq))
  (forwardQuad B D ⟨c.nb, d.nq, c.nops⟩ ⟨out 0, out 1, out 2, i.fwd.r3, bk.r0⟩).r0

/-- `sumFactImpl` for hexes, 845-870. -/
def sumFactHex (c : Cfg) (kern : Kern 3 c.nfld) (d : Data) (i : Init) (fill : Nat → ℝ) : Nat → ℝ :=
  let B := interp c.nb d.x d.qp
  let D := deriv c.nb d.x d.qp
  let bk := backHex B D ⟨c.nb, d.nq, c.total⟩ i.back fill
  let out := fun k idx => hexQP c kern d (geoHex d i.geo) bk (idx % (d.nq * d.nq * d.nq)) k (idx / (d.nq * d.nq * d.nq))
  (forwardHex B D ⟨c.nb, d.nq, c.nops⟩ ⟨out 0, out 1, out 2, out 3, bk.r0⟩).r0

/-! ### Standard path -/

/-- Physical derivative of basis function `b` in direction `d` at `p` (`mapDomain`: `computePhysBasisDers`, ComputePhysBasisDer.hpp 9-15). -/
def physDer (t : ElType) (n : Nat) (x : Nat → ℝ) (vert : Nat → Nat → ℝ) (p : Nat → ℝ) (d b : Nat) : ℝ :=
  if h : d < t.dim ∧ b < n ^ t.dim then physBasisDers (jacobiMat t vert p) (refBasisDers t n x p) ⟨d, h.1⟩ ⟨b, h.2⟩ else 0

/-- `process_qp` of `evaluateLocalOperator`, EvaluateLocalOperator.hpp 226-231, up to the update: kernel evaluated by `evalKernel`
(AssembleLocalSystem.hpp 218-231, `computeFieldVals`, `computeFieldDers` 54-76) for the nodal field values `nv node field`. -/
def stdUpd (t : ElType) (n nfld : Nat) (x : Nat → ℝ) (kern : Kern t.dim nfld) (vert : Nat → Nat → ℝ) (nv : Nat → Nat → ℝ) (p : Nat → ℝ) (weight : ℝ) :
    Batch.Upd where
  op := kern ⟨fun i => ∑ b ∈ range (n ^ t.dim), nv b i * basisFun t n x b p,
    fun d i => ∑ b ∈ range (n ^ t.dim), physDer t n x vert p d b * nv b i, fun k => mapToPhysical t vert p k⟩
  F := fun _ _ => 0
  bv := fun b => basisFun t n x b p
  bd := fun d b => physDer t n x vert p d b
  w := (jacobiMat t vert p).det * weight

/-- Coordinates as a function. (SumFactorization.hpp 506-519) -/
def coords2 (p : ℝ × ℝ) : Nat → ℝ := fun k => if k = 0 then p.1 else p.2
/-- SumFactorization.hpp 522-536 -/
def coords3 (p : ℝ × ℝ × ℝ) : Nat → ℝ := fun k => if k = 0 then p.1 else if k = 1 then p.2.1 else p.2.2

/-- All updates of a quadrilateral for a 1D rule (`basis_at_qps.forEach`). -/
def updsQuad (n nfld : Nat) (x : Nat → ℝ) (kern : Kern 2 nfld) (vert : Nat → Nat → ℝ) (nv : Nat → Nat → ℝ) (rule : Quad.Rule1) : List Batch.Upd :=
  (Quad.quadRule rule).map fun pw => stdUpd .quad n nfld x kern vert nv (coords2 pw.1) pw.2

/-- All updates of a hexahedron. (SumFactorization.hpp 678-755, 850-880) -/
def updsHex (n nfld : Nat) (x : Nat → ℝ) (kern : Kern 3 nfld) (vert : Nat → Nat → ℝ) (nv : Nat → Nat → ℝ) (rule : Quad.Rule1) : List Batch.Upd :=
  (Quad.hexRule rule).map fun pw => stdUpd .hex n nfld x kern vert nv (coords3 pw.1) pw.2

end

end Verif.SumOp
