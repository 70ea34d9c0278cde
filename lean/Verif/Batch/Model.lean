import Mathlib.Analysis.Real.Sqrt
import Mathlib.Algebra.BigOperators.Intervals

/-!
# Model of batched local assembly and operator evaluation

Source: `/repo/include/l3ster/algsys/AssembleLocalSystem.hpp` (`LocalSystemManager`), `/repo/include/l3ster/algsys/EvaluateLocalOperator.hpp`
(`OperatorEvaluationManager`, `precomputeDiagRhsImpl`).  Exact real arithmetic.  Buffers are functions of (row, column); their initial
contents are arbitrary (`make_unique` of an Eigen matrix leaves them uninitialised).  An update that would write behind the last column of
a buffer is undefined behaviour: `none`.
-/
namespace Verif.Batch
open Finset

/-- Compile-time sizes: equations per point, unknowns per node, number of basis functions, dimension, target number of columns. (AssembleLocalSystem.hpp 77-82, 97-102) -/
structure Dims where
  us : Nat
  nu : Nat
  nb : Nat
  dim : Nat
  target : Nat

/-- `problem_size`. (AssembleLocalSystem.hpp 77, 171) -/
def Dims.size (D : Dims) : Nat := D.nb * D.nu

/-- `intDivRoundUp`, IntegerMath.hpp 8-14. -/
def divUp (a b : Nat) : Nat := if a % b = 0 then a / b else a / b + 1

/-- `updates_per_batch`, AssembleLocalSystem.hpp 81. -/
def Dims.upb (D : Dims) : Nat := divUp D.target D.us

/-- Data of one quadrature point: kernel operators `op k eq unknown` (value, then derivatives), kernel right-hand side `F eq rhs`, basis
values, physical basis derivatives `bd d basis`, weight. (AssembleLocalSystem.hpp 98-102) -/
structure Upd where
  op : Nat → Nat → Nat → ℝ
  F : Nat → Nat → ℝ
  bv : Nat → ℝ
  bd : Nat → Nat → ℝ
  w : ℝ

/-- `makeBasisBlock`, 122-134: entry (unknown, equation) of the block of basis function `b`. -/
def block (D : Dims) (u : Upd) (b unk eq : Nat) : ℝ :=
  u.bv b * u.op 0 eq unk + ∑ d ∈ range D.dim, u.bd d b * u.op (d + 1) eq unk

/-- A buffer (AssembleLocalSystem.hpp 83, 117-118). -/
abbrev Buf := Nat → Nat → ℝ

/-- `LocalSystemManager`: the two buffers with their batch sizes, local matrix and right-hand side. (AssembleLocalSystem.hpp 117-120) -/
structure St where
  pos : Buf
  neg : Buf
  pb : Nat
  ngb : Nat
  mat : Nat → Nat → ℝ
  rhs : Nat → Nat → ℝ

/-- `setZero`, 210-216: the system is zeroed; buffers and batch sizes are left as they are. -/
def setZero (s : St) : St := { s with mat := fun _ _ => 0, rhs := fun _ _ => 0 }

/-- Writes the scaled blocks of one point in columns `batch_size * update_size ...` (153-160). -/
noncomputable def fill (D : Dims) (u : Upd) (buf : Buf) (bs : Nat) : Buf := fun r c =>
  if r < D.size ∧ bs * D.us ≤ c ∧ c < bs * D.us + D.us then block D u (r / D.nu) (r % D.nu) (c - bs * D.us) * Real.sqrt |u.w| else buf r c

/-- `selfadjointView<Lower>().rankUpdate(buf.leftCols(n), wgt)`. (AssembleLocalSystem.hpp 197-198, 206) -/
def rankUpdate (D : Dims) (buf : Buf) (n : Nat) (wgt : ℝ) (mat : Nat → Nat → ℝ) : Nat → Nat → ℝ := fun i j =>
  if i < D.size ∧ j ≤ i then mat i j + wgt * ∑ c ∈ range n, buf i c * buf j c else mat i j

/-- Accumulation in the right-hand side (158). -/
def addRhs (D : Dims) (u : Upd) (rhs : Nat → Nat → ℝ) : Nat → Nat → ℝ := fun r k =>
  if r < D.size then rhs r k + (∑ e ∈ range D.us, block D u (r / D.nu) (r % D.nu) e * u.F e k) * u.w else rhs r k

/-- `flushFullBuf` at the end of `update` when the buffer of the sign of the weight is full (161-162, 199-204). -/
def flushPos (D : Dims) (s : St) : St :=
  if s.pb = D.upb then { s with mat := rankUpdate D s.pos (D.us * D.upb) 1 s.mat, pb := 0 } else s

/-- `flushBuf(*m_negw_buf, m_negw_batch_size, -1.)` (AssembleLocalSystem.hpp 188, 196-199). -/
def flushNeg (D : Dims) (s : St) : St :=
  if s.ngb = D.upb then { s with mat := rankUpdate D s.neg (D.us * D.upb) (-1) s.mat, ngb := 0 } else s

open Classical in
/-- `update`, 144-163. -/
noncomputable def update (D : Dims) (s : St) (u : Upd) : Option St :=
  if 0 ≤ u.w then
    if D.upb ≤ s.pb then none
    else some (flushPos D { s with rhs := addRhs D u s.rhs, pos := fill D u s.pos s.pb, pb := s.pb + 1 })
  else
    if D.upb ≤ s.ngb then none
    else some (flushNeg D { s with rhs := addRhs D u s.rhs, neg := fill D u s.neg s.ngb, ngb := s.ngb + 1 })

/-- `flushBuf`, 191-197, for both buffers (`flush`, 184-189). -/
def flush (D : Dims) (s : St) : St :=
  { s with mat := rankUpdate D s.neg (s.ngb * D.us) (-1) (rankUpdate D s.pos (s.pb * D.us) 1 s.mat), pb := 0, ngb := 0 }

/-- `getSystem`, 176-182: flush, then mirror the lower triangle.  Returns the state, matrix and right-hand side are read from it. -/
def getSystem (D : Dims) (s : St) : St :=
  { flush D s with mat := fun i j => if j ≤ i then (flush D s).mat i j else (flush D s).mat j i }

/-- `assembleLocalSystem`, 233-256: zero, one update per quadrature point, read. -/
noncomputable def assemble (D : Dims) (s : St) (us : List Upd) : Option St := (us.foldlM (update D) (setZero s)).map (getSystem D)

/-- An assembly that throws in the middle (`throwingAssert` at 249) after the updates `us`. -/
noncomputable def aborted (D : Dims) (s : St) (us : List Upd) : Option St := us.foldlM (update D) (setZero s)

/-! ### Operator evaluation -/

/-- `OperatorEvaluationManager`: update matrix, weights of its columns, filled columns. (EvaluateLocalOperator.hpp 89-91) -/
structure OSt where
  buf : Buf
  wts : Nat → ℝ
  filled : Nat

/-- `fillBatch`, 96-127, without the final comparison. -/
def oFill (D : Dims) (s : OSt) (u : Upd) : OSt where
  buf := fun r c => if r < D.size ∧ s.filled ≤ c ∧ c < s.filled + D.us then block D u (r / D.nu) (r % D.nu) (c - s.filled) else s.buf r c
  wts := fun c => if s.filled ≤ c ∧ c < s.filled + D.us then u.w else s.wts c
  filled := s.filled + D.us

/-- `flushImpl` for one column, 138-144: `y += B (W (Bᵀ x))` with the first `n` columns. -/
def oApply (D : Dims) (s : OSt) (n : Nat) (x y : Nat → ℝ) : Nat → ℝ := fun i =>
  if i < D.size then y i + ∑ c ∈ range n, s.buf i c * ((∑ j ∈ range D.size, s.buf j c * x j) * s.wts c) else y i

/-- `update` with the full buffer size `us * k` (k = updates per batch). (EvaluateLocalOperator.hpp 67-76, 96-127) -/
def oUpdate (D : Dims) (k : Nat) (x : Nat → ℝ) (sy : OSt × (Nat → ℝ)) (u : Upd) : Option (OSt × (Nat → ℝ)) :=
  if D.us * k < sy.1.filled + D.us then none
  else if sy.1.filled + D.us = D.us * k then
    some ({ oFill D sy.1 u with filled := 0 }, oApply D (oFill D sy.1 u) (D.us * k) x sy.2)
  else some (oFill D sy.1 u, sy.2)

/-- `finalize`, 77. -/
def oFinalize (D : Dims) (x : Nat → ℝ) (sy : OSt × (Nat → ℝ)) : OSt × (Nat → ℝ) :=
  ({ sy.1 with filled := 0 }, oApply D sy.1 sy.1.filled x sy.2)

/-- `evaluateLocalOperator`, 212-236. -/
def evalOp (D : Dims) (k : Nat) (s : OSt) (x : Nat → ℝ) (us : List Upd) : Option (OSt × (Nat → ℝ)) :=
  (us.foldlM (oUpdate D k x) (s, fun _ => 0)).map (oFinalize D x)

/-! ### Diagonal and right-hand side of the matrix-free operator -/

/-- `precomputeDiagRhsImpl`, 172-208, diagonal part for one point. -/
def diagUpd (D : Dims) (diag : Nat → ℝ) (u : Upd) : Nat → ℝ := fun r =>
  if r < D.size then diag r + (∑ e ∈ range D.us, block D u (r / D.nu) (r % D.nu) e ^ 2) * u.w else diag r

/-- The same, right-hand side part; `dir` lists the constrained local unknowns, `g j k` the value of the `j`-th of them. (EvaluateLocalOperator.hpp 187, 204-206) -/
def rhsUpd (D : Dims) (dir : List Nat) (g : Nat → Nat → ℝ) (rhs : Nat → Nat → ℝ) (u : Upd) : Nat → Nat → ℝ := fun r k =>
  if r < D.size then addRhs D u rhs r k -
    ∑ e ∈ range D.us, block D u (r / D.nu) (r % D.nu) e *
      ((∑ j ∈ range dir.length, block D u (dir.getD j 0 / D.nu) (dir.getD j 0 % D.nu) e * g j k) * u.w)
  else rhs r k

end Verif.Batch
