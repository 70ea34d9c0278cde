import Mathlib.Algebra.BigOperators.Ring.Finset
import Mathlib.Algebra.BigOperators.Intervals
import Mathlib.Algebra.Field.Basic

/-!
# Model of sum factorisation

Source: `/repo/include/l3ster/algsys/SumFactorization.hpp`.  Buffers are functions of the flat index; the Eigen maps over them are
column-major unless stated otherwise.  Exact arithmetic.  Entries of a buffer outside of the mapped range are unspecified and never read.
-/
namespace Verif.SumFact
open Finset

variable {R : Type}

/-- One sweep `out = inᵀ * M` (67-86): `in` is `n × m`, `M` is `n × k`, so `out` is `m × k`. -/
def sweep [CommSemiring R] (n m : Nat) (M : Nat → Nat → R) (inp : Nat → R) : Nat → R := fun idx =>
  ∑ r ∈ range n, inp (r + n * (idx % m)) * M r (idx / m)

/-- `out += inᵀ * M`. (`sumFactSweepForwardDerAccumulateStandard`, SumFactorization.hpp 82-86) -/
def sweepAdd [CommSemiring R] (n m : Nat) (M : Nat → Nat → R) (inp out : Nat → R) : Nat → R := fun idx =>
  out idx + sweep n m M inp idx

/-- Sizes: number of 1D basis functions, of 1D quadrature points, of fields. -/
structure Sz where
  nb : Nat
  nq : Nat
  nf : Nat

section
variable [CommSemiring R] (B D : Nat → Nat → R) (s : Sz)

/-- The result buffers of the backward transformation and the temporary. (`SumFactBufferHelper::buf_array_t`, SumFactorization.hpp 385-423) -/
structure Bufs (R : Type) where
  r0 : Nat → R
  r1 : Nat → R
  r2 : Nat → R
  r3 : Nat → R
  temp : Nat → R

/-- `sumFactBackQuad`, 438-467, statement by statement; `B`, `D` are the interpolation and derivative matrices (basis, point). -/
def backQuad (st : Bufs R) (fill : Nat → R) : Bufs R :=
  let st := { st with r1 := fill }
  let st := { st with temp := sweep s.nb (s.nf * s.nb) B st.r1 }
  let st := { st with r2 := sweep s.nb (s.nf * s.nq) D st.temp }
  let st := { st with r0 := sweep s.nb (s.nf * s.nq) B st.temp }
  let st := { st with temp := sweep s.nb (s.nf * s.nb) D st.r1 }
  { st with r1 := sweep s.nb (s.nf * s.nq) B st.temp }

/-- `sumFactBackHex`, 469-504. -/
def backHex (st : Bufs R) (fill : Nat → R) : Bufs R :=
  let st := { st with r3 := fill }
  let st := { st with r0 := sweep s.nb (s.nf * s.nb * s.nb) B st.r3 }
  let st := { st with r1 := sweep s.nb (s.nf * s.nb * s.nb) D st.r3 }
  let st := { st with r3 := sweep s.nb (s.nf * s.nq * s.nb) B st.r1 }
  let st := { st with r1 := sweep s.nb (s.nf * s.nq * s.nq) B st.r3 }
  let st := { st with r3 := sweep s.nb (s.nf * s.nq * s.nb) D st.r0 }
  let st := { st with r2 := sweep s.nb (s.nf * s.nq * s.nq) B st.r3 }
  let st := { st with temp := sweep s.nb (s.nf * s.nq * s.nb) B st.r0 }
  let st := { st with r0 := sweep s.nb (s.nf * s.nq * s.nq) B st.temp }
  { st with r3 := sweep s.nb (s.nf * s.nq * s.nq) D st.temp }

/-- Transposed matrix (`makeTransposed`, 51-56). -/
def tr (M : Nat → Nat → R) : Nat → Nat → R := fun i j => M j i

/-- `sumFactForwardQuad`, 758-782; the result is in `r0`. -/
def forwardQuad (st : Bufs R) : Bufs R :=
  let st := { st with temp := sweep s.nq (s.nf * s.nq) (tr B) st.r0 }
  let st := { st with temp := sweepAdd s.nq (s.nf * s.nq) (tr D) st.r1 st.temp }
  let st := { st with r0 := sweep s.nq (s.nf * s.nb) (tr B) st.temp }
  let st := { st with temp := sweep s.nq (s.nf * s.nq) (tr B) st.r2 }
  { st with r0 := sweepAdd s.nq (s.nf * s.nb) (tr D) st.temp st.r0 }

/-- `sumFactForwardHex`, 784-814. -/
def forwardHex (st : Bufs R) : Bufs R :=
  let st := { st with temp := sweep s.nq (s.nf * s.nq * s.nq) (tr B) st.r0 }
  let st := { st with temp := sweepAdd s.nq (s.nf * s.nq * s.nq) (tr D) st.r1 st.temp }
  let st := { st with r1 := sweep s.nq (s.nf * s.nb * s.nq) (tr B) st.temp }
  let st := { st with temp := sweep s.nq (s.nf * s.nq * s.nq) (tr B) st.r2 }
  let st := { st with r1 := sweepAdd s.nq (s.nf * s.nb * s.nq) (tr D) st.temp st.r1 }
  let st := { st with r0 := sweep s.nq (s.nf * s.nb * s.nb) (tr B) st.r1 }
  let st := { st with r1 := sweep s.nq (s.nf * s.nq * s.nq) (tr B) st.r3 }
  let st := { st with r3 := sweep s.nq (s.nf * s.nb * s.nq) (tr B) st.r1 }
  { st with r0 := sweepAdd s.nq (s.nf * s.nb * s.nb) (tr D) st.r3 st.r0 }

end

/-! ### Odd-even decomposition (88-342) -/

section
variable [Field R]

/-- `makePsiPlusImpl`, 88-98 (all columns; the code keeps the first ones). -/
def psiPlus (n : Nat) (M : Nat → Nat → R) : Nat → Nat → R := fun r c => if r < n / 2 then M r c + M (n - r - 1) c else M (n / 2) c

/-- `makePsiMinusImpl`, 100-108. -/
def psiMinus (n : Nat) (M : Nat → Nat → R) : Nat → Nat → R := fun r c => M r c - M (n - r - 1) c

/-- `makeEO`, 159-181, even part of one column. -/
def evenPart (n : Nat) (v : Nat → R) : Nat → R := fun r => if r < n / 2 then 1 / 2 * (v r + v (n - r - 1)) else v (n / 2)

/-- The odd part of `makeEO`, SumFactorization.hpp 159-181. -/
def oddPart (n : Nat) (v : Nat → R) : Nat → R := fun r => 1 / 2 * (v r - v (n - r - 1))

/-- `e.transpose() * psi_plus`: `(n + 1) / 2` rows. -/
def ePrime (n : Nat) (M : Nat → Nat → R) (v : Nat → R) : Nat → R := fun c => ∑ r ∈ range ((n + 1) / 2), evenPart n v r * psiPlus n M r c

/-- `o.transpose() * psi_minus`: `n / 2` rows. -/
def oPrime (n : Nat) (M : Nat → Nat → R) (v : Nat → R) : Nat → R := fun c => ∑ r ∈ range (n / 2), oddPart n v r * psiMinus n M r c

/-- `reconstructOddEven`, 183-203, for one row of the output and `combine`: `ne`, `no` are the column counts of the two arguments.
The loop over `c < no` writes columns `c` and `full - c - 1`; then the middle column. -/
def reconstruct (ne no : Nat) (comb : R → R → R) (e o : Nat → R) (out : Nat → R) : Nat → R :=
  let out1 := (List.range no).foldl (fun (out : Nat → R) c =>
    let o1 := fun j => if j = c then comb (out j) (e c + o c) else out j
    fun j => if j = ne + no - c - 1 then comb (o1 j) (e c - o c) else o1 j) out
  if no < ne then fun j => if j = no then comb (out1 j) (e (ne - 1)) else out1 j else out1

/-- `sumFactSweepInterpOddEvenBlock`, 205-216, one column of the input / row of the output; `m` output columns. -/
def interpOE (n m : Nat) (M : Nat → Nat → R) (comb : R → R → R) (v out : Nat → R) : Nat → R :=
  reconstruct ((m + 1) / 2) (m / 2) comb (ePrime n M v) (oPrime n M v) out

/-- `sumFactSweepDerOddEvenBlockImpl`, 218-233: the roles of the two parts are exchanged. -/
def derOE (n m : Nat) (M : Nat → Nat → R) (comb : R → R → R) (v out : Nat → R) : Nat → R :=
  reconstruct ((m + 1) / 2) (m / 2) comb (oPrime n M v) (ePrime n M v) out

/-- The columns handled by the blocks and the remainder (261-281): `middleCols(block * bs)` of `bs` columns for every block, then
`rightCols<in_cols % bs>`. -/
def blockCols (bs cols : Nat) : List Nat :=
  ((List.range (cols / bs)).flatMap fun b => (List.range bs).map fun i => b * bs + i) ++
  (if 0 < cols % bs then (List.range (cols % bs)).map fun i => cols - cols % bs + i else [])

/-- A whole odd-even sweep: row `c` of the output is combined from column `c` of the input, block by block. (SumFactorization.hpp 260-342) -/
def sweepOE (bs cols : Nat) (kernel : (Nat → R) → (Nat → R) → Nat → R) (inp : Nat → Nat → R) (out : Nat → Nat → R) : Nat → Nat → R :=
  (blockCols bs cols).foldl (fun out c => fun r => if r = c then kernel (inp c) (out c) else out r) out

end

/-! ### Points passed to the kernel -/

/-- Bases of order 1 on the reference line at `t`: `(1 - t) / 2`, `(1 + t) / 2` (Lagrange basis with nodes -1 and 1). -/
def lin [Field R] (t : R) (i : Nat) : R := if i = 0 then (1 - t) / 2 else (1 + t) / 2

/-- `computeGeomDataLin`, 506-540: coordinates of the vertices, one coordinate after another. -/
def fillCoords (nv : Nat) (vert : Nat → Nat → R) : Nat → R := fun k => vert (k % nv) (k / nv)

/-- Interpolation matrix of the geometry (order 1) at the quadrature points. -/
def geomB [Field R] (qp : Nat → R) : Nat → Nat → R := fun i q => lin (qp q) i

/-- Derivative matrix of the geometry. (`make_geom_basis_params` 431-435 with `makeDerivativeMatrix` 38-49 of SumFactorization.hpp) -/
def geomD [Field R] : Nat → Nat → R := fun i _ => if i = 0 then -1 / 2 else 1 / 2

/-- Point passed to a domain kernel by `evalAtQuadQPs` (653): `{x(qi, 0), x(qi, 1), 0.}` with the row-major view of 2 columns. -/
def quadPoint [Field R] (nq : Nat) (qp : Nat → R) (st : Bufs R) (vert : Nat → Nat → R) (qi : Nat) : Fin 3 → R :=
  let x := (backQuad (geomB qp) geomD ⟨2, nq, 2⟩ st (fillCoords 4 vert)).r0
  fun d => if d = 0 then x (0 + 2 * qi) else if d = 1 then x (1 + 2 * qi) else 0

/-- Point passed to a domain kernel by `evalAtHexQPs` (732): `{x(qi, 0), x(qi, 1), 0.}` with the row-major view of 3 columns. -/
def hexPoint [Field R] (nq : Nat) (qp : Nat → R) (st : Bufs R) (vert : Nat → Nat → R) (qi : Nat) : Fin 3 → R :=
  let x := (backHex (geomB qp) geomD ⟨2, nq, 3⟩ st (fillCoords 8 vert)).r0
  fun d => if d = 0 then x (0 + 3 * qi) else if d = 1 then x (1 + 3 * qi) else 0

/-- `mapToPhysicalSpace` (MapReferenceToPhysical.hpp 13-25): sum over the vertices of coordinate times order-1 shape function
(`ReferenceBasisFunction`: vertex `I` is tensor index `(I % 2, I / 2)` for quads). -/
def mapQuad [Field R] (vert : Nat → Nat → R) (xi eta : R) : Fin 3 → R := fun d =>
  ∑ I ∈ range 4, vert I d.val * (lin xi (I % 2) * lin eta (I / 2))

/-- The same for hexahedra: `(I % 4 % 2, I % 4 / 2, I / 4)`. -/
def mapHex [Field R] (vert : Nat → Nat → R) (xi eta zeta : R) : Fin 3 → R := fun d =>
  ∑ I ∈ range 8, vert I d.val * (lin xi (I % 4 % 2) * lin eta (I % 4 / 2) * lin zeta (I / 4))

end Verif.SumFact
