import Verif.SumFact.Lemmas
import Mathlib.Algebra.Field.Rat
import Mathlib.Data.Rat.Defs
import Mathlib.Tactic.NormNum
import Mathlib.Tactic.LinearCombination
import Mathlib.Tactic.FieldSimp

/-! # C56: sum factorisation equals direct tensor-product evaluation -/
namespace Verif.SumFact
open Finset

variable {R : Type} [CommSemiring R]

/-- Nodal value of field `f` at node `I` in the layout of `gatherSumFact` (nodes fastest). -/
def nodal (n : Nat) (fill : Nat → R) (f I : Nat) : R := fill (I + n * f)

/-- C56 (quads, backward): for every order, quadrature size, number of fields and nodal values, the three buffers hold in the row-major
(point, field) layout the values and the two reference derivatives of the tensor-product expansion at every quadrature point. -/
theorem C56_back_quad (B D : Nat → Nat → R) (s : Sz) (st : Bufs R) (fill : Nat → R) (f qx qy : Nat) (hf : f < s.nf) (hx : qx < s.nq) :
    let r := backQuad B D s st fill
    let at_ := fun buf : Nat → R => buf (f + s.nf * (qx + s.nq * qy))
    let expand := fun (a b : Nat → Nat → R) => ∑ I ∈ range (s.nb * s.nb), nodal (s.nb * s.nb) fill f I * (a (I % s.nb) qx * b (I / s.nb) qy)
    at_ r.r0 = expand B B ∧ at_ r.r1 = expand D B ∧ at_ r.r2 = expand B D := by
  simp only [nodal, backQuad]
  have h := fun M N => (two_sweeps s.nb s.nq s.nf M N fill f qx qy _ hf hx rfl).trans (grid2 s.nb f fill fun i j => M i qx * N j qy)
  exact ⟨h B B, h D B, h B D⟩

/-- C56 (hexahedra, backward). -/
theorem C56_back_hex (B D : Nat → Nat → R) (s : Sz) (st : Bufs R) (fill : Nat → R) (f qx qy qz : Nat) (hf : f < s.nf) (hx : qx < s.nq)
    (hy : qy < s.nq) :
    let r := backHex B D s st fill
    let at_ := fun buf : Nat → R => buf (f + s.nf * (qx + s.nq * (qy + s.nq * qz)))
    let expand := fun (a b c : Nat → Nat → R) => ∑ I ∈ range (s.nb * s.nb * s.nb), nodal (s.nb * s.nb * s.nb) fill f I *
      (a (I % (s.nb * s.nb) % s.nb) qx * b (I % (s.nb * s.nb) / s.nb) qy * c (I / (s.nb * s.nb)) qz)
    at_ r.r0 = expand B B B ∧ at_ r.r1 = expand D B B ∧ at_ r.r2 = expand B D B ∧ at_ r.r3 = expand B B D := by
  simp only [nodal, backHex]
  have h := fun M N O => (three_sweeps s.nb s.nq s.nf M N O fill f qx qy qz _ hf hx hy rfl).trans
    (grid3 s.nb f fill fun i j k => M i qx * N j qy * O k qz)
  exact ⟨h B B B, h D B B, h B D B, h B B D⟩

/-- C56 (quads, forward): from point data `t0`, `t1`, `t2` (points fastest) the result at node `bx + nb * by`, field `f` (fields fastest)
is the sum over all quadrature points of the point data times the test function and its two derivatives. -/
theorem C56_forward_quad (B D : Nat → Nat → R) (s : Sz) (st : Bufs R) (f bx bY : Nat) (hf : f < s.nf) (hx : bx < s.nb) :
    (forwardQuad B D s st).r0 (f + s.nf * (bx + s.nb * bY)) =
      ∑ q ∈ range (s.nq * s.nq),
        (nodal (s.nq * s.nq) st.r0 f q * (B bx (q % s.nq) * B bY (q / s.nq)) +
         nodal (s.nq * s.nq) st.r1 f q * (D bx (q % s.nq) * B bY (q / s.nq)) +
         nodal (s.nq * s.nq) st.r2 f q * (B bx (q % s.nq) * D bY (q / s.nq))) := by
  simp only [nodal, forwardQuad]
  have h := fun (M N : Nat → Nat → R) (inp : Nat → R) => (two_sweeps s.nq s.nb s.nf M N inp f bx bY _ hf hx rfl).trans (grid2 s.nq f inp fun i j => M i bx * N j bY)
  have hadd : ∀ n m M (a b : Nat → R), sweepAdd n m M a b = fun i => b i + sweep n m M a i := fun _ _ _ _ _ => rfl
  rw [hadd, hadd]
  simp only []
  rw [sweep_add, h, h, h, ← Finset.sum_add_distrib, ← Finset.sum_add_distrib]
  rfl

/-- C56 (hexahedra, forward). -/
theorem C56_forward_hex (B D : Nat → Nat → R) (s : Sz) (st : Bufs R) (f bx bY bz : Nat) (hf : f < s.nf) (hx : bx < s.nb) (hy : bY < s.nb) :
    (forwardHex B D s st).r0 (f + s.nf * (bx + s.nb * (bY + s.nb * bz))) =
      ∑ q ∈ range (s.nq * s.nq * s.nq),
        (nodal (s.nq * s.nq * s.nq) st.r0 f q * (B bx (q % (s.nq * s.nq) % s.nq) * B bY (q % (s.nq * s.nq) / s.nq) * B bz (q / (s.nq * s.nq))) +
         nodal (s.nq * s.nq * s.nq) st.r1 f q * (D bx (q % (s.nq * s.nq) % s.nq) * B bY (q % (s.nq * s.nq) / s.nq) * B bz (q / (s.nq * s.nq))) +
         nodal (s.nq * s.nq * s.nq) st.r2 f q * (B bx (q % (s.nq * s.nq) % s.nq) * D bY (q % (s.nq * s.nq) / s.nq) * B bz (q / (s.nq * s.nq))) +
         nodal (s.nq * s.nq * s.nq) st.r3 f q * (B bx (q % (s.nq * s.nq) % s.nq) * B bY (q % (s.nq * s.nq) / s.nq) * D bz (q / (s.nq * s.nq)))) := by
  simp only [nodal, forwardHex]
  have h := fun (M N O : Nat → Nat → R) (inp : Nat → R) => (three_sweeps s.nq s.nb s.nf M N O inp f bx bY bz _ hf hx hy rfl).trans
    (grid3 s.nq f inp fun i j k => M i bx * N j bY * O k bz)
  have hadd : ∀ n m M (a b : Nat → R), sweepAdd n m M a b = fun i => b i + sweep n m M a i := fun _ _ _ _ _ => rfl
  have hlin : ∀ n m M (a b : Nat → R), sweep n m M (fun i => a i + b i) = fun i => sweep n m M a i + sweep n m M b i :=
    fun n m M a b => funext fun i => sweep_add n m M a b i
  simp only [hadd, hlin, h, ← Finset.sum_add_distrib]
  rfl

/-- A 2×2 tensor basis on one point with two fields. -/
example : (backQuad (fun i _ => if i = 0 then 1 else 2) (fun i _ => if i = 0 then 3 else 4) ⟨2, 1, 2⟩ ⟨0, 0, 0, 0, 0⟩ (fun k => k + 1) : Bufs ℕ).r1 1 = 145 := by
  decide

end Verif.SumFact
