import Verif.SumFact.Props
import Mathlib.Tactic.FinCases

/-! # C58: points and Jacobi matrices seen by sum-factorised kernels -/
namespace Verif.SumFact
open Finset

variable {R : Type} [Field R]

/-- Jacobi matrix of the standard path (`getNatJacobiMatGenerator`, JacobiMat.hpp 15-45), entry (derivative `k`, coordinate `d`), for a
hexahedron. -/
def jacHex (vert : Nat → Nat → R) (xi eta zeta : R) (k d : Nat) : R :=
  ∑ I ∈ range 8, vert I d *
    ((if k = 0 then geomD (I % 4 % 2) 0 else lin xi (I % 4 % 2)) * (if k = 1 then geomD (I % 4 / 2) 0 else lin eta (I % 4 / 2)) *
      (if k = 2 then geomD (I / 4) 0 else lin zeta (I / 4)))

/-- C58 for hexahedra. -/
def C58Statement (R : Type) [Field R] : Prop := ∀ (nq : Nat) (qp : Nat → R) (st : Bufs R) (vert : Nat → Nat → R) (qx qy qz : Nat),
  qx < nq → qy < nq → qz < nq →
  hexPoint nq qp st vert (qz * nq * nq + qy * nq + qx) = mapHex vert (qp qx) (qp qy) (qp qz)

omit [Field R] in
theorem fillCoords_at (nv : Nat) (vert : Nat → Nat → R) (f I : Nat) (hI : I < nv) : nodal nv (fillCoords nv vert) f I = vert I f := by
  unfold nodal fillCoords
  rw [Nat.add_mul_mod_self_left, Nat.mod_eq_of_lt hI, Nat.add_mul_div_left _ _ (by omega), Nat.div_eq_of_lt hI, Nat.zero_add]

/-- C58 (quadrilaterals): a planar element (`z = 0`) passes the same point to the kernel as the standard path. -/
theorem C58_quad (nq : Nat) (qp : Nat → R) (st : Bufs R) (vert : Nat → Nat → R) (hz : ∀ I < 4, vert I 2 = 0) (qx qy : Nat) (hx : qx < nq) :
    quadPoint nq qp st vert (qy * nq + qx) = mapQuad vert (qp qx) (qp qy) := by
  have key : ∀ f < 2, (backQuad (geomB qp) geomD ⟨2, nq, 2⟩ st (fillCoords 4 vert)).r0 (f + 2 * (qy * nq + qx)) =
      ∑ I ∈ range 4, vert I f * (lin (qp qx) (I % 2) * lin (qp qy) (I / 2)) := by
    intro f hf
    have h := (C56_back_quad (geomB qp) geomD ⟨2, nq, 2⟩ st (fillCoords 4 vert) f qx qy hf hx).1
    simp only [] at h
    rw [show qy * nq + qx = qx + nq * qy by ring, h]
    refine Finset.sum_congr rfl fun I hI => ?_
    rw [fillCoords_at 4 vert f I (Finset.mem_range.1 hI)]
    rfl
  funext d
  unfold quadPoint mapQuad
  fin_cases d
  · exact key 0 (by decide)
  · exact key 1 (by decide)
  · change (0 : R) = _
    symm
    refine Finset.sum_eq_zero fun I hI => ?_
    rw [show ((⟨2, by decide⟩ : Fin 3) : Nat) = 2 from rfl, hz I (Finset.mem_range.1 hI), zero_mul]

theorem hex_at (nq : Nat) (qp : Nat → R) (st : Bufs R) (vert : Nat → Nat → R) (qx qy qz : Nat) (hx : qx < nq) (hy : qy < nq) (f : Nat) (hf : f < 3) :
    let r := backHex (geomB qp) geomD ⟨2, nq, 3⟩ st (fillCoords 8 vert)
    let idx := f + 3 * (qz * nq * nq + qy * nq + qx)
    r.r0 idx = ∑ I ∈ range 8, vert I f * (lin (qp qx) (I % 4 % 2) * lin (qp qy) (I % 4 / 2) * lin (qp qz) (I / 4)) ∧
    r.r1 idx = jacHex vert (qp qx) (qp qy) (qp qz) 0 f ∧ r.r2 idx = jacHex vert (qp qx) (qp qy) (qp qz) 1 f ∧
    r.r3 idx = jacHex vert (qp qx) (qp qy) (qp qz) 2 f := by
  have h := C56_back_hex (geomB qp) geomD ⟨2, nq, 3⟩ st (fillCoords 8 vert) f qx qy qz hf hx hy
  simp only [] at h
  simp only []
  rw [show qz * nq * nq + qy * nq + qx = qx + nq * (qy + nq * qz) by ring]
  obtain ⟨h0, h1, h2, h3⟩ := h
  refine ⟨h0.trans ?_, h1.trans ?_, h2.trans ?_, h3.trans ?_⟩ <;>
  · refine Finset.sum_congr rfl fun I hI => ?_
    rw [fillCoords_at 8 vert f I (Finset.mem_range.1 hI)]
    rfl

/-- C58 (partial): for hexahedra the first two coordinates of the point and all nine entries of the Jacobi matrix agree with the standard
path.  Missing: the third coordinate, for which the property is false unless it vanishes. -/
theorem C58_partial (nq : Nat) (qp : Nat → R) (st : Bufs R) (vert : Nat → Nat → R) (qx qy qz : Nat) (hx : qx < nq) (hy : qy < nq) :
    let p := hexPoint nq qp st vert (qz * nq * nq + qy * nq + qx)
    let x := mapHex vert (qp qx) (qp qy) (qp qz)
    let r := backHex (geomB qp) geomD ⟨2, nq, 3⟩ st (fillCoords 8 vert)
    p 0 = x 0 ∧ p 1 = x 1 ∧ (p 2 = x 2 ↔ x 2 = 0) ∧
    ∀ d < 3, r.r1 (d + 3 * (qz * nq * nq + qy * nq + qx)) = jacHex vert (qp qx) (qp qy) (qp qz) 0 d ∧
      r.r2 (d + 3 * (qz * nq * nq + qy * nq + qx)) = jacHex vert (qp qx) (qp qy) (qp qz) 1 d ∧
      r.r3 (d + 3 * (qz * nq * nq + qy * nq + qx)) = jacHex vert (qp qx) (qp qy) (qp qz) 2 d := by
  have h := hex_at nq qp st vert qx qy qz hx hy
  refine ⟨(h 0 (by decide)).1, (h 1 (by decide)).1, ?_, fun d hd => (h d hd).2⟩
  change (0 : R) = _ ↔ _
  exact eq_comm

/-- The unit cube shifted to `z = 5 .. 6`. -/
def exVert : Nat → Nat → ℚ := fun I d => if d = 0 then (I % 2 : Nat) else if d = 1 then (I % 4 / 2 : Nat) else 5 + (I / 4 : Nat)

/-- C58 fails: in an element above the plane `z = 0` the kernel sees `z = 0`. -/
theorem C58_violated : ¬ C58Statement ℚ := by
  intro h
  have h1 := congrFun (h 1 (fun _ => 0) ⟨0, 0, 0, 0, 0⟩ exVert 0 0 0 (by decide) (by decide) (by decide)) 2
  have h2 := (C58_partial 1 (fun _ => 0) ⟨0, 0, 0, 0, 0⟩ exVert 0 0 0 (by decide) (by decide)).2.2.1.1 h1
  have h3 : mapHex exVert 0 0 0 2 = 11 / 2 := by
    unfold mapHex
    simp only [Finset.sum_range_succ, Finset.sum_range_zero, lin, exVert]
    norm_num
  rw [h3] at h2
  norm_num at h2

example : mapQuad (fun I d => if d = 0 then (I % 2 : Nat) else if d = 1 then (I / 2 : Nat) else 0 : Nat → Nat → ℚ) (1 / 2) 0 0 = 3 / 4 := by
  unfold mapQuad
  simp only [Finset.sum_range_succ, Finset.sum_range_zero, lin]
  norm_num

end Verif.SumFact
