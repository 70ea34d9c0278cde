import Verif.SumOp.Quad2

/-! Hexahedra. -/
namespace Verif.SumOp
open Finset Verif.SumFact Verif.Elem Verif.Mapping Verif.Basis Matrix

theorem geoHex_at (d : Data) (st : Bufs ℝ) (f qx qy qz : Nat) (hf : f < 3) (hx : qx < d.nq) (hy : qy < d.nq) :
    let p := coords3 (d.qp qx, d.qp qy, d.qp qz)
    let i := f + 3 * (qx + d.nq * (qy + d.nq * qz))
    (geoHex d st).r0 i = mapToPhysical .hex d.vert p f ∧
    (∀ h0 : f < ElType.hex.dim, (geoHex d st).r1 i = jacobiMat .hex d.vert p ⟨0, by decide⟩ ⟨f, h0⟩ ∧
    (geoHex d st).r2 i = jacobiMat .hex d.vert p ⟨1, by decide⟩ ⟨f, h0⟩ ∧ (geoHex d st).r3 i = jacobiMat .hex d.vert p ⟨2, by decide⟩ ⟨f, h0⟩) := by
  intro p i
  have h := C56_back_hex (interp 2 absc1 d.qp) (deriv 2 absc1 d.qp) ⟨2, d.nq, 3⟩ st (fillCoords 8 d.vert) f qx qy qz hf hx hy
  simp only [] at h
  obtain ⟨h0, h1, h2, h3⟩ := h
  refine ⟨h0.trans ?_, fun hf' => ⟨h1.trans ?_, h2.trans ?_, h3.trans ?_⟩⟩
  · unfold mapToPhysical valueAt
    rw [sum_list_range]
    refine Finset.sum_congr rfl fun I hI => ?_
    rw [fillCoords_at 8 d.vert f I (Finset.mem_range.1 hI)]
    rfl
  all_goals
    unfold jacobiMat
    rw [foldl_sum]
    refine Finset.sum_congr rfl fun I hI => ?_
    rw [fillCoords_at 8 d.vert f I (Finset.mem_range.1 hI)]
    rfl

/-- Basis values and reference derivatives at a point. -/
noncomputable def psi3 (n : Nat) (x : Nat → ℝ) (p : Nat → ℝ) : Fin 4 → Nat → ℝ := fun k I =>
  if k = 0 then basisFun .hex n x I p else if k = 1 then basisDer .hex n x 0 I p else if k = 2 then basisDer .hex n x 1 I p else basisDer .hex n x 2 I p

theorem physDer_hex (n : Nat) (x : Nat → ℝ) (vert : Nat → Nat → ℝ) (p : Nat → ℝ) (d : Fin 3) (I : Nat) (hI : I < n * n * n) :
    ∑ k : Fin 3, ((jacobiMat .hex vert p : Matrix (Fin 3) (Fin 3) ℝ)ᵀ)⁻¹ k d * psi3 n x p k.succ I = physDer .hex n x vert p d I := by
  have hI' : I < n ^ ElType.hex.dim := by change I < n ^ 3; rw [pow_succ, sq]; exact hI
  unfold physDer
  rw [dif_pos ⟨d.2, hI'⟩]
  unfold physBasisDers
  rw [Matrix.mul_apply, ← Matrix.transpose_nonsing_inv]
  change ∑ k : Fin 3, _ = ∑ k : Fin 3, _
  refine Finset.sum_congr rfl fun k _ => ?_
  change (jacobiMat .hex vert p)⁻¹ d k * _ = (jacobiMat .hex vert p)⁻¹ d k * _
  congr 1
  fin_cases k <;> rfl

/-- The kernel does not look at the third coordinate. -/
def IgnoresZ {dim nfld : Nat} (kern : Kern dim nfld) : Prop := ∀ v d p p', p 0 = p' 0 → p 1 = p' 1 → kern ⟨v, d, p⟩ = kern ⟨v, d, p'⟩

theorem hexQP_eq (c : Cfg) (kern : Kern 3 c.nfld) (hk : IgnoresZ kern) (x : Nat → ℝ) (rule : Quad.Rule1) (vert : Nat → Nat → ℝ)
    (st sb : Bufs ℝ) (fill : Nat → ℝ) (q I u r : Nat) (hq : q < rule.length * rule.length * rule.length) (hI : I < c.nb * c.nb * c.nb) (hu : u < c.nu)
    (hr : r < c.nrhs) (target : Nat) :
    let d := ofRule x rule vert
    let D : Batch.Dims := ⟨c.ne, c.nu, c.nb * c.nb * c.nb, 3, target⟩
    let qx := q % (rule.length * rule.length) % rule.length
    let qy := q % (rule.length * rule.length) / rule.length
    let qz := q / (rule.length * rule.length)
    let p := coords3 (pts rule qx, pts rule qy, pts rule qz)
    let U := stdUpd .hex c.nb c.nfld x kern vert (fun b f => fill (b + c.nb * c.nb * c.nb * (c.nops + f))) p (wts rule qx * wts rule qy * wts rule qz)
    ∑ k, hexQP c kern d (geoHex d st) (backHex (interp c.nb x d.qp) (deriv c.nb x d.qp) ⟨c.nb, d.nq, c.total⟩ sb fill) q k (u + c.nu * r) * psi3 c.nb x p k I =
      U.w * ∑ e ∈ range c.ne, Batch.shape D U (I * c.nu + u) e * ∑ J ∈ range (c.nb * c.nb * c.nb), ∑ v ∈ range c.nu,
        Batch.shape D U (J * c.nu + v) e * fill (J + c.nb * c.nb * c.nb * (v + c.nu * r)) := by
  intro d D qx qy qz p U
  have hn : 0 < rule.length := Nat.pos_of_ne_zero fun h => by simp [h] at hq
  have hx : qx < rule.length := Nat.mod_lt _ hn
  have hy : qy < rule.length := Nat.div_lt_of_lt_mul (Nat.mod_lt _ (Nat.mul_pos hn hn))
  have hqe : qx + rule.length * (qy + rule.length * qz) = q := by
    have h1 := Nat.mod_add_div (q % (rule.length * rule.length)) rule.length
    have h2 := Nat.mod_add_div q (rule.length * rule.length)
    calc qx + rule.length * (qy + rule.length * qz) = (qx + rule.length * qy) + rule.length * rule.length * qz := by ring
      _ = q := by rw [h1, h2]
  have hgeo := fun f hf => geoHex_at d st f qx qy qz hf hx hy
  simp only [show d.nq = rule.length from rfl, hqe, show d.vert = vert from rfl, show d.qp = pts rule from rfl] at hgeo
  have hjm : (!![(geoHex d st).r1 (0 + 3 * q), (geoHex d st).r2 (0 + 3 * q), (geoHex d st).r3 (0 + 3 * q);
       (geoHex d st).r1 (1 + 3 * q), (geoHex d st).r2 (1 + 3 * q), (geoHex d st).r3 (1 + 3 * q);
       (geoHex d st).r1 (2 + 3 * q), (geoHex d st).r2 (2 + 3 * q), (geoHex d st).r3 (2 + 3 * q)] : Matrix (Fin 3) (Fin 3) ℝ) =
      (jacobiMat .hex vert p : Matrix (Fin 3) (Fin 3) ℝ)ᵀ := by
    obtain ⟨a1, a2, a3⟩ := (hgeo 0 (by decide)).2 (by decide)
    obtain ⟨b1, b2, b3⟩ := (hgeo 1 (by decide)).2 (by decide)
    obtain ⟨c1, c2, c3⟩ := (hgeo 2 (by decide)).2 (by decide)
    rw [a1, a2, a3, b1, b2, b3, c1, c2, c3]
    ext i j
    fin_cases i <;> fin_cases j <;> rfl
  have hback := fun f hf => C56_back_hex (interp c.nb x d.qp) (deriv c.nb x d.qp) ⟨c.nb, d.nq, c.total⟩ sb fill f qx qy qz hf hx hy
  simp only [show d.nq = rule.length from rfl, show d.qp = pts rule from rfl, hqe] at hback
  have hrow : ∀ (k : Fin (3 + 1)) (f : Nat), f < c.total →
      rowHex c.total (backHex (interp c.nb x d.qp) (deriv c.nb x d.qp) ⟨c.nb, d.nq, c.total⟩ sb fill) q k f =
        ∑ I ∈ range (c.nb * c.nb * c.nb), fill (I + c.nb * c.nb * c.nb * f) * psi3 c.nb x p k I := by
    intro k f hf
    obtain ⟨h0, h1, h2, h3⟩ := hback f hf
    fin_cases k
    · exact h0
    · exact h1
    · exact h2
    · exact h3
  have hdet : (wts rule qx * wts rule qy * wts rule qz) * ((jacobiMat .hex vert p : Matrix (Fin 3) (Fin 3) ℝ)ᵀ).det = U.w := by
    rw [Matrix.det_transpose, mul_comm]; rfl
  have hcube : c.nb ^ ElType.hex.dim = c.nb * c.nb * c.nb := by change c.nb ^ 3 = _; rw [pow_succ, sq]
  unfold hexQP
  rw [hjm]
  have hA : kern ⟨fun i => ∑ b ∈ range (c.nb * c.nb * c.nb), fill (b + c.nb * c.nb * c.nb * (c.nops + i)) * psi3 c.nb x p 0 b,
      fun d i => ∑ b ∈ range (c.nb * c.nb * c.nb), (∑ k, ((jacobiMat .hex vert p : Matrix (Fin 3) (Fin 3) ℝ)ᵀ)⁻¹ k d * psi3 c.nb x p k.succ b) * fill (b + c.nb * c.nb * c.nb * (c.nops + i)),
      ![(geoHex d st).r0 (0 + 3 * q), (geoHex d st).r0 (1 + 3 * q), 0]⟩ = U.op := by
    rw [(hgeo 0 (by decide)).1, (hgeo 1 (by decide)).1]
    refine (hk _ _ _ (fun k : Fin 3 => mapToPhysical .hex vert p k) rfl rfl).trans ?_
    change _ = kern _
    congr 2
    · funext i
      rw [hcube]
      rfl
    · funext d i
      rw [hcube]
      refine Finset.sum_congr rfl fun b hb => ?_
      exact congrArg (· * fill (b + c.nb * c.nb * c.nb * (c.nops + i))) (physDer_hex c.nb x vert p d b (Finset.mem_range.1 hb))
  have key := point_identity (dim := 3) c kern (jacobiMat .hex vert p : Matrix (Fin 3) (Fin 3) ℝ)ᵀ _ U.w
    (fun f I => fill (I + c.nb * c.nb * c.nb * f)) (c.nb * c.nb * c.nb) (psi3 c.nb x p) _ hrow I u r hu hr U.op hA
  have hresp : ∀ J < c.nb * c.nb * c.nb, ∀ v < c.nu, ∀ e, resp U.op ((jacobiMat .hex vert p : Matrix (Fin 3) (Fin 3) ℝ)ᵀ)⁻¹ (psi3 c.nb x p) J v e =
      Batch.shape D U (J * c.nu + v) e := by
    intro J hJ v hv e
    unfold resp Batch.shape
    simp only [D]
    rw [show (J * c.nu + v) / c.nu = J by rw [Nat.mul_comm, Nat.mul_add_div (by omega), Nat.div_eq_of_lt hv, Nat.add_zero],
      show (J * c.nu + v) % c.nu = v by rw [Nat.mul_comm, Nat.mul_add_mod, Nat.mod_eq_of_lt hv]]
    rw [← Fin.sum_univ_eq_sum_range (fun d => U.bd d J * U.op (d + 1) e v) 3]
    congr 1
    refine Finset.sum_congr rfl fun d _ => ?_
    exact congrArg (· * U.op (d + 1) e v) (physDer_hex c.nb x vert p d J hJ)
  change ∑ k, evalQP (dim := 3) c kern _ _ (wts rule qx * wts rule qy * wts rule qz *
    ((jacobiMat .hex vert p : Matrix (Fin 3) (Fin 3) ℝ)ᵀ).det) _ k _ * _ = _
  rw [hdet]
  refine key.trans ?_
  congr 1
  refine Finset.sum_congr rfl fun e _ => ?_
  refine congrArg₂ (· * ·) (hresp I hI u hu e) ?_
  refine Finset.sum_congr rfl fun J hJ => Finset.sum_congr rfl fun v hv => ?_
  exact congrArg (· * fill (J + c.nb * c.nb * c.nb * (v + c.nu * r))) (hresp J (Finset.mem_range.1 hJ) v (Finset.mem_range.1 hv) e)

end Verif.SumOp
