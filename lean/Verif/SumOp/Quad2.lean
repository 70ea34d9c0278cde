import Verif.SumOp.Lemmas

/-! Quadrilaterals. -/
namespace Verif.SumOp
open Finset Verif.SumFact Verif.Elem Verif.Mapping Verif.Basis Matrix

theorem sum_list_range (n : Nat) (f : Nat → ℝ) : ((List.range n).map f).sum = ∑ i ∈ range n, f i := by
  induction n with
  | zero => simp
  | succ n ih => rw [List.range_succ, List.map_append, List.sum_append, ih, Finset.sum_range_succ]; simp

theorem apply_eq (D : Batch.Dims) (us : List Batch.Upd) (x : Nat → ℝ) (i : Nat) :
    ∑ j ∈ range D.size, Batch.directMat D us i j * x j =
      (us.map fun u => u.w * ∑ e ∈ range D.us, Batch.shape D u i e * ∑ J ∈ range D.nb, ∑ v ∈ range D.nu, Batch.shape D u (J * D.nu + v) e * x (J * D.nu + v)).sum := by
  have hg : ∀ g : Nat → ℝ, ∑ j ∈ range D.size, g j = ∑ J ∈ range D.nb, ∑ v ∈ range D.nu, g (J * D.nu + v) := by
    intro g
    have := sum_grid D.nu D.nb fun v J => g (J * D.nu + v)
    rw [← this]
    unfold Batch.Dims.size
    rw [Nat.mul_comm D.nb D.nu]
    refine Finset.sum_congr rfl fun j _ => ?_
    congr 1
    have := Nat.mod_add_div j D.nu
    rw [Nat.mul_comm]; omega
  have hgu : ∀ u : Batch.Upd, ∀ e, ∑ J ∈ range D.nb, ∑ v ∈ range D.nu, Batch.shape D u (J * D.nu + v) e * x (J * D.nu + v) =
      ∑ j ∈ range D.size, Batch.shape D u j e * x j := fun u e => (hg fun j => Batch.shape D u j e * x j).symm
  simp only [hgu]
  clear hgu hg
  induction us with
  | nil => simp [Batch.directMat]
  | cons u us ih =>
    rw [List.map_cons, List.sum_cons, ← ih]
    unfold Batch.directMat
    simp only [List.map_cons, List.sum_cons, add_mul, Finset.sum_add_distrib]
    congr 1
    simp only [Finset.mul_sum, Finset.sum_mul]
    rw [Finset.sum_comm]
    refine Finset.sum_congr rfl fun e _ => Finset.sum_congr rfl fun j _ => ?_
    ring

theorem geoQuad_at (d : Data) (st : Bufs ℝ) (f qx qy : Nat) (hf : f < 2) (hx : qx < d.nq) :
    let p := coords2 (d.qp qx, d.qp qy)
    (geoQuad d st).r0 (f + 2 * (qx + d.nq * qy)) = mapToPhysical .quad d.vert p f ∧
    (∀ h0 : f < ElType.quad.dim, (geoQuad d st).r1 (f + 2 * (qx + d.nq * qy)) = jacobiMat .quad d.vert p ⟨0, by decide⟩ ⟨f, h0⟩ ∧
    (geoQuad d st).r2 (f + 2 * (qx + d.nq * qy)) = jacobiMat .quad d.vert p ⟨1, by decide⟩ ⟨f, h0⟩) := by
  intro p
  have h := C56_back_quad (interp 2 absc1 d.qp) (deriv 2 absc1 d.qp) ⟨2, d.nq, 2⟩ st (fillCoords 4 d.vert) f qx qy hf hx
  simp only [] at h
  obtain ⟨h0, h1, h2⟩ := h
  refine ⟨h0.trans ?_, fun hf' => ⟨h1.trans ?_, h2.trans ?_⟩⟩
  · unfold mapToPhysical valueAt
    rw [sum_list_range]
    refine Finset.sum_congr rfl fun I hI => ?_
    rw [fillCoords_at 4 d.vert f I (Finset.mem_range.1 hI)]
    rfl
  · unfold jacobiMat
    rw [foldl_sum]
    refine Finset.sum_congr rfl fun I hI => ?_
    rw [fillCoords_at 4 d.vert f I (Finset.mem_range.1 hI)]
    rfl
  · unfold jacobiMat
    rw [foldl_sum]
    refine Finset.sum_congr rfl fun I hI => ?_
    rw [fillCoords_at 4 d.vert f I (Finset.mem_range.1 hI)]
    rfl

/-- Basis values and reference derivatives at a point. -/
noncomputable def psi2 (n : Nat) (x : Nat → ℝ) (p : Nat → ℝ) : Fin 3 → Nat → ℝ := fun k I =>
  if k = 0 then basisFun .quad n x I p else if k = 1 then basisDer .quad n x 0 I p else basisDer .quad n x 1 I p

theorem physDer_quad (n : Nat) (x : Nat → ℝ) (vert : Nat → Nat → ℝ) (p : Nat → ℝ) (d : Fin 2) (I : Nat) (hI : I < n * n) :
    ∑ k : Fin 2, ((jacobiMat .quad vert p : Matrix (Fin 2) (Fin 2) ℝ)ᵀ)⁻¹ k d * psi2 n x p k.succ I = physDer .quad n x vert p d I := by
  have hI' : I < n ^ ElType.quad.dim := by change I < n ^ 2; rw [sq]; exact hI
  unfold physDer
  rw [dif_pos ⟨d.2, hI'⟩]
  unfold physBasisDers
  rw [Matrix.mul_apply, ← Matrix.transpose_nonsing_inv]
  change ∑ k : Fin 2, _ = ∑ k : Fin 2, _
  refine Finset.sum_congr rfl fun k _ => ?_
  change (jacobiMat .quad vert p)⁻¹ d k * _ = (jacobiMat .quad vert p)⁻¹ d k * _
  congr 1
  fin_cases k <;> rfl

theorem quadQP_eq (c : Cfg) (kern : Kern 2 c.nfld) (x : Nat → ℝ) (rule : Quad.Rule1) (vert : Nat → Nat → ℝ) (hz : ∀ I < 4, vert I 2 = 0)
    (st sb : Bufs ℝ) (fill : Nat → ℝ) (q I u r : Nat) (hq : q < rule.length * rule.length) (hI : I < c.nb * c.nb) (hu : u < c.nu) (hr : r < c.nrhs) (target : Nat) :
    let d := ofRule x rule vert
    let D : Batch.Dims := ⟨c.ne, c.nu, c.nb * c.nb, 2, target⟩
    let p := coords2 (pts rule (q % rule.length), pts rule (q / rule.length))
    let U := stdUpd .quad c.nb c.nfld x kern vert (fun b f => fill (b + c.nb * c.nb * (c.nops + f))) p
      (wts rule (q % rule.length) * wts rule (q / rule.length))
    ∑ k, quadQP c kern d (geoQuad d st) (backQuad (interp c.nb x d.qp) (deriv c.nb x d.qp) ⟨c.nb, d.nq, c.total⟩ sb fill) q k (u + c.nu * r) * psi2 c.nb x p k I =
      U.w * ∑ e ∈ range c.ne, Batch.shape D U (I * c.nu + u) e * ∑ J ∈ range (c.nb * c.nb), ∑ v ∈ range c.nu,
        Batch.shape D U (J * c.nu + v) e * fill (J + c.nb * c.nb * (v + c.nu * r)) := by
  intro d D p U
  have hn : 0 < rule.length := Nat.pos_of_ne_zero fun h => by simp [h] at hq
  have hx : q % rule.length < rule.length := Nat.mod_lt _ hn
  have hqe : q % rule.length + rule.length * (q / rule.length) = q := Nat.mod_add_div _ _
  have hgeo := fun f hf => geoQuad_at d st f (q % rule.length) (q / rule.length) hf hx
  simp only [show d.nq = rule.length from rfl, hqe, show d.vert = vert from rfl, show d.qp = pts rule from rfl] at hgeo
  have hjm : (!![(geoQuad d st).r1 (0 + 2 * q), (geoQuad d st).r2 (0 + 2 * q); (geoQuad d st).r1 (1 + 2 * q), (geoQuad d st).r2 (1 + 2 * q)] : Matrix (Fin 2) (Fin 2) ℝ) =
      (jacobiMat .quad vert p : Matrix (Fin 2) (Fin 2) ℝ)ᵀ := by
    rw [((hgeo 0 (by decide)).2 (by decide)).1, ((hgeo 0 (by decide)).2 (by decide)).2, ((hgeo 1 (by decide)).2 (by decide)).1, ((hgeo 1 (by decide)).2 (by decide)).2]
    ext i j
    fin_cases i <;> fin_cases j <;> rfl
  have hpt : (![(geoQuad d st).r0 (0 + 2 * q), (geoQuad d st).r0 (1 + 2 * q), 0] : Fin 3 → ℝ) = fun k : Fin 3 => mapToPhysical .quad vert p k := by
    rw [(hgeo 0 (by decide)).1, (hgeo 1 (by decide)).1]
    funext k
    fin_cases k
    · rfl
    · rfl
    · change (0 : ℝ) = mapToPhysical .quad vert p 2
      unfold mapToPhysical valueAt
      rw [sum_list_range]
      symm
      refine Finset.sum_eq_zero fun I hI => ?_
      simp only [hz I (Finset.mem_range.1 hI), zero_mul]
  have hback := fun f hf => C56_back_quad (interp c.nb x d.qp) (deriv c.nb x d.qp) ⟨c.nb, d.nq, c.total⟩ sb fill f (q % rule.length) (q / rule.length) hf hx
  simp only [show d.nq = rule.length from rfl, show d.qp = pts rule from rfl, hqe] at hback
  have hrow : ∀ (k : Fin (2 + 1)) (f : Nat), f < c.total →
      rowQuad c.total (backQuad (interp c.nb x d.qp) (deriv c.nb x d.qp) ⟨c.nb, d.nq, c.total⟩ sb fill) q k f =
        ∑ I ∈ range (c.nb * c.nb), fill (I + c.nb * c.nb * f) * psi2 c.nb x p k I := by
    intro k f hf
    obtain ⟨h0, h1, h2⟩ := hback f hf
    fin_cases k
    · exact h0
    · exact h1
    · exact h2
  have hdet : (wts rule (q % rule.length) * wts rule (q / rule.length)) * ((jacobiMat .quad vert p : Matrix (Fin 2) (Fin 2) ℝ)ᵀ).det = U.w := by
    rw [Matrix.det_transpose, mul_comm]; rfl
  unfold quadQP
  rw [hjm, hpt]
  have hA : kern ⟨fun i => ∑ b ∈ range (c.nb * c.nb), fill (b + c.nb * c.nb * (c.nops + i)) * psi2 c.nb x p 0 b,
      fun d i => ∑ b ∈ range (c.nb * c.nb), (∑ k, ((jacobiMat .quad vert p : Matrix (Fin 2) (Fin 2) ℝ)ᵀ)⁻¹ k d * psi2 c.nb x p k.succ b) * fill (b + c.nb * c.nb * (c.nops + i)),
      fun k : Fin 3 => mapToPhysical .quad vert p k⟩ = U.op := by
    change _ = kern _
    congr 2
    · funext i
      rw [show c.nb ^ ElType.quad.dim = c.nb * c.nb from sq c.nb]
      rfl
    · funext d i
      rw [show c.nb ^ ElType.quad.dim = c.nb * c.nb from sq c.nb]
      refine Finset.sum_congr rfl fun b hb => ?_
      exact congrArg (· * fill (b + c.nb * c.nb * (c.nops + i))) (physDer_quad c.nb x vert p d b (Finset.mem_range.1 hb))
  have key := point_identity (dim := 2) c kern (jacobiMat .quad vert p : Matrix (Fin 2) (Fin 2) ℝ)ᵀ (fun k : Fin 3 => mapToPhysical .quad vert p k) U.w
    (fun f I => fill (I + c.nb * c.nb * f)) (c.nb * c.nb) (psi2 c.nb x p) _ hrow I u r hu hr U.op hA
  have hresp : ∀ J < c.nb * c.nb, ∀ v < c.nu, ∀ e, resp U.op ((jacobiMat .quad vert p : Matrix (Fin 2) (Fin 2) ℝ)ᵀ)⁻¹ (psi2 c.nb x p) J v e =
      Batch.shape D U (J * c.nu + v) e := by
    intro J hJ v hv e
    unfold resp Batch.shape
    simp only [D]
    rw [show (J * c.nu + v) / c.nu = J by rw [Nat.mul_comm, Nat.mul_add_div (by omega), Nat.div_eq_of_lt hv, Nat.add_zero],
      show (J * c.nu + v) % c.nu = v by rw [Nat.mul_comm, Nat.mul_add_mod, Nat.mod_eq_of_lt hv]]
    rw [← Fin.sum_univ_eq_sum_range (fun d => U.bd d J * U.op (d + 1) e v) 2]
    congr 1
    refine Finset.sum_congr rfl fun d _ => ?_
    exact congrArg (· * U.op (d + 1) e v) (physDer_quad c.nb x vert p d J hJ)
  change ∑ k, evalQP (dim := 2) c kern _ _ (wts rule (q % rule.length) * wts rule (q / rule.length) *
    ((jacobiMat .quad vert p : Matrix (Fin 2) (Fin 2) ℝ)ᵀ).det) _ k _ * _ = _
  rw [hdet]
  refine key.trans ?_
  congr 1
  refine Finset.sum_congr rfl fun e _ => ?_
  refine congrArg₂ (· * ·) (hresp I hI u hu e) ?_
  refine Finset.sum_congr rfl fun J hJ => Finset.sum_congr rfl fun v hv => ?_
  exact congrArg (· * fill (J + c.nb * c.nb * (v + c.nu * r))) (hresp J (Finset.mem_range.1 hJ) v (Finset.mem_range.1 hv) e)

end Verif.SumOp
