import Verif.SumOp.Hex3
import Verif.Mapping.Box

/-! # C91: the sum-factorised element operator is the standard element operator -/
namespace Verif.SumOp
open Finset Verif.SumFact Verif.Elem Verif.Mapping Verif.Basis Matrix

/-- **C91** (quadrilaterals).  For every order, rule, planar element, kernel, number of unknowns / equations / right-hand sides / external
fields, operand and contents of the uninitialised buffers, the entries of node `I`, unknown `u`, right-hand side `r` which `y_scatter` receives from
the sum-factorised evaluation (operand and fields given column by column, nodes fastest) are those computed by `evaluateLocalOperator` with
the same rule. -/
theorem C91_quad (c : Cfg) (hne : 0 < c.ne) (kern : Kern 2 c.nfld) (x : Nat → ℝ) (rule : Quad.Rule1) (vert : Nat → Nat → ℝ) (hz : ∀ I < 4, vert I 2 = 0)
    (i : Init) (fill : Nat → ℝ) (target batch : Nat) (hb : 0 < batch) (s : Batch.OSt) (hs : s.filled = 0) (r : Nat) (hr : r < c.nrhs) :
    ∃ res, Batch.evalOp ⟨c.ne, c.nu, c.nb * c.nb, 2, target⟩ batch s (fun j => fill (j / c.nu + c.nb * c.nb * (j % c.nu + c.nu * r)))
        (updsQuad c.nb c.nfld x kern vert (fun b f => fill (b + c.nb * c.nb * (c.nops + f))) rule) = some res ∧
      ∀ I < c.nb * c.nb, ∀ u < c.nu, sumFactQuad c kern (ofRule x rule vert) i fill (u + c.nu * r + c.nops * I) = res.2 (I * c.nu + u) := by
  obtain ⟨res, e, _, h⟩ := Batch.C54_operator ⟨c.ne, c.nu, c.nb * c.nb, 2, target⟩ batch hne hb s hs
    (fun j => fill (j / c.nu + c.nb * c.nb * (j % c.nu + c.nu * r)))
    (updsQuad c.nb c.nfld x kern vert (fun b f => fill (b + c.nb * c.nb * (c.nops + f))) rule)
  refine ⟨res, e, fun I hI u hu => ?_⟩
  have hnb : 0 < c.nb := Nat.pos_of_ne_zero fun h => by simp [h] at hI
  have hf : u + c.nu * r < c.nops := by
    have h' := pair_lt hu hr
    rwa [Nat.mul_comm c.nrhs] at h'
  rw [h (I * c.nu + u) (by
    change I * c.nu + u < c.nb * c.nb * c.nu
    calc I * c.nu + u < I * c.nu + c.nu := by omega
      _ = (I + 1) * c.nu := by ring
      _ ≤ c.nb * c.nb * c.nu := Nat.mul_le_mul_right _ hI), apply_eq]
  unfold updsQuad sumFactQuad
  rw [List.map_map, sum_quadRule]
  have hfw := C56_forward_quad (interp c.nb x (pts rule)) (deriv c.nb x (pts rule)) ⟨c.nb, rule.length, c.nops⟩
    ⟨fun idx => quadQP c kern (ofRule x rule vert) (geoQuad (ofRule x rule vert) i.geo)
        (backQuad (interp c.nb x (pts rule)) (deriv c.nb x (pts rule)) ⟨c.nb, rule.length, c.total⟩ i.back fill) (idx % (rule.length * rule.length)) 0 (idx / (rule.length * rule.length)),
      fun idx => quadQP c kern (ofRule x rule vert) (geoQuad (ofRule x rule vert) i.geo)
        (backQuad (interp c.nb x (pts rule)) (deriv c.nb x (pts rule)) ⟨c.nb, rule.length, c.total⟩ i.back fill) (idx % (rule.length * rule.length)) 1 (idx / (rule.length * rule.length)),
      fun idx => quadQP c kern (ofRule x rule vert) (geoQuad (ofRule x rule vert) i.geo)
        (backQuad (interp c.nb x (pts rule)) (deriv c.nb x (pts rule)) ⟨c.nb, rule.length, c.total⟩ i.back fill) (idx % (rule.length * rule.length)) 2 (idx / (rule.length * rule.length)),
      i.fwd.r3, (backQuad (interp c.nb x (pts rule)) (deriv c.nb x (pts rule)) ⟨c.nb, rule.length, c.total⟩ i.back fill).r0⟩
    (u + c.nu * r) (I % c.nb) (I / c.nb) hf (Nat.mod_lt _ hnb)
  simp only [Nat.mod_add_div] at hfw
  refine hfw.trans ?_
  refine Finset.sum_congr rfl fun q hq => ?_
  have hq := Finset.mem_range.1 hq
  have hq0 : 0 < rule.length * rule.length := by omega
  have key := quadQP_eq c kern x rule vert hz i.geo i.back fill q I u r hq hI hu hr target
  simp only [] at key
  have hxj : ∀ J v, v < c.nu → fill ((J * c.nu + v) / c.nu + c.nb * c.nb * ((J * c.nu + v) % c.nu + c.nu * r)) = fill (J + c.nb * c.nb * (v + c.nu * r)) := by
    intro J v hv
    rw [show (J * c.nu + v) / c.nu = J by rw [Nat.mul_comm, Nat.mul_add_div (by omega), Nat.div_eq_of_lt hv, Nat.add_zero],
      show (J * c.nu + v) % c.nu = v by rw [Nat.mul_comm, Nat.mul_add_mod, Nat.mod_eq_of_lt hv]]
  have hn : ∀ f, (q + rule.length * rule.length * f) % (rule.length * rule.length) = q ∧ (q + rule.length * rule.length * f) / (rule.length * rule.length) = f := by
    intro f
    rw [Nat.add_mul_mod_self_left, Nat.mod_eq_of_lt hq, Nat.add_mul_div_left _ _ hq0, Nat.div_eq_of_lt hq, Nat.zero_add]
    exact ⟨rfl, rfl⟩
  unfold nodal
  simp only [(hn _).1, (hn _).2]
  refine Eq.trans ?_ (key.trans ?_)
  · rw [Fin.sum_univ_three]
    rfl
  · simp only [Function.comp_apply]
    congr 1
    refine Finset.sum_congr rfl fun e _ => ?_
    congr 1
    refine Finset.sum_congr rfl fun J _ => Finset.sum_congr rfl fun v hv => ?_
    rw [hxj J v (Finset.mem_range.1 hv)]

/-- Quadratic elements, two unknowns, three equations, two right-hand sides and one field, a kernel depending on the field and the point. -/
example : (∀ I < 4, boxVert (fun k => (k : ℝ) - 2 * (if k = 2 then 1 else 0)) (fun k => if k = 2 then 0 else 3) I 2 = 0) ∧
    ∃ kern : Kern 2 1, kern ⟨fun _ => 1, fun _ _ => 0, ![2, 0, 0]⟩ ≠ kern ⟨fun _ => 1, fun _ _ => 0, ![3, 0, 0]⟩ :=
  ⟨fun I _ => by simp [boxVert], fun k o e u => k.vals 0 * k.point 0 + o + e * u, fun h => by
    have := congrFun (congrFun (congrFun h 0) 0) 0
    norm_num at this⟩

/-- The full claim for hexahedra. -/
def C91HexStatement : Prop := ∀ (c : Cfg), 0 < c.ne → ∀ (kern : Kern 3 c.nfld) (x : Nat → ℝ) (rule : Quad.Rule1) (vert : Nat → Nat → ℝ)
    (i : Init) (fill : Nat → ℝ) (target batch : Nat), 0 < batch → ∀ s : Batch.OSt, s.filled = 0 → ∀ r < c.nrhs,
    ∃ res, Batch.evalOp ⟨c.ne, c.nu, c.nb * c.nb * c.nb, 3, target⟩ batch s (fun j => fill (j / c.nu + c.nb * c.nb * c.nb * (j % c.nu + c.nu * r)))
        (updsHex c.nb c.nfld x kern vert (fun b f => fill (b + c.nb * c.nb * c.nb * (c.nops + f))) rule) = some res ∧
      ∀ I < c.nb * c.nb * c.nb, ∀ u < c.nu, sumFactHex c kern (ofRule x rule vert) i fill (u + c.nu * r + c.nops * I) = res.2 (I * c.nu + u)

/-- **C91** (hexahedra), for kernels which do not look at the third coordinate.  What is missing: `evalAtHexQPs` passes 0 as the third coordinate. -/
theorem C91_hex_partial (c : Cfg) (hne : 0 < c.ne) (kern : Kern 3 c.nfld) (hk : IgnoresZ kern) (x : Nat → ℝ) (rule : Quad.Rule1) (vert : Nat → Nat → ℝ)
    (i : Init) (fill : Nat → ℝ) (target batch : Nat) (hb : 0 < batch) (s : Batch.OSt) (hs : s.filled = 0) (r : Nat) (hr : r < c.nrhs) :
    ∃ res, Batch.evalOp ⟨c.ne, c.nu, c.nb * c.nb * c.nb, 3, target⟩ batch s (fun j => fill (j / c.nu + c.nb * c.nb * c.nb * (j % c.nu + c.nu * r)))
        (updsHex c.nb c.nfld x kern vert (fun b f => fill (b + c.nb * c.nb * c.nb * (c.nops + f))) rule) = some res ∧
      ∀ I < c.nb * c.nb * c.nb, ∀ u < c.nu, sumFactHex c kern (ofRule x rule vert) i fill (u + c.nu * r + c.nops * I) = res.2 (I * c.nu + u) := by
  obtain ⟨res, e, _, h⟩ := Batch.C54_operator ⟨c.ne, c.nu, c.nb * c.nb * c.nb, 3, target⟩ batch hne hb s hs
    (fun j => fill (j / c.nu + c.nb * c.nb * c.nb * (j % c.nu + c.nu * r)))
    (updsHex c.nb c.nfld x kern vert (fun b f => fill (b + c.nb * c.nb * c.nb * (c.nops + f))) rule)
  refine ⟨res, e, fun I hI u hu => ?_⟩
  have hnb : 0 < c.nb := Nat.pos_of_ne_zero fun h => by simp [h] at hI
  have hf : u + c.nu * r < c.nops := by
    have h' := pair_lt hu hr
    rwa [Nat.mul_comm c.nrhs] at h'
  rw [h (I * c.nu + u) (by
    change I * c.nu + u < c.nb * c.nb * c.nb * c.nu
    calc I * c.nu + u < I * c.nu + c.nu := by omega
      _ = (I + 1) * c.nu := by ring
      _ ≤ c.nb * c.nb * c.nb * c.nu := Nat.mul_le_mul_right _ hI), apply_eq]
  unfold updsHex sumFactHex
  rw [List.map_map, sum_hexRule]
  have hfw := C56_forward_hex (interp c.nb x (pts rule)) (deriv c.nb x (pts rule)) ⟨c.nb, rule.length, c.nops⟩
    ⟨fun idx => hexQP c kern (ofRule x rule vert) (geoHex (ofRule x rule vert) i.geo)
        (backHex (interp c.nb x (pts rule)) (deriv c.nb x (pts rule)) ⟨c.nb, rule.length, c.total⟩ i.back fill) (idx % (rule.length * rule.length * rule.length)) 0 (idx / (rule.length * rule.length * rule.length)),
      fun idx => hexQP c kern (ofRule x rule vert) (geoHex (ofRule x rule vert) i.geo)
        (backHex (interp c.nb x (pts rule)) (deriv c.nb x (pts rule)) ⟨c.nb, rule.length, c.total⟩ i.back fill) (idx % (rule.length * rule.length * rule.length)) 1 (idx / (rule.length * rule.length * rule.length)),
      fun idx => hexQP c kern (ofRule x rule vert) (geoHex (ofRule x rule vert) i.geo)
        (backHex (interp c.nb x (pts rule)) (deriv c.nb x (pts rule)) ⟨c.nb, rule.length, c.total⟩ i.back fill) (idx % (rule.length * rule.length * rule.length)) 2 (idx / (rule.length * rule.length * rule.length)),
      fun idx => hexQP c kern (ofRule x rule vert) (geoHex (ofRule x rule vert) i.geo)
        (backHex (interp c.nb x (pts rule)) (deriv c.nb x (pts rule)) ⟨c.nb, rule.length, c.total⟩ i.back fill) (idx % (rule.length * rule.length * rule.length)) 3 (idx / (rule.length * rule.length * rule.length)),
      (backHex (interp c.nb x (pts rule)) (deriv c.nb x (pts rule)) ⟨c.nb, rule.length, c.total⟩ i.back fill).r0⟩
    (u + c.nu * r) (I % (c.nb * c.nb) % c.nb) (I % (c.nb * c.nb) / c.nb) (I / (c.nb * c.nb)) hf (Nat.mod_lt _ hnb)
    (Nat.div_lt_of_lt_mul (Nat.mod_lt _ (Nat.mul_pos hnb hnb)))
  have hIe : I % (c.nb * c.nb) % c.nb + c.nb * (I % (c.nb * c.nb) / c.nb + c.nb * (I / (c.nb * c.nb))) = I := by
    have h1 := Nat.mod_add_div (I % (c.nb * c.nb)) c.nb
    have h2 := Nat.mod_add_div I (c.nb * c.nb)
    calc _ = (I % (c.nb * c.nb) % c.nb + c.nb * (I % (c.nb * c.nb) / c.nb)) + c.nb * c.nb * (I / (c.nb * c.nb)) := by ring
      _ = I := by rw [h1, h2]
  simp only [hIe] at hfw
  refine hfw.trans ?_
  refine Finset.sum_congr rfl fun q hq => ?_
  have hq := Finset.mem_range.1 hq
  have hq0 : 0 < rule.length * rule.length * rule.length := by omega
  have key := hexQP_eq c kern hk x rule vert i.geo i.back fill q I u r hq hI hu hr target
  simp only [] at key
  have hxj : ∀ J v, v < c.nu → fill ((J * c.nu + v) / c.nu + c.nb * c.nb * c.nb * ((J * c.nu + v) % c.nu + c.nu * r)) = fill (J + c.nb * c.nb * c.nb * (v + c.nu * r)) := by
    intro J v hv
    rw [show (J * c.nu + v) / c.nu = J by rw [Nat.mul_comm, Nat.mul_add_div (by omega), Nat.div_eq_of_lt hv, Nat.add_zero],
      show (J * c.nu + v) % c.nu = v by rw [Nat.mul_comm, Nat.mul_add_mod, Nat.mod_eq_of_lt hv]]
  have hn : ∀ f, (q + rule.length * rule.length * rule.length * f) % (rule.length * rule.length * rule.length) = q ∧ (q + rule.length * rule.length * rule.length * f) / (rule.length * rule.length * rule.length) = f := by
    intro f
    rw [Nat.add_mul_mod_self_left, Nat.mod_eq_of_lt hq, Nat.add_mul_div_left _ _ hq0, Nat.div_eq_of_lt hq, Nat.zero_add]
    exact ⟨rfl, rfl⟩
  unfold nodal
  simp only [(hn _).1, (hn _).2]
  refine Eq.trans ?_ (key.trans ?_)
  · rw [Fin.sum_univ_four]
    rfl
  · simp only [Function.comp_apply]
    congr 1
    refine Finset.sum_congr rfl fun e _ => ?_
    congr 1
    refine Finset.sum_congr rfl fun J _ => Finset.sum_congr rfl fun v hv => ?_
    rw [hxj J v (Finset.mem_range.1 hv)]


/-- A kernel which depends on the fields and on the first two coordinates only. -/
example : IgnoresZ (dim := 3) (nfld := 1) fun k o e u => k.vals 0 * k.point 0 + k.ders 2 0 * k.point 1 + o + e * u := by
  intro v d p p' h0 h1
  simp only [h0, h1]

/-- The kernel which multiplies by the third coordinate. -/
noncomputable def zKern : Kern 3 0 := fun k op _ _ => if op = 0 then k.point 2 else 0

theorem evalQP_zKern (c : Cfg) (kern : Kern 3 c.nfld) (hk : ∀ v d a b, kern ⟨v, d, ![a, b, 0]⟩ = fun _ _ _ => 0) (jm : Matrix (Fin 3) (Fin 3) ℝ) (a b w : ℝ)
    (row : Fin 4 → Nat → ℝ) (k : Fin 4) (f : Nat) : evalQP (dim := 3) c kern jm ![a, b, 0] w row k f = 0 := by
  unfold evalQP
  simp only [hk]
  refine Finset.sum_eq_zero fun e _ => ?_
  refine mul_eq_zero_of_left ?_ _
  refine Fin.cases ?_ (fun k => ?_) k
  · rfl
  · simp

theorem sumFactHex_zKern (d : Data) (i : Init) (fill : Nat → ℝ) : sumFactHex ⟨2, 1, 1, 1, 0⟩ zKern d i fill 0 = 0 := by
  have hz : ∀ v d a b, zKern ⟨v, d, ![a, b, 0]⟩ = fun _ _ _ => 0 := by
    intro v d a b
    funext o e u
    simp [zKern]
  unfold sumFactHex
  refine (C56_forward_hex _ _ ⟨2, d.nq, 1⟩ _ 0 0 0 0 Nat.one_pos Nat.two_pos Nat.two_pos).trans ?_
  refine Finset.sum_eq_zero fun q _ => ?_
  simp only [nodal, hexQP, evalQP_zKern ⟨2, 1, 1, 1, 0⟩ zKern hz, zero_mul, add_zero]

/-- With the kernel "multiply by z" on the cube with vertices (±1, ±1, 1 ± 1) the sum-factorised result is zero, the standard one is not. -/
theorem C91_hex_violated : ¬ C91HexStatement := by
  intro H
  obtain ⟨res, e, h⟩ := H ⟨2, 1, 1, 1, 0⟩ (by decide) zKern absc1 [(0, 2)] (boxVert (fun k => if k = 2 then 1 else 0) fun _ => 1) ⟨⟨0, 0, 0, 0, 0⟩, ⟨0, 0, 0, 0, 0⟩, ⟨0, 0, 0, 0, 0⟩⟩ (fun _ => 1) 1 1
    (by decide) ⟨fun _ _ => 0, fun _ => 0, 0⟩ rfl 0 (by decide)
  have h := h 0 (by decide) 0 (by decide)
  obtain ⟨res', e', -, h'⟩ := Batch.C54_operator ⟨1, 1, 8, 3, 1⟩ 1 (by decide) (by decide) ⟨fun _ _ => 0, fun _ => 0, 0⟩ rfl (fun _ => 1)
    (updsHex 2 0 absc1 zKern (boxVert (fun k => if k = 2 then 1 else 0) fun _ => 1) (fun _ _ => 1) [(0, 2)])
  have hres : res = res' := Option.some.inj (e.symm.trans e')
  subst hres
  rw [h' (0 * 1 + 0) (by decide), apply_eq] at h
  rw [show (0 + 1 * 0 + Cfg.nops ⟨2, 1, 1, 1, 0⟩ * 0 : Nat) = 0 from rfl, sumFactHex_zKern] at h
  set U := stdUpd .hex 2 0 absc1 zKern (boxVert (fun k => if k = 2 then 1 else 0) fun _ => 1) (fun _ _ => 1) (coords3 (0, 0, 0)) (2 * 2 * 2) with hU
  have hone : updsHex 2 0 absc1 zKern (boxVert (fun k => if k = 2 then 1 else 0) fun _ => 1) (fun _ _ => 1) [(0, 2)] = [U] := rfl
  rw [hone] at h
  have hw : U.w = 8 := by
    change (jacobiMat .hex _ _).det * _ = _
    rw [box_hex_det]
    norm_num
  have hop : ∀ o e u, U.op o e u = if o = 0 then 1 else 0 := by
    intro o e u
    change (if o = 0 then mapToPhysical .hex _ _ 2 else 0) = _
    rw [box_hex_map _ _ _ 2 (by decide)]
    simp [coords3]
  have hbv : ∀ J < 8, U.bv J = 1 / 8 := by
    intro J hJ
    change hex 2 absc1 J (0, 0, 0) = _
    unfold hex quad
    interval_cases J <;> simp [line_two_zero, line_two_one] <;> norm_num
  have hsh : ∀ J < 8, ∀ e, Batch.shape ⟨1, 1, 8, 3, 1⟩ U J e = 1 / 8 := by
    intro J hJ e
    unfold Batch.shape
    simp [hop, hbv J hJ]
  have hS : ∑ J ∈ range 8, ∑ v ∈ range 1, Batch.shape ⟨1, 1, 8, 3, 1⟩ U (J * 1 + v) 0 * 1 = 1 := by
    rw [Finset.sum_congr rfl fun J hJ => by rw [Finset.sum_range_one, Nat.mul_one, Nat.add_zero, hsh J (Finset.mem_range.1 hJ), mul_one]]
    simp
  rw [List.map_singleton, List.sum_singleton, hw, Finset.sum_range_one, hsh _ (by decide), hS] at h
  norm_num at h

end Verif.SumOp
