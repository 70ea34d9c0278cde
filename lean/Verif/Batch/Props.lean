import Verif.Batch.Model
import Mathlib.Data.List.Induction
import Mathlib.Tactic.Ring
import Mathlib.Tactic.Linarith
import Mathlib.Tactic.NormNum

/-! # C54, C55: batched assembly -/
namespace Verif.Batch
open Finset

/-- Equation `e` of the least-squares operator at a point, applied to local shape function number `r` (basis function `r / nu`, unknown
`r % nu`). -/
noncomputable def shape (D : Dims) (u : Upd) (r e : Nat) : ℝ :=
  u.bv (r / D.nu) * u.op 0 e (r % D.nu) + ∑ d ∈ range D.dim, u.bd d (r / D.nu) * u.op (d + 1) e (r % D.nu)

/-- The local matrix as a weighted sum over the quadrature points. -/
noncomputable def directMat (D : Dims) (us : List Upd) (i j : Nat) : ℝ :=
  (us.map fun u => u.w * ∑ e ∈ range D.us, shape D u i e * shape D u j e).sum

noncomputable def directRhs (D : Dims) (us : List Upd) (i k : Nat) : ℝ :=
  (us.map fun u => u.w * ∑ e ∈ range D.us, shape D u i e * u.F e k).sum

theorem upb_pos (D : Dims) (ht : 0 < D.target) (hu : 0 < D.us) : 0 < D.upb := by
  unfold Dims.upb divUp
  split
  · rename_i h
    refine Nat.div_pos (Nat.le_of_dvd ht (Nat.dvd_of_mod_eq_zero h)) hu
  · exact Nat.succ_pos _

/-- Contribution of the columns of a buffer. -/
noncomputable def gram (buf : Buf) (n i j : Nat) : ℝ := ∑ c ∈ range n, buf i c * buf j c

theorem gram_fill (D : Dims) (u : Upd) (buf : Buf) (b i j : Nat) (hi : i < D.size) (hj : j < D.size) :
    gram (fill D u buf b) ((b + 1) * D.us) i j = gram buf (b * D.us) i j + |u.w| * ∑ e ∈ range D.us, shape D u i e * shape D u j e := by
  unfold gram
  rw [Nat.add_mul, Nat.one_mul, Finset.sum_range_add]
  congr 1
  · refine Finset.sum_congr rfl fun c hc => ?_
    have hc := Finset.mem_range.1 hc
    unfold fill
    rw [if_neg (fun h => by omega), if_neg (fun h => by omega)]
  · rw [Finset.mul_sum]
    refine Finset.sum_congr rfl fun e he => ?_
    have he := Finset.mem_range.1 he
    unfold fill
    rw [if_pos ⟨hi, by omega, by omega⟩, if_pos ⟨hj, by omega, by omega⟩]
    rw [Nat.add_sub_cancel_left]
    have hs : Real.sqrt |u.w| * Real.sqrt |u.w| = |u.w| := Real.mul_self_sqrt (abs_nonneg _)
    have h1 : block D u (i / D.nu) (i % D.nu) e = shape D u i e := rfl
    have h2 : block D u (j / D.nu) (j % D.nu) e = shape D u j e := rfl
    rw [h1, h2]
    calc shape D u i e * Real.sqrt |u.w| * (shape D u j e * Real.sqrt |u.w|) =
        (Real.sqrt |u.w| * Real.sqrt |u.w|) * (shape D u i e * shape D u j e) := by ring
      _ = _ := by rw [hs]

/-- What the system will be once flushed. -/
noncomputable def value (D : Dims) (s : St) (i j : Nat) : ℝ := s.mat i j + gram s.pos (s.pb * D.us) i j - gram s.neg (s.ngb * D.us) i j

structure Inv (D : Dims) (s : St) : Prop where
  pb : s.pb < D.upb
  ngb : s.ngb < D.upb

theorem update_spec (D : Dims) (s : St) (u : Upd) (h : Inv D s) (hpos : 0 < D.upb) : ∃ s', update D s u = some s' ∧ Inv D s' ∧
    (∀ i j, i < D.size → j ≤ i → value D s' i j = value D s i j + u.w * ∑ e ∈ range D.us, shape D u i e * shape D u j e) ∧
    (∀ i k, i < D.size → s'.rhs i k = s.rhs i k + u.w * ∑ e ∈ range D.us, shape D u i e * u.F e k) := by
  have hp := h.pb
  have hn := h.ngb
  have hrhs : ∀ i k, i < D.size → addRhs D u s.rhs i k = s.rhs i k + u.w * ∑ e ∈ range D.us, shape D u i e * u.F e k := by
    intro i k hi
    unfold addRhs
    rw [if_pos hi, mul_comm]
    rfl
  unfold update
  by_cases hw : 0 ≤ u.w
  · rw [if_pos hw, if_neg (by omega)]
    refine ⟨_, rfl, ?_, ?_, ?_⟩
    · unfold flushPos
      split
      · exact ⟨hpos, hn⟩
      · rename_i h1
        refine ⟨?_, hn⟩
        have : s.pb + 1 ≠ D.upb := h1
        change s.pb + 1 < D.upb
        omega
    · intro i j hi hj
      have hg := gram_fill D u s.pos s.pb i j hi (by omega)
      rw [abs_of_nonneg hw] at hg
      unfold flushPos
      split
      · rename_i h1
        have h1 : s.pb + 1 = D.upb := h1
        simp only [value, rankUpdate, Nat.zero_mul]
        rw [if_pos ⟨hi, hj⟩, one_mul]
        have hgg : ∑ c ∈ range (D.us * D.upb), fill D u s.pos s.pb i c * fill D u s.pos s.pb j c = gram (fill D u s.pos s.pb) ((s.pb + 1) * D.us) i j := by
          rw [h1, Nat.mul_comm]; rfl
        rw [hgg, hg]
        simp only [gram, Finset.range_zero, Finset.sum_empty]
        ring
      · simp only [value]
        rw [hg]
        ring
    · intro i k hi
      unfold flushPos
      split <;> exact hrhs i k hi
  · rw [if_neg hw, if_neg (by omega)]
    have hw' : u.w < 0 := not_le.1 hw
    refine ⟨_, rfl, ?_, ?_, ?_⟩
    · unfold flushNeg
      split
      · exact ⟨hp, hpos⟩
      · rename_i h1
        refine ⟨hp, ?_⟩
        have : s.ngb + 1 ≠ D.upb := h1
        change s.ngb + 1 < D.upb
        omega
    · intro i j hi hj
      have hg := gram_fill D u s.neg s.ngb i j hi (by omega)
      rw [abs_of_neg hw'] at hg
      unfold flushNeg
      split
      · rename_i h1
        have h1 : s.ngb + 1 = D.upb := h1
        simp only [value, rankUpdate, Nat.zero_mul]
        rw [if_pos ⟨hi, hj⟩]
        have hgg : ∑ c ∈ range (D.us * D.upb), fill D u s.neg s.ngb i c * fill D u s.neg s.ngb j c = gram (fill D u s.neg s.ngb) ((s.ngb + 1) * D.us) i j := by
          rw [h1, Nat.mul_comm]; rfl
        rw [hgg, hg]
        simp only [gram, Finset.range_zero, Finset.sum_empty]
        ring
      · simp only [value]
        rw [hg]
        ring
    · intro i k hi
      unfold flushNeg
      split <;> exact hrhs i k hi

theorem updates_spec (D : Dims) (us : List Upd) (s : St) (h : Inv D s) (hpos : 0 < D.upb) : ∃ s', us.foldlM (update D) s = some s' ∧ Inv D s' ∧
    (∀ i j, i < D.size → j ≤ i → value D s' i j = value D s i j + directMat D us i j) ∧
    (∀ i k, i < D.size → s'.rhs i k = s.rhs i k + directRhs D us i k) := by
  induction us generalizing s with
  | nil => exact ⟨s, rfl, h, fun i j _ _ => by simp [directMat], fun i k _ => by simp [directRhs]⟩
  | cons u us ih =>
    obtain ⟨s1, e1, i1, m1, r1⟩ := update_spec D s u h hpos
    obtain ⟨s2, e2, i2, m2, r2⟩ := ih s1 i1
    refine ⟨s2, ?_, i2, ?_, ?_⟩
    · rw [List.foldlM_cons, e1]; exact e2
    · intro i j hi hj
      rw [m2 i j hi hj, m1 i j hi hj]
      simp only [directMat, List.map_cons, List.sum_cons]
      ring
    · intro i k hi
      rw [r2 i k hi, r1 i k hi]
      simp only [directRhs, List.map_cons, List.sum_cons]
      ring

theorem flush_mat (D : Dims) (s : St) (i j : Nat) (hi : i < D.size) (hj : j ≤ i) : (flush D s).mat i j = value D s i j := by
  unfold flush rankUpdate value gram
  simp only [if_pos (show i < D.size ∧ j ≤ i from ⟨hi, hj⟩)]
  ring

theorem directMat_symm (D : Dims) (us : List Upd) (i j : Nat) : directMat D us i j = directMat D us j i := by
  unfold directMat
  congr 1
  refine List.map_congr_left fun u _ => ?_
  congr 1
  exact Finset.sum_congr rfl fun e _ => mul_comm _ _

/-- The pending columns of a state. -/
noncomputable def pending (D : Dims) (s : St) (i j : Nat) : ℝ := gram s.pos (s.pb * D.us) i j - gram s.neg (s.ngb * D.us) i j

theorem pending_symm (D : Dims) (s : St) (i j : Nat) : pending D s i j = pending D s j i := by
  unfold pending gram
  congr 1 <;> exact Finset.sum_congr rfl fun e _ => mul_comm _ _

theorem assemble_spec (D : Dims) (us : List Upd) (s : St) (h : Inv D s) (hpos : 0 < D.upb) : ∃ s', assemble D s us = some s' ∧
    s'.pb = 0 ∧ s'.ngb = 0 ∧
    (∀ i j, i < D.size → j < D.size → s'.mat i j = directMat D us i j + pending D s i j) ∧ (∀ i k, i < D.size → s'.rhs i k = directRhs D us i k) := by
  obtain ⟨s', e, _, hm, hr⟩ := updates_spec D us (setZero s) ⟨h.pb, h.ngb⟩ hpos
  refine ⟨getSystem D s', ?_, rfl, rfl, ?_, ?_⟩
  · unfold assemble; rw [e]; rfl
  · have hlow : ∀ i j, i < D.size → j ≤ i → (flush D s').mat i j = directMat D us i j + pending D s i j := by
      intro i j hi hj
      rw [flush_mat D s' i j hi hj, hm i j hi hj]
      simp only [value, setZero, pending]
      ring
    intro i j hi hj
    change (if j ≤ i then (flush D s').mat i j else (flush D s').mat j i) = _
    split
    · rename_i h1; exact hlow i j hi h1
    · rename_i h1
      rw [hlow j i hj (by omega), directMat_symm, pending_symm]
  · intro i k hi
    change s'.rhs i k = _
    rw [hr i k hi]
    simp [setZero]

/-- C54: from any state without pending columns (buffer contents arbitrary), no update writes outside the buffers, and the local matrix and
right-hand side are the weighted sums over all quadrature points, whatever their number and the signs of the weights.  No columns are
pending afterwards. -/
theorem C54_assembly (D : Dims) (ht : 0 < D.target) (hu : 0 < D.us) (s : St) (h1 : s.pb = 0) (h2 : s.ngb = 0) (us : List Upd) :
    ∃ s', assemble D s us = some s' ∧ (∀ i j, i < D.size → j < D.size → s'.mat i j = directMat D us i j) ∧
      (∀ i k, i < D.size → s'.rhs i k = directRhs D us i k) ∧ s'.pb = 0 ∧ s'.ngb = 0 := by
  have hpos := upb_pos D ht hu
  obtain ⟨s', e, h3, h4, hm, hr⟩ := assemble_spec D us s ⟨by omega, by omega⟩ hpos
  refine ⟨s', e, ?_, hr, h3, h4⟩
  intro i j hi hj
  rw [hm i j hi hj]
  simp [pending, gram, h1, h2]

/-! ### Operator evaluation -/

noncomputable def oValue (D : Dims) (s : OSt) (x : Nat → ℝ) (i : Nat) : ℝ :=
  ∑ c ∈ range s.filled, s.buf i c * ((∑ j ∈ range D.size, s.buf j c * x j) * s.wts c)

/-- Contribution of one point to the operator applied to `x`. -/
noncomputable def pointApply (D : Dims) (u : Upd) (x : Nat → ℝ) (i : Nat) : ℝ :=
  u.w * ∑ e ∈ range D.us, shape D u i e * ∑ j ∈ range D.size, shape D u j e * x j

theorem oValue_fill (D : Dims) (s : OSt) (u : Upd) (x : Nat → ℝ) (i : Nat) (hi : i < D.size) :
    oValue D (oFill D s u) x i = oValue D s x i + pointApply D u x i := by
  unfold oValue
  change ∑ c ∈ range (s.filled + D.us), _ = _
  rw [Finset.sum_range_add]
  congr 1
  · refine Finset.sum_congr rfl fun c hc => ?_
    have hc := Finset.mem_range.1 hc
    have hb : ∀ r, (oFill D s u).buf r c = s.buf r c := fun r => if_neg (fun h => by omega)
    have hw : (oFill D s u).wts c = s.wts c := if_neg (fun h => by omega)
    rw [hb, hw]
    congr 2
    exact Finset.sum_congr rfl fun j _ => by rw [hb]
  · unfold pointApply
    rw [Finset.mul_sum]
    refine Finset.sum_congr rfl fun e he => ?_
    have he := Finset.mem_range.1 he
    have hb : ∀ r, r < D.size → (oFill D s u).buf r (s.filled + e) = shape D u r e := by
      intro r hr
      have : (oFill D s u).buf r (s.filled + e) = block D u (r / D.nu) (r % D.nu) (s.filled + e - s.filled) := if_pos ⟨hr, by omega, by omega⟩
      rw [this, Nat.add_sub_cancel_left]
      rfl
    have hw : (oFill D s u).wts (s.filled + e) = u.w := if_pos ⟨by omega, by omega⟩
    rw [hb i hi, hw]
    have : ∑ j ∈ range D.size, (oFill D s u).buf j (s.filled + e) * x j = ∑ j ∈ range D.size, shape D u j e * x j :=
      Finset.sum_congr rfl fun j hj => by rw [hb j (Finset.mem_range.1 hj)]
    rw [this]
    ring

/-- Number of filled columns is a multiple of the update size below the buffer size. -/
def OInv (D : Dims) (k : Nat) (s : OSt) : Prop := ∃ m, s.filled = m * D.us ∧ m < k

theorem oUpdate_spec (D : Dims) (k : Nat) (hu : 0 < D.us) (x : Nat → ℝ) (sy : OSt × (Nat → ℝ)) (u : Upd) (h : OInv D k sy.1) :
    ∃ sy', oUpdate D k x sy u = some sy' ∧ OInv D k sy'.1 ∧
      ∀ i, i < D.size → sy'.2 i + oValue D sy'.1 x i = sy.2 i + oValue D sy.1 x i + pointApply D u x i := by
  obtain ⟨m, hm, hmk⟩ := h
  have hle : sy.1.filled + D.us ≤ D.us * k := by
    rw [hm, ← Nat.succ_mul, Nat.mul_comm]
    exact Nat.mul_le_mul_left _ hmk
  unfold oUpdate
  rw [if_neg (by omega)]
  by_cases hf : sy.1.filled + D.us = D.us * k
  · rw [if_pos hf]
    refine ⟨_, rfl, ⟨0, by simp, by omega⟩, ?_⟩
    intro i hi
    have h1 := oValue_fill D sy.1 u x i hi
    have h2 : oApply D (oFill D sy.1 u) (D.us * k) x sy.2 i = sy.2 i + oValue D (oFill D sy.1 u) x i := by
      unfold oApply
      rw [if_pos hi, ← hf]
      rfl
    simp only [h2, h1]
    simp only [oValue, Finset.range_zero, Finset.sum_empty]
    ring
  · rw [if_neg hf]
    refine ⟨_, rfl, ⟨m + 1, ?_, ?_⟩, ?_⟩
    · change sy.1.filled + D.us = _
      rw [hm, Nat.add_mul, Nat.one_mul]
    · rcases Nat.lt_or_ge (m + 1) k with h | h
      · exact h
      · exfalso; apply hf
        have : m + 1 = k := by omega
        rw [hm, ← this]; ring
    · intro i hi
      rw [oValue_fill D sy.1 u x i hi]
      ring

/-- The operator applied to `x` as a weighted sum over the quadrature points. -/
noncomputable def directApply (D : Dims) (us : List Upd) (x : Nat → ℝ) (i : Nat) : ℝ :=
  (us.map fun u => u.w * ∑ e ∈ range D.us, shape D u i e * ∑ j ∈ range D.size, shape D u j e * x j).sum

theorem oUpdates_spec (D : Dims) (k : Nat) (hu : 0 < D.us) (x : Nat → ℝ) (us : List Upd) (sy : OSt × (Nat → ℝ)) (h : OInv D k sy.1) :
    ∃ sy', us.foldlM (oUpdate D k x) sy = some sy' ∧ OInv D k sy'.1 ∧
      ∀ i, i < D.size → sy'.2 i + oValue D sy'.1 x i = sy.2 i + oValue D sy.1 x i + directApply D us x i := by
  induction us generalizing sy with
  | nil => exact ⟨sy, rfl, h, fun i _ => by simp [directApply]⟩
  | cons u us ih =>
    obtain ⟨s1, e1, i1, m1⟩ := oUpdate_spec D k hu x sy u h
    obtain ⟨s2, e2, i2, m2⟩ := ih s1 i1
    refine ⟨s2, ?_, i2, ?_⟩
    · rw [List.foldlM_cons, e1]; exact e2
    · intro i hi
      rw [m2 i hi, m1 i hi]
      simp only [directApply, List.map_cons, List.sum_cons, pointApply]
      ring

theorem evalOp_spec (D : Dims) (k : Nat) (hu : 0 < D.us) (x : Nat → ℝ) (us : List Upd) (s : OSt) (h : OInv D k s) :
    ∃ r, evalOp D k s x us = some r ∧ r.1.filled = 0 ∧ ∀ i, i < D.size → r.2 i = directApply D us x i + oValue D s x i := by
  obtain ⟨sy, e, _, hv⟩ := oUpdates_spec D k hu x us (s, fun _ => 0) h
  refine ⟨oFinalize D x sy, ?_, rfl, ?_⟩
  · unfold evalOp; rw [e]; rfl
  · intro i hi
    have h1 : (oFinalize D x sy).2 i = sy.2 i + oValue D sy.1 x i := by
      simp only [oFinalize, oApply, if_pos hi]
      rfl
    rw [h1, hv i hi]
    simp only []
    ring

/-- C54 (matrix-free): the operator evaluation gives, for every batch size, the same as the local matrix of the assembled path times the
operand, and never writes outside the buffer. -/
theorem C54_operator (D : Dims) (k : Nat) (hu : 0 < D.us) (hk : 0 < k) (s : OSt) (h0 : s.filled = 0) (x : Nat → ℝ) (us : List Upd) :
    ∃ r, evalOp D k s x us = some r ∧ r.1.filled = 0 ∧
      ∀ i, i < D.size → r.2 i = ∑ j ∈ range D.size, directMat D us i j * x j := by
  obtain ⟨r, e, hf, hv⟩ := evalOp_spec D k hu x us s ⟨0, by omega, hk⟩
  refine ⟨r, e, hf, ?_⟩
  intro i hi
  rw [hv i hi]
  have h1 : oValue D s x i = 0 := by simp [oValue, h0]
  rw [h1, add_zero]
  unfold directApply directMat
  have hgen : ∀ vs : List Upd, (vs.map fun u => u.w * ∑ e ∈ range D.us, shape D u i e * ∑ j ∈ range D.size, shape D u j e * x j).sum =
      ∑ j ∈ range D.size, (vs.map fun u => u.w * ∑ e ∈ range D.us, shape D u i e * shape D u j e).sum * x j := by
    intro vs
    induction vs with
    | nil => simp
    | cons v vs ih =>
      simp only [List.map_cons, List.sum_cons, add_mul, Finset.sum_add_distrib, ih]
      congr 1
      simp only [Finset.mul_sum, Finset.sum_mul]
      rw [Finset.sum_comm]
      refine Finset.sum_congr rfl fun j _ => Finset.sum_congr rfl fun e _ => ?_
      ring
  exact hgen us

/-- C54 (matrix-free): the precomputed diagonal is the diagonal of the local matrix, and the precomputed right-hand side is the local
right-hand side minus the constrained columns of the local matrix times the prescribed values. -/
theorem C54_diag_rhs (D : Dims) (us : List Upd) (dir : List Nat) (hdir : ∀ j ∈ dir, j < D.size) (g : Nat → Nat → ℝ) (i : Nat) (hi : i < D.size) :
    us.foldl (diagUpd D) (fun _ => 0) i = directMat D us i i ∧
    ∀ k, us.foldl (rhsUpd D dir g) (fun _ _ => 0) i k =
      directRhs D us i k - ∑ j ∈ range dir.length, directMat D us i (dir.getD j 0) * g j k := by
  constructor
  · have hgen : ∀ d0 : Nat → ℝ, us.foldl (diagUpd D) d0 i = d0 i + directMat D us i i := by
      induction us with
      | nil => intro d0; simp [directMat]
      | cons u us ih =>
        intro d0
        rw [List.foldl_cons, ih]
        simp only [directMat, List.map_cons, List.sum_cons, diagUpd, if_pos hi]
        have : ∑ e ∈ range D.us, block D u (i / D.nu) (i % D.nu) e ^ 2 = ∑ e ∈ range D.us, shape D u i e * shape D u i e :=
          Finset.sum_congr rfl fun e _ => by rw [pow_two]; rfl
        rw [this]
        ring
    rw [hgen]; simp
  · intro k
    have hgen : ∀ d0 : Nat → Nat → ℝ, us.foldl (rhsUpd D dir g) d0 i k =
        d0 i k + (directRhs D us i k - ∑ j ∈ range dir.length, directMat D us i (dir.getD j 0) * g j k) := by
      induction us with
      | nil => intro d0; simp [directMat, directRhs]
      | cons u us ih =>
        intro d0
        rw [List.foldl_cons, ih]
        have hstep : rhsUpd D dir g d0 u i k = d0 i k + u.w * (∑ e ∈ range D.us, shape D u i e * u.F e k) -
            ∑ j ∈ range dir.length, (u.w * ∑ e ∈ range D.us, shape D u i e * shape D u (dir.getD j 0) e) * g j k := by
          simp only [rhsUpd, if_pos hi, addRhs]
          have h1 : ∑ e ∈ range D.us, block D u (i / D.nu) (i % D.nu) e * u.F e k = ∑ e ∈ range D.us, shape D u i e * u.F e k := rfl
          rw [h1]
          congr 1
          · ring
          · simp only [Finset.mul_sum, Finset.sum_mul]
            rw [Finset.sum_comm]
            refine Finset.sum_congr rfl fun j _ => Finset.sum_congr rfl fun e _ => ?_
            have h2 : block D u (i / D.nu) (i % D.nu) e = shape D u i e := rfl
            have h3 : block D u (dir.getD j 0 / D.nu) (dir.getD j 0 % D.nu) e = shape D u (dir.getD j 0) e := rfl
            rw [h2, h3]
            ring
        rw [hstep]
        simp only [directRhs, directMat, List.map_cons, List.sum_cons, add_mul, Finset.sum_add_distrib]
        ring
    rw [hgen]; simp

/-- A scalar one-point problem: value operator `2`, right-hand side `3`, weight `5`. -/
def exUpd : Upd := ⟨fun _ _ _ => 2, fun _ _ => 3, fun _ => 1, fun _ _ => 0, 5⟩
def exDims : Dims := ⟨1, 1, 1, 0, 2⟩
def exSt : St := ⟨fun _ _ => 7, fun _ _ => 7, 0, 0, fun _ _ => 7, fun _ _ => 7⟩

example : directMat exDims [exUpd, exUpd, exUpd] 0 0 = 60 ∧ exDims.upb = 2 := by
  refine ⟨?_, by decide⟩
  simp [directMat, shape, exUpd, exDims]
  norm_num

/-! ### C55 -/

/-- C55: an aborted assembly does not change the next result. -/
def C55Statement : Prop := ∀ (D : Dims), 0 < D.target → 0 < D.us → ∀ (s : St), s.pb = 0 → s.ngb = 0 → ∀ (lost us : List Upd) (s1 : St),
  aborted D s lost = some s1 → ∀ s2, assemble D s1 us = some s2 → ∀ i j, i < D.size → j < D.size → s2.mat i j = directMat D us i j

/-- After an aborted assembly the next local matrix is too large by exactly the columns pending at the abort; the right-hand side is
right. -/
theorem C55_leftover (D : Dims) (ht : 0 < D.target) (hu : 0 < D.us) (s : St) (h1 : s.pb = 0) (h2 : s.ngb = 0) (lost us : List Upd) :
    ∃ s1 s2, aborted D s lost = some s1 ∧ assemble D s1 us = some s2 ∧
      (∀ i j, i < D.size → j < D.size → s2.mat i j = directMat D us i j + pending D s1 i j) ∧
      (∀ i k, i < D.size → s2.rhs i k = directRhs D us i k) := by
  have hpos := upb_pos D ht hu
  obtain ⟨s1, e1, i1, _, _⟩ := updates_spec D lost (setZero s) ⟨by simp [setZero, h1, hpos], by simp [setZero, h2, hpos]⟩ hpos
  obtain ⟨s2, e2, _, _, hm, hr⟩ := assemble_spec D us s1 i1 hpos
  exact ⟨s1, s2, e1, e2, hm, hr⟩

/-- Number of updates with a weight of the given sign. -/
noncomputable def countPos (us : List Upd) : Nat := open Classical in (us.filter fun u => decide (0 ≤ u.w)).length
noncomputable def countNeg (us : List Upd) : Nat := open Classical in (us.filter fun u => !decide (0 ≤ u.w)).length

theorem aborted_counts (D : Dims) (hpos : 0 < D.upb) (lost : List Upd) (s s1 : St) (h : Inv D s) (e : lost.foldlM (update D) s = some s1) :
    s1.pb = (s.pb + countPos lost) % D.upb ∧ s1.ngb = (s.ngb + countNeg lost) % D.upb := by
  induction lost generalizing s with
  | nil =>
    injection e with e
    subst e
    simp [countPos, countNeg, Nat.mod_eq_of_lt h.pb, Nat.mod_eq_of_lt h.ngb]
  | cons u us ih =>
    obtain ⟨s', e', i', _, _⟩ := update_spec D s u h hpos
    rw [List.foldlM_cons, e'] at e
    obtain ⟨a, b⟩ := ih s' i' e
    have hp := h.pb
    have hn := h.ngb
    rw [a, b]
    have hkey : s'.pb = (s.pb + countPos [u]) % D.upb ∧ s'.ngb = (s.ngb + countNeg [u]) % D.upb := by
      unfold update at e'
      by_cases hw : 0 ≤ u.w
      · rw [if_pos hw, if_neg (by omega)] at e'
        injection e' with e'
        subst e'
        have c1 : countPos [u] = 1 := by simp [countPos, hw]
        have c2 : countNeg [u] = 0 := by simp [countNeg, hw]
        rw [c1, c2]
        unfold flushPos
        split
        · rename_i hh
          have hh : s.pb + 1 = D.upb := hh
          simp [hh, Nat.mod_eq_of_lt hn]
        · rename_i hh
          have hh : s.pb + 1 ≠ D.upb := hh
          simp only [Nat.add_zero, Nat.mod_eq_of_lt hn, and_true]
          exact (Nat.mod_eq_of_lt (by omega)).symm
      · rw [if_neg hw, if_neg (by omega)] at e'
        injection e' with e'
        subst e'
        have c1 : countPos [u] = 0 := by simp [countPos, hw]
        have c2 : countNeg [u] = 1 := by simp [countNeg, hw]
        rw [c1, c2]
        unfold flushNeg
        split
        · rename_i hh
          have hh : s.ngb + 1 = D.upb := hh
          simp [hh, Nat.mod_eq_of_lt hp]
        · rename_i hh
          have hh : s.ngb + 1 ≠ D.upb := hh
          simp only [Nat.add_zero, Nat.mod_eq_of_lt hp, true_and]
          exact (Nat.mod_eq_of_lt (by omega)).symm
    have hc1 : countPos (u :: us) = countPos [u] + countPos us := by
      simp only [countPos, ← List.length_append, ← List.filter_append]; rfl
    have hc2 : countNeg (u :: us) = countNeg [u] + countNeg us := by
      simp only [countNeg, ← List.length_append, ← List.filter_append]; rfl
    rw [hkey.1, hkey.2, hc1, hc2, Nat.mod_add_mod, Nat.mod_add_mod, Nat.add_assoc, Nat.add_assoc]
    exact ⟨rfl, rfl⟩

/-- C55 (partial): if the numbers of points processed before the abort (separately for each sign of the weight) are multiples of the batch
size, the next element is assembled as from a fresh state.  Missing: other abort points, for which the property is false. -/
theorem C55_partial (D : Dims) (ht : 0 < D.target) (hu : 0 < D.us) (s : St) (h1 : s.pb = 0) (h2 : s.ngb = 0) (lost us : List Upd)
    (hp : D.upb ∣ countPos lost) (hn : D.upb ∣ countNeg lost) :
    ∃ s1 s2, aborted D s lost = some s1 ∧ assemble D s1 us = some s2 ∧
      (∀ i j, i < D.size → j < D.size → s2.mat i j = directMat D us i j) ∧ (∀ i k, i < D.size → s2.rhs i k = directRhs D us i k) := by
  obtain ⟨s1, s2, e1, e2, hm, hr⟩ := C55_leftover D ht hu s h1 h2 lost us
  refine ⟨s1, s2, e1, e2, ?_, hr⟩
  have hpos := upb_pos D ht hu
  obtain ⟨c1, c2⟩ := aborted_counts D hpos lost (setZero s) s1 ⟨by simp [setZero, h1, hpos], by simp [setZero, h2, hpos]⟩ e1
  have z1 : (setZero s).pb = 0 := h1
  have z2 : (setZero s).ngb = 0 := h2
  rw [z1, Nat.zero_add, Nat.mod_eq_zero_of_dvd hp] at c1
  rw [z2, Nat.zero_add, Nat.mod_eq_zero_of_dvd hn] at c2
  intro i j hi hj
  rw [hm i j hi hj]
  simp [pending, gram, c1, c2]

/-- C55 fails: one point assembled, then an error; the next element's matrix contains the lost point. -/
theorem C55_violated : ¬ C55Statement := by
  intro h
  obtain ⟨s1, s2, e1, e2, hm, _⟩ := C55_leftover exDims (by decide) (by decide) exSt rfl rfl [exUpd] []
  have h1 := h exDims (by decide) (by decide) exSt rfl rfl [exUpd] [] s1 e1 s2 e2 0 0 (by decide) (by decide)
  rw [hm 0 0 (by decide) (by decide)] at h1
  have h2 : pending exDims s1 0 0 = 0 := by linarith
  obtain ⟨s', e', _, hv, _⟩ := updates_spec exDims [exUpd] (setZero exSt) ⟨by decide, by decide⟩ (by decide)
  have : s' = s1 := Option.some.inj (e'.symm.trans e1)
  subst this
  have hval := hv 0 0 (by decide) (by decide)
  have hmat : s'.mat = fun _ _ => 0 := by
    have hw : (0 : ℝ) ≤ exUpd.w := by simp [exUpd]
    have : update exDims (setZero exSt) exUpd = some s' := by
      rw [List.foldlM_cons] at e'
      cases hq : update exDims (setZero exSt) exUpd with
      | none => rw [hq] at e'; exact absurd e' (by simp)
      | some q => rw [hq] at e'; exact e'
    unfold update at this
    rw [if_pos hw, if_neg (by decide)] at this
    injection this with this
    rw [← this]
    unfold flushPos
    rw [if_neg (by decide)]
    rfl
  have : value exDims s' 0 0 = pending exDims s' 0 0 := by simp [value, pending, hmat]
  rw [this, h2] at hval
  simp [value, setZero, exSt, gram, directMat, shape, exUpd, exDims] at hval

/-- C55 (matrix-free): an evaluation started with pending columns (left by an evaluation that threw) adds their contribution to its
result. -/
theorem C55_operator_leftover (D : Dims) (k : Nat) (hu : 0 < D.us) (s : OSt) (h0 : s.filled = 0) (hk : 0 < k) (x x' : Nat → ℝ) (lost us : List Upd) :
    ∃ s1 r, lost.foldlM (oUpdate D k x) (s, fun _ => 0) = some s1 ∧ evalOp D k s1.1 x' us = some r ∧
      ∀ i, i < D.size → r.2 i = directApply D us x' i + oValue D s1.1 x' i := by
  obtain ⟨s1, e, i1, _⟩ := oUpdates_spec D k hu x lost (s, fun _ => 0) ⟨0, by simpa using h0, hk⟩
  obtain ⟨r, e2, _, hv⟩ := evalOp_spec D k hu x' us s1.1 i1
  exact ⟨s1, r, e, e2, hv⟩

end Verif.Batch
