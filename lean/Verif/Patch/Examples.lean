import Verif.Patch.Space

/-! # Instances for C109 -/
namespace Verif.Patch
open Verif.Elem Verif.Mapping Verif.Quad Verif.Basis Verif.Lsq Verif.MatFree Verif.MfInit Finset

/-! ## `∂u/∂x = 1`, `∂u/∂y = 2` on a trapezium; the exact solution is `x + 2 y + 3` -/

/-- The kernel: equation `i` is the derivative in direction `i`. -/
def gradKern : Kern 2 0 := fun _ _ => ⟨fun k i _ => if k = i + 1 then 1 else 0, fun i _ => i + 1⟩

noncomputable def exElem (r : Rule1) : PElem .quad where
  n := 2
  x := absc1
  vert := Flux.trapVert
  side := none
  rule := r
  nu := 1
  us := 2
  target := 8
  nfld := 0
  nv := fun _ _ => 0
  kern := gradKern
  unk := fun _ => 0
  dofs := [0, 1, 2, 3]

noncomputable def exSol : Nat → (Fin 2 → ℝ) → ℝ := fun _ y => (∑ k, (![1, 2] : Fin 2 → ℝ) k * y k) + 3

/-- One rank, node 0 has a Dirichlet condition. -/
def exRanks (L : LElem) : Nat → LRank := fun _ => ⟨4, [0, 1, 2, 3], [L], some fun d => d == 0, [0], fun _ _ => 0⟩

theorem mapM_some {A B : Type} {f : A → Option B} : ∀ {l : List A}, (∀ a ∈ l, ∃ b, f a = some b) → ∃ r, l.mapM f = some r
  | [], _ => ⟨[], List.mapM_nil⟩
  | a :: l, h => by
    obtain ⟨b, hb⟩ := h a List.mem_cons_self
    obtain ⟨r, hr⟩ := mapM_some fun a ha => h a (List.mem_cons_of_mem _ ha)
    exact ⟨b :: r, by rw [List.mapM_cons, hb, hr]; rfl⟩

theorem ex_toL (r : Rule1) (hr : IsReferenceRule 2 r) : ∃ L, (exElem r).toL = some L := by
  have h : ∃ pts, (exElem r).pts = some pts := by
    refine mapM_some fun pw hpw => ?_
    have hd : 0 < (jacobiMat .quad Flux.trapVert pw.1).det := Flux.C107_order_violated.1 pw.1 ((rule_cube (t := .quad) hr pw hpw).1.1 (0 : Fin 2))
    exact ⟨_, if_pos hd⟩
  obtain ⟨pts, hp⟩ := h
  exact ⟨_, by rw [PElem.toL, hp]; rfl⟩

theorem ex_ok (L : LElem) (hL : L.dofs = [0, 1, 2, 3]) : Ok 4 1 (fun g => g = 0) fun q => (exRanks L q).toI.toRank where
  nodup := by intro q _; simp [exRanks, LRank.toI, IRank.toRank]
  bound := by intro q _; simp [exRanks, LRank.toI, IRank.toRank]
  owned := by intro q _; simp [exRanks, LRank.toI, IRank.toRank]
  dofs := by intro q _; simp [exRanks, LRank.toI, IRank.toRank, LElem.sys, hL]
  unique := by intro q hq q' hq'; omega
  con := by
    intro q _ d hd
    simp only [exRanks, LRank.toI, IRank.toRank, List.length_cons, List.length_nil] at hd
    interval_cases d <;> simp [exRanks, LRank.toI, IRank.toRank, Rank.con]
  dir := by
    intro q _
    refine ⟨by simp [exRanks, LRank.toI, IRank.toRank], fun d => ?_⟩
    simp [exRanks, LRank.toI, IRank.toRank, Rank.con]
    omega

theorem ex_assembles (r : Rule1) (hr : IsReferenceRule 2 r) (L : LElem) (hL : (exElem r).toL = some L) :
    Assembles 1 (fun _ => [exElem r]) (exRanks L) where
  elems := by
    intro q _
    show List.mapM PElem.toL [exElem r] = some [L]
    rw [List.mapM_cons, hL, List.mapM_nil]; rfl
  pos := by intro q _ e he; cases List.mem_singleton.1 he; exact two_pos
  inj := by intro q _ e he; cases List.mem_singleton.1 he; exact absc1_inj
  nodes := by
    intro q _ e he i _
    cases List.mem_singleton.1 he
    show -1 ≤ absc1 i ∧ absc1 i ≤ 1
    unfold absc1
    split <;> norm_num
  rule := by intro q _ e he; cases List.mem_singleton.1 he; exact ⟨2, hr⟩
  dofs := by intro q _ e he; cases List.mem_singleton.1 he; rfl
  sides := by intro q _ e he h; cases List.mem_singleton.1 he; exact absurd rfl h

/-- The kernel's equations hold for the exact solution. -/
theorem ex_exact (r : Rule1) : Exact (exElem r) exSol 0 := by
  intro q normal _
  refine ⟨fun _ => form ![1, 2], fun v _ => ?_, fun i hi => ?_⟩
  · have h : HasFDerivAt (exSol 0) (form ![1, 2]) (phys .quad Flux.trapVert q) := by
      have := ((form ![1, 2]).hasFDerivAt (x := phys .quad Flux.trapVert q)).add_const (3 : ℝ)
      refine this.congr_of_eventuallyEq (Filter.Eventually.of_forall fun y => ?_)
      simp only [exSol, form_apply]
    exact h.hasFDerivWithinAt
  · have hi : i < 2 := hi
    show (∑ v ∈ range 1, (if 0 = i + 1 then (1 : ℝ) else 0) * _) + (∑ d : Fin 2, ∑ v ∈ range 1, (if (d : Nat) + 1 = i + 1 then (1 : ℝ) else 0) *
      form ![1, 2] (Pi.single d 1)) = (i : ℝ) + 1
    simp only [sum_range_one, form_single, Fin.sum_univ_two]
    have : i = 0 ∨ i = 1 := by omega
    rcases this with rfl | rfl <;> simp <;> norm_num

/-- The values at the four corners. -/
theorem ex_nodal (r : Rule1) (L : LElem) :
    Nodal 1 (fun _ => [exElem r]) (exRanks L) exSol fun g => exSol 0 fun k => nodePhysicalLocation .quad Flux.trapVert (nodeLoc 2 absc1 g) k := by
  intro q _ e he b hb v hv
  cases List.mem_singleton.1 he
  have hb : b < 4 := hb
  have hv : v = 0 := Nat.lt_one_iff.1 hv
  subst hv
  have : [0, 1, 2, 3].getD ([0, 1, 2, 3].getD (b * 1 + 0) 0) 0 = b := by interval_cases b <;> rfl
  show exSol 0 (fun k => nodePhysicalLocation .quad Flux.trapVert (nodeLoc 2 absc1 ([0, 1, 2, 3].getD ([0, 1, 2, 3].getD (b * 1 + 0) 0) 0)) k) = _
  rw [this]
  rfl

/-- All hypotheses of `C109_exact` hold together. -/
example (r : Rule1) (hr : IsReferenceRule 2 r) : ∃ L X, Solves 4 1 (fun g => g = 0) (exRanks L) X X 0 ∧
    ∀ x, Solves 4 1 (fun g => g = 0) (exRanks L) X x 0 → functional 1 (exRanks L) 0 x = 0 := by
  obtain ⟨L, hL⟩ := ex_toL r hr
  have h := C109_exact (ex_ok L (toL_fields hL).1) (ex_assembles r hr L hL) exSol _ (ex_nodal r L)
    (fun q _ e he v _ => by cases List.mem_singleton.1 he; exact C109_linear .quad 2 (le_refl _) Flux.trapVert ![1, 2] 3) 0
    (fun q _ e he => by cases List.mem_singleton.1 he; exact ex_exact r) _ fun _ _ _ => rfl
  exact ⟨L, _, h.1, h.2.1⟩

/-- A cubic on a parallelogram with four nodes per direction. -/
example : InSpace .quad 4 (affineVert 2 (fun _ => 1) fun i j => i + 2 * j + 1)
    fun y => MvPolynomial.eval y (MvPolynomial.X (0 : Fin 2) * MvPolynomial.X (1 : Fin 2) * MvPolynomial.X (1 : Fin 2) : MvPolynomial (Fin 2) ℝ) := by
  refine C109_affine .quad 4 _ _ _ (lt_of_le_of_lt (b := 3) ?_ (by norm_num))
  refine (MvPolynomial.totalDegree_mul _ _).trans (Nat.add_le_add ((MvPolynomial.totalDegree_mul _ _).trans (Nat.add_le_add ?_ ?_)) ?_ : _ ≤ 1 + 1 + 1) <;>
    exact (MvPolynomial.totalDegree_X _).le

end Verif.Patch
