import Verif.Gen.Order

/-! # Number of nodes of a structured mesh of higher order -/
namespace Verif.Gen
open Verif Verif.Elem Verif.Mesh Verif.Convert Verif.Partition Verif.Pipeline Verif.Prim Verif.Basis Verif.Poly

noncomputable section

/-- Nodes along direction `c`. -/
def cnt (N : Nat) (n : Fin 3 → Nat) (W : Fin 3 → Bool) (c : Fin 3) : Nat := if W c = true then (n c - 1) * (N - 1) + 1 else 1

/-- Coordinate `c` of the nodes with number `t` along this direction. -/
def coordAt (N : Nat) (x : List ℝ) (P : Fin 3 → Nat → ℝ) (W : Fin 3 → Bool) (c : Fin 3) (t : Nat) : ℝ :=
  if W c = true then axisPt P c (t / (N - 1)) (x.getD (t % (N - 1)) 0) else P c 0

section
variable {N : Nat} {x : List ℝ} {P : Fin 3 → Nat → ℝ} {W : Fin 3 → Bool} {n : Fin 3 → Nat} {c : Fin 3}

theorem axisPt_lo (i : Nat) : axisPt P c i (-1) = P c i := by unfold axisPt; ring
theorem axisPt_hi (i : Nat) : axisPt P c i 1 = P c (i + 1) := by unfold axisPt; ring

theorem lob_zero (L : Lob N x) : x.getD 0 0 = -1 := by
  have := L.first
  rw [List.head?_eq_getElem?] at this
  rw [List.getD_eq_getElem?_getD, this]; rfl

theorem lob_last (L : Lob N x) : x.getD (N - 1) 0 = 1 := by
  have := L.last
  rw [List.getLast?_eq_getElem?, L.len] at this
  rw [List.getD_eq_getElem?_getD, this]; rfl

theorem lob_lt (L : Lob N x) {i j : Nat} (hij : i < j) (hj : j < N) : x.getD i 0 < x.getD j 0 := by
  have hl := L.len
  have := List.pairwise_iff_getElem.1 L.strict i j (by omega) (by omega) hij
  rwa [List.getD_eq_getElem?_getD, List.getD_eq_getElem?_getD, List.getElem?_eq_getElem (by omega), List.getElem?_eq_getElem (by omega)]

/-- Line `i` is node number `(N - 1) i`. -/
theorem coordAt_line (L : Lob N x) (hN : 2 ≤ N) (hW : W c = true) (i : Nat) : coordAt N x P W c ((N - 1) * i) = P c i := by
  rw [coordAt, if_pos hW, Nat.mul_div_cancel_left _ (by omega), Nat.mul_mod_right, lob_zero L, axisPt_lo]

theorem coordAt_node (L : Lob N x) (hN : 2 ≤ N) (hW : W c = true) (i : Nat) {j : Nat} (hj : j < N) :
    coordAt N x P W c ((N - 1) * i + j) = axisPt P c i (x.getD j 0) := by
  by_cases h : j = N - 1
  · subst h
    rw [show (N - 1) * i + (N - 1) = (N - 1) * (i + 1) by ring, coordAt_line L hN hW, lob_last L, axisPt_hi]
  · have hj' : j < N - 1 := by omega
    rw [coordAt, if_pos hW, Nat.mul_add_div (by omega), Nat.div_eq_of_lt hj', Nat.mul_add_mod, Nat.mod_eq_of_lt hj']
    rfl

theorem coordAt_succ (L : Lob N x) (hN : 2 ≤ N) (hW : W c = true) (hP : Increasing n P) {t : Nat} (ht : t + 1 < cnt N n W c) :
    coordAt N x P W c t < coordAt N x P W c (t + 1) := by
  rw [cnt, if_pos hW] at ht
  have hi : t / (N - 1) < n c - 1 := by
    refine Nat.div_lt_of_lt_mul ?_
    rw [Nat.mul_comm]; omega
  have hj : t % (N - 1) < N - 1 := Nat.mod_lt _ (by omega)
  have e := Nat.div_add_mod t (N - 1)
  have h1 := coordAt_node (P := P) L hN hW (t / (N - 1)) (j := t % (N - 1)) (by omega)
  have h2 := coordAt_node (P := P) L hN hW (t / (N - 1)) (j := t % (N - 1) + 1) (by omega)
  rw [e] at h1
  rw [← Nat.add_assoc, e] at h2
  rw [h1, h2]
  have hp := hP c (t / (N - 1)) (Nat.add_lt_of_lt_sub hi)
  have hx := lob_lt L (Nat.lt_succ_self (t % (N - 1))) (by omega)
  unfold axisPt
  nlinarith

theorem coordAt_lt (L : Lob N x) (hN : 2 ≤ N) (hP : Increasing n P) {s t : Nat} (hst : s < t) (ht : t < cnt N n W c) :
    coordAt N x P W c s < coordAt N x P W c t := by
  by_cases hW : W c = true
  · induction t with
    | zero => omega
    | succ t ih =>
      have h1 := coordAt_succ (x := x) (P := P) L hN hW hP ht
      rcases Nat.lt_succ_iff_lt_or_eq.1 hst with h | rfl
      · exact (ih h (by omega)).trans h1
      · exact h1
  · rw [cnt, if_neg hW] at ht; omega

theorem coordAt_inj (L : Lob N x) (hN : 2 ≤ N) (hP : Increasing n P) {s t : Nat} (hs : s < cnt N n W c) (ht : t < cnt N n W c)
    (h : coordAt N x P W c s = coordAt N x P W c t) : s = t := by
  rcases Nat.lt_trichotomy s t with h' | h' | h'
  · exact absurd h (coordAt_lt L hN hP h' ht).ne
  · exact h'
  · exact absurd h (coordAt_lt L hN hP h' hs).ne'

/-- Node `i` of a box is a node of the lattice of the whole mesh. -/
theorem box_node (L : Lob N x) (hN : 2 ≤ N) (hsz : ∀ c, if W c = true then 2 ≤ n c else n c = 1) {b : Box} (hw : ∀ c, b.w c = true → W c = true)
    (hg : b.InGrid n) (i : Nat) : ∃ t : Fin 3 → Nat, (∀ c, t c < cnt N n W c) ∧ image (tyOf b.w) (b.data P) (refPt (tyOf b.w) N x i) = fun c => coordAt N x P W c (t c) := by
  refine ⟨fun c => if W c = true then (N - 1) * b.lo c + (if b.w c = true then i / N ^ Gen.loc b.w c % N else 0) else 0, fun c => ?_, ?_⟩
  · have h1 := hsz c
    have h2 := hg c
    unfold cnt
    beta_reduce
    by_cases hW : W c = true
    · rw [if_pos hW] at h1
      rw [if_pos hW, if_pos hW]
      by_cases hb : b.w c = true
      · rw [hb] at h2
        rw [if_pos hb]
        simp only [Bool.toNat_true] at h2
        have h3 : i / N ^ Gen.loc b.w c % N < N := Nat.mod_lt _ (by omega)
        have h4 : (N - 1) * (b.lo c + 1) ≤ (N - 1) * (n c - 1) := Nat.mul_le_mul_left _ (by omega)
        rw [Nat.mul_comm (n c - 1)]
        rw [Nat.mul_add] at h4
        omega
      · rw [if_neg hb]
        have h4 : (N - 1) * b.lo c ≤ (N - 1) * (n c - 1) := Nat.mul_le_mul_left _ (by omega)
        rw [Nat.mul_comm (n c - 1)]
        omega
    · rw [if_neg hW, if_neg hW]; omega
  · funext c
    rw [b.image_coord]
    have h1 := hsz c
    have h2 := hg c
    beta_reduce
    by_cases hb : b.w c = true
    · rw [if_pos hb, if_pos (hw c hb), if_pos hb, coordAt_node L hN (hw c hb) _ (Nat.mod_lt _ (by omega)), refPt, if_pos (loc_lt hb)]
    · rw [if_neg hb]
      by_cases hW : W c = true
      · rw [if_pos hW, if_neg hb, Nat.add_zero, coordAt_line L hN hW]
      · rw [if_neg hW] at h1
        rw [if_neg hW, coordAt, if_neg hW]
        congr 1
        omega

/-- Every node of the lattice is a node of a cell. -/
theorem cell_node (L : Lob N x) (hN : 2 ≤ N) (hne : axes W ≠ []) (hsz : ∀ c, if W c = true then 2 ≤ n c else n c = 1) {t : Fin 3 → Nat} (ht : ∀ c, t c < cnt N n W c) :
    ∃ lo i, (⟨lo, W⟩ : Box).InGrid n ∧ i < N ^ (tyOf W).dim ∧ image (tyOf W) ((⟨lo, W⟩ : Box).data P) (refPt (tyOf W) N x i) = fun c => coordAt N x P W c (t c) := by
  -- cell and node in the cell, for each direction
  have key : ∀ c, ∃ lo j, lo + (W c).toNat < n c ∧ j < N ∧ (W c = true → t c = (N - 1) * lo + j) := by
    intro c
    have h1 := hsz c
    have h2 := ht c
    unfold cnt at h2
    by_cases hW : W c = true
    · rw [if_pos hW] at h1 h2
      rw [hW]
      by_cases hlast : t c = (n c - 1) * (N - 1)
      · refine ⟨n c - 2, N - 1, by simp; omega, by omega, fun _ => ?_⟩
        rw [hlast, show n c - 1 = n c - 2 + 1 by omega]; ring
      · refine ⟨t c / (N - 1), t c % (N - 1), ?_, ?_, fun _ => (Nat.div_add_mod _ _).symm⟩
        · have : t c / (N - 1) < n c - 1 := by
            refine Nat.div_lt_of_lt_mul ?_
            rw [Nat.mul_comm]; omega
          simp only [Bool.toNat_true]; omega
        · have := Nat.mod_lt (t c) (show N - 1 > 0 by omega); omega
    · rw [if_neg hW] at h1
      refine ⟨0, 0, ?_, by omega, fun h => absurd h hW⟩
      rw [Bool.not_eq_true] at hW
      rw [hW, h1]; decide
  choose lo j h1 h2 h3 using key
  have hd : (tyOf W).dim = (axes W).length := axes_length W hne
  -- index of the node
  have hf : ∀ a : Nat, ((axes W)[a]?.map j).getD 0 < N := by
    intro a
    cases h : (axes W)[a]? with
    | none => simp; omega
    | some c => exact h2 c
  refine ⟨lo, idx N fun a => ((axes W)[a]?.map j).getD 0, h1, ?_, ?_⟩
  · refine idx_lt _ (fun a _ => hf a) fun a ha => ?_
    rw [List.getElem?_eq_none (by omega)]; rfl
  · funext c
    refine (Box.image_coord P ⟨lo, W⟩ _ c).trans ?_
    by_cases hW : W c = true
    · rw [if_pos hW, h3 c hW, coordAt_node L hN hW _ (h2 c)]
      have hl := loc_lt hW
      rw [refPt, if_pos hl, idx_digit (fun a _ => hf a) (lt_of_lt_of_le hl (dim_le_three _)), loc_get hW]
      rfl
    · rw [if_neg hW, coordAt, if_neg hW]
      have h4 := hsz c
      have h5 := h1 c
      rw [if_neg hW] at h4
      congr 1
      change lo c = 0
      omega

variable {dom : Nat} {Bs : List (Nat × Box)} {res : List Nat} {m : DomMap} {roots : List ℂ}

/-- As many node ids as nodes of the lattice. -/
theorem count_grid (h : IsGrid n W dom Bs) (hb : Built res (number (Bs.map (emitOf n P))) m) (hP : Increasing n P) (two : 2 ≤ N) (L : Lob N (lobattoAbsc N roots))
    {ν : Nat → List Nat} {N' : Nat}
    (hlt : ∀ e ∈ (visit (meshOf n P Bs m)).map (·.2), ∀ j, j < N ^ e.ty.dim → (ν e.id).getD j 0 < N')
    (hused : ∀ v, v < N' → ∃ e ∈ (visit (meshOf n P Bs m)).map (·.2), ∃ j, j < N ^ e.ty.dim ∧ (ν e.id).getD j 0 = v)
    (iff : ∀ e ∈ (visit (meshOf n P Bs m)).map (·.2), ∀ e' ∈ (visit (meshOf n P Bs m)).map (·.2), ∀ i j, i < N ^ e.ty.dim → j < N ^ e'.ty.dim →
      ((ν e.id).getD i 0 = (ν e'.id).getD j 0 ↔ pos N (physLoc roots) e i = pos N (physLoc roots) e' j)) :
    N' = cnt N n W 0 * cnt N n W 1 * cnt N n W 2 := by
  classical
  have hels : ∀ e, e ∈ (visit (meshOf n P Bs m)).map (·.2) ↔ ∃ i q, Bs[i]? = some q ∧ e = ⟨tyOf q.2.w, i, q.2.nodes n, coordsOf (Bs.map (emitOf n P)) i⟩ := by
    intro e
    constructor
    · intro he
      obtain ⟨⟨k, e'⟩, hq, rfl⟩ := List.mem_map.1 he
      obtain ⟨i, b, hi, rfl⟩ := (mem_meshOf h hb).1 hq
      exact ⟨i, _, hi, rfl⟩
    · rintro ⟨i, q, hi, rfl⟩
      exact List.mem_map.2 ⟨(q.1, _), (mem_meshOf h hb).2 ⟨i, q.2, hi, rfl⟩, rfl⟩
  have him : ∀ {i q}, Bs[i]? = some q → image (tyOf q.2.w) (coordsOf (Bs.map (emitOf n P)) i) = image (tyOf q.2.w) (q.2.data P) :=
    fun hi => image_data fun k hk c => coordsOf_box hi hk c
  -- lattice node of a node of an element, and back
  have fwd : ∀ e ∈ (visit (meshOf n P Bs m)).map (·.2), ∀ j, j < N ^ e.ty.dim → ∃ t : Fin 3 → Nat, (∀ c, t c < cnt N n W c) ∧
      pos N (physLoc roots) e j = some fun c => coordAt N (lobattoAbsc N roots) P W c (t c) := by
    intro e he j hj
    obtain ⟨i, q, hi, rfl⟩ := (hels e).1 he
    have hq : q ∈ Bs := mem_of hi
    obtain ⟨t, h1, h2⟩ := box_node (x := lobattoAbsc N roots) (P := P) (W := W) (b := q.2) L two h.size (fun c hc => by
      by_cases hd : q.1 = dom
      · rwa [h.main q hq hd] at hc
      · obtain ⟨_, c', _, hw, _⟩ := h.rest q hq hd
        rw [hw, drop] at hc
        split at hc
        · cases hc
        · exact hc) (h.grid q hq) j
    refine ⟨t, h1, ?_⟩
    rw [pos_eq roots N L _ hj, ← h2]
    change some (image (tyOf q.2.w) (coordsOf (Bs.map (emitOf n P)) i) _) = _
    rw [him hi]
  have bwd : ∀ t : Fin 3 → Nat, (∀ c, t c < cnt N n W c) → ∃ e ∈ (visit (meshOf n P Bs m)).map (·.2), ∃ j, j < N ^ e.ty.dim ∧
      pos N (physLoc roots) e j = some fun c => coordAt N (lobattoAbsc N roots) P W c (t c) := by
    intro t ht
    obtain ⟨lo, j, h1, h2, h3⟩ := cell_node (x := lobattoAbsc N roots) (P := P) L two h.nonempty h.size ht
    obtain ⟨i, hi⟩ := List.mem_iff_getElem?.1 (h.cell lo h1)
    refine ⟨_, (hels _).2 ⟨i, _, hi, rfl⟩, j, h2, ?_⟩
    rw [pos_eq roots N L ⟨tyOf W, i, _, _⟩ h2, ← h3]
    change some (image (tyOf W) (coordsOf (Bs.map (emitOf n P)) i) _) = _
    rw [him hi]
  have cinj : ∀ s t : Fin 3 → Nat, (∀ c, s c < cnt N n W c) → (∀ c, t c < cnt N n W c) →
      (fun c => coordAt N (lobattoAbsc N roots) P W c (s c)) = (fun c => coordAt N (lobattoAbsc N roots) P W c (t c)) → s = t := by
    intro s t hs ht hst
    funext c
    exact coordAt_inj L two hP (hs c) (ht c) (congrFun hst c)
  have key : (Finset.range N').card = (Fintype.piFinset fun c => Finset.range (cnt N n W c)).card := by
    have hf : ∀ v ∈ Finset.range N', ∃ t : Fin 3 → Nat, (∀ c, t c < cnt N n W c) ∧ ∃ e ∈ (visit (meshOf n P Bs m)).map (·.2), ∃ j, j < N ^ e.ty.dim ∧ (ν e.id).getD j 0 = v ∧
        pos N (physLoc roots) e j = some fun c => coordAt N (lobattoAbsc N roots) P W c (t c) := by
      intro v hv
      obtain ⟨e, he, j, hj, hv⟩ := hused v (Finset.mem_range.1 hv)
      obtain ⟨t, h1, h2⟩ := fwd e he j hj
      exact ⟨t, h1, e, he, j, hj, hv, h2⟩
    choose! f hf1 hf2 using hf
    refine Finset.card_bij (fun v _ => f v) ?_ ?_ ?_
    · intro v hv
      exact Fintype.mem_piFinset.2 fun c => Finset.mem_range.2 (hf1 v hv c)
    · intro v hv v' hv' hvv
      obtain ⟨e, he, j, hj, rfl, h1⟩ := hf2 v hv
      obtain ⟨e', he', j', hj', rfl, h1'⟩ := hf2 v' hv'
      rw [iff e he e' he' j j' hj hj', h1, h1', hvv]
    · intro t ht
      have ht' : ∀ c, t c < cnt N n W c := fun c => Finset.mem_range.1 (Fintype.mem_piFinset.1 ht c)
      obtain ⟨e, he, j, hj, h1⟩ := bwd t ht'
      have hv := Finset.mem_range.2 (hlt e he j hj)
      refine ⟨_, hv, ?_⟩
      obtain ⟨e', he', j', hj', h2, h3⟩ := hf2 _ hv
      have := (iff e' he' e he j' j hj' hj).1 h2
      rw [h3, h1, Option.some.injEq] at this
      exact cinj _ _ (hf1 _ hv) ht' this
  rw [Finset.card_range, Fintype.card_piFinset, Fin.prod_univ_three] at key
  simpa using key

variable {adj : Nat → List Nat}

/-- Generating a structured mesh of any order gives a mesh ready for distribution. -/
theorem generate_grid (h : IsGrid n W dom Bs) (hb : Built res (number (Bs.map (emitOf n P))) m) (hP : Increasing n P)
    (two : 2 ≤ N) (bound : N ^ (axes W).length < 2 ^ 16) (eig : 4 ≤ N → LobattoRoots N roots) (sep : Separated N roots n P)
    (hadj : ∀ e ∈ (visit (meshOf n P Bs m)).map (·.2), ∀ e' ∈ (visit (meshOf n P Bs m)).map (·.2), e.id ≠ e'.id → ShareTwo e e' → e'.id ∈ adj e.id)
    {bnds : List Nat} (hs : bnds.Pairwise (· < ·)) (hbd : ∀ b ∈ bnds, b ≠ dom ∧ ∃ x, (b, x) ∈ Bs) :
    ∃ M' N', generate N (physLoc roots) closeTol adj (n 0 * n 1 * n 2) (meshOf n P Bs m) = some (M', N') ∧
      Ready N (toMesh N M') bnds ((axes W).length - 1) N' ∧ N' = cnt N n W 0 * cnt N n W 1 * cnt N n W 2 := by
  have R := ready_grid h hb hs hbd
  have hm : toMesh 2 (meshOf n P Bs m) = m := toMesh_withData _ (fun e he => by obtain ⟨i, q, _, rfl⟩ := (holds_grid h hb).1 he; rfl)
  unfold generate
  by_cases h2 : N = 2
  · subst h2
    refine ⟨_, _, if_pos rfl, by rw [hm]; exact R, ?_⟩
    have hc : ∀ c, cnt 2 n W c = n c := by
      intro c
      have := h.size c
      unfold cnt
      split
      · rename_i hW; rw [if_pos hW] at this; omega
      · rename_i hW; rw [if_neg hW] at this; exact this.symm
    rw [hc, hc, hc]
  · rw [if_neg h2]
    have G := geo_grid h hb hP two bound eig sep hadj
    have W' := wf_meshOf h hb
    obtain ⟨ν, N', h1, I⟩ := convert_spec W' (geo_of G)
    have hmm : ∀ q ∈ visit (meshOf n P Bs m), q.2 ∈ (visit (meshOf n P Bs m)).map (·.2) := fun q hq => List.mem_map.2 ⟨q, hq, rfl⟩
    have R' : Ready N (toMesh N (relabel ν (meshOf n P Bs m))) bnds ((axes W).length - 1) N' := by
      refine ready_relabel W' (geo_of G) ⟨I.len, I.corner, I.iff⟩ I.le ?_ ?_ (by rw [hm]; exact R)
      · intro q hq v hv
        obtain ⟨j, hj, rfl⟩ := (mem_getD (I.len _ (hmm q hq))).1 hv
        exact I.lt _ (hmm q hq) j hj
      · intro v h1 h2
        obtain ⟨e, he, hv⟩ := I.used v h1 h2
        obtain ⟨q, hq, rfl⟩ := List.mem_map.1 he
        exact ⟨q, hq, hv⟩
    refine ⟨_, N', h1, R', count_grid h hb hP two (lob_of N two roots eig) I.lt ?_ I.iff⟩
    intro v hv
    obtain ⟨e, he, hv⟩ := (R'.nodes v).2 hv
    rw [holds_toMesh, visit_relabel] at he
    obtain ⟨q, hq, rfl⟩ := he
    obtain ⟨q', hq', rfl⟩ := List.mem_map.1 hq
    obtain ⟨j, hj, hv⟩ := (mem_getD (I.len _ (hmm q' hq'))).1 hv
    exact ⟨_, hmm q' hq', j, hj, hv⟩

end
end
end Verif.Gen
