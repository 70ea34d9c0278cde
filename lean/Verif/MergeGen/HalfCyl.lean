import Verif.MergeGen.Cyl

/-! # The blocks of the half cylinder fit -/
namespace Verif.MergeGen
open Verif Verif.Elem Verif.Mesh Verif.Split Verif.Partition Verif.Merge Verif.Gen Verif.Pipeline Verif.Prim Verif.Cyl

/-- The six blocks. -/
noncomputable def halfSq (g : Geom) (i : HalfIds) (m : Nat) (rad cir y0 y1 y2 : List ℝ) (X : Nat → List ℝ) : List Sq :=
  [ringQ rad cir (halfRingIds i) g.nRadial m 0,
    wakeQ g.rOuter (g.L 0) (X 0) y0 (halfWakeIds i i.right i.bottomRight) (g.N 0) m 0, wakeQ g.rOuter (g.L 2) (X 2) y2 (halfWakeIds i i.left i.bottomLeft) (g.N 2) m 2,
    wakeQ g.rOuter (g.L 1) (X 1) y1 (halfTopIds i) (g.N 1) (2 * m) 1,
    cornQ g.rOuter (g.L 0) (g.L 1) (X 0) (X 1) (halfCornerIds i i.right i.top i.bottomRight) (g.N 0) (g.N 1) 0,
    cornQ g.rOuter (g.L 1) (g.L 2) (X 1) (X 2) (halfCornerIds i i.top i.left i.bottomLeft) (g.N 1) (g.N 2) 1]

def halfKs : List Kd := [.R 0, .W 0, .W 2, .W 1, .C 0, .C 1]

theorem halfSq_emits (g : Geom) (i : HalfIds) (m : Nat) (rad cir y0 y1 y2 : List ℝ) (X : Nat → List ℝ) : (halfSq g i m rad cir y0 y1 y2 X).map Sq.emits =
    [ringB rad cir (halfRingIds i) 0,
      wakeB g.rOuter (g.L 0) (X 0) y0 (halfWakeIds i i.right i.bottomRight) 0, wakeB g.rOuter (g.L 2) (X 2) y2 (halfWakeIds i i.left i.bottomLeft) 2,
      wakeB g.rOuter (g.L 1) (X 1) y1 (halfTopIds i) 1,
      cornB g.rOuter (g.L 0) (g.L 1) (X 0) (X 1) (halfCornerIds i i.right i.top i.bottomRight) 0,
      cornB g.rOuter (g.L 1) (g.L 2) (X 1) (X 2) (halfCornerIds i i.top i.left i.bottomLeft) 1] := rfl

theorem halfSq_ids (g : Geom) (i : HalfIds) (m : Nat) (rad cir y0 y1 y2 : List ℝ) (X : Nat → List ℝ) : (halfSq g i m rad cir y0 y1 y2 X).map Sq.ids = halfCylIds i := rfl

section
variable {g : Geom} {i : HalfIds} {m : Nat} {rad cir y0 y1 y2 : List ℝ} {X : Nat → List ℝ}

theorem half_lo (hm : 0 < m) : (0 : ℝ) + (m : Nat) * step m = Real.pi / 4 := by
  have := m_step hm
  linarith

theorem half_kinds (hf : HFacts g m) (d1 : Dist rad g.rInner g.rOuter g.nRadial) (d2 : Lin cir 0 (1 / (4 * m)) (4 * m)) (d3 : Lin y0 0 (step m) m)
    (d4 : Lin y1 (-Real.pi / 4) (step m) (2 * m)) (d5 : Lin y2 (-Real.pi / 4) (step m) m)
    (dX : ∀ k, k < 3 → Dist (X k) 0 (g.L k) (g.N k)) : List.Forall₂ (FitK g.rOuter (half g.rOuter)) halfKs (halfSq g i m rad cir y0 y1 y2 X) := by
  have hro : 0 < g.rOuter := hf.r_pos.trans hf.r_lt
  have hp := Real.pi_pos
  have hm := hf.m_pos
  obtain ⟨r1, r2, r3, r4⟩ := wake_range hm
  have hC : ∀ k k' ids, k < 3 → k' < 3 → FitK g.rOuter (half g.rOuter) (.C k) (cornQ g.rOuter (g.L k) (g.L k') (X k) (X k') ids (g.N k) (g.N k') k) :=
    fun k k' ids hk hk' => corn_fit (hf.N_pos k hk) (hf.N_pos k' hk') hro (hf.L_gt k hk) (hf.L_gt k' hk') (dX k hk) (dX k' hk') (by omega)
  have z2 : -Real.pi / 4 + (m : Nat) * step m = 0 := by have := half_lo hm; linarith
  exact .cons (ring_fit hm hf.rad hf.r_pos hf.r_lt d1 d2 (by omega))
    (.cons (wake_fit hm (hf.N_pos 0 (by omega)) hm hro (hf.L_gt 0 (by omega)) (dX 0 (by omega)) d3 (by linarith) (half_lo hm).le (by omega))
    (.cons (wake_fit hm (hf.N_pos 2 (by omega)) hm hro (hf.L_gt 2 (by omega)) (dX 2 (by omega)) d5 le_rfl (by linarith) (by omega))
    (.cons (wake_fit hm (hf.N_pos 1 (by omega)) (by omega) hro (hf.L_gt 1 (by omega)) (dX 1 (by omega)) d4 le_rfl r3.le (by omega))
    (.cons (hC 0 1 _ (by omega) (by omega)) (.cons (hC 1 2 _ (by omega) (by omega)) .nil)))))

theorem half_early (hf : HFacts g m) (d1 : Dist rad g.rInner g.rOuter g.nRadial) (d2 : Lin cir 0 (1 / (4 * m)) (4 * m)) (d3 : Lin y0 0 (step m) m)
    (d4 : Lin y1 (-Real.pi / 4) (step m) (2 * m)) (d5 : Lin y2 (-Real.pi / 4) (step m) m)
    (dX : ∀ k, k < 3 → Dist (X k) 0 (g.L k) (g.N k)) (j : Nat) (K : Kd) (c : Sq) (hK : halfKs[j]? = some K) (hc : (halfSq g i m rad cir y0 y1 y2 X)[j]? = some c) (hj : 0 < j)
    (x y : Nat) (hx : x ≤ c.n) (hy : y ≤ c.m) (he : Early g.rOuter (half g.rOuter) K (c.at x y)) :
    ∃ (i' : Nat) (b' : Sq), i' < j ∧ (halfSq g i m rad cir y0 y1 y2 X)[i']? = some b' ∧
      ∃ p q, Sym (BEdge b'.at b'.n b'.m) p q ∧ Sym (BEdge c.at c.n c.m) p q ∧ (c.at x y = p ∨ c.at x y = q) := by
  have hm := hf.m_pos
  have hro : 0 < g.rOuter := hf.r_pos.trans hf.r_lt
  have hp := Real.pi_pos
  obtain ⟨r1, r2, r3, r4⟩ := wake_range hm
  have hms := m_step hm
  have hlo := half_lo hm
  obtain ⟨a0, a1, a2, a3⟩ := ang_cases
  have eW : ∀ (k l off : Nat) (ys : List ℝ) (lo : ℝ) (ids : SquareIds) (j : Nat), k < 3 → 0 < l → off + l ≤ 4 * m → Lin ys lo (step m) l → -Real.pi / 4 ≤ lo → lo + l * step m ≤ Real.pi / 4 →
      lo + ang k = off * step m → 0 < j → K = .W k → c = wakeQ g.rOuter (g.L k) (X k) ys ids (g.N k) l k →
      ∃ (i' : Nat) (b' : Sq), i' < j ∧ (halfSq g i m rad cir y0 y1 y2 X)[i']? = some b' ∧
        ∃ p q, Sym (BEdge b'.at b'.n b'.m) p q ∧ Sym (BEdge c.at c.n c.m) p q ∧ (c.at x y = p ∨ c.at x y = q) := by
    intro k l off ys lo ids j hk hl hoff hlin h1 h2 hang hj hKk hcw
    subst hKk hcw
    replace hy : y ≤ l := hy
    obtain rfl := wake_circle hm hro (hf.L_gt k hk) (dX k hk) hlin h1 h2 (by omega) x y hx hy he
    refine pick (f := fun t => (wakeQ g.rOuter (g.L k) (X k) ys ids (g.N k) l k).at 0 t) (N := l) hl (fun t ht => bedge_left _ ht) ?_ hy
    intro t ht
    refine ⟨0, ringQ rad cir (halfRingIds i) g.nRadial m 0, hj, rfl, ?_⟩
    refine wake_ring (t' := off + t) (dX k hk) hlin d1 d2 ht (by omega) (Or.inl ?_)
    push_cast
    linarith
  have eC : ∀ (k j : Nat) (ids ids1 ids2 : SquareIds) (ys ys' : List ℝ) (lo : ℝ) (l l' : Nat) (j1 j2 : Nat), k < 2 → j1 < j → j2 < j →
      Lin ys lo (step m) l → lo + l * step m = Real.pi / 4 → Lin ys' (-Real.pi / 4) (step m) l' →
      (halfSq g i m rad cir y0 y1 y2 X)[j1]? = some (wakeQ g.rOuter (g.L k) (X k) ys ids1 (g.N k) l k) →
      (halfSq g i m rad cir y0 y1 y2 X)[j2]? = some (wakeQ g.rOuter (g.L (k + 1)) (X (k + 1)) ys' ids2 (g.N (k + 1)) l' (k + 1)) →
      c = cornQ g.rOuter (g.L k) (g.L (k + 1)) (X k) (X (k + 1)) ids (g.N k) (g.N (k + 1)) k →
      On g.rOuter (half g.rOuter) (.C k) (c.at x y) →
      ∃ (i' : Nat) (b' : Sq), i' < j ∧ (halfSq g i m rad cir y0 y1 y2 X)[i']? = some b' ∧
        ∃ p q, Sym (BEdge b'.at b'.n b'.m) p q ∧ Sym (BEdge c.at c.n c.m) p q ∧ (c.at x y = p ∨ c.at x y = q) := by
    intro k j ids ids1 ids2 ys ys' lo l l' j1 j2 hk hj1 hj2 hl1 htop hl2 hb1 hb2 hcc ho
    subst hcc
    replace hx : x ≤ g.N k := hx
    replace hy : y ≤ g.N (k + 1) := hy
    have hmod : (k + 1) % 4 = k + 1 := Nat.mod_eq_of_lt (by omega)
    rcases corn_on hro (hf.L_gt k (by omega)) (hf.L_gt (k + 1) (by omega)) (dX k (by omega)) (dX (k + 1) (by omega)) (by omega) x y hx hy ho with rfl | rfl
    · refine pick (f := fun t => (cornQ g.rOuter (g.L k) (g.L (k + 1)) (X k) (X (k + 1)) ids (g.N k) (g.N (k + 1)) k).at 0 t)
        (hf.N_pos _ (by omega)) (fun t ht => bedge_left _ ht) ?_ hy
      intro t ht
      refine ⟨_, _, hj2, hb2, ?_⟩
      have e1 := fun (u : Nat) (hu : u ≤ g.N (k + 1)) => corn_left (r := g.rOuter) (ids := ids) (ids' := ids2) (k := k) (by omega) (dX k (by omega)) (dX (k + 1) (by omega)) hl2 hu
      rw [hmod] at e1
      rw [e1 t (by omega), e1 (t + 1) (by omega)]
      exact bedge_bottom _ ht
    · refine pick (f := fun t => (cornQ g.rOuter (g.L k) (g.L (k + 1)) (X k) (X (k + 1)) ids (g.N k) (g.N (k + 1)) k).at t 0)
        (hf.N_pos _ (by omega)) (fun t ht => bedge_bottom _ ht) ?_ hx
      intro t ht
      refine ⟨_, _, hj1, hb1, ?_⟩
      rw [corn_bottom (ids' := ids1) (dX k (by omega)) (dX (k + 1) (by omega)) hl1 htop (by omega), corn_bottom (ids' := ids1) (dX k (by omega)) (dX (k + 1) (by omega)) hl1 htop (by omega)]
      exact bedge_top (wakeQ g.rOuter (g.L k) (X k) ys ids1 (g.N k) l k) ht
  have hj6 : j < 6 := (List.getElem?_eq_some_iff.1 hK).1
  interval_cases j
  · exact eW 0 m 0 y0 0 _ _ (by omega) hm (by omega) d3 (by linarith) hlo.le (by rw [a0]; simp) (by omega) (Option.some.inj hK).symm (Option.some.inj hc).symm
  · exact eW 2 m (3 * m) y2 (-Real.pi / 4) _ _ (by omega) hm (by omega) d5 le_rfl (by linarith) (by rw [a2]; push_cast; linarith) (by omega) (Option.some.inj hK).symm (Option.some.inj hc).symm
  · exact eW 1 (2 * m) m y1 (-Real.pi / 4) _ _ (by omega) (by omega) (by omega) d4 le_rfl r3.le (by rw [a1]; linarith) (by omega) (Option.some.inj hK).symm (Option.some.inj hc).symm
  · obtain rfl := Option.some.inj hK
    exact eC 0 4 _ _ _ y0 y1 0 m (2 * m) 1 3 (by omega) (by omega) (by omega) d3 hlo d4 rfl rfl (Option.some.inj hc).symm he
  · obtain rfl := Option.some.inj hK
    exact eC 1 5 _ _ _ y1 y2 (-Real.pi / 4) (2 * m) m 3 2 (by omega) (by omega) (by omega) d4 r3 d5 rfl rfl (Option.some.inj hc).symm he

theorem half_fit (hf : HFacts g m) (d1 : Dist rad g.rInner g.rOuter g.nRadial) (d2 : Lin cir 0 (1 / (4 * m)) (4 * m)) (d3 : Lin y0 0 (step m) m)
    (d4 : Lin y1 (-Real.pi / 4) (step m) (2 * m)) (d5 : Lin y2 (-Real.pi / 4) (step m) m) (dX : ∀ k, k < 3 → Dist (X k) 0 (g.L k) (g.N k))
    (hd : i.domain ∉ [1, 2, 3, 4, i.bottomLeft, i.cylinder, i.bottomRight, i.top, i.left, i.right]) (hap : FarApart (halfSq g i m rad cir y0 y1 y2 X)) :
    SqFit i.domain (halfSq g i m rad cir y0 y1 y2 X) := by
  refine sqFit_of (half_pos (hf.r_pos.trans hf.r_lt)) (half_sq _) (half_kinds hf d1 d2 d3 d4 d5 dX) (by decide) (by decide) ?_ (half_early hf d1 d2 d3 d4 d5 dX) hap
  intro b hb
  simp only [List.mem_cons, List.not_mem_nil, or_false, not_or] at hd
  obtain ⟨n1, n2, n3, n4, n5, n6, n7, n8, n9, n10⟩ := hd
  simp only [halfSq, List.mem_cons, List.not_mem_nil, or_false] at hb
  rcases hb with rfl | rfl | rfl | rfl | rfl | rfl <;> refine ⟨rfl, ?_⟩ <;>
    simp [ringQ, wakeQ, cornQ, halfRingIds, halfWakeIds, halfTopIds, halfCornerIds, defaultIds, n1, n2, n3, n4, n5, n6, n7, n8, n9, n10]
end
end Verif.MergeGen
