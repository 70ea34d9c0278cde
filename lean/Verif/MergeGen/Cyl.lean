import Verif.MergeGen.CylFit
import Verif.MergeGen.CylModel

/-! # The blocks of the cylinder meshes fit -/
namespace Verif.MergeGen
open Verif Verif.Elem Verif.Mesh Verif.Split Verif.Partition Verif.Merge Verif.Gen Verif.Pipeline Verif.Prim Verif.Cyl

/-- Points of a border covered by earlier blocks. -/
theorem pick {bs : List Sq} {j N : Nat} {c : Sq} {f : Nat → Cyl.Pt} (hN : 0 < N) (hc : ∀ t, t < N → BEdge c.at c.n c.m (f t) (f (t + 1)))
    (hb : ∀ t, t < N → ∃ (i' : Nat) (b' : Sq), i' < j ∧ bs[i']? = some b' ∧ BEdge b'.at b'.n b'.m (f t) (f (t + 1))) {t : Nat} (ht : t ≤ N) :
    ∃ (i' : Nat) (b' : Sq), i' < j ∧ bs[i']? = some b' ∧ ∃ p q, Sym (BEdge b'.at b'.n b'.m) p q ∧ Sym (BEdge c.at c.n c.m) p q ∧ (f t = p ∨ f t = q) := by
  rcases Nat.lt_or_ge t N with h | h
  · obtain ⟨i', b', h1, h2, h3⟩ := hb t h
    exact ⟨i', b', h1, h2, _, _, .inl h3, .inl (hc t h), .inl rfl⟩
  · obtain ⟨u, rfl⟩ : ∃ u, t = u + 1 := ⟨t - 1, by omega⟩
    obtain ⟨i', b', h1, h2, h3⟩ := hb u (by omega)
    exact ⟨i', b', h1, h2, _, _, .inl h3, .inl (hc u (by omega)), .inr rfl⟩

theorem bedge_bottom (b : Sq) {t : Nat} (h : t < b.n) : BEdge b.at b.n b.m (b.at t 0) (b.at (t + 1) 0) := .inl ⟨t, h, .inl ⟨rfl, rfl⟩⟩
theorem bedge_top (b : Sq) {t : Nat} (h : t < b.n) : BEdge b.at b.n b.m (b.at t b.m) (b.at (t + 1) b.m) := .inl ⟨t, h, .inr ⟨rfl, rfl⟩⟩
theorem bedge_left (b : Sq) {t : Nat} (h : t < b.m) : BEdge b.at b.n b.m (b.at 0 t) (b.at 0 (t + 1)) := .inr ⟨t, h, .inl ⟨rfl, rfl⟩⟩
theorem bedge_right (b : Sq) {t : Nat} (h : t < b.m) : BEdge b.at b.n b.m (b.at b.n t) (b.at b.n (t + 1)) := .inr ⟨t, h, .inr ⟨rfl, rfl⟩⟩

section
variable {a r L Lx Ly lo : ℝ} {rad cir xs ys X Y : List ℝ} {ids ids' : SquareIds} {n m l k : Nat}

theorem wake_left (hx : Dist xs 0 L n) (hy : Lin ys lo (step m) l) {j : Nat} (hj : j ≤ l) : (wakeQ r L xs ys ids n l k).at 0 j = polar r (lo + j * step m + ang k) := by
  show v0 (fun p => rotate (ang k) (wakeMap r L p)) xs ys 0 j = _
  rw [wake_v0_left _ _ _ _ hx.first, hy.val j hj]

theorem ring_right (hx : Dist rad a r n) (hc : Lin cir 0 (1 / (4 * m)) (4 * m)) {h j : Nat} (hj : j ≤ 4 * m) :
    (ringQ rad cir ids n m h).at n j = polar r (0 + j * step m + h * Real.pi) := by
  rw [ring_at hc n j hj, hx.last, zero_add]

/-- An edge at the inner side of a wake is an edge of a half ring. -/
theorem wake_ring (hx : Dist xs 0 L n) (hy : Lin ys lo (step m) l) {n' h : Nat} (hx' : Dist rad a r n') (hc : Lin cir 0 (1 / (4 * m)) (4 * m)) {t t' : Nat} (ht : t < l) (ht' : t' < 4 * m)
    (hang : lo + t * step m + ang k = 0 + t' * step m + h * Real.pi ∨ lo + t * step m + ang k = 0 + t' * step m + h * Real.pi + 2 * Real.pi ∨
      lo + t * step m + ang k + 2 * Real.pi = 0 + t' * step m + h * Real.pi) :
    BEdge (ringQ rad cir ids n' m h).at n' (4 * m) ((wakeQ r L xs ys ids' n l k).at 0 t) ((wakeQ r L xs ys ids' n l k).at 0 (t + 1)) := by
  have := arc (r := r) hang
  rw [← wake_left (ids := ids') hx hy (by omega), ← wake_left (ids := ids') hx hy (by omega), ← ring_right (ids := ids) hx' hc (by omega), ← ring_right (ids := ids) hx' hc (by omega)] at this
  simp only [List.cons.injEq, and_true] at this
  rw [this.1, this.2]
  exact bedge_right (ringQ rad cir ids n' m h) (t := t') ht'

theorem corn_bottom (hx : Dist X 0 Lx n) (hy : Dist Y 0 Ly m) (hys : Lin ys lo (step l) n') (ht : lo + n' * step l = Real.pi / 4) {i : Nat} (hi : i ≤ n) :
    (cornQ r Lx Ly X Y ids n m k).at i 0 = (wakeQ r Lx X ys ids' n n' k).at i n' := by
  have h1 := hx.len
  have h2 := hy.len
  show v0 (rotate (ang k)) (X.map (cornerDist r Lx)) (Y.map (cornerDist r Ly)) i 0 = v0 (fun p => rotate (ang k) (wakeMap r Lx p)) X ys i n'
  rw [corner_v0 _ _ _ _ _ (by omega) (by omega), hy.first, cornerDist_zero, wake_top_verts hys ht]

theorem corn_left (hk : k < 4) (hx : Dist X 0 Lx n) (hy : Dist Y 0 Ly m) (hys : Lin ys (-Real.pi / 4) (step l) n') {j : Nat} (hj : j ≤ m) :
    (cornQ r Lx Ly X Y ids n m k).at 0 j = (wakeQ r Ly Y ys ids' m n' ((k + 1) % 4)).at j 0 := by
  have h1 := hx.len
  have h2 := hy.len
  show v0 (rotate (ang k)) (X.map (cornerDist r Lx)) (Y.map (cornerDist r Ly)) 0 j = v0 (fun p => rotate (ang ((k + 1) % 4)) (wakeMap r Ly p)) Y ys j 0
  rw [corner_v0 _ _ _ _ _ (by omega) (by omega), hx.first, cornerDist_zero, wake_bottom_verts hk hys]
end

/-! ## The full cylinder -/

/-- The ten blocks. -/
noncomputable def cylSq (g : Geom) (i : Ids) (m : Nat) (rad cir ys : List ℝ) (X : Nat → List ℝ) : List Sq :=
  [ringQ rad cir (ringIds i) g.nRadial m 0, ringQ rad cir (ringIds i) g.nRadial m 1,
    wakeQ g.rOuter (g.L 0) (X 0) ys (wakeIds i (i.side 0)) (g.N 0) (2 * m) 0, wakeQ g.rOuter (g.L 2) (X 2) ys (wakeIds i (i.side 2)) (g.N 2) (2 * m) 2,
    wakeQ g.rOuter (g.L 3) (X 3) ys (wakeIds i (i.side 3)) (g.N 3) (2 * m) 3, wakeQ g.rOuter (g.L 1) (X 1) ys (wakeIds i (i.side 1)) (g.N 1) (2 * m) 1,
    cornQ g.rOuter (g.L 0) (g.L 1) (X 0) (X 1) (cornerIds i (i.side 0) (i.side 1)) (g.N 0) (g.N 1) 0,
    cornQ g.rOuter (g.L 1) (g.L 2) (X 1) (X 2) (cornerIds i (i.side 1) (i.side 2)) (g.N 1) (g.N 2) 1,
    cornQ g.rOuter (g.L 2) (g.L 3) (X 2) (X 3) (cornerIds i (i.side 2) (i.side 3)) (g.N 2) (g.N 3) 2,
    cornQ g.rOuter (g.L 3) (g.L 0) (X 3) (X 0) (cornerIds i (i.side 3) (i.side 0)) (g.N 3) (g.N 0) 3]

def cylKs : List Kd := [.R 0, .R 1, .W 0, .W 2, .W 3, .W 1, .C 0, .C 1, .C 2, .C 3]

theorem cylSq_emits (g : Geom) (i : Ids) (m : Nat) (rad cir ys : List ℝ) (X : Nat → List ℝ) : (cylSq g i m rad cir ys X).map Sq.emits =
    [ringB rad cir (ringIds i) 0, ringB rad cir (ringIds i) 1,
      wakeB g.rOuter (g.L 0) (X 0) ys (wakeIds i (i.side 0)) 0, wakeB g.rOuter (g.L 2) (X 2) ys (wakeIds i (i.side 2)) 2,
      wakeB g.rOuter (g.L 3) (X 3) ys (wakeIds i (i.side 3)) 3, wakeB g.rOuter (g.L 1) (X 1) ys (wakeIds i (i.side 1)) 1,
      cornB g.rOuter (g.L 0) (g.L 1) (X 0) (X 1) (cornerIds i (i.side 0) (i.side 1)) 0,
      cornB g.rOuter (g.L 1) (g.L 2) (X 1) (X 2) (cornerIds i (i.side 1) (i.side 2)) 1,
      cornB g.rOuter (g.L 2) (g.L 3) (X 2) (X 3) (cornerIds i (i.side 2) (i.side 3)) 2,
      cornB g.rOuter (g.L 3) (g.L 0) (X 3) (X 0) (cornerIds i (i.side 3) (i.side 0)) 3] := rfl

theorem cylSq_ids (g : Geom) (i : Ids) (m : Nat) (rad cir ys : List ℝ) (X : Nat → List ℝ) : (cylSq g i m rad cir ys X).map Sq.ids = cylIds i := rfl

section
variable {g : Geom} {i : Ids} {m : Nat} {rad cir ys : List ℝ} {X : Nat → List ℝ}

theorem cyl_kinds (hf : Facts g m) (d1 : Dist rad g.rInner g.rOuter g.nRadial) (d2 : Lin cir 0 (1 / (4 * m)) (4 * m)) (d3 : Lin ys (-Real.pi / 4) (step m) (2 * m))
    (dX : ∀ k, k < 4 → Dist (X k) 0 (g.L k) (g.N k)) : List.Forall₂ (FitK g.rOuter (half g.rOuter)) cylKs (cylSq g i m rad cir ys X) := by
  have hro : 0 < g.rOuter := hf.r_pos.trans hf.r_lt
  obtain ⟨r1, r2, r3, r4⟩ := wake_range hf.m_pos
  have hR : ∀ h, h < 2 → FitK g.rOuter (half g.rOuter) (.R h) (ringQ rad cir (ringIds i) g.nRadial m h) := fun h hh => ring_fit hf.m_pos hf.rad hf.r_pos hf.r_lt d1 d2 hh
  have hW : ∀ k, k < 4 → FitK g.rOuter (half g.rOuter) (.W k) (wakeQ g.rOuter (g.L k) (X k) ys (wakeIds i (i.side k)) (g.N k) (2 * m) k) := fun k hk =>
    wake_fit hf.m_pos (hf.N_pos k hk) (by have := hf.m_pos; omega) hro (hf.L_gt k hk) (dX k hk) d3 le_rfl r3.le hk
  have hC : ∀ k k', k < 4 → k' < 4 → FitK g.rOuter (half g.rOuter) (.C k) (cornQ g.rOuter (g.L k) (g.L k') (X k) (X k') (cornerIds i (i.side k) (i.side k')) (g.N k) (g.N k') k) :=
    fun k k' hk hk' => corn_fit (hf.N_pos k hk) (hf.N_pos k' hk') hro (hf.L_gt k hk) (hf.L_gt k' hk') (dX k hk) (dX k' hk') hk
  exact .cons (hR 0 (by omega)) (.cons (hR 1 (by omega)) (.cons (hW 0 (by omega)) (.cons (hW 2 (by omega)) (.cons (hW 3 (by omega)) (.cons (hW 1 (by omega))
    (.cons (hC 0 1 (by omega) (by omega)) (.cons (hC 1 2 (by omega) (by omega)) (.cons (hC 2 3 (by omega) (by omega)) (.cons (hC 3 0 (by omega) (by omega)) .nil)))))))))

theorem cyl_early (hf : Facts g m) (d1 : Dist rad g.rInner g.rOuter g.nRadial) (d2 : Lin cir 0 (1 / (4 * m)) (4 * m)) (d3 : Lin ys (-Real.pi / 4) (step m) (2 * m))
    (dX : ∀ k, k < 4 → Dist (X k) 0 (g.L k) (g.N k)) (j : Nat) (K : Kd) (c : Sq) (hK : cylKs[j]? = some K) (hc : (cylSq g i m rad cir ys X)[j]? = some c) (hj : 0 < j)
    (x y : Nat) (hx : x ≤ c.n) (hy : y ≤ c.m) (he : Early g.rOuter (half g.rOuter) K (c.at x y)) :
    ∃ (i' : Nat) (b' : Sq), i' < j ∧ (cylSq g i m rad cir ys X)[i']? = some b' ∧
      ∃ p q, Sym (BEdge b'.at b'.n b'.m) p q ∧ Sym (BEdge c.at c.n c.m) p q ∧ (c.at x y = p ∨ c.at x y = q) := by
  have hm := hf.m_pos
  have hro : 0 < g.rOuter := hf.r_pos.trans hf.r_lt
  obtain ⟨r1, r2, r3, r4⟩ := wake_range hm
  have hms := m_step hm
  obtain ⟨a0, a1, a2, a3⟩ := ang_cases
  have m4 : ∀ k, (k + 1) % 4 < 4 := fun k => Nat.mod_lt _ (by omega)
  let w : Nat → Nat := fun k => if k = 0 then 2 else if k = 1 then 5 else if k = 2 then 3 else 4
  have iR : ∀ h, h < 2 → (cylSq g i m rad cir ys X)[h]? = some (ringQ rad cir (ringIds i) g.nRadial m h) := by
    intro h hh; interval_cases h <;> rfl
  have iW : ∀ k, k < 4 → (cylSq g i m rad cir ys X)[w k]? = some (wakeQ g.rOuter (g.L k) (X k) ys (wakeIds i (i.side k)) (g.N k) (2 * m) k) := by
    intro k hk; interval_cases k <;> rfl
  have wr : ∀ k, 2 ≤ w k ∧ w k ≤ 5 := by intro k; simp only [w]; split_ifs <;> omega
  have eW : ∀ k, k < 4 → ∀ j, j = w k → c = wakeQ g.rOuter (g.L k) (X k) ys (wakeIds i (i.side k)) (g.N k) (2 * m) k → c.at x y = c.at 0 y →
      ∃ (i' : Nat) (b' : Sq), i' < j ∧ (cylSq g i m rad cir ys X)[i']? = some b' ∧
        ∃ p q, Sym (BEdge b'.at b'.n b'.m) p q ∧ Sym (BEdge c.at c.n c.m) p q ∧ (c.at x y = p ∨ c.at x y = q) := by
    intro k hk j hjw hcw hxy
    rw [hxy]
    subst hcw
    replace hy : y ≤ 2 * m := hy
    refine pick (f := fun t => (wakeQ g.rOuter (g.L k) (X k) ys (wakeIds i (i.side k)) (g.N k) (2 * m) k).at 0 t) (N := 2 * m) (by omega) (fun t ht => bedge_left _ ht) ?_ hy
    intro t ht
    have key : ∀ h j' : Nat, h < 2 → j' < 4 * m → (-Real.pi / 4 + t * step m + ang k = (0 : ℝ) + j' * step m + h * Real.pi ∨
        -Real.pi / 4 + t * step m + ang k = (0 : ℝ) + j' * step m + h * Real.pi + 2 * Real.pi ∨
        -Real.pi / 4 + t * step m + ang k + 2 * Real.pi = (0 : ℝ) + j' * step m + h * Real.pi) → ∃ (i' : Nat) (b' : Sq), i' < j ∧ (cylSq g i m rad cir ys X)[i']? = some b' ∧
          BEdge b'.at b'.n b'.m ((wakeQ g.rOuter (g.L k) (X k) ys (wakeIds i (i.side k)) (g.N k) (2 * m) k).at 0 t)
            ((wakeQ g.rOuter (g.L k) (X k) ys (wakeIds i (i.side k)) (g.N k) (2 * m) k).at 0 (t + 1)) := by
      intro h j' hh hj' hang
      exact ⟨h, _, by have := (wr k).1; omega, iR h hh, wake_ring (dX k hk) d3 d1 d2 ht hj' hang⟩
    interval_cases k
    · rcases Nat.lt_or_ge t m with c1 | c1
      · refine key 1 (t + 3 * m) (by omega) (by omega) (Or.inr (Or.inr ?_))
        rw [a0]; push_cast; linarith
      · obtain ⟨t, rfl⟩ := Nat.exists_eq_add_of_le c1
        refine key 0 t (by omega) (by omega) (Or.inl ?_)
        rw [a0]; push_cast; linarith
    · refine key 0 (t + m) (by omega) (by omega) (Or.inl ?_)
      rw [a1]; push_cast; linarith
    · rcases Nat.lt_or_ge t m with c1 | c1
      · refine key 0 (t + 3 * m) (by omega) (by omega) (Or.inl ?_)
        rw [a2]; push_cast; linarith
      · obtain ⟨t, rfl⟩ := Nat.exists_eq_add_of_le c1
        refine key 1 t (by omega) (by omega) (Or.inl ?_)
        rw [a2]; push_cast; linarith
    · refine key 1 (t + m) (by omega) (by omega) (Or.inl ?_)
      rw [a3]; push_cast; linarith
  have eC : ∀ k, k < 4 → ∀ j, 6 ≤ j → c = cornQ g.rOuter (g.L k) (g.L ((k + 1) % 4)) (X k) (X ((k + 1) % 4)) (cornerIds i (i.side k) (i.side ((k + 1) % 4))) (g.N k) (g.N ((k + 1) % 4)) k →
      On g.rOuter (half g.rOuter) (.C k) (c.at x y) →
      ∃ (i' : Nat) (b' : Sq), i' < j ∧ (cylSq g i m rad cir ys X)[i']? = some b' ∧
        ∃ p q, Sym (BEdge b'.at b'.n b'.m) p q ∧ Sym (BEdge c.at c.n c.m) p q ∧ (c.at x y = p ∨ c.at x y = q) := by
    intro k hk j hj hcc ho
    subst hcc
    replace hx : x ≤ g.N k := hx
    replace hy : y ≤ g.N ((k + 1) % 4) := hy
    rcases corn_on hro (hf.L_gt k hk) (hf.L_gt _ (m4 k)) (dX k hk) (dX _ (m4 k)) hk x y hx hy ho with rfl | rfl
    · refine pick (f := fun t => (cornQ g.rOuter (g.L k) (g.L ((k + 1) % 4)) (X k) (X ((k + 1) % 4)) (cornerIds i (i.side k) (i.side ((k + 1) % 4))) (g.N k) (g.N ((k + 1) % 4)) k).at 0 t)
        (hf.N_pos _ (m4 k)) (fun t ht => bedge_left _ ht) ?_ hy
      intro t ht
      refine ⟨_, _, by have := (wr ((k + 1) % 4)).2; omega, iW _ (m4 k), ?_⟩
      rw [corn_left (ids' := wakeIds i (i.side ((k + 1) % 4))) hk (dX k hk) (dX _ (m4 k)) d3 (by omega), corn_left (ids' := wakeIds i (i.side ((k + 1) % 4))) hk (dX k hk) (dX _ (m4 k)) d3 (by omega)]
      exact bedge_bottom _ ht
    · refine pick (f := fun t => (cornQ g.rOuter (g.L k) (g.L ((k + 1) % 4)) (X k) (X ((k + 1) % 4)) (cornerIds i (i.side k) (i.side ((k + 1) % 4))) (g.N k) (g.N ((k + 1) % 4)) k).at t 0)
        (hf.N_pos _ hk) (fun t ht => bedge_bottom _ ht) ?_ hx
      intro t ht
      refine ⟨_, _, by have := (wr k).2; omega, iW _ hk, ?_⟩
      rw [corn_bottom (ids' := wakeIds i (i.side k)) (dX k hk) (dX _ (m4 k)) d3 r3 (by omega), corn_bottom (ids' := wakeIds i (i.side k)) (dX k hk) (dX _ (m4 k)) d3 r3 (by omega)]
      exact bedge_top (wakeQ g.rOuter (g.L k) (X k) ys (wakeIds i (i.side k)) (g.N k) (2 * m) k) ht
  have hj10 : j < 10 := (List.getElem?_eq_some_iff.1 hK).1
  have fW : ∀ k, k < 4 → K = .W k → c = wakeQ g.rOuter (g.L k) (X k) ys (wakeIds i (i.side k)) (g.N k) (2 * m) k → c.at x y = c.at 0 y := by
    intro k hk hKk hcw
    subst hKk hcw
    rw [wake_circle hm hro (hf.L_gt k hk) (dX k hk) d3 le_rfl r3.le hk x y hx hy he]
  interval_cases j
  · -- the lower half ring
    obtain rfl := Option.some.inj hK
    obtain rfl := Option.some.inj hc
    replace hx : x ≤ g.nRadial := hx
    have e1 : ∀ t, (ringQ rad cir (ringIds i) g.nRadial m 1).at t 0 = (ringQ rad cir (ringIds i) g.nRadial m 0).at t (4 * m) := by
      intro t
      rw [ring_at d2 t 0 (by omega), ring_at d2 t (4 * m) le_rfl, four_step hm]
      simp
    have e2 : ∀ t, (ringQ rad cir (ringIds i) g.nRadial m 1).at t (4 * m) = (ringQ rad cir (ringIds i) g.nRadial m 0).at t 0 := by
      intro t
      rw [ring_at d2 t 0 (by omega), ring_at d2 t (4 * m) le_rfl, four_step hm, ← polar_two_pi _ (((0 : Nat) : ℝ) * step m + ((0 : Nat) : ℝ) * Real.pi)]
      congr 1
      push_cast
      ring
    rcases ring_early hm hf.r_pos d1 d2 (by omega) x y hx hy he with rfl | rfl
    · refine pick (f := fun t => (ringQ rad cir (ringIds i) g.nRadial m 1).at t 0) hf.rad (fun t ht => bedge_bottom _ ht) ?_ hx
      intro t ht
      refine ⟨0, _, by omega, iR 0 (by omega), ?_⟩
      simp only [e1]
      exact bedge_top (ringQ rad cir (ringIds i) g.nRadial m 0) ht
    · refine pick (f := fun t => (ringQ rad cir (ringIds i) g.nRadial m 1).at t (4 * m)) hf.rad
        (fun t ht => bedge_top (ringQ rad cir (ringIds i) g.nRadial m 1) ht) ?_ hx
      intro t ht
      refine ⟨0, _, by omega, iR 0 (by omega), ?_⟩
      simp only [e2]
      exact bedge_bottom (ringQ rad cir (ringIds i) g.nRadial m 0) ht
  · have hc' := (Option.some.inj hc).symm
    exact eW 0 (by omega) _ rfl hc' (fW 0 (by omega) (Option.some.inj hK).symm hc')
  · have hc' := (Option.some.inj hc).symm
    exact eW 2 (by omega) _ rfl hc' (fW 2 (by omega) (Option.some.inj hK).symm hc')
  · have hc' := (Option.some.inj hc).symm
    exact eW 3 (by omega) _ rfl hc' (fW 3 (by omega) (Option.some.inj hK).symm hc')
  · have hc' := (Option.some.inj hc).symm
    exact eW 1 (by omega) _ rfl hc' (fW 1 (by omega) (Option.some.inj hK).symm hc')
  · obtain rfl := Option.some.inj hK
    exact eC 0 (by omega) _ (by omega) (Option.some.inj hc).symm he
  · obtain rfl := Option.some.inj hK
    exact eC 1 (by omega) _ (by omega) (Option.some.inj hc).symm he
  · obtain rfl := Option.some.inj hK
    exact eC 2 (by omega) _ (by omega) (Option.some.inj hc).symm he
  · obtain rfl := Option.some.inj hK
    exact eC 3 (by omega) _ (by omega) (Option.some.inj hc).symm he

/-- No grid points of different places are too close. -/
def FarApart (bs : List Sq) : Prop := ∀ b ∈ bs, ∀ c ∈ bs, ∀ x y x' y', x ≤ b.n → y ≤ b.m → x' ≤ c.n → y' ≤ c.m → close (ptOf (c.at x' y')) (ptOf (b.at x y)) = true → b.at x y = c.at x' y'

theorem cyl_fit (hf : Facts g m) (d1 : Dist rad g.rInner g.rOuter g.nRadial) (d2 : Lin cir 0 (1 / (4 * m)) (4 * m)) (d3 : Lin ys (-Real.pi / 4) (step m) (2 * m))
    (dX : ∀ k, k < 4 → Dist (X k) 0 (g.L k) (g.N k)) (hd : i.domain ∉ [1, 2, 3, 4, i.bottom, i.top, i.left, i.right, i.cylinder]) (hap : FarApart (cylSq g i m rad cir ys X)) :
    SqFit i.domain (cylSq g i m rad cir ys X) := by
  refine sqFit_of (half_pos (hf.r_pos.trans hf.r_lt)) (half_sq _) (cyl_kinds hf d1 d2 d3 dX) (by decide) (by decide) ?_ (cyl_early hf d1 d2 d3 dX) hap
  intro b hb
  simp only [List.mem_cons, List.not_mem_nil, or_false, not_or] at hd
  obtain ⟨n1, n2, n3, n4, n5, n6, n7, n8, n9⟩ := hd
  simp only [cylSq, List.mem_cons, List.not_mem_nil, or_false] at hb
  rcases hb with rfl | rfl | rfl | rfl | rfl | rfl | rfl | rfl | rfl | rfl <;> refine ⟨rfl, ?_⟩ <;>
    simp [ringQ, wakeQ, cornQ, ringIds, wakeIds, cornerIds, defaultIds, Ids.side, n1, n2, n3, n4, n5, n6, n7, n8, n9]
end
end Verif.MergeGen
