import Verif.MergeGen.HalfCyl
import Verif.MergeGen.Result

/-! # Edges which no other block has -/
namespace Verif.MergeGen
open Verif Verif.Elem Verif.Mesh Verif.Split Verif.Partition Verif.Merge Verif.Gen Verif.Pipeline Verif.Prim Verif.Cyl

/-- An edge element of a block. -/
def HasEdge (b : Sq) (k : Nat) (p q : Cyl.Pt) : Prop := ∃ e ∈ b.emits, e.dom = k ∧ e.ty = .line ∧ e.verts = [p, q]

theorem edge_bottom {b : Sq} (ok : b.Ok) {i : Nat} (hi : i < b.n) : HasEdge b b.ids.bottom (b.at i 0) (b.at (i + 1) 0) := by
  have hx := ok.lenx
  have hy := ok.leny
  refine ⟨_, List.mem_map_of_mem (a := ⟨b.ids.bottom, .line, [i, i + 1], [(b.xs.getD i 0, b.ys.getD 0 0, 0), (b.xs.getD (i + 1) 0, b.ys.getD 0 0, 0)]⟩) ?_, rfl, rfl, rfl⟩
  refine List.mem_append_left _ (List.mem_append_right _ ?_)
  simp only [squareY, List.mem_flatMap, List.mem_range]
  exact ⟨i, by omega, by simp⟩

theorem edge_top {b : Sq} (ok : b.Ok) {i : Nat} (hi : i < b.n) : HasEdge b b.ids.top (b.at i b.m) (b.at (i + 1) b.m) := by
  have hx := ok.lenx
  have hy := ok.leny
  refine ⟨_, List.mem_map_of_mem (a := ⟨b.ids.top, .line, [i + (b.n + 1) * b.m, i + 1 + (b.n + 1) * b.m], [(b.xs.getD i 0, b.ys.getD b.m 0, 0), (b.xs.getD (i + 1) 0, b.ys.getD b.m 0, 0)]⟩) ?_, rfl, rfl, rfl⟩
  refine List.mem_append_left _ (List.mem_append_right _ ?_)
  simp only [squareY, List.mem_flatMap, List.mem_range]
  exact ⟨i, by omega, by simp [hx, hy]⟩

theorem edge_left {b : Sq} (ok : b.Ok) {j : Nat} (hj : j < b.m) : HasEdge b b.ids.left (b.at 0 j) (b.at 0 (j + 1)) := by
  have hx := ok.lenx
  have hy := ok.leny
  refine ⟨_, List.mem_map_of_mem (a := ⟨b.ids.left, .line, [j * (b.n + 1), (j + 1) * (b.n + 1)], [(b.xs.getD 0 0, b.ys.getD j 0, 0), (b.xs.getD 0 0, b.ys.getD (j + 1) 0, 0)]⟩) ?_, rfl, rfl, rfl⟩
  refine List.mem_append_right _ ?_
  simp only [squareX, List.mem_flatMap, List.mem_range]
  exact ⟨j, by omega, by simp [hx]⟩

theorem edge_right {b : Sq} (ok : b.Ok) {j : Nat} (hj : j < b.m) : HasEdge b b.ids.right (b.at b.n j) (b.at b.n (j + 1)) := by
  have hx := ok.lenx
  have hy := ok.leny
  refine ⟨_, List.mem_map_of_mem (a := ⟨b.ids.right, .line, [j * (b.n + 1) + b.n, (j + 1) * (b.n + 1) + b.n], [(b.xs.getD b.n 0, b.ys.getD j 0, 0), (b.xs.getD b.n 0, b.ys.getD (j + 1) 0, 0)]⟩) ?_, rfl, rfl, rfl⟩
  refine List.mem_append_right _ ?_
  simp only [squareX, List.mem_flatMap, List.mem_range]
  exact ⟨j, by omega, by simp [hx]⟩

theorem not_shared {r s : ℝ} (hs : 0 < s) (hr : r ^ 2 = 2 * s ^ 2) {Ks : List Kd} {bs : List Sq} (hk : List.Forall₂ (FitK r s) Ks bs) (hnd : Ks.Nodup) {a : Nat} {K : Kd} {e : Emit Cyl.Pt}
    (ha : Ks[a]? = some K) {v : Cyl.Pt} (hv : v ∈ e.verts) (hreg : Reg r s K v) (hval : K.Valid) (ho : ¬ On r s K v) : ¬ Shared (bs.map Sq.emits) a e := by
  rintro ⟨c, B', hne, hB', e', he', ht', hp'⟩
  rw [List.getElem?_map, Option.map_eq_some_iff] at hB'
  obtain ⟨b', hb', rfl⟩ := hB'
  obtain ⟨K', hK', hf'⟩ := forall₂_get hk hb'
  obtain ⟨_, p, q, hpq, hB⟩ := line_bedge hf'.ok.lenx hf'.ok.leny he' ht'
  obtain ⟨h1, h2, _⟩ := hf'.ends (.inl (BEdge.grid hB))
  have hreg' : Reg r s K' v := by
    have := hp'.mem_iff.2 hv
    rw [hpq] at this
    simp only [List.mem_cons, List.not_mem_nil, or_false] at this
    rcases this with rfl | rfl
    · exact h1
    · exact h2
  refine ho (inter hs hr hval hf'.valid ?_ hreg hreg').1
  rintro rfl
  obtain ⟨h3, h4⟩ := List.getElem?_eq_some_iff.1 ha
  obtain ⟨h5, h6⟩ := List.getElem?_eq_some_iff.1 hK'
  exact hne ((List.Nodup.getElem_inj_iff hnd).1 (h6.trans h4.symm))

/-- An edge which remains. -/
def Free (Bs : List (List (Emit Cyl.Pt))) (k : Nat) : Prop := ∃ a B, Bs[a]? = some B ∧ ∃ e ∈ B, e.dom = k ∧ e.ty = .line ∧ ¬ Shared Bs a e

theorem free_of {r s : ℝ} (hs : 0 < s) (hr : r ^ 2 = 2 * s ^ 2) {Ks : List Kd} {bs : List Sq} (hk : List.Forall₂ (FitK r s) Ks bs) (hnd : Ks.Nodup) {a k : Nat} {K : Kd} {b : Sq}
    (ha : Ks[a]? = some K) (hb : bs[a]? = some b) {p q : Cyl.Pt} (he : HasEdge b k p q) {i j : Nat} (hi : i ≤ b.n) (hj : j ≤ b.m) (hpq : b.at i j = p ∨ b.at i j = q)
    (ho : ¬ On r s K (b.at i j)) : Free (bs.map Sq.emits) k := by
  obtain ⟨e, h1, h2, h3, h4⟩ := he
  obtain ⟨K', hK', hf⟩ := forall₂_get hk hb
  obtain rfl : K' = K := Option.some.inj (hK'.symm.trans ha)
  refine ⟨a, _, by rw [List.getElem?_map, hb]; rfl, e, h1, h2, h3, ?_⟩
  refine not_shared hs hr hk hnd ha (v := b.at i j) ?_ (hf.reg i j hi hj) hf.valid ho
  rw [h4]
  rcases hpq with h | h <;> simp [h]

theorem cyl_free {g : Geom} {i : Ids} {m : Nat} {rad cir ys : List ℝ} {X : Nat → List ℝ} (hf : Facts g m) (d1 : Dist rad g.rInner g.rOuter g.nRadial)
    (d2 : Lin cir 0 (1 / (4 * m)) (4 * m)) (d3 : Lin ys (-Real.pi / 4) (step m) (2 * m)) (dX : ∀ k, k < 4 → Dist (X k) 0 (g.L k) (g.N k)) :
    (∀ k, k < 4 → Free ((cylSq g i m rad cir ys X).map Sq.emits) (i.side k)) ∧ Free ((cylSq g i m rad cir ys X).map Sq.emits) i.cylinder := by
  have hm := hf.m_pos
  have hro : 0 < g.rOuter := hf.r_pos.trans hf.r_lt
  obtain ⟨r1, r2, r3, r4⟩ := wake_range hm
  have hk := cyl_kinds (i := i) hf d1 d2 d3 dX
  have hs := half_pos hro
  have hr := half_sq g.rOuter
  constructor
  · intro k hk4
    obtain ⟨a, ha, hb⟩ : ∃ a : Nat, cylKs[a]? = some (Kd.W k) ∧ (cylSq g i m rad cir ys X)[a]? = some (wakeQ g.rOuter (g.L k) (X k) ys (wakeIds i (i.side k)) (g.N k) (2 * m) k) := by
      interval_cases k
      · exact ⟨2, rfl, rfl⟩
      · exact ⟨5, rfl, rfl⟩
      · exact ⟨3, rfl, rfl⟩
      · exact ⟨4, rfl, rfl⟩
    obtain ⟨_, _, hfk⟩ := forall₂_get hk hb
    have hN := hf.N_pos k hk4
    refine free_of hs hr hk (by decide) ha hb (edge_right hfk.ok (j := 0) hfk.ok.m_pos) (i := g.N k) (j := 1) le_rfl (by show 1 ≤ 2 * m; omega) (.inr rfl) ?_
    intro ho
    rcases wake_on hm hro (hf.L_gt k hk4) (dX k hk4) d3 le_rfl r3.le hk4 _ 1 le_rfl (by omega) ho with h | ⟨h, _⟩ | ⟨h, _⟩ <;> omega
  · have hb : (cylSq g i m rad cir ys X)[0]? = some (ringQ rad cir (ringIds i) g.nRadial m 0) := rfl
    obtain ⟨_, _, hfk⟩ := forall₂_get hk hb
    have hN := hf.rad
    refine free_of hs hr hk (by decide) (K := .R 0) rfl hb (edge_left hfk.ok (j := 0) hfk.ok.m_pos) (i := 0) (j := 1) (Nat.zero_le _) (by show 1 ≤ 4 * m; omega) (.inr rfl) ?_
    intro ho
    rcases ring_on hm hf.r_pos hf.r_lt d1 d2 (by omega) 0 1 (by omega) (by omega) ho with h | h | h <;> omega

theorem half_free {g : Geom} {i : HalfIds} {m : Nat} {rad cir y0 y1 y2 : List ℝ} {X : Nat → List ℝ} (hf : HFacts g m) (d1 : Dist rad g.rInner g.rOuter g.nRadial)
    (d2 : Lin cir 0 (1 / (4 * m)) (4 * m)) (d3 : Lin y0 0 (step m) m)
    (d4 : Lin y1 (-Real.pi / 4) (step m) (2 * m)) (d5 : Lin y2 (-Real.pi / 4) (step m) m) (dX : ∀ k, k < 3 → Dist (X k) 0 (g.L k) (g.N k)) :
    ∀ k ∈ [i.bottomLeft, i.cylinder, i.bottomRight, i.top, i.left, i.right], Free ((halfSq g i m rad cir y0 y1 y2 X).map Sq.emits) k := by
  have hm := hf.m_pos
  have hp := Real.pi_pos
  have hro : 0 < g.rOuter := hf.r_pos.trans hf.r_lt
  obtain ⟨r1, r2, r3, r4⟩ := wake_range hm
  have hlo := half_lo hm
  have hk := half_kinds (i := i) hf d1 d2 d3 d4 d5 dX
  have hs := half_pos hro
  have hr := half_sq g.rOuter
  have z2 : -Real.pi / 4 + (m : Nat) * step m = 0 := by linarith
  have b0 : (halfSq g i m rad cir y0 y1 y2 X)[0]? = some (ringQ rad cir (halfRingIds i) g.nRadial m 0) := rfl
  have b1 : (halfSq g i m rad cir y0 y1 y2 X)[1]? = some (wakeQ g.rOuter (g.L 0) (X 0) y0 (halfWakeIds i i.right i.bottomRight) (g.N 0) m 0) := rfl
  have b2 : (halfSq g i m rad cir y0 y1 y2 X)[2]? = some (wakeQ g.rOuter (g.L 2) (X 2) y2 (halfWakeIds i i.left i.bottomLeft) (g.N 2) m 2) := rfl
  have b3 : (halfSq g i m rad cir y0 y1 y2 X)[3]? = some (wakeQ g.rOuter (g.L 1) (X 1) y1 (halfTopIds i) (g.N 1) (2 * m) 1) := rfl
  obtain ⟨_, _, f0⟩ := forall₂_get hk b0
  obtain ⟨_, _, f1⟩ := forall₂_get hk b1
  obtain ⟨_, _, f2⟩ := forall₂_get hk b2
  obtain ⟨_, _, f3⟩ := forall₂_get hk b3
  have N0 := hf.N_pos 0 (by omega)
  have N1 := hf.N_pos 1 (by omega)
  have N2 := hf.N_pos 2 (by omega)
  have NR := hf.rad
  -- outer end of the symmetry axis, right and left
  have o1 : ¬ On g.rOuter (half g.rOuter) (.W 0) ((wakeQ g.rOuter (g.L 0) (X 0) y0 (halfWakeIds i i.right i.bottomRight) (g.N 0) m 0).at (g.N 0) 0) := by
    intro ho
    rcases wake_on hm hro (hf.L_gt 0 (by omega)) (dX 0 (by omega)) d3 (by linarith) hlo.le (by omega) _ 0 le_rfl (by omega) ho with h | ⟨h, _⟩ | ⟨_, h⟩
    · omega
    · omega
    · linarith
  have o2 : ¬ On g.rOuter (half g.rOuter) (.W 2) ((wakeQ g.rOuter (g.L 2) (X 2) y2 (halfWakeIds i i.left i.bottomLeft) (g.N 2) m 2).at (g.N 2) m) := by
    intro ho
    rcases wake_on hm hro (hf.L_gt 2 (by omega)) (dX 2 (by omega)) d5 le_rfl (by linarith) (by omega) _ m le_rfl le_rfl ho with h | ⟨_, h⟩ | ⟨h, _⟩
    · omega
    · linarith
    · omega
  intro k hkm
  simp only [List.mem_cons, List.not_mem_nil, or_false] at hkm
  rcases hkm with rfl | rfl | rfl | rfl | rfl | rfl
  · exact free_of hs hr hk (by decide) (K := .W 2) rfl b2 (edge_top f2.ok (i := g.N 2 - 1) (by show g.N 2 - 1 < g.N 2; omega)) (i := g.N 2) (j := m) le_rfl le_rfl
      (.inr (by rw [Nat.sub_add_cancel N2]; rfl)) o2
  · refine free_of hs hr hk (by decide) (K := .R 0) rfl b0 (edge_left f0.ok (j := 0) f0.ok.m_pos) (i := 0) (j := 1) (Nat.zero_le _) (by show 1 ≤ 4 * m; omega) (.inr rfl) ?_
    intro ho
    rcases ring_on hm hf.r_pos hf.r_lt d1 d2 (by omega) 0 1 (by omega) (by omega) ho with h | h | h <;> omega
  · exact free_of hs hr hk (by decide) (K := .W 0) rfl b1 (edge_bottom f1.ok (i := g.N 0 - 1) (by show g.N 0 - 1 < g.N 0; omega)) (i := g.N 0) (j := 0) le_rfl (Nat.zero_le _)
      (.inr (by rw [Nat.sub_add_cancel N0])) o1
  · refine free_of hs hr hk (by decide) (K := .W 1) rfl b3 (edge_right f3.ok (j := 0) f3.ok.m_pos) (i := g.N 1) (j := 1) le_rfl (by show 1 ≤ 2 * m; omega) (.inr rfl) ?_
    intro ho
    rcases wake_on hm hro (hf.L_gt 1 (by omega)) (dX 1 (by omega)) d4 le_rfl r3.le (by omega) _ 1 le_rfl (by omega) ho with h | ⟨h, _⟩ | ⟨h, _⟩ <;> omega
  · exact free_of hs hr hk (by decide) (K := .W 2) rfl b2 (edge_right f2.ok (j := m - 1) (by show m - 1 < m; omega)) (i := g.N 2) (j := m) le_rfl le_rfl
      (.inr (by rw [Nat.sub_add_cancel hm]; rfl)) o2
  · exact free_of hs hr hk (by decide) (K := .W 0) rfl b1 (edge_right f1.ok (j := 0) f1.ok.m_pos) (i := g.N 0) (j := 0) le_rfl (Nat.zero_le _) (.inl rfl) o1

end Verif.MergeGen
