import Verif.MergeGen.Quads

/-! # Where the blocks of the cylinder meshes lie -/
namespace Verif.MergeGen
open Verif Verif.Elem Verif.Mesh Verif.Split Verif.Partition Verif.Merge Verif.Gen Verif.Pipeline Verif.Prim Verif.Cyl

/-- Coordinates turned by quarter turns. -/
def fu (k : Nat) (p : Cyl.Pt) : ℝ := match k with
  | 0 => p.1 | 1 => p.2.1 | 2 => -p.1 | _ => -p.2.1
def fv (k : Nat) (p : Cyl.Pt) : ℝ := match k with
  | 0 => p.2.1 | 1 => -p.1 | 2 => -p.2.1 | _ => p.1

/-- Kinds of blocks: half rings, wakes and corners. -/
inductive Kd
  | R (h : Nat)
  | W (k : Nat)
  | C (k : Nat)
deriving DecidableEq

def Kd.Valid : Kd → Prop
  | .R h => h < 2
  | .W k => k < 4
  | .C k => k < 4

def Kd.rank : Kd → Nat
  | .R _ => 0
  | .W _ => 1
  | .C _ => 2

/-- The region of a block. -/
def Reg (r s : ℝ) : Kd → Cyl.Pt → Prop
  | .R h, p => (if h = 0 then 0 ≤ p.2.1 else p.2.1 ≤ 0) ∧ p.1 ^ 2 + p.2.1 ^ 2 ≤ r ^ 2
  | .W k, p => s ≤ fu k p ∧ -s ≤ fv k p ∧ fv k p ≤ s ∧ r ^ 2 ≤ p.1 ^ 2 + p.2.1 ^ 2
  | .C k, p => s ≤ fu k p ∧ s ≤ fv k p

/-- Points of a region which can belong to other ones. -/
def On (r s : ℝ) : Kd → Cyl.Pt → Prop
  | .R _, p => p.1 ^ 2 + p.2.1 ^ 2 = r ^ 2 ∨ p.2.1 = 0
  | .W k, p => p.1 ^ 2 + p.2.1 ^ 2 = r ^ 2 ∨ fv k p = s ∨ fv k p = -s
  | .C k, p => fu k p = s ∨ fv k p = s

/-- Points of a region which can belong to earlier ones. -/
def Early (r s : ℝ) : Kd → Cyl.Pt → Prop
  | .R _, p => p.2.1 = 0
  | .W _, p => p.1 ^ 2 + p.2.1 ^ 2 = r ^ 2
  | .C k, p => fu k p = s ∨ fv k p = s

variable {r s : ℝ} {p q : Cyl.Pt}

theorem fuv (k : Nat) (p : Cyl.Pt) : fu k p ^ 2 + fv k p ^ 2 = p.1 ^ 2 + p.2.1 ^ 2 := by
  match k with
  | 0 => rfl
  | 1 => simp only [fu, fv]; ring
  | 2 => simp only [fu, fv]; ring
  | k + 3 => simp only [fu, fv]; ring

theorem fuv_inj (k : Nat) {p q : Cyl.Pt} (hp : p.2.2 = 0) (hq : q.2.2 = 0) (h1 : fu k p = fu k q) (h2 : fv k p = fv k q) : p = q := by
  obtain ⟨a, b, c⟩ := p
  obtain ⟨a', b', c'⟩ := q
  simp only at hp hq
  subst hp hq
  match k with
  | 0 => simp only [fu, fv] at h1 h2; rw [h1, h2]
  | 1 => simp only [fu, fv, neg_inj] at h1 h2; rw [h1, h2]
  | 2 => simp only [fu, fv, neg_inj] at h1 h2; rw [h1, h2]
  | k + 3 => simp only [fu, fv, neg_inj] at h1 h2; rw [h1, h2]

theorem both_s {a b : ℝ} (hs : 0 < s) (ha : s ≤ a) (hb : s ≤ b) (h : a ^ 2 + b ^ 2 ≤ 2 * s ^ 2) : a = s ∧ b = s := by
  constructor <;> nlinarith [sq_nonneg (a - s), sq_nonneg (b - s)]

/-- Two wakes meet in one point at most. -/
theorem wake_wake (hs : 0 < s) {k k' : Nat} (hk : k < 4) (hk' : k' < 4) (hne : k ≠ k') (h : Reg r s (.W k) p) (h' : Reg r s (.W k') p) :
    fu k p = s ∧ ((fv k p = s ∧ k' = (k + 1) % 4) ∨ (fv k p = -s ∧ k' = (k + 3) % 4)) := by
  obtain ⟨a1, a2, a3, _⟩ := h
  obtain ⟨b1, b2, b3, _⟩ := h'
  interval_cases k <;> interval_cases k' <;> first | exact absurd rfl hne | (simp only [fu, fv] at a1 a2 a3 b1 b2 b3 ⊢; first
    | (exfalso; linarith)
    | exact ⟨by linarith, .inl ⟨by linarith, by decide⟩⟩
    | exact ⟨by linarith, .inr ⟨by linarith, by decide⟩⟩)

/-- A half ring and a corner meet in one point at most. -/
theorem ring_corner (hs : 0 < s) (hr : r ^ 2 = 2 * s ^ 2) {h k : Nat} (h1 : Reg r s (.R h) p) (h2 : Reg r s (.C k) p) : fu k p = s ∧ fv k p = s := by
  refine both_s hs h2.1 h2.2 ?_
  rw [fuv, ← hr]
  exact h1.2

/-- Corners do not meet. -/
theorem corner_corner (hs : 0 < s) {k k' : Nat} (hk : k < 4) (hk' : k' < 4) (hne : k ≠ k') (h : Reg r s (.C k) p) (h' : Reg r s (.C k') p) : False := by
  obtain ⟨a1, a2⟩ := h
  obtain ⟨b1, b2⟩ := h'
  interval_cases k <;> interval_cases k' <;> first | exact absurd rfl hne | (simp only [fu, fv] at *; linarith)

/-- A wake meets only the corners beside it. -/
theorem wake_corner (hs : 0 < s) {k k' : Nat} (hk : k < 4) (hk' : k' < 4) (h : Reg r s (.W k) p) (h' : Reg r s (.C k') p) :
    (fv k p = s ∨ fv k p = -s) ∧ (fu k' p = s ∨ fv k' p = s) := by
  obtain ⟨a1, a2, a3, _⟩ := h
  obtain ⟨b1, b2⟩ := h'
  interval_cases k <;> interval_cases k' <;> simp only [fu, fv] at * <;> first
    | (exfalso; linarith)
    | exact ⟨.inl (by linarith), .inl (by linarith)⟩
    | exact ⟨.inl (by linarith), .inr (by linarith)⟩
    | exact ⟨.inr (by linarith), .inl (by linarith)⟩

theorem ring_ring {h h' : Nat} (hh : h < 2) (hh' : h' < 2) (hne : h ≠ h') (h1 : Reg r s (.R h) p) (h2 : Reg r s (.R h') p) : p.2.1 = 0 := by
  have a := h1.1
  have b := h2.1
  interval_cases h <;> interval_cases h' <;> first | exact absurd rfl hne | (simp at a b; linarith)

theorem ring_wake {h k : Nat} (h1 : Reg r s (.R h) p) (h2 : Reg r s (.W k) p) : p.1 ^ 2 + p.2.1 ^ 2 = r ^ 2 := le_antisymm h1.2 h2.2.2.2

theorem wake_wake_circle (hs : 0 < s) (hr : r ^ 2 = 2 * s ^ 2) {k k' : Nat} (hk : k < 4) (hk' : k' < 4) (hne : k ≠ k') (h : Reg r s (.W k) p) (h' : Reg r s (.W k') p) :
    p.1 ^ 2 + p.2.1 ^ 2 = r ^ 2 := by
  obtain ⟨h1, h2⟩ := wake_wake hs hk hk' hne h h'
  have h3 := fuv k p
  rcases h2 with ⟨h2, _⟩ | ⟨h2, _⟩ <;> rw [h1, h2] at h3 <;> rw [← h3, hr] <;> ring

/-- Points of two regions are on the interfaces of both. -/
theorem inter (hs : 0 < s) (hr : r ^ 2 = 2 * s ^ 2) {K K' : Kd} (hK : K.Valid) (hK' : K'.Valid) (hne : K ≠ K') (h : Reg r s K p) (h' : Reg r s K' p) :
    On r s K p ∧ On r s K' p := by
  cases K with
  | R a =>
    cases K' with
    | R b =>
      have := ring_ring hK hK' (fun e => hne (by rw [e])) h h'
      exact ⟨.inr this, .inr this⟩
    | W b => exact ⟨.inl (ring_wake h h'), .inl (ring_wake h h')⟩
    | C b =>
      obtain ⟨h1, h2⟩ := ring_corner hs hr h h'
      refine ⟨.inl ?_, .inl h1⟩
      rw [← fuv b p, h1, h2, hr]; ring
  | W a =>
    cases K' with
    | R b => exact ⟨.inl (ring_wake h' h), .inl (ring_wake h' h)⟩
    | W b =>
      have := wake_wake_circle hs hr hK hK' (fun e => hne (by rw [e])) h h'
      exact ⟨.inl this, .inl this⟩
    | C b =>
      obtain ⟨h1, h2⟩ := wake_corner hs hK hK' h h'
      exact ⟨.inr h1, h2⟩
  | C a =>
    cases K' with
    | R b =>
      obtain ⟨h1, h2⟩ := ring_corner hs hr h' h
      refine ⟨.inl h1, .inl ?_⟩
      rw [← fuv a p, h1, h2, hr]; ring
    | W b =>
      obtain ⟨h1, h2⟩ := wake_corner hs hK' hK h' h
      exact ⟨h2, .inr h1⟩
    | C b => exact (corner_corner hs hK hK' (fun e => hne (by rw [e])) h h').elim

theorem early (hs : 0 < s) (hr : r ^ 2 = 2 * s ^ 2) {K K' : Kd} (hK : K.Valid) (hK' : K'.Valid) (hne : K ≠ K') (hrk : K.rank ≤ K'.rank) (h : Reg r s K p) (h' : Reg r s K' p) :
    Early r s K' p := by
  cases K' with
  | R b =>
    cases K with
    | R a => exact ring_ring hK hK' (fun e => hne (by rw [e])) h h'
    | W a => simp [Kd.rank] at hrk
    | C a => simp [Kd.rank] at hrk
  | W b =>
    cases K with
    | R a => exact ring_wake h h'
    | W a => exact wake_wake_circle hs hr hK hK' (fun e => hne (by rw [e])) h h'
    | C a => simp [Kd.rank] at hrk
  | C b => exact (inter hs hr hK hK' hne h h').2

/-- Pairs of regions with one common point at most. -/
def Thin : Kd → Kd → Prop
  | .W _, .W _ => True
  | .R _, .C _ => True
  | .C _, .R _ => True
  | .C _, .C _ => True
  | _, _ => False

theorem thin_point (hs : 0 < s) (hr : r ^ 2 = 2 * s ^ 2) {K K' : Kd} (hK : K.Valid) (hK' : K'.Valid) (hne : K ≠ K') (ht : Thin K K') (hp : p.2.2 = 0) (hq : q.2.2 = 0)
    (h1 : Reg r s K p) (h2 : Reg r s K' p) (h3 : Reg r s K q) (h4 : Reg r s K' q) : p = q := by
  match K, K', ht with
  | .W a, .W b, _ =>
    have hab : a ≠ b := fun e => hne (by rw [e])
    obtain ⟨e1, e2⟩ := wake_wake hs hK hK' hab h1 h2
    obtain ⟨e3, e4⟩ := wake_wake hs hK hK' hab h3 h4
    have ha : a < 4 := hK
    refine fuv_inj a hp hq (e1.trans e3.symm) ?_
    rcases e2 with ⟨e2, e5⟩ | ⟨e2, e5⟩ <;> rcases e4 with ⟨e4, e6⟩ | ⟨e4, e6⟩
    · rw [e2, e4]
    · omega
    · omega
    · rw [e2, e4]
  | .R a, .C b, _ =>
    obtain ⟨e1, e2⟩ := ring_corner hs hr h1 h2
    obtain ⟨e3, e4⟩ := ring_corner hs hr h3 h4
    exact fuv_inj b hp hq (e1.trans e3.symm) (e2.trans e4.symm)
  | .C a, .R b, _ =>
    obtain ⟨e1, e2⟩ := ring_corner hs hr h2 h1
    obtain ⟨e3, e4⟩ := ring_corner hs hr h4 h3
    exact fuv_inj a hp hq (e1.trans e3.symm) (e2.trans e4.symm)
  | .C a, .C b, _ => exact (corner_corner hs hK hK' (fun e => hne (by rw [e])) h1 h2).elim

/-- The two half rings and a wake have one common point at most. -/
theorem ring_ring_wake (hs : 0 < s) {h h' k : Nat} (hh : h < 2) (hh' : h' < 2) (hne : h ≠ h') (hk : k < 4) (hp : p.2.2 = 0) (hq : q.2.2 = 0)
    (h1 : Reg r s (.R h) p) (h2 : Reg r s (.R h') p) (h3 : Reg r s (.W k) p) (h4 : Reg r s (.R h) q) (h5 : Reg r s (.R h') q) (h6 : Reg r s (.W k) q) : p = q := by
  have y1 := ring_ring hh hh' hne h1 h2
  have y2 := ring_ring hh hh' hne h4 h5
  have c1 := ring_wake h1 h3
  have c2 := ring_wake h4 h6
  have u1 := h3.1
  have u2 := h6.1
  obtain ⟨a, b, c⟩ := p
  obtain ⟨a', b', c'⟩ := q
  simp only at hp hq y1 y2 c1 c2
  subst hp hq y1 y2
  have hsq : a ^ 2 = a' ^ 2 := by linarith
  interval_cases k <;> simp only [fu] at u1 u2
  · have : a = a' := by nlinarith
    rw [this]
  · linarith
  · have : a = a' := by nlinarith
    rw [this]
  · linarith

/-- Three regions have one common point at most. -/
theorem three_point (hs : 0 < s) (hr : r ^ 2 = 2 * s ^ 2) {K1 K2 K3 : Kd} (v1 : K1.Valid) (v2 : K2.Valid) (v3 : K3.Valid) (n12 : K1 ≠ K2) (n13 : K1 ≠ K3) (n23 : K2 ≠ K3)
    (hp : p.2.2 = 0) (hq : q.2.2 = 0) (p1 : Reg r s K1 p) (p2 : Reg r s K2 p) (p3 : Reg r s K3 p) (q1 : Reg r s K1 q) (q2 : Reg r s K2 q) (q3 : Reg r s K3 q) : p = q := by
  by_cases t12 : Thin K1 K2
  · exact thin_point hs hr v1 v2 n12 t12 hp hq p1 p2 q1 q2
  by_cases t13 : Thin K1 K3
  · exact thin_point hs hr v1 v3 n13 t13 hp hq p1 p3 q1 q3
  by_cases t23 : Thin K2 K3
  · exact thin_point hs hr v2 v3 n23 t23 hp hq p2 p3 q2 q3
  cases K1 with
  | R a =>
    cases K2 with
    | R b =>
      cases K3 with
      | R c =>
        simp only [Kd.Valid, ne_eq, Kd.R.injEq] at v1 v2 v3 n12 n13 n23
        omega
      | W c => exact ring_ring_wake hs v1 v2 (fun e => n12 (by rw [e])) v3 hp hq p1 p2 p3 q1 q2 q3
      | C c => exact absurd trivial t13
    | W b =>
      cases K3 with
      | R c => exact ring_ring_wake hs v1 v3 (fun e => n13 (by rw [e])) v2 hp hq p1 p3 p2 q1 q3 q2
      | W c => exact absurd trivial t23
      | C c => exact absurd trivial t13
    | C b => exact absurd trivial t12
  | W a =>
    cases K2 with
    | R b =>
      cases K3 with
      | R c => exact ring_ring_wake hs v2 v3 (fun e => n23 (by rw [e])) v1 hp hq p2 p3 p1 q2 q3 q1
      | W c => exact absurd trivial t13
      | C c => exact absurd trivial t23
    | W b => exact absurd trivial t12
    | C b =>
      cases K3 with
      | R c => exact absurd trivial t23
      | W c => exact absurd trivial t13
      | C c => exact absurd trivial t23
  | C a =>
    cases K2 with
    | R b => exact absurd trivial t12
    | W b =>
      cases K3 with
      | R c => exact absurd trivial t13
      | W c => exact absurd trivial t23
      | C c => exact absurd trivial t13
    | C b => exact absurd trivial t12

/-! ## Lists of blocks -/

/-- A block of the given kind. -/
structure FitK (r s : ℝ) (K : Kd) (b : Sq) : Prop where
  valid : K.Valid
  ok : b.Ok
  flat : ∀ i j, (b.at i j).2.2 = 0
  reg : ∀ i j, i ≤ b.n → j ≤ b.m → Reg r s K (b.at i j)
  edge : ∀ p q, GEdge b.at b.n b.m p q → On r s K p → On r s K q → BEdge b.at b.n b.m p q
  cell : ∀ i j, i < b.n → j < b.m → ∃ p ∈ b.corners i j, ¬ On r s K p

theorem GEdge.ends {b : Sq} (h : GEdge b.at b.n b.m p q) : ∃ i j i' j', i ≤ b.n ∧ j ≤ b.m ∧ i' ≤ b.n ∧ j' ≤ b.m ∧ p = b.at i j ∧ q = b.at i' j' ∧ (i ≠ i' ∨ j ≠ j') := by
  rcases h with ⟨i, j, hi, hj, rfl, rfl⟩ | ⟨i, j, hi, hj, rfl, rfl⟩
  · exact ⟨i, j, i + 1, j, by omega, by omega, by omega, by omega, rfl, rfl, by omega⟩
  · exact ⟨i, j, i, j + 1, by omega, by omega, by omega, by omega, rfl, rfl, by omega⟩

theorem BEdge.grid {P : Type} {f : Nat → Nat → P} {n m : Nat} {p q : P} (h : BEdge f n m p q) : GEdge f n m p q := by
  rcases h with ⟨i, hi, ⟨rfl, rfl⟩ | ⟨rfl, rfl⟩⟩ | ⟨j, hj, ⟨rfl, rfl⟩ | ⟨rfl, rfl⟩⟩
  · exact .inl ⟨i, 0, hi, by omega, rfl, rfl⟩
  · exact .inl ⟨i, m, hi, le_rfl, rfl, rfl⟩
  · exact .inr ⟨0, j, by omega, hj, rfl, rfl⟩
  · exact .inr ⟨n, j, le_rfl, hj, rfl, rfl⟩

theorem FitK.ends {K : Kd} {b : Sq} (h : FitK r s K b) (hg : Sym (GEdge b.at b.n b.m) p q) : Reg r s K p ∧ Reg r s K q ∧ p.2.2 = 0 ∧ q.2.2 = 0 ∧ p ≠ q := by
  have key : ∀ {p q}, GEdge b.at b.n b.m p q → Reg r s K p ∧ Reg r s K q ∧ p.2.2 = 0 ∧ q.2.2 = 0 ∧ p ≠ q := by
    intro p q hg
    obtain ⟨i, j, i', j', h1, h2, h3, h4, rfl, rfl, h5⟩ := hg.ends
    refine ⟨h.reg _ _ h1 h2, h.reg _ _ h3 h4, h.flat _ _, h.flat _ _, fun he => ?_⟩
    obtain ⟨h6, h7⟩ := h.ok.inj _ _ _ _ h1 h2 h3 h4 he
    omega
  rcases hg with hg | hg
  · exact key hg
  · obtain ⟨a, b, c, d, e⟩ := key hg
    exact ⟨b, a, d, c, e.symm⟩

theorem FitK.sym_edge {K : Kd} {b : Sq} (h : FitK r s K b) (hg : Sym (GEdge b.at b.n b.m) p q) (h1 : On r s K p) (h2 : On r s K q) : Sym (BEdge b.at b.n b.m) p q := by
  rcases hg with hg | hg
  · exact .inl (h.edge _ _ hg h1 h2)
  · exact .inr (h.edge _ _ hg h2 h1)

theorem FitK.corner_reg {K : Kd} {b : Sq} (h : FitK r s K b) {i j : Nat} (hi : i < b.n) (hj : j < b.m) (hp : p ∈ b.corners i j) : Reg r s K p := by
  simp only [Sq.corners, List.mem_cons, List.not_mem_nil, or_false] at hp
  rcases hp with rfl | rfl | rfl | rfl <;> exact h.reg _ _ (by omega) (by omega)

theorem forall₂_get {α β : Type} {R : α → β → Prop} {l1 : List α} {l2 : List β} (hf : List.Forall₂ R l1 l2) : ∀ {j : Nat} {b : β}, l2[j]? = some b → ∃ a, l1[j]? = some a ∧ R a b := by
  induction hf with
  | nil => intro j b hb; simp at hb
  | cons h _ ih =>
    intro j b hb
    cases j with
    | zero =>
      simp only [List.getElem?_cons_zero, Option.some.injEq] at hb
      exact ⟨_, rfl, hb ▸ h⟩
    | succ j =>
      rw [List.getElem?_cons_succ] at hb ⊢
      exact ih hb

/-- Blocks of different kinds fit together, when the earlier ones cover the common borders. -/
theorem sqFit_of (hs : 0 < s) (hr : r ^ 2 = 2 * s ^ 2) {dom : Nat} {bs : List Sq} {Ks : List Kd} (hk : List.Forall₂ (FitK r s) Ks bs) (hnd : Ks.Nodup)
    (hrk : Ks.Pairwise fun K K' => K.rank ≤ K'.rank)
    (hdom : ∀ b ∈ bs, b.ids.domain = dom ∧ dom ∉ [b.ids.bottom, b.ids.top, b.ids.left, b.ids.right])
    (hearly : ∀ (j : Nat) (K : Kd) (c : Sq), Ks[j]? = some K → bs[j]? = some c → 0 < j → ∀ x y, x ≤ c.n → y ≤ c.m → Early r s K (c.at x y) →
      ∃ (i' : Nat) (b' : Sq), i' < j ∧ bs[i']? = some b' ∧ ∃ p q, Sym (BEdge b'.at b'.n b'.m) p q ∧ Sym (BEdge c.at c.n c.m) p q ∧ (c.at x y = p ∨ c.at x y = q))
    (hap : ∀ b ∈ bs, ∀ c ∈ bs, ∀ x y x' y', x ≤ b.n → y ≤ b.m → x' ≤ c.n → y' ≤ c.m → close (ptOf (c.at x' y')) (ptOf (b.at x y)) = true → b.at x y = c.at x' y') :
    SqFit dom bs := by
  have hget : ∀ {j : Nat} {b : Sq}, bs[j]? = some b → ∃ K, Ks[j]? = some K ∧ FitK r s K b := fun hb => forall₂_get hk hb
  have hne : ∀ {i j : Nat} {K K' : Kd}, i < j → Ks[i]? = some K → Ks[j]? = some K' → K ≠ K' ∧ K.rank ≤ K'.rank := by
    intro i j K K' hij h1 h2
    obtain ⟨h3, rfl⟩ := List.getElem?_eq_some_iff.1 h1
    obtain ⟨h4, rfl⟩ := List.getElem?_eq_some_iff.1 h2
    exact ⟨fun e => absurd ((List.Nodup.getElem_inj_iff hnd).1 e) (by omega), List.pairwise_iff_getElem.1 hrk i j h3 h4 hij⟩
  refine ⟨?_, hdom, ?_, ?_, ?_, ?_, hap⟩
  · intro b hb
    obtain ⟨j, hj⟩ := List.mem_iff_getElem?.1 hb
    obtain ⟨K, _, h⟩ := hget hj
    exact h.ok
  · intro i j b c hij hb hc x y x' y' hx hy hx' hy' he
    obtain ⟨K, hK, fb⟩ := hget hb
    obtain ⟨K', hK', fc⟩ := hget hc
    obtain ⟨h1, h2⟩ := hne hij hK hK'
    exact hearly j K' c hK' hc (by omega) x' y' hx' hy' (early hs hr fb.valid fc.valid h1 h2 (he ▸ fb.reg x y hx hy) (fc.reg x' y' hx' hy'))
  · intro i j b c hij hb hc p q h1 h2
    obtain ⟨K, hK, fb⟩ := hget hb
    obtain ⟨K', hK', fc⟩ := hget hc
    obtain ⟨h3, _⟩ := hne hij hK hK'
    obtain ⟨a1, a2, _⟩ := fb.ends h1
    obtain ⟨b1, b2, _⟩ := fc.ends h2
    obtain ⟨c1, c2⟩ := inter hs hr fb.valid fc.valid h3 a1 b1
    obtain ⟨c3, c4⟩ := inter hs hr fb.valid fc.valid h3 a2 b2
    exact ⟨fb.sym_edge h1 c1 c3, fc.sym_edge h2 c2 c4⟩
  · intro i j b c hij hb hc x y x' y' hx hy hx' hy' hp
    obtain ⟨K, hK, fb⟩ := hget hb
    obtain ⟨K', hK', fc⟩ := hget hc
    obtain ⟨p, h1, h2⟩ := fb.cell x y hx hy
    exact h2 (inter hs hr fb.valid fc.valid (hne hij hK hK').1 (fb.corner_reg hx hy h1) (fc.corner_reg hx' hy' (hp.mem_iff.1 h1))).1
  · intro i j k b c d hij hjk hb hc hd p q h1 h2 h3
    obtain ⟨K1, k1, f1⟩ := hget hb
    obtain ⟨K2, k2, f2⟩ := hget hc
    obtain ⟨K3, k3, f3⟩ := hget hd
    have grid : ∀ {b : Sq}, Sym (BEdge b.at b.n b.m) p q → Sym (GEdge b.at b.n b.m) p q := fun h => h.imp BEdge.grid BEdge.grid
    obtain ⟨a1, a2, a3, a4, a5⟩ := f1.ends (grid h1)
    obtain ⟨b1, b2, _⟩ := f2.ends (grid h2)
    obtain ⟨c1, c2, _⟩ := f3.ends (grid h3)
    exact a5 (three_point hs hr f1.valid f2.valid f3.valid (hne hij k1 k2).1 (hne (by omega) k1 k3).1 (hne hjk k2 k3).1 a3 a4 a1 b1 c1 a2 b2 c2)

end Verif.MergeGen
