import Verif.Elem.Model
import Mathlib.Algebra.Order.Ring.Defs
import Mathlib.Algebra.Order.Ring.Rat
import Mathlib.Tactic.NormNum
import Mathlib.Tactic.IntervalCases

/-! # Property C20: element side tables -/
namespace Verif.Elem
open Verif Verif.Tensor

theorem nodeLocs_getElem {K : Type} (t : ElType) (absc : List K) (k : Nat) (hk : k < absc.length ^ t.dim) :
    ∃ p, (nodeLocs t absc)[k]? = some p ∧ p.length = t.dim ∧
      ∀ a, a < t.dim → p[a]? = absc[k / absc.length ^ a % absc.length]? := by
  have hn : 0 < absc.length := by
    rcases Nat.eq_zero_or_pos absc.length with h | h
    · rw [h, Nat.zero_pow] at hk
      · omega
      · cases t <;> decide
    · exact h
  have hm : ∀ x, x % absc.length < absc.length := fun x => Nat.mod_lt _ hn
  cases t with
  | line =>
    simp only [ElType.dim, pow_one] at hk
    refine ⟨[absc[k]], by simp [nodeLocs, hk], rfl, fun a ha => ?_⟩
    simp only [ElType.dim] at ha
    interval_cases a
    simp [Nat.mod_eq_of_lt hk, hk]
  | quad =>
    simp only [ElType.dim] at hk
    rw [pow_two] at hk
    have h1 : k / absc.length < absc.length := Nat.div_lt_of_lt_mul hk
    refine ⟨[absc[k % absc.length]'(hm _), absc[k / absc.length]], ?_, rfl, fun a ha => ?_⟩
    · simp only [nodeLocs]
      rw [flatMap_getElem? absc.length hn _ _ (by simp)]
      simp [h1, hm]
    · simp only [ElType.dim] at ha
      interval_cases a
      · simp [hm]
      · simp [h1, Nat.mod_eq_of_lt h1]
  | hex =>
    simp only [ElType.dim] at hk
    have hk' : k < absc.length * absc.length * absc.length := by rw [pow_succ, pow_two] at hk; exact hk
    have h2 : k / (absc.length * absc.length) < absc.length := Nat.div_lt_of_lt_mul hk'
    have hnn : 0 < absc.length * absc.length := Nat.mul_pos hn hn
    have h1 : k % (absc.length * absc.length) / absc.length < absc.length :=
      Nat.div_lt_of_lt_mul (Nat.mod_lt _ hnn)
    have e1 : k % (absc.length * absc.length) / absc.length = k / absc.length % absc.length := by
      rw [Nat.mod_mul_right_div_self]
    have e2 : k % (absc.length * absc.length) % absc.length = k % absc.length := Nat.mod_mul_right_mod _ _ _
    refine ⟨[absc[k % absc.length]'(hm _), absc[k / absc.length % absc.length]'(hm _), absc[k / (absc.length * absc.length)]], ?_, rfl, fun a ha => ?_⟩
    · simp only [nodeLocs]
      rw [flatMap_getElem? (absc.length * absc.length) hnn _ _ (fun x _ => by rw [length_flatMap_uniform absc.length] <;> simp)]
      simp only [List.getElem?_eq_getElem h2, Option.bind_some]
      rw [flatMap_getElem? absc.length hn _ _ (by simp), e1, e2]
      simp [hm]
    · simp only [ElType.dim] at ha
      interval_cases a
      · simp [hm]
      · simp [hm]
      · rw [show absc.length ^ 2 = absc.length * absc.length from pow_two _, Nat.mod_eq_of_lt h2]; simp

/-- Lattice form: nodes with digit `c` on axis `a`. -/
def layer (t : ElType) (n a c : Nat) : List Nat := (List.range (n ^ t.dim)).filter fun k => decide (k / n ^ a % n = c)

theorem layer_strict (t : ElType) (n a c : Nat) : (layer t n a c).Pairwise (· < ·) :=
  List.Pairwise.filter _ List.pairwise_lt_range

theorem mem_layer {t : ElType} {n a c k : Nat} : k ∈ layer t n a c ↔ k < n ^ t.dim ∧ k / n ^ a % n = c := by
  simp [layer]

theorem map_range_strict (N : Nat) (f : Nat → Nat) (h : ∀ i j, i < j → j < N → f i < f j) : ((List.range N).map f).Pairwise (· < ·) := by
  rw [List.pairwise_map]
  refine List.Pairwise.imp_of_mem ?_ List.pairwise_lt_range
  intro a b _ hb hab
  exact h a b hab (by simpa using hb)

theorem u16_id {x : Nat} (h : x < 2 ^ 16) : u16 x = x := Nat.mod_eq_of_lt h

/-- Each row of the hexahedron table is a lattice layer. -/
theorem hex_side (n s : Nat) (hn : 1 ≤ n) (hb : n ^ 3 < 2 ^ 16) (hs : s < 6) :
    (hexTable n)[s]? = some (layer .hex n (2 - s / 2) (if s % 2 = 0 then 0 else n - 1)) := by
  have hN : n ^ 3 = n * (n * n) := by rw [pow_succ, pow_two]; ring
  have hnn : n * n ≤ n * (n * n) := by nlinarith [Nat.mul_le_mul_left (n * n) hn]
  have hkey : ∀ (g : Nat → Nat) (a c : Nat),
      (∀ k, k < n * n → g k < n ^ 3 ∧ g k / n ^ a % n = c) →
      (∀ i j, i < j → j < n * n → g i < g j) →
      (∀ m, m < n ^ 3 → m / n ^ a % n = c → ∃ k, k < n * n ∧ g k = m) →
      (List.range (n * n)).map g = layer .hex n a c := by
    intro g a c h1 h2 h3
    refine Std.eq_of_mem_of_strict (map_range_strict _ _ h2) (layer_strict _ _ _ _) fun m => ?_
    rw [mem_layer]
    simp only [List.mem_map, List.mem_range]
    constructor
    · rintro ⟨k, hk, rfl⟩; exact h1 k hk
    · rintro ⟨hm, hc⟩; exact h3 m hm hc
  -- digits of a table position
  have hd : ∀ k, k < n * n → k / n < n ∧ k % n < n := fun k hk =>
    ⟨Nat.div_lt_of_lt_mul hk, Nat.mod_lt _ (by omega)⟩
  -- three-digit numbers
  have node : ∀ x y z, x < n → y < n → z < n → x + n * (y + n * z) < n ^ 3 ∧
      (x + n * (y + n * z)) / n ^ 0 % n = x ∧ (x + n * (y + n * z)) / n ^ 1 % n = y ∧ (x + n * (y + n * z)) / n ^ 2 % n = z := by
    intro x y z hx hy hz
    obtain ⟨a1, a2⟩ := two_digits (n := n) (x := x) (y := y + n * z) hx
    obtain ⟨b1, b2⟩ := two_digits (n := n) (x := y) (y := z) hy
    refine ⟨by rw [hN]; exact lt_mul_of_digits hx (lt_mul_of_digits hy hz), by simpa using a1, by simpa [a2] using b1, ?_⟩
    rw [pow_two, ← Nat.div_div_eq_div_mul, a2, b2, Nat.mod_eq_of_lt hz]
  have dec : ∀ m, m < n ^ 3 → m = m / n ^ 0 % n + n * (m / n ^ 1 % n + n * (m / n ^ 2 % n)) ∧ m / n ^ 0 % n < n ∧ m / n ^ 1 % n < n ∧ m / n ^ 2 % n < n := by
    intro m hm
    have hn0 : 0 < n := by omega
    refine ⟨?_, Nat.mod_lt _ hn0, Nat.mod_lt _ hn0, Nat.mod_lt _ hn0⟩
    have e1 := eq_digits n m
    have e2 := eq_digits n (m / n)
    have e3 : m / n / n < n := by
      rw [Nat.div_div_eq_div_mul]; rw [hN] at hm; rw [show n * (n * n) = n * n * n by ring] at hm
      exact Nat.div_lt_of_lt_mul hm
    rw [pow_two, ← Nat.div_div_eq_div_mul, Nat.mod_eq_of_lt e3]
    simp only [pow_zero, Nat.div_one, pow_one]
    rw [← e2]; exact e1
  have u : ∀ x, x < n ^ 3 → u16 x = x := fun x hx => u16_id (by omega)
  have lex : ∀ i j, i < j → j < n * n → i / n < j / n ∨ (i / n = j / n ∧ i % n < j % n) := by
    intro i j hij hj
    have h1 := eq_digits n i; have h2 := eq_digits n j
    have h3 : i / n ≤ j / n := Nat.div_le_div_right (by omega)
    rcases Nat.lt_or_ge (i / n) (j / n) with h | h
    · exact Or.inl h
    · have e : i / n = j / n := by omega
      exact Or.inr ⟨e, by rw [e] at h1; omega⟩
  -- the six rows in digit form
  have row : ∀ (g : Nat → Nat) (G : Nat → Nat), (∀ k, k < n * n → g k = G k) → (List.range (n * n)).map g = (List.range (n * n)).map G := by
    intro g G h
    exact List.map_congr_left fun k hk => h k (by simpa using hk)
  have pos : ∀ i j, i < n → j < n → (j + n * i < n * n ∧ (j + n * i) / n = i ∧ (j + n * i) % n = j) := by
    intro i j hi hj
    obtain ⟨a, b⟩ := two_digits (n := n) (x := j) (y := i) hj
    exact ⟨lt_mul_of_digits hj hi, b, a⟩
  have hz : (0 : Nat) < n := by omega
  have ht : n - 1 < n := by omega
  have side0 : ∀ c, c < n → (List.range (n * n)).map (fun k => k % n + n * (k / n + n * c)) = layer .hex n 2 c := by
    intro c hc
    apply hkey
    · intro k hk; obtain ⟨a, b⟩ := hd k hk
      have := node _ _ c b a hc; exact ⟨this.1, this.2.2.2⟩
    · intro i j hij hj
      have hi := hd i (by omega)
      apply digits_lt hi.2
      rcases lex i j hij hj with h | ⟨h, h'⟩
      · left; omega
      · right; exact ⟨by omega, h'⟩
    · intro m hm hmc
      obtain ⟨e, h0, h1, h2⟩ := dec m hm
      obtain ⟨p1, p2, p3⟩ := pos (m / n ^ 1 % n) (m / n ^ 0 % n) h1 h0
      exact ⟨_, p1, by rw [p2, p3, ← hmc]; exact e.symm⟩
  have side2 : ∀ c, c < n → (List.range (n * n)).map (fun k => k % n + n * (c + n * (k / n))) = layer .hex n 1 c := by
    intro c hc
    apply hkey
    · intro k hk; obtain ⟨a, b⟩ := hd k hk
      have := node _ c _ b hc a; exact ⟨this.1, this.2.2.1⟩
    · intro i j hij hj
      have hi := hd i (by omega)
      apply digits_lt hi.2
      rcases lex i j hij hj with h | ⟨h, h'⟩
      · left; exact digits_lt hc (Or.inl h)
      · right; exact ⟨by rw [h], h'⟩
    · intro m hm hmc
      obtain ⟨e, h0, h1, h2⟩ := dec m hm
      obtain ⟨p1, p2, p3⟩ := pos (m / n ^ 2 % n) (m / n ^ 0 % n) h2 h0
      exact ⟨_, p1, by rw [p2, p3, ← hmc]; exact e.symm⟩
  have side4 : ∀ c, c < n → (List.range (n * n)).map (fun k => c + n * (k % n + n * (k / n))) = layer .hex n 0 c := by
    intro c hc
    apply hkey
    · intro k hk; obtain ⟨a, b⟩ := hd k hk
      have := node c _ _ hc b a; exact ⟨this.1, this.2.1⟩
    · intro i j hij hj
      apply digits_lt hc
      left
      have e1 := eq_digits n i; have e2 := eq_digits n j
      omega
    · intro m hm hmc
      obtain ⟨e, h0, h1, h2⟩ := dec m hm
      obtain ⟨p1, p2, p3⟩ := pos (m / n ^ 2 % n) (m / n ^ 1 % n) h2 h1
      exact ⟨_, p1, by rw [p2, p3, ← hmc]; exact e.symm⟩
  have eq1 : ∀ k, k < n * n → k = k % n + n * (k / n + n * 0) := by intro k _; have := eq_digits n k; simpa using this
  have eq2 : ∀ k, k / n * (n * n) + k % n = k % n + n * (0 + n * (k / n)) := by intro k; ring
  have eq4 : ∀ k, k / n * (n * n) + k % n * n = 0 + n * (k % n + n * (k / n)) := by intro k; ring
  have bnd : ∀ x y z, x < n → y < n → z < n → u16 (x + n * (y + n * z)) = x + n * (y + n * z) :=
    fun x y z hx hy hz => u _ (node x y z hx hy hz).1
  have hsplit : ∀ (f : (Nat × Nat) × Nat → Nat), (pairs n n).zipIdx.map f = (List.range (n * n)).map fun k => f ((k / n, k % n), k) :=
    pairs_zipIdx_map n n
  interval_cases s
  · simp only [hexTable, hsplit]
    show some _ = some _
    refine congrArg some (Eq.trans ?_ (side0 0 hz))
    apply row
    intro k hk
    obtain ⟨a, b⟩ := hd k hk
    have := bnd (k % n) (k / n) 0 b a hz
    rw [← eq1 k hk] at this
    exact this.trans (eq1 k hk)
  · simp only [hexTable, hsplit]
    show some _ = some _
    refine congrArg some (Eq.trans ?_ (side0 (n - 1) ht))
    apply row
    intro k hk
    obtain ⟨a, b⟩ := hd k hk
    have h1 : u16 k = k := by
      have := bnd (k % n) (k / n) 0 b a hz
      rwa [← eq1 k hk] at this
    simp only [h1]
    have e : k + n * n * (n - 1) = k % n + n * (k / n + n * (n - 1)) := by
      have := eq_digits n k
      calc k + n * n * (n - 1) = (k % n + n * (k / n)) + n * n * (n - 1) := by rw [← this]
        _ = _ := by ring
    rw [e]; exact bnd _ _ _ b a ht
  · simp only [hexTable, hsplit]
    show some _ = some _
    refine congrArg some (Eq.trans ?_ (side2 0 hz))
    apply row
    intro k hk
    obtain ⟨a, b⟩ := hd k hk
    rw [eq2 k]; exact bnd _ _ _ b hz a
  · simp only [hexTable, hsplit]
    show some _ = some _
    refine congrArg some (Eq.trans ?_ (side2 (n - 1) ht))
    apply row
    intro k hk
    obtain ⟨a, b⟩ := hd k hk
    rw [eq2 k, bnd _ _ _ b hz a]
    have e : k % n + n * (0 + n * (k / n)) + n * (n - 1) = k % n + n * ((n - 1) + n * (k / n)) := by ring
    rw [e]; exact bnd _ _ _ b ht a
  · simp only [hexTable, hsplit]
    show some _ = some _
    refine congrArg some (Eq.trans ?_ (side4 0 hz))
    apply row
    intro k hk
    obtain ⟨a, b⟩ := hd k hk
    rw [eq4 k]; exact bnd _ _ _ hz b a
  · simp only [hexTable, hsplit]
    show some _ = some _
    refine congrArg some (Eq.trans ?_ (side4 (n - 1) ht))
    apply row
    intro k hk
    obtain ⟨a, b⟩ := hd k hk
    rw [eq4 k, bnd _ _ _ hz b a]
    have e : 0 + n * (k % n + n * (k / n)) + (n - 1) = (n - 1) + n * (k % n + n * (k / n)) := by ring
    rw [e]; exact bnd _ _ _ ht b a

theorem quad_side (n s : Nat) (hn : 1 ≤ n) (hb : n ^ 2 < 2 ^ 16) (hs : s < 4) :
    (quadTable n)[s]? = some (layer .quad n (1 - s / 2) (if s % 2 = 0 then 0 else n - 1)) := by
  have hN : n ^ 2 = n * n := pow_two n
  have hz : (0 : Nat) < n := by omega
  have ht : n - 1 < n := by omega
  have u : ∀ x, x < n ^ 2 → u16 x = x := fun x hx => u16_id (by omega)
  have node : ∀ x y, x < n → y < n → x + n * y < n ^ 2 ∧ (x + n * y) / n ^ 0 % n = x ∧ (x + n * y) / n ^ 1 % n = y := by
    intro x y hx hy
    obtain ⟨a1, a2⟩ := two_digits (n := n) (x := x) (y := y) hx
    exact ⟨by rw [hN]; exact lt_mul_of_digits hx hy, by simpa using a1, by rw [pow_one, a2, Nat.mod_eq_of_lt hy]⟩
  have dec : ∀ m, m < n ^ 2 → m = m / n ^ 0 % n + n * (m / n ^ 1 % n) ∧ m / n ^ 0 % n < n ∧ m / n ^ 1 % n < n := by
    intro m hm
    refine ⟨?_, Nat.mod_lt _ hz, Nat.mod_lt _ hz⟩
    have e3 : m / n < n := Nat.div_lt_of_lt_mul (by rw [← hN]; exact hm)
    simp only [pow_zero, Nat.div_one, pow_one]
    rw [Nat.mod_eq_of_lt e3]; exact eq_digits n m
  have hkey : ∀ (g : Nat → Nat) (a c : Nat),
      (∀ k, k < n → u16 (g k) = g k) → (∀ k, k < n → g k < n ^ 2 ∧ g k / n ^ a % n = c) →
      (∀ i j, i < j → j < n → g i < g j) →
      (∀ m, m < n ^ 2 → m / n ^ a % n = c → ∃ k, k < n ∧ g k = m) →
      (List.range n).map (fun k => u16 (g k)) = layer .quad n a c := by
    intro g a c h0 h1 h2 h3
    rw [show (List.range n).map (fun k => u16 (g k)) = (List.range n).map g from
      List.map_congr_left fun k hk => h0 k (by simpa using hk)]
    refine Std.eq_of_mem_of_strict (map_range_strict _ _ h2) (layer_strict _ _ _ _) fun m => ?_
    rw [mem_layer]
    simp only [List.mem_map, List.mem_range]
    constructor
    · rintro ⟨k, hk, rfl⟩; exact h1 k hk
    · rintro ⟨hm, hc⟩; exact h3 m hm hc
  have vert : ∀ c, c < n → (List.range n).map (fun k => u16 (k + n * c)) = layer .quad n 1 c := by
    intro c hc
    apply hkey
    · intro k hk; exact u _ (node k c hk hc).1
    · intro k hk; have := node k c hk hc; exact ⟨this.1, this.2.2⟩
    · intro i j hij _; omega
    · intro m hm hmc; obtain ⟨e, h0, h1⟩ := dec m hm; exact ⟨_, h0, by rw [← hmc]; exact e.symm⟩
  have horz : ∀ c, c < n → (List.range n).map (fun k => u16 (c + n * k)) = layer .quad n 0 c := by
    intro c hc
    apply hkey
    · intro k hk; exact u _ (node c k hc hk).1
    · intro k hk; have := node c k hc hk; exact ⟨this.1, this.2.1⟩
    · intro i j hij _; exact digits_lt hc (Or.inl hij)
    · intro m hm hmc; obtain ⟨e, h0, h1⟩ := dec m hm; exact ⟨_, h1, by rw [← hmc]; exact e.symm⟩
  have row : ∀ (g G : Nat → Nat), (∀ k, k < n → g k = G k) → (List.range n).map g = (List.range n).map G :=
    fun g G h => List.map_congr_left fun k hk => h k (by simpa using hk)
  interval_cases s
  · simp only [quadTable]
    show some _ = some _
    refine congrArg some (Eq.trans ?_ (vert 0 hz))
    simp
  · simp only [quadTable]
    show some _ = some _
    refine congrArg some (Eq.trans ?_ (vert (n - 1) ht))
    apply row
    intro k hk
    have := u k (by have := (node k 0 hk hz).1; simpa using this)
    rw [this]
  · simp only [quadTable]
    show some _ = some _
    refine congrArg some (Eq.trans ?_ (horz 0 hz))
    apply row
    intro k hk
    rw [Nat.mul_comm]; simp
  · simp only [quadTable]
    show some _ = some _
    refine congrArg some (Eq.trans ?_ (horz (n - 1) ht))
    apply row
    intro k hk
    have := u (n * k) (by have := (node 0 k hz hk).1; simpa using this)
    rw [Nat.mul_comm k n, this, Nat.add_comm]

theorem line_side (n s : Nat) (hn : 1 ≤ n) (hs : s < 2) :
    (lineTable n)[s]? = some (layer .line n (0 - s / 2) (if s % 2 = 0 then 0 else n - 1)) := by
  have hl : ∀ c, c < n → [c] = layer .line n 0 c := by
    intro c hc
    refine Std.eq_of_mem_of_strict (by simp) (layer_strict _ _ _ _) fun m => ?_
    rw [mem_layer]
    simp only [List.mem_singleton, ElType.dim, pow_one, pow_zero, Nat.div_one]
    constructor
    · rintro rfl; exact ⟨hc, Nat.mod_eq_of_lt hc⟩
    · rintro ⟨h1, h2⟩; rwa [Nat.mod_eq_of_lt h1] at h2
  interval_cases s
  · show some _ = some _; congr 1; exact hl 0 (by omega)
  · show some _ = some _; congr 1; exact hl (n - 1) (by omega)

def nSides : ElType → Nat
  | .line => 2 | .quad => 4 | .hex => 6

/-- The reference coordinate that is constant on a side, and its sign. -/
def sideAxis (t : ElType) (s : Nat) : Nat := t.dim - 1 - s / 2

theorem side_eq_layer (t : ElType) (n s : Nat) (hn : 1 ≤ n) (hb : n ^ t.dim < 2 ^ 16) (hs : s < nSides t) :
    sideNodeInds t n s = some (layer t n (sideAxis t s) (if s % 2 = 0 then 0 else n - 1)) := by
  cases t with
  | line => exact line_side n s hn hs
  | quad => exact quad_side n s hn hb hs
  | hex => exact hex_side n s hn hb hs

/-- Abscissas as produced by the Lobatto rule: distinct, from -1 to 1. -/
structure Absc (K : Type) [One K] [Neg K] (absc : List K) : Prop where
  nodup : absc.Nodup
  two : 2 ≤ absc.length
  first : absc.head? = some (-1)
  last : absc.getLast? = some 1

/-- Does node `k` of the element lie on the given side of the reference element? -/
def OnSide {K : Type} [One K] [Neg K] (t : ElType) (absc : List K) (s k : Nat) : Prop :=
  ∃ p, (nodeLocs t absc)[k]? = some p ∧ p[sideAxis t s]? = some (if s % 2 = 0 then -1 else 1)

theorem sideAxis_lt (t : ElType) (s : Nat) : sideAxis t s < t.dim := by
  unfold sideAxis; cases t <;> simp only [ElType.dim] <;> omega

theorem onSide_iff {K : Type} [One K] [Neg K] {t : ElType} {absc : List K} (h : Absc K absc) {s k : Nat}
    (hk : k < absc.length ^ t.dim) :
    OnSide t absc s k ↔ k / absc.length ^ sideAxis t s % absc.length = if s % 2 = 0 then 0 else absc.length - 1 := by
  obtain ⟨p, h1, h2, h3⟩ := nodeLocs_getElem t absc k hk
  have hn : 0 < absc.length := by have := h.two; omega
  have hax := h3 _ (sideAxis_lt t s)
  have hlt := Nat.mod_lt (k / absc.length ^ sideAxis t s) hn
  generalize k / absc.length ^ sideAxis t s % absc.length = d at *
  have hinj : ∀ i j (hi : i < absc.length) (hj : j < absc.length), absc[i]? = absc[j]? → i = j := by
    intro i j hi hj e
    rw [List.getElem?_eq_getElem hi, List.getElem?_eq_getElem hj] at e
    exact (h.nodup.getElem_inj_iff).1 (by simpa using e)
  have hfirst : absc[0]? = some (-1 : K) := by rw [← List.head?_eq_getElem?]; exact h.first
  have hlast : absc[absc.length - 1]? = some (1 : K) := by rw [← List.getLast?_eq_getElem?]; exact h.last
  unfold OnSide
  rw [h1]
  simp only [Option.some.injEq, exists_eq_left']
  rw [hax]
  split
  · rw [← hfirst]; exact ⟨fun e => hinj _ _ hlt hn e, fun e => by rw [e]⟩
  · rw [← hlast]; exact ⟨fun e => hinj _ _ hlt (by omega) e, fun e => by rw [e]⟩

/-- **C20** (sides): for every element type and order whose node count fits 16 bits, `getSideNodeIndices`
lists — in increasing order, without repetition — exactly the nodes whose reference location lies on
that side. -/
theorem C20_side_nodes {K : Type} [One K] [Neg K] (t : ElType) (absc : List K) (h : Absc K absc)
    (hb : absc.length ^ t.dim < 2 ^ 16) (s : Nat) (hs : s < nSides t) :
    ∃ l, sideNodeInds t absc.length s = some l ∧ l.Pairwise (· < ·) ∧
      ∀ k, k ∈ l ↔ k < nNodes t absc.length ∧ OnSide t absc s k := by
  have hn : 1 ≤ absc.length := by have := h.two; omega
  refine ⟨_, side_eq_layer t absc.length s hn hb hs, layer_strict _ _ _ _, fun k => ?_⟩
  rw [mem_layer, nNodes, u16_id hb]
  constructor
  · rintro ⟨h1, h2⟩; exact ⟨h1, (onSide_iff h h1).2 h2⟩
  · rintro ⟨h1, h2⟩; exact ⟨h1, (onSide_iff h h1).1 h2⟩

theorem table_length (t : ElType) (n : Nat) : (table t n).length = nSides t := by cases t <;> rfl

/-- **C20** (invalid side): exactly the side numbers below the number of sides are accepted. -/
theorem C20_invalid_side (t : ElType) (n s : Nat) : sideNodeInds t n s = none ↔ nSides t ≤ s := by
  rw [sideNodeInds, List.getElem?_eq_none_iff, table_length]

/-- **C20** (boundary and internal nodes): the boundary nodes are exactly those on some side, the
internal nodes exactly the others, both in increasing order. -/
theorem C20_boundary_internal {K : Type} [One K] [Neg K] (t : ElType) (absc : List K) (h : Absc K absc)
    (hb : absc.length ^ t.dim < 2 ^ 16) :
    (boundaryInds t absc.length).Pairwise (· < ·) ∧ (internalInds t absc.length).Pairwise (· < ·) ∧
    (∀ k, k ∈ boundaryInds t absc.length ↔ k < nNodes t absc.length ∧ ∃ s, s < nSides t ∧ OnSide t absc s k) ∧
    (∀ k, k ∈ internalInds t absc.length ↔ k < nNodes t absc.length ∧ ∀ s, s < nSides t → ¬ OnSide t absc s k) := by
  have hmem : ∀ k, k ∈ boundaryInds t absc.length ↔ k < nNodes t absc.length ∧ ∃ s, s < nSides t ∧ OnSide t absc s k := by
    intro k
    rw [boundaryInds, Std.mem_sortUniq, List.mem_flatten]
    constructor
    · rintro ⟨l, hl, hk⟩
      obtain ⟨s, hs, e⟩ := List.mem_iff_getElem.1 hl
      have hs' : s < nSides t := by rwa [table_length] at hs
      obtain ⟨l', e', _, hm⟩ := C20_side_nodes t absc h hb s hs'
      have : l' = l := by
        rw [sideNodeInds, List.getElem?_eq_getElem hs, e] at e'; simpa using e'.symm
      subst this
      exact ⟨((hm k).1 hk).1, s, hs', ((hm k).1 hk).2⟩
    · rintro ⟨h1, s, hs, h2⟩
      obtain ⟨l', e', _, hm⟩ := C20_side_nodes t absc h hb s hs
      exact ⟨l', List.mem_of_getElem? e', (hm k).2 ⟨h1, h2⟩⟩
  refine ⟨Std.sortUniq_strict _, List.Pairwise.filter _ List.pairwise_lt_range, hmem, fun k => ?_⟩
  rw [internalInds, List.mem_filter, List.mem_range]
  have hbs := Std.binarySearch_iff ((Std.sortUniq_strict (table t absc.length).flatten).imp le_of_lt) k
  have : (!Std.binarySearch (boundaryInds t absc.length) k) = true ↔ k ∉ boundaryInds t absc.length := by
    rw [Bool.not_eq_true', ← Bool.not_eq_true]
    exact not_congr hbs
  rw [this, hmem]
  constructor
  · rintro ⟨h1, h2⟩; exact ⟨h1, fun s hs ho => h2 ⟨h1, s, hs, ho⟩⟩
  · rintro ⟨h1, h2⟩; exact ⟨h1, fun ⟨_, s, hs, ho⟩ => h2 s hs ho⟩

/-- Order-2 abscissas. -/
example : Absc ℚ [-1, 0, 1] := ⟨by decide, by decide, rfl, rfl⟩

example : sideNodeInds .hex 3 3 = some [6, 7, 8, 15, 16, 17, 24, 25, 26] ∧ internalInds .hex 3 = [13] ∧
    internalInds .quad 4 = [5, 6, 9, 10] := by decide +kernel

/-- The size condition is needed: at order 40 the node count of a hexahedron no longer fits. -/
example : nNodes .hex 41 = 3385 ∧ (41 : Nat) ^ 3 = 68921 := by decide

end Verif.Elem
