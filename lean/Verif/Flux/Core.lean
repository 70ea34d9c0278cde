import Verif.Flux.Area

/-!
# Lemmas: summation by parts for the tensor-product rules
-/
namespace Verif.Flux
open Verif.Elem Verif.Mapping Verif.Quad Verif.Poly Verif.Basis

/-- Two dimensions: the sum of the derivatives of `g0` along the first and of `g1` along the second variable. -/
theorem parts2 {qo : Nat} {r : Rule1} (hr : IsReferenceRule qo r) {g0 g1 d0 d1 e0 e1 : ℝ → ℝ → ℝ}
    (h0 : ∀ b, PolyDer (qo + 1) (fun a => g0 a b) fun a => d0 a b) (h1 : ∀ a, PolyDer (qo + 1) (fun b => g1 a b) fun b => d1 a b)
    (k0 : ∀ a, PolyDer qo (fun b => g0 a b) fun b => e0 a b) (k1 : ∀ b, PolyDer qo (fun a => g1 a b) fun a => e1 a b) :
    Q r (fun a => Q r fun b => d0 a b + d1 a b) =
      Q r (fun a => g1 a 1) - Q r (fun a => g1 (-a) (-1)) + Q r (fun b => g0 1 b) - Q r (fun b => g0 (-1) (-b)) := by
  have s1 : Q r (fun a => Q r fun b => d0 a b) = Q r (fun b => g0 1 b) - Q r fun b => g0 (-1) (-b) := by
    rw [Q_comm, Q_neg hr (k0 (-1)), ← Q_sub]
    exact Q_congr fun pw _ => Q_der hr (h0 pw.1)
  have s2 : Q r (fun a => Q r fun b => d1 a b) = Q r (fun a => g1 a 1) - Q r fun a => g1 (-a) (-1) := by
    rw [Q_neg hr (k1 (-1)), ← Q_sub]
    exact Q_congr fun pw _ => Q_der hr (h1 pw.1)
  have e : Q r (fun a => Q r fun b => d0 a b + d1 a b) = Q r (fun a => Q r fun b => d0 a b) + Q r fun a => Q r fun b => d1 a b := by
    rw [← Q_add]; exact Q_congr fun pw _ => Q_add _ _ _
  rw [e, s1, s2]; ring

/-- Three dimensions; the order and signs of the arguments on the sides are those of `hexPt`. -/
theorem parts3 {qo : Nat} {r : Rule1} (hr : IsReferenceRule qo r) {g0 g1 g2 d0 d1 d2 e0 e1 e2 : ℝ → ℝ → ℝ → ℝ}
    (h0 : ∀ b c, PolyDer (qo + 1) (fun a => g0 a b c) fun a => d0 a b c) (h1 : ∀ a c, PolyDer (qo + 1) (fun b => g1 a b c) fun b => d1 a b c)
    (h2 : ∀ a b, PolyDer (qo + 1) (fun c => g2 a b c) fun c => d2 a b c)
    (k0 : ∀ a b, PolyDer qo (fun c => g0 a b c) fun c => e0 a b c) (k1 : ∀ a b, PolyDer qo (fun c => g1 a b c) fun c => e1 a b c)
    (k2 : ∀ a c, PolyDer qo (fun b => g2 a b c) fun b => e2 a b c) :
    Q r (fun a => Q r fun b => Q r fun c => d0 a b c + d1 a b c + d2 a b c) =
      Q r (fun a => Q r fun b => g2 a b 1) - Q r (fun a => Q r fun b => g2 a (-b) (-1)) +
      (Q r (fun a => Q r fun b => g1 a 1 b) - Q r (fun a => Q r fun b => g1 a (-1) (-b))) +
      (Q r (fun a => Q r fun b => g0 1 b a) - Q r (fun a => Q r fun b => g0 (-1) b (-a))) := by
  have s0 : Q r (fun a => Q r fun b => Q r fun c => d0 a b c) =
      Q r (fun a => Q r fun b => g0 1 b a) - Q r fun a => Q r fun b => g0 (-1) b (-a) := by
    rw [Q_comm r fun a b => g0 1 b a, Q_comm r fun a b => g0 (-1) b (-a), ← Q_sub, Q_comm]
    refine Q_congr fun b _ => ?_
    rw [Q_comm, Q_neg hr (k0 (-1) b.1), ← Q_sub]
    exact Q_congr fun c _ => Q_der hr (h0 b.1 c.1)
  have s1 : Q r (fun a => Q r fun b => Q r fun c => d1 a b c) =
      Q r (fun a => Q r fun b => g1 a 1 b) - Q r fun a => Q r fun b => g1 a (-1) (-b) := by
    rw [← Q_sub]
    refine Q_congr fun a _ => ?_
    rw [Q_comm, Q_neg hr (k1 a.1 (-1)), ← Q_sub]
    exact Q_congr fun c _ => Q_der hr (h1 a.1 c.1)
  have s2 : Q r (fun a => Q r fun b => Q r fun c => d2 a b c) =
      Q r (fun a => Q r fun b => g2 a b 1) - Q r fun a => Q r fun b => g2 a (-b) (-1) := by
    rw [← Q_sub]
    refine Q_congr fun a _ => ?_
    rw [Q_neg hr (k2 a.1 (-1)), ← Q_sub]
    exact Q_congr fun b _ => Q_der hr (h2 a.1 b.1)
  have e : Q r (fun a => Q r fun b => Q r fun c => d0 a b c + d1 a b c + d2 a b c) =
      Q r (fun a => Q r fun b => Q r fun c => d0 a b c) + Q r (fun a => Q r fun b => Q r fun c => d1 a b c) +
        Q r fun a => Q r fun b => Q r fun c => d2 a b c := by
    rw [← Q_add, ← Q_add]
    refine Q_congr fun a _ => ?_
    rw [← Q_add, ← Q_add]
    refine Q_congr fun b _ => ?_
    rw [← Q_add, ← Q_add]
  rw [e, s0, s1, s2]; ring

/-- The 2D version of the triple product. -/
def pair (x f : Fin 2 → ℝ) : ℝ := x 1 * f 0 - x 0 * f 1

/-- `(x × y) · f`. -/
def triple (x y f : Fin 3 → ℝ) : ℝ := (x 1 * y 2 - x 2 * y 1) * f 0 + (x 2 * y 0 - x 0 * y 2) * f 1 + (x 0 * y 1 - x 1 * y 0) * f 2

theorem PolyDer.pair {p m : Nat} {x x' f f' : ℝ → Fin 2 → ℝ} (hx : ∀ k, PolyDer p (fun t => x t k) fun t => x' t k)
    (hf : ∀ k, PolyDer m (fun t => f t k) fun t => f' t k) :
    PolyDer (p + m) (fun t => pair (x t) (f t)) fun t => Flux.pair (x' t) (f t) + Flux.pair (x t) (f' t) := by
  refine (((hx 1).mul (hf 0)).sub ((hx 0).mul (hf 1))).congr (fun t => rfl) fun t => ?_
  unfold Flux.pair; ring

theorem PolyDer.triple {p q m : Nat} {x x' y y' f f' : ℝ → Fin 3 → ℝ} (hx : ∀ k, PolyDer p (fun t => x t k) fun t => x' t k)
    (hy : ∀ k, PolyDer q (fun t => y t k) fun t => y' t k) (hf : ∀ k, PolyDer m (fun t => f t k) fun t => f' t k) :
    PolyDer (p + q + m) (fun t => triple (x t) (y t) (f t))
      fun t => Flux.triple (x' t) (y t) (f t) + Flux.triple (x t) (y' t) (f t) + Flux.triple (x t) (y t) (f' t) := by
  have h : ∀ i j k, PolyDer (p + q + m) (fun t => (x t i * y t j - x t j * y t i) * f t k)
      fun t => ((x' t i * y t j + x t i * y' t j) - (x' t j * y t i + x t j * y' t i)) * f t k + (x t i * y t j - x t j * y t i) * f' t k :=
    fun i j k => (((hx i).mul (hy j)).sub ((hx j).mul (hy i))).mul (hf k)
  refine (((h 1 2 0).add (h 2 0 1)).add (h 0 1 2)).congr (fun t => rfl) fun t => ?_
  unfold Flux.triple; ring

/-- The divergence theorem for a bilinear map with rows `b + d η`, `c + d ξ`. -/
theorem core2 {qo m : Nat} {r : Rule1} (hr : IsReferenceRule qo r) (hm : m ≤ qo) (b c d : Fin 2 → ℝ) {f fx fy : ℝ → ℝ → Fin 2 → ℝ}
    (hx : ∀ y k, PolyDer m (fun x => f x y k) fun x => fx x y k) (hy : ∀ x k, PolyDer m (fun y => f x y k) fun y => fy x y k) :
    Q r (fun x => Q r fun y => pair (fun k => c k + d k * x) (fx x y) - pair (fun k => b k + d k * y) (fy x y)) =
      Q r (fun a => -pair (fun k => b k + d k * 1) (f a 1)) + Q r (fun a => pair (fun k => b k + d k * (-1)) (f (-a) (-1))) +
        Q r (fun a => pair (fun k => c k + d k * 1) (f 1 a)) + Q r fun a => -pair (fun k => c k + d k * (-1)) (f (-1) (-a)) := by
  have A0 : ∀ y, PolyDer (qo + 1) (fun x => pair (fun k => c k + d k * x) (f x y)) fun x =>
      pair d (f x y) + pair (fun k => c k + d k * x) (fx x y) := fun y =>
    ((PolyDer.pair (x' := fun _ => d) (fun k => PolyDer.affine (c k) (d k)) (hx y)).mono (by omega))
  have A1 : ∀ x, PolyDer (qo + 1) (fun y => pair (fun k => b k + d k * y) (f x y)) fun y =>
      pair d (f x y) + pair (fun k => b k + d k * y) (fy x y) := fun x =>
    ((PolyDer.pair (x' := fun _ => d) (fun k => PolyDer.affine (b k) (d k)) (hy x)).mono (by omega))
  have B0 : ∀ x, PolyDer qo (fun y => pair (fun k => c k + d k * x) (f x y)) fun y => pair (fun _ => 0) (f x y) +
      pair (fun k => c k + d k * x) (fy x y) := fun x =>
    ((PolyDer.pair (x' := fun _ _ => 0) (fun k => PolyDer.const (c k + d k * x)) (hy x)).mono (by omega))
  have B1 : ∀ y, PolyDer qo (fun x => pair (fun k => b k + d k * y) (f x y)) fun x => pair (fun _ => 0) (f x y) +
      pair (fun k => b k + d k * y) (fx x y) := fun y =>
    ((PolyDer.pair (x' := fun _ _ => 0) (fun k => PolyDer.const (b k + d k * y)) (hx y)).mono (by omega))
  have key := parts2 hr (g1 := fun x y => -1 * pair (fun k => b k + d k * y) (f x y)) A0 (fun x => (A1 x).cmul (-1)) B0 fun y => (B1 y).cmul (-1)
  have n : ∀ g : ℝ → ℝ, Q r (fun a => -g a) = -Q r g := fun g => by
    have := Q_mul r g (-1)
    rw [mul_neg_one] at this
    rw [← this]; exact Q_congr fun pw _ => (mul_neg_one _).symm
  rw [n, n]
  simp only [neg_one_mul] at key
  rw [n, n] at key
  refine Eq.trans (Q_congr fun x _ => Q_congr fun y _ => ?_) (key.trans (by ring))
  unfold Flux.pair; ring

/-- The divergence theorem for a trilinear map. -/
theorem core3 {qo m : Nat} {r : Rule1} (hr : IsReferenceRule qo r) (hm : m + 1 ≤ qo) (b c d e f g h : Fin 3 → ℝ) {F Fx Fy Fz : ℝ → ℝ → ℝ → Fin 3 → ℝ}
    (hx : ∀ y z k, PolyDer m (fun x => F x y z k) fun x => Fx x y z k) (hy : ∀ x z k, PolyDer m (fun y => F x y z k) fun y => Fy x y z k)
    (hz : ∀ x y k, PolyDer m (fun z => F x y z k) fun z => Fz x y z k) {R0 R1 R2 : ℝ → ℝ → ℝ → Fin 3 → ℝ}
    (e0 : ∀ x y z k, R0 x y z k = b k + e k * y + f k * z + h k * y * z) (e1 : ∀ x y z k, R1 x y z k = c k + e k * x + g k * z + h k * x * z)
    (e2 : ∀ x y z k, R2 x y z k = d k + f k * x + g k * y + h k * x * y) :
    Q r (fun x => Q r fun y => Q r fun z => triple (R1 x y z) (R2 x y z) (Fx x y z) + triple (R2 x y z) (R0 x y z) (Fy x y z) +
        triple (R0 x y z) (R1 x y z) (Fz x y z)) =
      Q r (fun p => Q r fun q => triple (R0 p q 1) (R1 p q 1) (F p q 1)) -
        Q r (fun p => Q r fun q => triple (R0 p (-q) (-1)) (R1 p (-q) (-1)) (F p (-q) (-1))) +
      (Q r (fun p => Q r fun q => triple (R2 p 1 q) (R0 p 1 q) (F p 1 q)) -
        Q r (fun p => Q r fun q => triple (R2 p (-1) (-q)) (R0 p (-1) (-q)) (F p (-1) (-q)))) +
      (Q r (fun p => Q r fun q => triple (R1 1 q p) (R2 1 q p) (F 1 q p)) -
        Q r (fun p => Q r fun q => triple (R1 (-1) q (-p)) (R2 (-1) q (-p)) (F (-1) q (-p)))) := by
  have c0 : ∀ u : ℝ, PolyDer 0 (fun _ => u) fun _ => 0 := PolyDer.const
  have af : ∀ {u : ℝ → ℝ} (a1 a2 : ℝ), (∀ t, u t = a1 + a2 * t) → PolyDer 1 u fun _ => a2 := fun a1 a2 hu =>
    (PolyDer.affine a1 a2).congr hu fun _ => rfl
  have x0 : ∀ y z k, PolyDer 0 (fun x => R0 x y z k) fun _ => 0 := fun y z k => (c0 _).congr (fun x => e0 x y z k) fun _ => rfl
  have y1 : ∀ x z k, PolyDer 0 (fun y => R1 x y z k) fun _ => 0 := fun x z k => (c0 _).congr (fun y => e1 x y z k) fun _ => rfl
  have z2 : ∀ x y k, PolyDer 0 (fun z => R2 x y z k) fun _ => 0 := fun x y k => (c0 _).congr (fun z => e2 x y z k) fun _ => rfl
  have x1 : ∀ y z k, PolyDer 1 (fun x => R1 x y z k) fun _ => e k + h k * z := fun y z k => af (c k + g k * z) _ fun t => by rw [e1]; ring
  have x2 : ∀ y z k, PolyDer 1 (fun x => R2 x y z k) fun _ => f k + h k * y := fun y z k => af (d k + g k * y) _ fun t => by rw [e2]; ring
  have y0 : ∀ x z k, PolyDer 1 (fun y => R0 x y z k) fun _ => e k + h k * z := fun x z k => af (b k + f k * z) _ fun t => by rw [e0]; ring
  have y2 : ∀ x z k, PolyDer 1 (fun y => R2 x y z k) fun _ => g k + h k * x := fun x z k => af (d k + f k * x) _ fun t => by rw [e2]; ring
  have z0 : ∀ x y k, PolyDer 1 (fun z => R0 x y z k) fun _ => f k + h k * y := fun x y k => af (b k + e k * y) _ fun t => by rw [e0]; ring
  have z1 : ∀ x y k, PolyDer 1 (fun z => R1 x y z k) fun _ => g k + h k * x := fun x y k => af (c k + e k * x) _ fun t => by rw [e1]; ring
  have key := parts3 hr
    (g0 := fun x y z => triple (R1 x y z) (R2 x y z) (F x y z)) (g1 := fun x y z => triple (R2 x y z) (R0 x y z) (F x y z))
    (g2 := fun x y z => triple (R0 x y z) (R1 x y z) (F x y z))
    (fun y z => (PolyDer.triple (x' := fun _ k => e k + h k * z) (y' := fun _ k => f k + h k * y) (x1 y z) (x2 y z) (hx y z)).mono (by omega))
    (fun x z => (PolyDer.triple (x' := fun _ k => g k + h k * x) (y' := fun _ k => e k + h k * z) (y2 x z) (y0 x z) (hy x z)).mono (by omega))
    (fun x y => (PolyDer.triple (x' := fun _ k => f k + h k * y) (y' := fun _ k => g k + h k * x) (z0 x y) (z1 x y) (hz x y)).mono (by omega))
    (fun x y => (PolyDer.triple (x' := fun _ k => g k + h k * x) (y' := fun _ _ => 0) (z1 x y) (z2 x y) (hz x y)).mono (by omega))
    (fun x y => (PolyDer.triple (x' := fun _ _ => 0) (y' := fun _ k => f k + h k * y) (z2 x y) (z0 x y) (hz x y)).mono (by omega))
    (fun x z => (PolyDer.triple (x' := fun _ k => e k + h k * z) (y' := fun _ _ => 0) (y0 x z) (y1 x z) (hy x z)).mono (by omega))
  refine Eq.trans (Q_congr fun x _ => Q_congr fun y _ => Q_congr fun z _ => ?_) key
  unfold Flux.triple; ring

end Verif.Flux
