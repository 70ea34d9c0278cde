import Verif.Convert.Props
import Verif.Mesh.Props

/-! # Boxes of a grid: the elements of a structured mesh -/
namespace Verif.Gen
open Verif Verif.Elem Verif.Mesh Verif.Convert

/-- A box of a grid: it begins at grid point `lo` and extends by one in the directions `w`. -/
structure Box where
  lo : Fin 3 → Nat
  w : Fin 3 → Bool

theorem Box.ext' {b b' : Box} (h1 : ∀ c, b.lo c = b'.lo c) (h2 : ∀ c, b.w c = b'.w c) : b = b' := by
  cases b; cases b'
  simp only [Box.mk.injEq]
  exact ⟨funext h1, funext h2⟩

/-- Directions of a box, in order: its reference coordinates. -/
def axes (w : Fin 3 → Bool) : List (Fin 3) := [0, 1, 2].filter fun c => w c

/-- Reference coordinate along direction `c`. -/
def loc (w : Fin 3 → Bool) (c : Fin 3) : Nat := (axes w).idxOf c

def tyOf (w : Fin 3 → Bool) : ElType :=
  match (axes w).length with
  | 1 => .line
  | 2 => .quad
  | _ => .hex

/-- Where vertex `k` is, relative to `lo`. -/
def off (w : Fin 3 → Bool) (k : Nat) (c : Fin 3) : Nat := if w c then k / 2 ^ loc w c % 2 else 0

/-- Number of grid point `p`. -/
def node (n : Fin 3 → Nat) (p : Fin 3 → Nat) : Nat := p 0 + n 0 * (p 1 + n 1 * p 2)

/-- Vertex ids of a box. -/
def Box.nodes (n : Fin 3 → Nat) (b : Box) : List Nat := (List.range (2 ^ (tyOf b.w).dim)).map fun k => node n fun c => b.lo c + off b.w k c

/-- Inside the grid of `n` points. -/
def Box.InGrid (n : Fin 3 → Nat) (b : Box) : Prop := ∀ c, b.lo c + (b.w c).toNat < n c

/-- Grid point `p` is a vertex of the box. -/
def Box.Has (b : Box) (p : Fin 3 → Nat) : Prop := ∀ c, p c = b.lo c ∨ b.w c = true ∧ p c = b.lo c + 1

theorem mem_axes {w : Fin 3 → Bool} {c : Fin 3} : c ∈ axes w ↔ w c = true := by
  unfold axes
  rw [List.mem_filter]
  fin_cases c <;> simp

theorem nodup_axes (w : Fin 3 → Bool) : (axes w).Nodup := List.Nodup.filter _ (by decide)

theorem axes_length (w : Fin 3 → Bool) : axes w ≠ [] → (tyOf w).dim = (axes w).length := by
  revert w; decide

theorem loc_get {w : Fin 3 → Bool} {c : Fin 3} (h : w c = true) : (axes w)[loc w c]? = some c := by
  have := List.idxOf_lt_length_iff.2 (mem_axes.2 h)
  rw [loc, List.getElem?_eq_getElem this, List.getElem_idxOf]

theorem loc_of_get {w : Fin 3 → Bool} {c : Fin 3} {a : Nat} (h : (axes w)[a]? = some c) : w c = true ∧ loc w c = a := by
  obtain ⟨ha, rfl⟩ := List.getElem?_eq_some_iff.1 h
  refine ⟨mem_axes.1 (List.getElem_mem ha), ?_⟩
  exact (nodup_axes w).idxOf_getElem a ha

theorem axes_ne {w : Fin 3 → Bool} {c : Fin 3} (h : w c = true) : axes w ≠ [] := List.ne_nil_of_mem (mem_axes.2 h)

theorem loc_lt {w : Fin 3 → Bool} {c : Fin 3} (h : w c = true) : loc w c < (tyOf w).dim := by
  rw [axes_length w (axes_ne h)]
  exact List.idxOf_lt_length_iff.2 (mem_axes.2 h)

theorem off_le (w : Fin 3 → Bool) (k : Nat) (c : Fin 3) : off w k c ≤ (w c).toNat := by
  unfold off
  split
  · rename_i h
    rw [h]
    exact Nat.lt_succ_iff.1 (Nat.mod_lt _ (by decide))
  · exact Nat.zero_le _

theorem off_surj : ∀ (w b : Fin 3 → Bool), (∀ c, b c = true → w c = true) → ∃ k ∈ List.range (2 ^ (tyOf w).dim), ∀ c, off w k c = (b c).toNat := by
  decide +kernel

theorem off_digit {w : Fin 3 → Bool} (hw : axes w ≠ []) {k l : Nat} (hk : k < 2 ^ (tyOf w).dim) (hl : l < 2 ^ (tyOf w).dim)
    (h : ∀ c, off w k c = off w l c) : k = l := by
  refine digits_ext hk hl fun a ha => ?_
  rw [axes_length w hw] at ha
  obtain ⟨h1, h2⟩ := loc_of_get (List.getElem?_eq_getElem ha)
  have := h (axes w)[a]
  rwa [off, off, if_pos h1, if_pos h1, h2] at this

theorem node_inj {n p q : Fin 3 → Nat} (hp : ∀ c, p c < n c) (hq : ∀ c, q c < n c) (h : node n p = node n q) : p = q := by
  have e : ∀ {x y x' y' m : Nat}, x < m → x' < m → x + m * y = x' + m * y' → x = x' ∧ y = y' := by
    intro x y x' y' m h1 h2 h
    have hm : 0 < m := by omega
    have r : x = x' := by
      have := congrArg (· % m) h
      simpa [Nat.mod_eq_of_lt h1, Nat.mod_eq_of_lt h2] using this
    subst r
    exact ⟨rfl, Nat.eq_of_mul_eq_mul_left hm (by omega)⟩
  obtain ⟨e0, h⟩ := e (hp 0) (hq 0) h
  obtain ⟨e1, h⟩ := e (hp 1) (hq 1) h
  funext c
  fin_cases c
  · exact e0
  · exact e1
  · exact h

theorem node_lt {n p : Fin 3 → Nat} (hp : ∀ c, p c < n c) : node n p < n 0 * n 1 * n 2 := by
  have h0 := hp 0
  have h1 := hp 1
  have h2 := hp 2
  have a : p 1 + n 1 * p 2 + 1 ≤ n 1 * n 2 := by
    calc p 1 + n 1 * p 2 + 1 ≤ n 1 * p 2 + n 1 := by omega
      _ = n 1 * (p 2 + 1) := by ring
      _ ≤ n 1 * n 2 := Nat.mul_le_mul_left _ h2
  calc node n p < n 0 + n 0 * (p 1 + n 1 * p 2) := by unfold node; omega
    _ = n 0 * (p 1 + n 1 * p 2 + 1) := by ring
    _ ≤ n 0 * (n 1 * n 2) := Nat.mul_le_mul_left _ a
    _ = _ := by ring

/-- The grid point with a number. -/
def coordOf (n : Fin 3 → Nat) (v : Nat) (c : Fin 3) : Nat := if c = 0 then v % n 0 else if c = 1 then v / n 0 % n 1 else v / n 0 / n 1

theorem coordOf_node {n p : Fin 3 → Nat} (hp : ∀ c, p c < n c) (c : Fin 3) : coordOf n (node n p) c = p c := by
  have h0 := hp 0
  have h1 := hp 1
  have d0 : node n p / n 0 = p 1 + n 1 * p 2 := by
    rw [node, Nat.add_mul_div_left _ _ (by omega), Nat.div_eq_of_lt h0, Nat.zero_add]
  fin_cases c
  · simp [coordOf, node, Nat.mod_eq_of_lt h0]
  · simp [coordOf, d0, Nat.mod_eq_of_lt h1]
  · simp only [coordOf, d0]
    rw [if_neg (by decide), if_neg (by decide), Nat.add_mul_div_left _ _ (by omega), Nat.div_eq_of_lt h1, Nat.zero_add]
    rfl

theorem node_coordOf {n : Fin 3 → Nat} {v : Nat} (hv : v < n 0 * n 1 * n 2) : (∀ c, coordOf n v c < n c) ∧ node n (coordOf n v) = v := by
  have h0 : 0 < n 0 := by
    rcases Nat.eq_zero_or_pos (n 0) with h | h
    · simp [h] at hv
    · exact h
  have h1 : 0 < n 1 := by
    rcases Nat.eq_zero_or_pos (n 1) with h | h
    · simp [h] at hv
    · exact h
  constructor
  · intro c
    fin_cases c
    · exact Nat.mod_lt _ h0
    · exact Nat.mod_lt _ h1
    · change v / n 0 / n 1 < n 2
      rw [Nat.div_div_eq_div_mul]
      exact Nat.div_lt_of_lt_mul (by linarith)
  · change v % n 0 + n 0 * (v / n 0 % n 1 + n 1 * (v / n 0 / n 1)) = v
    rw [Nat.mod_add_div, Nat.mod_add_div]

section
variable {n : Fin 3 → Nat} {b b' : Box}

theorem Box.length_nodes (n : Fin 3 → Nat) (b : Box) : (b.nodes n).length = 2 ^ (tyOf b.w).dim := by simp [Box.nodes]

theorem Box.getD_nodes (n : Fin 3 → Nat) (b : Box) {k : Nat} (hk : k < 2 ^ (tyOf b.w).dim) :
    (b.nodes n).getD k 0 = node n fun c => b.lo c + off b.w k c := by
  rw [Box.nodes, List.getD_eq_getElem?_getD, List.getElem?_map, List.getElem?_range hk]; rfl

theorem Box.vert_lt (hg : b.InGrid n) (k : Nat) (c : Fin 3) : b.lo c + off b.w k c < n c := by
  have := hg c
  have := off_le b.w k c
  omega

theorem Box.has_lt (hg : b.InGrid n) {p : Fin 3 → Nat} (h : b.Has p) (c : Fin 3) : p c < n c := by
  have := hg c
  rcases h c with h | ⟨h1, h⟩
  · omega
  · rw [h1] at this; simp at this; omega

theorem Box.has_vert (b : Box) (k : Nat) : b.Has fun c => b.lo c + off b.w k c := by
  intro c
  simp only [off]
  by_cases h : b.w c = true
  · rw [if_pos h]
    have := Nat.mod_lt (k / 2 ^ Gen.loc b.w c) (show 0 < 2 by decide)
    simp only [h, true_and]
    omega
  · rw [if_neg h]; exact .inl rfl

theorem Box.mem_nodes {v : Nat} : v ∈ b.nodes n ↔ ∃ p, b.Has p ∧ v = node n p := by
  unfold Box.nodes
  rw [List.mem_map]
  constructor
  · rintro ⟨k, _, rfl⟩; exact ⟨_, b.has_vert k, rfl⟩
  · rintro ⟨p, hp, rfl⟩
    obtain ⟨k, hk, h⟩ := off_surj b.w (fun c => decide (p c ≠ b.lo c)) fun c hc => by
      rcases hp c with h | h
      · simp [h] at hc
      · exact h.1
    refine ⟨k, hk, congrArg (node n) (funext fun c => ?_)⟩
    rw [h]
    rcases hp c with h | ⟨_, h⟩
    · simp [h]
    · simp [h]

theorem Box.nodup_nodes (hw : axes b.w ≠ []) (hg : b.InGrid n) : (b.nodes n).Nodup := by
  unfold Box.nodes
  refine List.Nodup.map_on ?_ List.nodup_range
  intro k hk l hl h
  have := node_inj (b.vert_lt hg k) (b.vert_lt hg l) h
  refine off_digit hw (List.mem_range.1 hk) (List.mem_range.1 hl) fun c => ?_
  have := congrFun this c
  omega

/-- Boxes with the same vertices are the same. -/
theorem Box.eq_of_nodes (hg : b.InGrid n) (hg' : b'.InGrid n) (h : ∀ v, v ∈ b.nodes n ↔ v ∈ b'.nodes n) : b = b' := by
  have hiff : ∀ p, b.Has p ↔ b'.Has p := by
    intro p
    constructor
    · intro hp
      obtain ⟨q, hq, e⟩ := Box.mem_nodes.1 ((h _).1 (Box.mem_nodes.2 ⟨p, hp, rfl⟩))
      rwa [node_inj (b.has_lt hg hp) (b'.has_lt hg' hq) e]
    · intro hp
      obtain ⟨q, hq, e⟩ := Box.mem_nodes.1 ((h _).2 (Box.mem_nodes.2 ⟨p, hp, rfl⟩))
      rwa [node_inj (b'.has_lt hg' hp) (b.has_lt hg hq) e]
  have h1 : b'.Has b.lo := (hiff _).1 fun c => .inl rfl
  have h2 : b.Has b'.lo := (hiff _).2 fun c => .inl rfl
  have hlo : ∀ c, b.lo c = b'.lo c := by
    intro c
    rcases h1 c with h1 | ⟨_, h1⟩
    · exact h1
    · rcases h2 c with h2 | ⟨_, h2⟩ <;> omega
  refine Box.ext' hlo fun c => ?_
  have hup : ∀ b : Box, b.w c = true ↔ b.Has fun i => if i = c then b.lo i + 1 else b.lo i := by
    intro b
    constructor
    · intro h i
      simp only
      by_cases hi : i = c
      · subst hi; exact .inr ⟨h, by simp⟩
      · exact .inl (by simp [hi])
    · intro h
      rcases h c with h | h
      · simp at h
      · exact h.1
  rw [Bool.eq_iff_iff, hup, hup, hiff]
  simp only [hlo]

/-- The box on one side. -/
def Box.side (b : Box) (c : Fin 3) (up : Bool) : Box := ⟨fun i => if i = c then b.lo i + up.toNat else b.lo i, fun i => if i = c then false else b.w i⟩

/-- Direction of side `s`. -/
def sideDir (w : Fin 3 → Bool) (s : Nat) : Fin 3 := (axes w).getD ((axes w).length - 1 - s / 2) 0

theorem side_table : ∀ w : Fin 3 → Bool, 2 ≤ (axes w).length → ∀ s ∈ List.range (Elem.nSides (tyOf w)), w (sideDir w s) = true ∧
    (faceInds (tyOf w) 2 (sideFace (tyOf w) s)).map (fun k => (List.finRange 3).map fun c => off w k c) =
    (List.range (2 ^ (tyOf fun i => if i = sideDir w s then false else w i).dim)).map fun k => (List.finRange 3).map fun c =>
      (if c = sideDir w s then (s % 2 == 1).toNat else 0) + off (fun i => if i = sideDir w s then false else w i) k c := by
  decide +kernel

/-- The nodes of a side are the vertices of the box on that side. -/
theorem Box.sideNodes (n : Fin 3 → Nat) (b : Box) (hw : 2 ≤ (axes b.w).length) {s : Nat} (hs : s < Elem.nSides (tyOf b.w)) :
    b.w (sideDir b.w s) = true ∧
    (faceInds (tyOf b.w) 2 (sideFace (tyOf b.w) s)).map (fun k => (b.nodes n).getD k 0) = (b.side (sideDir b.w s) (s % 2 == 1)).nodes n := by
  obtain ⟨h1, h⟩ := side_table b.w hw s (List.mem_range.2 hs)
  refine ⟨h1, ?_⟩
  have e1 : (faceInds (tyOf b.w) 2 (sideFace (tyOf b.w) s)).map (fun k => (b.nodes n).getD k 0) =
      ((faceInds (tyOf b.w) 2 (sideFace (tyOf b.w) s)).map (fun k => (List.finRange 3).map fun c => off b.w k c)).map
        fun o => node n fun c => b.lo c + o.getD c 0 := by
    rw [List.map_map]
    refine List.map_congr_left fun k hk => ?_
    rw [b.getD_nodes n (mem_faceInds.1 hk).1]
    simp only [Function.comp_apply]
    congr 1
    funext c
    fin_cases c <;> rfl
  rw [e1, h, Box.nodes, List.map_map]
  refine List.map_congr_left fun k _ => ?_
  simp only [Function.comp_apply, Box.side]
  congr 1
  funext c
  have : ((List.finRange 3).map fun c => (if c = sideDir b.w s then (s % 2 == 1).toNat else 0) +
      off (fun i => if i = sideDir b.w s then false else b.w i) k c).getD c 0 =
      (if c = sideDir b.w s then (s % 2 == 1).toNat else 0) + off (fun i => if i = sideDir b.w s then false else b.w i) k c := by
    fin_cases c <;> rfl
  rw [this]
  by_cases hc : c = sideDir b.w s
  · simp only [hc, if_true]; omega
  · simp only [if_neg hc]; omega

end
end Verif.Gen
