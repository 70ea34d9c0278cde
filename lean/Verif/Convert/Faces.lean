import Verif.Convert.Model
import Verif.Elem.Props
/-! # Faces of the reference element and the feature tables -/
namespace Verif.Convert
open Verif Verif.Elem

/-- A face of the reference cube: for every axis free (`none`) or fixed to the lower/upper end. -/
abbrev Face := List (Option Bool)

def coordOk (n i : Nat) (c : Option Bool) (a : Nat) : Bool :=
  match c with
  | none => true
  | some b => i / n ^ a % n == if b then n - 1 else 0

/-- Node `i` (lattice index, `n` nodes per edge) lies on the face. -/
def onFace (n : Nat) (F : Face) (i : Nat) : Bool := F.zipIdx.all fun p => coordOk n i p.1 p.2

/-- Dimension of the face. -/
def free (F : Face) : Nat := F.count none

def faceInds (t : ElType) (n : Nat) (F : Face) : List Nat := (List.range (n ^ t.dim)).filter fun i => onFace n F i

def allFacesD : Nat → List Face
  | 0 => [[]]
  | d + 1 => (allFacesD d).flatMap fun F => [none :: F, some false :: F, some true :: F]

/-- All faces of all dimensions, including the element itself. -/
def allFaces (t : ElType) : List Face := allFacesD t.dim

/-- The face of side `s`. -/
def sideFace (t : ElType) (s : Nat) : Face :=
  (List.range t.dim).map fun a => if a = sideAxis t s then some (s % 2 == 1) else none

/-- The face common to the sides `s` and `s'` of a hexahedron. -/
def edgeFace (s s' : Nat) : Face :=
  (List.range 3).map fun a => if a = 2 - s / 2 then some (s % 2 == 1) else if a = 2 - s' / 2 then some (s' % 2 == 1) else none

def edgePairs : List (Nat × Nat) := sidePairs.filter fun p => p.1 / 2 ≠ p.2 / 2

/-- Faces of dimension `d` in the order of the tables of the code. -/
def codeFaces (t : ElType) (d : Nat) : List Face :=
  if d = 0 ∨ t.dim < d then []
  else if t.dim = d then [List.replicate d none]
  else if d = t.dim - 1 then (List.range (nSides t)).map (sideFace t)
  else edgePairs.map fun p => edgeFace p.1 p.2

theorem length_allFaces {t : ElType} {F : Face} (h : F ∈ allFaces t) : F.length = t.dim := by
  have : ∀ t : ElType, ∀ F ∈ allFaces t, F.length = t.dim := by intro t; cases t <;> decide
  exact this t F h

theorem codeFaces_complete (t : ElType) : ∀ F ∈ allFaces t, 1 ≤ free F → F ∈ codeFaces t (free F) := by
  cases t <;> decide

theorem codeFaces_sound (t : ElType) (d : Nat) : ∀ F ∈ codeFaces t d, F ∈ allFaces t ∧ free F = d := by
  have h : ∀ d ∈ [0, 1, 2, 3], ∀ F ∈ codeFaces t d, F ∈ allFaces t ∧ free F = d := by cases t <;> decide
  by_cases hd : d ∈ [0, 1, 2, 3]
  · exact h d hd
  · have : t.dim < d := by simp at hd; cases t <;> simp [ElType.dim] <;> omega
    simp [codeFaces, this]

theorem face_le (t : ElType) : ∀ F ∈ allFaces t, ∀ G ∈ allFaces t, (∀ k ∈ List.range (2 ^ t.dim), onFace 2 G k → onFace 2 F k) →
    free G ≤ free F ∧ (free G = free F → G = F) := by
  cases t <;> decide +kernel

theorem face_vert (t : ElType) : ∀ F ∈ allFaces t, ∃ k ∈ List.range (2 ^ t.dim), onFace 2 F k := by
  cases t <;> decide +kernel

theorem setInter_spec (a b : List Nat) (ha : a.Pairwise (· < ·)) (hb : b.Pairwise (· < ·)) :
    (setInter a b).Pairwise (· < ·) ∧ ∀ x, x ∈ setInter a b ↔ x ∈ a ∧ x ∈ b := by
  fun_induction setInter a b with
  | case1 b => simp
  | case2 a => simp
  | case3 x as y bs h ih =>
    rw [List.pairwise_cons] at ha
    obtain ⟨h1, h2⟩ := ih ha.2 hb
    refine ⟨h1, fun z => ?_⟩
    rw [h2]
    rw [List.pairwise_cons] at hb
    constructor
    · rintro ⟨u, v⟩; exact ⟨List.mem_cons_of_mem _ u, v⟩
    · rintro ⟨u, v⟩
      refine ⟨?_, v⟩
      rcases List.mem_cons.1 u with rfl | u
      · rcases List.mem_cons.1 v with rfl | v
        · omega
        · have := hb.1 z v; omega
      · exact u
  | case4 x as y bs h h' ih =>
    rw [List.pairwise_cons] at hb
    obtain ⟨h1, h2⟩ := ih ha hb.2
    refine ⟨h1, fun z => ?_⟩
    rw [h2]
    rw [List.pairwise_cons] at ha
    constructor
    · rintro ⟨u, v⟩; exact ⟨u, List.mem_cons_of_mem _ v⟩
    · rintro ⟨u, v⟩
      refine ⟨u, ?_⟩
      rcases List.mem_cons.1 v with rfl | v
      · rcases List.mem_cons.1 u with rfl | u
        · omega
        · have := ha.1 z u; omega
      · exact v
  | case5 x as y bs h h' ih =>
    have e : x = y := by omega
    subst e
    rw [List.pairwise_cons] at ha hb
    obtain ⟨h1, h2⟩ := ih ha.2 hb.2
    refine ⟨List.pairwise_cons.2 ⟨fun z hz => ha.1 z ((h2 z).1 hz).1, h1⟩, fun z => ?_⟩
    simp only [List.mem_cons, h2]
    constructor
    · rintro (rfl | ⟨u, v⟩)
      · simp
      · exact ⟨Or.inr u, Or.inr v⟩
    · rintro ⟨rfl | u, v⟩
      · simp
      · rcases v with rfl | v
        · simp
        · exact Or.inr ⟨u, v⟩

theorem mem_faceInds {t : ElType} {n : Nat} {F : Face} {i : Nat} : i ∈ faceInds t n F ↔ i < n ^ t.dim ∧ onFace n F i := by
  simp [faceInds]

theorem faceInds_strict (t : ElType) (n : Nat) (F : Face) : (faceInds t n F).Pairwise (· < ·) :=
  List.Pairwise.filter _ List.pairwise_lt_range

theorem table_getD (t : ElType) (n s : Nat) (hn : 1 ≤ n) (hb : n ^ t.dim < 2 ^ 16) (hs : s < nSides t) :
    (table t n).getD s [] = layer t n (sideAxis t s) (if s % 2 = 0 then 0 else n - 1) := by
  have := side_eq_layer t n s hn hb hs
  rw [sideNodeInds] at this
  rw [List.getD_eq_getElem?_getD, this]; rfl

theorem onFace_sideFace (t : ElType) (n s i : Nat) (hs : s < nSides t) :
    onFace n (sideFace t s) i = true ↔ i / n ^ sideAxis t s % n = if s % 2 = 0 then 0 else n - 1 := by
  cases t <;> simp only [nSides] at hs <;> interval_cases s <;> simp [onFace, sideFace, sideAxis, ElType.dim, List.range_succ, coordOk, List.zipIdx]

theorem layer_eq_faceInds (t : ElType) (n s : Nat) (hs : s < nSides t) :
    layer t n (sideAxis t s) (if s % 2 = 0 then 0 else n - 1) = faceInds t n (sideFace t s) := by
  refine Std.eq_of_mem_of_strict (layer_strict _ _ _ _) (faceInds_strict _ _ _) fun i => ?_
  rw [mem_layer, mem_faceInds, onFace_sideFace t n s i hs]

theorem nNodes_eq (t : ElType) (n : Nat) (hb : n ^ t.dim < 2 ^ 16) : nNodes t n = n ^ t.dim := u16_id hb

theorem sideInter_spec (n s s' : Nat) (hn : 2 ≤ n) (hb : n ^ 3 < 2 ^ 16) (hs : s < 6) (hs' : s' < 6) :
    (sideInter .hex n s s').Pairwise (· < ·) ∧ ∀ i, i ∈ sideInter .hex n s s' ↔
      i < n ^ 3 ∧ onFace n (sideFace .hex s) i ∧ onFace n (sideFace .hex s') i := by
  have h1 := table_getD .hex n s (by omega) hb hs
  have h2 := table_getD .hex n s' (by omega) hb hs'
  rw [layer_eq_faceInds _ _ _ hs] at h1
  rw [layer_eq_faceInds _ _ _ hs'] at h2
  have hstr := fun F => (faceInds_strict .hex n F)
  have hle := fun F => (hstr F).imp (fun {a b} (h : a < b) => Nat.le_of_lt h)
  obtain ⟨a, b⟩ := setInter_spec _ _ (hstr (sideFace .hex s)) (hstr (sideFace .hex s'))
  rw [sideInter, h1, h2, Std.sort_eq_of_sorted (hle _), Std.sort_eq_of_sorted (hle _)]
  refine ⟨a, fun i => ?_⟩
  rw [b, mem_faceInds, mem_faceInds]
  simp only [ElType.dim]
  tauto

theorem onFace_edgeFace (n s s' i : Nat) (hs : s < 6) (hs' : s' < 6) (h : s / 2 ≠ s' / 2) :
    onFace n (edgeFace s s') i = true ↔ onFace n (sideFace .hex s) i = true ∧ onFace n (sideFace .hex s') i = true := by
  rw [onFace_sideFace _ _ _ _ hs, onFace_sideFace _ _ _ _ hs']
  interval_cases s <;> interval_cases s' <;>
    first
    | (exfalso; exact h rfl)
    | (simp [onFace, edgeFace, sideAxis, ElType.dim, List.range_succ, coordOk, List.zipIdx, and_comm])

/-- Lattice index of vertex `k`. -/
def corner (n k : Nat) : Nat := (n - 1) * (k % 2) + n * ((n - 1) * (k / 2 % 2) + n * ((n - 1) * (k / 4 % 2)))

theorem corner_digit (n k a : Nat) (hn : 1 ≤ n) (ha : a < 3) : corner n k / n ^ a % n = (n - 1) * (k / 2 ^ a % 2) := by
  have hd : ∀ x, (n - 1) * (x % 2) < n := by
    intro x
    rcases Nat.mod_two_eq_zero_or_one x with h | h <;> rw [h] <;> omega
  obtain ⟨a1, a2⟩ := Tensor.two_digits (n := n) (x := (n - 1) * (k % 2)) (y := (n - 1) * (k / 2 % 2) + n * ((n - 1) * (k / 4 % 2))) (hd _)
  obtain ⟨b1, b2⟩ := Tensor.two_digits (n := n) (x := (n - 1) * (k / 2 % 2)) (y := (n - 1) * (k / 4 % 2)) (hd _)
  interval_cases a
  · simpa [corner] using a1
  · simp only [corner, pow_one, a2, b1]
  · rw [pow_two, ← Nat.div_div_eq_div_mul, corner, a2, b2]
    exact Nat.mod_eq_of_lt (hd _)

theorem corner_lt (t : ElType) (n k : Nat) (hn : 1 ≤ n) (hk : k < 2 ^ t.dim) : corner n k < n ^ t.dim := by
  have hd : ∀ x, (n - 1) * (x % 2) < n := by
    intro x
    rcases Nat.mod_two_eq_zero_or_one x with h | h <;> rw [h] <;> omega
  cases t with
  | line =>
    simp only [ElType.dim] at hk ⊢
    have h1 : k / 2 = 0 := by omega
    have h2 : k / 4 = 0 := by omega
    simp only [corner, h1, h2]
    simpa using hd k
  | quad =>
    simp only [ElType.dim] at hk ⊢
    have h2 : k / 4 = 0 := by omega
    simp only [corner, h2]
    rw [pow_two]
    exact Tensor.lt_mul_of_digits (hd _) (by simpa using hd (k / 2))
  | hex =>
    simp only [ElType.dim, corner]
    rw [show n ^ 3 = n * (n * n) by ring]
    exact Tensor.lt_mul_of_digits (hd _) (Tensor.lt_mul_of_digits (hd _) (hd _))

theorem corner_inj {n k l : Nat} (hn : 2 ≤ n) (hk : k < 8) (hl : l < 8) (h : corner n k = corner n l) : k = l := by
  have h0 := corner_digit n k 0 (by omega) (by omega)
  have h1 := corner_digit n k 1 (by omega) (by omega)
  have h2 := corner_digit n k 2 (by omega) (by omega)
  rw [h, corner_digit n l _ (by omega) (by omega)] at h0 h1 h2
  have c := fun {x y : Nat} (e : (n - 1) * x = (n - 1) * y) => Nat.eq_of_mul_eq_mul_left (show 0 < n - 1 by omega) e
  have := c h0; have := c h1; have := c h2
  omega

theorem onFace_corner {t : ElType} {F : Face} (hF : F ∈ allFaces t) {n : Nat} (hn : 2 ≤ n) (k : Nat) :
    onFace n F (corner n k) = onFace 2 F k := by
  have hlen := length_allFaces hF
  have hdim : t.dim ≤ 3 := by cases t <;> decide
  have key : ∀ (c : Option Bool) (a : Nat), a < 3 → coordOk n (corner n k) c a = coordOk 2 k c a := by
    intro c a ha
    cases c with
    | none => rfl
    | some b =>
      simp only [coordOk, corner_digit n k a (by omega) ha]
      rcases Nat.mod_two_eq_zero_or_one (k / 2 ^ a) with h | h <;> rw [h] <;> cases b <;> simp <;> omega
  have : ∀ (l : List (Option Bool)) (o : Nat), o + l.length ≤ 3 →
      ((l.zipIdx o).all fun p => coordOk n (corner n k) p.1 p.2) = (l.zipIdx o).all fun p => coordOk 2 k p.1 p.2 := by
    intro l
    induction l with
    | nil => intro o _; rfl
    | cons c l ih =>
      intro o ho
      simp only [List.length_cons] at ho
      simp only [List.zipIdx_cons, List.all_cons, key c o (by omega), ih (o + 1) (by omega)]
  exact this F 0 (by omega)

theorem edge_two_vertices : ∀ p ∈ edgePairs, edgeFace p.1 p.2 ∈ allFaces .hex ∧ ∃ k ∈ List.range 8, ∃ l ∈ List.range 8, k ≠ l ∧
    onFace 2 (edgeFace p.1 p.2) k ∧ onFace 2 (edgeFace p.1 p.2) l := by decide +kernel

theorem two_le_length {l : List Nat} {a b : Nat} (ha : a ∈ l) (hb : b ∈ l) (h : a ≠ b) : 2 ≤ l.length := by
  match l with
  | [] => simp at ha
  | [x] => simp at ha hb; omega
  | _ :: _ :: _ => simp

theorem edgeTable_eq (n : Nat) (hn : 2 ≤ n) (hb : n ^ 3 < 2 ^ 16) :
    edgeTable .hex n = edgePairs.map fun p => faceInds .hex n (edgeFace p.1 p.2) := by
  have hp : ∀ p ∈ sidePairs, p.1 < 6 ∧ p.2 < 6 ∧ p.1 ≠ p.2 := by decide
  have hlen : ∀ p ∈ sidePairs, (2 ≤ (sideInter .hex n p.1 p.2).length ↔ p.1 / 2 ≠ p.2 / 2) := by
    intro p hps
    obtain ⟨h1, h2, h3⟩ := hp p hps
    obtain ⟨a, b⟩ := sideInter_spec n p.1 p.2 hn hb h1 h2
    constructor
    · intro hl he
      have : sideInter .hex n p.1 p.2 ≠ [] := by intro e; rw [e] at hl; simp at hl
      obtain ⟨i, hi⟩ := List.exists_mem_of_ne_nil _ this
      obtain ⟨_, c, d⟩ := (b i).1 hi
      rw [onFace_sideFace _ _ _ _ h1] at c
      rw [onFace_sideFace _ _ _ _ h2] at d
      have hax : sideAxis .hex p.1 = sideAxis .hex p.2 := by simp [sideAxis, he]
      rw [hax, d] at c
      have : p.1 % 2 ≠ p.2 % 2 := by omega
      split at c <;> split at c <;> omega
    · intro hne
      have hpe : p ∈ edgePairs := by simp [edgePairs, hps, hne]
      obtain ⟨hF, k, hk, l, hl, hkl, ok, ol⟩ := edge_two_vertices p hpe
      simp only [List.mem_range] at hk hl
      have hm : ∀ k < 8, onFace 2 (edgeFace p.1 p.2) k = true → corner n k ∈ sideInter .hex n p.1 p.2 := by
        intro k hk ok
        rw [b]
        refine ⟨corner_lt .hex n k (by omega) hk, ?_⟩
        rw [← onFace_edgeFace n p.1 p.2 _ h1 h2 hne, onFace_corner hF hn]
        exact ok
      exact two_le_length (hm k hk ok) (hm l hl ol) fun e => hkl (corner_inj hn hk hl e)
  have hmap : ∀ p ∈ edgePairs, sideInter .hex n p.1 p.2 = faceInds .hex n (edgeFace p.1 p.2) := by
    intro p hpe
    rw [edgePairs, List.mem_filter] at hpe
    obtain ⟨h1, h2, h3⟩ := hp p hpe.1
    obtain ⟨a, b⟩ := sideInter_spec n p.1 p.2 hn hb h1 h2
    refine Std.eq_of_mem_of_strict a (faceInds_strict _ _ _) fun i => ?_
    rw [b, mem_faceInds, onFace_edgeFace n p.1 p.2 _ h1 h2 (by simpa using hpe.2)]
    rfl
  rw [edgeTable, List.filter_map, ← List.map_congr_left hmap]
  congr 1
  refine List.filter_congr fun p hps => ?_
  have := hlen p hps
  simp only [Function.comp, decide_eq_decide, this]

/-- The feature tables of the code are the faces of the given dimension. -/
theorem features_eq (t : ElType) (n d : Nat) (hn : 2 ≤ n) (hb : n ^ t.dim < 2 ^ 16) :
    features t n d = (codeFaces t d).map (faceInds t n) := by
  unfold features codeFaces
  split
  · rfl
  · rename_i h0
    split
    · rename_i h1
      subst h1
      simp only [List.map_cons, List.map_nil, nNodes_eq t n hb]
      congr 1
      rw [faceInds, List.filter_eq_self.2]
      intro i _
      cases t <;> rfl
    · rename_i h1
      split
      · rename_i h2
        apply List.ext_getElem?
        intro s
        rcases Nat.lt_or_ge s (nSides t) with hs | hs
        · have := side_eq_layer t n s (by omega) hb hs
          rw [sideNodeInds] at this
          rw [this, layer_eq_faceInds t n s hs]
          simp [hs]
        · rw [List.getElem?_eq_none (by rw [table_length]; exact hs), List.getElem?_eq_none (by simpa using hs)]
      · rename_i h2
        have ht : t = .hex := by
          cases t
          · simp only [ElType.dim] at *; omega
          · simp only [ElType.dim] at *; omega
          · rfl
        subst ht
        rw [edgeTable_eq n hn hb, List.map_map]
        rfl

end Verif.Convert
