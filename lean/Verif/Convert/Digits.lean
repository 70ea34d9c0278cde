import Verif.Convert.Step
/-! # Lattice indices and their digits; gluing of faces -/
namespace Verif.Convert
open Verif Verif.Elem

/-- Lattice index with the given digits. -/
def idx (n : Nat) (f : Nat → Nat) : Nat := f 0 + n * (f 1 + n * f 2)

theorem idx_digit {n : Nat} {f : Nat → Nat} (hf : ∀ a, a < 3 → f a < n) {a : Nat} (ha : a < 3) : idx n f / n ^ a % n = f a := by
  obtain ⟨a1, a2⟩ := Tensor.two_digits (n := n) (x := f 0) (y := f 1 + n * f 2) (hf 0 (by omega))
  obtain ⟨b1, b2⟩ := Tensor.two_digits (n := n) (x := f 1) (y := f 2) (hf 1 (by omega))
  interval_cases a
  · simpa [idx] using a1
  · simp only [idx, pow_one, a2, b1]
  · rw [pow_two, ← Nat.div_div_eq_div_mul, idx, a2, b2]
    exact Nat.mod_eq_of_lt (hf 2 (by omega))

theorem idx_lt (t : ElType) {n : Nat} {f : Nat → Nat} (hf : ∀ a, a < 3 → f a < n) (h0 : ∀ a, t.dim ≤ a → f a = 0) : idx n f < n ^ t.dim := by
  cases t with
  | line =>
    simp only [ElType.dim] at h0 ⊢
    simp only [idx, h0 1 (by omega), h0 2 (by omega)]
    simpa using hf 0 (by omega)
  | quad =>
    simp only [ElType.dim] at h0 ⊢
    simp only [idx, h0 2 (by omega)]
    rw [pow_two]
    exact Tensor.lt_mul_of_digits (hf 0 (by omega)) (by simpa using hf 1 (by omega))
  | hex =>
    simp only [ElType.dim, idx]
    rw [show n ^ 3 = n * (n * n) by ring]
    exact Tensor.lt_mul_of_digits (hf 0 (by omega)) (Tensor.lt_mul_of_digits (hf 1 (by omega)) (hf 2 (by omega)))

/-- An index is determined by its digits. -/
theorem digits_ext {t : ElType} {n i j : Nat} (hi : i < n ^ t.dim) (hj : j < n ^ t.dim)
    (hdig : ∀ a, a < t.dim → i / n ^ a % n = j / n ^ a % n) : i = j := by
  cases t with
  | line =>
    have := hdig 0 (by decide)
    simp only [ElType.dim, pow_one] at hi hj
    simpa [Nat.mod_eq_of_lt hi, Nat.mod_eq_of_lt hj] using this
  | quad =>
    have h0 := hdig 0 (by decide)
    have h1 := hdig 1 (by decide)
    simp only [ElType.dim, pow_two] at hi hj
    simp only [pow_zero, Nat.div_one, pow_one] at h0 h1
    rw [Nat.mod_eq_of_lt (Nat.div_lt_of_lt_mul hi), Nat.mod_eq_of_lt (Nat.div_lt_of_lt_mul hj)] at h1
    rw [Tensor.eq_digits n i, Tensor.eq_digits n j, h0, h1]
  | hex =>
    have h0 := hdig 0 (by decide)
    have h1 := hdig 1 (by decide)
    have h2 := hdig 2 (by decide)
    have e3 : n ^ 3 = n * n * n := by ring
    simp only [ElType.dim, e3] at hi hj
    simp only [pow_zero, Nat.div_one, pow_one, pow_two] at h0 h1 h2
    rw [Nat.mod_eq_of_lt (Nat.div_lt_of_lt_mul hi), Nat.mod_eq_of_lt (Nat.div_lt_of_lt_mul hj), ← Nat.div_div_eq_div_mul, ← Nat.div_div_eq_div_mul] at h2
    have hq : i / n = j / n := by rw [Tensor.eq_digits n (i / n), Tensor.eq_digits n (j / n), h1, h2]
    rw [Tensor.eq_digits n i, Tensor.eq_digits n j, h0, hq]

theorem onFace_iff {n : Nat} {F : Face} {i : Nat} :
    onFace n F i = true ↔ ∀ a b, F[a]? = some (some b) → i / n ^ a % n = if b then n - 1 else 0 := by
  rw [onFace, List.all_eq_true]
  constructor
  · intro h a b hb
    have := h (some b, a) (List.mem_zipIdx_iff_getElem?.2 hb)
    simpa [coordOk] using this
  · rintro h ⟨c, a⟩ hm
    rw [List.mem_zipIdx_iff_getElem?] at hm
    cases c with
    | none => rfl
    | some b => simpa [coordOk] using h a b hm

/-- How a face `F'` of the second element lies on a face `F` of the first: every free axis `a'` of `F'` runs along
the free axis `ax a'` of `F`, backwards if `flip a'`. -/
structure Glue (t t' : ElType) (F F' : Face) (ax : Nat → Nat) : Prop where
  mem1 : F ∈ allFaces t
  mem2 : F' ∈ allFaces t'
  dim : free F = free F'
  free_ax : ∀ a', F'[a']? = some none → F[ax a']? = some none
  inj : ∀ a' b', F'[a']? = some none → F'[b']? = some none → ax a' = ax b' → a' = b'
  surj : ∀ a, F[a]? = some none → ∃ a', F'[a']? = some none ∧ ax a' = a

def glueDigit (n : Nat) (F' : Face) (ax : Nat → Nat) (flip : Nat → Bool) (i a' : Nat) : Nat :=
  match F'[a']? with
  | some (some b) => if b then n - 1 else 0
  | some none => if flip a' then n - 1 - i / n ^ ax a' % n else i / n ^ ax a' % n
  | none => 0

/-- The node of the second element opposite to node `i` of the first. -/
def glue (n : Nat) (F' : Face) (ax : Nat → Nat) (flip : Nat → Bool) (i : Nat) : Nat := idx n (glueDigit n F' ax flip i)

section
variable {t t' : ElType} {F F' : Face} {ax : Nat → Nat} {flip : Nat → Bool} {n : Nat}

theorem glueDigit_lt (hn : 1 ≤ n) (i a' : Nat) : glueDigit n F' ax flip i a' < n := by
  have := Nat.mod_lt (i / n ^ ax a') (show 0 < n by omega)
  unfold glueDigit
  split
  · split <;> omega
  · split <;> omega
  · omega

theorem glue_digit (hn : 1 ≤ n) (i : Nat) {a' : Nat} (ha : a' < 3) : glue n F' ax flip i / n ^ a' % n = glueDigit n F' ax flip i a' :=
  idx_digit (fun _ _ => glueDigit_lt hn _ _) ha

theorem dim_le_three (t : ElType) : t.dim ≤ 3 := by cases t <;> decide

theorem glue_lt (g : Glue t t' F F' ax) (hn : 1 ≤ n) (i : Nat) : glue n F' ax flip i < n ^ t'.dim := by
  refine idx_lt t' (fun _ _ => glueDigit_lt hn _ _) fun a ha => ?_
  have : F'[a]? = none := List.getElem?_eq_none (by rw [length_allFaces g.mem2]; exact ha)
  simp [glueDigit, this]

theorem face_lt {t : ElType} {F : Face} (h : F ∈ allFaces t) {a : Nat} {c : Option Bool} (hc : F[a]? = some c) : a < t.dim := by
  obtain ⟨h', _⟩ := List.getElem?_eq_some_iff.1 hc
  rwa [length_allFaces h] at h'

theorem glue_on (g : Glue t t' F F' ax) (hn : 1 ≤ n) (i : Nat) : onFace n F' (glue n F' ax flip i) = true := by
  rw [onFace_iff]
  intro a b hb
  have ha := face_lt g.mem2 hb
  rw [glue_digit hn i (by have := dim_le_three t'; omega), glueDigit, hb]

theorem glue_inj (g : Glue t t' F F' ax) (hn : 1 ≤ n) {i j : Nat} (hi : i < n ^ t.dim) (hj : j < n ^ t.dim) (oi : onFace n F i = true)
    (oj : onFace n F j = true) (h : glue n F' ax flip i = glue n F' ax flip j) : i = j := by
  refine digits_ext hi hj fun a ha => ?_
  have ha' : a < F.length := by rw [length_allFaces g.mem1]; exact ha
  have hget := List.getElem?_eq_getElem ha'
  rcases hc : F[a] with _ | b
  · rw [hc] at hget
    obtain ⟨a', hf, rfl⟩ := g.surj a hget
    have hlt := face_lt g.mem2 hf
    have h3 : a' < 3 := by have := dim_le_three t'; omega
    have e1 := glue_digit (F' := F') (ax := ax) (flip := flip) hn i h3
    have e2 := glue_digit (F' := F') (ax := ax) (flip := flip) hn j h3
    rw [h, e2] at e1
    simp only [glueDigit, hf] at e1
    have l1 := Nat.mod_lt (i / n ^ ax a') (show 0 < n by omega)
    have l2 := Nat.mod_lt (j / n ^ ax a') (show 0 < n by omega)
    split at e1 <;> omega
  · rw [hc] at hget
    rw [onFace_iff.1 oi a b hget, onFace_iff.1 oj a b hget]

theorem glue_surj (g : Glue t t' F F' ax) (hn : 1 ≤ n) {j : Nat} (hj : j < n ^ t'.dim) (oj : onFace n F' j = true) :
    ∃ i, i < n ^ t.dim ∧ onFace n F i = true ∧ glue n F' ax flip i = j := by
  classical
  let back : Nat → Nat := fun a => if h : ∃ a', F'[a']? = some none ∧ ax a' = a then h.choose else 0
  let f : Nat → Nat := fun a =>
    match F[a]? with
    | some (some b) => if b then n - 1 else 0
    | some none => if flip (back a) then n - 1 - j / n ^ back a % n else j / n ^ back a % n
    | none => 0
  have hf : ∀ a, f a < n := by
    intro a
    have := Nat.mod_lt (j / n ^ back a) (show 0 < n by omega)
    simp only [f]
    split
    · split <;> omega
    · split <;> omega
    · omega
  have hlt : idx n f < n ^ t.dim := idx_lt t (fun a _ => hf a) fun a ha => by
    have : F[a]? = none := List.getElem?_eq_none (by rw [length_allFaces g.mem1]; exact ha)
    simp only [f, this]
  have hdig : ∀ a, a < 3 → idx n f / n ^ a % n = f a := fun a ha => idx_digit (fun a _ => hf a) ha
  refine ⟨idx n f, hlt, ?_, ?_⟩
  · rw [onFace_iff]
    intro a b hb
    have ha := face_lt g.mem1 hb
    rw [hdig a (by have := dim_le_three t; omega)]
    simp only [f, hb]
  · refine digits_ext (glue_lt g hn _) hj fun a' ha' => ?_
    have h3 : a' < 3 := by have := dim_le_three t'; omega
    rw [glue_digit hn _ h3, glueDigit]
    have hal : a' < F'.length := by rw [length_allFaces g.mem2]; exact ha'
    have hget := List.getElem?_eq_getElem hal
    rcases hc : F'[a'] with _ | b
    · rw [hc] at hget
      have hfree := g.free_ax a' hget
      have hax := face_lt g.mem1 hfree
      have hback : back (ax a') = a' := by
        have hex : ∃ b', F'[b']? = some none ∧ ax b' = ax a' := ⟨a', hget, rfl⟩
        simp only [back, dif_pos hex]
        exact g.inj _ _ hex.choose_spec.1 hget hex.choose_spec.2
      rw [hget]
      simp only
      rw [hdig (ax a') (by have := dim_le_three t; omega)]
      simp only [f, hfree, hback]
      have := Nat.mod_lt (j / n ^ a') (show 0 < n by omega)
      by_cases hfl : flip a' = true
      · rw [if_pos hfl, if_pos hfl]; omega
      · rw [if_neg hfl, if_neg hfl]
    · rw [hc] at hget
      rw [hget]
      exact (onFace_iff.1 oj a' b hget).symm

theorem corner_eq_idx (n k : Nat) : corner n k = idx n fun a => (n - 1) * (k / 2 ^ a % 2) := by
  simp [corner, idx]

/-- Gluing commutes with taking corners. -/
theorem glue_corner (g : Glue t t' F F' ax) (hn : 2 ≤ n) (k : Nat) :
    glue n F' ax flip (corner n k) = corner n (glue 2 F' ax flip k) := by
  have hlt2 : glue 2 F' ax flip k < 2 ^ t'.dim := glue_lt g (by omega) k
  refine digits_ext (glue_lt g (by omega) _) (corner_lt t' n _ (by omega) hlt2) fun a ha => ?_
  have h3 : a < 3 := by have := dim_le_three t'; omega
  rw [glue_digit (by omega) _ h3, corner_digit n _ a (by omega) h3, glue_digit (by omega) _ h3]
  have hal : a < F'.length := by rw [length_allFaces g.mem2]; exact ha
  have hget := List.getElem?_eq_getElem hal
  rcases hc : F'[a] with _ | b
  · rw [hc] at hget
    have hax := face_lt g.mem1 (g.free_ax a hget)
    simp only [glueDigit, hget]
    rw [corner_digit n k (ax a) (by omega) (by have := dim_le_three t; omega)]
    rcases Nat.mod_two_eq_zero_or_one (k / 2 ^ ax a) with h | h <;> rw [h] <;> cases flip a <;> simp
  · rw [hc] at hget
    simp only [glueDigit, hget]
    cases b <;> simp
end

end Verif.Convert
