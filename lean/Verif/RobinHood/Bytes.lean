import Mathlib.Data.Nat.Bitwise
import Mathlib.Tactic.IntervalCases
import Verif.RobinHood.Loops

/-!
# Word-wise access to the info bytes
-/
namespace Verif.RobinHood

/-- Bits of a loaded word are the bits of its bytes. -/
theorem bytesAt_testBit (f : Nat → Nat) (hf : ∀ i, f i < 256) : ∀ (n i k j : Nat), j < 8 →
    (bytesAt f i n).testBit (8 * k + j) = (decide (k < n) && (f (i + k)).testBit j) := by
  intro n
  induction n with
  | zero => intro i k j _; simp [bytesAt]
  | succ n ih =>
    intro i k j hj
    rw [bytesAt, Nat.add_comm (f i), show (256 : Nat) * bytesAt f (i + 1) n = 2 ^ 8 * bytesAt f (i + 1) n from rfl,
      Nat.testBit_two_pow_mul_add _ (by simpa using hf i)]
    cases k with
    | zero => simp [hj]
    | succ k =>
      rw [if_neg (by omega), show 8 * (k + 1) + j - 8 = 8 * k + j by omega, ih (i + 1) k j hj,
        show i + 1 + k = i + (k + 1) by omega]
      simp

theorem mask7f (k j : Nat) (hk : k < 8) (hj : j < 8) :
    Nat.testBit 0x7f7f7f7f7f7f7f7f (8 * k + j) = decide (j < 7) := by
  interval_cases k <;> interval_cases j <;> rfl

/-- Halving all bytes of a word at once (line 2635). -/
theorem halve_byte (f : Nat → Nat) (hf : ∀ i, f i < 256) (i k : Nat) (hk : k < 8) :
    (((bytesAt f i 8) >>> 1) &&& 0x7f7f7f7f7f7f7f7f) >>> (8 * k) % 256 = f (i + k) / 2 := by
  apply Nat.eq_of_testBit_eq
  intro j
  rw [show (256 : Nat) = 2 ^ 8 from rfl, Nat.testBit_mod_two_pow, Nat.testBit_shiftRight, Nat.testBit_and,
    Nat.testBit_shiftRight, ← Nat.testBit_succ]
  by_cases hj : j < 8
  · rw [mask7f k j hk hj]
    by_cases hj7 : j < 7
    · rw [show 1 + (8 * k + j) = 8 * k + (j + 1) by omega, bytesAt_testBit f hf 8 i k (j + 1) (by omega)]
      simp [hj, hj7, hk]
    · have : j = 7 := by omega
      subst this
      have : (f (i + k)).testBit (7 + 1) = false :=
        Nat.testBit_lt_two_pow (by simpa using hf (i + k))
      rw [this]; simp
  · have : (f (i + k)).testBit (j + 1) = false :=
      Nat.testBit_lt_two_pow (lt_of_lt_of_le (hf (i + k)) (by
        calc 256 = 2 ^ 8 := rfl
          _ ≤ 2 ^ (j + 1) := Nat.pow_le_pow_right (by omega) (by omega)))
    rw [this]
    simp [hj]

variable {K V : Type}

/-- The loop of `try_increase_info`. -/
theorem halveLoop_eq : ∀ (f : Nat) (t : Tab K V) (i : Nat), (∀ j, t.info j < 256) → t.cap < f + i → 0 < f →
    ∃ g, halveLoop f t i = .ok { t with info := g } ∧ (∀ j, i ≤ j → j < t.cap → g j = t.info j / 2) ∧
      (∀ j, j < i → g j = t.info j) ∧ ∀ j, g j = t.info j ∨ g j = t.info j / 2 := by
  intro f
  induction f with
  | zero => intro t i _ _ h; omega
  | succ f ih =>
    intro t i hb hf _
    rw [halveLoop]
    by_cases h : i < t.cap
    · rw [if_pos h]
      simp only [load8, if_pos (show i + 8 ≤ t.cap + 8 by omega), Res.bind_ok, store8]
      have hbyte : ∀ j, i ≤ j → j < i + 8 →
          ((bytesAt t.info i 8 >>> 1) &&& 0x7f7f7f7f7f7f7f7f) >>> (8 * (j - i)) % 256 = t.info j / 2 := by
        intro j h1 h2
        rw [halve_byte t.info hb i (j - i) (by omega), show i + (j - i) = j by omega]
      obtain ⟨g, hg, h1, h2, h3⟩ := ih
        { t with info := fun j => if i ≤ j ∧ j < i + 8 then
            ((bytesAt t.info i 8 >>> 1) &&& 0x7f7f7f7f7f7f7f7f) >>> (8 * (j - i)) % 256 else t.info j } (i + 8)
        (by
          intro j
          simp only
          by_cases hj : i ≤ j ∧ j < i + 8
          · rw [if_pos hj]; exact Nat.mod_lt _ (by omega)
          · rw [if_neg hj]; exact hb j)
        (by simp only; omega) (by omega)
      refine ⟨g, hg, ?_, ?_, ?_⟩
      · intro j hj1 hj2
        by_cases hj : j < i + 8
        · rw [h2 j hj]
          simp only
          rw [if_pos ⟨hj1, hj⟩, hbyte j hj1 hj]
        · rw [h1 j (by omega) hj2]
          simp only
          rw [if_neg (by omega)]
      · intro j hj
        rw [h2 j (by omega)]
        simp only
        rw [if_neg (by omega)]
      · intro j
        by_cases hj : j < i + 8
        · rw [h2 j hj]
          simp only
          by_cases hj2 : i ≤ j
          · rw [if_pos ⟨hj2, hj⟩, hbyte j hj2 hj]; exact .inr rfl
          · rw [if_neg (by omega)]; exact .inl rfl
        · have := h3 j
          simp only at this
          rwa [if_neg (by omega)] at this
    · rw [if_neg h]
      exact ⟨t.info, rfl, fun j h1 h2 => by omega, fun _ _ => rfl, fun _ => .inl rfl⟩

/-- `ctz(n) / 8` is the number of the first non-zero byte. -/
theorem ctz_bytes (f : Nat → Nat) (hf : ∀ i, f i < 256) (i : Nat) (hne : bytesAt f i 8 ≠ 0) :
    ctz (bytesAt f i 8) / 8 < 8 ∧ f (i + ctz (bytesAt f i 8) / 8) ≠ 0 ∧
      ∀ k, k < ctz (bytesAt f i 8) / 8 → f (i + k) = 0 := by
  have hbit : ∃ k j, k < 8 ∧ j < 8 ∧ (bytesAt f i 8).testBit (8 * k + j) = true := by
    by_contra hno
    push Not at hno
    apply hne
    apply Nat.eq_of_testBit_eq
    intro b
    rw [Nat.zero_testBit, show b = 8 * (b / 8) + b % 8 by omega]
    by_cases hb : b / 8 < 8
    · simpa using hno (b / 8) (b % 8) hb (by omega)
    · rw [bytesAt_testBit f hf 8 i _ _ (by omega)]
      simp only [hb, decide_false, Bool.false_and]
  obtain ⟨k0, j0, hk0, hj0, hb0⟩ := hbit
  unfold ctz
  cases hfind : (List.range 64).find? (fun b => (bytesAt f i 8).testBit b) with
  | none =>
    rw [List.find?_eq_none] at hfind
    exact absurd hb0 (hfind _ (List.mem_range.2 (by omega)))
  | some c =>
    have hc1 := List.find?_some hfind
    have hc2 : c < 64 := List.mem_range.1 (List.mem_of_find?_eq_some hfind)
    have hmin : ∀ b, b < c → (bytesAt f i 8).testBit b = false := by
      intro b hb
      rw [List.find?_eq_some_iff_append] at hfind
      obtain ⟨_, as, bs, hab, hall⟩ := hfind
      have hb' : (List.range 64)[b]? = some b := by rw [List.getElem?_range (by omega)]
      have hlen : as.length = c := by
        have h1 : (List.range 64)[as.length]? = some c := by rw [hab]; simp
        have h2 : as.length < 64 := by
          have := congrArg List.length hab
          simp at this; omega
        rw [List.getElem?_range h2] at h1
        exact Option.some.inj h1
      have : b ∈ as := by
        rw [hab, List.getElem?_append_left (by omega)] at hb'
        exact List.mem_of_getElem? hb'
      simpa using hall b this
    simp only [Option.getD_some]
    refine ⟨by omega, ?_, ?_⟩
    · intro h0
      have := bytesAt_testBit f hf 8 i (c / 8) (c % 8) (by omega)
      rw [show 8 * (c / 8) + c % 8 = c by omega, hc1, h0] at this
      simp at this
    · intro k hk
      apply Nat.eq_of_testBit_eq
      intro j
      rw [Nat.zero_testBit]
      by_cases hj : j < 8
      · have := bytesAt_testBit f hf 8 i k j hj
        rw [hmin _ (by omega)] at this
        simpa [show k < 8 by omega] using this.symm
      · exact Nat.testBit_lt_two_pow (lt_of_lt_of_le (hf _) (by
          calc 256 = 2 ^ 8 := rfl
            _ ≤ 2 ^ j := Nat.pow_le_pow_right (by omega) (by omega)))

theorem bytesAt_eq_zero (f : Nat → Nat) : ∀ (n i : Nat), bytesAt f i n = 0 ↔ ∀ k, k < n → f (i + k) = 0 := by
  intro n
  induction n with
  | zero => intro i; simp [bytesAt]
  | succ n ih =>
    intro i
    rw [bytesAt]
    constructor
    · intro h k hk
      cases k with
      | zero => simpa using (by omega : f i = 0)
      | succ k =>
        rw [show i + (k + 1) = i + 1 + k by omega]
        exact (ih (i + 1)).1 (by omega) k (by omega)
    · intro h
      have h0 := h 0 (by omega)
      have h1 := (ih (i + 1)).2 (fun k hk => by
        rw [show i + 1 + k = i + (k + 1) by omega]; exact h (k + 1) (by omega))
      simp only [Nat.add_zero] at h0
      omega

end Verif.RobinHood
