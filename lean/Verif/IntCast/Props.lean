import Verif.IntCast.Spec
import Mathlib.Tactic.Ring
import Mathlib.Algebra.Order.Ring.Int
import Mathlib.Tactic.SplitIfs

/-! # Property C06: integer conversions -/
namespace Verif.IntCast

theorem pow_le {a b : Nat} (h : a ≤ b) : (2 : Int) ^ a ≤ 2 ^ b := by
  exact_mod_cast Nat.pow_le_pow_right (by decide) h

theorem pow_pos' (a : Nat) : (0 : Int) < 2 ^ a := by
  exact_mod_cast Nat.pow_pos (by decide)

theorem pow_pred {a : Nat} (h : 1 ≤ a) : (2 : Int) ^ a = 2 * 2 ^ (a - 1) := by
  obtain ⟨b, rfl⟩ : ∃ b, a = b + 1 := ⟨a - 1, by omega⟩
  rw [pow_succ]; simp; omega

theorem pow_lt {a b : Nat} (h : a < b) : (2 : Int) ^ a < 2 ^ b := by
  exact_mod_cast Nat.pow_lt_pow_right (by decide) h

/-- Conversion is the identity on representable values. -/
theorem wrap_of_representable {t : IntTy} (ht : t.Valid) {v : Int} (h : Representable t v) :
    t.wrap v = v := by
  have hp := pow_pred ht.1
  have h0 := pow_pos' (t.bits - 1)
  unfold IntTy.wrap Representable at *
  cases hs : t.signed <;> simp only [hs] at h ⊢
  · simp only [Bool.false_eq_true, false_and, if_false] at h ⊢
    exact Int.emod_eq_of_lt h.1 h.2
  · simp only [if_true] at h
    by_cases hv : 0 ≤ v
    · rw [Int.emod_eq_of_lt hv (by omega), if_neg (by omega)]
    · have : v % 2 ^ t.bits = v + 2 ^ t.bits := by
        rw [← Int.add_emod_right, Int.emod_eq_of_lt (by omega) (by omega)]
      rw [this, if_pos (by refine ⟨by simp, ?_⟩; simp only [ge_iff_le]; omega)]; omega

theorem wrap64_nonneg {v : Int} (h : 0 ≤ v) (h' : v < 2 ^ 64) : uintmax.wrap v = v := by
  apply wrap_of_representable ⟨by decide, by decide⟩
  simp [Representable, uintmax]; omega

theorem wrap64_neg {v : Int} (h : v < 0) (h' : -2 ^ 63 ≤ v) : uintmax.wrap v = v + 2 ^ 64 := by
  simp [IntTy.wrap, uintmax]; omega

theorem iwrap {v : Int} (h : -2 ^ 63 ≤ v) (h' : v < 2 ^ 63) : intmax.wrap v = v := by
  apply wrap_of_representable ⟨by decide, by decide⟩
  simp [Representable, intmax]; omega

/-- What `exactIntegerCast` actually computes, for every pair of types and every value: the
value, if it is representable, unless it is negative and the (signed) target is narrower. -/
theorem C06_exact_characterisation (src dst : IntTy) (hs : src.Valid) (hd : dst.Valid) (v : Int)
    (hv : Representable src v) :
    exactCast src dst v =
      if Representable dst v ∧ ¬ (v < 0 ∧ dst.bits < src.bits) then some v else none := by
  obtain ⟨ss, sb⟩ := src
  obtain ⟨ds, db⟩ := dst
  have a1 : (2:Int)^sb = _ := pow_pred hs.1
  have a2 : (2:Int)^db = _ := pow_pred hd.1
  have a3 := pow_pos' (sb - 1)
  have a4 := pow_pos' (db - 1)
  have a5 : (2:Int)^sb ≤ _ := pow_le hs.2
  have a6 : (2:Int)^db ≤ _ := pow_le hd.2
  have dw := fun h => wrap_of_representable hd (v := v) h
  have m1 : uintmax.wrap (IntTy.mk ss sb).max = (IntTy.mk ss sb).max := by
    apply wrap64_nonneg <;> unfold IntTy.max <;> simp only [] <;> split <;> omega
  have m2 : uintmax.wrap (IntTy.mk ds db).max = (IntTy.mk ds db).max := by
    apply wrap64_nonneg <;> unfold IntTy.max <;> simp only [] <;> split <;> omega
  have m3 : intmax.wrap (IntTy.mk ss sb).min = (IntTy.mk ss sb).min := by
    apply iwrap <;> unfold IntTy.min <;> simp only [] <;> split <;> omega
  have m4 : intmax.wrap (IntTy.mk ds db).min = (IntTy.mk ds db).min := by
    apply iwrap <;> unfold IntTy.min <;> simp only [] <;> split <;> omega
  have hlt : db < sb → (2 : Int) ^ db < 2 ^ sb := pow_lt
  have hge : ¬ db < sb → (2 : Int) ^ sb ≤ 2 ^ db := fun h => pow_le (by omega)
  have hlt' : db < sb → (2 : Int) ^ db ≤ 2 ^ (sb - 1) := fun h => pow_le (by omega)
  have hlt'' : sb < db → (2 : Int) ^ sb ≤ 2 ^ (db - 1) := fun h => pow_le (by omega)
  have heq : sb = db → (2 : Int) ^ sb = 2 ^ db := fun h => by rw [h]
  unfold exactCast
  simp only [m1, m2, m3, m4]
  unfold Representable at *
  unfold IntTy.max IntTy.min
  have uw0 := fun h h' => wrap64_nonneg (v := v) h h'
  have uw1 := fun h h' => wrap64_neg (v := v) h h'
  have iw := fun h h' => iwrap (v := v) h h'
  by_cases hneg : v < 0
  · cases ss <;> cases ds <;>
      simp only [if_true, if_false, Bool.false_eq_true] at hv ⊢ dw
    · omega
    · omega
    · have := uw1 (by omega) (by omega)
      have := iw (by omega) (by omega)
      rw [if_neg (show ¬ ((0 ≤ v ∧ v < 2 ^ db) ∧ ¬ (v < 0 ∧ db < sb)) by omega)]
      by_cases c : db < sb
      · split
        · rfl
        · rw [if_pos (by omega)]
      · rw [if_neg (by have := hge c; omega), if_pos (by omega)]
    · have := uw1 (by omega) (by omega)
      have := iw (by omega) (by omega)
      by_cases c : db < sb
      · rw [if_pos (by have := hlt c; omega), if_neg (by omega)]
      · have := hge c
        rw [if_neg (by omega), if_neg (by omega), if_pos (by omega), dw (by omega)]
  · cases ss <;> cases ds <;>
      simp only [if_true, if_false, Bool.false_eq_true] at hv ⊢ dw
    · have := uw0 (by omega) (by omega)
      by_cases c : v < 2 ^ db
      · rw [if_neg (by omega), if_neg (by omega), if_pos (by omega), dw (by omega)]
      · rw [if_pos (by omega), if_neg (by omega)]
    · have := uw0 (by omega) (by omega)
      by_cases c : v < 2 ^ (db - 1)
      · rw [if_neg (by omega), if_neg (by omega), if_pos (by omega), dw (by omega)]
      · rw [if_pos (by omega), if_neg (by omega)]
    · have := uw0 (by omega) (by omega)
      have := iw (by omega) (by omega)
      by_cases c : v < 2 ^ db
      · rw [if_neg (by omega), if_neg (by omega), if_pos (by omega), dw (by omega)]
      · rw [if_pos (by omega), if_neg (by omega)]
    · have := uw0 (by omega) (by omega)
      have := iw (by omega) (by omega)
      by_cases c : v < 2 ^ (db - 1)
      · rw [if_neg (by omega), if_neg (by omega), if_pos (by omega), dw (by omega)]
      · rw [if_pos (by omega), if_neg (by omega)]

example : exactCast ⟨true, 32⟩ ⟨false, 16⟩ 65535 = some 65535 ∧ exactCast ⟨true, 32⟩ ⟨false, 16⟩ (-1) = none ∧
    exactCast ⟨true, 64⟩ ⟨true, 32⟩ (-1) = none := by decide +kernel

/-- **C06** for every conversion except negative values into a narrower type.  Missing for the
full statement (`C06Statement`): negative values that fit a narrower signed type, which are
rejected (`C06_negative_narrowing_violated`). -/
theorem C06_exact_cast_partial (src dst : IntTy) (hs : src.Valid) (hd : dst.Valid) (v : Int)
    (hv : Representable src v) (h : 0 ≤ v ∨ src.bits ≤ dst.bits) :
    exactCast src dst v = if Representable dst v then some v else none := by
  rw [C06_exact_characterisation src dst hs hd v hv]
  have : ¬ (v < 0 ∧ dst.bits < src.bits) := by omega
  simp [this]

example : Representable ⟨true, 64⟩ (-5) ∧ ((0 : Int) ≤ -5 ∨ 64 ≤ 64) ∧ IntTy.Valid ⟨true, 64⟩ := by
  refine ⟨by decide, by simp, by simp [IntTy.Valid]⟩

/-- **C06**, safety half without exception: a value that is returned is always the original
value, and it is representable in the target type. -/
theorem C06_returned_value_exact (src dst : IntTy) (hs : src.Valid) (hd : dst.Valid) (v w : Int)
    (hv : Representable src v) (h : exactCast src dst v = some w) : w = v ∧ Representable dst v := by
  rw [C06_exact_characterisation src dst hs hd v hv] at h
  split at h
  · rename_i c; simp at h; exact ⟨h.symm, c.1⟩
  · simp at h

/-- **C06** is false of the code: `exactIntegerCast<int>(long{-1})` throws. -/
theorem C06_negative_narrowing_violated : ¬ C06Statement := by
  intro h
  have := h ⟨true, 64⟩ ⟨true, 32⟩ (by simp [IntTy.Valid]) (by simp [IntTy.Valid]) (-1) (by decide)
  revert this; decide +kernel

/-- **C79**: `integralPower` is the mathematical power whenever that is representable (together
with all smaller powers), for every type. -/
theorem C79_integral_power (t : IntTy) (ht : t.Valid) (b : Int) (e : Nat)
    (h : ∀ k ≤ e, Representable t (b ^ k)) : intPower t b e = b ^ e := by
  induction e with
  | zero => simp [intPower]
  | succ e ih =>
    unfold intPower at ih ⊢
    rw [List.range_succ, List.foldl_append, ih (fun k hk => h k (by omega))]
    simp only [List.foldl_cons, List.foldl_nil]
    rw [← pow_succ, wrap_of_representable ht (h _ (Nat.le_refl _))]

example : ∀ k ≤ 10, Representable ⟨false, 16⟩ ((3 : Int) ^ k) := by decide

/-- **C79**: for unsigned types the power is exact modulo `2^bits` without any assumption. -/
theorem C79_integral_power_unsigned (w : Nat) (hw : 1 ≤ w) (b : Int) (e : Nat) :
    intPower ⟨false, w⟩ b e = b ^ e % 2 ^ w := by
  induction e with
  | zero =>
    have : (2 : Int) ^ 1 ≤ 2 ^ w := pow_le hw
    simp [intPower]; rw [Int.emod_eq_of_lt (by omega) (by omega)]
  | succ e ih =>
    unfold intPower at ih ⊢
    rw [List.range_succ, List.foldl_append, ih]
    simp only [List.foldl_cons, List.foldl_nil, IntTy.wrap, Bool.false_eq_true, false_and, if_false]
    rw [pow_succ, Int.mul_emod, Int.emod_emod, ← Int.mul_emod]

/-- **C79**: `smallest_integral_t<max, min>` represents the whole interval, is signed only if
necessary, and no narrower fixed width type of that signedness represents it; it is rejected
only if no fixed width type does. -/
theorem C79_smallest_integral (mx mn : Int) (hmx : 0 ≤ mx) (hmn : mn ≤ mx) :
    match smallestIntegral mx mn with
    | some t => t ∈ fixedWidth (decide (mn < 0)) ∧ Representable t mx ∧ Representable t mn ∧
        ∀ t' ∈ fixedWidth (decide (mn < 0)), Representable t' mx → Representable t' mn → t.bits ≤ t'.bits
    | none => ∀ s, ∀ t ∈ fixedWidth s, ¬ (Representable t mx ∧ Representable t mn) := by
  have e8 : IntTy.max ⟨true, 8⟩ = 127 := by decide
  have e16 : IntTy.max ⟨true, 16⟩ = 32767 := by decide
  have e32 : IntTy.max ⟨true, 32⟩ = 2147483647 := by decide
  have e64 : IntTy.max ⟨true, 64⟩ = 9223372036854775807 := by decide
  have n8 : IntTy.min ⟨true, 8⟩ = -128 := by decide
  have n16 : IntTy.min ⟨true, 16⟩ = -32768 := by decide
  have n32 : IntTy.min ⟨true, 32⟩ = -2147483648 := by decide
  have n64 : IntTy.min ⟨true, 64⟩ = -9223372036854775808 := by decide
  have u8 : IntTy.max ⟨false, 8⟩ = 255 := by decide
  have u16 : IntTy.max ⟨false, 16⟩ = 65535 := by decide
  have u32 : IntTy.max ⟨false, 32⟩ = 4294967295 := by decide
  have u64 : IntTy.max ⟨false, 64⟩ = 18446744073709551615 := by decide
  unfold smallestIntegral
  rw [e8, e16, e32, e64, n8, n16, n32, n64, u8, u16, u32, u64]
  by_cases hn : mn < 0
  · simp only [if_pos hn, decide_eq_true hn]
    split_ifs <;> simp [fixedWidth, Representable] <;> omega
  · simp only [if_neg hn, decide_eq_false hn]
    split_ifs <;> simp [fixedWidth, Representable] <;> omega

example : smallestIntegral 300 (-5) = some ⟨true, 16⟩ ∧ smallestIntegral 200 0 = some ⟨false, 8⟩ ∧
    smallestIntegral 18446744073709551615 (-1) = none := by decide

end Verif.IntCast
