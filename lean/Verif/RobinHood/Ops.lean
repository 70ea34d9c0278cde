import Verif.RobinHood.Place

/-!
# Resizing, insertion, removal and iteration
-/
namespace Verif.RobinHood

variable {K V : Type} {hash : K → Nat} {t : Tab K V}

theorem initialMult_odd : initialMult % 2 = 1 := by norm_num [initialMult]

theorem nextMult_odd {m : Nat} (h : m % 2 = 1) : (m + 0xc4ceb9fe1a85ec54) % 2 ^ 64 % 2 = 1 := by
  rw [Nat.mod_mod_of_dvd _ (by norm_num)]
  omega

theorem Fresh.new (K V : Type) : Fresh (Tab.new K V) :=
  ⟨initialMult_odd, fun _ => rfl, fun _ => rfl, rfl, rfl, rfl, rfl, rfl, rfl⟩

theorem initData_good (hash : K → Nat) {mult : Nat} (ho : mult % 2 = 1) {n : Nat} (hn : 8 ≤ n) :
    Good hash (initData mult n : Tab K V) ∧ (∀ x w, ¬ Has (initData mult n : Tab K V) x w) := by
  refine ⟨⟨ho, ?_, rfl, ?_, ?_, ?_, ?_, ?_, ?_, ?_, ?_, ?_, ?_, ?_, ?_, ?_⟩, ?_⟩
  · simp only [initData]; omega
  · simp [initData]
  · simp only [initData]; rw [show n - 1 + 1 = n by omega]
  · simp [initData]
  · intro i hi
    simp only [initData] at hi ⊢
    rw [if_neg (by omega)]
  · intro i _; rfl
  · intro i hi h
    simp only [initData] at hi h
    rw [if_neg (by omega)] at h
    exact absurd rfl h
  · intro i hi
    simp only [initData] at hi ⊢
    rw [if_neg (by omega)]; omega
  · intro _ i hi
    simp only [initData] at hi ⊢
    rw [if_neg (by omega)]; omega
  · intro i hi h
    simp only [initData] at hi h
    rw [if_neg (by omega)] at h
    omega
  · intro i j k v w h
    simp [initData] at h
  · refine (Finset.card_eq_zero.2 (Finset.eq_empty_iff_forall_notMem.2 fun i hi => ?_)).symm
    rw [occ, Finset.mem_filter, Finset.mem_range] at hi
    simp only [initData] at hi
    exact hi.2 (if_neg (by omega))
  · simp [initData]
  · right; simp only [initData]; rw [show n - 1 + 1 = n by omega]
  · rintro x w ⟨i, hi⟩
    simp [initData] at hi

namespace Good

theorem inc_even (g : Good hash t) (h : 2 < t.inc) : ∃ a, t.inc = 2 * a ∧ 2 ≤ a ∧ a * 2 ^ (t.shift + 1) = 32 := by
  have hs := g.incShift
  have : t.shift < 4 := by
    by_contra hge
    have : 2 ^ 4 ≤ 2 ^ t.shift := Nat.pow_le_pow_right (by omega) (by omega)
    nlinarith
  rw [pow_succ]
  generalize t.shift = sh at *
  interval_cases sh <;> refine ⟨t.inc / 2, ?_, ?_, ?_⟩ <;> omega

/-- `try_increase_info` keeps the contents and frees one bit of the info bytes. -/
theorem tryIncrease_spec (g : Good hash t) (h : 2 < t.inc) :
    ∃ t', tryIncreaseInfo t = .ok (some t') ∧ Good hash t' ∧ t'.cells = t.cells ∧ t'.num = t.num ∧
      t'.mask = t.mask ∧ t'.maxAllowed = calcMax (t.mask + 1) := by
  obtain ⟨a, ha, ha2, has⟩ := g.inc_even h
  have hshift : t.inc >>> 1 = a := by rw [Nat.shiftRight_eq_div_pow, ha]; omega
  obtain ⟨f, hf, h1, _, h3⟩ := halveLoop_eq (t.cap + 9) { t with inc := t.inc >>> 1, shift := t.shift + 1 } 0
    g.byte_all (by simp only; omega) (by omega)
  simp only at h1 h3
  have hr : tryIncreaseInfo t = .ok (some { t with
      inc := a, shift := t.shift + 1, info := fun j => if j = t.cap then 1 else f j,
      maxAllowed := calcMax (t.mask + 1) }) := by
    rw [tryIncreaseInfo, if_neg (by omega), hf, Res.bind_ok, wrInfo_ok (by simp only; omega), Res.bind_ok]
    simp only [hshift]
  refine ⟨_, hr, ?_, rfl, rfl, rfl, rfl⟩
  have hinfo : ∀ i, i < t.cap → (if i = t.cap then 1 else f i) = t.info i / 2 := by
    intro i hi
    rw [if_neg (by omega), h1 i (by omega) hi]
  have hle := g.inc_le
  have hneed : ∀ k i, need hash { t with
      inc := a, shift := t.shift + 1, info := fun j => if j = t.cap then 1 else f j,
      maxAllowed := calcMax (t.mask + 1) } k i = need hash t k i / 2 := by
    intro k i
    unfold need startInfo
    have hst : startIdx hash { t with
      inc := a, shift := t.shift + 1, info := fun j => if j = t.cap then 1 else f j,
      maxAllowed := calcMax (t.mask + 1) } k = startIdx hash t k := rfl
    rw [hst]
    simp only
    rw [ha, Nat.shiftRight_add, Nat.shiftRight_eq_div_pow _ 1]
    generalize (mix t.mult (hash k) &&& 31) >>> t.shift = b
    generalize i - startIdx hash t k = d
    rw [show 2 * a + b + 2 * a * d = 2 * (a + a * d) + b by ring]
    omega
  have hz : ∀ i, i < t.cap → t.info i ≠ 0 → t.info i / 2 ≠ 0 := by
    intro i hi hne
    have := g.occ_inc hi hne
    omega
  refine ⟨g.odd, g.mask, has, ha2, g.cap, by simp, ?_, ?_, ?_, ?_, ?_, ?_, g.inj, ?_, g.numLe, .inr rfl⟩
  · intro i hi
    simp only at hi ⊢
    rw [if_neg (by omega)]
    have := g.pad i hi
    rcases h3 i with h | h <;> rw [h, this]
  · intro i hi
    simp only at hi ⊢
    by_cases hc : i < t.cap
    · rw [hinfo i hc] at hi
      apply g.dead
      right
      by_contra hne
      have := hz i hc hne
      omega
    · exact g.dead i (.inl (by omega))
  · intro i hi hne
    simp only at hi hne ⊢
    rw [hinfo i hi] at hne ⊢
    obtain ⟨k, v, hk1, hk2, hk3⟩ := g.ent i hi (by intro h0; rw [h0] at hne; exact hne rfl)
    exact ⟨k, v, hk1, hk2, by rw [hneed, hk3]⟩
  · intro i hi
    simp only at hi ⊢
    rw [hinfo i hi]; have := g.byte i hi; omega
  · intro _ i hi
    simp only at hi ⊢
    rw [hinfo i hi]; have := g.byte i hi; omega
  · intro i hi hb
    simp only at hi hb ⊢
    rw [hinfo i hi] at hb ⊢
    obtain ⟨h4, h5⟩ := g.ord i hi (by omega)
    refine ⟨h4, ?_⟩
    rw [hinfo (i - 1) (by omega)]
    omega
  · simp only
    rw [g.num]
    congr 1
    ext i
    simp only [occ, Finset.mem_filter, Finset.mem_range]
    constructor
    · rintro ⟨h4, h5⟩
      exact ⟨h4, by rw [hinfo i h4]; exact hz i h4 h5⟩
    · rintro ⟨h4, h5⟩
      refine ⟨h4, fun h0 => h5 ?_⟩
      rw [hinfo i h4, h0]

/-- With 126 or fewer elements no info byte is nearly full once the increment is 2. -/
theorem not_full (g : Good hash t) (hi : t.inc ≤ 2) (hn : t.num ≤ 126) : ∀ i, i < t.cap → t.info i + t.inc ≤ 255 := by
  intro i hc
  by_cases hz : t.info i = 0
  · omega
  obtain ⟨k, v, h1, h2, h3⟩ := g.ent i hc hz
  have hsub : Finset.Ico (startIdx hash t k) (i + 1) ⊆ occ t := by
    intro j hj
    rw [Finset.mem_Ico] at hj
    rw [occ, Finset.mem_filter, Finset.mem_range]
    refine ⟨by omega, ?_⟩
    have h4 := g.climb h1 (i - j) j (by omega) hj.1
    have h5 := inc_le_need (hash := hash) (t := t) k j
    have h6 := g.inc2
    omega
  have hcard := Finset.card_le_card hsub
  rw [Nat.card_Ico, ← g.num] at hcard
  have h4 := g.start_lt k
  have h5 : t.inc = 2 := by have := g.inc2; omega
  rw [h3, need]
  rw [h5] at h4 ⊢
  omega

end Good

/-- The mark "nearly full" is only set when an info byte is. -/
def Flag (t : Tab K V) : Prop := t.maxAllowed = 0 → ∃ i, i < t.cap ∧ t.info i + t.inc > 255

theorem Good.insertMove_spec (g : Good hash t) {k : K} {v : V} (hn : t.num < calcMax (t.mask + 1))
    (hno : ∀ w, ¬ Has t k w) :
    (insertMove hash t k v = .overflow ∧ t.maxAllowed = 0 ∧ t.inc ≤ 2) ∨
    ∃ t', insertMove hash t k v = .ok t' ∧ Good hash t' ∧ (∀ x w, Has t' x w ↔ (x = k ∧ w = v) ∨ Has t x w) ∧
      t'.num = t.num + 1 ∧ t'.mask = t.mask ∧ Flag t' := by
  have key : ∀ t1 : Tab K V, Good hash t1 → t1.maxAllowed ≠ 0 → t1.num < calcMax (t1.mask + 1) →
      (∀ w, ¬ Has t1 k w) →
      ∃ t', ((skipLoop t1 (t1.cap + 9) (startInfo hash t1 k) (startIdx hash t1 k)).bind fun p =>
        place t1 p.1 p.2 k v) = .ok t' ∧ Good hash t' ∧ (∀ x w, Has t' x w ↔ (x = k ∧ w = v) ∨ Has t1 x w) ∧
        t'.num = t1.num + 1 ∧ t'.mask = t1.mask ∧ Flag t' := by
    intro t1 g1 hma hn1 hno1
    have hs := g1.start_lt_cap k
    obtain ⟨p, hp1, hp2⟩ := g1.skipLoop_spec k (t1.cap + 9) (startIdx hash t1 k) le_rfl (by omega) (by omega)
      (fun j h1 h2 => by omega)
    rw [need_start] at hp1
    obtain ⟨t', h1, h2, _, h3, h4, h5, h6⟩ := g1.place_spec (v := v) hp2 hma hn1 (fun j w hj => hno1 w ⟨j, hj⟩)
    refine ⟨t', by rw [hp1, Res.bind_ok, h1], h2, h3, h4, h5, fun h0 => ?_⟩
    obtain ⟨i, hi1, hi2⟩ := h6 (by omega)
    refine ⟨i, ?_, hi2⟩
    rw [h2.cap, h5, ← g1.cap]; exact hi1
  by_cases hma : t.maxAllowed = 0
  · by_cases hi : t.inc ≤ 2
    · left
      refine ⟨?_, hma, hi⟩
      rw [insertMove, makeRoom, if_pos hma, tryIncreaseInfo, if_pos hi]
      rfl
    · right
      obtain ⟨t1, h1, g1, h2, h3, h4, h5⟩ := g.tryIncrease_spec (by omega)
      have h6 := calcMax_pos (n := t.mask + 1) (by have := g.mask; omega)
      have hhas : ∀ x w, Has t1 x w ↔ Has t x w := fun x w => by unfold Has; rw [h2]
      obtain ⟨t', k1, k2, k3, k4, k5, k6⟩ := key t1 g1 (by omega) (by rw [h3, h4]; exact hn)
        (fun w => by rw [hhas]; exact hno w)
      refine ⟨t', ?_, k2, fun x w => by rw [k3, hhas], by rw [k4, h3], by rw [k5, h4], k6⟩
      rw [insertMove, makeRoom, if_pos hma, h1]
      simp only [Res.bind_ok]
      exact k1
  · right
    obtain ⟨t', k1, k2⟩ := key t g hma hn hno
    refine ⟨t', ?_, k2⟩
    rw [insertMove, makeRoom, if_neg hma, Res.bind_ok]
    exact k1

/-- What `rehashPowerOfTwo` needs of the table it empties. -/
structure Store (t : Tab K V) : Prop where
  live : ∀ i, (∃ k v, t.cells i = .live k v) ↔ i < t.cap ∧ t.info i ≠ 0
  inj : ∀ i j k v w, t.cells i = .live k v → t.cells j = .live k w → i = j
  num : t.num = (occ t).card
  cap : t.cap = calcBuf (t.mask + 1)

theorem Good.store (g : Good hash t) : Store t := ⟨fun _ => g.live_iff, g.inj, g.num, g.cap⟩

/-- Occupied slots below `i`. -/
def occTo (t : Tab K V) (i : Nat) : Finset Nat := (Finset.range i).filter fun j => j < t.cap ∧ t.info j ≠ 0

theorem occTo_cap (t : Tab K V) : occTo t t.cap = occ t := by
  ext i; simp only [occTo, occ, Finset.mem_filter, Finset.mem_range]; tauto

theorem occTo_le (t : Tab K V) (i : Nat) : (occTo t i).card ≤ (occ t).card := by
  apply Finset.card_le_card
  intro j hj
  simp only [occTo, occ, Finset.mem_filter, Finset.mem_range] at hj ⊢
  exact hj.2

theorem occTo_succ (t : Tab K V) (i : Nat) :
    (occTo t (i + 1)).card = (occTo t i).card + if i < t.cap ∧ t.info i ≠ 0 then 1 else 0 := by
  unfold occTo
  rw [Finset.range_add_one, Finset.filter_insert]
  split
  · rw [Finset.card_insert_of_notMem (by simp)]
  · rfl

theorem rehashLoop_spec {old : Tab K V} (so : Store old) : ∀ (m i : Nat) (t : Tab K V), Good hash t → Flag t →
    i + m = old.cap → (∀ x w, Has t x w ↔ ∃ j, j < i ∧ old.cells j = .live x w) → t.num = (occTo old i).card →
    old.num ≤ calcMax (t.mask + 1) →
    (rehashLoop hash old m i t = .overflow ∧ 127 < old.num) ∨
    ∃ t', rehashLoop hash old m i t = .ok t' ∧ Good hash t' ∧ (∀ x w, Has t' x w ↔ Has old x w) ∧
      t'.num = old.num ∧ t'.mask = t.mask ∧ Flag t' := by
  intro m
  induction m with
  | zero =>
    intro i t g hfl hi hh hnum _
    right
    refine ⟨t, rfl, g, fun x w => ?_, ?_, rfl, hfl⟩
    · rw [hh]
      constructor
      · rintro ⟨j, _, hj⟩; exact ⟨j, hj⟩
      · rintro ⟨j, hj⟩
        exact ⟨j, by have := ((so.live j).1 ⟨x, w, hj⟩).1; omega, hj⟩
    · rw [hnum, show i = old.cap by omega, occTo_cap, so.num]
  | succ m ih =>
    intro i t g hfl hi hh hnum hle
    rw [rehashLoop, rdInfo_ok (by omega), Res.bind_ok]
    have hsucc := occTo_succ old i
    by_cases hz : old.info i ≠ 0
    · rw [if_pos hz]
      rw [if_pos ⟨by omega, hz⟩] at hsucc
      obtain ⟨k, v, hk⟩ := (so.live i).2 ⟨by omega, hz⟩
      rw [hk]
      simp only
      have hlt : (occTo old i).card < old.num := by
        have := occTo_le old (i + 1)
        rw [so.num]; omega
      rcases g.insertMove_spec (k := k) (v := v) (by omega) (fun w hw => by
        obtain ⟨j, hj1, hj2⟩ := (hh k w).1 hw
        have := so.inj _ _ _ _ _ hj2 hk
        omega) with ⟨h1, h2, h3⟩ | ⟨t', h1, g', h2, h3, h4, h5⟩
      · left
        refine ⟨by rw [h1]; rfl, ?_⟩
        by_contra hsmall
        obtain ⟨j, hj1, hj2⟩ := hfl h2
        have := g.not_full h3 (by omega) j hj1
        omega
      · rw [h1, Res.bind_ok]
        have := ih (i + 1) t' g' h5 (by omega) (fun x w => by
          rw [h2, hh]
          constructor
          · rintro (⟨rfl, rfl⟩ | ⟨j, hj1, hj2⟩)
            · exact ⟨i, by omega, hk⟩
            · exact ⟨j, by omega, hj2⟩
          · rintro ⟨j, hj1, hj2⟩
            by_cases hji : j = i
            · rw [hji, hk] at hj2; cases hj2; exact .inl ⟨rfl, rfl⟩
            · exact .inr ⟨j, by omega, hj2⟩) (by omega) (by rw [h4]; exact hle)
        rw [h4] at this
        exact this
    · rw [if_neg hz]
      rw [if_neg (by tauto)] at hsucc
      refine ih (i + 1) t g hfl (by omega) (fun x w => ?_) (by omega) hle
      rw [hh]
      constructor
      · rintro ⟨j, hj1, hj2⟩; exact ⟨j, by omega, hj2⟩
      · rintro ⟨j, hj1, hj2⟩
        refine ⟨j, ?_, hj2⟩
        by_contra hji
        have : j = i := by omega
        subst this
        exact hz ((so.live j).1 ⟨x, w, hj2⟩).2

theorem initData_flag (mult : Nat) {n : Nat} (hn : 8 ≤ n) : Flag (initData mult n : Tab K V) := by
  intro h
  have := calcMax_pos hn
  simp only [initData] at h
  omega

theorem rehashPow_spec {old : Tab K V} (so : Store old) (ho : old.mult % 2 = 1) (hm : 7 ≤ old.mask)
    {n : Nat} (hn : 8 ≤ n) (hle : old.num ≤ calcMax n) :
    (rehashPow hash old n = .overflow ∧ 127 < old.num) ∨
    ∃ t', rehashPow hash old n = .ok t' ∧ Good hash t' ∧ (∀ x w, Has t' x w ↔ Has old x w) ∧
      t'.num = old.num ∧ t'.mask + 1 = n ∧ Flag t' := by
  have hcap := so.cap
  have h1 : calcBuf (old.mask + 1) > 1 := by unfold calcBuf; omega
  rw [rehashPow, if_pos h1, ← hcap]
  obtain ⟨g, hh⟩ := initData_good (V := V) hash ho hn
  have hmask : (initData old.mult n : Tab K V).mask + 1 = n := by simp only [initData]; omega
  have := rehashLoop_spec so old.cap 0 (initData old.mult n) g (initData_flag _ hn) (by omega)
    (fun x w => ⟨fun h => absurd h (hh x w), fun ⟨j, hj, _⟩ => by omega⟩) (by simp [initData, occTo])
    (by rw [hmask]; exact hle)
  rcases this with h | ⟨t', h2, h3, h4, h5, h6, h7⟩
  · exact .inl h
  · exact .inr ⟨t', h2, h3, h4, h5, by omega, h7⟩

theorem calcMax_double {n : Nat} (h : 8 ≤ n) : calcMax n < calcMax (n * 2) := by
  unfold calcMax
  norm_num
  split <;> split <;> omega

theorem Good.resize_spec (g : Good hash t) :
    (resize hash t = .overflow ∧ 127 < t.num) ∨
    ∃ t', resize hash t = .ok t' ∧ Good hash t' ∧ (∀ x w, Has t' x w ↔ Has t x w) ∧
      t'.num = t.num ∧ t'.num < calcMax (t'.mask + 1) ∧ Flag t' := by
  have hm := g.mask
  unfold resize
  by_cases h : t.num * 2 < calcMax (t.mask + 1)
  · rw [if_pos h]
    have s := g.store
    have hpos := calcMax_pos (n := t.mask + 1) (by omega)
    have key : ∀ mu, mu % 2 = 1 → (rehashPow hash { t with mult := mu } (t.mask + 1) = .overflow ∧ 127 < t.num) ∨
        ∃ t', rehashPow hash { t with mult := mu } (t.mask + 1) = .ok t' ∧ Good hash t' ∧
          (∀ x w, Has t' x w ↔ Has t x w) ∧ t'.num = t.num ∧ t'.num < calcMax (t'.mask + 1) ∧ Flag t' := by
      intro mu ho
      have s' : Store { t with mult := mu } := ⟨s.live, s.inj, s.num, s.cap⟩
      rcases rehashPow_spec (hash := hash) s' ho hm (n := t.mask + 1) (by omega) (by simp only; omega) with
        h1 | ⟨t', h1, h2, h3, h4, h5, h6⟩
      · exact .inl h1
      · refine .inr ⟨t', h1, h2, h3, h4, ?_, h6⟩
        rw [h4, h5]; simp only; omega
    exact key _ (nextMult_odd g.odd)
  · rw [if_neg h]
    have hd := calcMax_double (n := t.mask + 1) (by omega)
    have hl := g.numLe
    rcases rehashPow_spec (hash := hash) g.store g.odd hm (n := (t.mask + 1) * 2) (by omega) (by omega) with
      h1 | ⟨t', h1, h2, h3, h4, h5, h6⟩
    · exact .inl h1
    · refine .inr ⟨t', h1, h2, h3, h4, ?_, h6⟩
      rw [h4, h5]; omega

/-- A table as the API leaves it: either without memory or good. -/
def Ok (hash : K → Nat) (t : Tab K V) : Prop := Good hash t ∨ Fresh t

theorem Fresh.not_has (f : Fresh t) (x : K) (w : V) : ¬ Has t x w := by
  rintro ⟨i, hi⟩; rw [f.cells i] at hi; cases hi

theorem Good.increaseSize_spec (g : Good hash t) :
    (increaseSize hash t = .overflow ∧ 127 < t.num) ∨
    ∃ t', increaseSize hash t = .ok t' ∧ Good hash t' ∧ (∀ x w, Has t' x w ↔ Has t x w) ∧ t'.num = t.num ∧
      t'.num < calcMax (t'.mask + 1) ∧ Flag t' := by
  have hm := g.mask
  unfold increaseSize
  rw [if_neg (by omega)]
  by_cases h : t.num < calcMax (t.mask + 1)
  · rw [if_pos h]
    by_cases hi : t.inc ≤ 2
    · rw [tryIncreaseInfo, if_pos hi, Res.bind_ok]
      exact g.resize_spec
    · obtain ⟨t', h1, g', h2, h3, h4, h5⟩ := g.tryIncrease_spec (by omega)
      rw [h1, Res.bind_ok]
      refine .inr ⟨t', rfl, g', fun x w => by unfold Has; rw [h2], h3, by rw [h3, h4]; exact h, fun h0 => ?_⟩
      have := calcMax_pos (n := t.mask + 1) (by omega)
      omega
  · rw [if_neg h]
    exact g.resize_spec

section
variable [DecidableEq K]

theorem Fresh.search (f : Fresh t) (k : K) :
    nextWhileLess t (t.cap + 9) (startInfo hash t k) (startIdx hash t k)
      = .ok (startInfo hash t k, startIdx hash t k) ∧
    matchLoop t k (t.cap + 9) (startInfo hash t k) (startIdx hash t k)
      = .ok (none, startInfo hash t k, startIdx hash t k) := by
  have h0 : startIdx hash t k = 0 := by unfold startIdx; rw [f.mask]; simp
  have h1 : startInfo hash t k ≠ 0 := by
    unfold startInfo; rw [f.inc]; exact Nat.ne_of_gt (Nat.lt_of_lt_of_le (by norm_num) (Nat.le_add_right 32 _))
  rw [h0]
  constructor
  · rw [nextWhileLess, rdInfo_ok (by omega), Res.bind_ok, f.info, if_neg (by omega)]
  · rw [matchLoop, rdInfo_ok (by omega), Res.bind_ok, f.info, if_neg h1]

/-- Outcome of the retry loop of an insertion. -/
def InsertOutcome (hash : K → Nat) (t : Tab K V) (k : K) (v : V) (r : Res (Tab K V × Nat × Bool)) : Prop :=
  (∃ t' i w, r = .ok (t', i, true) ∧ Good hash t' ∧ t'.cells i = .live k w ∧ (∀ x u, Has t' x u ↔ Has t x u) ∧
    t'.num = t.num) ∨
  (∃ t' i, r = .ok (t', i, false) ∧ Good hash t' ∧ (∀ w, ¬ Has t k w) ∧
    (∀ x u, Has t' x u ↔ (x = k ∧ u = v) ∨ Has t x u) ∧ t'.num = t.num + 1) ∨
  (r = .overflow ∧ ∀ w, ¬ Has t k w)

omit [DecidableEq K] in
theorem InsertOutcome.congr {t1 : Tab K V} {k : K} {v : V} {r : Res (Tab K V × Nat × Bool)}
    (h : InsertOutcome hash t1 k v r) (hh : ∀ x w, Has t1 x w ↔ Has t x w) (hn : t1.num = t.num) :
    InsertOutcome hash t k v r := by
  rcases h with ⟨t', i, w, h1, h2, h3, h4, h5⟩ | ⟨t', i, h1, h2, h3, h4, h5⟩ | ⟨h1, h2⟩
  · exact .inl ⟨t', i, w, h1, h2, h3, fun x u => by rw [h4, hh], by rw [h5, hn]⟩
  · exact .inr (.inl ⟨t', i, h1, h2, fun w => by rw [← hh]; exact h3 w, fun x u => by rw [h4, hh], by rw [h5, hn]⟩)
  · exact .inr (.inr ⟨h1, fun w => by rw [← hh]; exact h2 w⟩)

theorem Good.insertLoop_succ (g : Good hash t) (k : K) (v : V) (n : Nat) :
    (∃ i w, insertLoop hash k v (n + 1) t = .ok (t, i, true) ∧ t.cells i = .live k w) ∨
    ((∀ w, ¬ Has t k w) ∧
      ((t.num ≥ t.maxAllowed ∧ insertLoop hash k v (n + 1) t = (increaseSize hash t).bind (insertLoop hash k v n)) ∨
       (t.num < t.maxAllowed ∧ ∃ t' i, insertLoop hash k v (n + 1) t = .ok (t', i, false) ∧ Good hash t' ∧
          t'.num = t.num + 1 ∧ ∀ x u, Has t' x u ↔ (x = k ∧ u = v) ∨ Has t x u))) := by
  obtain ⟨i, h1, h2⟩ := g.search_spec k
  rw [insertLoop, h1, Res.bind_ok]
  rcases h2 with ⟨j, w, h3, h4⟩ | ⟨p, h3, h4, h5⟩
  · left
    simp only [h3, Res.bind_ok]
    exact ⟨j, w, rfl, h4⟩
  · right
    refine ⟨fun w ⟨j, hj⟩ => h5 j w hj, ?_⟩
    simp only [h3, Res.bind_ok]
    by_cases h : t.num ≥ t.maxAllowed
    · left; exact ⟨h, by rw [if_pos h]⟩
    · right
      refine ⟨by omega, ?_⟩
      rw [if_neg h]
      obtain ⟨t', k1, k2, _, k3, k4, _, _⟩ := g.place_spec (v := v) h4 (by omega)
        (by rcases g.allowed with h' | h' <;> omega) h5
      exact ⟨t', p, by rw [k1]; rfl, k2, k4, k3⟩

theorem Good.insertLoop_spec (k : K) (v : V) : ∀ (n : Nat) (t : Tab K V), Good hash t → 
    insertLoop hash k v n t ≠ .ub ∧ (1 ≤ n → InsertOutcome hash t k v (insertLoop hash k v n t)) := by
  intro n
  induction n with
  | zero => intro t _; exact ⟨by simp [insertLoop], fun h => by omega⟩
  | succ n ih =>
    intro t g
    suffices h : InsertOutcome hash t k v (insertLoop hash k v (n + 1) t) by
      refine ⟨?_, fun _ => h⟩
      rcases h with ⟨t', i, w, h1, _⟩ | ⟨t', i, h1, _⟩ | ⟨h1, _⟩ <;> rw [h1] <;> simp
    rcases g.insertLoop_succ k v n with ⟨i, w, h1, h2⟩ | ⟨hno, ⟨_, h2⟩ | ⟨_, t', i, h2, h3, h4, h5⟩⟩
    · exact .inl ⟨t, i, w, h1, g, h2, fun _ _ => Iff.rfl, rfl⟩
    · rw [h2]
      rcases g.increaseSize_spec with ⟨h3, _⟩ | ⟨t1, h3, g1, h4, h5, _, _⟩
      · rw [h3]; exact .inr (.inr ⟨rfl, hno⟩)
      · rw [h3, Res.bind_ok]
        cases n with
        | zero => exact .inr (.inr ⟨rfl, hno⟩)
        | succ n => exact ((ih t1 g1).2 (by omega)).congr h4 h5
    · exact .inr (.inl ⟨t', i, h2, h3, hno, h5, h4⟩)

/-- Few elements: three rounds are enough. -/
theorem Good.insertLoop_no_overflow (k : K) (v : V) (n : Nat) :
    (∀ t : Tab K V, Good hash t → t.maxAllowed ≠ 0 → t.num < calcMax (t.mask + 1) →
      insertLoop hash k v (n + 1) t ≠ .overflow) ∧
    (∀ t : Tab K V, Good hash t → Flag t → t.num ≤ 126 → t.num < calcMax (t.mask + 1) →
      insertLoop hash k v (n + 2) t ≠ .overflow) ∧
    (∀ t : Tab K V, Good hash t → t.num ≤ 126 → insertLoop hash k v (n + 3) t ≠ .overflow) := by
  have h1 : ∀ (n : Nat) (t : Tab K V), Good hash t → t.maxAllowed ≠ 0 → t.num < calcMax (t.mask + 1) →
      insertLoop hash k v (n + 1) t ≠ .overflow := by
    intro n t g hma hn
    rcases g.insertLoop_succ k v n with ⟨i, w, h, _⟩ | ⟨_, ⟨h, _⟩ | ⟨_, t', i, h, _⟩⟩
    · rw [h]; simp
    · rcases g.allowed with h' | h' <;> omega
    · rw [h]; simp
  have h2 : ∀ (n : Nat) (t : Tab K V), Good hash t → Flag t → t.num ≤ 126 → t.num < calcMax (t.mask + 1) →
      insertLoop hash k v (n + 2) t ≠ .overflow := by
    intro n t g hfl h126 hn
    by_cases hma : t.maxAllowed ≠ 0
    · exact h1 (n + 1) t g hma hn
    · push Not at hma
      have hinc : 2 < t.inc := by
        by_contra hle
        obtain ⟨i, hi1, hi2⟩ := hfl hma
        have := g.not_full (by omega) h126 i hi1
        omega
      rcases g.insertLoop_succ k v (n + 1) with ⟨i, w, h, _⟩ | ⟨_, ⟨h, h'⟩ | ⟨_, t', i, h, _⟩⟩
      · rw [h]; simp
      · rw [h']
        obtain ⟨t1, k1, g1, k2, k3, k4, k5⟩ := g.tryIncrease_spec hinc
        have hm := g.mask
        have hpos := calcMax_pos (n := t.mask + 1) (by omega)
        rw [increaseSize, if_neg (by omega), if_pos hn, k1]
        simp only [Res.bind_ok]
        exact h1 n t1 g1 (by omega) (by rw [k3, k4]; exact hn)
      · rw [h]; simp
  refine ⟨h1 n, h2 n, fun t g h126 => ?_⟩
  rcases g.insertLoop_succ k v (n + 2) with ⟨i, w, h, _⟩ | ⟨_, ⟨h, h'⟩ | ⟨_, t', i, h, _⟩⟩
  · rw [h]; simp
  · rw [h']
    rcases g.increaseSize_spec with ⟨_, h3⟩ | ⟨t1, h3, g1, h4, h5, h6, h7⟩
    · omega
    · rw [h3, Res.bind_ok]
      exact h2 n t1 g1 h7 (by omega) h6
  · rw [h]; simp

theorem Fresh.insertLoop_eq (f : Fresh t) (k : K) (v : V) (n : Nat) :
    insertLoop hash k v (n + 1) t = insertLoop hash k v n (initData t.mult 8) := by
  obtain ⟨h1, h2⟩ := f.search (hash := hash) k
  rw [insertLoop, h1, Res.bind_ok]
  simp only [h2, Res.bind_ok]
  rw [if_pos (by rw [f.maxAllowed]; omega), increaseSize, if_pos f.mask, Res.bind_ok]

theorem Ok.insertLoop_spec (o : Ok hash t) (k : K) (v : V) :
    InsertOutcome hash t k v (insertLoop hash k v 256 t) ∧
      (t.num ≤ 126 → insertLoop hash k v 256 t ≠ .overflow) := by
  rcases o with g | f
  · exact ⟨(Good.insertLoop_spec k v 256 t g).2 (by omega), (Good.insertLoop_no_overflow k v 253).2.2 t g⟩
  · rw [f.insertLoop_eq]
    obtain ⟨g, hh⟩ := initData_good (V := V) hash f.odd (n := 8) le_rfl
    refine ⟨((Good.insertLoop_spec k v 255 _ g).2 (by omega)).congr (fun x w => ?_) ?_, fun _ => ?_⟩
    · exact ⟨fun h => absurd h (hh x w), fun h => absurd h (f.not_has x w)⟩
    · rw [f.num]; rfl
    · exact (Good.insertLoop_no_overflow k v 252).2.2 _ g (by simp [initData])

/-! ### Removal -/

theorem Good.eraseLoop_spec (g : Good hash t) (k : K) : ∀ (f i : Nat), startIdx hash t k ≤ i → i < t.cap →
    t.cap < f + i → (∀ j v, j < i → t.cells j ≠ .live k v) →
    (∃ t' v, eraseLoop t k f (need hash t k i) i = .ok (t', true) ∧ Has t k v ∧ Good hash t' ∧
      (∀ x w, Has t' x w ↔ x ≠ k ∧ Has t x w) ∧ t'.num + 1 = t.num) ∨
    (eraseLoop t k f (need hash t k i) i = .ok (t, false) ∧ ∀ v, ¬ Has t k v) := by
  intro f
  induction f with
  | zero => intro i _ _ h; omega
  | succ f ih =>
    intro i hs hc hf hno
    rw [eraseLoop]
    rcases g.probe_spec k hs (show i < t.cap + 8 by omega) with ⟨h1, v, h2⟩ | ⟨h1, h2⟩
    · left
      obtain ⟨t', k1, k2, k3, k4⟩ := g.remove_spec h2
      rw [h1, Res.bind_ok, if_pos rfl, k1, Res.bind_ok]
      exact ⟨_, v, rfl, ⟨i, h2⟩, k2, k3, k4⟩
    · rw [h1, Res.bind_ok, if_neg (by simp), ← need_succ hash t k hs, rdInfo_ok (by omega), Res.bind_ok]
      have hno2 : ∀ j v, j < i + 1 → t.cells j ≠ .live k v := by
        intro j v hj hcell
        by_cases hj1 : j < i
        · exact hno j v hj1 hcell
        · exact h2 v ((show j = i by omega) ▸ hcell)
      by_cases h : need hash t k (i + 1) ≤ t.info (i + 1)
      · rw [if_pos h]
        have := g.pos_le_cap (k := k) (i := i + 1) (by omega) h
        exact ih (i + 1) (by omega) this (by omega) hno2
      · rw [if_neg h]
        refine .inr ⟨rfl, fun v ⟨j, hj⟩ => ?_⟩
        by_cases hji : j < i + 1
        · exact hno2 j v hji hj
        · exact h (g.climb hj (j - (i + 1)) (i + 1) (by omega) (by omega))

theorem Good.erase_spec (g : Good hash t) (k : K) :
    (∃ t' v, erase hash t k = .ok (t', true) ∧ Has t k v ∧ Good hash t' ∧
      (∀ x w, Has t' x w ↔ x ≠ k ∧ Has t x w) ∧ t'.num + 1 = t.num) ∨
    (erase hash t k = .ok (t, false) ∧ ∀ v, ¬ Has t k v) := by
  have := g.eraseLoop_spec k (t.cap + 9) (startIdx hash t k) le_rfl (g.start_lt_cap k)
    (by omega) (fun j v hj hc => by have := (g.live_info hc).1; omega)
  rw [need_start] at this
  exact this

theorem Fresh.find_eq (f : Fresh t) (k : K) : find hash t k = .ok none ∧ erase hash t k = .ok (t, false) := by
  have h0 : startIdx hash t k = 0 := by unfold startIdx; rw [f.mask]; simp
  have h1 : ∀ i, startInfo hash t k + i ≠ 0 := by
    intro i
    unfold startInfo; rw [f.inc]
    exact Nat.ne_of_gt (Nat.lt_of_lt_of_le (by norm_num)
      (le_trans (Nat.le_add_right 32 _) (Nat.le_add_right _ i)))
  have h2 := h1 0
  simp only [Nat.add_zero] at h2
  have hp : ∀ i s, i < 8 → s ≠ 0 → probe t k s i = .ok false := by
    intro i s hi hs
    rw [probe, rdInfo_ok (by omega), Res.bind_ok, f.info, if_neg hs]
  constructor
  · rw [find, findIdx, h0, findLoop, hp 0 _ (by omega) h2, Res.bind_ok, if_neg (by simp),
      hp 1 _ (by omega) (h1 _), Res.bind_ok, if_neg (by simp), rdInfo_ok (by omega), Res.bind_ok, f.info,
      if_neg (by have := h1 (t.inc + t.inc); omega)]
    rfl
  · rw [erase, h0, eraseLoop, hp 0 _ (by omega) h2, Res.bind_ok, if_neg (by simp), rdInfo_ok (by omega), Res.bind_ok,
      f.info, if_neg (by have := h1 t.inc; omega)]

end

/-! ### Clearing -/

theorem Ok.clear_spec (o : Ok hash t) :
    Ok hash (clear t) ∧ (∀ x w, ¬ Has (clear t) x w) ∧ (clear t).num = 0 := by
  rcases o with g | f
  · unfold clear
    by_cases h : t.num = 0
    · rw [if_pos h]
      refine ⟨.inl g, ?_, h⟩
      rintro x w ⟨i, hi⟩
      have h1 := g.live_iff.1 ⟨x, w, hi⟩
      have h2 := g.num
      rw [h] at h2
      have h3 := Finset.card_eq_zero.1 h2.symm
      have : i ∈ occ t := by rw [occ, Finset.mem_filter, Finset.mem_range]; exact h1
      rw [h3] at this
      simp at this
    · rw [if_neg h]
      refine ⟨.inl ?_, ?_, rfl⟩
      · rw [← g.cap]
        refine ⟨g.odd, g.mask, rfl, by simp, g.cap, by simp, ?_, fun _ _ => rfl, ?_, ?_, ?_, ?_, ?_, ?_, ?_, g.allowed⟩
        · intro i hi
          simp only at hi ⊢
          rw [if_neg (by omega)]
        · intro i hi hne
          simp only at hi hne
          rw [if_neg (by omega)] at hne
          exact absurd rfl hne
        · intro i hi
          simp only at hi ⊢
          rw [if_neg (by omega)]; omega
        · intro _ i hi
          simp only at hi ⊢
          rw [if_neg (by omega)]; omega
        · intro i hi hb
          simp only at hi hb
          rw [if_neg (by omega)] at hb
          omega
        · intro i j k v w h
          simp at h
        · refine (Finset.card_eq_zero.2 (Finset.eq_empty_iff_forall_notMem.2 fun i hi => ?_)).symm
          rw [occ, Finset.mem_filter, Finset.mem_range] at hi
          exact hi.2 (if_neg (by have := hi.1; simp only at this; omega))
        · simp
      · rintro x w ⟨i, hi⟩
        simp at hi
  · unfold clear
    rw [if_pos f.num]
    exact ⟨.inr f, f.not_has, f.num⟩

/-! ### Reserving and compacting -/

theorem growSize_spec (want : Nat) : ∀ (f n m : Nat), 8 ≤ n → growSize want f n = .ok m → 8 ≤ m ∧ want ≤ calcMax m := by
  intro f
  induction f with
  | zero => intro n m _ h; simp [growSize] at h
  | succ f ih =>
    intro n m hn h
    rw [growSize] at h
    by_cases h1 : calcMax n < want
    · rw [if_pos h1] at h
      exact ih (n * 2) m (by omega) h
    · rw [if_neg h1] at h
      cases h
      exact ⟨hn, by omega⟩

theorem growSize_ne_ub (want : Nat) : ∀ (f n : Nat), growSize want f n ≠ .ub := by
  intro f
  induction f with
  | zero => intro n; simp [growSize]
  | succ f ih =>
    intro n
    rw [growSize]
    split
    · exact ih _
    · simp

theorem Ok.rehash_spec (o : Ok hash t) {n : Nat} (hn : 8 ≤ n) (hle : t.num ≤ calcMax n) :
    (rehashPow hash t n = .overflow ∧ 127 < t.num) ∨
    ∃ t', rehashPow hash t n = .ok t' ∧ Ok hash t' ∧ (∀ x w, Has t' x w ↔ Has t x w) ∧ t'.num = t.num := by
  rcases o with g | f
  · rcases rehashPow_spec (hash := hash) g.store g.odd g.mask hn hle with h | ⟨t', h1, h2, h3, h4, _, _⟩
    · exact .inl h
    · exact .inr ⟨t', h1, .inl h2, h3, h4⟩
  · right
    obtain ⟨g, hh⟩ := initData_good (V := V) hash f.odd hn
    refine ⟨initData t.mult n, ?_, .inl g, fun x w => ?_, by rw [f.num]; rfl⟩
    · rw [rehashPow, if_neg (by rw [f.mask]; decide)]
    · exact ⟨fun h => absurd h (hh x w), fun h => absurd h (f.not_has x w)⟩

theorem Ok.reserve_spec (o : Ok hash t) (c : Nat) (force : Bool) :
    reserve hash t c force = .overflow ∨
    ∃ t', reserve hash t c force = .ok t' ∧ Ok hash t' ∧ (∀ x w, Has t' x w ↔ Has t x w) ∧ t'.num = t.num := by
  unfold reserve
  cases h : growSize (max c t.num) 61 8 with
  | ub => exact absurd h (growSize_ne_ub _ _ _)
  | overflow => exact .inl rfl
  | ok n =>
    obtain ⟨h1, h2⟩ := growSize_spec _ _ _ _ le_rfl h
    rw [Res.bind_ok]
    split
    · rcases o.rehash_spec h1 (by omega) with ⟨h3, _⟩ | h3
      · exact .inl h3
      · exact .inr h3
    · exact .inr ⟨t, rfl, o, fun _ _ => Iff.rfl, rfl⟩

theorem Ok.compact_spec (o : Ok hash t) :
    compact hash t = .overflow ∨
    ∃ t', compact hash t = .ok t' ∧ Ok hash t' ∧ (∀ x w, Has t' x w ↔ Has t x w) ∧ t'.num = t.num := by
  unfold compact
  cases h : growSize t.num 61 8 with
  | ub => exact absurd h (growSize_ne_ub _ _ _)
  | overflow => exact .inl rfl
  | ok n =>
    obtain ⟨h1, h2⟩ := growSize_spec _ _ _ _ le_rfl h
    rw [Res.bind_ok]
    split
    · rcases o.rehash_spec h1 h2 with ⟨h3, _⟩ | h3
      · exact .inl h3
      · exact .inr h3
    · exact .inr ⟨t, rfl, o, fun _ _ => Iff.rfl, rfl⟩

end Verif.RobinHood
