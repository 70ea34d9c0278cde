import Verif.RobinHood.Inv

/-!
# Insertion and removal of one node preserve the invariant
-/
namespace Verif.RobinHood

variable {K V : Type} {hash : K → Nat} {t : Tab K V}

theorem startIdx_congr {t t' : Tab K V} (h1 : t'.mult = t.mult) (h2 : t'.mask = t.mask) (k : K) :
    startIdx hash t' k = startIdx hash t k := by unfold startIdx; rw [h1, h2]

theorem startInfo_congr {t t' : Tab K V} (h1 : t'.mult = t.mult) (h2 : t'.inc = t.inc) (h3 : t'.shift = t.shift)
    (k : K) : startInfo hash t' k = startInfo hash t k := by unfold startInfo; rw [h1, h2, h3]

theorem need_congr {t t' : Tab K V} (h1 : t'.mult = t.mult) (h2 : t'.mask = t.mask) (h3 : t'.inc = t.inc)
    (h4 : t'.shift = t.shift) (k : K) (i : Nat) : need hash t' k i = need hash t k i := by
  unfold need; rw [startIdx_congr h1 h2, startInfo_congr h1 h3 h4, h3]

theorem calcMax_pos {n : Nat} (h : 8 ≤ n) : 6 ≤ calcMax n := by
  unfold calcMax
  split
  · omega
  · rename_i hn
    norm_num at hn ⊢
    omega

namespace Good

theorem inc_le (g : Good hash t) : t.inc ≤ 32 := by
  have h := g.incShift
  have : 1 ≤ 2 ^ t.shift := Nat.one_le_two_pow
  nlinarith

/-- As long as the table is not full, the last slot is empty. -/
theorem last_empty (g : Good hash t) (hn : t.num < calcMax (t.mask + 1)) : t.info (t.cap - 1) = 0 := by
  by_contra hne
  have hm := g.mask_lt_cap
  obtain ⟨k, v, hc, hs, hi⟩ := g.ent (t.cap - 1) (by omega) hne
  have hcap := g.cap
  unfold calcBuf at hcap
  have hsm := startIdx_le hash t k
  by_cases hbig : 255 ≤ calcMax (t.mask + 1)
  · rw [Nat.min_eq_right hbig] at hcap
    have hb := g.byte (t.cap - 1) (by omega)
    rw [hi] at hb
    unfold need at hb
    have h1 : 255 ≤ t.cap - 1 - startIdx hash t k := by omega
    have h2 : t.inc * 255 ≤ t.inc * (t.cap - 1 - startIdx hash t k) := Nat.mul_le_mul_left _ h1
    have h3 := g.inc2
    have h4 := inc_le_start (hash := hash) (t := t) k
    omega
  · rw [Nat.min_eq_left (by omega)] at hcap
    have hsub : Finset.Ico (startIdx hash t k) t.cap ⊆ occ t := by
      intro i hi
      rw [Finset.mem_Ico] at hi
      rw [occ, Finset.mem_filter, Finset.mem_range]
      refine ⟨hi.2, ?_⟩
      have h1 := g.climb hc (t.cap - 1 - i) i (by omega) hi.1
      have h2 := inc_le_need (hash := hash) (t := t) k i
      have h3 := g.inc2
      omega
    have := Finset.card_le_card hsub
    rw [Nat.card_Ico, ← g.num] at this
    omega

theorem pos_lt_cap (g : Good hash t) (hn : t.num < calcMax (t.mask + 1)) {k : K} {p : Nat}
    (hp : IsPos hash t k p) : p < t.cap := by
  by_contra hc
  have h1 := hp.2.1 (t.cap - 1) (by have := g.start_lt_cap k; omega) (by have := g.mask_lt_cap; omega)
  rw [g.last_empty hn] at h1
  have h2 := inc_le_need (hash := hash) (t := t) k (t.cap - 1)
  have h3 := g.inc2
  omega

theorem exists_empty (g : Good hash t) (hn : t.num < calcMax (t.mask + 1)) {p : Nat} (hp : p < t.cap) :
    ∃ e, p ≤ e ∧ e < t.cap ∧ t.info e = 0 ∧ ∀ i, p ≤ i → i < e → t.info i ≠ 0 := by
  classical
  have hex : ∃ e, p ≤ e ∧ t.info e = 0 := ⟨t.cap - 1, by omega, g.last_empty hn⟩
  refine ⟨Nat.find hex, (Nat.find_spec hex).1, ?_, (Nat.find_spec hex).2, fun i h1 h2 h3 => ?_⟩
  · have := Nat.find_min' hex ⟨show p ≤ t.cap - 1 by omega, g.last_empty hn⟩
    omega
  · exact Nat.find_min hex h2 ⟨h1, h3⟩

/-- The insertion index holds an info byte that fits. -/
theorem pos_byte (g : Good hash t) (hma : t.maxAllowed ≠ 0) {k : K} {p : Nat} (hp : IsPos hash t k p)
    (hc : p < t.cap) : need hash t k p < 256 := by
  by_cases h : p = startIdx hash t k
  · rw [h, need_start]
    have := g.start_lt k
    have := g.inc_le
    omega
  · have h0 := hp.1
    obtain ⟨q, rfl⟩ : ∃ q, p = q + 1 := ⟨p - 1, by omega⟩
    rw [need_succ hash t k (by omega)]
    have h1 := hp.2.1 q (by omega) (by omega)
    have h2 := g.slack hma q (by omega)
    omega

/-- Putting a new key at its position. -/
theorem place_good (g : Good hash t) {k : K} {v : V} {p e : Nat} (hp : IsPos hash t k p) (hpe : p ≤ e)
    (hcap : e < t.cap) (he : t.info e = 0) (hne : ∀ i, p ≤ i → i < e → t.info i ≠ 0)
    (hma : t.maxAllowed ≠ 0) (hn : t.num < calcMax (t.mask + 1)) (hno : ∀ j w, t.cells j ≠ .live k w)
    {ma : Nat} (hma1 : ma = 0 ∨ ma = t.maxAllowed)
    (hma2 : ma ≠ 0 → need hash t k p + t.inc ≤ 255 ∧ ∀ i, p ≤ i → i < e → t.info i + t.inc + t.inc ≤ 255)
    {t' : Tab K V} (e1 : t'.mult = t.mult) (e2 : t'.mask = t.mask) (e3 : t'.inc = t.inc) (e4 : t'.shift = t.shift)
    (e5 : t'.cap = t.cap) (e6 : t'.num = t.num + 1) (e7 : t'.maxAllowed = ma)
    (e8 : ∀ i, t'.info i = if i = p then need hash t k p
      else if p < i ∧ i ≤ e then t.info (i - 1) + t.inc else t.info i)
    (e9 : ∀ i, t'.cells i = if i = p then (Cell.live k v)
      else if p < i ∧ i ≤ e then (t.cells (i - 1)) else t.cells i) :
    Good hash t' ∧ ∀ x w, Has t' x w ↔ (x = k ∧ w = v) ∨ Has t x w := by
  have hinc := g.inc2
  have hsb := g.pos_byte hma hp (by omega)
  have hs0 := inc_le_need (hash := hash) (t := t) k p
  have hneed : ∀ x i, need hash t' x i = need hash t x i := need_congr e1 e2 e3 e4
  have hstart : ∀ x, startIdx hash t' x = startIdx hash t x := startIdx_congr e1 e2
  have iP : t'.info p = need hash t k p := by rw [e8, if_pos rfl]
  have iM : ∀ i, p < i → i ≤ e → t'.info i = t.info (i - 1) + t.inc := fun i h1 h2 => by
    rw [e8, if_neg (by omega), if_pos ⟨h1, h2⟩]
  have iO : ∀ i, i < p ∨ e < i → t'.info i = t.info i := fun i h => by
    rw [e8, if_neg (by omega), if_neg (by omega)]
  have cP : t'.cells p = .live k v := by rw [e9, if_pos rfl]
  have cM : ∀ i, p < i → i ≤ e → t'.cells i = t.cells (i - 1) := fun i h1 h2 => by
    rw [e9, if_neg (by omega), if_pos ⟨h1, h2⟩]
  have cO : ∀ i, i < p ∨ e < i → t'.cells i = t.cells i := fun i h => by
    rw [e9, if_neg (by omega), if_neg (by omega)]
  have hcases : ∀ i, i = p ∨ (p < i ∧ i ≤ e) ∨ (i < p ∨ e < i) := fun i => by omega
  have hde : t.cells e = .dead := g.dead e (.inr he)
  refine ⟨⟨by rw [e1]; exact g.odd, ?_, ?_, ?_, ?_, ?_, ?_, ?_, ?_, ?_, ?_, ?_, ?_, ?_, ?_, ?_⟩, ?_⟩
  · rw [e2]; exact g.mask
  · rw [e3, e4]; exact g.incShift
  · rw [e3]; exact g.inc2
  · rw [e5, e2]; exact g.cap
  · rw [e5, iO _ (by omega)]; exact g.sent
  · intro i hi
    rw [e5] at hi
    rw [iO _ (by omega)]; exact g.pad i hi
  · intro i hi
    rw [e5] at hi
    rcases hcases i with h | h | h
    · subst h; rw [iP] at hi; omega
    · rw [iM i h.1 h.2] at hi; omega
    · rw [iO i h] at hi; rw [cO i h]; exact g.dead i hi
  · intro i hi hz
    rw [e5] at hi
    rcases hcases i with h | h | h
    · subst h
      exact ⟨k, v, cP, by rw [hstart]; exact hp.1, by rw [hneed]; exact iP⟩
    · obtain ⟨x, w, h1, h2, h3⟩ := g.ent (i - 1) (by omega) (hne (i - 1) (by omega) (by omega))
      refine ⟨x, w, by rw [cM i h.1 h.2, h1], by rw [hstart]; omega, ?_⟩
      rw [hneed, iM i h.1 h.2, h3, ← need_succ hash t x h2]
      congr 1; omega
    · rw [iO i h] at hz
      obtain ⟨x, w, h1, h2, h3⟩ := g.ent i hi hz
      exact ⟨x, w, by rw [cO i h, h1], by rw [hstart]; exact h2, by rw [hneed, iO i h, h3]⟩
  · intro i hi
    rw [e5] at hi
    rcases hcases i with h | h | h
    · subst h; rw [iP]; omega
    · rw [iM i h.1 h.2]; exact g.slack hma (i - 1) (by omega)
    · rw [iO i h]; exact g.byte i hi
  · intro hz i hi
    rw [e7] at hz
    rw [e5] at hi
    obtain ⟨h1, h2⟩ := hma2 hz
    rw [e3]
    rcases hcases i with h | h | h
    · subst h; rw [iP]; exact h1
    · rw [iM i h.1 h.2]; exact h2 (i - 1) (by omega) (by omega)
    · rw [iO i h]; exact g.slack hma i hi
  · intro i hi hb
    rw [e5] at hi
    rw [e3] at hb ⊢
    rcases hcases i with h | h | h
    · subst h
      rw [iP] at hb ⊢
      have hgt : startIdx hash t k < i := by
        rcases Nat.lt_or_ge (startIdx hash t k) i with h | h
        · exact h
        · have h' : i = startIdx hash t k := by have := hp.1; omega
          rw [h', need_start] at hb
          have := g.start_lt k
          omega
      refine ⟨by omega, ?_⟩
      rw [iO (i - 1) (by omega)]
      have h1 := hp.2.1 (i - 1) (by omega) (by omega)
      have h2 := need_succ hash t k (i := i - 1) (by omega)
      rw [show i - 1 + 1 = i by omega] at h2
      omega
    · refine ⟨by omega, ?_⟩
      rw [iM i h.1 h.2]
      by_cases hq : i - 1 = p
      · rw [hq, iP]
        have := hp.2.2
        omega
      · rw [iM (i - 1) (by omega) (by omega)]
        have h1 := g.occ_inc (i := i - 1 - 1) (by omega) (hne (i - 1 - 1) (by omega) (by omega))
        by_cases h2 : 2 * t.inc ≤ t.info (i - 1)
        · have := (g.ord (i - 1) (by omega) h2).2
          omega
        · omega
    · rw [iO i h] at hb ⊢
      obtain ⟨h1, h2⟩ := g.ord i hi hb
      refine ⟨h1, ?_⟩
      by_cases hq : i - 1 = e
      · rw [hq, he] at h2; omega
      · rw [iO (i - 1) (by omega)]; exact h2
  · intro i j x w w' h1 h2
    rcases hcases i with hi | hi | hi <;> rcases hcases j with hj | hj | hj
    · omega
    · rw [hi, cP] at h1; cases h1
      rw [cM j hj.1 hj.2] at h2; exact absurd h2 (hno _ _)
    · rw [hi, cP] at h1; cases h1
      rw [cO j hj] at h2; exact absurd h2 (hno _ _)
    · rw [hj, cP] at h2; cases h2
      rw [cM i hi.1 hi.2] at h1; exact absurd h1 (hno _ _)
    · rw [cM i hi.1 hi.2] at h1; rw [cM j hj.1 hj.2] at h2
      have := g.inj _ _ _ _ _ h1 h2
      omega
    · rw [cM i hi.1 hi.2] at h1; rw [cO j hj] at h2
      have := g.inj _ _ _ _ _ h1 h2
      omega
    · rw [hj, cP] at h2; cases h2
      rw [cO i hi] at h1; exact absurd h1 (hno _ _)
    · rw [cO i hi] at h1; rw [cM j hj.1 hj.2] at h2
      have := g.inj _ _ _ _ _ h1 h2
      omega
    · rw [cO i hi] at h1; rw [cO j hj] at h2
      exact g.inj _ _ _ _ _ h1 h2
  · have : occ t' = Insert.insert e (occ t) := by
      ext i
      simp only [occ, Finset.mem_filter, Finset.mem_range, Finset.mem_insert, e5]
      rcases hcases i with h | h | h
      · subst h
        rw [iP]
        constructor
        · intro _
          by_cases h : i = e
          · exact .inl h
          · exact .inr ⟨by omega, hne i le_rfl (by omega)⟩
        · intro _; exact ⟨by omega, by omega⟩
      · rw [iM i h.1 h.2]
        constructor
        · intro _
          by_cases h' : i = e
          · exact .inl h'
          · exact .inr ⟨by omega, hne i (by omega) (by omega)⟩
        · intro _; exact ⟨by omega, by omega⟩
      · rw [iO i h]
        constructor
        · exact .inr
        · rintro (h' | h')
          · omega
          · exact h'
    rw [this, Finset.card_insert_of_notMem (by simp [occ, he]), e6, g.num]
  · rw [e6, e2]; omega
  · rw [e7, e2]; rcases hma1 with h | h
    · exact .inl h
    · rw [h]; exact g.allowed
  · intro x w
    constructor
    · rintro ⟨i, hi⟩
      rcases hcases i with h | h | h
      · rw [h, cP] at hi; cases hi; exact .inl ⟨rfl, rfl⟩
      · rw [cM i h.1 h.2] at hi; exact .inr ⟨_, hi⟩
      · rw [cO i h] at hi; exact .inr ⟨_, hi⟩
    · rintro (⟨rfl, rfl⟩ | ⟨i, hi⟩)
      · exact ⟨p, cP⟩
      · by_cases h : i < p ∨ e < i
        · exact ⟨i, by rw [cO i h]; exact hi⟩
        · have hie : i ≠ e := fun h => by rw [h, hde] at hi; cases hi
          exact ⟨i + 1, by rw [cM (i + 1) (by omega) (by omega)]; exact hi⟩

/-- `place` on a good table. -/
theorem place_spec (g : Good hash t) {k : K} {v : V} {p : Nat} (hp : IsPos hash t k p)
    (hma : t.maxAllowed ≠ 0) (hn : t.num < calcMax (t.mask + 1)) (hno : ∀ j w, t.cells j ≠ .live k w) :
    ∃ t', place t (need hash t k p) p k v = .ok t' ∧ Good hash t' ∧ t'.cells p = .live k v ∧
      (∀ x w, Has t' x w ↔ (x = k ∧ w = v) ∨ Has t x w) ∧ t'.num = t.num + 1 ∧ t'.mask = t.mask ∧
      (t'.maxAllowed ≠ t.maxAllowed → ∃ i, i < t.cap ∧ t'.info i + t'.inc > 255) := by
  have hpc := g.pos_lt_cap hn hp
  obtain ⟨e, h1, h2, h3, h4⟩ := g.exists_empty hn hpc
  obtain ⟨ma, hma1, hma2, hr⟩ := place_eq (t := t) (s := need hash t k p) (k := k) (v := v) h1 h2 h3
    (g.dead e (.inr h3)) h4 (fun i hi1 hi2 => g.live_iff.2 ⟨by omega, h4 i hi1 hi2⟩)
    (fun i hi1 hi2 => by have := g.slack hma i (by omega); omega) (g.pos_byte hma hp hpc)
  have hle : ma = 0 ∨ ma = t.maxAllowed := by rcases hma1 with h | h <;> [exact .inr h; exact .inl h.1]
  obtain ⟨hg, hh⟩ := g.place_good (v := v) hp h1 h2 h3 h4 hma hn hno hle hma2
    (t' := { t with
        info := fun i => if i = p then need hash t k p else if p < i ∧ i ≤ e then t.info (i - 1) + t.inc else t.info i
        cells := fun i => if i = p then (Cell.live k v) else if p < i ∧ i ≤ e then (t.cells (i - 1)) else t.cells i
        num := t.num + 1
        maxAllowed := ma }) rfl rfl rfl rfl rfl rfl rfl (fun _ => rfl) (fun _ => rfl)
  refine ⟨_, hr, hg, by simp, hh, rfl, rfl, ?_⟩
  intro hne
  simp only at hne
  rcases hma1 with h | ⟨_, h | ⟨i, h5, h6, h7⟩⟩
  · exact absurd h hne
  · exact ⟨p, by omega, by simpa using h⟩
  · refine ⟨i + 1, by omega, ?_⟩
    simp only
    rw [if_neg (by omega), if_pos (by omega)]
    simpa using h7

/-- Removing the node at `idx`; the run up to `q` moves down. -/
theorem remove_good (g : Good hash t) {k : K} {v : V} {idx q : Nat} (hc : t.cells idx = .live k v) (hq : idx ≤ q)
    (hqc : q < t.cap) (hrun : ∀ i, idx ≤ i → i < q → 2 * t.inc ≤ t.info (i + 1)) (hend : t.info (q + 1) < 2 * t.inc)
    {t' : Tab K V} (e1 : t'.mult = t.mult) (e2 : t'.mask = t.mask) (e3 : t'.inc = t.inc) (e4 : t'.shift = t.shift)
    (e5 : t'.cap = t.cap) (e6 : t'.num = t.num - 1) (e7 : t'.maxAllowed = t.maxAllowed)
    (e8 : ∀ i, t'.info i = if i = q then 0 else if idx ≤ i ∧ i < q then t.info (i + 1) - t.inc else t.info i)
    (e9 : ∀ i, t'.cells i = if i = q then Cell.dead else if idx ≤ i ∧ i < q then (t.cells (i + 1)) else t.cells i) :
    Good hash t' ∧ (∀ x w, Has t' x w ↔ x ≠ k ∧ Has t x w) ∧ t'.num + 1 = t.num := by
  have hinc := g.inc2
  have hneed : ∀ x i, need hash t' x i = need hash t x i := need_congr e1 e2 e3 e4
  have hstart : ∀ x, startIdx hash t' x = startIdx hash t x := startIdx_congr e1 e2
  have iP : t'.info q = 0 := by rw [e8, if_pos rfl]
  have iM : ∀ i, idx ≤ i → i < q → t'.info i = t.info (i + 1) - t.inc := fun i h1 h2 => by
    rw [e8, if_neg (by omega), if_pos ⟨h1, h2⟩]
  have iO : ∀ i, i < idx ∨ q < i → t'.info i = t.info i := fun i h => by
    rw [e8, if_neg (by omega), if_neg (by omega)]
  have cP : t'.cells q = .dead := by rw [e9, if_pos rfl]
  have cM : ∀ i, idx ≤ i → i < q → t'.cells i = t.cells (i + 1) := fun i h1 h2 => by
    rw [e9, if_neg (by omega), if_pos ⟨h1, h2⟩]
  have cO : ∀ i, i < idx ∨ q < i → t'.cells i = t.cells i := fun i h => by
    rw [e9, if_neg (by omega), if_neg (by omega)]
  have hcases : ∀ i, i = q ∨ (idx ≤ i ∧ i < q) ∨ (i < idx ∨ q < i) := fun i => by omega
  have hocc : ∀ i, idx ≤ i → i ≤ q → t.info i ≠ 0 := by
    intro i h1 h2
    by_cases h : i = idx
    · rw [h]; exact (g.live_iff.1 ⟨k, v, hc⟩).2
    · have := hrun (i - 1) (by omega) (by omega)
      rw [show i - 1 + 1 = i by omega] at this
      omega
  have hocc' : occ t' = (occ t).erase q := by
    ext i
    simp only [occ, Finset.mem_filter, Finset.mem_range, Finset.mem_erase, e5]
    rcases hcases i with h | h | h
    · subst h; rw [iP]; simp
    · rw [iM i h.1 h.2]
      have := hrun i h.1 h.2
      exact ⟨fun _ => ⟨by omega, by omega, hocc i h.1 (by omega)⟩, fun _ => ⟨by omega, by omega⟩⟩
    · rw [iO i h]
      exact ⟨fun h' => ⟨by omega, h'⟩, fun h' => h'.2⟩
  have hmem : q ∈ occ t := by
    rw [occ, Finset.mem_filter, Finset.mem_range]; exact ⟨hqc, hocc q hq le_rfl⟩
  have hcard : (occ t').card + 1 = (occ t).card := by rw [hocc']; exact Finset.card_erase_add_one hmem
  have hnum := g.num
  refine ⟨⟨by rw [e1]; exact g.odd, ?_, ?_, ?_, ?_, ?_, ?_, ?_, ?_, ?_, ?_, ?_, ?_, ?_, ?_, ?_⟩, ?_, by omega⟩
  · rw [e2]; exact g.mask
  · rw [e3, e4]; exact g.incShift
  · rw [e3]; exact g.inc2
  · rw [e5, e2]; exact g.cap
  · rw [e5, iO _ (by omega)]; exact g.sent
  · intro i hi
    rw [e5] at hi
    rw [iO _ (by omega)]; exact g.pad i hi
  · intro i hi
    rw [e5] at hi
    rcases hcases i with h | h | h
    · rw [h]; exact cP
    · rw [iM i h.1 h.2] at hi
      have := hrun i h.1 h.2
      omega
    · rw [iO i h] at hi; rw [cO i h]; exact g.dead i hi
  · intro i hi hz
    rw [e5] at hi
    rcases hcases i with h | h | h
    · subst h; exact absurd iP hz
    · have hr := hrun i h.1 h.2
      obtain ⟨x, w, h1, h2, h3⟩ := g.ent (i + 1) (by omega) (by omega)
      have hlt : startIdx hash t x ≤ i := by
        by_contra hgt
        have : i + 1 = startIdx hash t x := by omega
        rw [h3, this, need_start] at hr
        have := g.start_lt x
        omega
      refine ⟨x, w, by rw [cM i h.1 h.2, h1], by rw [hstart]; exact hlt, ?_⟩
      rw [hneed, iM i h.1 h.2, h3, need_succ hash t x hlt]
      omega
    · rw [iO i h] at hz
      obtain ⟨x, w, h1, h2, h3⟩ := g.ent i hi hz
      exact ⟨x, w, by rw [cO i h, h1], by rw [hstart]; exact h2, by rw [hneed, iO i h, h3]⟩
  · intro i hi
    rw [e5] at hi
    rcases hcases i with h | h | h
    · rw [h, iP]; omega
    · rw [iM i h.1 h.2]; have := g.byte (i + 1) (by omega); omega
    · rw [iO i h]; exact g.byte i hi
  · intro hz i hi
    rw [e7] at hz
    rw [e5] at hi
    rw [e3]
    rcases hcases i with h | h | h
    · rw [h, iP]; have := g.inc_le; omega
    · rw [iM i h.1 h.2]; have := g.slack hz (i + 1) (by omega); omega
    · rw [iO i h]; exact g.slack hz i hi
  · intro i hi hb
    rw [e5] at hi
    rw [e3] at hb ⊢
    rcases hcases i with h | h | h
    · rw [h, iP] at hb; omega
    · rw [iM i h.1 h.2] at hb ⊢
      have h0 := g.ord (i + 1) (by omega) (hrun i h.1 h.2)
      simp only [Nat.add_sub_cancel] at h0
      by_cases hi0 : i = idx
      · obtain ⟨h1, h2⟩ := g.ord i hi (by omega)
        refine ⟨h1, ?_⟩
        rw [iO (i - 1) (by omega)]
        omega
      · refine ⟨by omega, ?_⟩
        rw [iM (i - 1) (by omega) (by omega), show i - 1 + 1 = i by omega]
        omega
    · rw [iO i h] at hb ⊢
      obtain ⟨h1, h2⟩ := g.ord i hi hb
      refine ⟨h1, ?_⟩
      by_cases hq' : i - 1 = q
      · rw [← hq', show i - 1 + 1 = i by omega] at hend
        omega
      · rw [iO (i - 1) (by omega)]; exact h2
  · intro i j x w w' h1 h2
    rcases hcases i with hi | hi | hi
    · rw [hi, cP] at h1; cases h1
    all_goals rcases hcases j with hj | hj | hj
    · rw [hj, cP] at h2; cases h2
    · rw [cM i hi.1 hi.2] at h1; rw [cM j hj.1 hj.2] at h2
      have := g.inj _ _ _ _ _ h1 h2
      omega
    · rw [cM i hi.1 hi.2] at h1; rw [cO j hj] at h2
      have := g.inj _ _ _ _ _ h1 h2
      omega
    · rw [hj, cP] at h2; cases h2
    · rw [cO i hi] at h1; rw [cM j hj.1 hj.2] at h2
      have := g.inj _ _ _ _ _ h1 h2
      omega
    · rw [cO i hi] at h1; rw [cO j hj] at h2
      exact g.inj _ _ _ _ _ h1 h2
  · omega
  · rw [e6, e2]; have := g.numLe; omega
  · rw [e7, e2]; exact g.allowed
  · intro x w
    constructor
    · rintro ⟨i, hi⟩
      have hkey : ∀ j, t.cells j = .live x w → j ≠ idx → x ≠ k := by
        intro j hj hne hx
        subst hx
        exact hne (g.inj _ _ _ _ _ hj hc)
      rcases hcases i with h | h | h
      · rw [h, cP] at hi; cases hi
      · rw [cM i h.1 h.2] at hi; exact ⟨hkey _ hi (by omega), _, hi⟩
      · rw [cO i h] at hi; exact ⟨hkey _ hi (by omega), _, hi⟩
    · rintro ⟨hx, i, hi⟩
      have hne : i ≠ idx := fun h => by rw [h, hc] at hi; cases hi; exact hx rfl
      by_cases h : i < idx ∨ q < i
      · exact ⟨i, by rw [cO i h]; exact hi⟩
      · exact ⟨i - 1, by rw [cM (i - 1) (by omega) (by omega), show i - 1 + 1 = i by omega]; exact hi⟩

/-- `shiftDown` followed by `--mNumElements`. -/
theorem remove_spec (g : Good hash t) {k : K} {v : V} {idx : Nat} (hc : t.cells idx = .live k v) :
    ∃ t', shiftDown t idx = .ok t' ∧ Good hash { t' with num := t'.num - 1 } ∧
      (∀ x w, Has { t' with num := t'.num - 1 } x w ↔ x ≠ k ∧ Has t x w) ∧ t'.num - 1 + 1 = t.num := by
  classical
  have hidx := g.live_lt hc
  have hinc := g.inc2
  have hex : ∃ q, idx ≤ q ∧ t.info (q + 1) < 2 * t.inc :=
    ⟨t.cap - 1, by omega, by rw [show t.cap - 1 + 1 = t.cap by omega, g.sent]; omega⟩
  obtain ⟨h1, h2⟩ := Nat.find_spec hex
  have h3 : ∀ i, idx ≤ i → i < Nat.find hex → 2 * t.inc ≤ t.info (i + 1) := by
    intro i hi1 hi2
    by_contra hlt
    exact Nat.find_min hex hi2 ⟨hi1, by omega⟩
  have h4 : Nat.find hex ≤ t.cap - 1 := Nat.find_min' hex
    ⟨by omega, by rw [show t.cap - 1 + 1 = t.cap by omega, g.sent]; omega⟩
  generalize Nat.find hex = q at h1 h2 h3 h4
  have hr := shiftDownLoop_eq q (t.cap + 9) t idx h1 (by omega) (by omega)
    (fun i hi1 hi2 => ⟨h3 i hi1 hi2, g.byte_all _⟩) h2 (by rw [hc]; intro h; cases h)
    (fun i hi1 hi2 => g.live_iff.2 ⟨by omega, by
      have := h3 (i - 1) (by omega) (by omega)
      rw [show i - 1 + 1 = i by omega] at this
      omega⟩)
  obtain ⟨hg, hh, hnum⟩ := g.remove_good hc h1 (by omega) h3 h2 (t' := { t with
      info := fun i => if i = q then 0 else if idx ≤ i ∧ i < q then t.info (i + 1) - t.inc else t.info i
      cells := fun i => if i = q then Cell.dead else if idx ≤ i ∧ i < q then (t.cells (i + 1)) else t.cells i
      num := t.num - 1 }) rfl rfl rfl rfl rfl rfl rfl (fun _ => rfl) (fun _ => rfl)
  exact ⟨_, hr, hg, hh, hnum⟩

end Good
end Verif.RobinHood
