import Verif.RobinHood.Bytes

/-!
# The invariant of the hash table, and what a search finds under it
-/
namespace Verif.RobinHood

variable {K V : Type}

theorem startIdx_le (hash : K → Nat) (t : Tab K V) (k : K) : startIdx hash t k ≤ t.mask := Nat.and_le_right

/-- The info byte a key would have at slot `i`. -/
def need (hash : K → Nat) (t : Tab K V) (k : K) (i : Nat) : Nat :=
  startInfo hash t k + t.inc * (i - startIdx hash t k)

theorem need_start (hash : K → Nat) (t : Tab K V) (k : K) :
    need hash t k (startIdx hash t k) = startInfo hash t k := by simp [need]

theorem need_succ (hash : K → Nat) (t : Tab K V) (k : K) {i : Nat} (h : startIdx hash t k ≤ i) :
    need hash t k (i + 1) = need hash t k i + t.inc := by
  unfold need
  rw [show i + 1 - startIdx hash t k = (i - startIdx hash t k) + 1 by omega]
  ring

/-- Occupied slots. -/
def occ (t : Tab K V) : Finset Nat := (Finset.range t.cap).filter fun i => t.info i ≠ 0

/-- The table holds the entry `(k, v)`. -/
def Has (t : Tab K V) (k : K) (v : V) : Prop := ∃ i, t.cells i = .live k v

/-- Invariant of an allocated table. -/
structure Good (hash : K → Nat) (t : Tab K V) : Prop where
  odd : t.mult % 2 = 1
  mask : 7 ≤ t.mask
  incShift : t.inc * 2 ^ t.shift = 32
  inc2 : 2 ≤ t.inc
  cap : t.cap = calcBuf (t.mask + 1)
  sent : t.info t.cap = 1
  pad : ∀ i, t.cap < i → t.info i = 0
  dead : ∀ i, t.cap ≤ i ∨ t.info i = 0 → t.cells i = .dead
  ent : ∀ i, i < t.cap → t.info i ≠ 0 →
    ∃ k v, t.cells i = .live k v ∧ startIdx hash t k ≤ i ∧ t.info i = need hash t k i
  byte : ∀ i, i < t.cap → t.info i ≤ 255
  slack : t.maxAllowed ≠ 0 → ∀ i, i < t.cap → t.info i + t.inc ≤ 255
  ord : ∀ i, i < t.cap → 2 * t.inc ≤ t.info i → 0 < i ∧ t.info i ≤ t.info (i - 1) + t.inc
  inj : ∀ i j k v w, t.cells i = .live k v → t.cells j = .live k w → i = j
  num : t.num = (occ t).card
  numLe : t.num ≤ calcMax (t.mask + 1)
  allowed : t.maxAllowed = 0 ∨ t.maxAllowed = calcMax (t.mask + 1)

/-- A table without memory of its own. -/
structure Fresh (t : Tab K V) : Prop where
  odd : t.mult % 2 = 1
  cells : ∀ i, t.cells i = .dead
  info : ∀ i, t.info i = 0
  cap : t.cap = 0
  num : t.num = 0
  mask : t.mask = 0
  maxAllowed : t.maxAllowed = 0
  inc : t.inc = 32
  shift : t.shift = 0

section
variable {hash : K → Nat} {t : Tab K V}

/-- The hash bits in the info byte are below the increment. -/
theorem hashBits_lt (h : t.inc * 2 ^ t.shift = 32) (k : K) :
    (mix t.mult (hash k) &&& 31) >>> t.shift < t.inc := by
  rw [Nat.shiftRight_eq_div_pow]
  apply (Nat.div_lt_iff_lt_mul (by positivity)).2
  rw [h]
  exact lt_of_le_of_lt Nat.and_le_right (by omega)

namespace Good

theorem start_lt (g : Good hash t) (k : K) : startInfo hash t k < 2 * t.inc := by
  have := hashBits_lt (hash := hash) g.incShift k
  unfold startInfo; omega

theorem inc_le_start (k : K) : t.inc ≤ startInfo hash t k := Nat.le_add_right _ _

theorem inc_le_need (k : K) (i : Nat) : t.inc ≤ need hash t k i := by
  unfold need; have := inc_le_start (hash := hash) (t := t) k; omega

theorem two_inc_le_need (k : K) {i : Nat} (h : startIdx hash t k < i) : 2 * t.inc ≤ need hash t k i := by
  obtain ⟨j, rfl⟩ : ∃ j, i = j + 1 := ⟨i - 1, by omega⟩
  rw [need_succ hash t k (by omega)]
  have := inc_le_need (hash := hash) (t := t) k j
  omega

theorem mask_lt_cap (g : Good hash t) : t.mask < t.cap := by rw [g.cap, calcBuf]; omega

theorem start_lt_cap (g : Good hash t) (k : K) : startIdx hash t k < t.cap :=
  lt_of_le_of_lt (startIdx_le hash t k) g.mask_lt_cap

theorem live_iff (g : Good hash t) {i : Nat} : (∃ k v, t.cells i = .live k v) ↔ i < t.cap ∧ t.info i ≠ 0 := by
  constructor
  · rintro ⟨k, v, h⟩
    by_contra hno
    rw [g.dead i (by by_cases h1 : t.cap ≤ i <;> [exact .inl h1; exact .inr (by by_contra h0; exact hno ⟨by omega, h0⟩)])] at h
    cases h
  · rintro ⟨h1, h2⟩
    obtain ⟨k, v, h, _⟩ := g.ent i h1 h2
    exact ⟨k, v, h⟩

theorem live_lt (g : Good hash t) {i : Nat} {k : K} {v : V} (h : t.cells i = .live k v) : i < t.cap :=
  (g.live_iff.1 ⟨k, v, h⟩).1

theorem live_info (g : Good hash t) {i : Nat} {k : K} {v : V} (h : t.cells i = .live k v) :
    startIdx hash t k ≤ i ∧ t.info i = need hash t k i := by
  obtain ⟨h1, h2⟩ := g.live_iff.1 ⟨k, v, h⟩
  obtain ⟨k', v', hc, h3, h4⟩ := g.ent i h1 h2
  rw [h] at hc
  cases hc
  exact ⟨h3, h4⟩

theorem byte_all (g : Good hash t) (i : Nat) : t.info i < 256 := by
  by_cases h : i < t.cap
  · have := g.byte i h; omega
  · by_cases h2 : i = t.cap
    · rw [h2, g.sent]; omega
    · rw [g.pad i (by omega)]; omega

theorem occ_inc (g : Good hash t) {i : Nat} (h : i < t.cap) (hne : t.info i ≠ 0) : t.inc ≤ t.info i := by
  obtain ⟨k, v, _, _, h4⟩ := g.ent i h hne
  rw [h4]; exact inc_le_need k i

/-- Between the home slot of a stored key and its slot no info byte is below what the key would have there. -/
theorem climb (g : Good hash t) {j : Nat} {k : K} {v : V} (h : t.cells j = .live k v) :
    ∀ d i, i + d = j → startIdx hash t k ≤ i → need hash t k i ≤ t.info i := by
  intro d
  induction d with
  | zero => intro i hi _; have : i = j := by omega
            subst this; exact le_of_eq (g.live_info h).2.symm
  | succ d ih =>
    intro i hi hs
    have h1 := ih (i + 1) (by omega) (by omega)
    have h2 := two_inc_le_need (hash := hash) (t := t) k (i := i + 1) (by omega)
    have h3 := g.ord (i + 1) (by have := g.live_lt h; omega) (by omega)
    rw [need_succ hash t k hs] at h1
    simp only [Nat.add_sub_cancel] at h3
    omega

end Good

/-- The slot where a key which is not in the table belongs. -/
def IsPos (hash : K → Nat) (t : Tab K V) (k : K) (p : Nat) : Prop :=
  startIdx hash t k ≤ p ∧ (∀ i, startIdx hash t k ≤ i → i < p → need hash t k i ≤ t.info i) ∧
    t.info p < need hash t k p

namespace Good

theorem pos_le_cap (g : Good hash t) {k : K} {i : Nat} (_ : startIdx hash t k ≤ i) (h : need hash t k i ≤ t.info i) :
    i < t.cap := by
  by_contra hc
  have h1 := inc_le_need (hash := hash) (t := t) k i
  have h2 := g.inc2
  by_cases he : i = t.cap
  · rw [he, g.sent] at h; rw [he] at h1; omega
  · rw [g.pad i (by omega)] at h; omega

theorem skipLoop_spec (g : Good hash t) (k : K) : ∀ (f i : Nat), startIdx hash t k ≤ i → i ≤ t.cap → t.cap < f + i →
    (∀ j, startIdx hash t k ≤ j → j < i → need hash t k j ≤ t.info j) →
    ∃ p, skipLoop t f (need hash t k i) i = .ok (need hash t k p, p) ∧ IsPos hash t k p := by
  intro f
  induction f with
  | zero => intro i _ _ h; omega
  | succ f ih =>
    intro i hs hc hf hall
    rw [skipLoop, rdInfo_ok (by omega), Res.bind_ok]
    by_cases h : need hash t k i ≤ t.info i
    · rw [if_pos h, ← need_succ hash t k hs]
      have := g.pos_le_cap hs h
      refine ih (i + 1) (by omega) (by omega) (by omega) (fun j h1 h2 => ?_)
      by_cases hj : j = i
      · rw [hj]; exact h
      · exact hall j h1 (by omega)
    · rw [if_neg h]
      exact ⟨i, rfl, hs, hall, by omega⟩

theorem nextWhileLess_spec (g : Good hash t) (k : K) : ∀ (f i : Nat), startIdx hash t k ≤ i → i ≤ t.cap →
    t.cap < f + i → (∀ j, startIdx hash t k ≤ j → j < i → need hash t k j < t.info j) →
    ∃ p, nextWhileLess t f (need hash t k i) i = .ok (need hash t k p, p) ∧ startIdx hash t k ≤ p ∧ p ≤ t.cap ∧
      (∀ j, startIdx hash t k ≤ j → j < p → need hash t k j < t.info j) ∧ t.info p ≤ need hash t k p := by
  intro f
  induction f with
  | zero => intro i _ _ h; omega
  | succ f ih =>
    intro i hs hc hf hall
    rw [nextWhileLess, rdInfo_ok (by omega), Res.bind_ok]
    by_cases h : need hash t k i < t.info i
    · rw [if_pos h, ← need_succ hash t k hs]
      have := g.pos_le_cap hs (le_of_lt h)
      refine ih (i + 1) (by omega) (by omega) (by omega) (fun j h1 h2 => ?_)
      by_cases hj : j = i
      · rw [hj]; exact h
      · exact hall j h1 (by omega)
    · rw [if_neg h]
      exact ⟨i, rfl, hs, hc, hall, by omega⟩

/-- After a match of the info byte the next info byte is not larger than what the key would have there. -/
theorem next_le (g : Good hash t) {k : K} {i : Nat} (hs : startIdx hash t k ≤ i) (hc : i < t.cap)
    (h : t.info i ≤ need hash t k i) : t.info (i + 1) ≤ need hash t k (i + 1) := by
  have h2 := two_inc_le_need (hash := hash) (t := t) k (i := i + 1) (by omega)
  by_cases hc' : i + 1 < t.cap
  · by_cases hb : 2 * t.inc ≤ t.info (i + 1)
    · have := (g.ord (i + 1) hc' hb).2
      simp only [Nat.add_sub_cancel] at this
      rw [need_succ hash t k hs]; omega
    · omega
  · have : t.info (i + 1) ≤ 1 := by
      by_cases he : i + 1 = t.cap
      · rw [he, g.sent]
      · rw [g.pad _ (by omega)]; omega
    have := g.inc2
    omega

theorem matchLoop_spec [DecidableEq K] (g : Good hash t) (k : K) : ∀ (f i : Nat), startIdx hash t k ≤ i → i ≤ t.cap →
    t.cap < f + i → (∀ j, startIdx hash t k ≤ j → j < i → need hash t k j ≤ t.info j) →
    (∀ j v, j < i → t.cells j ≠ .live k v) → t.info i ≤ need hash t k i →
    (∃ j v, matchLoop t k f (need hash t k i) i = .ok (some j, need hash t k j, j) ∧ t.cells j = .live k v) ∨
    (∃ p, matchLoop t k f (need hash t k i) i = .ok (none, need hash t k p, p) ∧ IsPos hash t k p ∧
      ∀ j v, t.cells j ≠ .live k v) := by
  intro f
  induction f with
  | zero => intro i _ _ h; omega
  | succ f ih =>
    intro i hs hc hf hall hno hle
    rw [matchLoop, rdInfo_ok (by omega), Res.bind_ok]
    by_cases h : need hash t k i = t.info i
    · rw [if_pos h]
      have hcap := g.pos_le_cap hs (le_of_eq h)
      have hne : t.info i ≠ 0 := by
        have := inc_le_need (hash := hash) (t := t) k i; have := g.inc2; omega
      obtain ⟨k', v, hk, _, _⟩ := g.ent i hcap hne
      rw [rdKey, hk, Res.bind_ok]
      by_cases he : k = k'
      · rw [if_pos he]
        exact .inl ⟨i, v, rfl, by rw [hk, he]⟩
      · rw [if_neg he, ← need_succ hash t k hs]
        refine ih (i + 1) (by omega) (by omega) (by omega) (fun j h1 h2 => ?_) (fun j w hj hc' => ?_)
          (g.next_le hs hcap hle)
        · by_cases hj : j = i
          · rw [hj]; exact le_of_eq h
          · exact hall j h1 (by omega)
        · by_cases hj' : j = i
          · rw [hj', hk] at hc'; cases hc'; exact he rfl
          · exact hno j w (by omega) hc'
    · rw [if_neg h]
      refine .inr ⟨i, rfl, ⟨hs, hall, by omega⟩, fun j w hj => ?_⟩
      by_cases hji : j < i
      · exact hno j w hji hj
      · have := g.climb hj (j - i) i (by omega) hs
        omega

/-- A key that is skipped while the info byte is larger is not stored in the slots skipped. -/
theorem not_before (g : Good hash t) {k : K} {p : Nat}
    (h : ∀ j, startIdx hash t k ≤ j → j < p → need hash t k j < t.info j) (j : Nat) (v : V) (hj : j < p) :
    t.cells j ≠ .live k v := by
  intro hc
  obtain ⟨h1, h2⟩ := g.live_info hc
  have := h j h1 hj
  omega

/-- Both loops of `insertKeyPrepareEmptySpot` together. -/
theorem search_spec [DecidableEq K] (g : Good hash t) (k : K) :
    ∃ i, nextWhileLess t (t.cap + 9) (startInfo hash t k) (startIdx hash t k) = .ok (need hash t k i, i) ∧
      ((∃ j v, matchLoop t k (t.cap + 9) (need hash t k i) i = .ok (some j, need hash t k j, j) ∧
          t.cells j = .live k v) ∨
        (∃ p, matchLoop t k (t.cap + 9) (need hash t k i) i = .ok (none, need hash t k p, p) ∧ IsPos hash t k p ∧
          ∀ j v, t.cells j ≠ .live k v)) := by
  have hs := g.start_lt_cap k
  obtain ⟨i, h1, h2, h3, h4, h5⟩ := g.nextWhileLess_spec k (t.cap + 9) (startIdx hash t k) le_rfl (by omega) (by omega)
    (fun j h1 h2 => by omega)
  rw [need_start] at h1
  refine ⟨i, h1, g.matchLoop_spec k (t.cap + 9) i h2 h3 (by omega) (fun j h6 h7 => le_of_lt (h4 j h6 h7))
    (g.not_before h4) h5⟩

theorem probe_spec [DecidableEq K] (g : Good hash t) (k : K) {i : Nat} (hs : startIdx hash t k ≤ i) (hi : i < t.cap + 8) :
    (probe t k (need hash t k i) i = .ok true ∧ ∃ v, t.cells i = .live k v) ∨
    (probe t k (need hash t k i) i = .ok false ∧ ∀ v, t.cells i ≠ .live k v) := by
  unfold probe
  rw [rdInfo_ok hi, Res.bind_ok]
  by_cases h : need hash t k i = t.info i
  · rw [if_pos h]
    have hcap := g.pos_le_cap hs (le_of_eq h)
    have hne : t.info i ≠ 0 := by
      have := inc_le_need (hash := hash) (t := t) k i; have := g.inc2; omega
    obtain ⟨k', v, hk, _, _⟩ := g.ent i hcap hne
    rw [rdKey, hk, Res.bind_ok]
    by_cases he : k = k'
    · left; subst he; simp
    · right; refine ⟨by simp [he], fun w hc => ?_⟩
      cases hc; exact he rfl
  · rw [if_neg h]
    exact .inr ⟨rfl, fun v hv => h (g.live_info hv).2.symm⟩

theorem findLoop_spec [DecidableEq K] (g : Good hash t) (k : K) : ∀ (f i : Nat), startIdx hash t k ≤ i → i < t.cap →
    t.cap < f + i → (∀ j v, j < i → t.cells j ≠ .live k v) →
    (∃ j v, findLoop t k f (need hash t k i) i = .ok (some j) ∧ t.cells j = .live k v) ∨
    (findLoop t k f (need hash t k i) i = .ok none ∧ ∀ j v, t.cells j ≠ .live k v) := by
  intro f
  induction f with
  | zero => intro i _ _ h; omega
  | succ f ih =>
    intro i hs hc hf hno
    rw [findLoop]
    rcases g.probe_spec k hs (show i < t.cap + 8 by omega) with ⟨h1, v, h2⟩ | ⟨h1, h2⟩
    · rw [h1, Res.bind_ok, if_pos rfl]
      exact .inl ⟨i, v, rfl, h2⟩
    · rw [h1, Res.bind_ok, if_neg (by simp), ← need_succ hash t k hs]
      rcases g.probe_spec k (show startIdx hash t k ≤ i + 1 by omega) (show i + 1 < t.cap + 8 by omega) with
        ⟨h3, v, h4⟩ | ⟨h3, h4⟩
      · rw [h3, Res.bind_ok, if_pos rfl]
        exact .inl ⟨i + 1, v, rfl, h4⟩
      · rw [h3, Res.bind_ok, if_neg (by simp), ← need_succ hash t k (by omega), rdInfo_ok (by omega), Res.bind_ok]
        have hno2 : ∀ j v, j < i + 2 → t.cells j ≠ .live k v := by
          intro j v hj hcell
          by_cases hj1 : j < i
          · exact hno j v hj1 hcell
          · by_cases hj2 : j = i
            · exact h2 v (hj2 ▸ hcell)
            · exact h4 v ((show j = i + 1 by omega) ▸ hcell)
        by_cases h : need hash t k (i + 1 + 1) ≤ t.info (i + 2)
        · rw [if_pos h]
          have := g.pos_le_cap (k := k) (i := i + 2) (by omega) h
          exact ih (i + 2) (by omega) this (by omega) hno2
        · rw [if_neg h]
          refine .inr ⟨rfl, fun j v hj => ?_⟩
          by_cases hji : j < i + 2
          · exact hno2 j v hji hj
          · have := g.climb hj (j - (i + 2)) (i + 2) (by omega) (by omega)
            exact h this

theorem find_spec [DecidableEq K] (g : Good hash t) (k : K) :
    (∃ v, find hash t k = .ok (some v) ∧ Has t k v) ∨ (find hash t k = .ok none ∧ ∀ v, ¬ Has t k v) := by
  have hs := g.start_lt_cap k
  have := g.findLoop_spec k (t.cap + 9) (startIdx hash t k) le_rfl hs (by omega)
    (fun j v hj hc => by have := (g.live_info hc).1; omega)
  rw [need_start] at this
  unfold find findIdx
  rcases this with ⟨j, v, h1, h2⟩ | ⟨h1, h2⟩
  · rw [h1, Res.bind_ok]
    simp only [h2]
    exact .inl ⟨v, rfl, j, h2⟩
  · rw [h1, Res.bind_ok]
    exact .inr ⟨rfl, fun v ⟨j, hj⟩ => h2 j v hj⟩

end Good
end

end Verif.RobinHood
