import Mathlib.Data.Finset.Card
import Mathlib.Data.Finset.Range
import Mathlib.Order.Interval.Finset.Nat
import Mathlib.Tactic.Ring
import Mathlib.Tactic.Linarith
import Verif.RobinHood.Model

/-!
# Closed forms for the loops of the hash table
-/
namespace Verif.RobinHood

@[simp] theorem Res.bind_ok {α β : Type} (a : α) (f : α → Res β) : (Res.ok a).bind f = f a := rfl
@[simp] theorem Res.bind_overflow {α β : Type} (f : α → Res β) : (Res.overflow : Res α).bind f = .overflow := rfl
@[simp] theorem Res.bind_ub {α β : Type} (f : α → Res β) : (Res.ub : Res α).bind f = .ub := rfl

variable {K V : Type}

theorem rdInfo_ok {t : Tab K V} {i : Nat} (h : i < t.cap + 8) : rdInfo t i = .ok (t.info i) := if_pos h

theorem wrInfo_ok {t : Tab K V} {i b : Nat} (h : i < t.cap + 8) :
    wrInfo t i b = .ok { t with info := fun j => if j = i then b % 256 else t.info j } := if_pos h

/-- Info loop of `shiftUp`. -/
theorem shiftInfos_eq (ins : Nat) : ∀ (f : Nat) (t : Tab K V) (idx : Nat), ins ≤ idx → idx - ins < f →
    idx < t.cap + 8 → (∀ i, ins ≤ i → i < idx → t.info i + t.inc < 256) →
    ∃ ma, (ma = t.maxAllowed ∨ ma = 0 ∧ ∃ i, ins ≤ i ∧ i < idx ∧ t.info i + t.inc + t.inc > 255) ∧
      (ma ≠ 0 → ∀ i, ins ≤ i → i < idx → t.info i + t.inc + t.inc ≤ 255) ∧
      shiftInfos ins f t idx = .ok { t with
        info := fun i => if ins < i ∧ i ≤ idx then t.info (i - 1) + t.inc else t.info i, maxAllowed := ma } := by
  intro f
  induction f with
  | zero => intro t idx _ h; omega
  | succ f ih =>
    intro t idx hle hf hb hlt
    by_cases he : idx = ins
    · refine ⟨t.maxAllowed, .inl rfl, fun _ i h1 h2 => by omega, ?_⟩
      rw [shiftInfos, if_pos he]
      have : (fun i => if ins < i ∧ i ≤ idx then t.info (i - 1) + t.inc else t.info i) = t.info := by
        funext i; rw [if_neg (by omega)]
      rw [this]
    · have h1 := hlt (idx - 1) (by omega) (by omega)
      rw [shiftInfos, if_neg he, rdInfo_ok (by omega), Res.bind_ok, wrInfo_ok hb, Res.bind_ok,
        rdInfo_ok (by simpa using hb), Res.bind_ok]
      simp only [if_true]
      rw [Nat.mod_eq_of_lt h1]
      by_cases hbig : t.info (idx - 1) + t.inc + t.inc > 255
      · rw [if_pos hbig]
        obtain ⟨ma, hm, hm2, hr⟩ := ih { t with info := fun j => if j = idx then t.info (idx - 1) + t.inc else t.info j, maxAllowed := 0 } (idx - 1)
          (by omega) (by omega) (by simp only; omega)
          (fun i h2 h3 => by simp only; rw [if_neg (by omega)]; exact hlt i h2 (by omega))
        have hma : ma = 0 := by
          rcases hm with h | h
          · exact h
          · exact h.1
        clear hm hm2
        refine ⟨ma, .inr ⟨hma, idx - 1, by omega, by omega, hbig⟩, fun hne => absurd hma hne, ?_⟩
        · rw [hr]
          congr 2
          funext i
          simp only
          by_cases hi : ins < i ∧ i ≤ idx
          · by_cases hi2 : i = idx
            · subst hi2; rw [if_neg (by omega), if_pos rfl, if_pos hi]
            · rw [if_pos (by omega), if_neg (by omega), if_pos hi]
          · rw [if_neg (by omega), if_neg (by omega), if_neg hi]
      · rw [if_neg hbig]
        obtain ⟨ma, hm, hm2, hr⟩ := ih { t with info := fun j => if j = idx then t.info (idx - 1) + t.inc else t.info j } (idx - 1)
          (by omega) (by omega) (by simp only; omega)
          (fun i h2 h3 => by simp only; rw [if_neg (by omega)]; exact hlt i h2 (by omega))
        have hm' : ma = t.maxAllowed ∨ ma = 0 ∧ ∃ i, ins ≤ i ∧ i < idx ∧ t.info i + t.inc + t.inc > 255 := by
          rcases hm with h | ⟨h, i, h2, h3, h4⟩
          · exact .inl h
          · simp only at h4
            rw [if_neg (by omega)] at h4
            exact .inr ⟨h, i, h2, by omega, h4⟩
        clear hm
        refine ⟨ma, hm', fun hne i h2 h3 => ?_, ?_⟩ <;> clear hm'
        · by_cases hi : i = idx - 1
          · subst hi; omega
          · have := hm2 hne i h2 (by omega)
            simp only at this
            rwa [if_neg (by omega)] at this
        · rw [hr]
          congr 2
          funext i
          simp only
          by_cases hi : ins < i ∧ i ≤ idx
          · by_cases hi2 : i = idx
            · subst hi2; rw [if_neg (by omega), if_pos rfl, if_pos hi]
            · rw [if_pos (by omega), if_neg (by omega), if_pos hi]
          · rw [if_neg (by omega), if_neg (by omega), if_neg hi]

theorem moveAssign_ok {t : Tab K V} {dst src : Nat} {k : K} {v : V} (hne : dst ≠ src) (hs : t.cells src = .live k v)
    (hd : t.cells dst ≠ .dead) :
    moveAssign t dst src = .ok { t with cells := fun i =>
      if i = dst then (Cell.live k v) else if i = src then .moved else t.cells i } := by
  unfold moveAssign
  rw [hs]
  simp only [assign, setCell, if_neg hne]

/-- Node loop of `shiftUp`. -/
theorem shiftCells_eq (ins : Nat) : ∀ (f : Nat) (t : Tab K V) (idx : Nat), ins < idx → idx - ins ≤ f →
    t.cells (idx - 1) = .moved → (∀ i, ins ≤ i → i < idx - 1 → ∃ k v, t.cells i = .live k v) →
    shiftCells ins f t idx = .ok { t with cells := fun i =>
      if ins < i ∧ i < idx then (t.cells (i - 1)) else if i = ins then .moved else t.cells i } := by
  intro f
  induction f with
  | zero => intro t idx _ h; omega
  | succ f ih =>
    intro t idx hlt hf hm hl
    rw [shiftCells]
    by_cases he : idx - 1 = ins
    · rw [if_pos he]
      have : (fun i => if ins < i ∧ i < idx then (t.cells (i - 1)) else if i = ins then .moved else t.cells i)
          = t.cells := by
        funext i
        rw [if_neg (by omega)]
        by_cases hi : i = ins
        · rw [if_pos hi, hi, ← he, hm]
        · rw [if_neg hi]
      rw [this]
    · obtain ⟨k, v, hk⟩ := hl (idx - 2) (by omega) (by omega)
      rw [if_neg he, moveAssign_ok (by omega) hk (by rw [hm]; intro h; cases h), Res.bind_ok, ih]
      · congr 2
        funext i
        simp only
        by_cases h1 : ins < i ∧ i < idx - 1
        · rw [if_pos h1, if_neg (by omega), if_neg (by omega), if_pos (by omega)]
        · rw [if_neg h1]
          by_cases h2 : i = ins
          · rw [if_pos h2, if_neg (by omega), if_pos h2]
          · rw [if_neg h2]
            by_cases h3 : i = idx - 1
            · rw [if_pos h3, if_pos (by omega), h3, show idx - 1 - 1 = idx - 2 by omega, hk]
            · rw [if_neg h3, if_neg (by omega), if_neg (by omega), if_neg h2]
      · omega
      · omega
      · simp only; rw [if_neg (by omega), if_pos (by omega)]
      · intro i h1 h2
        simp only
        rw [if_neg (by omega), if_neg (by omega)]
        exact hl i h1 (by omega)

/-- `shiftUp` in closed form. -/
theorem shiftUp_eq {t : Tab K V} {start ins : Nat} (hlt : ins < start) (hcap : start < t.cap)
    (hd : t.cells start = .dead) (hl : ∀ i, ins ≤ i → i < start → ∃ k v, t.cells i = .live k v)
    (hb : ∀ i, ins ≤ i → i < start → t.info i + t.inc < 256) :
    ∃ ma, (ma = t.maxAllowed ∨ ma = 0 ∧ ∃ i, ins ≤ i ∧ i < start ∧ t.info i + t.inc + t.inc > 255) ∧
      (ma ≠ 0 → ∀ i, ins ≤ i → i < start → t.info i + t.inc + t.inc ≤ 255) ∧
      shiftUp t start ins = .ok { t with
        info := fun i => if ins < i ∧ i ≤ start then t.info (i - 1) + t.inc else t.info i
        cells := fun i => if ins < i ∧ i ≤ start then (t.cells (i - 1)) else if i = ins then .moved else t.cells i
        maxAllowed := ma } := by
  obtain ⟨k, v, hk⟩ := hl (start - 1) (by omega) (by omega)
  have h1 : moveConstruct t start (start - 1) = .ok { t with cells := fun i =>
      if i = start then (Cell.live k v) else if i = start - 1 then .moved else t.cells i } := by
    unfold moveConstruct
    rw [hk]
    simp only [construct, setCell, if_neg (show start ≠ start - 1 by omega), if_pos hcap, hd]
  have h2 := shiftCells_eq ins (t.cap + 9) { t with cells := fun i =>
      if i = start then (Cell.live k v) else if i = start - 1 then .moved else t.cells i } start hlt (by omega)
      (by simp only; rw [if_neg (by omega)]; simp)
      (fun i h1 h2 => by
        simp only; rw [if_neg (by omega), if_neg (by omega)]; exact hl i h1 (by omega))
  have hc : (fun i => if ins < i ∧ i < start then
        (fun i => if i = start then (Cell.live k v) else if i = start - 1 then .moved else t.cells i) (i - 1)
      else if i = ins then .moved
      else (fun i => if i = start then (Cell.live k v) else if i = start - 1 then .moved else t.cells i) i)
      = fun i => if ins < i ∧ i ≤ start then (t.cells (i - 1)) else if i = ins then .moved else t.cells i := by
    funext i
    simp only
    by_cases h1 : ins < i ∧ i < start
    · rw [if_pos h1, if_neg (by omega), if_neg (by omega), if_pos (by omega)]
    · rw [if_neg h1]
      by_cases h2 : i = start
      · rw [if_neg (by omega), if_pos h2, if_pos (by omega), h2, hk]
      · by_cases h3 : i = ins
        · rw [if_pos h3, if_neg (by omega), if_pos h3]
        · rw [if_neg h3, if_neg h2, if_neg (by omega), if_neg (by omega), if_neg h3]
  simp only at h2
  rw [hc] at h2
  obtain ⟨ma, hm, hm2, h3⟩ := shiftInfos_eq ins (t.cap + 9) { t with cells := fun i =>
      if ins < i ∧ i ≤ start then (t.cells (i - 1)) else if i = ins then .moved else t.cells i } start (by omega)
      (by omega) (by simp only; omega) hb
  refine ⟨ma, hm, hm2, ?_⟩
  rw [shiftUp, h1, Res.bind_ok, h2, Res.bind_ok, h3]

/-- Search for an empty slot: the first one at or after the starting index. -/
theorem emptySpot_eq {t : Tab K V} {e : Nat} (he : t.info e = 0) (hc : e < t.cap + 8) : ∀ (f idx : Nat), idx ≤ e →
    e - idx < f → (∀ i, idx ≤ i → i < e → t.info i ≠ 0) → emptySpot t f idx = .ok e := by
  intro f
  induction f with
  | zero => intro idx _ h; omega
  | succ f ih =>
    intro idx hle hf hne
    rw [emptySpot, rdInfo_ok (by omega), Res.bind_ok]
    by_cases h : idx = e
    · rw [h, if_pos he]
    · rw [if_neg (hne idx le_rfl (by omega))]
      exact ih (idx + 1) (by omega) (by omega) (fun i h1 h2 => hne i (by omega) h2)

/-- `place` in closed form. -/
theorem place_eq {t : Tab K V} {s p e : Nat} {k : K} {v : V} (hpe : p ≤ e) (hcap : e < t.cap)
    (he : t.info e = 0) (hd : t.cells e = .dead) (hne : ∀ i, p ≤ i → i < e → t.info i ≠ 0)
    (hl : ∀ i, p ≤ i → i < e → ∃ k v, t.cells i = .live k v)
    (hb : ∀ i, p ≤ i → i < e → t.info i + t.inc < 256) (hs : s < 256) :
    ∃ ma, (ma = t.maxAllowed ∨ ma = 0 ∧ (s + t.inc > 255 ∨ ∃ i, p ≤ i ∧ i < e ∧ t.info i + t.inc + t.inc > 255)) ∧
      (ma ≠ 0 → s + t.inc ≤ 255 ∧ ∀ i, p ≤ i → i < e → t.info i + t.inc + t.inc ≤ 255) ∧
      place t s p k v = .ok { t with
        info := fun i => if i = p then s else if p < i ∧ i ≤ e then t.info (i - 1) + t.inc else t.info i
        cells := fun i => if i = p then (Cell.live k v) else if p < i ∧ i ≤ e then (t.cells (i - 1)) else t.cells i
        num := t.num + 1
        maxAllowed := ma } := by
  have hflag : ∃ ma0, (ma0 = t.maxAllowed ∨ ma0 = 0 ∧ s + t.inc > 255) ∧ (ma0 ≠ 0 → s + t.inc ≤ 255) ∧
      (if s + t.inc > 255 then { t with maxAllowed := 0 } else t) = { t with maxAllowed := ma0 } := by
    by_cases h : s + t.inc > 255
    · exact ⟨0, .inr ⟨rfl, h⟩, fun h => absurd rfl h, if_pos h⟩
    · exact ⟨t.maxAllowed, .inl rfl, fun _ => by omega, if_neg h⟩
  obtain ⟨ma0, hm0, hm0', ht0⟩ := hflag
  have hes : emptySpot { t with maxAllowed := ma0 } (t.cap + 9) p = .ok e :=
    emptySpot_eq (t := { t with maxAllowed := ma0 }) he (by simp only; omega) _ _ hpe (by omega) hne
  by_cases hep : e = p
  · refine ⟨ma0, hm0.imp id (fun h => ⟨h.1, .inl h.2⟩), fun h => ⟨hm0' h, fun i h1 h2 => by omega⟩, ?_⟩
    unfold place
    simp only [ht0]
    rw [hes, Res.bind_ok, if_pos hep, wrInfo_ok (by simp only; omega), Res.bind_ok]
    simp only [construct, ← hep, if_pos hcap, hd, setCell, Nat.mod_eq_of_lt hs]
    congr 2
    · funext i
      by_cases h : i = e
      · rw [if_pos h, if_pos h]
      · rw [if_neg h, if_neg h, if_neg (by omega)]
    · funext i
      by_cases h : i = e
      · rw [if_pos h, if_pos h]
      · rw [if_neg h, if_neg h, if_neg (by omega)]
  · obtain ⟨ma, hm, hm', hr⟩ := shiftUp_eq (t := { t with maxAllowed := ma0 }) (start := e) (ins := p) (by omega)
      hcap hd hl hb
    refine ⟨ma, ?_, fun h => ⟨hm0' ?_, hm' h⟩, ?_⟩
    · simp only at hm; rcases hm with h | h
      · rw [h]; exact hm0.imp id (fun h => ⟨h.1, .inl h.2⟩)
      · exact .inr ⟨h.1, .inr h.2⟩
    · simp only at hm; rcases hm with h' | h'
      · rwa [← h']
      · exact absurd h'.1 h
    · unfold place
      simp only [ht0]
      rw [hes, Res.bind_ok, if_neg hep, hr, Res.bind_ok, wrInfo_ok (by simp only; omega), Res.bind_ok]
      simp only [assign, setCell, Nat.mod_eq_of_lt hs]
      rw [if_neg (by omega), if_pos trivial]
      simp only
      congr 2
      · funext i
        by_cases h : i = p
        · rw [if_pos h, if_pos h]
        · simp only [if_neg h]

/-- `shiftDown` in closed form: `q` is the last slot of the run that moves down. -/
theorem shiftDownLoop_eq (q : Nat) : ∀ (f : Nat) (t : Tab K V) (idx : Nat), idx ≤ q → q - idx < f → q + 1 < t.cap + 8 →
    (∀ i, idx ≤ i → i < q → 2 * t.inc ≤ t.info (i + 1) ∧ t.info (i + 1) < 256) → t.info (q + 1) < 2 * t.inc →
    t.cells idx ≠ .dead → (∀ i, idx < i → i ≤ q → ∃ k v, t.cells i = .live k v) →
    shiftDownLoop f t idx = .ok { t with
      info := fun i => if i = q then 0 else if idx ≤ i ∧ i < q then t.info (i + 1) - t.inc else t.info i
      cells := fun i => if i = q then .dead else if idx ≤ i ∧ i < q then t.cells (i + 1) else t.cells i } := by
  intro f
  induction f with
  | zero => intro t idx _ h; omega
  | succ f ih =>
    intro t idx hle hf hcap hrun hq hcell hl
    rw [shiftDownLoop, rdInfo_ok (by omega), Res.bind_ok]
    by_cases h : idx = q
    · subst h
      rw [if_neg (by omega), wrInfo_ok (by omega), Res.bind_ok]
      simp only
      rw [setCell]
      congr 2
      · funext i
        by_cases h : i = idx
        · rw [if_pos h, if_pos h]
        · rw [if_neg h, if_neg h, if_neg (by omega)]
      · funext i
        simp only
        by_cases h : i = idx
        · rw [if_pos h, if_pos h, Nat.zero_mod]
        · rw [if_neg h, if_neg h, if_neg (by omega)]
    · obtain ⟨h1, h2⟩ := hrun idx le_rfl (by omega)
      obtain ⟨k, v, hk⟩ := hl (idx + 1) (by omega) (by omega)
      rw [if_pos h1, wrInfo_ok (by omega), Res.bind_ok, moveAssign_ok (t := { t with info := fun j => if j = idx then (t.info (idx + 1) - t.inc) % 256 else t.info j })
        (k := k) (v := v) (by omega) hk hcell, Res.bind_ok, ih]
      · rw [Nat.mod_eq_of_lt (by omega)]
        simp only
        congr 2
        · funext i
          by_cases h3 : i = q
          · rw [if_pos h3, if_pos h3]
          · rw [if_neg h3, if_neg h3]
            by_cases h4 : idx + 1 ≤ i ∧ i < q
            · rw [if_pos h4, if_neg (by omega), if_neg (by omega), if_pos (by omega)]
            · rw [if_neg h4]
              by_cases h5 : i = idx
              · rw [if_pos h5, if_pos (by omega), h5, hk]
              · rw [if_neg h5, if_neg (by omega), if_neg (by omega)]
        · funext i
          by_cases h3 : i = q
          · rw [if_pos h3, if_pos h3]
          · rw [if_neg h3, if_neg h3]
            by_cases h4 : idx + 1 ≤ i ∧ i < q
            · rw [if_pos h4, if_neg (by omega), if_pos (by omega)]
            · rw [if_neg h4]
              by_cases h5 : i = idx
              · rw [if_pos h5, if_pos (by omega), h5]
              · rw [if_neg h5, if_neg (by omega)]
      · omega
      · omega
      · simp only; omega
      · intro i h3 h4
        simp only
        rw [if_neg (by omega)]
        exact hrun i (by omega) h4
      · simp only
        rw [if_neg (by omega)]; exact hq
      · simp only
        rw [if_neg (by omega), if_pos trivial]
        intro h; cases h
      · intro i h3 h4
        simp only
        rw [if_neg (by omega), if_neg (by omega)]
        exact hl i (by omega) h4

end Verif.RobinHood
