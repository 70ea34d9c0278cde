import Verif.ArrOwn.Spec

namespace Verif.ArrOwn

variable {T : Type}

/-- An array and what it stands for. -/
def Rel (cap : Nat) (over : Bool) (a : Arr T) : AVal T → Prop
  | .arr l => a.size = l.length ∧ l.length ≤ cap ∧ ((∃ al, a.data = some (al, l) ∧ (al = true → over = true)) ∨ (a.data = none ∧ l = []))
  | .moved => a.data = none

def RelS (cap : Nat) (over : Bool) (st : Store T) (ss : AStore T) : Prop :=
  ∀ s, match st s, ss s with
    | some a, some v => Rel cap over a v
    | none, none => True
    | _, _ => False

variable {cap : Nat} {over : Bool}

theorem RelS.get {st : Store T} {ss : AStore T} (R : RelS cap over st ss) {s : Nat} {v : AVal T} (h : ss s = some v) :
    ∃ a, st s = some a ∧ Rel cap over a v := by
  have := R s
  rw [h] at this
  cases e : st s with
  | none => rw [e] at this; exact this.elim
  | some a => rw [e] at this; exact ⟨a, rfl, this⟩

theorem RelS.none {st : Store T} {ss : AStore T} (R : RelS cap over st ss) {s : Nat} (h : ss s = none) : st s = none := by
  have := R s
  rw [h] at this
  cases e : st s with
  | none => rfl
  | some a => rw [e] at this; exact this.elim

theorem RelS.set {st : Store T} {ss : AStore T} (R : RelS cap over st ss) (s : Nat) {a : Arr T} {v : AVal T} (h : Rel cap over a v) :
    RelS cap over (Function.update st s (some a)) (Function.update ss s (some v)) := by
  intro t
  by_cases e : t = s
  · subst e; simpa using h
  · simpa [Function.update_of_ne e] using R t

theorem RelS.del {st : Store T} {ss : AStore T} (R : RelS cap over st ss) (s : Nat) :
    RelS cap over (Function.update st s .none) (Function.update ss s .none) := by
  intro t
  by_cases e : t = s
  · subst e; simp
  · simpa [Function.update_of_ne e] using R t

theorem Rel.cell {a : Arr T} {l : List (Option T)} (R : Rel cap over a (.arr l)) (i : Nat) : cell a i = nth l i := by
  rcases R with ⟨_, _, ⟨al, hd, _⟩ | ⟨hd, rfl⟩⟩
  · simp only [ArrOwn.cell, hd, nth]
    rcases l[i]? with _ | _ | v <;> rfl
  · simp [ArrOwn.cell, hd, nth]

theorem known_ok {l : List (Option T)} {k : List T} (h : known l = .ok k) : l = k.map some := by
  unfold known at h
  by_cases e : l.all Option.isSome = true
  · rw [if_pos e] at h
    injection h with h
    subst h
    induction l with
    | nil => rfl
    | cons x l ih =>
      simp only [List.all_cons, Bool.and_eq_true] at e
      obtain ⟨v, rfl⟩ := Option.isSome_iff_exists.1 e.1
      simpa using ih e.2
  · rw [if_neg e] at h; cases h

theorem cells_of {a : Arr T} {k : List T} : ∀ (n i : Nat), i + n ≤ k.length → (∀ j, ArrOwn.cell a j = nth (k.map some) j) →
    cells a (List.range' i n) = .ok ((k.drop i).take n)
  | 0, i, _, _ => by simp [cells]
  | n + 1, i, hi, hc => by
    have hl : i < k.length := by omega
    rw [List.range'_succ, cells, hc, cells_of n (i + 1) (by omega) hc]
    have : nth (k.map some) i = .ok k[i] := by simp [nth, hl]
    rw [this]
    simp only [Out.bind]
    rw [List.drop_eq_getElem_cons hl, List.take_succ_cons]

theorem Rel.elems {a : Arr T} {k : List T} (R : Rel cap over a (.arr (k.map some))) : elems a = .ok k := by
  have hs : a.size = k.length := by simpa using R.1
  rw [ArrOwn.elems, hs, List.range_eq_range', cells_of k.length 0 (by omega) R.cell]
  simp

theorem Rel.new (l : List (Option T)) (h : ¬ cap < l.length) (al : Bool) (ho : al = true → over = true) : Rel cap over ⟨l.length, some (al, l)⟩ (.arr l) :=
  ⟨rfl, by omega, .inl ⟨al, rfl, ho⟩⟩

theorem Rel.release {a : Arr T} {v : AVal T} (R : Rel cap over a v) : release over a = .ok () := by
  cases v with
  | moved => simp only [Rel] at R; simp [ArrOwn.release, R]
  | arr l =>
    rcases R with ⟨_, _, ⟨al, hd, ho⟩ | ⟨hd, rfl⟩⟩
    · cases al with
      | true => simp [ArrOwn.release, hd, ho rfl]
      | false => simp [ArrOwn.release, hd]
    · simp [ArrOwn.release, hd]

theorem Rel.setCell {a : Arr T} {l : List (Option T)} (R : Rel cap over a (.arr l)) {i : Nat} (hi : i < l.length) (v : T) :
    ∃ b, setCell a i v = .ok b ∧ Rel cap over b (.arr (l.set i (some v))) := by
  rcases R with ⟨hs, hl, ⟨al, hd, ho⟩ | ⟨hd, rfl⟩⟩
  · exact ⟨⟨a.size, some (al, l.set i (some v))⟩, by simp only [ArrOwn.setCell, hd, if_pos hi], by simpa using hs, by simpa using hl, .inl ⟨al, rfl, ho⟩⟩
  · simp at hi

theorem eqFrom_ok [DecidableEq T] {a b : Arr T} {k k' : List T} (ha : ∀ j, ArrOwn.cell a j = nth (k.map some) j) (hb : ∀ j, ArrOwn.cell b j = nth (k'.map some) j)
    (he : k.length = k'.length) : ∀ (n i : Nat), i + n = k.length → eqFrom a b i n = .ok (decide (k.drop i = k'.drop i))
  | 0, i, h => by
    rw [eqFrom, List.drop_eq_nil_of_le (by omega), List.drop_eq_nil_of_le (by omega)]; simp
  | n + 1, i, h => by
    have h1 : i < k.length := by omega
    have h2 : i < k'.length := by omega
    have e1 : nth (k.map some) i = .ok k[i] := by simp [nth, h1]
    have e2 : nth (k'.map some) i = .ok k'[i] := by simp [nth, h2]
    rw [eqFrom, ha, hb, e1, e2]
    simp only [Out.bind]
    rw [List.drop_eq_getElem_cons h1, List.drop_eq_getElem_cons h2, eqFrom_ok ha hb he n (i + 1) (by omega)]
    by_cases e : k[i] = k'[i]
    · rw [if_pos e]; simp only [e, List.cons.injEq, true_and]
    · rw [if_neg e]; simp only [e, List.cons.injEq, false_and, decide_false]

/-- The order of two lists. -/
def order [LinearOrder T] (k k' : List T) : Ordering := if k < k' then .lt else if k = k' then .eq else .gt

theorem cmpFrom_ok [LinearOrder T] {a b : Arr T} {k k' : List T} (ha : ∀ j, ArrOwn.cell a j = nth (k.map some) j) (hb : ∀ j, ArrOwn.cell b j = nth (k'.map some) j)
    (hs : b.size = k'.length) : ∀ (n i : Nat), i + n = k.length → i ≤ k'.length → cmpFrom a b i n = .ok (order (k.drop i) (k'.drop i))
  | 0, i, h, h' => by
    rw [cmpFrom, List.drop_eq_nil_of_le (by omega), hs]
    by_cases e : i < k'.length
    · rw [if_pos e, List.drop_eq_getElem_cons e, order, if_pos (List.nil_lt_cons _ _)]
    · rw [if_neg e, List.drop_eq_nil_of_le (by omega)]; simp [order]
  | n + 1, i, h, h' => by
    have h1 : i < k.length := by omega
    rw [cmpFrom, hs]
    by_cases h2 : i < k'.length
    · have e1 : nth (k.map some) i = .ok k[i] := by simp [nth, h1]
      have e2 : nth (k'.map some) i = .ok k'[i] := by simp [nth, h2]
      rw [if_pos h2, ha, hb, e1, e2]
      simp only [Out.bind]
      rw [List.drop_eq_getElem_cons h1, List.drop_eq_getElem_cons h2, cmpFrom_ok ha hb hs n (i + 1) (by omega) (by omega)]
      rcases lt_trichotomy k[i] k'[i] with e | e | e
      · rw [if_pos e, order, if_pos (List.cons_lt_cons_iff.2 (.inl e))]
      · rw [if_neg (by rw [e]; exact lt_irrefl _), if_neg (by rw [e]; exact lt_irrefl _), e]
        simp only [order, List.cons_lt_cons_iff, lt_irrefl, true_and, false_or, List.cons.injEq]
      · rw [if_neg (not_lt.2 e.le), if_pos e, order, if_neg, if_neg]
        · simp only [List.cons.injEq, not_and]; intro e'; exact absurd e' e.ne'
        · rw [List.cons_lt_cons_iff]; rintro (e' | ⟨e', _⟩)
          · exact absurd e' (not_lt.2 e.le)
          · exact e.ne' e'
    · rw [if_neg h2, List.drop_eq_getElem_cons h1, List.drop_eq_nil_of_le (as := k') (by omega)]
      rw [order, if_neg (List.not_lt_nil _), if_neg (List.cons_ne_nil _ _)]

/-! ### Operations and programs -/

section

variable [LinearOrder T]

omit [LinearOrder T] in
theorem construct_ok {st : Store T} {ss ss' : AStore T} (R : RelS cap over st ss) {d : Nat} {l : List (Option T)} {v : Val T} {r : Out (Arr T)}
    (hr : ¬ cap < l.length → ∃ a, r = .ok a ∧ Rel cap over a (.arr l)) (h : snew cap ss d l = .ok (ss', v)) :
    ∃ st', construct st d r = .ok (st', v) ∧ RelS cap over st' ss' := by
  unfold snew at h
  cases hd : ss d with
  | some _ => rw [hd] at h; cases h
  | none =>
    rw [hd] at h
    dsimp only at h
    by_cases hc : cap < l.length
    · rw [if_pos hc] at h; cases h
    · rw [if_neg hc] at h
      injection h with h
      injection h with h1 h2
      subst h1 h2
      obtain ⟨a, rfl, ha⟩ := hr hc
      exact ⟨_, by simp only [construct, R.none hd, Out.bind], R.set d ha⟩

omit [LinearOrder T] in
theorem construct_throws {st : Store T} {ss : AStore T} (R : RelS cap over st ss) {d : Nat} {l : List (Option T)} {r : Out (Arr T)}
    (hr : cap < l.length → r = .throws) (h : snew cap ss d l = .throws) : construct st d r = .throws := by
  unfold snew at h
  cases hd : ss d with
  | some _ => rw [hd] at h; cases h
  | none =>
    rw [hd] at h
    dsimp only at h
    by_cases hc : cap < l.length
    · rw [hr hc]; simp only [construct, R.none hd, Out.bind]
    · rw [if_neg hc] at h; cases h

omit [LinearOrder T] in
theorem alloc_rel (al : Bool) (ho : al = true → over = true) (n : Nat) :
    (¬ cap < (List.replicate n (none : Option T)).length → ∃ a, alloc cap al n = .ok a ∧ Rel cap over a (.arr (List.replicate n (none : Option T)))) ∧
    (cap < (List.replicate n (none : Option T)).length → alloc (T := T) cap al n = .throws) := by
  simp only [List.length_replicate]
  refine ⟨fun h => ⟨⟨n, some (al, List.replicate n none)⟩, by rw [alloc, if_neg h], ?_⟩, fun h => by rw [alloc, if_pos h]⟩
  have := Rel.new (cap := cap) (over := over) (List.replicate n (none : Option T)) (by simpa using h) al ho
  simpa using this

omit [LinearOrder T] in
theorem ofList_rel (k : List T) :
    (¬ cap < (k.map some).length → ∃ a, ofList cap k = .ok a ∧ Rel cap over a (.arr (k.map some))) ∧
    (cap < (k.map some).length → ofList cap k = .throws) := by
  simp only [List.length_map]
  refine ⟨fun h => ⟨⟨k.length, some (false, k.map some)⟩, by rw [ofList, if_neg h], ?_⟩, fun h => by rw [ofList, if_pos h]⟩
  have := Rel.new (cap := cap) (over := over) (k.map some) (by simpa using h) false (by simp)
  simpa using this

omit [LinearOrder T] in
theorem sget_ok {ss : AStore T} {s : Nat} {β : Type} {f : List (Option T) → Out β} (h : (sget ss s).bind f ≠ .ub) : ∃ l, ss s = some (.arr l) ∧ (sget ss s).bind f = f l := by
  unfold sget at *
  split at h
  · rename_i l e; exact ⟨l, e, rfl⟩
  · exact absurd rfl h

omit [LinearOrder T] in
theorem salive_ok {ss : AStore T} {s : Nat} {β : Type} {f : Unit → Out β} (h : (salive ss s).bind f ≠ .ub) : ∃ v, ss s = some v ∧ (salive ss s).bind f = f () := by
  unfold salive at *
  split at h
  · rename_i v e; exact ⟨v, e, rfl⟩
  · exact absurd rfl h

omit [LinearOrder T] in
theorem known_bind {l : List (Option T)} {β : Type} {f : List T → Out β} (h : (known l).bind f ≠ .ub) : ∃ k, l = k.map some ∧ (known l).bind f = f k := by
  cases e : known l with
  | ok k => exact ⟨k, known_ok e, rfl⟩
  | throws => unfold known at e; split at e <;> cases e
  | ub => rw [e] at h; exact absurd rfl h

omit [LinearOrder T] in
theorem nth_bind {l : List (Option T)} {i : Nat} {β : Type} {f : T → Out β} (h : (nth l i).bind f ≠ .ub) : ∃ v, nth l i = .ok v := by
  cases e : nth l i with
  | ok k => exact ⟨k, rfl⟩
  | throws => unfold nth at e; split at e <;> cases e
  | ub => rw [e] at h; exact absurd rfl h

omit [LinearOrder T] in
theorem get_of {st : Store T} {s : Nat} {a : Arr T} (h : st s = some a) : get st s = .ok a := by simp only [get, h]

/-- One operation, as far as programs may do it. -/
theorem step_ok (hcap : cap < 2 ^ 64) {st : Store T} {ss : AStore T} (R : RelS cap over st ss) (o : Op T) (hc : Careful over o) (h : sstep cap ss o ≠ .ub) :
    (∀ ss' v, sstep cap ss o = .ok (ss', v) → ∃ st', step cap over st o = .ok (st', v) ∧ RelS cap over st' ss') ∧
    (sstep cap ss o = .throws → step cap over st o = .throws) := by
  cases o with
  | mk d =>
    exact ⟨fun ss' v => construct_ok R fun _ => ⟨⟨0, none⟩, rfl, rfl, by simp, .inr ⟨rfl, rfl⟩⟩, construct_throws R fun h => absurd h (by simp)⟩
  | sized d n => exact ⟨fun ss' v => construct_ok R (alloc_rel false (by simp) n).1, construct_throws R (alloc_rel (over := over) false (by simp) n).2⟩
  | aligned d n => exact ⟨fun ss' v => construct_ok R (alloc_rel true (fun _ => hc) n).1, construct_throws R (alloc_rel (over := over) true (fun _ => hc) n).2⟩
  | fill d n v =>
    have e : List.replicate n (some v) = (List.replicate n v).map some := by simp
    simp only [sstep, e, step]
    exact ⟨fun ss' v => construct_ok R (ofList_rel _).1, construct_throws R (ofList_rel (over := over) _).2⟩
  | range d l => exact ⟨fun ss' v => construct_ok R (ofList_rel _).1, construct_throws R (ofList_rel (over := over) _).2⟩
  | input d l => exact hc.elim
  | copy d s =>
    simp only [sstep] at h ⊢
    obtain ⟨l, hl, e⟩ := sget_ok h
    rw [e] at h ⊢
    obtain ⟨k, rfl, e'⟩ := known_bind h
    rw [e']
    obtain ⟨a, ha, Ra⟩ := R.get hl
    simp only [step, get_of ha, Out.bind, Ra.elems]
    exact ⟨fun ss' v => construct_ok R (ofList_rel _).1, construct_throws R (ofList_rel (over := over) _).2⟩
  | move d s =>
    simp only [sstep] at h ⊢
    obtain ⟨l, hl, e⟩ := sget_ok h
    rw [e] at h ⊢
    obtain ⟨a, ha, Ra⟩ := R.get hl
    simp only [step, get_of ha]
    cases hn : snew cap ss d l with
    | ub => rw [hn] at h; exact absurd rfl h
    | throws =>
      refine ⟨fun ss' v h' => (by cases h'), fun _ => ?_⟩
      have hh : ¬ cap < l.length := by have := Ra.2.1; omega
      unfold snew at hn
      split at hn
      · cases hn
      · rw [if_neg hh] at hn; cases hn
    | ok r =>
      obtain ⟨st', e1, R1⟩ := construct_ok (r := .ok a) R (fun _ => ⟨a, rfl, Ra⟩) hn
      refine ⟨fun ss' v h' => ?_, fun h' => by cases h'⟩
      simp only [Out.bind] at h' ⊢
      rw [e1]
      injection h' with h'
      injection h' with h1 h2
      subst h1 h2
      exact ⟨_, rfl, R1.set s rfl⟩
  | moveAssign d s =>
    simp only [sstep] at h ⊢
    obtain ⟨w, hw, e⟩ := salive_ok h
    rw [e] at h ⊢
    obtain ⟨l, hl, e⟩ := sget_ok h
    rw [e] at h ⊢
    obtain ⟨a, ha, Ra⟩ := R.get hl
    obtain ⟨b, hb, Rb⟩ := R.get hw
    simp only [step, get_of ha, get_of hb, Out.bind]
    by_cases q : d = s
    · simp only [if_pos q]
      refine ⟨fun ss' v h' => ?_, fun h' => by cases h'⟩
      injection h' with h'
      injection h' with h1 h2
      subst h1 h2
      exact ⟨_, rfl, R⟩
    · simp only [if_neg q, Rb.release]
      refine ⟨fun ss' v h' => ?_, fun h' => by cases h'⟩
      injection h' with h'
      injection h' with h1 h2
      subst h1 h2
      exact ⟨_, rfl, (R.set d Ra).set s rfl⟩
  | assign d l =>
    simp only [sstep] at h ⊢
    obtain ⟨w, hw, e⟩ := salive_ok h
    rw [e] at h ⊢
    obtain ⟨b, hb, Rb⟩ := R.get hw
    simp only [step, get_of hb, Out.bind]
    by_cases q : cap < l.length
    · simp only [if_pos q, ofList]
      exact ⟨fun ss' v h' => (by cases h'), fun _ => trivial⟩
    · obtain ⟨a, ea, Ra⟩ := (ofList_rel (over := over) l).1 (by simpa using q)
      simp only [if_neg q, ea, Rb.release]
      refine ⟨fun ss' v h' => ?_, fun h' => by cases h'⟩
      injection h' with h'
      injection h' with h1 h2
      subst h1 h2
      exact ⟨_, rfl, R.set d Ra⟩
  | destroy s =>
    simp only [sstep] at h ⊢
    obtain ⟨w, hw, e⟩ := salive_ok h
    rw [e]
    obtain ⟨b, hb, Rb⟩ := R.get hw
    simp only [step, get_of hb, Out.bind, Rb.release]
    refine ⟨fun ss' v h' => ?_, fun h' => by cases h'⟩
    injection h' with h'
    injection h' with h1 h2
    subst h1 h2
    exact ⟨_, rfl, R.del s⟩
  | setAt s i v =>
    simp only [sstep] at h ⊢
    obtain ⟨l, hl, e⟩ := sget_ok h
    rw [e] at h ⊢
    obtain ⟨a, ha, Ra⟩ := R.get hl
    simp only [step, get_of ha, Out.bind, Ra.1]
    by_cases q : i < l.length
    · obtain ⟨b, eb, Rb⟩ := Ra.setCell q v
      simp only [if_pos q, eb]
      refine ⟨fun ss' v h' => ?_, fun h' => by cases h'⟩
      injection h' with h'
      injection h' with h1 h2
      subst h1 h2
      exact ⟨_, rfl, R.set s Rb⟩
    · simp only [if_neg q]
      exact ⟨fun ss' v h' => (by cases h'), fun _ => trivial⟩
  | write s i v =>
    simp only [sstep] at h ⊢
    obtain ⟨l, hl, e⟩ := sget_ok h
    rw [e] at h ⊢
    obtain ⟨a, ha, Ra⟩ := R.get hl
    simp only [step, get_of ha, Out.bind]
    by_cases q : i < l.length
    · obtain ⟨b, eb, Rb⟩ := Ra.setCell q v
      simp only [if_pos q, eb]
      refine ⟨fun ss' v h' => ?_, fun h' => by cases h'⟩
      injection h' with h'
      injection h' with h1 h2
      subst h1 h2
      exact ⟨_, rfl, R.set s Rb⟩
    · rw [if_neg q] at h; exact absurd rfl h
  | size s =>
    simp only [sstep] at h ⊢
    obtain ⟨l, hl, e⟩ := sget_ok h
    rw [e]
    obtain ⟨a, ha, Ra⟩ := R.get hl
    simp only [step, get_of ha, Out.bind, Ra.1]
    refine ⟨fun ss' v h' => ?_, fun h' => by cases h'⟩
    injection h' with h'
    injection h' with h1 h2
    subst h1 h2
    exact ⟨_, rfl, R⟩
  | empty s =>
    simp only [sstep] at h ⊢
    obtain ⟨l, hl, e⟩ := sget_ok h
    rw [e]
    obtain ⟨a, ha, Ra⟩ := R.get hl
    simp only [step, get_of ha, Out.bind, Ra.1]
    refine ⟨fun ss' v h' => ?_, fun h' => by cases h'⟩
    injection h' with h'
    injection h' with h1 h2
    subst h1 h2
    exact ⟨_, by cases l <;> rfl, R⟩
  | «at» s i =>
    simp only [sstep] at h ⊢
    obtain ⟨l, hl, e⟩ := sget_ok h
    rw [e] at h ⊢
    obtain ⟨a, ha, Ra⟩ := R.get hl
    simp only [step, get_of ha, Out.bind, Ra.1, Ra.cell]
    by_cases q : i < l.length
    · rw [if_pos q] at h
      obtain ⟨v, hv⟩ := nth_bind h
      simp only [if_pos q, hv]
      refine ⟨fun ss' v h' => ?_, fun h' => by cases h'⟩
      injection h' with h'
      injection h' with h1 h2
      subst h1 h2
      exact ⟨_, rfl, R⟩
    · simp only [if_neg q]
      exact ⟨fun ss' v h' => (by cases h'), fun _ => trivial⟩
  | read s i =>
    simp only [sstep] at h ⊢
    obtain ⟨l, hl, e⟩ := sget_ok h
    rw [e] at h ⊢
    obtain ⟨a, ha, Ra⟩ := R.get hl
    obtain ⟨v, hv⟩ := nth_bind h
    simp only [step, get_of ha, Out.bind, Ra.cell, hv]
    refine ⟨fun ss' v h' => ?_, fun h' => by cases h'⟩
    injection h' with h'
    injection h' with h1 h2
    subst h1 h2
    exact ⟨_, rfl, R⟩
  | front s =>
    simp only [sstep] at h ⊢
    obtain ⟨l, hl, e⟩ := sget_ok h
    rw [e] at h ⊢
    obtain ⟨a, ha, Ra⟩ := R.get hl
    obtain ⟨v, hv⟩ := nth_bind h
    simp only [step, get_of ha, Out.bind, Ra.cell, hv]
    refine ⟨fun ss' v h' => ?_, fun h' => by cases h'⟩
    injection h' with h'
    injection h' with h1 h2
    subst h1 h2
    exact ⟨_, rfl, R⟩
  | back s =>
    simp only [sstep] at h ⊢
    obtain ⟨l, hl, e⟩ := sget_ok h
    rw [e] at h ⊢
    obtain ⟨a, ha, Ra⟩ := R.get hl
    rcases hg : l.getLast? with _ | _ | v
    · rw [hg] at h; exact absurd rfl h
    · rw [hg] at h; exact absurd rfl h
    · have hpos : 0 < l.length := by
        rcases l with _ | ⟨x, l⟩
        · simp at hg
        · simp
      have hb := Ra.2.1
      have hi : (a.size + (2 ^ 64 - 1)) % 2 ^ 64 = l.length - 1 := by
        rw [Ra.1]; omega
      have hv : nth l (l.length - 1) = .ok v := by
        rw [List.getLast?_eq_getElem?] at hg
        simp only [nth, hg]
      simp only [step, get_of ha, Out.bind, Ra.cell, hi, hv]
      refine ⟨fun ss' v h' => ?_, fun h' => by cases h'⟩
      injection h' with h'
      injection h' with h1 h2
      subst h1 h2
      exact ⟨_, rfl, R⟩
  | list s =>
    simp only [sstep] at h ⊢
    obtain ⟨l, hl, e⟩ := sget_ok h
    rw [e] at h ⊢
    obtain ⟨k, rfl, e'⟩ := known_bind h
    rw [e']
    obtain ⟨a, ha, Ra⟩ := R.get hl
    simp only [step, get_of ha, Out.bind, Ra.elems]
    refine ⟨fun ss' v h' => ?_, fun h' => by cases h'⟩
    injection h' with h'
    injection h' with h1 h2
    subst h1 h2
    exact ⟨_, rfl, R⟩
  | eq s t =>
    simp only [sstep] at h ⊢
    obtain ⟨l, hl, e⟩ := sget_ok h
    rw [e] at h ⊢
    obtain ⟨m, hm, e⟩ := sget_ok h
    rw [e] at h ⊢
    obtain ⟨k, rfl, e'⟩ := known_bind h
    rw [e'] at h ⊢
    obtain ⟨k', rfl, e'⟩ := known_bind h
    rw [e']
    obtain ⟨a, ha, Ra⟩ := R.get hl
    obtain ⟨b, hb, Rb⟩ := R.get hm
    have sa : a.size = k.length := by simpa using Ra.1
    have sb : b.size = k'.length := by simpa using Rb.1
    refine ⟨fun ss' v h' => ?_, fun h' => by cases h'⟩
    injection h' with h'
    injection h' with h1 h2
    subst h1 h2
    refine ⟨st, ?_, R⟩
    by_cases q : k.length = k'.length
    · simp only [step, get_of ha, get_of hb, Out.bind, sa, sb, if_pos q, eqFrom_ok Ra.cell Rb.cell q k.length 0 (by omega), List.drop_zero]
    · simp only [step, get_of ha, get_of hb, Out.bind, sa, sb, if_neg q]
      rw [decide_eq_false fun h => q (by rw [h])]
  | cmp s t =>
    simp only [sstep] at h ⊢
    obtain ⟨l, hl, e⟩ := sget_ok h
    rw [e] at h ⊢
    obtain ⟨m, hm, e⟩ := sget_ok h
    rw [e] at h ⊢
    obtain ⟨k, rfl, e'⟩ := known_bind h
    rw [e'] at h ⊢
    obtain ⟨k', rfl, e'⟩ := known_bind h
    rw [e']
    obtain ⟨a, ha, Ra⟩ := R.get hl
    obtain ⟨b, hb, Rb⟩ := R.get hm
    have sa : a.size = k.length := by simpa using Ra.1
    have sb : b.size = k'.length := by simpa using Rb.1
    refine ⟨fun ss' v h' => ?_, fun h' => by cases h'⟩
    injection h' with h'
    injection h' with h1 h2
    subst h1 h2
    refine ⟨st, ?_, R⟩
    simp only [step, get_of ha, get_of hb, Out.bind, sa, cmpFrom_ok Ra.cell Rb.cell sb k.length 0 (by omega) (by omega), List.drop_zero]
    rfl

theorem run_ok (hcap : cap < 2 ^ 64) : ∀ (ops : List (Op T)), (∀ o ∈ ops, Careful over o) → ∀ (st : Store T) (ss : AStore T), RelS cap over st ss →
    ∀ ss' tr, srun cap ss ops = some (ss', tr) → ∃ st', run cap over st ops = some (st', tr) ∧ RelS cap over st' ss'
  | [], _, st, ss, R, ss', tr, h => by
    simp only [srun, Option.some.injEq, Prod.mk.injEq] at h
    obtain ⟨rfl, rfl⟩ := h
    exact ⟨st, rfl, R⟩
  | o :: os, hc, st, ss, R, ss', tr, h => by
    have hco := hc o (List.mem_cons_self ..)
    have hcs := fun o ho => hc o (List.mem_cons_of_mem _ ho)
    rw [srun] at h
    cases e : sstep cap ss o with
    | ub => rw [e] at h; cases h
    | throws =>
      rw [e] at h
      have h2 := (step_ok hcap R o hco (by rw [e]; exact fun q => by cases q)).2 e
      dsimp only at h
      rw [Option.map_eq_some_iff] at h
      obtain ⟨⟨x, y⟩, hx, hy⟩ := h
      simp only [Prod.mk.injEq] at hy
      obtain ⟨rfl, rfl⟩ := hy
      obtain ⟨st', e', R'⟩ := run_ok hcap os hcs st ss R _ _ hx
      exact ⟨st', by rw [run, h2]; simp [e'], R'⟩
    | ok r =>
      obtain ⟨s1, v⟩ := r
      rw [e] at h
      obtain ⟨st1, h2, R1⟩ := (step_ok hcap R o hco (by rw [e]; exact fun q => by cases q)).1 s1 v e
      dsimp only at h
      rw [Option.map_eq_some_iff] at h
      obtain ⟨⟨x, y⟩, hx, hy⟩ := h
      simp only [Prod.mk.injEq] at hy
      obtain ⟨rfl, rfl⟩ := hy
      obtain ⟨st', e', R'⟩ := run_ok hcap os hcs st1 s1 R1 _ _ hx
      exact ⟨st', by rw [run, h2]; simp [e'], R'⟩

end

end Verif.ArrOwn
