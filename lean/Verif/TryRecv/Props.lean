import Verif.TryRecv.Model
import Mathlib.Data.List.Induction
import Mathlib.Tactic.SplitIfs

/-! # C49: tryReceive; C50: border evaluation -/
namespace Verif.TryRecv

/-- Positions in which a call holds the lock. -/
def Holds : Pc → Prop
  | .flag2 | .req _ | .set | .unlock _ => True
  | _ => False

/-- Positions of a call that has set the flag. -/
def Won : Pc → Prop
  | .unlock true | .done true => True
  | _ => False

/-- Position `req k` or later without a failed test. -/
def Tested (n : Nat) (s : St) : Pc → Prop
  | .req k => k ≤ n ∧ ∀ j < k, s.comp j = true
  | .set | .unlock true | .done true => ∀ j < n, s.comp j = true
  | _ => True

/-- Positions in which the flag is known to be clear. -/
def Clear : Pc → Prop
  | .req _ | .set => True
  | _ => False

structure Inv (n : Nat) (s : St) : Prop where
  lock : ∀ i, Holds (s.pc i) ↔ s.lock = some i
  won : ∀ i j, Won (s.pc i) → Won (s.pc j) → i = j
  flag : s.flag = true ↔ ∃ i, Won (s.pc i)
  clear : ∀ i, Clear (s.pc i) → s.flag = false
  tested : ∀ i, Tested n s (s.pc i)

theorem inv_init (n : Nat) : Inv n St.init := by
  constructor <;> simp [St.init, Holds, Won, Clear, Tested]

theorem Tested.mono {n : Nat} {s s' : St} {p : Pc} (h : Tested n s p) (hc : ∀ k, s.comp k = true → s'.comp k = true) : Tested n s' p := by
  match p, h with
  | .idle, _ => trivial
  | .flag1, _ => trivial
  | .lock, _ => trivial
  | .flag2, _ => trivial
  | .req k, h => exact ⟨h.1, fun j hj => hc j (h.2 j hj)⟩
  | .set, h => exact fun j hj => hc j (h j hj)
  | .unlock true, h => exact fun j hj => hc j (h j hj)
  | .unlock false, _ => trivial
  | .done true, h => exact fun j hj => hc j (h j hj)
  | .done false, _ => trivial

/-- Moving call `i` between positions that neither change the lock nor win. -/
theorem inv_goto {n : Nat} {s : St} {i : Nat} {p : Pc} (h : Inv n s) (hh : Holds p ↔ Holds (s.pc i)) (hw : Won p ↔ Won (s.pc i))
    (hc : Clear p → s.flag = false) (ht : Tested n s p) : Inv n (s.goto i p) := by
  have hpc : ∀ j, (s.goto i p).pc j = if j = i then p else s.pc j := fun j => by
    simp only [St.goto, Function.update_apply]
  have hH : ∀ j, Holds ((s.goto i p).pc j) ↔ Holds (s.pc j) := fun j => by
    rw [hpc]; split
    · rename_i e; subst e; exact hh
    · rfl
  have hW : ∀ j, Won ((s.goto i p).pc j) ↔ Won (s.pc j) := fun j => by
    rw [hpc]; split
    · rename_i e; subst e; exact hw
    · rfl
  constructor
  · intro j; rw [hH]; exact h.lock j
  · intro j k; rw [hW, hW]; exact h.won j k
  · show s.flag = true ↔ _; rw [h.flag]; exact exists_congr fun j => (hW j).symm
  · intro j hj
    rw [hpc] at hj
    split at hj
    · exact hc hj
    · exact h.clear j hj
  · intro j
    rw [hpc]
    split
    · exact ht
    · exact h.tested j

theorem inv_next {n : Nat} {s s' : St} {e : Ev} (h : Inv n s) (hs : next n s e = some s') : Inv n s' := by
  cases e with
  | complete k =>
    obtain rfl := Option.some.inj hs
    exact ⟨h.lock, h.won, h.flag, h.clear, fun i => (h.tested i).mono fun j hj => by
      simp only [Function.update_apply]; split
      · rfl
      · exact hj⟩
  | spurious i =>
    simp only [next] at hs
    split at hs
    · rename_i hp
      obtain rfl := Option.some.inj hs
      exact inv_goto h (by rw [hp]; simp [Holds]) (by rw [hp]; simp [Won]) (by simp [Clear]) trivial
    · cases hs
  | step i =>
    simp only [next, act] at hs
    have hpc : ∀ (p : Pc) j, (s.goto i p).pc j = if j = i then p else s.pc j := fun p j => by
      simp only [St.goto, Function.update_apply]
    split at hs
    · rename_i hp
      obtain rfl := Option.some.inj hs
      exact inv_goto h (by rw [hp]; simp [Holds]) (by rw [hp]; simp [Won]) (by simp [Clear]) trivial
    · rename_i hp
      obtain rfl := Option.some.inj hs
      split
      · exact inv_goto h (by rw [hp]; simp [Holds]) (by rw [hp]; simp [Won]) (by simp [Clear]) trivial
      · exact inv_goto h (by rw [hp]; simp [Holds]) (by rw [hp]; simp [Won]) (by simp [Clear]) trivial
    · rename_i hp
      obtain rfl := Option.some.inj hs
      split
      · exact inv_goto h (by rw [hp]; simp [Holds]) (by rw [hp]; simp [Won]) (by simp [Clear]) trivial
      · rename_i hl
        have hl : s.lock = none := by simpa using hl
        have hW : ∀ j, Won ((s.goto i .flag2).pc j) ↔ Won (s.pc j) := fun j => by
          rw [hpc]; split
          · rename_i e; subst e; rw [hp]; simp [Won]
          · rfl
        constructor
        · intro j
          show Holds ((s.goto i .flag2).pc j) ↔ some i = some j
          rw [hpc]
          by_cases hj : j = i
          · simp [hj, Holds]
          · rw [if_neg hj, h.lock j, hl]; simp; omega
        · intro j k hj hk; exact h.won j k ((hW j).1 hj) ((hW k).1 hk)
        · show s.flag = true ↔ ∃ j, Won ((s.goto i .flag2).pc j); rw [h.flag]; exact exists_congr fun j => (hW j).symm
        · intro j hj
          have hj : Clear ((s.goto i .flag2).pc j) := hj
          rw [hpc] at hj
          split at hj
          · simp [Clear] at hj
          · exact h.clear j hj
        · intro j
          show Tested n _ ((s.goto i .flag2).pc j)
          rw [hpc]; split
          · trivial
          · exact (h.tested j).mono fun k hk => hk
    · rename_i hp
      obtain rfl := Option.some.inj hs
      split
      · exact inv_goto h (by rw [hp]; simp [Holds]) (by rw [hp]; simp [Won]) (by simp [Clear]) trivial
      · rename_i hf
        exact inv_goto h (by rw [hp]; simp [Holds]) (by rw [hp]; simp [Won]) (fun _ => by simpa using hf) ⟨Nat.zero_le _, by simp⟩
    · rename_i k hp
      obtain rfl := Option.some.inj hs
      have htk := h.tested i
      have hcl := h.clear i
      rw [hp] at htk hcl
      split
      · rename_i hk
        split
        · rename_i hc
          refine inv_goto h (by rw [hp]; simp [Holds]) (by rw [hp]; simp [Won]) (fun _ => hcl trivial) ⟨hk, fun j hj => ?_⟩
          by_cases hjk : j = k
          · rw [hjk]; exact hc
          · exact htk.2 j (by omega)
        · exact inv_goto h (by rw [hp]; simp [Holds]) (by rw [hp]; simp [Won]) (by simp [Clear]) trivial
      · refine inv_goto h (by rw [hp]; simp [Holds]) (by rw [hp]; simp [Won]) (fun _ => hcl trivial) fun j hj => ?_
        exact htk.2 j (by omega)
    · rename_i hp
      obtain rfl := Option.some.inj hs
      have htk := h.tested i
      have hcl := h.clear i
      have hlk := (h.lock i).1 (by rw [hp]; trivial)
      rw [hp] at htk hcl
      have hf := hcl trivial
      have hnw : ∀ j, ¬ Won (s.pc j) := fun j hj => by
        have := h.flag.2 ⟨j, hj⟩; rw [hf] at this; cases this
      constructor
      · intro j
        show Holds ((s.goto i (.unlock true)).pc j) ↔ s.lock = some j
        rw [hpc]
        by_cases hj : j = i
        · rw [if_pos hj, hj]; simp [Holds, hlk]
        · rw [if_neg hj]; exact h.lock j
      · intro j k hj hk
        have hj : Won ((s.goto i (.unlock true)).pc j) := hj
        have hk : Won ((s.goto i (.unlock true)).pc k) := hk
        rw [hpc] at hj hk
        split at hj
        · split at hk
          · omega
          · exact absurd hk (hnw k)
        · exact absurd hj (hnw j)
      · refine ⟨fun _ => ⟨i, ?_⟩, fun _ => rfl⟩
        show Won ((s.goto i (.unlock true)).pc i)
        rw [hpc, if_pos rfl]; trivial
      · intro j hj
        have hj : Clear ((s.goto i (.unlock true)).pc j) := hj
        rw [hpc] at hj
        split at hj
        · simp [Clear] at hj
        · rename_i hji
          have : s.lock = some j := (h.lock j).1 (by
            revert hj; cases s.pc j <;> simp [Clear, Holds])
          rw [hlk] at this
          exact absurd (Option.some.inj this).symm hji
      · intro j
        show Tested n _ ((s.goto i (.unlock true)).pc j)
        rw [hpc]; split
        · exact htk
        · exact (h.tested j).mono fun k hk => hk
    · rename_i b hp
      obtain rfl := Option.some.inj hs
      have htk := h.tested i
      have hlk := (h.lock i).1 (by rw [hp]; trivial)
      rw [hp] at htk
      have hW : ∀ j, Won ((s.goto i (.done b)).pc j) ↔ Won (s.pc j) := fun j => by
        rw [hpc]; split
        · rename_i e; subst e; rw [hp]; cases b <;> simp [Won]
        · rfl
      constructor
      · intro j
        show Holds ((s.goto i (.done b)).pc j) ↔ none = some j
        rw [hpc]
        by_cases hj : j = i
        · rw [if_pos hj]; simp [Holds]
        · rw [if_neg hj, h.lock j, hlk]; simp; omega
      · intro j k hj hk; exact h.won j k ((hW j).1 hj) ((hW k).1 hk)
      · show s.flag = true ↔ ∃ j, Won ((s.goto i (.done b)).pc j); rw [h.flag]; exact exists_congr fun j => (hW j).symm
      · intro j hj
        have hj : Clear ((s.goto i (.done b)).pc j) := hj
        rw [hpc] at hj
        split at hj
        · simp [Clear] at hj
        · exact h.clear j hj
      · intro j
        show Tested n _ ((s.goto i (.done b)).pc j)
        rw [hpc]; split
        · cases b
          · trivial
          · exact htk
        · exact (h.tested j).mono fun k hk => hk
    · cases hs

theorem inv_run {n : Nat} {es : List Ev} : ∀ {s s' : St}, Inv n s → run n s es = some s' → Inv n s' := by
  induction es with
  | nil => intro s s' h hs; obtain rfl := Option.some.inj hs; exact h
  | cons e es ih =>
    intro s s' h hs
    unfold run at hs
    rw [List.foldlM_cons] at hs
    obtain ⟨s1, h1, h2⟩ := Option.bind_eq_some_iff.1 hs
    exact ih (inv_next h h1) h2

theorem inv_reach {n : Nat} {s : St} (h : Reach n s) : Inv n s := by
  obtain ⟨es, hs⟩ := h
  exact inv_run (inv_init n) hs

/-- C49: in every interleaving of any number of calls with the arrival of messages, at most one call returns true. -/
theorem C49_at_most_once {n : Nat} {s : St} (h : Reach n s) (i j : Nat) (hi : s.pc i = .done true) (hj : s.pc j = .done true) : i = j :=
  (inv_reach h).won i j (by rw [hi]; trivial) (by rw [hj]; trivial)

/-- C49: a call returns true only after all receives completed, and the flag read by `testReceive` is set only after that. -/
theorem C49_complete {n : Nat} {s : St} (h : Reach n s) :
    (∀ i, s.pc i = .done true → ∀ k < n, s.comp k = true) ∧ (s.flag = true → ∀ k < n, s.comp k = true) := by
  have hi := inv_reach h
  constructor
  · intro i hp
    have := hi.tested i; rw [hp] at this; exact this
  · intro hf
    obtain ⟨i, hw⟩ := hi.flag.1 hf
    have ht := hi.tested i
    revert hw ht
    rcases s.pc i with _ | _ | _ | _ | _ | _ | b | b <;> try (simp [Won]; done)
    · cases b
      · simp [Won]
      · exact fun _ h => h
    · cases b
      · simp [Won]
      · exact fun _ h => h

theorem run_cons {n : Nat} {s s1 : St} {e : Ev} {es : List Ev} (h : next n s e = some s1) : run n s (e :: es) = run n s1 es := by
  unfold run; rw [List.foldlM_cons, h]; rfl

theorem run_append {n : Nat} {s s1 : St} {es es' : List Ev} (h : run n s es = some s1) : run n s (es ++ es') = run n s1 es' := by
  unfold run at *; rw [List.foldlM_append, h]; rfl

theorem goto_goto (s : St) (i : Nat) (p q : Pc) : (s.goto i p).goto i q = s.goto i q := by
  unfold St.goto; simp

theorem goto_pc (s : St) (i : Nat) (p : Pc) : (s.goto i p).pc i = p := by simp [St.goto]

/-- Testing the remaining requests when all are complete. -/
theorem run_req {n : Nat} (i d : Nat) : ∀ (s : St) (k : Nat), n - k = d → k ≤ n → s.pc i = .req k → (∀ j < n, s.comp j = true) →
    run n s (List.replicate (d + 1) (.step i)) = some (s.goto i .set) := by
  induction d with
  | zero =>
    intro s k hd hk hp hc
    rw [List.replicate_succ, run_cons (s1 := s.goto i .set)]
    · rfl
    · simp only [next, act, hp]; rw [if_neg (by omega)]
  | succ d ih =>
    intro s k hd hk hp hc
    rw [List.replicate_succ, run_cons (s1 := s.goto i (.req (k + 1)))]
    · rw [ih (s.goto i (.req (k + 1))) (k + 1) (by omega) (by omega) (goto_pc _ _ _) (fun j hj => hc j hj), goto_goto]
    · simp only [next, act, hp]; rw [if_pos (by omega), if_pos (hc k (by omega))]

/-- A fresh call alone, with everything received, the lock free and the flag clear, returns true. -/
theorem run_fresh {n : Nat} {s : St} {i : Nat} (hp : s.pc i = .idle) (hl : s.lock = none) (hf : s.flag = false) (hc : ∀ j < n, s.comp j = true) :
    ∃ es s', (∀ e ∈ es, e = .step i) ∧ run n s es = some s' ∧ s'.pc i = .done true := by
  refine ⟨[.step i, .step i, .step i, .step i] ++ (List.replicate (n + 1) (.step i) ++ [.step i, .step i]), ?_⟩
  let s2 : St := { s.goto i (.req 0) with lock := some i }
  have h4 : run n s [.step i, .step i, .step i, .step i] = some s2 := by
    rw [run_cons (s1 := s.goto i .flag1) (by simp only [next, act, hp])]
    rw [run_cons (s1 := s.goto i .lock) (by
      simp only [next, act, goto_pc, goto_goto]; rw [if_neg (by show s.flag ≠ true; simp [hf])])]
    rw [run_cons (s1 := { s.goto i .flag2 with lock := some i }) (by
      simp only [next, act, goto_pc, goto_goto]; rw [if_neg (by show ¬ s.lock.isSome = true; simp [hl])])]
    rw [run_cons (s1 := s2) (by
      simp only [next, act, goto_pc]
      rw [if_neg (by show s.flag ≠ true; simp [hf])]
      show some _ = some s2
      simp [s2, St.goto])]
    rfl
  have hr := run_req (n := n) i n s2 0 (by omega) (by omega) (by simp [s2, goto_pc]) hc
  refine ⟨{ (s2.goto i (.done true)) with flag := true, lock := none }, by simp, ?_, by simp [St.goto]⟩
  rw [run_append h4, run_append hr]
  rw [run_cons (s1 := { s2.goto i (.unlock true) with flag := true }) (by simp only [next, act, goto_pc, goto_goto])]
  rw [run_cons (s1 := { (s2.goto i (.done true)) with flag := true, lock := none }) (by
    simp only [next, act, goto_pc]; simp [St.goto])]
  rfl

/-- The holder of the lock, running alone with everything received, either returns true or releases the lock with the flag as it
was. -/
theorem run_holder {n : Nat} {s : St} (hi : Inv n s) {i : Nat} (hl : s.lock = some i) (hc : ∀ j < n, s.comp j = true) :
    ∃ es s', (∀ e ∈ es, e = .step i) ∧ run n s es = some s' ∧ (s'.pc i = .done true ∨ (s'.lock = none ∧ s'.flag = s.flag ∧ s'.comp = s.comp ∧ ∀ j, j ≠ i → s'.pc j = s.pc j)) := by
  have hh := (hi.lock i).2 hl
  have hset : ∀ (s : St), s.pc i = .set → ∃ es s', (∀ e ∈ es, e = Ev.step i) ∧ run n s es = some s' ∧ s'.pc i = .done true := by
    intro s hp
    refine ⟨[.step i, .step i], { (s.goto i (.done true)) with flag := true, lock := none }, by simp, ?_, by simp [St.goto]⟩
    rw [run_cons (s1 := { s.goto i (.unlock true) with flag := true }) (by simp only [next, act, hp])]
    rw [run_cons (s1 := { (s.goto i (.done true)) with flag := true, lock := none }) (by simp only [next, act, goto_pc]; simp [St.goto])]
    rfl
  have hreq : ∀ (s : St) k, k ≤ n → s.pc i = .req k → (∀ j < n, s.comp j = true) → ∃ es s', (∀ e ∈ es, e = Ev.step i) ∧ run n s es = some s' ∧ s'.pc i = .done true := by
    intro s k hk hp hc
    have hr := run_req (n := n) i (n - k) s k rfl hk hp hc
    obtain ⟨es, s', h1, h2, h3⟩ := hset (s.goto i .set) (goto_pc _ _ _)
    refine ⟨_, s', ?_, (run_append hr).trans h2, h3⟩
    intro e he
    rcases List.mem_append.1 he with he | he
    · exact List.eq_of_mem_replicate he
    · exact h1 e he
  rcases hp : s.pc i with _ | _ | _ | _ | k | _ | b | b
  · rw [hp] at hh; simp [Holds] at hh
  · rw [hp] at hh; simp [Holds] at hh
  · rw [hp] at hh; simp [Holds] at hh
  · by_cases hf : s.flag = true
    · refine ⟨[.step i, .step i], { s.goto i (.done false) with lock := none }, by simp, ?_, Or.inr ⟨rfl, rfl, rfl, fun j hj => by simp [St.goto, hj]⟩⟩
      rw [run_cons (s1 := s.goto i (.unlock false)) (by simp only [next, act, hp]; rw [if_pos hf])]
      rw [run_cons (s1 := { s.goto i (.done false) with lock := none }) (by simp only [next, act, goto_pc, goto_goto])]
      rfl
    · obtain ⟨es, s', h1, h2, h3⟩ := hreq (s.goto i (.req 0)) 0 (by omega) (goto_pc _ _ _) hc
      refine ⟨.step i :: es, s', by simpa using h1, ?_, Or.inl h3⟩
      rw [run_cons (s1 := s.goto i (.req 0)) (by simp only [next, act, hp]; rw [if_neg hf])]
      exact h2
  · have ht := hi.tested i
    rw [hp] at ht
    obtain ⟨es, s', h1, h2, h3⟩ := hreq s k ht.1 hp hc
    exact ⟨es, s', h1, h2, Or.inl h3⟩
  · obtain ⟨es, s', h1, h2, h3⟩ := hset s hp
    exact ⟨es, s', h1, h2, Or.inl h3⟩
  · refine ⟨[.step i], { s.goto i (.done b) with lock := none }, by simp, ?_, ?_⟩
    · rw [run_cons (s1 := { s.goto i (.done b) with lock := none }) (by simp only [next, act, hp])]; rfl
    · cases b
      · exact Or.inr ⟨rfl, rfl, rfl, fun j hj => by simp [St.goto, hj]⟩
      · left; simp [St.goto]
  · rw [hp] at hh; simp [Holds] at hh

/-- C49: whatever happened before, once all receives are complete, if no call has returned true yet, letting the call that holds
the lock (if any) finish and then polling once more makes some call return true. -/
theorem C49_progress {n : Nat} {s : St} (h : Reach n s) (hc : ∀ k < n, s.comp k = true) (i : Nat) (hp : s.pc i = .idle) :
    ∃ es s', (∀ e ∈ es, ∃ j, e = .step j ∧ (s.lock = some j ∨ j = i)) ∧ run n s es = some s' ∧ ∃ j, s'.pc j = .done true := by
  have hi := inv_reach h
  rcases hl : s.lock with _ | j
  · by_cases hf : s.flag = true
    · obtain ⟨j, hw⟩ := hi.flag.1 hf
      refine ⟨[], s, by simp, rfl, j, ?_⟩
      have hnh : ¬ Holds (s.pc j) := fun hh => by have := (hi.lock j).1 hh; rw [hl] at this; cases this
      revert hw hnh
      rcases s.pc j with _ | _ | _ | _ | _ | _ | b | b <;> simp [Won, Holds]
      cases b <;> simp
    · obtain ⟨es, s', h1, h2, h3⟩ := run_fresh hp hl (by simpa using hf) hc
      exact ⟨es, s', fun e he => ⟨i, h1 e he, Or.inr rfl⟩, h2, i, h3⟩
  · have hij : i ≠ j := by
      rintro rfl
      have := (hi.lock i).2 hl
      rw [hp] at this; simp [Holds] at this
    obtain ⟨es, s', h1, h2, h3⟩ := run_holder hi hl hc
    rcases h3 with h3 | ⟨h3, h4, h5, h6⟩
    · exact ⟨es, s', fun e he => ⟨j, h1 e he, Or.inl rfl⟩, h2, j, h3⟩
    · have hi' := inv_run hi h2
      by_cases hf : s'.flag = true
      · obtain ⟨k, hw⟩ := hi'.flag.1 hf
        refine ⟨es, s', fun e he => ⟨j, h1 e he, Or.inl rfl⟩, h2, k, ?_⟩
        have hnh : ¬ Holds (s'.pc k) := fun hh => by have := (hi'.lock k).1 hh; rw [h3] at this; cases this
        revert hw hnh
        rcases s'.pc k with _ | _ | _ | _ | _ | _ | b | b <;> simp [Won, Holds]
        cases b <;> simp
      · obtain ⟨es', s'', g1, g2, g3⟩ := run_fresh (s := s') (n := n) (by rw [h6 i hij]; exact hp) h3 (by simpa using hf) (by rw [h5]; exact hc)
        refine ⟨es ++ es', s'', ?_, (run_append h2).trans g2, i, g3⟩
        intro e he
        rcases List.mem_append.1 he with he | he
        · exact ⟨j, h1 e he, Or.inl rfl⟩
        · exact ⟨i, g1 e he, Or.inr rfl⟩

/-- Two calls poll with one receive: the first claims it. -/
example : ∃ es s, run 1 St.init es = some s ∧ s.pc 0 = .done true ∧ s.pc 1 = .done false ∧ s.comp 0 = true :=
  ⟨[.step 0, .step 0, .step 0, .complete 0, .step 1, .step 1, .step 1, .step 0, .step 0, .step 0, .step 0, .step 0], _, rfl, by decide, by decide, by decide⟩

/-! ### C50 -/

/-- A call that has not been polled by its element has not started; a polled element either waits for its call or knows its
result. -/
structure OInv (m n : Nat) (o : Op) : Prop where
  base : Inv n o.base
  fresh : ∀ i, o.elem i = .eval → o.base.pc i = .idle
  border : ∀ i, o.elem i = .border → o.base.pc i = .done true
  fin : ∀ i, o.elem i = .fin → o.base.pc i = .idle ∨ ∃ b, o.base.pc i = .done b
  bound : ∀ i, o.elem i ≠ .eval → i < m
  main : o.main ≠ .interior → ∀ i < m, o.elem i = .fin
  wait : o.main = .wait ∨ o.main = .finWait → o.base.flag = false
  direct : o.main = .finDirect → o.base.flag = true
  logOk : ∀ b ∈ o.log, b = true
  count0 : o.main ≠ .finWait → (¬ ∃ i, o.base.pc i = .done true ∧ o.elem i = .fin) → o.log = []
  count1 : (∃ i, o.base.pc i = .done true ∧ o.elem i = .fin) → o.log.length = 1
  countW : o.main = .finWait → o.log.length = 1

theorem oinv_init (m n : Nat) : OInv m n Op.init := by
  refine ⟨inv_init n, ?_, ?_, ?_, ?_, ?_, ?_, ?_, ?_, ?_, ?_, ?_⟩ <;> simp [Op.init, St.init]

theorem allComp_iff (n : Nat) (s : St) : allComp n s = true ↔ ∀ k < n, s.comp k = true := by
  simp [allComp]

/-- A step inside the library touches one call, which is running, and leaves results alone; the flag changes only by a running
call. -/
theorem next_other {n : Nat} {s s' : St} {e : Ev} (hs : next n s e = some s') :
    (∀ j, (∀ i, e = .step i ∨ e = .spurious i → i ≠ j) → s'.pc j = s.pc j) ∧ ((∃ k, e = .complete k) → s'.pc = s.pc ∧ s'.flag = s.flag) := by
  cases e with
  | complete k => obtain rfl := Option.some.inj hs; exact ⟨fun _ _ => rfl, fun _ => ⟨rfl, rfl⟩⟩
  | spurious i =>
    simp only [next] at hs
    split at hs
    · obtain rfl := Option.some.inj hs
      refine ⟨fun j hj => ?_, by simp⟩
      have := hj i (Or.inr rfl)
      simp [St.goto, Ne.symm this]
    · cases hs
  | step i =>
    refine ⟨fun j hj => ?_, by simp⟩
    have hij := Ne.symm (hj i (Or.inl rfl))
    simp only [next, act] at hs
    split at hs <;> first
      | (cases hs; done)
      | (obtain rfl := Option.some.inj hs
         first
           | (simp [St.goto, hij]; done)
           | (split <;> simp [St.goto, hij]))

theorem oinv_next {m n : Nat} {o o' : Op} {e : OEv} (h : OInv m n o) (hs : onext m n o e = some o') : OInv m n o' := by
  cases e with
  | eval i =>
    simp only [onext] at hs
    split at hs
    · rename_i hc
      obtain ⟨him, hie, hmi⟩ := hc
      obtain rfl := Option.some.inj hs
      have hidle := h.fresh i hie
      have hup : ∀ p j, Function.update o.elem i p j = if j = i then p else o.elem j := fun p j => by rw [Function.update_apply]
      have hex : (∃ j, o.base.pc j = .done true ∧ Function.update o.elem i (if o.base.flag then EPc.fin else .poll) j = .fin) ↔
          ∃ j, o.base.pc j = .done true ∧ o.elem j = .fin := by
        refine exists_congr fun j => and_congr_right fun hj => ?_
        rw [hup]
        split
        · rename_i e; subst e; rw [hidle] at hj; cases hj
        · rfl
      refine ⟨h.base, ?_, ?_, ?_, ?_, ?_, h.wait, h.direct, h.logOk, ?_, ?_, h.countW⟩
      · intro j hj
        simp only [hup] at hj
        split at hj
        · split at hj <;> cases hj
        · exact h.fresh j hj
      · intro j hj
        simp only [hup] at hj
        split at hj
        · split at hj <;> cases hj
        · exact h.border j hj
      · intro j hj
        simp only [hup] at hj
        split at hj
        · rename_i e; subst e; exact Or.inl hidle
        · exact h.fin j hj
      · intro j hj
        simp only [hup] at hj
        split at hj
        · omega
        · exact h.bound j hj
      · intro hm; exact absurd hmi hm
      · intro hm hn; exact h.count0 hm fun hx => hn (hex.2 hx)
      · intro hx; exact h.count1 (hex.1 hx)
    · cases hs
  | inner e =>
    simp only [onext] at hs
    split at hs
    · rename_i hal
      obtain ⟨b, hb, rfl⟩ := Option.map_eq_some_iff.1 hs
      obtain ⟨hoth, hcm⟩ := next_other hb
      have hpoll : ∀ j, o.elem j ≠ .poll → b.pc j = o.base.pc j := by
        intro j hj
        refine hoth j ?_
        rintro i hi rfl
        rcases hi with rfl | rfl <;> exact hj (by simpa [Ev.allowed] using hal)
      have hflag : (∀ j, o.elem j ≠ .poll) → b.flag = o.base.flag := by
        intro hn
        refine (hcm ?_).2
        cases e with
        | complete k => exact ⟨k, rfl⟩
        | step i => exact absurd (by simpa [Ev.allowed] using hal) (hn i)
        | spurious i => exact absurd (by simpa [Ev.allowed] using hal) (hn i)
      have hnp : o.main ≠ .interior → ∀ j, o.elem j ≠ .poll := by
        intro hm j hj
        have := h.main hm j (h.bound j (by rw [hj]; simp))
        rw [hj] at this; cases this
      have hfin : ∀ j, o.elem j = .fin → b.pc j = o.base.pc j := fun j hj => hpoll j (by rw [hj]; simp)
      have hex : (∃ j, b.pc j = .done true ∧ o.elem j = .fin) ↔ ∃ j, o.base.pc j = .done true ∧ o.elem j = .fin := by
        refine exists_congr fun j => and_congr_left fun hj => ?_
        rw [hfin j hj]
      refine ⟨inv_next h.base hb, ?_, ?_, ?_, h.bound, h.main, ?_, ?_, h.logOk, ?_, ?_, h.countW⟩
      · intro j hj; show b.pc j = _; rw [hpoll j (by rw [hj]; simp)]; exact h.fresh j hj
      · intro j hj; show b.pc j = _; rw [hpoll j (by rw [hj]; simp)]; exact h.border j hj
      · intro j hj
        show b.pc j = _ ∨ ∃ c, b.pc j = _
        rw [hfin j hj]; exact h.fin j hj
      · intro hm
        show b.flag = _
        rw [hflag (hnp (by rcases hm with hm | hm <;> (rw [hm]; simp)))]; exact h.wait hm
      · intro hm
        show b.flag = _
        rw [hflag (hnp (by rw [hm]; simp))]; exact h.direct hm
      · intro hm hn; exact h.count0 hm fun hx => hn (hex.2 hx)
      · intro hx; exact h.count1 (hex.1 hx)
    · cases hs
  | ret i =>
    simp only [onext] at hs
    split at hs
    · rename_i hip
      split at hs
      · rename_i c hpc
        obtain rfl := Option.some.inj hs
        have hup : ∀ p j, Function.update o.elem i p j = if j = i then p else o.elem j := fun p j => by rw [Function.update_apply]
        have hmi : o.main = .interior := by
          by_contra hm
          have := h.main hm i (h.bound i (by rw [hip]; simp))
          rw [hip] at this; cases this
        have hex : (∃ j, o.base.pc j = .done true ∧ Function.update o.elem i (if c then EPc.border else .fin) j = .fin) ↔
            ∃ j, o.base.pc j = .done true ∧ o.elem j = .fin := by
          refine exists_congr fun j => and_congr_right fun hj => ?_
          rw [hup]
          split
          · rename_i e; subst e
            rw [hpc] at hj
            obtain rfl : c = true := by simpa using hj
            rw [hip]; simp
          · rfl
        refine ⟨h.base, ?_, ?_, ?_, ?_, ?_, h.wait, h.direct, h.logOk, ?_, ?_, h.countW⟩
        · intro j hj
          simp only [hup] at hj
          split at hj
          · split at hj <;> cases hj
          · exact h.fresh j hj
        · intro j hj
          simp only [hup] at hj
          split at hj
          · rename_i e; subst e
            split at hj
            · rename_i hc; show o.base.pc j = _; rw [hpc, hc]
            · cases hj
          · exact h.border j hj
        · intro j hj
          simp only [hup] at hj
          split at hj
          · rename_i e; subst e; exact Or.inr ⟨c, hpc⟩
          · exact h.fin j hj
        · intro j hj
          simp only [hup] at hj
          split at hj
          · rename_i e; subst e; exact h.bound j (by rw [hip]; simp)
          · exact h.bound j hj
        · intro hm; exact absurd hmi hm
        · intro hm hn; exact h.count0 hm fun hx => hn (hex.2 hx)
        · intro hx; exact h.count1 (hex.1 hx)
      · cases hs
    · cases hs
  | border i =>
    simp only [onext] at hs
    split at hs
    · rename_i hib
      obtain rfl := Option.some.inj hs
      have hup : ∀ p j, Function.update o.elem i p j = if j = i then p else o.elem j := fun p j => by rw [Function.update_apply]
      have hmi : o.main = .interior := by
        by_contra hm
        have := h.main hm i (h.bound i (by rw [hib]; simp))
        rw [hib] at this; cases this
      have hdone := h.border i hib
      have hnone : ¬ ∃ j, o.base.pc j = .done true ∧ o.elem j = .fin := by
        rintro ⟨j, hj, hf⟩
        have := h.base.won i j (by rw [hdone]; trivial) (by rw [hj]; trivial)
        subst this
        rw [hib] at hf; cases hf
      have hlog : o.log = [] := h.count0 (by rw [hmi]; simp) hnone
      have hall : allComp n o.base = true := (allComp_iff _ _).2 (by
        have := h.base.tested i; rw [hdone] at this; exact this)
      refine ⟨h.base, ?_, ?_, ?_, ?_, ?_, h.wait, h.direct, ?_, ?_, ?_, ?_⟩
      · intro j hj
        simp only [hup] at hj
        split at hj
        · cases hj
        · exact h.fresh j hj
      · intro j hj
        simp only [hup] at hj
        split at hj
        · cases hj
        · exact h.border j hj
      · intro j hj
        simp only [hup] at hj
        split at hj
        · rename_i e; subst e; exact Or.inr ⟨true, hdone⟩
        · exact h.fin j hj
      · intro j hj
        simp only [hup] at hj
        split at hj
        · rename_i e; subst e; exact h.bound j (by rw [hib]; simp)
        · exact h.bound j hj
      · intro hm; exact absurd hmi hm
      · show ∀ b ∈ o.log ++ [_], _
        rw [hlog, hall]; simp
      · intro _ hn
        refine absurd ⟨i, hdone, ?_⟩ hn
        show Function.update _ _ _ _ = _
        rw [hup, if_pos rfl]
      · intro _; show (o.log ++ [_]).length = 1; rw [hlog]; rfl
      · intro hm; exact absurd (hmi.symm.trans hm) (by simp)
    · cases hs
  | check =>
    simp only [onext] at hs
    split at hs
    · rename_i hc
      obtain rfl := Option.some.inj hs
      refine ⟨h.base, h.fresh, h.border, h.fin, h.bound, fun _ => hc.2, ?_, ?_, h.logOk, ?_, h.count1, ?_⟩
      · show ((if o.base.flag = true then MPc.finDirect else .wait) = _ ∨ (if o.base.flag = true then MPc.finDirect else .wait) = _) → _
        split
        · simp
        · rename_i hf; intro _; simpa using hf
      · show (if o.base.flag = true then MPc.finDirect else .wait) = _ → _
        split
        · rename_i hf; intro _; exact hf
        · simp
      · intro _ hn; exact h.count0 (by rw [hc.1]; simp) hn
      · show (if o.base.flag = true then MPc.finDirect else .wait) = _ → _
        split <;> simp
    · cases hs
  | waited =>
    simp only [onext] at hs
    split at hs
    · rename_i hc
      obtain rfl := Option.some.inj hs
      have hf := h.wait (Or.inl hc.1)
      have hnone : ¬ ∃ j, o.base.pc j = .done true ∧ o.elem j = .fin := by
        rintro ⟨j, hj, _⟩
        have := h.base.flag.2 ⟨j, by rw [hj]; trivial⟩
        rw [hf] at this; cases this
      have hlog : o.log = [] := h.count0 (by rw [hc.1]; simp) hnone
      refine ⟨h.base, h.fresh, h.border, h.fin, h.bound, fun _ => h.main (by rw [hc.1]; simp), fun _ => hf, by simp, ?_, by simp, ?_, ?_⟩
      · show ∀ b ∈ o.log ++ [_], _
        rw [hlog, hc.2]; simp
      · intro hx; exact absurd hx hnone
      · intro _; show (o.log ++ [_]).length = 1; rw [hlog]; rfl
    · cases hs

theorem oinv_reach {m n : Nat} {o : Op} (h : OReach m n o) : OInv m n o := by
  obtain ⟨es, hs⟩ := h
  have : ∀ (es : List OEv) (o o' : Op), OInv m n o → orun m n o es = some o' → OInv m n o' := by
    intro es
    induction es with
    | nil => intro o o' h hs; obtain rfl := Option.some.inj hs; exact h
    | cons e es ih =>
      intro o o' h hs
      unfold orun at hs
      rw [List.foldlM_cons] at hs
      obtain ⟨o1, h1, h2⟩ := Option.bind_eq_some_iff.1 hs
      exact ih o1 o' (oinv_next h h1) h2
  exact this es _ _ (oinv_init m n) hs

/-- C50: in every schedule, for any number of interior elements (also none) and of messages, when the application passes the border
stage the border has been evaluated (and the sends posted) exactly once, with all receives complete. -/
theorem C50_exactly_once {m n : Nat} {o : Op} (h : OReach m n o) (hm : o.main = .finDirect ∨ o.main = .finWait) : o.log = [true] := by
  have hi := oinv_reach h
  have hone : o.log.length = 1 := by
    rcases hm with hm | hm
    · have hf := hi.direct hm
      obtain ⟨w, hw⟩ := hi.base.flag.1 hf
      have hfin : ∀ j < m, o.elem j = .fin := hi.main (by rw [hm]; simp)
      have hwe : o.elem w = .fin := by
        by_cases he : o.elem w = .eval
        · rw [hi.fresh w he] at hw; simp [Won] at hw
        · exact hfin w (hi.bound w he)
      refine hi.count1 ⟨w, ?_, hwe⟩
      rcases hi.fin w hwe with h1 | ⟨b, h1⟩
      · rw [h1] at hw; simp [Won] at hw
      · rw [h1] at hw ⊢
        cases b
        · simp [Won] at hw
        · rfl
    · exact hi.countW hm
  obtain ⟨b, hb⟩ := List.length_eq_one_iff.1 hone
  rw [hb, hi.logOk b (by rw [hb]; simp)]

/-- C50: at no moment of any schedule has the border been evaluated more than once, or before everything arrived. -/
theorem C50_never_twice {m n : Nat} {o : Op} (h : OReach m n o) : o.log = [] ∨ o.log = [true] := by
  have hi := oinv_reach h
  by_cases hm : o.main = .finWait
  · exact Or.inr (C50_exactly_once h (Or.inr hm))
  · by_cases hx : ∃ i, o.base.pc i = .done true ∧ o.elem i = .fin
    · right
      obtain ⟨b, hb⟩ := List.length_eq_one_iff.1 (hi.count1 hx)
      rw [hb, hi.logOk b (by rw [hb]; simp)]
    · exact Or.inl (hi.count0 hm hx)

theorem orun_append {m n : Nat} {o o1 : Op} {es es' : List OEv} (h : orun m n o es = some o1) : orun m n o (es ++ es') = orun m n o1 es' := by
  unfold orun at *; rw [List.foldlM_append, h]; rfl

/-- C50: the application cannot get stuck: when every interior element has finished and everything has arrived, the border stage
can be passed. -/
theorem C50_completes {m n : Nat} {o : Op} (h : OReach m n o) (hm : o.main = .interior) (hf : ∀ i < m, o.elem i = .fin)
    (hc : ∀ k < n, o.base.comp k = true) : ∃ es o', orun m n o es = some o' ∧ o'.log = [true] := by
  by_cases hfl : o.base.flag = true
  · have hs : orun m n o [.check] = some { o with main := .finDirect } := by
      simp only [orun, List.foldlM_cons, List.foldlM_nil, onext]
      rw [if_pos ⟨hm, hf⟩, if_pos hfl]; rfl
    obtain ⟨es, he⟩ := h
    exact ⟨_, _, hs, C50_exactly_once (m := m) (n := n) ⟨es ++ [.check], (orun_append he).trans hs⟩ (Or.inl rfl)⟩
  · have hs : orun m n o [.check, .waited] = some { o with main := .finWait, log := o.log ++ [true] } := by
      have hall := (allComp_iff n o.base).2 hc
      simp only [orun, List.foldlM_cons, List.foldlM_nil, onext]
      rw [if_pos ⟨hm, hf⟩, if_neg hfl]
      simp [hall]
    obtain ⟨es, he⟩ := h
    exact ⟨_, _, hs, C50_exactly_once (m := m) (n := n) ⟨es ++ [.check, .waited], (orun_append he).trans hs⟩ (Or.inr rfl)⟩

/-- No interior elements. -/
example : ∃ o, orun 0 1 Op.init [.check, .inner (.complete 0), .waited] = some o ∧ o.main = .finWait ∧ o.log = [true] :=
  ⟨_, rfl, by decide, by decide⟩

/-- Two interior elements, the second one evaluates the border. -/
example : ∃ o, orun 2 0 Op.init ([.eval 0, .eval 1] ++ (List.replicate 7 (.inner (.step 1))) ++ [.inner (.step 0), .inner (.step 0), .ret 0, .ret 1, .border 1, .check]) = some o ∧
    o.main = .finDirect ∧ o.log = [true] :=
  ⟨_, rfl, by decide, by decide⟩

end Verif.TryRecv
