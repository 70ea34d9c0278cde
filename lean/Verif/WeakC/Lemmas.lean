import Verif.WeakC.Model
import Mathlib.Data.List.Basic

namespace Verif.WeakC

variable {K V : Type}

/-- Pointers and weak pointers are to objects that were made; those of the cache to objects made for the key. -/
structure Wf (s : State K V) : Prop where
  ptrs : ∀ i, some i ∈ s.ptrs → i < s.objs.length
  cache : ∀ k i, s.cache k = some i → ∃ v, s.objs[i]? = some (k, v)

theorem wf_init : Wf (State.init : State K V) := ⟨by simp [State.init], by simp [State.init]⟩

variable [DecidableEq K]

omit [DecidableEq K] in
theorem lock_some {s : State K V} {i j : Nat} (h : s.lock i = some j) : j = i ∧ some i ∈ s.ptrs := by
  unfold State.lock at h
  split at h
  · rename_i hm; injection h with h; exact ⟨h.symm, hm⟩
  · cases h

omit [DecidableEq K] in
theorem get_some {s : State K V} {k : K} {i : Nat} (h : s.get k = some i) : s.cache k = some i ∧ some i ∈ s.ptrs := by
  unfold State.get at h
  cases e : s.cache k with
  | none => rw [e] at h; cases h
  | some j =>
    rw [e] at h
    obtain ⟨rfl, hm⟩ := lock_some h
    exact ⟨rfl, hm⟩

theorem wf_emplace {s : State K V} (W : Wf s) (k : K) (v : V) : Wf (s.emplace k v) := by
  constructor
  · intro i hi
    simp only [State.emplace, List.mem_append, List.mem_singleton, Option.some.injEq, List.length_append, List.length_singleton] at hi ⊢
    rcases hi with hi | rfl
    · have := W.ptrs i hi; omega
    · omega
  · intro k' i hi
    simp only [State.emplace] at hi ⊢
    by_cases e : k' = k
    · subst e
      rw [Function.update_self] at hi
      injection hi with hi
      subst hi
      exact ⟨v, by simp⟩
    · rw [Function.update_of_ne e] at hi
      obtain ⟨w, hw⟩ := W.cache k' i hi
      exact ⟨w, by rw [List.getElem?_append_left (List.getElem?_eq_some_iff.1 hw).1]; exact hw⟩

theorem wf_step {s s' : State K V} (W : Wf s) {o : Op K V} (h : step s o = some s') : Wf s' := by
  cases o with
  | emplace k v => injection h with h; subst h; exact wf_emplace W k v
  | get k =>
    injection h with h; subst h
    refine ⟨fun i hi => ?_, W.cache⟩
    simp only [List.mem_append, List.mem_singleton] at hi
    rcases hi with hi | hi
    · exact W.ptrs i hi
    · exact W.ptrs i (get_some hi.symm).2
  | copy p =>
    simp only [step, Option.bind_eq_some_iff, Option.some.injEq] at h
    obtain ⟨x, hx, rfl⟩ := h
    refine ⟨fun i hi => ?_, W.cache⟩
    simp only [List.mem_append, List.mem_singleton] at hi
    rcases hi with hi | rfl
    · exact W.ptrs i hi
    · exact W.ptrs i (List.mem_of_getElem? hx)
  | reset p =>
    simp only [step, Option.bind_eq_some_iff, Option.some.injEq] at h
    obtain ⟨x, hx, rfl⟩ := h
    refine ⟨fun i hi => ?_, W.cache⟩
    rcases List.mem_or_eq_of_mem_set hi with hi | hi
    · exact W.ptrs i hi
    · cases hi

theorem wf_run : ∀ (p : List (Op K V)) (s s' : State K V), Wf s → run s p = some s' → Wf s'
  | [], s, s', W, h => by injection h with h; exact h ▸ W
  | o :: p, s, s', W, h => by
    rw [run, Option.bind_eq_some_iff] at h
    obtain ⟨s₁, e, h⟩ := h
    exact wf_run p s₁ s' (wf_step W e) h

theorem run_append : ∀ (p q : List (Op K V)) (s : State K V), run s (p ++ q) = (run s p).bind fun s' => run s' q
  | [], q, s => rfl
  | o :: p, q, s => by
    rw [List.cons_append, run, run]
    cases step s o with
    | none => rfl
    | some s' => exact run_append p q s'

/-- Objects stay what they were made. -/
theorem objs_step {s s' : State K V} {o : Op K V} (h : step s o = some s') : ∀ i, i < s.objs.length → s'.objs[i]? = s.objs[i]? ∧ i < s'.objs.length := by
  intro i hi
  cases o with
  | emplace k v =>
    injection h with h; subst h
    simp only [State.emplace, List.length_append, List.length_singleton]
    exact ⟨List.getElem?_append_left hi, by omega⟩
  | get k => injection h with h; subst h; exact ⟨rfl, hi⟩
  | copy p =>
    simp only [step, Option.bind_eq_some_iff, Option.some.injEq] at h
    obtain ⟨x, hx, rfl⟩ := h
    exact ⟨rfl, hi⟩
  | reset p =>
    simp only [step, Option.bind_eq_some_iff, Option.some.injEq] at h
    obtain ⟨x, hx, rfl⟩ := h
    exact ⟨rfl, hi⟩

theorem objs_run : ∀ (p : List (Op K V)) (s s' : State K V), run s p = some s' → ∀ i, i < s.objs.length → s'.objs[i]? = s.objs[i]?
  | [], s, s', h, i, _ => by injection h with h; rw [h]
  | o :: p, s, s', h, i, hi => by
    rw [run, Option.bind_eq_some_iff] at h
    obtain ⟨s₁, e, h⟩ := h
    have := objs_step e i hi
    rw [objs_run p s₁ s' h i this.2, this.1]

/-- The entry for a key changes only when something is put in for it. -/
theorem cache_step (k : K) {s s' : State K V} {o : Op K V} (ho : ∀ w, o ≠ .emplace k w) (h : step s o = some s') : s'.cache k = s.cache k := by
  cases o with
  | emplace k' v =>
    injection h with h; subst h
    have : k ≠ k' := fun e => ho v (by rw [e])
    simp only [State.emplace, Function.update_of_ne this]
  | get k => injection h with h; subst h; rfl
  | copy p =>
    simp only [step, Option.bind_eq_some_iff, Option.some.injEq] at h
    obtain ⟨x, hx, rfl⟩ := h
    rfl
  | reset p =>
    simp only [step, Option.bind_eq_some_iff, Option.some.injEq] at h
    obtain ⟨x, hx, rfl⟩ := h
    rfl

theorem cache_run (k : K) : ∀ (p : List (Op K V)), (∀ w, Op.emplace k w ∉ p) → ∀ (s s' : State K V), run s p = some s' → s'.cache k = s.cache k
  | [], _, s, s', h => by injection h with h; rw [h]
  | o :: p, hp, s, s', h => by
    rw [run, Option.bind_eq_some_iff] at h
    obtain ⟨s₁, e, h⟩ := h
    rw [cache_run k p (fun w hw => hp w (List.mem_cons_of_mem _ hw)) s₁ s' h, cache_step k (fun w hw => hp w (hw ▸ List.mem_cons_self ..)) e]

theorem contains_run (k : K) : ∀ (p : List (Op K V)) (s s' : State K V), run s p = some s' → (s'.contains k = true ↔ s.contains k = true ∨ ∃ v, Op.emplace k v ∈ p)
  | [], s, s', h => by injection h with h; rw [h]; simp
  | o :: p, s, s', h => by
    rw [run, Option.bind_eq_some_iff] at h
    obtain ⟨s₁, e, h⟩ := h
    rw [contains_run k p s₁ s' h]
    by_cases ho : ∃ w, o = .emplace k w
    · obtain ⟨w, rfl⟩ := ho
      injection e with e; subst e
      refine ⟨fun _ => .inr ⟨w, List.mem_cons_self ..⟩, fun _ => .inl ?_⟩
      simp [State.contains, State.emplace]
    · rw [State.contains, cache_step k (fun w hw => ho ⟨w, hw⟩) e]
      refine or_congr Iff.rfl (exists_congr fun v => ?_)
      rw [List.mem_cons]
      exact ⟨.inr, fun h => h.resolve_left fun h => ho ⟨v, h.symm⟩⟩

/-- The invariant of programs that obtain objects: the cache points to every living object. -/
structure Inv (s : State K V) : Prop where
  wf : Wf s
  live : ∀ i k v, some i ∈ s.ptrs → s.objs[i]? = some (k, v) → s.cache k = some i

omit [DecidableEq K] in
theorem inv_init : Inv (State.init : State K V) := ⟨wf_init, by simp [State.init]⟩

theorem inv_step {s s' : State K V} (I : Inv s) {o : Use K V} (h : useStep s o = some s') : Inv s' := by
  cases o with
  | obtain k v =>
    unfold useStep at h
    cases e : s.get k with
    | some i =>
      simp only [e, Option.some.injEq] at h
      subst h
      have hm : ∀ j, some j ∈ s.ptrs ++ [some i] → some j ∈ s.ptrs := fun j hj => by
        rcases List.mem_append.1 hj with hj | hj
        · exact hj
        · obtain rfl : j = i := by simpa using hj
          exact (get_some e).2
      exact ⟨⟨fun j hj => I.wf.ptrs j (hm j hj), I.wf.cache⟩, fun j k v hj => I.live j k v (hm j hj)⟩
    | none =>
      simp only [e, Option.some.injEq] at h
      subst h
      refine ⟨wf_emplace I.wf k v, fun i k' w hi ei => ?_⟩
      simp only [State.emplace, List.mem_append, List.mem_singleton, Option.some.injEq] at hi ei ⊢
      rcases hi with hi | rfl
      · have hl := I.wf.ptrs i hi
        rw [List.getElem?_append_left hl] at ei
        have hc := I.live i k' w hi ei
        by_cases ek : k' = k
        · subst ek
          simp only [State.get, hc, State.lock, if_pos hi] at e
          cases e
        · rw [Function.update_of_ne ek]; exact hc
      · simp only [List.getElem?_concat_length, Option.some.injEq, Prod.mk.injEq] at ei
        rw [← ei.1, Function.update_self]
  | copy p =>
    refine ⟨wf_step (o := .copy p) I.wf h, ?_⟩
    simp only [useStep, step, Option.bind_eq_some_iff, Option.some.injEq] at h
    obtain ⟨x, hx, rfl⟩ := h
    intro i k v hi
    refine I.live i k v ?_
    rcases List.mem_append.1 hi with hi | hi
    · exact hi
    · rw [List.mem_singleton.1 hi]; exact List.mem_of_getElem? hx
  | reset p =>
    refine ⟨wf_step (o := .reset p) I.wf h, ?_⟩
    simp only [useStep, step, Option.bind_eq_some_iff, Option.some.injEq] at h
    obtain ⟨x, hx, rfl⟩ := h
    intro i k v hi
    refine I.live i k v ?_
    rcases List.mem_or_eq_of_mem_set hi with hi | hi
    · exact hi
    · cases hi

theorem inv_run : ∀ (p : List (Use K V)) (s s' : State K V), Inv s → useRun s p = some s' → Inv s'
  | [], s, s', W, h => by injection h with h; exact h ▸ W
  | o :: p, s, s', W, h => by
    rw [useRun, Option.bind_eq_some_iff] at h
    obtain ⟨s₁, e, h⟩ := h
    exact inv_run p s₁ s' (inv_step W e) h

end Verif.WeakC
