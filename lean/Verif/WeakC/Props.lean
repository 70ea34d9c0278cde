import Verif.WeakC.Lemmas

/-
C131: the cache of shared objects.
-/

namespace Verif.WeakC

variable {K V : Type} [DecidableEq K]

/-- C131 as one would have it: a key the cache contains can be had from it, and there is never more than one living object for a key. -/
def C131Statement (K V : Type) [DecidableEq K] : Prop :=
  ∀ (ops : List (Op K V)) s, run State.init ops = some s →
    (∀ k, s.contains k = true → s.get k ≠ none) ∧
    (∀ i j k v w, some i ∈ s.ptrs → some j ∈ s.ptrs → s.objs[i]? = some (k, v) → s.objs[j]? = some (k, w) → i = j)

/-- After any program: what was last put in for a key is what one gets, the very object, for as long as anybody owns it; afterwards, null. The object has the value given, and it is a new one: nobody owned it before. -/
theorem C131_get (p q : List (Op K V)) (k : K) (v : V) (hq : ∀ w, Op.emplace k w ∉ q) (s₁ s : State K V) (h₁ : run State.init p = some s₁)
    (h : run State.init (p ++ .emplace k v :: q) = some s) :
    some s₁.objs.length ∉ s₁.ptrs ∧ s.objs[s₁.objs.length]? = some (k, v) ∧ s.get k = if some s₁.objs.length ∈ s.ptrs then some s₁.objs.length else none := by
  rw [run_append, h₁] at h
  have i₁ := wf_run p _ _ wf_init h₁
  rw [Option.bind_some, run] at h
  simp only [step, Option.bind_some] at h
  refine ⟨fun hm => absurd (i₁.ptrs _ hm) (Nat.lt_irrefl _), ?_, ?_⟩
  · rw [objs_run q _ _ h _ (by simp [State.emplace])]
    simp [State.emplace]
  · have hc := cache_run k q hq _ _ h
    simp only [State.emplace, Function.update_self] at hc
    simp only [State.get, hc, State.lock]

/-- Nothing is had for a key for which nothing was put in, and the cache contains exactly the keys for which something was. -/
theorem C131_contains (p : List (Op K V)) (s : State K V) (h : run State.init p = some s) (k : K) :
    (s.contains k = true ↔ ∃ v, Op.emplace k v ∈ p) ∧ ((∀ v, Op.emplace k v ∉ p) → s.get k = none) := by
  have hcon : s.contains k = true ↔ ∃ v, Op.emplace k v ∈ p := by
    rw [contains_run k p _ _ h]
    simp [State.contains, State.init]
  refine ⟨hcon, fun hn => ?_⟩
  have : ¬ s.contains k = true := fun hc => by obtain ⟨v, hv⟩ := hcon.1 hc; exact hn v hv
  cases e : s.cache k with
  | none => simp only [State.get, e]
  | some i => exact absurd (by simp [State.contains, e]) this

/-- Programs which put in an object only if they get none: for a key there is at most one living object; whoever asks gets it as long as anybody owns it. -/
theorem C131_unique_partial (p : List (Use K V)) (s : State K V) (h : useRun State.init p = some s) :
    (∀ i j k v w, some i ∈ s.ptrs → some j ∈ s.ptrs → s.objs[i]? = some (k, v) → s.objs[j]? = some (k, w) → i = j) ∧
    (∀ i k v, some i ∈ s.ptrs → s.objs[i]? = some (k, v) → s.get k = some i) ∧
    (∀ i k, s.get k = some i → some i ∈ s.ptrs ∧ ∃ v, s.objs[i]? = some (k, v)) := by
  have I := inv_run p _ _ inv_init h
  refine ⟨fun i j k v w hi hj ei ej => ?_, fun i k v hi ei => ?_, fun i k hg => ?_⟩
  · have a := I.live i k v hi ei
    have b := I.live j k w hj ej
    rw [a] at b
    exact Option.some.inj b
  · simp only [State.get, I.live i k v hi ei, State.lock, if_pos hi]
  · unfold State.get at hg
    cases e : s.cache k with
    | none => rw [e] at hg; cases hg
    | some j =>
      rw [e] at hg
      dsimp only [State.lock] at hg
      split at hg
      · rename_i hm
        injection hg with hg
        subst hg
        exact ⟨hm, I.wf.cache _ _ e⟩
      · cases hg

/-- Two users of one object, one of another; the first goes away, and so does the second. -/
def sample : List (Use Nat String) := [.obtain 1 "a", .obtain 1 "b", .obtain 2 "c", .reset 0, .obtain 1 "d", .reset 1, .reset 3, .obtain 1 "e"]

example : (useRun State.init sample).map (fun s => (s.objs, s.ptrs, s.get 1, s.get 3)) = some ([(1, "a"), (2, "c"), (1, "e")], [none, none, some 1, none, some 2], some 2, none) := by
  with_unfolding_all rfl

example : ((run State.init [Op.emplace 1 "a", .get 1, .reset 0, .get 1, .emplace 2 "b"]).map fun s => (s.ptrs, s.contains 1, s.get 1, s.get 2)) =
    some ([none, some 0, some 0, some 1], true, some 0, some 1) := by with_unfolding_all rfl

/-- The cache contains a key for which nothing can be had any more. -/
theorem C131_expired_violated : ∃ s : State Nat String, run State.init [.emplace 1 "a", .reset 0] = some s ∧ s.contains 1 = true ∧ s.get 1 = none :=
  ⟨_, rfl, by decide, by decide⟩

/-- Putting in an object for a key which has a living one makes a second; the first can no longer be had. -/
theorem C131_second_violated : ∃ s : State Nat String, run State.init [.emplace 1 "a", .emplace 1 "b"] = some s ∧ s.ptrs = [some 0, some 1] ∧
    s.objs = [(1, "a"), (1, "b")] ∧ s.get 1 = some 1 := ⟨_, rfl, rfl, rfl, by decide⟩

/-- So the statement is false. -/
theorem C131_violated : ¬ C131Statement Nat String := by
  intro h
  obtain ⟨s, h1, h2, h3⟩ := C131_expired_violated
  exact (h _ s h1).1 1 h2 h3

end Verif.WeakC
