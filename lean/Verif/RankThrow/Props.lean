import Verif.RankThrow.Lemmas

/-! # Property C140: where the other ranks end up when one of them throws -/
namespace Verif.RankThrow
open Verif.Rounds

variable {n : Nat}

/-- **C140**, false for more than one rank, whatever else the program does, whatever MPI buffers: when the first rank throws while it makes the mesh, no other rank ever returns from `distributeMesh` or
throws; every execution ends with all of them waiting in that call. -/
theorem C140_hang (calls : List (Call n)) (j : Nat) (c : Call n) (hj : calls[j]? = some c) (hc : generates c = true) (h0 : 0 < n) (env : Env n) :
    (∀ s, TReach (program calls) env (generatorThrows calls j) s → ∀ r, r.val ≠ 0 → s.pc r < (program (calls.take j)).length + c.ops.length) ∧
    (∀ s, TReach (program calls) env (generatorThrows calls j) s → Final (program calls) env (generatorThrows calls j) s →
      ∀ r, (r.val = 0 → Thrown (generatorThrows calls j) s r) ∧ (program (calls.take j)).length < s.pc r) ∧
    (∃ s, TReach (program calls) env (generatorThrows calls j) s ∧ Final (program calls) env (generatorThrows calls j) s) ∧
    ¬ ∃ f : Nat → St n, TReach (program calls) env (generatorThrows calls j) (f 0) ∧ ∀ i, TStep (program calls) env (generatorThrows calls j) (f i) (f (i + 1)) := by
  have hsep := (program_closed calls).separated.1
  have hperm := (program_closed calls).separated.2
  have hroot : generatorThrows calls j ⟨0, h0⟩ = some (generatorAt calls j) := if_pos rfl
  have hmem : ∀ (r : Fin n) t, r.val ≠ 0 → (Op.round false (along fromRoot t)).has ⟨0, h0⟩ r t := by
    intro r t hr
    show _ ∈ along fromRoot t
    unfold along fromRoot
    simp [hr]
  have hlen : generatorAt calls j ≤ (program calls).length := by
    obtain ⟨rest, hr⟩ := program_split calls j c hj
    rw [hr]
    unfold generatorAt
    cases c <;> simp [generates] at hc <;> simp [Call.ops, throughputsOps] <;> omega
  have hge : ∀ r k, generatorThrows calls j r = some k → generatorAt calls j ≤ k := by
    intro r k hr
    unfold generatorThrows at hr
    split at hr
    · cases hr; exact le_refl _
    · cases hr
  refine ⟨?_, ?_, exists_final hsep hperm .init, ?_⟩
  · intro s hs r hr
    cases c with
    | distribute opt =>
      have hop := program_get calls j _ hj 1 (.round false (along fromRoot 0)) rfl
      have := blocked hsep hperm hs hroot (le_refl _) hop (Or.inl ⟨0, hmem r 0 hr⟩)
      unfold generatorAt at *
      simp only [Call.ops, throughputsOps, scatterPartsOps, List.length_append, List.length_cons, List.length_nil]
      omega
    | distributeNodes opt =>
      have hop := program_get calls j _ hj 2 (.round false (along fromRoot 1)) rfl
      have := blocked hsep hperm hs hroot (k' := (program (calls.take j)).length + 2) (by unfold generatorAt; omega) hop (Or.inl ⟨1, hmem r 1 hr⟩)
      simp only [Call.ops, throughputsOps, scatterPartsOps, scatterNodesOps, List.length_append, List.length_cons, List.length_nil]
      omega
    | context nbrs => cases hc
    | imports nbrs base nVecs => cases hc
    | graph nbrs => cases hc
  · intro s hs hf r
    have h1 := final_ge hsep hperm hs hf hlen hge r
    refine ⟨fun hr => ?_, by unfold generatorAt at h1; omega⟩
    have hr' : r = ⟨0, h0⟩ := Fin.ext hr
    subst hr'
    have h2 := (hs.halted hroot).1
    show generatorThrows calls j _ = some (s.pc _)
    rw [hroot]
    congr 1
    omega
  · rintro ⟨f, hf0, hf⟩
    exact no_infinite hsep hperm f hf0.reach fun i => (hf i).1

theorem C140_violated : ¬ C140Statement := by
  intro h
  let calls : List (Call 2) := [.distribute none]
  obtain ⟨h1, -, ⟨s, h2, h3⟩, -⟩ := C140_hang calls 0 (.distribute none) rfl rfl (by omega) (eager 2)
  rcases h 2 calls 0 (.distribute none) (eager 2) s rfl rfl h2 h3 1 with h4 | h4
  · have := h1 s h2 1 (by decide)
    unfold Returned at h4
    rw [h4] at this
    exact Nat.lt_irrefl _ this
  · exact absurd h4 (by simp [Thrown, generatorThrows])

/-- **C140**, the part that holds: where all ranks throw before the same operation, every execution ends, in the end every rank has thrown, all messages sent so far were received by those for whom they
were meant, and none is left over: the ranks can go on communicating. -/
theorem C140_all_partial (calls : List (Call n)) (k : Nat) (hk : k ≤ (program calls).length) (env : Env n) :
    (∀ s, TReach (program calls) env (fun _ => some k) s → Final (program calls) env (fun _ => some k) s →
      (∀ r, Thrown (fun _ => some k) s r ∧ s.sub r = 0) ∧
      (∀ (r : Fin n) i q t op, i < k → (program calls)[i]? = some op → op.has q r t → s.got r i q t = some i) ∧ ∀ q r t, s.chan q r t = []) ∧
    ¬ ∃ f : Nat → St n, TReach (program calls) env (fun _ => some k) (f 0) ∧ ∀ i, TStep (program calls) env (fun _ => some k) (f i) (f (i + 1)) := by
  have hsep := (program_closed calls).separated.1
  have hperm := (program_closed calls).separated.2
  refine ⟨fun s hs hf => ?_, ?_⟩
  · have hi := Inv.reach hsep hperm hs.reach
    have hpc : ∀ r, s.pc r = k := fun r =>
      le_antisymm (hs.halted rfl).1 (final_ge hsep hperm hs hf hk (fun _ j hj => by cases hj; exact le_refl _) r)
    have hgot : ∀ (r : Fin n) i q t op, i < k → (program calls)[i]? = some op → op.has q r t → s.got r i q t = some i := by
      intro r i q t op hlt hop hh
      exact got_self hi (hi.done r i q t op (by rw [hpc r]; exact hlt) hop hh)
    refine ⟨fun r => ⟨by show some k = some (s.pc r); rw [hpc r], (hs.halted rfl).2 (hpc r)⟩, hgot, fun q r t => ?_⟩
    by_contra hne
    obtain ⟨m, rest, hc⟩ := List.exists_cons_of_ne_nil hne
    obtain ⟨⟨op, h2, h3, h4⟩, h5⟩ := (hi.mem q r t m).1 (by rw [hc]; simp)
    have hlt : m < k := by
      rcases h4 with h4 | ⟨h4, h6⟩
      · rw [hpc] at h4; exact h4
      · have := ready_pos h3
        have := (hs.halted (r := q) rfl).2 (hpc q)
        omega
    rw [hgot r m q t op hlt h2 h3] at h5; cases h5
  · rintro ⟨f, hf0, hf⟩
    exact no_infinite hsep hperm f hf0.reach fun i => (hf i).1

/-- **C140**, whichever ranks throw, before whichever operations: every rank is done with all operations before the first exception or stands at a later one, and each message received was received
in the round in which it was sent. -/
theorem C140_before (calls : List (Call n)) (env : Env n) (halt : Halt n) (s : St n) (hs : TReach (program calls) env halt s) :
    (∀ r k q t m, s.got r k q t = some m → m = k ∧ ∃ op, (program calls)[k]? = some op ∧ op.has q r t) ∧
    (Final (program calls) env halt s → ∀ k ≤ (program calls).length, (∀ r j, halt r = some j → k ≤ j) → ∀ r, k ≤ s.pc r) := by
  have hsep := (program_closed calls).separated.1
  have hperm := (program_closed calls).separated.2
  exact ⟨(C108_library calls env).1 s hs.reach, fun hf k hk hh r => final_ge hsep hperm hs hf hk hh r⟩

/-- **C140**, the other way: a rank is kept from passing every operation which needs one that has thrown, be it a message from it or a collective operation that all have to enter. -/
theorem C140_needed (calls : List (Call n)) (env : Env n) (halt : Halt n) (s : St n) (hs : TReach (program calls) env halt s) (q r : Fin n) (k i : Nat) (op : Op n)
    (hq : halt q = some k) (hki : k ≤ i) (hop : (program calls)[i]? = some op) (hneed : (∃ t, op.has q r t) ∨ op = .coll true) : s.pc r ≤ i :=
  blocked (program_closed calls).separated.1 (program_closed calls).separated.2 hs hq hki hop hneed

/-! ## Examples -/

/-- Three ranks; the file of the second mesh does not exist: nobody but the first rank gets out of the second call. -/
example (env : Env 3) (s : St 3) (hs : TReach (program [.distribute none, .distributeNodes none, .context ∅]) env (generatorThrows [.distribute none, .distributeNodes none, .context ∅] 1) s) (r : Fin 3)
    (hr : r.val ≠ 0) : s.pc r < 6 :=
  (C140_hang [.distribute none, .distributeNodes none, .context ∅] 1 (.distributeNodes none) rfl rfl (by omega) env).1 s hs r hr

/-- The state in which the first rank has thrown is reached. -/
example : ∃ s, TReach (program [Call.distribute none]) (eager 2) (generatorThrows [.distribute none] 0) s ∧ Thrown (generatorThrows [Call.distribute none] 0) s (0 : Fin 2) := by
  obtain ⟨-, h1, ⟨s, h2, h3⟩, -⟩ := C140_hang [Call.distribute none] 0 (.distribute none) rfl rfl (by omega) (eager 2)
  exact ⟨s, h2, (h1 s h2 h3 0).1 rfl⟩

/-- All ranks throw before the parts are sent. -/
example (env : Env 3) (s : St 3) (hs : TReach (program [.distribute none]) env (fun _ => some 1) s) (hf : Final (program [.distribute none]) env (fun _ => some 1) s) :
    ∀ q r t, s.chan q r t = [] :=
  (((C140_all_partial [.distribute none] 1 (by decide) env).1 s hs hf).2).2

/-- A rank throws before the second of two imports: the one that needs its values stays there. -/
example (env : Env 3) (s : St 3) (hs : TReach (program [.imports {(1, 0)} 0 1, .imports {(1, 0)} 1 1]) env (fun r => if r = 1 then some 1 else none) s) : s.pc 0 ≤ 1 :=
  C140_needed _ env _ s hs 1 0 1 1 _ (if_pos rfl) (le_refl _) rfl (Or.inl ⟨1, by show (_, _, _) ∈ alongVecs _ _ _; decide⟩)

example (env : Env 3) (s : St 3) (hs : TReach (program [.imports {(1, 0)} 0 1, .imports {(1, 0)} 1 1]) env (fun r => if r = 1 then some 1 else none) s)
    (hf : Final (program [.imports {(1, 0)} 0 1, .imports {(1, 0)} 1 1]) env (fun r => if r = 1 then some 1 else none) s) (r : Fin 3) : 1 ≤ s.pc r :=
  (C140_before _ env _ s hs).2 hf 1 (by decide) (fun r j h => by split at h <;> cases h; exact le_refl _) r

end Verif.RankThrow
