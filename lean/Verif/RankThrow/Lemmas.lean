import Verif.RankThrow.Spec
import Verif.Rounds.Props

/-! # Lemmas on exceptions between communication rounds -/
namespace Verif.RankThrow
open Verif.Rounds

variable {n : Nat} {prog : List (Op n)} {env : Env n} {halt : Halt n} {s s' : St n}

theorem TReach.reach (h : TReach prog env halt s) : Reach prog env s := by
  induction h with
  | init => exact .init
  | step _ hs ih => exact .step ih hs.1

/-- A step leaves every rank where it is or takes it to the start of the next operation. -/
theorem step_pc (h : Step prog env s s') (r : Fin n) : (s'.pc r = s.pc r) ∨ (s'.pc r = s.pc r + 1 ∧ s'.sub r = 0) := by
  have goto : ∀ (s1 : St n) x v, s1.pc = s.pc → (s1.goto x v).pc r = s.pc r := fun s1 x v h1 => congrFun h1 r
  have next : ∀ x, (s.next x).pc r = s.pc r ∨ ((s.next x).pc r = s.pc r + 1 ∧ (s.next x).sub r = 0) := by
    intro x
    rw [next_pc, next_sub]
    by_cases hx : r = x
    · subst hx; right; simp
    · left; rw [if_neg hx]
  cases h with
  | post => exact Or.inl (goto _ _ _ rfl)
  | send => exact Or.inl (goto _ _ _ rfl)
  | deliver => exact Or.inl rfl
  | finish => exact next _
  | isend => exact Or.inl (goto _ _ _ rfl)
  | recvAny => exact Or.inl (goto _ _ _ rfl)
  | finishWild => exact next _
  | enter => exact Or.inl (goto _ _ _ rfl)
  | leave => exact next _

/-- A rank does not get past the operation before which it throws, and does not start it. -/
theorem TReach.halted (h : TReach prog env halt s) {r : Fin n} {k : Nat} (hr : halt r = some k) : s.pc r ≤ k ∧ (s.pc r = k → s.sub r = 0) := by
  induction h with
  | init => exact ⟨Nat.zero_le _, fun _ => rfl⟩
  | @step s s' h hs ih =>
    by_cases hk : s.pc r = k
    · obtain ⟨h1, h2⟩ := hs.2 r (show halt r = some (s.pc r) by rw [hr, hk])
      rw [h1, h2]; exact ih
    · have hlt : s.pc r < k := by have := ih.1; omega
      rcases step_pc hs.1 r with h1 | ⟨h1, h2⟩
      · exact ⟨by omega, fun he => by omega⟩
      · exact ⟨by omega, fun _ => h2⟩

/-- Nobody gets past an operation which needs a rank that has thrown. -/
theorem blocked (hsep : Separated prog) (hperm : Permuting prog) (h : TReach prog env halt s) {q r : Fin n} {k k' : Nat} {op : Op n} (hq : halt q = some k) (hk : k ≤ k')
    (hop : prog[k']? = some op) (hneed : (∃ t, op.has q r t) ∨ op = .coll true) : s.pc r ≤ k' := by
  have hi := Inv.reach hsep hperm h.reach
  obtain ⟨h1, h2⟩ := h.halted hq
  by_contra hlt
  have hlt : k' < s.pc r := by omega
  rcases hneed with ⟨t, ht⟩ | rfl
  · cases hg : s.got r k' q t with
    | none => exact hi.done r k' q t op hlt hop ht hg
    | some m =>
      obtain ⟨-, ⟨op', h3, h4, h5⟩, -⟩ := hi.got _ _ _ _ _ hg
      have := ready_pos h4
      rcases h5 with h5 | ⟨h5, h6⟩
      · omega
      · have := h2 (by omega); omega
  · rcases hi.coll k' r q hop hlt with h5 | ⟨h5, h6⟩
    · omega
    · have := h2 (by omega); omega

/-- In a final state everybody has reached the first exception. -/
theorem final_ge (hsep : Separated prog) (hperm : Permuting prog) (h : TReach prog env halt s) (hf : Final prog env halt s) {k : Nat} (hk : k ≤ prog.length)
    (hhalt : ∀ r j, halt r = some j → k ≤ j) (r : Fin n) : k ≤ s.pc r := by
  by_contra hlt
  obtain ⟨m, -, hmin⟩ := Finset.exists_min_image Finset.univ s.pc ⟨r, Finset.mem_univ r⟩
  have hm : s.pc m < k := by have := hmin r (Finset.mem_univ r); omega
  obtain ⟨s', hs, ho⟩ := step_of_min_only (env := env) hperm (Inv.reach hsep hperm h.reach) (r := m) (fun x => hmin x (Finset.mem_univ x)) (by omega)
  refine hf s' ⟨hs, fun x hx => ho x ?_⟩
  have := hhalt x _ hx
  omega

/-- Every execution can be continued to a final state. -/
theorem exists_final (hsep : Separated prog) (hperm : Permuting prog) (h : TReach prog env halt s) : ∃ s', TReach prog env halt s' ∧ Final prog env halt s' := by
  generalize hm : measure prog s = m
  induction m using Nat.strong_induction_on generalizing s with
  | _ m ih =>
    by_cases hf : Final prog env halt s
    · exact ⟨s, h, hf⟩
    · unfold Final at hf
      push Not at hf
      obtain ⟨s', hs⟩ := hf
      exact ih _ (by rw [← hm]; exact measure_step (Inv.reach hsep hperm h.reach) hs.1) (h.step hs) rfl

theorem program_split (calls : List (Call n)) (j : Nat) (c : Call n) (h : calls[j]? = some c) : ∃ rest, program calls = program (calls.take j) ++ (c.ops ++ rest) := by
  have hlt : j < calls.length := (List.getElem?_eq_some_iff.1 h).1
  refine ⟨program (calls.drop (j + 1)), ?_⟩
  have hc : calls = calls.take j ++ c :: calls.drop (j + 1) := by
    conv_lhs => rw [← List.take_append_drop j calls, List.drop_eq_getElem_cons hlt]
    rw [(List.getElem?_eq_some_iff.1 h).2]
  conv_lhs => rw [hc]
  unfold program
  rw [List.flatMap_append, List.flatMap_cons]

theorem program_get (calls : List (Call n)) (j : Nat) (c : Call n) (h : calls[j]? = some c) (i : Nat) (op : Op n) (hop : c.ops[i]? = some op) :
    (program calls)[(program (calls.take j)).length + i]? = some op := by
  obtain ⟨rest, hr⟩ := program_split calls j c h
  rw [hr, List.getElem?_append_right (by omega), Nat.add_sub_cancel_left, List.getElem?_append_left (List.getElem?_eq_some_iff.1 hop).1, hop]

end Verif.RankThrow
