import Verif.Session.Model
import Mathlib.Data.List.Induction
import Mathlib.Algebra.Group.Nat.Defs

/-! # C60: begin/end discipline of assembly -/
namespace Verif.Session

/-- Is the system open after a history: the last `begin` or `end` was not an `end`. -/
def openAfter {C : Type} (h : List (Call C)) : Bool :=
  match (h.filter fun | .begin | .end_ => true | _ => false).getLast? with
  | some .end_ => false
  | _ => true

/-- Contributions passed to `assembleProblem` in a history. -/
def contributions {C : Type} (h : List (Call C)) : List C := h.filterMap fun | .assemble c => some c | _ => none

/-- A history without a call of `endAssembly`. -/
def NoEnd {C : Type} (h : List (Call C)) : Prop := ∀ c ∈ h, match c with | .end_ => False | _ => True
/-- A history without a call of `beginAssembly`. -/
def NoBegin {C : Type} (h : List (Call C)) : Prop := ∀ c ∈ h, match c with | .begin => False | _ => True

section
variable {M R D : Type} [AddCommMonoid M] [AddCommMonoid R] [AddCommMonoid D] (fin : M → R → D → M × R)

theorem run_append (s : Sys M R D) (h k : List (Call (M × R × D))) : run fin s (h ++ k) = run fin (run fin s h) k := List.foldl_append

theorem openAfter_snoc {C : Type} (h : List (Call C)) (c : Call C) :
    openAfter (h ++ [c]) = match c with | .begin => true | .end_ => false | _ => openAfter h := by
  unfold openAfter
  rw [List.filter_append]
  cases c <;> simp

theorem isOpen_run (h : List (Call (M × R × D))) : (run fin new h).isOpen = openAfter h := by
  induction h using List.reverseRecOn with
  | nil => rfl
  | append_singleton h c ih =>
    rw [run_append, openAfter_snoc]
    generalize run fin new h = s at ih
    cases c with
    | begin => simp only [run, List.foldl_cons, List.foldl_nil, call, begin']; split <;> simp_all
    | end_ => simp only [run, List.foldl_cons, List.foldl_nil, call, end']; cases hs : s.isOpen <;> simp_all
    | assemble c => simp only [run, List.foldl_cons, List.foldl_nil, call, assemble]; cases hs : s.isOpen <;> simp_all
    | getMatrix => exact ih
    | getRhs => exact ih
    | getSolution => exact ih

/-- C60, who is accepted: after any history, `assembleProblem` and `endAssembly` succeed exactly when the system is open (no
`endAssembly` since the last `beginAssembly`, initially open), the getters exactly when it is closed, and a call that raises an
error leaves the system unchanged. -/
theorem C60_discipline (h : List (Call (M × R × D))) :
    (∀ c, (call fin (run fin new h) (.assemble c)).2 = .ok .unit ↔ openAfter h = true) ∧
    ((call fin (run fin new h) .end_).2 = .ok .unit ↔ openAfter h = true) ∧
    ((∃ r, (call fin (run fin new h) .getMatrix).2 = .ok r) ↔ openAfter h = false) ∧
    ((∃ r, (call fin (run fin new h) .getRhs).2 = .ok r) ↔ openAfter h = false) ∧
    ((∃ r, (call fin (run fin new h) .getSolution).2 = .ok r) ↔ openAfter h = false) ∧
    (∀ c e, (call fin (run fin new h) c).2 = .error e → (call fin (run fin new h) c).1 = run fin new h) := by
  rw [← isOpen_run fin h]
  generalize run fin new h = s
  refine ⟨?_, ?_, ?_, ?_, ?_, ?_⟩
  · intro c; simp only [call, assemble]; cases s.isOpen <;> simp
  · simp only [call, end']; cases s.isOpen <;> simp
  · simp only [call, getter]; cases s.isOpen <;> simp
  · simp only [call, getter]; cases s.isOpen <;> simp
  · simp only [call, getter]; cases s.isOpen <;> simp
  · intro c e hc
    cases c with
    | begin => simp [call] at hc
    | end_ => simp only [call, end'] at hc ⊢; cases hs : s.isOpen <;> simp_all
    | assemble c => simp only [call, assemble] at hc ⊢; cases hs : s.isOpen <;> simp_all
    | getMatrix => rfl
    | getRhs => rfl
    | getSolution => rfl

/-- While open, a history without `endAssembly` adds exactly its contributions. -/
theorem run_noEnd (s : Sys M R D) (hs : s.isOpen = true) (h : List (Call (M × R × D))) (hh : NoEnd h) :
    run fin s h = ⟨true, s.mat + ((contributions h).map (·.1)).sum, s.rhs + ((contributions h).map (·.2.1)).sum,
      s.cond + ((contributions h).map (·.2.2)).sum⟩ := by
  induction h generalizing s with
  | nil => simp [run, contributions, ← hs]
  | cons c h ih =>
    have hh' : NoEnd h := fun x hx => hh x (List.mem_cons_of_mem _ hx)
    have hc := hh c (List.mem_cons_self)
    have : run fin s (c :: h) = run fin (call fin s c).1 h := rfl
    rw [this]
    cases c with
    | end_ => exact absurd hc (by simp)
    | begin => simp only [call, begin', hs, if_true]; exact ih s hs hh'
    | assemble c =>
      simp only [call, assemble, hs, if_true]
      rw [ih _ rfl hh']
      simp [contributions, add_assoc]
    | getMatrix => exact ih s hs hh'
    | getRhs => exact ih s hs hh'
    | getSolution => exact ih s hs hh'

/-- While closed, a history without `beginAssembly` changes nothing. -/
theorem run_noBegin (s : Sys M R D) (hs : s.isOpen = false) (h : List (Call (M × R × D))) (hh : NoBegin h) : run fin s h = s := by
  induction h generalizing s with
  | nil => rfl
  | cons c h ih =>
    have hh' : NoBegin h := fun x hx => hh x (List.mem_cons_of_mem _ hx)
    have hc := hh c (List.mem_cons_self)
    have h1 : run fin s (c :: h) = run fin (call fin s c).1 h := rfl
    have h2 : (call fin s c).1 = s := by
      cases c with
      | begin => exact absurd hc (by simp)
      | end_ => simp [call, end', hs]
      | assemble c => simp [call, assemble, hs]
      | getMatrix => rfl
      | getRhs => rfl
      | getSolution => rfl
    rw [h1, h2]
    exact ih s hs hh'

/-- C60, what is accumulated: for any earlier history which left the system closed (or none), after `beginAssembly`, any calls
other than `endAssembly`, then `endAssembly` and any calls other than `beginAssembly` (including rejected contributions), the
matrix and right-hand side are those computed from the contributions made between that `begin` and that `end`, and nothing else. -/
theorem C60_session (pre mid post : List (Call (M × R × D))) (hpre : pre = [] ∨ openAfter pre = false)
    (hmid : NoEnd mid) (hpost : NoBegin post) :
    (call fin (run fin new (pre ++ .begin :: mid ++ .end_ :: post)) .getMatrix).2 = .ok (.mat (fin ((contributions mid).map (·.1)).sum
      ((contributions mid).map (·.2.1)).sum ((contributions mid).map (·.2.2)).sum).1) ∧
    (call fin (run fin new (pre ++ .begin :: mid ++ .end_ :: post)) .getRhs).2 = .ok (.rhs (fin ((contributions mid).map (·.1)).sum
      ((contributions mid).map (·.2.1)).sum ((contributions mid).map (·.2.2)).sum).2) := by
  have h1 : (call fin (run fin new pre) .begin).1 = new := by
    rcases hpre with rfl | hp
    · rfl
    · rw [← isOpen_run fin pre] at hp
      show begin' (run fin new pre) = new
      unfold begin'
      rw [hp]; rfl
  have h2 : run fin new (pre ++ .begin :: mid ++ .end_ :: post) = run fin (call fin (run fin (call fin (run fin new pre) .begin).1 mid) .end_).1 post := by
    simp [run, List.foldl_append]
  rw [h2, h1, run_noEnd fin new rfl mid hmid]
  simp only [call, end', if_true]
  rw [run_noBegin fin _ rfl post hpost]
  simp [getter, new]

/-- Right after `beginAssembly` on a closed system everything accumulated is zero. -/
theorem C60_begin_zero (h : List (Call (M × R × D))) (hc : openAfter h = false) :
    (run fin new (h ++ [.begin])).mat = 0 ∧ (run fin new (h ++ [.begin])).rhs = 0 ∧ (run fin new (h ++ [.begin])).cond = 0 := by
  rw [← isOpen_run fin h] at hc
  rw [run_append]
  simp [run, call, begin'] at hc ⊢
  simp [hc]

end

/-- A session on a system with natural numbers as contents: 5 before, 1 + 2 inside, a rejected 7 after. -/
example : (call (fun m r d => (m + 10 * d, r)) (run (fun m r d => (m + 10 * d, r)) new
      ([.assemble (5, 5, 5), .end_] ++ .begin :: [.assemble (1, 4, 1), .getMatrix, .assemble (2, 4, 0)] ++ .end_ :: [.assemble (7, 7, 7), .getRhs])) .getMatrix).2 =
    (.ok (.mat 13) : Except Unit (Res Nat Nat)) :=
  (C60_session (M := Nat) (R := Nat) (D := Nat) (fun m r d => (m + 10 * d, r)) [.assemble (5, 5, 5), .end_] [.assemble (1, 4, 1), .getMatrix, .assemble (2, 4, 0)]
    [.assemble (7, 7, 7), .getRhs] (Or.inr rfl) (by intro c hc; simp at hc; rcases hc with rfl | rfl | rfl <;> trivial)
    (by intro c hc; simp at hc; rcases hc with rfl | rfl <;> trivial)).1

example : openAfter ([.assemble (5, 5, 5), .end_] : List (Call (Nat × Nat × Nat))) = false := rfl

/-! ### Matrix-free system -/

variable {C : Type}

/-- The statement of C60 for the matrix-free system: contributions outside a session are rejected, and the operator and the
right-hand side seen by the user are both those of the contributions of the last session. -/
def C60Statement (C : Type) : Prop := ∀ h : List (Call C),
  (∀ c, ((MF.run MF.new h).call (.assemble c)).2 = false ↔ openAfter h = true) ∧
  (∀ e r, (MF.run MF.new h).seen = some (e, r) → e = r)

/-- C60 is false for the matrix-free system: `assembleProblem` after `endAssembly` raises no error, and the kernel becomes part of the
operator but not of the right-hand side. -/
theorem C60_violated : ¬ C60Statement Nat := by
  intro h
  have := (h [.end_]).1 1
  simp [MF.run, MF.call, MF.new, MF.end, MF.assemble, openAfter] at this

/-- The operator and the right-hand side then belong to different problems. -/
theorem C60_violated_operator : (MF.run MF.new [.assemble 1, .end_, .assemble 2]).seen = some ([1, 2], [1]) := by
  simp [MF.run, MF.call, MF.new, MF.end, MF.assemble, MF.seen]

theorem MF.isOpen_run (h : List (Call C)) : (MF.run MF.new h).isOpen = openAfter h := by
  induction h using List.reverseRecOn with
  | nil => rfl
  | append_singleton h c ih =>
    have : MF.run MF.new (h ++ [c]) = ((MF.run MF.new h).call c).1 := by simp [MF.run, List.foldl_append]
    rw [this, openAfter_snoc]
    generalize MF.run MF.new h = s at ih
    cases c with
    | begin => simp only [MF.call, MF.begin]; split <;> simp_all
    | end_ => simp only [MF.call, MF.end]; cases hs : s.isOpen <;> simp_all
    | assemble c => exact ih
    | getMatrix => exact ih
    | getRhs => exact ih
    | getSolution => exact ih

theorem MF.run_noEnd (s : MF C) (hs : s.isOpen = true) (h : List (Call C)) (hh : NoEnd h) :
    MF.run s h = { s with init := s.init ++ contributions h, eval := s.eval ++ contributions h } := by
  induction h generalizing s with
  | nil => simp [MF.run, contributions]
  | cons c h ih =>
    have hh' : NoEnd h := fun x hx => hh x (List.mem_cons_of_mem _ hx)
    have hc := hh c (List.mem_cons_self)
    have : MF.run s (c :: h) = MF.run (s.call c).1 h := rfl
    rw [this]
    cases c with
    | end_ => exact absurd hc (by simp)
    | begin =>
      have : (s.call .begin).1 = s := by simp [MF.call, MF.begin, hs]
      rw [this]; exact ih s hs hh'
    | assemble c =>
      simp only [MF.call, MF.assemble]
      rw [ih _ (by exact hs) hh']
      simp [contributions]
    | getMatrix => exact ih s hs hh'
    | getRhs => exact ih s hs hh'
    | getSolution => exact ih s hs hh'

/-- What holds for the matrix-free system: `endAssembly` and the getters obey the discipline, and as long as no contribution is
made after `endAssembly`, operator and right-hand side are those of the last session. -/
theorem C60_partial (pre mid post : List (Call C)) (hpre : pre = [] ∨ openAfter pre = false) (hmid : NoEnd mid) (hpost : NoBegin post)
    (hok : contributions post = []) :
    (MF.run MF.new (pre ++ .begin :: mid ++ .end_ :: post)).seen = some (contributions mid, contributions mid) ∧
    (∀ h : List (Call C), (((MF.run MF.new h).call .end_).2 = false ↔ openAfter h = true) ∧
      ((MF.run MF.new h).seen.isSome = true ↔ openAfter h = false)) := by
  constructor
  · have h1 : ((MF.run MF.new pre).call .begin).1.isOpen = true ∧ ((MF.run MF.new pre).call .begin).1.init = [] ∧
        ((MF.run MF.new pre).call .begin).1.eval = [] := by
      rcases hpre with rfl | hp
      · exact ⟨rfl, rfl, rfl⟩
      · rw [← MF.isOpen_run pre] at hp
        simp [MF.call, MF.begin, hp]
    have h2 : MF.run MF.new (pre ++ .begin :: mid ++ .end_ :: post) =
        MF.run ((MF.run ((MF.run MF.new pre).call .begin).1 mid).call .end_).1 post := by
      simp [MF.run, List.foldl_append]
    rw [h2]
    generalize ((MF.run MF.new pre).call .begin).1 = s at h1
    obtain ⟨g1, g2, g3⟩ := h1
    rw [MF.run_noEnd s g1 mid hmid, g2, g3]
    simp only [MF.call, MF.end, g1, if_true, List.nil_append]
    have h3 : ∀ (post : List (Call C)) (s : MF C), s.isOpen = false → NoBegin post → contributions post = [] → MF.run s post = s := by
      intro post
      induction post with
      | nil => intro s _ _ _; rfl
      | cons c h ih =>
        intro s hs hh hok
        have hc := hh c (List.mem_cons_self)
        have h1 : MF.run s (c :: h) = MF.run (s.call c).1 h := rfl
        have hok' : contributions h = [] := by
          unfold contributions at hok ⊢
          cases c <;> simp_all
        have h2 : (s.call c).1 = s := by
          cases c with
          | begin => exact absurd hc (by simp)
          | end_ => simp [MF.call, MF.end, hs]
          | assemble c => simp [contributions] at hok
          | getMatrix => rfl
          | getRhs => rfl
          | getSolution => rfl
        rw [h1, h2]
        exact ih s hs (fun x hx => hh x (List.mem_cons_of_mem _ hx)) hok'
    rw [h3 post _ rfl hpost hok]
    rfl
  · intro h
    rw [← MF.isOpen_run h]
    generalize MF.run MF.new h = s
    constructor
    · simp only [MF.call, MF.end]; cases s.isOpen <;> simp
    · simp only [MF.seen]; cases s.isOpen <;> simp

example : (MF.run MF.new ([.assemble 9, .end_] ++ .begin :: [.assemble 1, .assemble 2] ++ .end_ :: [.getRhs])).seen = some ([1, 2], [1, 2]) :=
  (C60_partial [.assemble 9, .end_] [.assemble 1, .assemble 2] [.getRhs] (Or.inr rfl) (by intro c hc; simp at hc; rcases hc with rfl | rfl <;> trivial)
    (by intro c hc; simp at hc; subst hc; trivial) rfl).1

end Verif.Session
