import Verif.ArrOwn.Lemmas

/-
C130: `ArrayOwner` is a fixed-size array.
-/

namespace Verif.ArrOwn

variable {T : Type}

/-- C130 as one would have it: programs get from arrays what lists give, and checked accesses are defined for every living array. -/
def C130Statement (T : Type) [LinearOrder T] : Prop :=
  ∀ (cap : Nat) (over : Bool) (ops : List (Op T)), cap < 2 ^ 64 →
    (∀ ss tr, srun cap (fun _ => none) ops = some (ss, tr) → ∃ st, run cap over (fun _ => none) ops = some (st, tr)) ∧
    (∀ st tr, run cap over (fun _ => none) ops = some (st, tr) → ∀ s a, st s = some a → ∀ i v, step cap over st (.setAt s i v) ≠ .ub)

variable [LinearOrder T] {cap : Nat} {over : Bool}

/-- Programs that do not make arrays from single-pass ranges or (for types that are not over-aligned) with an explicit alignment, and use arrays that were moved from only as targets of assignments, get from every
operation exactly what lists give, exceptions included, and nothing they do is undefined. -/
theorem C130_programs_partial (hcap : cap < 2 ^ 64) (ops : List (Op T)) (hc : ∀ o ∈ ops, Careful over o) (ss : AStore T) (tr : List (Option (Val T)))
    (h : srun cap (fun _ => none) ops = some (ss, tr)) : ∃ st, run cap over (fun _ => none) ops = some (st, tr) :=
  let ⟨st, e, _⟩ := run_ok hcap ops hc (fun _ => none) (fun _ => none) (fun _ => trivial) ss tr h
  ⟨st, e⟩

/-- At any time of such a program: checked writes to, and the end of the lifetime of, arrays that were not moved from are defined. -/
theorem C130_access_partial (hcap : cap < 2 ^ 64) (ops : List (Op T)) (hc : ∀ o ∈ ops, Careful over o) (ss : AStore T) (tr : List (Option (Val T)))
    (h : srun cap (fun _ => none) ops = some (ss, tr)) (st : Store T) (hst : run cap over (fun _ => none) ops = some (st, tr)) (s : Nat) :
    (∀ l, ss s = some (.arr l) → ∀ i v, step cap over st (.setAt s i v) ≠ .ub) ∧ (ss s ≠ none → step cap over st (.destroy s) ≠ .ub) := by
  obtain ⟨st', e, R⟩ := run_ok hcap ops hc (fun _ => none) (fun _ => none) (fun _ => trivial) ss tr h
  rw [hst] at e
  obtain rfl : st = st' := by injection e with e; exact (Prod.mk.inj e).1
  constructor
  · intro l hl i v
    have hn : sstep cap ss (.setAt s i v) ≠ .ub := by
      simp only [sstep, sget, hl, Out.bind]
      split <;> exact fun q => by cases q
    have := step_ok hcap R (.setAt s i v) trivial hn
    cases e2 : sstep cap ss (.setAt s i v) with
    | ub => exact absurd e2 hn
    | throws => rw [this.2 e2]; exact fun q => by cases q
    | ok r => obtain ⟨st', e3, _⟩ := this.1 r.1 r.2 e2; rw [e3]; exact fun q => by cases q
  · intro hs
    obtain ⟨w, hw⟩ := Option.ne_none_iff_exists'.1 hs
    obtain ⟨st', e3, _⟩ := (step_ok hcap R (.destroy s) trivial (by simp only [sstep, salive, hw, Out.bind]; exact fun q => by cases q)).1 (Function.update ss s none) .unit
      (by simp only [sstep, salive, hw, Out.bind])
    rw [e3]; exact fun q => by cases q

/-- A program with copies, moves, a swap, an access out of bounds and comparisons. -/
def sample : List (Op Nat) :=
  [.range 0 [3, 1, 2], .copy 1 0, .setAt 1 1 7, .move 2 0, .moveAssign 0 1, .moveAssign 1 2, .list 0, .list 1, .back 0, .at 1 3, .cmp 0 1, .eq 0 1, .assign 2 [5], .size 2,
    .fill 3 2 4, .list 3, .sized 4 9, .setAt 4 8 1, .read 4 8, .sized 5 101, .destroy 4]

/-- The list it returns: arrays 0 and 1 were swapped, the access and the allocation threw. -/
example : ((srun 100 (fun _ => none) sample).map (·.2)) =
    some [some .unit, some .unit, some .unit, some .unit, some .unit, some .unit, some (.list [3, 7, 2]), some (.list [3, 1, 2]), some (.val 2), none, some (.ord .gt), some (.bool false), some .unit,
      some (.nat 1), some .unit, some (.list [4, 4]), some .unit, some .unit, some (.val 1), none, some .unit] ∧
    ∀ o ∈ sample, Careful false o := ⟨by with_unfolding_all rfl, by simp [sample, Careful]⟩

/-- An array that was moved from has its old size, and no elements: a checked access passes the check and dereferences a null pointer. -/
theorem C130_moved_violated (over : Bool) : ∃ st tr, run 100 over (fun _ => none) [Op.range 0 [3, 1, 2], .move 1 0, .size 0] = some (st, tr) ∧
    (tr = [some .unit, some .unit, some (.nat 3)]) ∧ step 100 over st (.setAt 0 1 5) = .ub ∧ step 100 over st (.at 0 1) = .ub ∧ step 100 over st (.copy 2 0) = .ub :=
  ⟨_, _, rfl, rfl, rfl, rfl, rfl⟩

/-- The same of an array another one was assigned from. -/
theorem C130_move_assigned_violated (over : Bool) : ∃ st tr, run 100 over (fun _ => none) [Op.range 0 [3, 1, 2], .mk 1, .moveAssign 1 0, .size 0, .list 1] = some (st, tr) ∧
    (tr = [some .unit, some .unit, some .unit, some (.nat 3), some (.list [3, 1, 2])]) ∧ step 100 over st (.setAt 0 1 5) = .ub ∧ step 100 over st (.at 0 1) = .ub ∧ step 100 over st (.copy 2 0) = .ub :=
  ⟨_, _, rfl, rfl, rfl, rfl, rfl⟩

/-- An array made from a single-pass range has as many elements as the range had, and none of them was written. -/
theorem C130_input_violated (over : Bool) : (srun 100 (fun _ => none) [Op.input 0 [3, 1, 2], .list 0]).map (·.2) = some [some .unit, some (.list [3, 1, 2])] ∧
    run 100 over (fun _ => none) [Op.input 0 [3, 1, 2], .list 0] = none := ⟨by with_unfolding_all rfl, rfl⟩

/-- The memory of an array made with an explicit alignment is given back by the wrong deallocation function, unless the element type is over-aligned. -/
theorem C130_aligned_violated : (srun 100 (fun _ => none) [Op.aligned (T := Nat) 0 3, .destroy 0]).map (·.2) = some [some .unit, some .unit] ∧
    run 100 false (fun _ => none) [Op.aligned (T := Nat) 0 3, .destroy 0] = none := ⟨by with_unfolding_all rfl, rfl⟩

/-- So the statement is false. -/
theorem C130_violated : ¬ C130Statement Nat := by
  intro h
  obtain ⟨st, tr, h1, _, h3, _⟩ := C130_moved_violated false
  exact (h 100 false _ (by decide)).2 st tr h1 0 ⟨3, none⟩ (congrArg (fun o => (o.map Prod.fst).bind fun f => f 0) h1).symm 1 5 h3

end Verif.ArrOwn
