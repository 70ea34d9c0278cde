import Verif.RefStable.Lemmas

/-
C111: a reference-stable collection is a list whose elements never move.
-/

namespace Verif.RefStable

open Verif

variable {α : Type}

/-- Every program which respects the preconditions of lists runs without undefined behaviour and sees the list. -/
theorem C111_contents (bs : Nat) (hbs : 0 < bs) (dflt : α) (ops : List (Op α)) (l : List α)
    (hs : specRun [] ops = some l) :
    ∃ c, run bs dflt Coll.empty ops = some c ∧ c.size = l.length ∧ ∀ k, k < l.length → c.get bs k = l[k]? := by
  obtain ⟨c, e, i⟩ := (CInv.empty bs hbs).run hbs dflt ops hs
  refine ⟨c, e, i.size, fun k hk => ?_⟩
  rw [Coll.get, i.addr (Nat.lt_of_lt_of_le hk i.fits)]
  exact i.load hbs hk

/-- A reference to an element, taken at any time, refers to that element for ever, whatever is added or written
later; and different elements have different references. -/
theorem C111_stable (bs : Nat) (hbs : 0 < bs) (dflt : α) (ops later : List (Op α)) (l l' : List α)
    (hs : specRun [] ops = some l) (hs' : specRun l later = some l') (c c' : Coll α)
    (hc : run bs dflt Coll.empty ops = some c) (hc' : run bs dflt c later = some c') (k : Nat) (hk : k < l.length) :
    ∃ a, c.addr bs k = some a ∧ c'.addr bs k = some a ∧ load c'.blocks a = l'[k]? ∧
      ∀ m, m < l'.length → c'.addr bs m = some a → m = k := by
  have i : CInv bs c l := by
    obtain ⟨c0, e, i⟩ := (CInv.empty bs hbs).run hbs dflt ops hs
    rw [hc] at e; cases e; exact i
  have i' : CInv bs c' l' := by
    obtain ⟨c0, e, i0⟩ := i.run hbs dflt later hs'
    rw [hc'] at e; cases e; exact i0
  have hk' : k < l'.length := Nat.lt_of_lt_of_le hk (specRun_length hs')
  refine ⟨_, i.addr (Nat.lt_of_lt_of_le hk i.fits), i'.addr (Nat.lt_of_lt_of_le hk' i'.fits), i'.load hbs hk', ?_⟩
  intro m hm ha
  rw [i'.addr (Nat.lt_of_lt_of_le hm i'.fits)] at ha
  simp only [Option.some.injEq, Prod.mk.injEq] at ha
  rw [← Nat.div_add_mod m bs, ← Nat.div_add_mod k bs, ha.1, ha.2]

/-- The destructor frees every block once, and the vector of pointers. -/
theorem C111_destroy (bs : Nat) (hbs : 0 < bs) (dflt : α) (ops : List (Op α)) (l : List α)
    (hs : specRun [] ops = some l) (c : Coll α) (hc : run bs dflt Coll.empty ops = some c) :
    ∃ h b, c.dtor = some (h, b) ∧ (∀ x ∈ h, x = none) ∧ (∀ x ∈ b, x = none) := by
  obtain ⟨c0, e, i⟩ := (CInv.empty bs hbs).run hbs dflt ops hs
  rw [hc] at e; cases e; exact i.dtor

theorem at_get {bs : Nat} (hbs : 0 < bs) {c : Coll α} {l : List α} (i : CInv bs c l) (m : Nat) (ind : Int) (k : Nat)
    (hm : (m : Int) + ind = k) (hk : k < l.length) : It.at bs c ⟨c.vec.data, m⟩ ind = l[k]? := by
  have ha := i.addr (Nat.lt_of_lt_of_le hk i.fits)
  have hl := i.load hbs hk
  rcases hd : c.vec.data with _ | p
  · rw [Coll.addr, hd] at ha; cases ha
  · rw [Coll.addr, hd] at ha
    simp only [Option.bind_some] at ha
    rw [It.at]
    simp only [Option.bind_some]
    rw [hm, if_neg (by omega)]
    simp only [Int.toNat_natCast]
    rcases hr : CVec.read c.vheap p (k / bs) with _ | b
    · rw [hr] at ha; cases ha
    · rw [hr] at ha
      simp only [Option.bind_some, Option.some.injEq, Prod.mk.injEq] at ha
      simp only [Option.bind_some]
      rw [ha.1]
      exact hl

theorem cmp_lt (a b : Int) : compare a b = .lt ↔ a < b := by
  simp only [compare, compareOfLessAndEq]
  constructor
  · intro h
    by_cases hab : a < b
    · exact hab
    · rw [if_neg hab] at h
      split at h <;> cases h
  · intro h
    rw [if_pos h]

/-- Iterators: walking from `begin` to `end` with `++it` sees every element once and in order; `begin + k`, `it[k]`
and `it - k` reach the elements meant; distance, equality and order are those of positions. -/
theorem C111_iterators (bs : Nat) (hbs : 0 < bs) (dflt : α) (ops : List (Op α)) (l : List α)
    (hs : specRun [] ops = some l) (c : Coll α) (hc : run bs dflt Coll.empty ops = some c) :
    walk bs c l.length c.begin = some l ∧
      (∀ m k : Nat, k < l.length → It.at bs c (c.begin.plus m) (k - m) = l[k]? ∧
        ((c.begin.plus m).plus (k - m)).deref bs c = l[k]? ∧ (c.end.minus (l.length - k)).deref bs c = l[k]?) ∧
      c.end.dist c.begin = l.length ∧
      (∀ m k : Nat, ((c.begin.plus m).beq (c.begin.plus k) = true ↔ m = k) ∧
        ((c.begin.plus m).cmp (c.begin.plus k) = .lt ↔ m < k)) := by
  obtain ⟨c0, e, i⟩ := (CInv.empty bs hbs).run hbs dflt ops hs
  rw [hc] at e
  cases e
  have hend : c.end = ⟨c.vec.data, (l.length : Int)⟩ := by rw [Coll.end, i.size]
  refine ⟨?_, ?_, ?_, ?_⟩
  · have key : ∀ n m, m + n = l.length → walk bs c n ⟨c.vec.data, (m : Int)⟩ = some (l.drop m) := by
      intro n
      induction n with
      | zero =>
        intro m hm
        rw [walk, hend, if_pos (by simp [It.beq]; omega), List.drop_eq_nil_of_le (by omega)]
      | succ n ih =>
        intro m hm
        rw [walk, hend, if_neg (by simp [It.beq]; omega), It.deref,
          at_get hbs i m 0 m (by simp) (by omega), List.getElem?_eq_getElem (by omega)]
        simp only [Option.bind_some]
        have := ih (m + 1) (by omega)
        simp only [It.preInc, It.plus]
        rw [show ((m : Int) + 1) = ((m + 1 : Nat) : Int) by omega, this]
        simp
    have := key l.length 0 (by omega)
    simpa [Coll.begin] using this
  · intro m k hk
    refine ⟨?_, ?_, ?_⟩
    · have := at_get hbs i m ((k : Int) - m) k (by omega) hk
      simpa [Coll.begin, It.plus] using this
    · have := at_get hbs i k 0 k (by omega) hk
      simp only [It.deref, It.plus, Coll.begin]
      rw [show (0 : Int) + m + (k - m) = k by omega]
      exact this
    · have := at_get hbs i k 0 k (by omega) hk
      rw [hend]
      simp only [It.deref, It.plus, It.minus]
      rw [show (l.length : Int) + -(l.length - k) = k by omega]
      exact this
  · rw [hend]; simp [It.dist, Coll.begin]
  · intro m k
    refine ⟨?_, ?_⟩
    · simp only [It.beq, It.plus, Coll.begin, beq_iff_eq]; omega
    · rw [It.cmp, cmp_lt]; simp only [It.plus, Coll.begin]; omega

/-- Unique pointers free each object exactly once: no program frees twice or uses a freed object.  Nothing is left
behind, as long as no move assignment hits a pointer that still owns something. -/
theorem C111_unique_partial (ops : List (UOp α)) (l : List Bool) (hs : ualiveRun [] ops = some l) :
    ∃ st, urun ⟨[], []⟩ ops = some st ∧
      (NullTargets (⟨[], []⟩ : UState α) ops → (∀ b ∈ l, b = false) → ∀ x ∈ st.objs, x = none) := by
  obtain ⟨st, e, i, o⟩ := UInv.init.run ops hs
  refine ⟨st, e, fun hn hl x hx => ?_⟩
  rcases x with _ | v
  · rfl
  · obtain ⟨p, hp, he⟩ := List.getElem_of_mem hx
    obtain ⟨s, hsp⟩ := o (fun p v h => by simp at h) hn p v (by rw [List.getElem?_eq_getElem hp, he])
    have hlt : s < l.length := by rw [← i.len]; exact CVec.getElem?_lt hsp
    have := i.dead s (by rw [List.getElem?_eq_getElem hlt, hl _ (List.getElem_mem hlt)])
    rw [hsp] at this
    cases this

/-- The rest of what is expected: no object is left behind when all pointers are gone, `it++` and `it--` give the
old position and move the iterator, and a collection that was moved from knows that it is empty. -/
def C111Statement : Prop :=
  (∀ (α : Type) (ops : List (UOp α)) (l : List Bool) (st : UState α), ualiveRun [] ops = some l →
    urun ⟨[], []⟩ ops = some st → (∀ b ∈ l, b = false) → ∀ x ∈ st.objs, x = none) ∧
  (∀ it : It, it.postInc = (it, it.plus 1)) ∧ (∀ it : It, it.postDec = (it, it.plus (-1))) ∧
  (∀ (α : Type) (bs : Nat) (c : Coll α) (k : Nat), k < c.movedFrom.size → ∃ v, c.movedFrom.get bs k = some v)

/-- Move assignment of unique pointers loses what the target owned. -/
theorem C111_leak_violated :
    ¬ ∀ (α : Type) (ops : List (UOp α)) (l : List Bool) (st : UState α), ualiveRun [] ops = some l →
      urun ⟨[], []⟩ ops = some st → (∀ b ∈ l, b = false) → ∀ x ∈ st.objs, x = none := by
  intro h
  have := h Nat [.make 1, .make 2, .moveAssign 0 1, .destroy 0, .destroy 1] [false, false]
    ⟨[some 1, none], [none, none]⟩ rfl rfl (by decide) (some 1) (by simp)
  cases this

/-- The postfix operators return the next position and leave the iterator where it was: no iterator at all behaves
as expected, so a loop advancing with `it++` never ends. -/
theorem C111_postfix_violated : (∀ it : It, it.postInc ≠ (it, it.plus 1)) ∧ (∀ it : It, it.postInc.2 = it) ∧
    (∀ it : It, it.postDec ≠ (it, it.plus (-1))) ∧ (∀ it : It, it.postDec.2 = it) := by
  refine ⟨fun it h => ?_, fun it => rfl, fun it h => ?_, fun it => rfl⟩
  · have := congrArg (fun x : It × It => x.2.idx) h
    simp only [It.postInc, It.plus] at this
    omega
  · have := congrArg (fun x : It × It => x.2.idx) h
    simp only [It.postDec, It.plus] at this
    omega

/-- A collection that was moved from keeps its size, but has no elements: reading any of them dereferences a null
pointer. -/
theorem C111_moved_violated (bs : Nat) (c : Coll α) (k : Nat) :
    c.movedFrom.size = c.size ∧ c.movedFrom.get bs k = none := ⟨rfl, rfl⟩

theorem C111_violated : ¬ C111Statement := fun h => C111_leak_violated h.1

/-! ### The hypotheses can be met -/

example : specRun [] [Op.emplace 5, .emplace 6, .emplaceOf 0, .write 1 8, .emplaceOf 2] = some [5, 8, 5, 5] := rfl

example : ∃ c, run 2 0 Coll.empty [Op.emplace 5, .emplace 6, .emplaceOf 0, .write 1 8, .emplaceOf 2] = some c ∧
    c.get 2 1 = some 8 ∧ c.get 2 3 = some 5 ∧ c.addr 2 3 = some (1, 1) := ⟨_, rfl, rfl, rfl, rfl⟩

example : ∃ (ops later : List (Op Nat)) (l l' : List Nat) (c c' : Coll Nat), specRun [] ops = some l ∧
    specRun l later = some l' ∧ run 2 0 Coll.empty ops = some c ∧ run 2 0 c later = some c' ∧ 1 < l.length ∧
    l'.length = 5 :=
  ⟨[.emplace 1, .emplace 2], [.emplace 3, .write 1 7, .emplaceOf 1, .emplace 4], _, _, _, _, rfl, rfl, rfl, rfl,
    by decide, rfl⟩

example : ∃ ops : List (UOp Nat), ualiveRun [] ops = some [false, false, false] ∧
    NullTargets (⟨[], []⟩ : UState Nat) ops := by
  refine ⟨[.make 1, .null, .moveAssign 1 0, .move 1, .destroy 0, .destroy 1, .destroy 2], rfl, ?_⟩
  refine ⟨trivial, fun _ h => ?_⟩; cases h
  refine ⟨trivial, fun _ h => ?_⟩; cases h
  refine ⟨Or.inr rfl, fun _ h => ?_⟩; cases h
  refine ⟨trivial, fun _ h => ?_⟩; cases h
  refine ⟨trivial, fun _ h => ?_⟩; cases h
  refine ⟨trivial, fun _ h => ?_⟩; cases h
  exact ⟨trivial, fun _ _ => trivial⟩

end Verif.RefStable
