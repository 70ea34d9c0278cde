import Verif.UniVec.Model
import Mathlib.Data.List.Basic
import Mathlib.Algebra.BigOperators.Group.List.Basic

/-! # Property C90: the heterogeneous vector is one sequence -/
namespace Verif.UniVec

theorem atLoop_spec {A : Type} (vs : List (List A)) : ∀ (index i k : Nat), i ≤ index →
    (∀ q, atLoop index i k vs = some q → ∃ m, q.1 = k + m ∧ q.2 < (vs.getD m []).length ∧
        index = i + ((vs.take m).map List.length).sum + q.2 ∧ deref vs (m, q.2) = vs.flatten[index - i]?) ∧
    (atLoop index i k vs = none ↔ i + vs.flatten.length ≤ index) := by
  induction vs with
  | nil => intro index i k h; simp [atLoop, h]
  | cons v vs ih =>
    intro index i k h
    by_cases hlt : index < i + v.length
    · refine ⟨?_, ?_⟩
      · intro q hq
        simp only [atLoop, hlt, if_true, Option.some.injEq] at hq
        subst hq
        refine ⟨0, rfl, ?_, ?_, ?_⟩
        · simp only [List.getD_cons_zero]; omega
        · simp only [List.take_zero, List.map_nil, List.sum_nil]; omega
        · simp only [deref, List.getElem?_cons_zero, Option.bind_some, List.flatten_cons]
          rw [List.getElem?_append_left (by omega)]
      · simp only [atLoop, hlt, if_true, List.flatten_cons, List.length_append]
        constructor
        · intro h; simp at h
        · intro h; omega
    · obtain ⟨h1, h2⟩ := ih index (i + v.length) (k + 1) (by omega)
      simp only [atLoop, hlt, if_false]
      refine ⟨?_, ?_⟩
      · intro q hq
        obtain ⟨m, e1, e2, e3, e4⟩ := h1 q hq
        refine ⟨m + 1, by omega, by simpa using e2, ?_, ?_⟩
        · simp only [List.take_succ_cons, List.map_cons, List.sum_cons]; omega
        · simp only [deref, List.getElem?_cons_succ, List.flatten_cons] at e4 ⊢
          rw [e4, List.getElem?_append_right (by omega)]
          congr 1; omega
      · rw [h2, List.flatten_cons, List.length_append]; omega

/-- **C90**: indexed access goes through the vectors as if they were concatenated; it throws exactly for
indices from the total size on, and different indices give different elements. -/
theorem C90_at {A : Type} (vs : List (List A)) (index : Nat) :
    ((«at» vs index).bind (deref vs) = vs.flatten[index]?) ∧
    («at» vs index = none ↔ size vs ≤ index) ∧
    (∀ index' q, «at» vs index = some q → «at» vs index' = some q → index = index') := by
  have hs : ∀ i, _ := fun i => atLoop_spec vs i 0 0 (Nat.zero_le _)
  have hlen : vs.flatten.length = size vs := by simp [size, List.length_flatten]
  refine ⟨?_, ?_, ?_⟩
  · cases h : «at» vs index with
    | none =>
      have := (hs index).2.mp h
      rw [List.getElem?_eq_none (by omega)]; rfl
    | some q =>
      obtain ⟨m, e1, -, -, e4⟩ := (hs index).1 q h
      have hq : q = (m, q.2) := by rw [Nat.zero_add] at e1; rw [← e1]
      rw [Option.bind_some, hq]
      simpa using e4
  · have := (hs index).2
    rw [hlen, Nat.zero_add] at this
    exact this
  · intro index' q h h'
    obtain ⟨m, e1, -, e3, -⟩ := (hs index).1 q h
    obtain ⟨m', e1', -, e3', -⟩ := (hs index').1 q h'
    have : m = m' := by omega
    subst this; omega

example : («at» [[10, 11], [], [12]] 2) = some (2, 0) ∧ («at» [[10, 11], [], [12]] 3) = none := by decide

theorem findLoop_spec {A : Type} (p : A → Bool) (vs : List (List A)) : ∀ k : Nat,
    (∀ q, findLoop p k vs = some q → ∃ m, q.1 = k + m ∧ deref vs (m, q.2) = vs.flatten.find? p ∧
      (deref vs (m, q.2)).isSome = true) ∧
    (findLoop p k vs = none ↔ vs.flatten.find? p = none) := by
  induction vs with
  | nil => intro k; simp [findLoop]
  | cons v vs ih =>
    intro k
    by_cases h : v.findIdx p < v.length
    · have hv : v.find? p = some (v[v.findIdx p]) := List.find?_eq_some_iff_getElem.mpr ⟨List.findIdx_getElem, _, h, rfl,
        fun j hj => by
          have := List.not_of_lt_findIdx hj
          simpa using this⟩
      have hd : deref (v :: vs) (0, v.findIdx p) = some (v[v.findIdx p]) := by
        simp [deref, List.getElem?_eq_getElem h]
      refine ⟨?_, ?_⟩
      · intro q hq
        simp only [findLoop, h, if_true, Option.some.injEq] at hq
        subst hq
        refine ⟨0, rfl, ?_, by rw [hd]; rfl⟩
        rw [hd, List.flatten_cons, List.find?_append, hv]; rfl
      · simp only [findLoop, h, if_true, List.flatten_cons, List.find?_append, hv]
        simp
    · have hv : v.find? p = none := by
        rw [List.find?_eq_none]
        intro x hx hp
        exact h (List.findIdx_lt_length_of_exists ⟨x, hx, hp⟩)
      obtain ⟨h1, h2⟩ := ih (k + 1)
      simp only [findLoop, h, if_false, List.flatten_cons, List.find?_append, hv, Option.none_or]
      refine ⟨?_, h2⟩
      intro q hq
      obtain ⟨m, e1, e2, e3⟩ := h1 q hq
      exact ⟨m + 1, by omega, by simpa [deref] using e2, by simpa [deref] using e3⟩

/-- **C90**: `find` gives the first match of the concatenation, or nothing when there is none. -/
theorem C90_find {A : Type} (vs : List (List A)) (p : A → Bool) :
    (find vs p).bind (deref vs) = vs.flatten.find? p ∧ (find vs p = none ↔ ∀ v ∈ vs, ∀ a ∈ v, p a = false) := by
  have hs := findLoop_spec p vs 0
  refine ⟨?_, ?_⟩
  · cases h : find vs p with
    | none => rw [(hs.2.mp h)]; rfl
    | some q =>
      obtain ⟨m, e1, e2, -⟩ := hs.1 q h
      have hq : q = (m, q.2) := by rw [Nat.zero_add] at e1; rw [← e1]
      rw [Option.bind_some, hq]; exact e2
  · show findLoop p 0 vs = none ↔ _
    rw [hs.2, List.find?_eq_none]
    simp only [List.mem_flatten, Bool.not_eq_true]
    exact ⟨fun h v hv a ha => h a ⟨v, hv, ha⟩, fun h a ⟨v, hv, ha⟩ => h v hv a ha⟩

example : find [[1, 3], [], [4, 6]] (fun x => x % 2 == 0) = some (2, 0) := by decide

/-- **C90**: sizes; a sequential visit goes through the concatenation in order, a parallel one calls the
function once for every element. -/
theorem C90_visit {A : Type} (vs : List (List A)) :
    size vs = vs.flatten.length ∧ (empty vs = true ↔ vs.flatten = []) ∧ visitSeq vs = vs.flatten ∧
      ∀ calls, VisitPar vs calls → calls.Perm vs.flatten := by
  refine ⟨by simp [size, List.length_flatten], ?_, by simp [visitSeq, List.flatMap_id'], ?_⟩
  · simp [empty, List.all_eq_true, List.flatten_eq_nil_iff]
  · rintro calls ⟨parts, hp, hc⟩
    refine hc.trans ?_
    clear hc
    induction hp with
    | nil => exact List.Perm.refl _
    | cons h _ ih => simp only [List.flatten_cons]; exact h.append ih

example : VisitPar [[1, 2], [3]] [3, 2, 1] :=
  ⟨[[2, 1], [3]], by
    refine List.Forall₂.cons (List.Perm.swap 1 2 []) (List.Forall₂.cons (List.Perm.refl _) List.Forall₂.nil), by decide⟩

/-! ## Reductions -/

variable {Z : Type} (op : Z → Z → Z)

theorem eval_eq (ha : ∀ a b c, op (op a b) c = op a (op b c)) (zero : Z) (hz : ∀ a, op zero a = a)
    (hz' : ∀ a, op a zero = a) (t : Tree Z) : t.eval op = t.leaves.foldr op zero := by
  induction t with
  | leaf z => simp [Tree.eval, Tree.leaves, hz']
  | node l r ihl ihr =>
    rw [Tree.eval, Tree.leaves, ihl, ihr, List.foldr_append]
    generalize List.foldr op zero r.leaves = y
    induction l.leaves with
    | nil => simp [hz]
    | cons a as ih => simp only [List.foldr_cons]; rw [ha, ih]

theorem reduces_eq (ha : ∀ a b c, op (op a b) c = op a (op b c)) (hc : ∀ a b, op a b = op b a) (zero : Z)
    (hz : ∀ a, op zero a = a) (k : Nat) (l : List Z) (x : Z) (h : Reduces op zero k l x) : x = l.foldr op zero := by
  obtain ⟨t, hp, rfl⟩ := h
  have hz' : ∀ a, op a zero = a := fun a => by rw [hc, hz]
  rw [eval_eq op ha zero hz hz']
  have lc : LeftCommutative op := ⟨fun a b c => by rw [← ha, hc a b, ha]⟩
  rw [hp.foldr_eq]
  rw [List.foldr_append]
  generalize List.foldr op zero l = y
  induction (k + 1) with
  | zero => rfl
  | succ n ih => rw [List.replicate_succ, List.foldr_cons, ih, hz]

/-- The full statement of **C90** for reductions: whatever order and grouping is chosen, the result is the
reduction of the initial value with all transformed elements. -/
def C90ReduceStatement : Prop :=
  ∀ (A Z : Type) (op : Z → Z → Z), (∀ a b c, op (op a b) c = op a (op b c)) → (∀ a b, op a b = op b a) →
    ∀ (zero : Z) (f : A → Z) (vs : List (List A)) (x : Z), TransformReduceSeq zero f op vs x →
      x = (vs.flatten.map f).foldr op zero

/-- **C90** for reductions whose initial value is neutral, under either policy.  Missing for the full
statement: other initial values, for which it is false (`C90_reduce_violated`). -/
theorem C90_reduce_partial {A Z : Type} (op : Z → Z → Z) (ha : ∀ a b c, op (op a b) c = op a (op b c))
    (hc : ∀ a b, op a b = op b a) (zero : Z) (hz : ∀ a, op zero a = a) (f : A → Z) (vs : List (List A)) (x : Z)
    (h : TransformReduceSeq zero f op vs x ∨ TransformReducePar zero f op vs x) :
    x = (vs.flatten.map f).foldr op zero := by
  have key : ∀ xs, List.Forall₂ (fun v y => ∃ k, Reduces op zero k (v.map f) y) vs xs →
      xs.foldr op zero = (vs.flatten.map f).foldr op zero := by
    intro xs hx
    clear h
    induction hx with
    | nil => rfl
    | @cons v y vs xs hv _ ih =>
      obtain ⟨k, hv⟩ := hv
      rw [List.foldr_cons, ih, reduces_eq op ha hc zero hz _ _ _ hv, List.flatten_cons, List.map_append,
        List.foldr_append]
      generalize List.foldr op zero (List.map f vs.flatten) = w
      induction (v.map f) with
      | nil => simp [hz]
      | cons a as ih2 => simp only [List.foldr_cons]; rw [ha, ih2]
  rcases h with ⟨xs, hx, hr⟩ | ⟨xs, hx, hr⟩
  · rw [reduces_eq op ha hc zero hz _ _ _ hr]
    exact key xs (hx.imp fun _ _ h => ⟨0, h⟩)
  · rw [reduces_eq op ha hc zero hz _ _ _ hr]
    exact key xs hx

example : TransformReduceSeq 0 (fun x : Nat => 2 * x) (· + ·) [[1, 2], [3]] 12 :=
  ⟨[6, 6], List.Forall₂.cons ⟨.node (.leaf 4) (.node (.leaf 0) (.leaf 2)), by decide, rfl⟩
    (List.Forall₂.cons ⟨.node (.leaf 0) (.leaf 6), by decide, rfl⟩ List.Forall₂.nil),
    .node (.leaf 0) (.node (.leaf 6) (.leaf 6)), by decide, rfl⟩

/-- **C90** is false of an initial value that is not neutral: it is counted once per element type and once
more, so starting a count of nothing from 1 gives 3 for two element types. -/
theorem C90_reduce_violated : ¬ C90ReduceStatement := by
  intro h
  have := h Nat Nat (· + ·) Nat.add_assoc Nat.add_comm 1 id [[], []] 3
    ⟨[1, 1], List.Forall₂.cons ⟨.leaf 1, by decide, rfl⟩ (List.Forall₂.cons ⟨.leaf 1, by decide, rfl⟩ List.Forall₂.nil),
      .node (.leaf 1) (.node (.leaf 1) (.leaf 1)), by decide, rfl⟩
  simp at this

end Verif.UniVec
