import Verif.NodeVals.Model
import Mathlib.Algebra.BigOperators.Group.List.Lemmas
import Mathlib.Algebra.BigOperators.Group.List.Basic
import Mathlib.Tactic.Ring

/-! # Lemmas on passes over entries and on exchanged sums -/
namespace Verif.NodeVals
set_option linter.unusedSectionVars false
variable {K : Type}

/-- Contributions of a pass to local dof `d`. -/
def atDof (L : List (Entry K)) (d : Nat) : List (Nat → K) := (L.filter fun e => decide (e.1 = d)).map (·.2)

theorem atDof_cons (e : Entry K) (L : List (Entry K)) (d : Nat) : atDof (e :: L) d = if e.1 = d then e.2 :: atDof L d else atDof L d := by
  unfold atDof
  by_cases h : e.1 = d <;> simp [h]

theorem atDof_append (L M : List (Entry K)) (d : Nat) : atDof (L ++ M) d = atDof L d ++ atDof M d := by
  unfold atDof; simp

theorem atDof_perm {L M : List (Entry K)} (h : L.Perm M) (d : Nat) : (atDof L d).Perm (atDof M d) :=
  (h.filter _).map _

theorem put_same {α : Type} (f : Nat → α) (d : Nat) (x : α) : put f d x d = x := if_pos rfl
theorem put_ne {α : Type} (f : Nat → α) {d i : Nat} (x : α) (h : i ≠ d) : put f d x i = f i := if_neg h

theorem mem_atDof {L : List (Entry K)} {d : Nat} {f : Nat → K} : f ∈ atDof L d ↔ (d, f) ∈ L := by
  unfold atDof
  simp only [List.mem_map, List.mem_filter, decide_eq_true_eq]
  constructor
  · rintro ⟨⟨a, b⟩, ⟨h1, h2⟩, h3⟩; subst h2 h3; exact h1
  · intro h; exact ⟨(d, f), ⟨h, rfl⟩, rfl⟩

section
variable [Field K]

theorem foldl_init (L : List (Entry K)) (s : St K) (d : Nat) (hs : s.cnt d < 65536) :
    (L.foldl initStep s).vals d = (if atDof L d = [] then s.vals d else fun _ => 0) ∧
    (L.foldl initStep s).cnt d = (s.cnt d + (atDof L d).length) % 65536 := by
  induction L generalizing s with
  | nil => simp [atDof, Nat.mod_eq_of_lt hs]
  | cons e L ih =>
    rw [List.foldl_cons, atDof_cons]
    by_cases h : e.1 = d
    · subst h
      obtain ⟨h1, h2⟩ := ih (initStep s e) (by simp only [initStep, put_same]; omega)
      rw [h1, h2, if_pos rfl]
      simp only [initStep, put_same, List.length_cons, reduceCtorEq, if_false]
      refine ⟨?_, by omega⟩
      split <;> rfl
    · have hne : d ≠ e.1 := fun hh => h hh.symm
      have e1 : (initStep s e).vals d = s.vals d := put_ne _ _ hne
      have e2 : (initStep s e).cnt d = s.cnt d := put_ne _ _ hne
      obtain ⟨h1, h2⟩ := ih (initStep s e) (by rw [e2]; exact hs)
      rw [h1, h2, if_neg h, e1, e2]
      exact ⟨rfl, rfl⟩

theorem foldl_add (L : List (Entry K)) (s : St K) (d c : Nat) :
    (L.foldl addStep s).vals d c = s.vals d c + ((atDof L d).map (· c)).sum ∧ (L.foldl addStep s).cnt = s.cnt := by
  induction L generalizing s with
  | nil => simp [atDof]
  | cons e L ih =>
    rw [List.foldl_cons, atDof_cons]
    obtain ⟨h1, h2⟩ := ih (addStep s e)
    refine ⟨?_, by rw [h2]; rfl⟩
    rw [h1]
    by_cases h : e.1 = d
    · subst h
      rw [if_pos rfl, List.map_cons, List.sum_cons]
      simp only [addStep, put_same]
      ring
    · rw [if_neg h]
      have hne : d ≠ e.1 := fun hh => h hh.symm
      simp only [addStep, put_ne _ _ hne]

theorem foldl_addCount (L : List (Entry K)) (s : St K) (d c : Nat) :
    (L.foldl addCountStep s).vals d c = s.vals d c + ((atDof L d).map (· c)).sum ∧
    (L.foldl addCountStep s).cnt d = s.cnt d + (atDof L d).length := by
  induction L generalizing s with
  | nil => simp [atDof]
  | cons e L ih =>
    rw [List.foldl_cons, atDof_cons]
    obtain ⟨h1, h2⟩ := ih (addCountStep s e)
    rw [h1, h2]
    by_cases h : e.1 = d
    · subst h
      rw [if_pos rfl, List.map_cons, List.sum_cons, List.length_cons]
      simp only [addCountStep, put_same]
      exact ⟨by ring, by omega⟩
    · rw [if_neg h]
      have hne : d ≠ e.1 := fun hh => h hh.symm
      simp only [addCountStep, put_ne _ _ hne]
      exact ⟨trivial, trivial⟩

theorem foldl_zero (L : List (Entry K)) (s : St K) (d : Nat) :
    (L.foldl zeroStep s).vals d = (if atDof L d = [] then s.vals d else fun _ => 0) ∧ (L.foldl zeroStep s).cnt = s.cnt := by
  induction L generalizing s with
  | nil => simp [atDof]
  | cons e L ih =>
    rw [List.foldl_cons, atDof_cons]
    obtain ⟨h1, h2⟩ := ih (zeroStep s e)
    rw [h1, h2]
    by_cases h : e.1 = d
    · subst h
      rw [if_pos rfl]
      simp only [zeroStep, put_same, reduceCtorEq, if_false]
      refine ⟨?_, trivial⟩
      split <;> rfl
    · rw [if_neg h]
      have hne : d ≠ e.1 := fun hh => h hh.symm
      simp only [zeroStep, put_ne _ _ hne]
      exact ⟨trivial, trivial⟩

theorem foldl_store (L : List (Entry K)) (s : St K) (d c : Nat) (x : K) (hx : ∀ f ∈ atDof L d, f c = x) :
    (L.foldl storeStep s).vals d c = (if atDof L d = [] then s.vals d c else x) ∧
    (L.foldl storeStep s).cnt d = (if atDof L d = [] then s.cnt d else 1) := by
  induction L generalizing s with
  | nil => simp [atDof]
  | cons e L ih =>
    rw [List.foldl_cons]
    rw [atDof_cons] at hx ⊢
    by_cases h : e.1 = d
    · subst h
      rw [if_pos rfl] at hx
      obtain ⟨h1, h2⟩ := ih (storeStep s e) fun f hf => hx f (by simp [hf])
      rw [h1, h2, if_pos rfl]
      simp only [storeStep, put_same, reduceCtorEq, if_false]
      refine ⟨?_, by simp⟩
      split
      · exact hx _ (by simp)
      · rfl
    · rw [if_neg h] at hx
      obtain ⟨h1, h2⟩ := ih (storeStep s e) hx
      rw [h1, h2, if_neg h]
      have hne : d ≠ e.1 := fun hh => h hh.symm
      simp only [storeStep, put_ne _ _ hne]
      exact ⟨trivial, trivial⟩

end

/-! ### Sums over the ranks -/

/-- Contributions of the other ranks' ghosts to dof `i` of rank `o`. -/
def ghostContribs (w : List (Rank K)) (o i : Nat) : List (Nat → K) :=
  (List.range w.length).flatMap fun r => (slots w r o i).flatMap fun j => atDof (rank w r).entries ((rank w r).nOwned + j)

theorem sum_flatMap' {α β : Type} [AddCommMonoid β] (l : List α) (f : α → List β) : (l.flatMap f).sum = (l.map fun a => (f a).sum).sum := by
  induction l with
  | nil => rfl
  | cons a l ih => simp [List.flatMap_cons, ih]

theorem arrive_congr {α : Type} [Add α] [Zero α] {w : List (Rank K)} {f g : Nat → Nat → α} {o i : Nat}
    (h : ∀ r < w.length, ∀ j ∈ slots w r o i, f r j = g r j) : arrive w f o i = arrive w g o i := by
  unfold arrive
  congr 1
  apply List.map_congr_left
  intro r hr
  congr 1
  exact List.map_congr_left fun j hj => h r (List.mem_range.1 hr) j hj

theorem arrive_sum [AddCommMonoid K] (w : List (Rank K)) (o i c : Nat) :
    arrive w (fun r j => ((atDof (rank w r).entries ((rank w r).nOwned + j)).map (· c)).sum) o i = ((ghostContribs w o i).map (· c)).sum := by
  unfold arrive ghostContribs
  rw [List.map_flatMap, sum_flatMap']
  congr 1
  apply List.map_congr_left
  intro r _
  rw [List.map_flatMap, sum_flatMap']

theorem arrive_length (w : List (Rank K)) (o i : Nat) :
    arrive w (fun r j => (atDof (rank w r).entries ((rank w r).nOwned + j)).length) o i = (ghostContribs w o i).length := by
  unfold arrive ghostContribs
  rw [List.length_flatMap]
  congr 1
  apply List.map_congr_left
  intro r _
  rw [List.length_flatMap]

theorem mem_slots {w : List (Rank K)} {r o i j : Nat} : j ∈ slots w r o i ↔ (rank w r).shared[j]? = some (o, i) := by
  unfold slots
  simp only [List.mem_filter, List.mem_range, decide_eq_true_eq]
  constructor
  · exact fun h => h.2
  · intro h; exact ⟨(List.getElem?_eq_some_iff.1 h).1, h⟩

end Verif.NodeVals
