import Mathlib.Data.List.Perm.Basic
/-!
# Interleavings

Concurrent threads are lists of atomic steps; an execution is an interleaving of them
(sequential consistency).
-/
namespace Verif

/-- `Interleaves ps tr`: the trace `tr` executes all steps of the threads `ps`, each thread
in program order. -/
inductive Interleaves {α : Type _} : List (List α) → List α → Prop
  | done (ps : List (List α)) (h : ∀ p ∈ ps, p = []) : Interleaves ps []
  | step (pre post : List (List α)) (a : α) (rest tr : List α)
      (h : Interleaves (pre ++ rest :: post) tr) : Interleaves (pre ++ (a :: rest) :: post) (a :: tr)

theorem Interleaves.perm {α : Type _} {ps : List (List α)} {tr : List α}
    (h : Interleaves ps tr) : tr.Perm ps.flatten := by
  induction h with
  | done ps h =>
    have : ps.flatten = [] := List.flatten_eq_nil_iff.2 h
    rw [this]
  | step pre post a rest tr _ ih =>
    simp only [List.flatten_append, List.flatten_cons] at ih ⊢
    refine (List.Perm.cons a ih).trans ?_
    rw [List.cons_append]
    exact List.perm_middle.symm

end Verif
