import Verif.StatInit.Model
import Mathlib.Data.List.Perm.Basic
import Mathlib.Tactic.NormNum
import Mathlib.Tactic.FieldSimp

/-! # C92: the one-dimensional matrices hold their values when `main` starts -/
namespace Verif.StatInit
open Verif.SumFact
variable {K : Type} [Field K]

/-- The matrix each variable should hold, in terms of the values and derivatives of the basis functions at the points. -/
def intended (p : Par K) : Var → Nat → Nat → K
  | .interp => fun b q => p.B b q
  | .der => fun b q => p.D b q
  | .interpT => fun q b => p.B b q
  | .derT => fun q b => p.D b q
  | .plusInterpBack => fun r c => if r < p.nb / 2 then p.B r c + p.B (p.nb - r - 1) c else p.B (p.nb / 2) c
  | .minusInterpBack => fun r c => p.B r c - p.B (p.nb - r - 1) c
  | .plusInterpFwd => fun r c => if r < p.nq / 2 then p.B c r + p.B c (p.nq - r - 1) else p.B c (p.nq / 2)
  | .minusInterpFwd => fun r c => p.B c r - p.B c (p.nq - r - 1)
  | .plusDerBack => fun r c => if r < p.nb / 2 then p.D r c + p.D (p.nb - r - 1) c else p.D (p.nb / 2) c
  | .minusDerBack => fun r c => p.D r c - p.D (p.nb - r - 1) c
  | .plusDerFwd => fun r c => if r < p.nq / 2 then p.D c r + p.D c (p.nq - r - 1) else p.D c (p.nq / 2)
  | .minusDerFwd => fun r c => p.D c r - p.D c (p.nq - r - 1)

/-- The variable which the initialiser of a variable reads. -/
def source : Var → Option Var
  | .interp | .der => none
  | .interpT | .plusInterpBack | .minusInterpBack => some .interp
  | .derT | .plusDerBack | .minusDerBack => some .der
  | .plusInterpFwd | .minusInterpFwd => some .interpT
  | .plusDerFwd | .minusDerFwd => some .derT

/-- Orders in which every variable comes after the one it is computed from. -/
def Respects (order : List Var) : Prop := ∀ v d, source v = some d → ∀ pre post, order = pre ++ v :: post → d ∈ pre

/-- The claim: whatever order the implementation chooses, every variable ends up with its value. -/
def C92Statement : Prop := ∀ (p : Par ℚ) (order : List Var), order.Nodup → (∀ v, v ∈ order) → ∀ v, initialise p order v = intended p v

theorem initialiser_intended (p : Par K) (m : Mem K) (v : Var) (h : ∀ d, source v = some d → m d = intended p d) :
    initialiser p m v = intended p v := by
  cases v <;> simp only [initialiser] <;> first
    | rfl
    | (rw [h _ rfl]; rfl)

/-- **C92**, for orders in which each matrix is initialised after the one it is computed from: every matrix which has been initialised has the
intended value.  Missing: the language guarantees no such order. -/
theorem C92_ordered_partial (p : Par K) (order : List Var) (hn : order.Nodup) (hr : Respects order) :
    ∀ v ∈ order, initialise p order v = intended p v := by
  suffices H : ∀ post pre, order = pre ++ post → ∀ m : Mem K, (∀ v ∈ pre, m v = intended p v) →
      ∀ v ∈ order, post.foldl (fun m v => Function.update m v (initialiser p m v)) m v = intended p v by
    exact H order [] rfl _ (by simp)
  intro post
  induction post with
  | nil =>
    intro pre e m hm v hv
    rw [List.append_nil] at e
    exact hm v (e ▸ hv)
  | cons a post ih =>
    intro pre e m hm v hv
    rw [List.foldl_cons]
    refine ih (pre ++ [a]) (by rw [e, List.append_assoc]; rfl) _ ?_ v hv
    intro w hw
    rw [List.mem_append, List.mem_singleton] at hw
    by_cases hwa : w = a
    · subst hwa
      rw [Function.update_self]
      exact initialiser_intended p m w fun d hd => hm d (hr w d hd pre post e)
    · rw [Function.update_of_ne hwa]
      exact hm w (hw.resolve_right hwa)

/-- The order of the declarations in the file is one of them. -/
def textOrder : List Var := [.interp, .der, .interpT, .derT, .plusInterpBack, .minusInterpBack, .plusInterpFwd, .minusInterpFwd, .plusDerBack,
  .minusDerBack, .plusDerFwd, .minusDerFwd]

/-- Whatever the order, the two basic matrices are right. -/
theorem C92_basic (p : Par K) (order : List Var) :
    (.interp ∈ order → initialise p order .interp = p.B) ∧ (.der ∈ order → initialise p order .der = p.D) := by
  have H : ∀ (v : Var) (f : Nat → Nat → K), (∀ m, initialiser p m v = f) → ∀ (l : List Var) (m : Mem K), v ∈ l ∨ m v = f →
      l.foldl (fun m v => Function.update m v (initialiser p m v)) m v = f := by
    intro v f hf l
    induction l with
    | nil => intro m h; exact h.resolve_left (by simp)
    | cons a l ih =>
      intro m h
      rw [List.foldl_cons]
      apply ih
      by_cases ha : v = a
      · subst ha
        right
        rw [Function.update_self, hf]
      · rcases h with h | h
        · exact Or.inl ((List.mem_cons.1 h).resolve_left ha)
        · right
          rw [Function.update_of_ne ha, h]
  exact ⟨fun h => H .interp p.B (fun _ => rfl) order _ (Or.inl h), fun h => H .der p.D (fun _ => rfl) order _ (Or.inl h)⟩

/-- If a transposed matrix is initialised before the matrix it is copied from, it is zero for the rest of the program. -/
theorem C92_zero (p : Par K) (pre post : List Var) (hn : (pre ++ .interpT :: post).Nodup) (hi : .interp ∉ pre) :
    initialise p (pre ++ .interpT :: post) .interpT = fun _ _ => 0 := by
  have keep : ∀ (v : Var) (l : List Var) (m : Mem K), v ∉ l → l.foldl (fun m v => Function.update m v (initialiser p m v)) m v = m v := by
    intro v l
    induction l with
    | nil => intro m _; rfl
    | cons a l ih =>
      intro m h
      rw [List.mem_cons, not_or] at h
      rw [List.foldl_cons, ih _ h.2, Function.update_of_ne h.1]
  have h2 := (List.nodup_append.1 hn).2.1
  unfold initialise
  rw [List.foldl_append, List.foldl_cons, keep _ _ _ (List.nodup_cons.1 h2).1, Function.update_self]
  change transposed _ = _
  rw [keep _ _ _ hi]
  rfl

/-- The reverse of the order in the file leaves the transposed interpolation matrix zero. -/
theorem C92_violated : ¬ C92Statement := by
  intro H
  have h := H ⟨1, 1, fun _ _ => 1, fun _ _ => 0⟩ textOrder.reverse (by decide) (by intro v; cases v <;> decide) .interpT
  have h2 := C92_zero (⟨1, 1, fun _ _ => 1, fun _ _ => 0⟩ : Par ℚ)
    [.minusDerFwd, .plusDerFwd, .minusDerBack, .plusDerBack, .minusInterpFwd, .plusInterpFwd, .minusInterpBack, .plusInterpBack, .derT]
    [.der, .interp] (by decide) (by decide)
  have h3 := congrFun (congrFun (h.symm.trans h2) 0) 0
  norm_num [intended] at h3

example : textOrder.Nodup ∧ Respects textOrder := by
  refine ⟨by decide, ?_⟩
  intro v d hd pre post e
  have key : ∀ v ∈ textOrder, ∀ d, source v = some d → d ∈ textOrder.takeWhile (· ≠ v) := by decide
  have hv : v ∈ textOrder := by rw [e]; simp
  have hnd : textOrder.Nodup := by decide
  rw [e] at hnd
  have hpre : v ∉ pre := fun h => (List.nodup_append.1 hnd).2.2 v h v (by simp) rfl
  have := key v hv d hd
  rw [e, List.takeWhile_append_of_pos (p := fun x => decide (x ≠ v)) (fun a ha => decide_eq_true fun h : a = v => hpre (h ▸ ha))] at this
  simpa using this

end Verif.StatInit
