import Verif.Solve.Model
import Mathlib.Algebra.BigOperators.Group.Finset.Basic
import Mathlib.Algebra.BigOperators.Ring.Finset
import Mathlib.Algebra.Order.BigOperators.Group.Finset
import Mathlib.Algebra.Ring.GeomSum
import Mathlib.Tactic.Ring
import Mathlib.Tactic.Linarith
import Mathlib.Tactic.NormNum
import Mathlib.Tactic.FinCases
import Mathlib.Data.Rat.Cast.Order
/-!
# C77, C78, C85
-/
namespace Verif.Solve

section Precond
variable {K : Type} [Field K] [LinearOrder K]

/-- **C77**, full statement: applying a preconditioner with multiplier `m` computes `α m X + β Y`. -/
def C77Statement (K : Type) [Field K] [LinearOrder K] : Prop := ∀ (R C : Type) (d : R → K) (damp : K) (x y : MV R C K) (alpha beta : K) (s : Nat), 1 ≤ s →
  (jacobiApply d x alpha beta s y = fun i j => alpha * (d i * x i j) + beta * y i j) ∧
  (richardsonApply damp x alpha beta s y = fun i j => alpha * (damp * x i j) + beta * y i j)

/-- **C77** (exact behaviour): after `s` sweeps the result is `(1 + β + … + β^(s-1)) α M X + β^s Y`. -/
theorem C77_exact {R C : Type} (d : R → K) (damp : K) (x y : MV R C K) (alpha beta : K) (s : Nat) :
    (jacobiApply d x alpha beta s y = fun i j => (∑ t ∈ Finset.range s, beta ^ t) * (alpha * (d i * x i j)) + beta ^ s * y i j) ∧
    (richardsonApply damp x alpha beta s y = fun i j => (∑ t ∈ Finset.range s, beta ^ t) * (alpha * (damp * x i j)) + beta ^ s * y i j) := by
  induction s generalizing y with
  | zero => constructor <;> · funext i j; simp [jacobiApply, richardsonApply]
  | succ s ih =>
    constructor
    · rw [jacobiApply, (ih _).1]; funext i j
      rw [elementWiseMultiply, Finset.sum_range_succ, pow_succ]; ring
    · rw [richardsonApply, (ih _).2]; funext i j
      rw [update, Finset.sum_range_succ, pow_succ]; ring

/-- **C77** (partial): the contract holds for one sweep, and for any number of sweeps if `β = 0`. -/
theorem C77_partial {R C : Type} (d : R → K) (damp : K) (x y : MV R C K) (alpha beta : K) (s : Nat) (h : s = 1 ∨ 1 ≤ s ∧ beta = 0) :
    (jacobiApply d x alpha beta s y = fun i j => alpha * (d i * x i j) + beta * y i j) ∧
    (richardsonApply damp x alpha beta s y = fun i j => alpha * (damp * x i j) + beta * y i j) := by
  have e := C77_exact d damp x y alpha beta s
  rcases h with rfl | ⟨hs, rfl⟩
  · simpa using e
  · obtain ⟨s, rfl⟩ : ∃ t, s = t + 1 := ⟨s - 1, by omega⟩
    rw [e.1, e.2]
    simp [zero_geom_sum]

example : (3 : Nat) = 1 ∨ 1 ≤ 3 ∧ (0 : ℚ) = 0 := by simp

/-- **C77** fails for two sweeps and `β ≠ 0`. -/
theorem C77_violated : ¬ C77Statement ℚ := by
  intro h
  have := congrFun (congrFun (h Unit Unit (fun _ => 1) 1 (fun _ _ => 1) (fun _ _ => 0) 1 1 2 (by omega)).1 ()) ()
  rw [(C77_exact (fun _ => (1 : ℚ)) 1 (fun _ _ => 1) (fun _ _ => 0) 1 1 2).1] at this
  norm_num at this

variable [IsStrictOrderedRing K]

/-- **C77** (the Jacobi multiplier): for an entry of the diagonal which exceeds the threshold in
absolute value the multiplier is the damping divided by the entry; otherwise the sign of the entry
times the damping divided by the threshold. It fails to exist only for a zero entry without positive
threshold. -/
theorem C77_diagonal (damping threshold v : K) :
    (diagInv damping threshold v = none ↔ v = 0 ∧ threshold ≤ 0) ∧
    (v ≠ 0 → threshold ≤ |v| → diagInv damping threshold v = some (damping / v)) ∧
    (0 < threshold → |v| ≤ threshold → diagInv damping threshold v = some ((if v < 0 then -damping else damping) / threshold)) := by
  refine ⟨?_, fun hv ht => ?_, fun h0 ht => ?_⟩
  · unfold diagInv
    split
    · rename_i h
      simp only [true_iff]
      have h1 : |v| ≤ 0 := h ▸ le_max_left _ _
      exact ⟨abs_nonpos_iff.1 h1, h ▸ le_max_right _ _⟩
    · rename_i h
      simp only [reduceCtorEq, false_iff]
      rintro ⟨rfl, ht⟩
      exact h (by rw [abs_zero]; exact max_eq_left ht)
  · have hm : max |v| threshold = |v| := max_eq_left ht
    rw [diagInv, hm, if_neg (by simpa using hv)]
    congr 1
    by_cases hn : v < 0
    · rw [if_pos hn, abs_of_neg hn]
      rw [div_neg, neg_one_mul, neg_div, neg_neg]
    · rw [if_neg hn, abs_of_nonneg (not_lt.1 hn), one_mul]
  · have hm : max |v| threshold = threshold := max_eq_right ht
    rw [diagInv, hm, if_neg h0.ne']
    congr 1
    by_cases hn : v < 0
    · rw [if_pos hn, if_pos hn, neg_one_mul]
    · rw [if_neg hn, if_neg hn, one_mul]

example : diagInv (1 / 2 : ℚ) 0 (-4) = some (-1 / 8) := by
  rw [(C77_diagonal (1 / 2 : ℚ) 0 (-4)).2.1 (by norm_num) (by norm_num)]; norm_num

/-- **C77** (initialisation): the multipliers exist exactly when no entry is zero without a positive
threshold, and then there is one per row. -/
theorem C77_init (damping threshold : K) (diag : List K) :
    ((∀ v ∈ diag, v ≠ 0 ∨ 0 < threshold) ↔ (jacobiInit damping threshold diag).isSome) ∧
    ∀ ds, jacobiInit damping threshold diag = some ds → ds.length = diag.length ∧
      ∀ (i : Nat) (v : K), diag[i]? = some v → ds[i]? = diagInv damping threshold v := by
  induction diag with
  | nil =>
    constructor
    · simp [jacobiInit]
    · intro ds h
      have : ds = [] := by simpa [jacobiInit] using h.symm
      subst this; simp
  | cons v diag ih =>
    have hn := (C77_diagonal damping threshold v).1
    unfold jacobiInit at ih ⊢
    rw [List.mapM_cons]
    cases hv : diagInv damping threshold v with
    | none =>
      obtain ⟨h0, ht⟩ := hn.1 hv
      constructor
      · constructor
        · intro h; rcases h v (by simp) with h | h
          · exact absurd h0 h
          · exact absurd ht (not_le.2 h)
        · intro h; simp at h
      · intro ds h; simp at h
    | some d =>
      have hv' : v ≠ 0 ∨ 0 < threshold := by
        by_contra hc
        rw [not_or, not_not, not_lt] at hc
        rw [hn.2 hc] at hv; simp at hv
      cases hm : diag.mapM (diagInv damping threshold) with
      | none =>
        rw [hm] at ih
        constructor
        · constructor
          · intro h
            have := ih.1.1 fun w hw => h w (by simp [hw])
            simp at this
          · intro h; simp at h
        · intro ds h; simp at h
      | some ds' =>
        rw [hm] at ih
        constructor
        · constructor
          · intro _; simp
          · intro _ w hw
            rcases List.mem_cons.1 hw with rfl | hw
            · exact hv'
            · exact ih.1.2 rfl w hw
        · intro ds h
          have : ds = d :: ds' := by simpa using h.symm
          subst this
          obtain ⟨hl, hg⟩ := ih.2 ds' rfl
          refine ⟨by simp [hl], fun i w hw => ?_⟩
          cases i with
          | zero =>
            have : v = w := by simpa using hw
            subst this; simp [hv]
          | succ i => simpa using hg i w (by simpa using hw)

example : ∀ v ∈ [(2 : ℚ), 0, -1], v ≠ 0 ∨ (0 : ℚ) < 1 / 10 := fun _ _ => Or.inr (by norm_num)

/-- **C77** (usable with CG): for positive damping and a diagonal without negative entries every
multiplier is positive, so the Jacobi preconditioner is symmetric positive definite. -/
theorem C77_positive {n : Nat} (damping threshold : K) (diag ds : Fin n → K) (hd : 0 < damping) (hp : ∀ i, 0 ≤ diag i)
    (hs : ∀ i, diagInv damping threshold (diag i) = some (ds i)) (x : Fin n → K) (hx : ∃ i, x i ≠ 0) :
    (∀ i, 0 < ds i) ∧
      0 < ∑ i, x i * jacobiApply (C := Unit) ds (fun i _ => x i) 1 0 1 (fun _ _ => 0) i () := by
  have hpos : ∀ i, 0 < ds i := by
    intro i
    have h := hs i
    unfold diagInv at h
    split at h
    · simp at h
    · rename_i hne
      rw [if_neg (not_lt.2 (hp i)), one_mul, Option.some.injEq] at h
      rw [← h]
      exact div_pos hd (lt_of_le_of_ne (le_trans (abs_nonneg _) (le_max_left _ _)) (Ne.symm hne))
  refine ⟨hpos, ?_⟩
  obtain ⟨i, hi⟩ := hx
  refine Finset.sum_pos' (fun j _ => ?_) ⟨i, Finset.mem_univ _, ?_⟩
  · have e : x j * jacobiApply (C := Unit) ds (fun i _ => x i) 1 0 1 (fun _ _ => 0) j () = ds j * (x j * x j) := by
      simp only [jacobiApply, elementWiseMultiply]; ring
    rw [e]; exact mul_nonneg (hpos j).le (mul_self_nonneg _)
  · have e : x i * jacobiApply (C := Unit) ds (fun i _ => x i) 1 0 1 (fun _ _ => 0) i () = ds i * (x i * x i) := by
      simp only [jacobiApply, elementWiseMultiply]; ring
    rw [e]; exact mul_pos (hpos i) (mul_self_pos.2 hi)

example : ∀ _ : Fin 2, diagInv (1 : ℚ) 0 4 = some (1 / 4) := fun _ =>
  (C77_diagonal (1 : ℚ) 0 4).2.1 (by norm_num) (abs_nonneg _)

end Precond

/-! ### C85 -/

/-- **C85**, full statement: every preconditioner handed to a solver is built or refused, never undefined behaviour. -/
def C85Statement : Prop := ∀ k isMatrix, (k.matrixBased ∨ k.operatorBased) → initPreconditioner k isMatrix ≠ .undefined

/-- **C85** (exact): building the preconditioner is undefined exactly for a preconditioner that needs a
stored matrix applied to a matrix-free operator; otherwise a matrix based construction is used whenever possible. -/
theorem C85_partial (k : PrecKind) (isMatrix : Bool) (h : k.matrixBased ∨ k.operatorBased) :
    (initPreconditioner k isMatrix = .undefined ↔ k.operatorBased = false ∧ isMatrix = false) ∧
    (initPreconditioner k isMatrix = .fromMatrix ↔ k.matrixBased = true ∧ isMatrix = true) := by
  obtain ⟨a, b⟩ := k
  cases a <;> cases b <;> cases isMatrix <;> simp_all [initPreconditioner]

example : initPreconditioner ⟨false, true⟩ false = .fromOperator := rfl

/-- **C85** fails: an Ifpack2 preconditioner (matrix based only) with a matrix-free system runs into
`std::unreachable`. -/
theorem C85_violated : ¬ C85Statement := fun h => h ⟨true, false⟩ false (Or.inl rfl) rfl

/-! ### C78 -/

variable {M V P : Type}

/-- A call did what it was asked: the vector passed as solution solves the system passed. -/
def Solved (isSol : M → V → V → Prop) (h h' : Heap M V) (q : Args) : Prop :=
  isSol (h.mat q.a) (h.vec q.b) (h'.vec q.x) ∧ (∀ i, h'.mat i = h.mat i) ∧ ∀ i, i ≠ q.x → h'.vec i = h.vec i

/-- The library contract: whatever it returns is a solution (for any preconditioner). -/
def Sound (lib : Lib M V P) (isSol : M → V → V → Prop) : Prop := ∀ A p b x v, lib.solve A p b x = some v → isSol A b v

/-- States of an `Amesos2SolverInterface` reachable by calls with arguments satisfying `ok`; between two
calls the caller may change all matrices and vectors. -/
inductive AmesosReach (lib : Lib M V Unit) (ok : Args → Prop) : Option Args → Prop
  | new : AmesosReach lib ok none
  | call {st} (h : Heap M V) (q : Args) : AmesosReach lib ok st → ok q → AmesosReach lib ok (amesosSolve lib st h q).st

/-- The same for `BelosSolverInterface`. -/
inductive BelosReach (lib : Lib M V P) (ok : Args → Prop) : BelosSt P → Prop
  | new : BelosReach lib ok .fresh
  | call {st} (h : Heap M V) (q : Args) : BelosReach lib ok st → ok q → BelosReach lib ok (belosSolve lib st h q).st

/-- **C78**, full statement: every call that returns normally solves the system passed to it. -/
def C78Statement : Prop := ∀ (M V P : Type) (isSol : M → V → V → Prop),
  (∀ lib : Lib M V Unit, Sound lib isSol → ∀ st h q, AmesosReach lib (fun _ => True) st →
    (amesosSolve lib st h q).ok = true → Solved isSol h (amesosSolve lib st h q).heap q) ∧
  (∀ lib : Lib M V P, Sound lib isSol → ∀ st h q, BelosReach lib (fun _ => True) st →
    (belosSolve lib st h q).ok = true → Solved isSol h (belosSolve lib st h q).heap q)

theorem amesosRun_st (lib : Lib M V Unit) (c : Args) (h : Heap M V) : (amesosRun lib c h).st = some c := by
  unfold amesosRun; split <;> rfl

theorem solved_write {isSol : M → V → V → Prop} {h : Heap M V} {c : Args} {v : V} (hv : isSol (h.mat c.a) (h.vec c.b) v) :
    Solved isSol h (h.write c.x v) c :=
  ⟨by simpa [Heap.write] using hv, fun _ => rfl, fun i hi => by simp [Heap.write, hi]⟩

theorem amesosRun_solved {lib : Lib M V Unit} {isSol : M → V → V → Prop} (hs : Sound lib isSol) (c : Args) (h : Heap M V)
    (hok : (amesosRun lib c h).ok = true) : Solved isSol h (amesosRun lib c h).heap c := by
  unfold amesosRun at hok ⊢
  split at hok
  · simp at hok
  · rename_i v hv; exact solved_write (hs _ _ _ _ _ hv)

theorem belosRun_solved {lib : Lib M V P} {isSol : M → V → V → Prop} (hs : Sound lib isSol) (c : Args) (p : P) (h : Heap M V)
    (hok : (belosRun lib c p h).ok = true) : Solved isSol h (belosRun lib c p h).heap c := by
  unfold belosRun at hok ⊢
  split at hok
  · simp at hok
  · rename_i v hv; exact solved_write (hs _ _ _ _ _ hv)

theorem belosRun_st (lib : Lib M V P) (c : Args) (p : P) (h : Heap M V) : (belosRun lib c p h).st = .ready c p := by
  unfold belosRun; split <;> rfl

/-- **C78** (exact, direct solvers): the first call which gets past the column check fixes the system
for good: every later call that returns normally solves *that* system, whatever it is passed. -/
theorem C78_amesos_exact {lib : Lib M V Unit} {isSol : M → V → V → Prop} (hs : Sound lib isSol) (c : Args) (h : Heap M V) (q : Args)
    (hok : (amesosSolve lib (some c) h q).ok = true) :
    Solved isSol h (amesosSolve lib (some c) h q).heap c ∧ (amesosSolve lib (some c) h q).st = some c := by
  unfold amesosSolve at hok ⊢
  split
  · rename_i hc; rw [if_pos hc] at hok
    exact ⟨amesosRun_solved hs c h hok, amesosRun_st lib c h⟩
  · rename_i hc; rw [if_neg hc] at hok; simp at hok

/-- **C78** (exact, iterative solvers): the same; in addition the preconditioner stays the one built
from the matrix as it was in the first call. -/
theorem C78_belos_exact {lib : Lib M V P} {isSol : M → V → V → Prop} (hs : Sound lib isSol) (c : Args) (p : P) (h : Heap M V) (q : Args)
    (hok : (belosSolve lib (.ready c p) h q).ok = true) :
    Solved isSol h (belosSolve lib (.ready c p) h q).heap c ∧ (belosSolve lib (.ready c p) h q).st = .ready c p := by
  unfold belosSolve at hok ⊢
  split
  · rename_i hc; rw [if_pos hc] at hok
    exact ⟨belosRun_solved hs c p h hok, belosRun_st lib c p h⟩
  · rename_i hc; rw [if_neg hc] at hok; simp at hok

/-- **C78** (partial): a solver object always called with the same matrix, right-hand side and solution
objects — whose contents may change arbitrarily between the calls — solves the system passed in every
call that returns normally. -/
theorem C78_partial (isSol : M → V → V → Prop) (q : Args) :
    (∀ lib : Lib M V Unit, Sound lib isSol → ∀ st h, AmesosReach lib (· = q) st →
      (amesosSolve lib st h q).ok = true → Solved isSol h (amesosSolve lib st h q).heap q) ∧
    (∀ lib : Lib M V P, Sound lib isSol → ∀ st h, BelosReach lib (· = q) st →
      (belosSolve lib st h q).ok = true → Solved isSol h (belosSolve lib st h q).heap q) := by
  constructor
  · intro lib hs st h hr hok
    have inv : st = none ∨ st = some q := by
      clear hok h
      induction hr with
      | new => left; rfl
      | call h p hr hp ih =>
        subst hp
        unfold amesosSolve
        split
        · rcases ih with rfl | rfl
          · dsimp only
            split
            · right; exact amesosRun_st ..
            · right; rfl
          · right; exact amesosRun_st ..
        · exact ih
    rcases inv with rfl | rfl
    · unfold amesosSolve at hok ⊢
      split
      · rename_i hc; rw [if_pos hc] at hok
        dsimp only at hok ⊢
        split
        · rename_i hsh; rw [if_pos hsh] at hok
          exact amesosRun_solved hs q h hok
        · rename_i hsh; rw [if_neg hsh] at hok; simp at hok
      · rename_i hc; rw [if_neg hc] at hok; simp at hok
    · exact (C78_amesos_exact hs q h q hok).1
  · intro lib hs st h hr hok
    have inv : st = .fresh ∨ st = .broken ∨ ∃ p, st = .ready q p := by
      clear hok h
      induction hr with
      | new => left; rfl
      | call h p hr hp ih =>
        subst hp
        unfold belosSolve
        split
        · rcases ih with rfl | rfl | ⟨p', rfl⟩
          · dsimp only [belosInit]
            split
            · right; left; rfl
            · split
              · right; right; exact ⟨_, belosRun_st ..⟩
              · right; left; rfl
          · right; left; rfl
          · right; right; exact ⟨_, belosRun_st ..⟩
        · exact ih
    rcases inv with rfl | rfl | ⟨p, rfl⟩
    · unfold belosSolve at hok ⊢
      split
      · rename_i hc; rw [if_pos hc] at hok
        dsimp only [belosInit] at hok ⊢
        split
        · rename_i hp; rw [hp] at hok; simp at hok
        · rename_i p hp; rw [hp] at hok
          dsimp only at hok
          split
          · rename_i hsh; rw [if_pos hsh] at hok
            exact belosRun_solved hs q p h hok
          · rename_i hsh; rw [if_neg hsh] at hok; simp at hok
      · rename_i hc; rw [if_neg hc] at hok; simp at hok
    · unfold belosSolve at hok
      split at hok <;> simp at hok
    · exact (C78_belos_exact hs q p h q hok).1

/-- A one-dimensional library for the examples: `A x = b` by division. -/
def exLib : Lib ℚ ℚ Unit := ⟨fun _ => 1, fun A _ _ => A ≠ 0, fun _ => some (), fun A _ b _ => if A = 0 then none else some (b / A)⟩

theorem exLib_sound : Sound exLib (fun A b x => A * x = b) := by
  intro A p b x v h
  simp only [exLib] at h
  split at h
  · simp at h
  · rename_i hA
    rw [Option.some.injEq] at h; subst h
    exact mul_div_cancel₀ b hA

example : Sound exLib (fun A b x => A * x = b) ∧ AmesosReach exLib (· = ⟨0, 0, 1⟩) (some ⟨0, 0, 1⟩) := by
  refine ⟨exLib_sound, ?_⟩
  have := AmesosReach.call (lib := exLib) (ok := (· = ⟨0, 0, 1⟩)) ⟨fun _ => 2, fun _ => 4⟩ ⟨0, 0, 1⟩ .new rfl
  have e : (amesosSolve exLib none ⟨fun _ => 2, fun _ => 4⟩ ⟨0, 0, 1⟩).st = some ⟨0, 0, 1⟩ := by
    simp [amesosSolve, exLib, amesosRun]
  rwa [e] at this

/-- **C78** fails: the second call with another matrix, right-hand side and solution vector leaves the
passed solution vector untouched and reports success. -/
theorem C78_violated : ¬ C78Statement := by
  intro hst
  have h1 := (hst ℚ ℚ Unit (fun A b x => A * x = b)).1 exLib exLib_sound
  let h0 : Heap ℚ ℚ := ⟨fun i => if i = 0 then 2 else 3, fun i => if i = 0 then 2 else if i = 2 then 3 else 0⟩
  have hr : AmesosReach exLib (fun _ => True) (some ⟨0, 0, 1⟩) := by
    have := AmesosReach.call (lib := exLib) (ok := fun _ => True) h0 ⟨0, 0, 1⟩ .new trivial
    have e : (amesosSolve exLib none h0 ⟨0, 0, 1⟩).st = some ⟨0, 0, 1⟩ := by
      simp [amesosSolve, exLib, amesosRun, h0]
    rwa [e] at this
  have hok : (amesosSolve exLib (some ⟨0, 0, 1⟩) h0 ⟨1, 2, 3⟩).ok = true := by
    simp [amesosSolve, exLib, amesosRun, h0]
  have := (h1 _ h0 ⟨1, 2, 3⟩ hr hok).1
  simp [amesosSolve, exLib, amesosRun, h0, Heap.write] at this

/-- **C78** (after an error): a direct solver whose first call was refused because of incompatible
dimensions keeps those objects: a corrected call is not checked again and works on the refused system. -/
theorem C78_after_error (lib : Lib M V Unit) (h h' : Heap M V) (q q' : Args) (hc : lib.cols (h.vec q.x) = lib.cols (h.vec q.b))
    (hsh : lib.shapeOK (h.mat q.a) (h.vec q.b) (h.vec q.x) = false) (hc' : lib.cols (h'.vec q'.x) = lib.cols (h'.vec q'.b)) :
    (amesosSolve lib none h q).ok = false ∧ amesosSolve lib (amesosSolve lib none h q).st h' q' = amesosRun lib q h' := by
  have e : amesosSolve lib none h q = ⟨some q, h, false⟩ := by
    unfold amesosSolve; rw [if_pos hc]; dsimp only; rw [if_neg (by simp [hsh])]
  rw [e]
  exact ⟨rfl, by unfold amesosSolve; rw [if_pos hc']⟩

example : exLib.shapeOK 0 1 1 = false := by simp [exLib]

end Verif.Solve
