import Verif.Handles.Model
import Mathlib.Tactic.Tauto
import Mathlib.Logic.ExistsUnique

/-!
# C102: every MPI handle has exactly one owner until it is given back
-/

namespace Verif.Handles

/-! ## Invariant -/

/-- Every handle held by an object has been given out and not been given back, by no other object, and
every handle given out and not given back is held. -/
structure Inv (s : State) : Prop where
  held : ∀ x h, s.objs x = some (some h) → h < s.next ∧ s.released h = false
  inj : ∀ x y h, s.objs x = some (some h) → s.objs y = some (some h) → x = y
  cover : ∀ h, h < s.next → s.released h = false → ∃ x, s.objs x = some (some h)
  fresh : ∀ h, s.next ≤ h → s.released h = false

theorem inv_init : Inv init := by
  constructor <;> simp [init]

theorem bind_ok {r : Res} {f : State → Res} {t : State} :
    r.bind f = .ok t ↔ ∃ s, r = .ok s ∧ f s = .ok t := by
  cases r <;> simp [Res.bind]

theorem bind_dangling {r : Res} {f : State → Res} :
    r.bind f = .dangling ↔ r = .dangling ∨ ∃ s, r = .ok s ∧ f s = .dangling := by
  cases r <;> simp [Res.bind]

theorem set_objs (s : State) (x : Nat) (v : Option (Option Nat)) (y : Nat) :
    (s.set x v).objs y = if y = x then v else s.objs y := by
  simp [State.set, Function.update_apply]

/-- What `release` does in a state that satisfies the invariant. -/
inductive Released (s : State) (x : Nat) : State → Prop where
  | null (h : s.objs x = some none) : Released s x s
  | held (h : Nat) (hx : s.objs x = some (some h)) :
      Released s x ⟨Function.update s.objs x (some none), Function.update s.released h true, s.next⟩

theorem release_spec {s : State} (i : Inv s) (x : Nat) :
    (s.objs x = none ∧ release s x = .invalid) ∨ ∃ t, release s x = .ok t ∧ Released s x t := by
  unfold release
  cases e : s.objs x with
  | none => left; simp
  | some v =>
    right
    cases v with
    | none => exact ⟨s, rfl, .null e⟩
    | some h =>
      refine ⟨_, ?_, .held h e⟩
      simp [mpiRelease, (i.held x h e).2, Res.bind, State.set]

theorem Released.inv {s t : State} {x : Nat} (r : Released s x t) (i : Inv s) : Inv t := by
  cases r with
  | null => exact i
  | held h hx =>
    have hh := i.held x h hx
    constructor
    · intro y g hy
      simp only [Function.update_apply] at hy ⊢
      split at hy
      · simp at hy
      · rename_i hne
        have := i.held y g hy
        refine ⟨this.1, ?_⟩
        rw [if_neg]
        · exact this.2
        · rintro rfl; exact hne (i.inj _ _ _ hy hx)
    · intro y z g hy hz
      simp only [Function.update_apply] at hy hz
      split at hy
      · simp at hy
      · split at hz
        · simp at hz
        · exact i.inj _ _ _ hy hz
    · intro g hg hr
      simp only [Function.update_apply] at hr ⊢
      split at hr
      · simp at hr
      · rename_i hne
        obtain ⟨y, hy⟩ := i.cover g hg hr
        refine ⟨y, ?_⟩
        rw [if_neg]
        · exact hy
        · rintro rfl; rw [hx] at hy; simp at hy; exact hne hy.symm
    · intro g hg
      simp only [Function.update_apply]
      rw [if_neg]
      · exact i.fresh g hg
      · rintro rfl; exact absurd hh.1 (by simpa using hg)

theorem Released.null_after {s t : State} {x : Nat} (r : Released s x t) : t.objs x = some none := by
  cases r with
  | null h => exact h
  | held h hx => simp

theorem Released.other {s t : State} {x y : Nat} (r : Released s x t) (h : y ≠ x) :
    t.objs y = s.objs y := by
  cases r with
  | null => rfl
  | held g hx => simp [Function.update_apply, h]

theorem Released.next {s t : State} {x : Nat} (r : Released s x t) : t.next = s.next := by
  cases r <;> rfl

theorem Released.mono {s t : State} {x : Nat} (r : Released s x t) {h : Nat} (hr : s.released h = true) :
    t.released h = true := by
  cases r with
  | null => exact hr
  | held g hx => simp only [Function.update_apply]; split <;> simp [hr]

/-- Taking over a handle keeps the invariant, provided the target does not hold one. -/
theorem take_inv {s t : State} (i : Inv s) {x y : Nat}
    (hx : s.objs x = none ∨ s.objs x = some none) (h : take s x y = .ok t) : Inv t := by
  unfold take at h
  cases e : s.objs y with
  | none => rw [e] at h; simp at h
  | some v =>
    rw [e] at h
    simp only [Res.ok.injEq] at h
    subst h
    -- who holds what afterwards
    have key : ∀ z g, ((s.set y (some none)).set x (some v)).objs z = some (some g) ↔
        (z = x ∧ v = some g) ∨ (z ≠ x ∧ z ≠ y ∧ s.objs z = some (some g)) := by
      intro z g
      simp only [set_objs]
      by_cases h1 : z = x
      · simp [h1]
      · by_cases h2 : z = y
        · have h3 : y ≠ x := fun h => h1 (h2.trans h)
          simp [h2, h3]
        · simp [h1, h2]
    constructor
    · intro z g hz
      rcases (key z g).1 hz with ⟨-, rfl⟩ | ⟨-, -, hz⟩
      · exact i.held y g e
      · exact i.held z g hz
    · intro z z' g hz hz'
      rcases (key z g).1 hz with ⟨rfl, hv⟩ | ⟨h1, h2, hw⟩
      · rcases (key z' g).1 hz' with ⟨rfl, -⟩ | ⟨h1, h2, hw'⟩
        · rfl
        · rw [hv] at e; exact absurd (i.inj _ _ _ hw' e) h2
      · rcases (key z' g).1 hz' with ⟨rfl, hv⟩ | ⟨h1', h2', hw'⟩
        · rw [hv] at e; exact absurd (i.inj _ _ _ hw e) h2
        · exact i.inj _ _ _ hw hw'
    · intro g hg hr
      obtain ⟨z, hz⟩ := i.cover g hg hr
      by_cases h1 : z = y
      · subst h1
        rw [e] at hz
        exact ⟨x, (key x g).2 (Or.inl ⟨rfl, by simpa using hz⟩)⟩
      · refine ⟨z, (key z g).2 (Or.inr ⟨?_, h1, hz⟩)⟩
        rintro rfl
        rcases hx with hx | hx <;> rw [hx] at hz <;> simp at hz
    · exact i.fresh

theorem releaseAll_spec {s : State} (i : Inv s) (xs : List Nat) :
    releaseAll s xs = .invalid ∨
    ∃ t, releaseAll s xs = .ok t ∧ Inv t ∧ t.next = s.next ∧
      (∀ h, s.released h = true → t.released h = true) ∧
      (∀ x ∈ xs, t.objs x = some none) ∧ ∀ x ∉ xs, t.objs x = s.objs x := by
  induction xs generalizing s with
  | nil => right; exact ⟨s, rfl, i, rfl, fun _ h => h, by simp, fun _ _ => rfl⟩
  | cons x xs ih =>
    unfold releaseAll
    rcases release_spec i x with ⟨-, e⟩ | ⟨t, e, r⟩
    · left; rw [e]; rfl
    · rw [e]
      rcases ih (r.inv i) with e' | ⟨u, e', iu, hn, hm, h1, h2⟩
      · left; exact e'
      · right
        refine ⟨u, e', iu, hn.trans r.next, fun h hh => hm h (r.mono hh), ?_, ?_⟩
        · intro y hy
          by_cases hyx : y ∈ xs
          · exact h1 y hyx
          · rcases List.mem_cons.1 hy with rfl | hy
            · rw [h2 _ hyx, r.null_after]
            · exact absurd hy hyx
        · intro y hy
          simp only [List.mem_cons, not_or] at hy
          rw [h2 y hy.2, r.other hy.1]

theorem destroy_inv {s : State} (i : Inv s) {x : Nat} (hx : s.objs x = some none) :
    Inv (s.set x none) := by
  have key : ∀ z g, (s.set x none).objs z = some (some g) ↔ s.objs z = some (some g) := by
    intro z g
    rw [set_objs]
    by_cases h : z = x
    · simp [h, hx]
    · simp [h]
  constructor
  · intro z g hz; exact i.held z g ((key z g).1 hz)
  · intro z z' g hz hz'; exact i.inj z z' g ((key z g).1 hz) ((key z' g).1 hz')
  · intro g hg hr
    obtain ⟨z, hz⟩ := i.cover g hg hr
    exact ⟨z, (key z g).2 hz⟩
  · exact i.fresh

theorem construct_inv {s : State} (i : Inv s) {x : Nat} (hx : s.objs x = none) :
    Inv (s.set x (some none)) := by
  have key : ∀ z g, (s.set x (some none)).objs z = some (some g) ↔ s.objs z = some (some g) := by
    intro z g
    rw [set_objs]
    by_cases h : z = x
    · simp [h, hx]
    · simp [h]
  constructor
  · intro z g hz; exact i.held z g ((key z g).1 hz)
  · intro z z' g hz hz'; exact i.inj z z' g ((key z g).1 hz) ((key z' g).1 hz')
  · intro g hg hr
    obtain ⟨z, hz⟩ := i.cover g hg hr
    exact ⟨z, (key z g).2 hz⟩
  · exact i.fresh

theorem start_inv {s : State} (i : Inv s) {x : Nat} (hx : s.objs x = none) :
    Inv { (s.set x (some (some s.next))) with next := s.next + 1 } := by
  have key : ∀ z g, (s.set x (some (some s.next))).objs z = some (some g) ↔
      (z = x ∧ g = s.next) ∨ (z ≠ x ∧ s.objs z = some (some g)) := by
    intro z g
    rw [set_objs]
    by_cases h : z = x
    · simp [h, eq_comm]
    · simp [h]
  constructor
  · intro z g hz
    rcases (key z g).1 hz with ⟨-, rfl⟩ | ⟨-, hz⟩
    · exact ⟨Nat.lt_succ_self _, i.fresh _ (Nat.le_refl _)⟩
    · have := i.held z g hz
      exact ⟨Nat.lt_succ_of_lt this.1, this.2⟩
  · intro z z' g hz hz'
    rcases (key z g).1 hz with ⟨h1, h2⟩ | ⟨h1, hw⟩
    · rcases (key z' g).1 hz' with ⟨h1', -⟩ | ⟨-, hw'⟩
      · rw [h1, h1']
      · rw [h2] at hw'; exact absurd (i.held _ _ hw').1 (Nat.lt_irrefl _)
    · rcases (key z' g).1 hz' with ⟨h1', h2⟩ | ⟨h1', hw'⟩
      · rw [h2] at hw; exact absurd (i.held _ _ hw).1 (Nat.lt_irrefl _)
      · exact i.inj _ _ _ hw hw'
  · intro g hg hr
    by_cases h : g = s.next
    · exact ⟨x, (key x g).2 (Or.inl ⟨rfl, h⟩)⟩
    · have hg' : g < s.next := by simp only at hg; omega
      obtain ⟨z, hz⟩ := i.cover g hg' hr
      refine ⟨z, (key z g).2 (Or.inr ⟨?_, hz⟩)⟩
      rintro rfl; rw [hx] at hz; simp at hz
  · intro g hg
    exact i.fresh g (by simp only at hg; omega)

/-- The handles given back so far stay given back, and the numbering goes on. -/
def Later (s t : State) : Prop := s.next ≤ t.next ∧ ∀ h, s.released h = true → t.released h = true

theorem take_fields {s t : State} {x y : Nat} (h : take s x y = .ok t) :
    t.next = s.next ∧ t.released = s.released := by
  unfold take at h
  cases e : s.objs y with
  | none => rw [e] at h; simp at h
  | some v =>
    rw [e] at h
    simp only [Res.ok.injEq] at h
    subst h
    exact ⟨rfl, rfl⟩

theorem take_not_dangling (s : State) (x y : Nat) : take s x y ≠ .dangling := by
  unfold take
  cases s.objs y <;> simp

theorem step_spec (k : Kind) {s : State} (i : Inv s) (o : Op) :
    step k s o = .invalid ∨ ∃ t, step k s o = .ok t ∧ Inv t ∧ Later s t := by
  have hrel : ∀ x, release s x = .invalid ∨
      ∃ t, release s x = .ok t ∧ Inv t ∧ Later s t := by
    intro x
    rcases release_spec i x with ⟨-, e⟩ | ⟨t, e, r⟩
    · exact Or.inl e
    · exact Or.inr ⟨t, e, r.inv i, Nat.le_of_eq r.next.symm, fun h hh => r.mono hh⟩
  have hskip : Inv s ∧ Later s s := ⟨i, Nat.le_refl _, fun _ h => h⟩
  cases o with
  | construct x =>
    cases e : s.objs x with
    | none => right; exact ⟨_, by simp [step, e], construct_inv i e, Nat.le_refl _, fun _ h => h⟩
    | some v => left; simp [step, e]
  | start x =>
    cases e : s.objs x with
    | none => right; exact ⟨_, by simp [step, e], start_inv i e, Nat.le_succ _, fun _ h => h⟩
    | some v => left; simp [step, e]
  | moveCtor x y =>
    cases e : s.objs x with
    | some v => left; simp [step, e]
    | none =>
      have : step k s (.moveCtor x y) = take s x y := by simp [step, e]
      rw [this]
      cases e' : take s x y with
      | invalid => exact Or.inl rfl
      | dangling => exact absurd e' (take_not_dangling _ _ _)
      | ok t =>
        have hf := take_fields e'
        exact Or.inr ⟨t, rfl, take_inv i (Or.inl e) e', Nat.le_of_eq hf.1.symm, fun h hh => by rw [hf.2]; exact hh⟩
  | moveAssign x y =>
    unfold step
    by_cases hk : k = .comm ∧ x = y
    · simp only [if_pos hk]
      cases s.objs x with
      | none => left; simp
      | some v => right; exact ⟨s, by simp, hskip⟩
    · simp only [if_neg hk]
      by_cases hy : (s.objs y).isSome
      · rw [if_pos hy]
        rcases release_spec i x with ⟨-, e⟩ | ⟨t, e, r⟩
        · left; rw [e]; rfl
        · rw [e]
          show take t x y = .invalid ∨ ∃ u, take t x y = .ok u ∧ _
          cases e' : take t x y with
          | invalid => exact Or.inl rfl
          | dangling => exact absurd e' (take_not_dangling _ _ _)
          | ok u =>
            have hf := take_fields e'
            exact Or.inr ⟨u, rfl, take_inv (r.inv i) (Or.inr r.null_after) e',
              Nat.le_of_eq (hf.1.trans r.next).symm, fun h hh => by rw [hf.2]; exact r.mono hh⟩
      · left; rw [if_neg hy]
  | destroy x =>
    unfold step
    rcases release_spec i x with ⟨-, e⟩ | ⟨t, e, r⟩
    · left; simp only [e]; rfl
    · right
      exact ⟨t.set x none, by simp only [e]; rfl, destroy_inv (r.inv i) r.null_after, Nat.le_of_eq r.next.symm,
        fun h hh => r.mono hh⟩
  | wait x => exact hrel x
  | test x flag =>
    cases flag with
    | true => exact hrel x
    | false =>
      cases e : s.objs x with
      | none => left; simp [step, e]
      | some v => right; exact ⟨s, by simp [step, e], hskip⟩
  | waitAll xs =>
    unfold step
    by_cases h : xs.Nodup
    · simp only [if_pos h]
      rcases releaseAll_spec i xs with e | ⟨t, e, it, hn, hm, -, -⟩
      · exact Or.inl e
      · exact Or.inr ⟨t, e, it, Nat.le_of_eq hn.symm, hm⟩
    · left; simp only [if_neg h]
  | waitAny xs j =>
    unfold step
    by_cases h : xs.Nodup ∧ ∀ x ∈ xs, (s.objs x).isSome
    · simp only [if_pos h]
      by_cases ha : xs.all (fun x => s.objs x = some none)
      · rw [if_pos ha]; exact Or.inr ⟨s, rfl, hskip⟩
      · rw [if_neg ha]
        cases e : xs[j]? with
        | none => exact Or.inl rfl
        | some x =>
          by_cases hn : s.objs x = some none
          · left; simp only [if_pos hn]
          · simp only [if_neg hn]; exact hrel x
    · left; simp only [if_neg h]

theorem run_spec (k : Kind) (os : List Op) {s : State} (i : Inv s) :
    run k s os = .invalid ∨ ∃ t, run k s os = .ok t ∧ Inv t ∧ Later s t := by
  induction os generalizing s with
  | nil => exact Or.inr ⟨s, rfl, i, Nat.le_refl _, fun _ h => h⟩
  | cons o os ih =>
    unfold run
    rcases step_spec k i o with e | ⟨t, e, it, lt⟩
    · left; rw [e]; rfl
    · rw [e]
      rcases ih it with e' | ⟨u, e', iu, lu⟩
      · exact Or.inl e'
      · exact Or.inr ⟨u, e', iu, Nat.le_trans lt.1 lu.1, fun h hh => lu.2 h (lt.2 h hh)⟩

/-! ## Properties -/

/-- C102, ownership: after any sequence of operations, every handle that MPI gave out has either been
given back and is held by no object, or is held by exactly one object. -/
theorem C102_one_owner (k : Kind) (os : List Op) (s : State) (hs : run k init os = .ok s) (h : Nat)
    (hh : h < s.next) :
    (s.released h = true ∧ ∀ x, s.objs x ≠ some (some h)) ∨
    (s.released h = false ∧ ∃! x, s.objs x = some (some h)) := by
  rcases run_spec k os inv_init with e | ⟨t, e, i, -⟩
  · rw [hs] at e; cases e
  rw [hs] at e
  cases e
  cases hr : s.released h with
  | true =>
    left
    refine ⟨rfl, fun x hx => ?_⟩
    have := (i.held x h hx).2
    rw [hr] at this; cases this
  | false =>
    right
    obtain ⟨x, hx⟩ := i.cover h hh hr
    exact ⟨rfl, x, hx, fun y hy => i.inj _ _ _ hy hx⟩

/-- A request is moved twice; the last object holds it. -/
example : ∃ s, run .request init [.start 0, .moveCtor 1 0, .construct 2, .moveAssign 2 1] = .ok s ∧
    s.next = 1 ∧ s.released 0 = false ∧ s.objs 2 = some (some 0) ∧ s.objs 0 = some none :=
  ⟨_, rfl, rfl, rfl, rfl, rfl⟩

/-- C102, no dangling handles: no sequence of operations makes an owner pass MPI a handle that has been
given back already; in particular nothing is waited for, closed or freed twice. -/
theorem C102_never_dangling (k : Kind) (os : List Op) : run k init os ≠ .dangling := by
  rcases run_spec k os inv_init with e | ⟨t, e, -⟩ <;> rw [e] <;> simp

/-- Waiting twice, also by way of a list, and self-assignment. -/
example : ∃ s, run .request init
    [.start 0, .wait 0, .start 1, .waitAll [1, 0], .wait 1, .start 2, .moveAssign 2 2, .destroy 2] = .ok s :=
  ⟨_, rfl⟩

/-- C102, nothing is leaked: once all objects have been destroyed, every handle has been given back:
all communication has completed, all files are closed and all communicators freed. -/
theorem C102_no_leak (k : Kind) (os : List Op) (s : State) (hs : run k init os = .ok s)
    (hd : ∀ x, s.objs x = none) (h : Nat) (hh : h < s.next) : s.released h = true := by
  rcases C102_one_owner k os s hs h hh with h | ⟨-, x, hx, -⟩
  · exact h.1
  · rw [hd x] at hx; cases hx

/-- C102, destruction, waiting and move assignment give back what the object held, so that the buffers
of the communication it stood for may be reused; handles given back stay so. -/
theorem C102_released (k : Kind) (os : List Op) (s : State) (hs : run k init os = .ok s) (x h : Nat)
    (hx : s.objs x = some (some h)) (t : State) :
    (step k s (.destroy x) = .ok t → t.released h = true ∧ t.objs x = none) ∧
    (step k s (.wait x) = .ok t → t.released h = true ∧ t.objs x = some none) ∧
    (step k s (.test x true) = .ok t → t.released h = true ∧ t.objs x = some none) ∧
    (∀ y, x ≠ y → step k s (.moveAssign x y) = .ok t →
      t.released h = true ∧ t.objs x = s.objs y ∧ t.objs y = some none) ∧
    (∀ xs, x ∈ xs → step k s (.waitAll xs) = .ok t → t.released h = true ∧ t.objs x = some none) := by
  have i : Inv s := by
    rcases run_spec k os inv_init with e | ⟨t, e, i, -⟩
    · rw [hs] at e; cases e
    · rw [hs] at e; cases e; exact i
  have hrel : ∀ {t}, Released s x t → t.released h = true := by
    intro t r
    cases r with
    | null e => rw [hx] at e; simp at e
    | held g e =>
      rw [hx] at e
      simp only [Option.some.injEq] at e
      subst e
      simp
  have hw : ∀ {t}, release s x = .ok t → Released s x t := by
    intro t ht
    rcases release_spec i x with ⟨-, e⟩ | ⟨u, e, r⟩
    · rw [ht] at e; cases e
    · rw [ht] at e; cases e; exact r
  refine ⟨?_, ?_, ?_, ?_, ?_⟩
  · intro ht
    obtain ⟨u, hu, e⟩ := bind_ok.1 ht
    simp only [Res.ok.injEq] at e
    have := hrel (hw hu)
    subst e
    exact ⟨this, by simp [set_objs]⟩
  · intro ht
    exact ⟨hrel (hw ht), (hw ht).null_after⟩
  · intro ht
    exact ⟨hrel (hw ht), (hw ht).null_after⟩
  · intro y hxy ht
    unfold step at ht
    have hk : ¬ (k = .comm ∧ x = y) := fun h => hxy h.2
    simp only [if_neg hk] at ht
    by_cases hy : (s.objs y).isSome
    · rw [if_pos hy] at ht
      obtain ⟨u, hu, e⟩ := bind_ok.1 ht
      have r := hw hu
      have hf := take_fields e
      refine ⟨by rw [hf.2]; exact hrel r, ?_⟩
      have hyu := r.other (Ne.symm hxy)
      obtain ⟨v, hv⟩ := Option.isSome_iff_exists.1 hy
      unfold take at e
      rw [hyu, hv] at e
      simp only [Res.ok.injEq] at e
      subst e
      simp [set_objs, hv, Ne.symm hxy]
    · rw [if_neg hy] at ht; cases ht
  · intro xs hxs ht
    unfold step at ht
    by_cases hn : xs.Nodup
    · simp only [if_pos hn] at ht
      rcases releaseAll_spec i xs with e | ⟨u, e, iu, hnx, -, h1, -⟩
      · rw [ht] at e; cases e
      · rw [ht] at e
        cases e
        refine ⟨?_, h1 x hxs⟩
        by_contra hc
        have hc' : t.released h = false := by simpa using hc
        obtain ⟨z, hz⟩ := iu.cover h (by rw [hnx]; exact (i.held x h hx).1) hc'
        by_cases hzx : z ∈ xs
        · rw [h1 z hzx] at hz; simp at hz
        · rcases releaseAll_spec i xs with e2 | ⟨u2, e2, -, -, -, -, h2⟩
          · rw [ht] at e2; cases e2
          · rw [ht] at e2
            cases e2
            rw [h2 z hzx] at hz
            exact hzx (i.inj _ _ _ hz hx ▸ hxs)
    · simp only [if_neg hn] at ht; cases ht

/-- Two requests in flight, both waited for. -/
example : ∃ s t, run .request init [.start 0, .start 1] = .ok s ∧ s.objs 1 = some (some 1) ∧
    step .request s (.waitAll [0, 1]) = .ok t ∧ t.released 1 = true :=
  ⟨_, _, rfl, rfl, rfl, rfl⟩

/-- C102, progress: `waitAll` on a list of distinct existing requests succeeds, and so does every single
operation on existing objects (so that the theorems above are about calls that go through). -/
theorem C102_progress (k : Kind) (os : List Op) (s : State) (hs : run k init os = .ok s) :
    (∀ x, (s.objs x).isSome → ∃ t, step k s (.destroy x) = .ok t) ∧
    (∀ x, (s.objs x).isSome → ∃ t, step k s (.wait x) = .ok t) ∧
    (∀ x y, (s.objs x).isSome → (s.objs y).isSome → ∃ t, step k s (.moveAssign x y) = .ok t) ∧
    (∀ x y, s.objs x = none → (s.objs y).isSome → ∃ t, step k s (.moveCtor x y) = .ok t) ∧
    (∀ xs : List Nat, xs.Nodup → (∀ x ∈ xs, (s.objs x).isSome) → ∃ t, step k s (.waitAll xs) = .ok t) := by
  have i : Inv s := by
    rcases run_spec k os inv_init with e | ⟨t, e, i, -⟩
    · rw [hs] at e; cases e
    · rw [hs] at e; cases e; exact i
  have hr : ∀ {s : State}, Inv s → ∀ x, (s.objs x).isSome → ∃ t, release s x = .ok t ∧ Released s x t := by
    intro s i x hx
    rcases release_spec i x with ⟨e, -⟩ | h
    · rw [e] at hx; cases hx
    · exact h
  refine ⟨?_, ?_, ?_, ?_, ?_⟩
  · intro x hx
    obtain ⟨t, e, -⟩ := hr i x hx
    exact ⟨_, bind_ok.2 ⟨t, e, rfl⟩⟩
  · intro x hx
    obtain ⟨t, e, -⟩ := hr i x hx
    exact ⟨t, e⟩
  · intro x y hx hy
    by_cases hk : k = .comm ∧ x = y
    · exact ⟨s, by unfold step; simp only [if_pos hk, hx, if_true]⟩
    · obtain ⟨t, e, r⟩ := hr i x hx
      have hy' : (t.objs y).isSome := by
        by_cases h : y = x
        · rw [h, r.null_after]; rfl
        · rw [r.other h]; exact hy
      obtain ⟨v, hv⟩ := Option.isSome_iff_exists.1 hy'
      refine ⟨(t.set y (some none)).set x (some v), ?_⟩
      unfold step
      simp only [if_neg hk, if_pos hy, e]
      show take t x y = _
      unfold take; rw [hv]
  · intro x y hx hy
    obtain ⟨v, hv⟩ := Option.isSome_iff_exists.1 hy
    exact ⟨_, by unfold step; simp only [hx, Option.isSome_none, Bool.false_eq_true, if_false]; unfold take; rw [hv]⟩
  · intro xs hn
    have : ∀ {s : State}, Inv s → (∀ x ∈ xs, (s.objs x).isSome) → ∃ t, releaseAll s xs = .ok t := by
      clear hn
      induction xs with
      | nil => intro s _ _; exact ⟨s, rfl⟩
      | cons x xs ih =>
        intro s i hxs
        obtain ⟨t, e, r⟩ := hr i x (hxs x (by simp))
        obtain ⟨u, hu⟩ := ih (s := t) (r.inv i) (by
          intro y hy
          by_cases h : y = x
          · rw [h, r.null_after]; rfl
          · rw [r.other h]; exact hxs y (by simp [hy]))
        exact ⟨u, by unfold releaseAll; rw [e]; exact hu⟩
    intro hxs
    obtain ⟨t, ht⟩ := this i hxs
    exact ⟨t, by unfold step; simp only [if_pos hn]; exact ht⟩

/-- Two messages are started, the first request is overwritten by the second (which waits for the
first), and everything is destroyed: both have completed. -/
example : ∃ s, run .request init [.start 0, .start 1, .moveAssign 0 1, .destroy 1, .destroy 0] = .ok s ∧
    s.next = 2 ∧ s.released 0 = true ∧ s.released 1 = true ∧ ∀ x, s.objs x = none := by
  refine ⟨_, rfl, rfl, rfl, rfl, ?_⟩
  intro x
  simp only [State.set, init, Function.update_apply]
  by_cases h0 : x = 0
  · simp [h0]
  · by_cases h1 : x = 1 <;> simp [h0, h1]

end Verif.Handles
