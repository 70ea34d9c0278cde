import Verif.Kern.Spec
import Mathlib.Algebra.BigOperators.Group.List.Basic
import Mathlib.Data.List.Nodup
import Mathlib.Tactic.Ring
import Mathlib.Tactic.NormNum
import Mathlib.Algebra.Field.Rat

/-!
# C106: a kernel starts from a zero result and may fill in only what it needs
-/
namespace Verif.Kern
variable {K : Type} [Field K]

/-! ### Lemmas -/

theorem mem_rhsComps (p : Params) (x : Comp) : x ∈ p.rhsComps ↔ ∃ r c, x = .rhs r c ∧ r < p.nEq ∧ c < p.nRhs := by
  unfold Params.rhsComps
  simp only [List.mem_flatMap, List.mem_range, List.mem_map]
  constructor
  · rintro ⟨c, hc, r, hr, rfl⟩; exact ⟨r, c, rfl, hr, hc⟩
  · rintro ⟨r, c, rfl, hr, hc⟩; exact ⟨c, hc, r, hr, rfl⟩

theorem mem_opComps (p : Params) (d : Nat) (x : Comp) : x ∈ p.opComps d ↔ ∃ r c, x = .op d r c ∧ r < p.nEq ∧ c < p.nUnk := by
  unfold Params.opComps
  simp only [List.mem_flatMap, List.mem_range, List.mem_map]
  constructor
  · rintro ⟨c, hc, r, hr, rfl⟩; exact ⟨r, c, rfl, hr, hc⟩
  · rintro ⟨r, c, rfl, hr, hc⟩; exact ⟨c, hc, r, hr, rfl⟩

theorem setZero_apply (cs : List Comp) (m : Mem K) (x : Comp) : setZero cs m x = if x ∈ cs then some 0 else m x := by
  unfold setZero
  induction cs generalizing m with
  | nil => simp
  | cons c l ih =>
    rw [List.foldl_cons, ih]
    by_cases hx : x ∈ l
    · simp [hx]
    · by_cases hc : x = c
      · subst hc; simp
      · simp [hx, hc]

theorem foldl_setZero (f : Nat → List Comp) (ds : List Nat) (m : Mem K) (x : Comp) :
    (ds.foldl (fun m d => setZero (f d) m) m) x = if (∃ d ∈ ds, x ∈ f d) then some 0 else m x := by
  induction ds generalizing m with
  | nil => simp
  | cons d l ih =>
    rw [List.foldl_cons, ih, setZero_apply]
    by_cases h1 : ∃ d ∈ l, x ∈ f d
    · rw [if_pos h1, if_pos]
      obtain ⟨d', h, h'⟩ := h1
      exact ⟨d', List.mem_cons_of_mem _ h, h'⟩
    · rw [if_neg h1]
      by_cases h2 : x ∈ f d
      · rw [if_pos h2, if_pos ⟨d, List.mem_cons_self, h2⟩]
      · rw [if_neg h2, if_neg]
        rintro ⟨d', h, h'⟩
        rcases List.mem_cons.1 h with rfl | h
        · exact h2 h'
        · exact h1 ⟨d', h, h'⟩

theorem init_apply (p : Params) (x : Comp) (h : p.Has x) : (initKernelResult p : Mem K) x = some 0 := by
  unfold initKernelResult
  rw [setZero_apply]
  cases x with
  | rhs r c => rw [if_pos ((mem_rhsComps p _).2 ⟨r, c, rfl, h.1, h.2⟩)]
  | op d r c =>
    rw [if_neg (by rw [mem_rhsComps]; rintro ⟨r, c, h, -⟩; simp at h), foldl_setZero, if_pos]
    exact ⟨d, List.mem_range.2 h.1, (mem_opComps p d _).2 ⟨r, c, rfl, h.2.1, h.2.2⟩⟩

theorem mapM_isSome {α β : Type} (f : α → Option β) (l : List α) : (l.mapM f).isSome ↔ ∀ a ∈ l, (f a).isSome := by
  induction l with
  | nil => simp
  | cons a l ih =>
    rw [List.mapM_cons]
    cases ha : f a with
    | none => simp [ha]
    | some b =>
      cases hl : l.mapM f with
      | none =>
        rw [hl] at ih
        simp only [Option.isSome_none, Bool.false_eq_true, false_iff] at ih
        simp only [List.mem_cons, forall_eq_or_imp, ha, Option.isSome_some, true_and]
        exact ⟨fun h => by simp at h, fun h => absurd h ih⟩
      | some bs =>
        rw [hl] at ih
        simp only [Option.isSome_some, true_iff] at ih
        simp only [List.mem_cons, forall_eq_or_imp, ha, Option.isSome_some, true_and]
        exact ⟨fun _ => ih, fun _ => rfl⟩

theorem mapM_congr {α β : Type} (f g : α → Option β) (l : List α) (h : ∀ a ∈ l, f a = g a) : l.mapM f = l.mapM g := by
  induction l with
  | nil => rfl
  | cons a l ih =>
    rw [List.mapM_cons, List.mapM_cons, h a List.mem_cons_self, ih fun b hb => h b (List.mem_cons_of_mem _ hb)]

theorem invoke_append (l l' : List (Stmt K)) (m : Mem K) : invoke (l ++ l') m = (invoke l m).bind (invoke l') := by
  induction l generalizing m with
  | nil => rfl
  | cons s l ih =>
    rw [List.cons_append, invoke, invoke]
    cases s.exec m with
    | none => rfl
    | some m' => exact ih m'

/-- A scalar has a value afterwards iff it had one or was assigned. -/
theorem invoke_known (l : List (Stmt K)) (m m' : Mem K) (h : invoke l m = some m') (x : Comp) :
    (m' x).isSome ↔ (m x).isSome ∨ ∃ s ∈ l, s.dst = x := by
  induction l generalizing m with
  | nil => rw [invoke] at h; injection h with h; rw [h]; simp
  | cons s l ih =>
    rw [invoke] at h
    cases hs : s.exec m with
    | none => rw [hs] at h; simp at h
    | some m1 =>
      rw [hs] at h
      rw [ih m1 h]
      unfold Stmt.exec at hs
      obtain ⟨vs, -, rfl⟩ := Option.map_eq_some_iff.1 hs
      by_cases hx : x = s.dst
      · subst hx; simp
      · rw [Function.update_of_ne hx]
        simp only [List.mem_cons, exists_eq_or_imp]
        have : ¬ s.dst = x := fun e => hx e.symm
        simp [this]

/-- Scalars that are never assigned keep their value. -/
theorem invoke_untouched (l : List (Stmt K)) (m m' : Mem K) (h : invoke l m = some m') (x : Comp) (hx : ∀ s ∈ l, s.dst ≠ x) : m' x = m x := by
  induction l generalizing m with
  | nil => rw [invoke] at h; injection h with h; rw [h]
  | cons s l ih =>
    rw [invoke] at h
    cases hs : s.exec m with
    | none => rw [hs] at h; simp at h
    | some m1 =>
      rw [hs] at h
      rw [ih m1 h fun s' hs' => hx s' (List.mem_cons_of_mem _ hs')]
      unfold Stmt.exec at hs
      obtain ⟨vs, -, rfl⟩ := Option.map_eq_some_iff.1 hs
      exact Function.update_of_ne (Ne.symm (hx s List.mem_cons_self)) _ _

/-- Execution is defined iff every read is of a scalar with a value. -/
theorem invoke_defined (l : List (Stmt K)) (m : Mem K) (known : List Comp) (hk : ∀ x, (m x).isSome ↔ x ∈ known) :
    (invoke l m).isSome ↔ ReadsKnown known l := by
  induction l generalizing m known with
  | nil => simp [invoke, ReadsKnown]
  | cons s l ih =>
    rw [invoke, ReadsKnown]
    have h1 := mapM_isSome m s.reads
    cases hr : s.reads.mapM m with
    | none =>
      have : s.exec m = none := by unfold Stmt.exec; rw [hr]; rfl
      rw [this]
      rw [hr] at h1
      simp only [Option.isSome_none, Bool.false_eq_true, false_iff] at h1
      simp only [Option.bind_none, Option.isSome_none, Bool.false_eq_true, false_iff, not_and]
      intro h2
      exact absurd (fun a ha => (hk a).2 (h2 a ha)) h1
    | some vs =>
      have e : s.exec m = some (Function.update m s.dst (some (s.val vs))) := by unfold Stmt.exec; rw [hr]; rfl
      rw [e, Option.bind_some]
      rw [hr] at h1
      simp only [Option.isSome_some, true_iff] at h1
      rw [ih _ (s.dst :: known)]
      · exact ⟨fun h => ⟨fun c hc => (hk c).1 (h1 c hc), h⟩, fun h => h.2⟩
      · intro x
        by_cases hx : x = s.dst
        · subst hx; simp
        · rw [Function.update_of_ne hx, hk]; simp [hx]

/-- Two memories that agree where the first has values. -/
theorem invoke_refines (l : List (Stmt K)) (m n m' : Mem K) (hmn : ∀ x v, m x = some v → n x = some v) (h : invoke l m = some m') :
    ∃ n', invoke l n = some n' ∧ ∀ x v, m' x = some v → n' x = some v := by
  induction l generalizing m n with
  | nil => rw [invoke] at h; injection h with h; subst h; exact ⟨n, rfl, hmn⟩
  | cons s l ih =>
    rw [invoke] at h
    cases hs : s.exec m with
    | none => rw [hs] at h; simp at h
    | some m1 =>
      rw [hs] at h
      unfold Stmt.exec at hs
      obtain ⟨vs, hvs, rfl⟩ := Option.map_eq_some_iff.1 hs
      have hn : s.reads.mapM n = some vs := by
        rw [← hvs]
        refine mapM_congr _ _ _ fun a ha => ?_
        have := (mapM_isSome m s.reads).1 (by rw [hvs]; rfl) a ha
        obtain ⟨v, hv⟩ := Option.isSome_iff_exists.1 this
        rw [hv, hmn a v hv]
      have e : s.exec n = some (Function.update n s.dst (some (s.val vs))) := by unfold Stmt.exec; rw [hn]; rfl
      rw [invoke, e]
      refine ih _ _ ?_ h
      intro x v hx
      by_cases hd : x = s.dst
      · subst hd; simpa using hx
      · rw [Function.update_of_ne hd] at hx ⊢; exact hmn x v hx

/-! ### Theorems -/

/-- **C106, equation kernels.**  Whatever the kernel assigns and in whatever order, reading scalars of the result at will: the call is defined, every
scalar of the result has a value, and those the kernel did not assign are zero. -/
theorem C106_equation {I : Type} (p : Params) (kernel : I → List (Stmt K)) (input : I) (hr : ∀ s ∈ kernel input, ∀ x ∈ s.reads, p.Has x) :
    ∃ m, equation p kernel input = some m ∧ (∀ x, p.Has x → (m x).isSome) ∧
      ∀ x, p.Has x → (∀ s ∈ kernel input, s.dst ≠ x) → m x = some 0 := by
  have key : ∀ (l : List (Stmt K)) (m : Mem K), (∀ s ∈ l, ∀ x ∈ s.reads, p.Has x) → (∀ x, p.Has x → (m x).isSome) → ∃ m', invoke l m = some m' := by
    intro l
    induction l with
    | nil => exact fun m _ _ => ⟨m, rfl⟩
    | cons s l ih =>
      intro m h1 h2
      have h3 := (mapM_isSome m s.reads).2 fun a ha => h2 a (h1 s List.mem_cons_self a ha)
      obtain ⟨vs, hvs⟩ := Option.isSome_iff_exists.1 h3
      have e : s.exec m = some (Function.update m s.dst (some (s.val vs))) := by unfold Stmt.exec; rw [hvs]; rfl
      rw [invoke, e]
      refine ih _ (fun s' hs' => h1 s' (List.mem_cons_of_mem _ hs')) fun x hx => ?_
      by_cases hd : x = s.dst
      · subst hd; simp
      · rw [Function.update_of_ne hd]; exact h2 x hx
  obtain ⟨m, hm⟩ := key (kernel input) (initKernelResult p) hr fun x hx => by rw [init_apply p x hx]; rfl
  refine ⟨m, hm, fun x hx => ?_, fun x hx hn => ?_⟩
  · rw [invoke_known _ _ _ hm]; left; rw [init_apply p x hx]; rfl
  · rw [invoke_untouched _ _ _ hm x hn, init_apply p x hx]

/-- A kernel in two dimensions with two equations that sets one entry and adds to another. -/
example : ∀ s ∈ [assign (.op 1 0 0) (3 : ℚ), addTo (.rhs 1 0) 5], ∀ x ∈ s.reads, (⟨2, 2, 1, 1⟩ : Params).Has x := by
  intro s hs x hx
  simp only [List.mem_cons, List.not_mem_nil, or_false] at hs
  rcases hs with rfl | rfl
  · simp [assign] at hx
  · simp only [addTo, List.mem_singleton] at hx; subst hx; exact ⟨by decide, by decide⟩

theorem invoke_additive (l : List (Comp × K)) (m : Mem K) (f : Comp → K) (h : ∀ x ∈ l, m x.1 = some (f x.1)) :
    ∃ m', invoke (additive l) m = some m' ∧ (∀ x, m x = some (f x) → m' x = some (f x + contribution l x)) := by
  induction l generalizing m f with
  | nil => exact ⟨m, rfl, fun x hx => by rw [hx]; simp [contribution]⟩
  | cons a l ih =>
    have ha := h a List.mem_cons_self
    have e : (addTo a.1 a.2).exec m = some (Function.update m a.1 (some (f a.1 + a.2))) := by
      unfold Stmt.exec addTo
      rw [List.mapM_cons, List.mapM_nil, ha]; rfl
    obtain ⟨m', h1, h2⟩ := ih (Function.update m a.1 (some (f a.1 + a.2))) (Function.update f a.1 (f a.1 + a.2)) (by
      intro x hx
      by_cases hd : x.1 = a.1
      · rw [hd]; simp
      · rw [Function.update_of_ne hd, Function.update_of_ne hd]; exact h x (List.mem_cons_of_mem _ hx))
    refine ⟨m', ?_, fun x hx => ?_⟩
    · show invoke (addTo a.1 a.2 :: additive l) m = some m'
      rw [invoke, e]; exact h1
    · by_cases hd : x = a.1
      · subst hd
        rw [h2 _ (by simp)]
        simp only [Function.update_self, contribution, List.filter_cons, decide_true, if_true, List.map_cons, List.sum_cons]
        rw [add_assoc]
      · rw [h2 x (by rw [Function.update_of_ne hd, Function.update_of_ne hd]; exact hx)]
        have : ¬ a.1 = x := fun e => hd e.symm
        simp [contribution, List.filter_cons, this, Function.update_of_ne hd]

/-- **C106, equation kernels that accumulate.**  A kernel made of `+=` gives, in every scalar, the sum of its contributions; hence the order
of contributions does not matter and the contributions of two kernels run one after the other add up. -/
theorem C106_accumulate {I : Type} (p : Params) (terms : I → List (Comp × K)) (input : I) (h : ∀ x ∈ terms input, p.Has x.1) :
    ∃ m, equation p (fun i => additive (terms i)) input = some m ∧ ∀ x, p.Has x → m x = some (contribution (terms input) x) := by
  obtain ⟨m, h1, h2⟩ := invoke_additive (terms input) (initKernelResult p) (fun _ => 0) fun x hx => init_apply p x.1 (h x hx)
  exact ⟨m, h1, fun x hx => by rw [h2 x (init_apply p x hx), zero_add]⟩

example : ∀ x ∈ [(Comp.op 0 1 0, (2 : ℚ)), (Comp.rhs 0 0, 3), (Comp.op 0 1 0, 4)], (⟨1, 2, 1, 1⟩ : Params).Has x.1 := by
  intro x hx
  simp only [List.mem_cons, List.not_mem_nil, or_false] at hx
  rcases hx with rfl | rfl | rfl
  · exact ⟨by decide, by decide, by decide⟩
  · exact ⟨by decide, by decide⟩
  · exact ⟨by decide, by decide, by decide⟩

/-- **C106, residual kernels: when a call is defined.**  The call followed by a caller that uses the whole result (integrals, norms, values
at nodes) is defined iff the kernel assigns every scalar and never reads one before assigning it. -/
theorem C106_residual_iff {I : Type} (cs : List Comp) (kernel : I → List (Stmt K)) (input : I) :
    ((residual kernel input).bind (readAll cs)).isSome ↔ Definite cs (kernel input) := by
  have hd := invoke_defined (kernel input) (indet : Mem K) [] (by intro x; simp [indet])
  unfold Definite residual
  cases hm : invoke (kernel input) (indet : Mem K) with
  | none =>
    rw [hm] at hd
    simp only [Option.isSome_none, Bool.false_eq_true, false_iff] at hd
    simp [hd]
  | some m =>
    rw [hm] at hd
    simp only [Option.isSome_some, true_iff] at hd
    simp only [Option.bind_some, hd, true_and]
    unfold readAll
    rw [mapM_isSome]
    refine forall₂_congr fun c _ => ?_
    rw [invoke_known _ _ _ hm]
    simp [indet]

example : Definite [Comp.rhs 0 0, .rhs 1 0] [assign (.rhs 0 0) (1 : ℚ), ⟨.rhs 1 0, [.rhs 0 0], fun v => v.headD 0⟩] ∧
    ¬ Definite [Comp.rhs 0 0] [addTo (.rhs 0 0) (1 : ℚ)] := by
  refine ⟨⟨⟨by simp [assign], ⟨by simp [assign], trivial⟩⟩, by simp [assign]⟩, ?_⟩
  rintro ⟨⟨h, -⟩, -⟩
  simpa [addTo] using h

/-- **C106, residual kernels** (partial: kernels with definite assignment).  The result is then the same as from an object initialised with zeros, as it
is for equation kernels. -/
theorem C106_residual_partial {I : Type} (p : Params) (kernel : I → List (Stmt K)) (input : I) (h : Definite p.rhsComps (kernel input)) :
    ∃ vs, (residual kernel input).bind (readAll p.rhsComps) = some vs ∧
      (invoke (kernel input) (initResidualKernelResult p)).bind (readAll p.rhsComps) = some vs := by
  obtain ⟨vs, hvs⟩ := Option.isSome_iff_exists.1 ((C106_residual_iff p.rhsComps kernel input).2 h)
  refine ⟨vs, hvs, ?_⟩
  unfold residual at hvs
  cases hm : invoke (kernel input) (indet : Mem K) with
  | none => rw [hm] at hvs; simp at hvs
  | some m =>
    rw [hm] at hvs
    obtain ⟨n, h1, h2⟩ := invoke_refines (kernel input) indet (initResidualKernelResult p) m (by intro x v hx; simp [indet] at hx) hm
    rw [h1, ← hvs]
    simp only [Option.bind_some]
    unfold readAll at hvs ⊢
    refine mapM_congr _ _ _ fun c hc => ?_
    have := (mapM_isSome m p.rhsComps).1 (by rw [Option.bind_some] at hvs; rw [hvs]; rfl) c hc
    obtain ⟨v, hv⟩ := Option.isSome_iff_exists.1 this
    rw [hv, h2 c v hv]

/-- **C106, violated**: `out[0] += 1` is fine in an equation kernel and undefined in a residual kernel; the same holds for a kernel
that leaves a component alone. -/
theorem C106_residual_violated : ¬ C106Statement ℚ ∧
    residual (I := Unit) (fun _ => [addTo (.rhs 0 0) (1 : ℚ)]) () = none ∧
    (residual (I := Unit) (fun _ => [assign (.rhs 0 0) (1 : ℚ)]) ()).bind (readAll (⟨1, 2, 1, 1⟩ : Params).rhsComps) = none := by
  have h1 : residual (I := Unit) (fun _ => [addTo (.rhs 0 0) (1 : ℚ)]) () = none := by
    unfold residual invoke Stmt.exec addTo
    rw [List.mapM_cons]; rfl
  have h2 : (residual (I := Unit) (fun _ => [assign (.rhs 0 0) (1 : ℚ)]) ()).bind (readAll (⟨1, 2, 1, 1⟩ : Params).rhsComps) = none := by
    rw [← Option.not_isSome_iff_eq_none, C106_residual_iff]
    rintro ⟨-, h⟩
    obtain ⟨s, hs, e⟩ := h (.rhs 1 0) ((mem_rhsComps _ _).2 ⟨1, 0, rfl, by decide, by decide⟩)
    simp only [List.mem_singleton] at hs
    subst hs
    simp [assign] at e
  refine ⟨?_, h1, h2⟩
  intro hS
  obtain ⟨vs, hvs, -⟩ := hS Unit ⟨1, 1, 1, 1⟩ (fun _ => [addTo (.rhs 0 0) (1 : ℚ)]) () (by
    intro s hs
    simp only [List.mem_singleton] at hs; subst hs
    exact ⟨⟨by decide, by decide⟩, 0, 0, rfl⟩) (by
    intro s hs x hx
    simp only [List.mem_singleton] at hs; subst hs
    simp only [addTo, List.mem_singleton] at hx; subst hx
    exact (mem_rhsComps _ _).2 ⟨0, 0, rfl, by decide, by decide⟩)
  rw [h1] at hvs
  simp at hvs

theorem invoke_assign_list (l : List (Comp × K)) (m : Mem K) : ∃ m', invoke (l.map fun x => assign x.1 x.2) m = some m' ∧
    (∀ x, (∀ a ∈ l, a.1 ≠ x) → m' x = m x) ∧ ((l.map (·.1)).Nodup → ∀ a ∈ l, m' a.1 = some a.2) := by
  induction l generalizing m with
  | nil => exact ⟨m, rfl, fun _ _ => rfl, by simp⟩
  | cons a l ih =>
    obtain ⟨m', h1, h2, h3⟩ := ih (Function.update m a.1 (some a.2))
    refine ⟨m', ?_, ?_, ?_⟩
    · rw [List.map_cons, invoke]; exact h1
    · intro x hx
      rw [h2 x fun b hb => hx b (List.mem_cons_of_mem _ hb), Function.update_of_ne (Ne.symm (hx a List.mem_cons_self))]
    · intro hn b hb
      rw [List.map_cons, List.nodup_cons] at hn
      rcases List.mem_cons.1 hb with rfl | hb
      · rw [h2 b.1 fun c hc e => hn.1 (List.mem_map.2 ⟨c, hc, e⟩)]; simp
      · exact h3 hn.2 b hb

theorem invoke_square (rs : List Nat) (hn : rs.Nodup) (m : Mem K) (f : Nat → K) (h : ∀ r ∈ rs, m (.rhs r 0) = some (f r)) :
    ∃ m', invoke (rs.map fun r => (⟨Comp.rhs r 0, [Comp.rhs r 0], fun ws => ws.headD 0 * ws.headD 0⟩ : Stmt K)) m = some m' ∧
      (∀ r ∈ rs, m' (.rhs r 0) = some (f r * f r)) ∧ (∀ x, (∀ r ∈ rs, x ≠ .rhs r 0) → m' x = m x) := by
  induction rs generalizing m with
  | nil => exact ⟨m, rfl, by simp, fun _ _ => rfl⟩
  | cons r l ih =>
    rw [List.nodup_cons] at hn
    have hr := h r List.mem_cons_self
    have e : (⟨Comp.rhs r 0, [Comp.rhs r 0], fun ws => ws.headD 0 * ws.headD 0⟩ : Stmt K).exec m =
        some (Function.update m (.rhs r 0) (some (f r * f r))) := by
      unfold Stmt.exec
      rw [List.mapM_cons, List.mapM_nil, hr]; rfl
    have hne : ∀ q ∈ l, Comp.rhs q 0 ≠ .rhs r 0 := by
      rintro q hq he
      injection he with he
      subst he; exact hn.1 hq
    obtain ⟨m', h1, h2, h3⟩ := ih hn.2 (Function.update m (.rhs r 0) (some (f r * f r))) (by
      intro q hq
      rw [Function.update_of_ne (hne q hq)]; exact h q (List.mem_cons_of_mem _ hq))
    refine ⟨m', ?_, ?_, ?_⟩
    · rw [List.map_cons, invoke, e]; exact h1
    · intro q hq
      rcases List.mem_cons.1 hq with rfl | hq
      · rw [h3 _ fun p hp => (hne p hp).symm]; simp
      · exact h2 q hq
    · intro x hx
      rw [h3 x fun p hp => hx p (List.mem_cons_of_mem _ hp), Function.update_of_ne (hx r List.mem_cons_self)]

/-- **C106, the kernel of the norm.**  It is defined iff the user's kernel is, and then gives the squares of the components of the residual. -/
theorem C106_norm_square {I : Type} (p : Params) (hp : p.nRhs = 1) (kernel : I → List (Stmt K)) (input : I) :
    ((normSquare p kernel input).isSome ↔ Definite p.rhsComps (kernel input)) ∧
    ∀ m n, residual kernel input = some m → normSquare p kernel input = some n → ∀ r < p.nEq, ∃ v, m (.rhs r 0) = some v ∧ n (.rhs r 0) = some (v * v) := by
  have hc : p.rhsComps = (List.range p.nEq).map fun r => Comp.rhs r 0 := by
    unfold Params.rhsComps; rw [hp]; simp [List.range_succ]
  have hrest : ∀ vs : List K, ∃ n, invoke (((List.range p.nEq).map fun r => assign (Comp.rhs r 0) (vs.getD r 0)) ++
      (List.range p.nEq).map fun r => ⟨Comp.rhs r 0, [Comp.rhs r 0], fun ws => ws.headD 0 * ws.headD 0⟩) indet = some n ∧
      ∀ r < p.nEq, n (.rhs r 0) = some (vs.getD r 0 * vs.getD r 0) := by
    intro vs
    obtain ⟨m1, h1, -, h3⟩ := invoke_assign_list ((List.range p.nEq).map fun r => (Comp.rhs r 0, vs.getD r 0)) (indet : Mem K)
    have hnd : (((List.range p.nEq).map fun r => (Comp.rhs r 0, vs.getD r 0)).map (·.1)).Nodup := by
      rw [List.map_map]
      refine List.Nodup.map (fun a b hab => ?_) List.nodup_range
      simpa using hab
    have h4 := h3 hnd
    obtain ⟨n, h5, h6, -⟩ := invoke_square (List.range p.nEq) List.nodup_range m1 (fun r => vs.getD r 0) (by
      intro r hr
      exact h4 (Comp.rhs r 0, vs.getD r 0) (List.mem_map.2 ⟨r, hr, rfl⟩))
    refine ⟨n, ?_, fun r hr => h6 r (List.mem_range.2 hr)⟩
    rw [invoke_append]
    rw [List.map_map] at h1
    rw [show ((List.range p.nEq).map fun r => assign (Comp.rhs r 0) (vs.getD r 0)) =
      (List.range p.nEq).map ((fun x : Comp × K => assign x.1 x.2) ∘ fun r => (Comp.rhs r 0, vs.getD r 0)) from rfl, h1]
    exact h5
  refine ⟨?_, ?_⟩
  · rw [← C106_residual_iff, hc]
    unfold normSquare
    cases hv : (residual kernel input).bind (readAll ((List.range p.nEq).map fun r => Comp.rhs r 0)) with
    | none => simp
    | some vs =>
      obtain ⟨n, hn, -⟩ := hrest vs
      simp only [Option.bind_some, hn, Option.isSome_some]
  · intro m n hm hn r hr
    unfold normSquare at hn
    rw [hm, Option.bind_some] at hn
    cases hv : readAll ((List.range p.nEq).map fun r => Comp.rhs r 0) m with
    | none => rw [hv] at hn; simp at hn
    | some vs =>
      rw [hv, Option.bind_some] at hn
      obtain ⟨n', hn', h⟩ := hrest vs
      rw [hn'] at hn
      injection hn with hn
      subst hn
      refine ⟨vs.getD r 0, ?_, h r hr⟩
      have hval : ∀ (l : List Nat) (vs : List K), readAll (l.map fun r => Comp.rhs r 0) m = some vs →
          ∀ k q, l[k]? = some q → m (.rhs q 0) = some (vs.getD k 0) := by
        intro l
        induction l with
        | nil => intro vs _ k q hk; simp at hk
        | cons a l ih =>
          intro vs hvs k q hk
          unfold readAll at hvs
          rw [List.map_cons, List.mapM_cons] at hvs
          cases ha : m (.rhs a 0) with
          | none => rw [ha] at hvs; simp at hvs
          | some b =>
            rw [ha] at hvs
            cases hl : (l.map fun r => Comp.rhs r 0).mapM m with
            | none => rw [hl] at hvs; simp at hvs
            | some bs =>
              rw [hl] at hvs
              have hvs' : b :: bs = vs := by simpa using hvs
              subst hvs'
              cases k with
              | zero =>
                have : a = q := by simpa using hk
                subst this; simpa using ha
              | succ k =>
                simp only [List.getElem?_cons_succ] at hk
                simpa using ih bs hl k q hk
      exact hval _ vs hv r r (by simp [hr])

example : Definite (⟨1, 1, 1, 1⟩ : Params).rhsComps [assign (.rhs 0 0) (3 : ℚ)] := by
  refine ⟨⟨by simp [assign], trivial⟩, ?_⟩
  intro c hc
  obtain ⟨r, c', rfl, h1, h2⟩ := (mem_rhsComps _ _).1 hc
  have e1 : r = 0 := by simpa using h1
  have e2 : c' = 0 := by simpa using h2
  subst e1; subst e2
  exact ⟨_, List.mem_singleton.2 rfl, rfl⟩

end Verif.Kern
