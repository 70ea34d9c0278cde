import Verif.When.Model
import Mathlib.Algebra.Group.Nat.Defs
import Mathlib.Tactic.Common
import Mathlib.Tactic.FinCases

/-! # C126: what a system solves is what its kernels gave when they were assembled -/
namespace Verif.When

variable {Φ M R W : Type} [AddCommMonoid M] [AddCommMonoid R]

/-- Is the system open after these operations? (specification) -/
def openAfter (h : List (Op Φ M R W)) : Bool := h.foldl (fun b o => match o with | .begin => true | .end_ => false | _ => b) true

/-- Fields after some operations. (specification) -/
def fieldsAfter (φ : Option Φ) (h : List (Op Φ M R W)) : Option Φ := h.foldl (fun b o => match o with | .fields φ => φ | _ => b) φ

/-- `assembleProblem` is called on open systems only, and from the first kernel of a session which reads fields to the end of the session fields do not change. (specification) `b`: open; `k`: such a kernel
has been assembled. -/
def Still : Bool → Bool → List (Op Φ M R W) → Prop
  | _, _, [] => True
  | b, k, .fields _ :: h => k = false ∧ Still b k h
  | b, k, .dirichlet _ :: h => Still b k h
  | true, k, .begin :: h => Still true k h
  | false, _, .begin :: h => Still true false h
  | b, k, .assemble (.plain _) :: h => b = true ∧ Still b k h
  | b, _, .assemble (.reading _) :: h => b = true ∧ Still b true h
  | _, k, .end_ :: h => Still false k h

/-- **C126.**  What is solved does not depend on the kind of the system: whatever a program does with fields and systems (calling `assembleProblem` on open systems only, C60), if it is
defined with an assembled system, it is with a matrix-free one, and the operator and right-hand side are the same. -/
def C126Statement (Φ M R W : Type) [AddCommMonoid M] [AddCommMonoid R] : Prop :=
  ∀ (bc : Bc M R W) (φ : Option Φ) (w : W) (h : List (Op Φ M R W)), (∀ h' k, (h' ++ [.assemble k]) <+: h → openAfter h' = true) →
    ∀ s, (Asm.new φ w).run bc h = some s → ∃ t, (Mf.new φ w).run bc h = some t ∧ t.seen bc = s.seen

/-- A kernel reading one field, adding its value to matrix and right-hand side. -/
def exKernel : Kernel Nat (Nat × Nat) := .reading fun φ => (φ, φ)

/-- No conditions. -/
def exBc : Bc Nat Nat Unit := ⟨id, fun _ r _ => r⟩

/-- Fields changed before `endAssembly`: the right-hand side is of the new ones. -/
def exBefore : List (Op Nat Nat Nat Unit) := [.assemble exKernel, .fields (some 5), .end_]
/-- Fields changed before the solve: the operator is of the new ones, the right-hand side of the old ones. -/
def exAfter : List (Op Nat Nat Nat Unit) := [.assemble exKernel, .end_, .fields (some 5)]
/-- The fields are destroyed before the solve. -/
def exGone : List (Op Nat Nat Nat Unit) := [.assemble exKernel, .end_, .fields none]

/-- **C126 is false.**  With field value 3, set to 5 (or destroyed) after `assembleProblem`: the assembled system has operator and right-hand side 3; the matrix-free one has 5 and 5 if this is before
`endAssembly`, 5 and 3 if after it; and reads freed memory if the fields are destroyed. -/
theorem C126_witnesses :
    ((Asm.new (some 3) ()).run exBc exBefore).map Asm.seen = some (.ok 3 3) ∧ ((Mf.new (some 3) ()).run exBc exBefore).map (Mf.seen exBc) = some (.ok 5 5) ∧
    ((Asm.new (some 3) ()).run exBc exAfter).map Asm.seen = some (.ok 3 3) ∧ ((Mf.new (some 3) ()).run exBc exAfter).map (Mf.seen exBc) = some (.ok 5 3) ∧
    ((Asm.new (some 3) ()).run exBc exGone).map Asm.seen = some (.ok 3 3) ∧ ((Mf.new (some 3) ()).run exBc exGone).map (Mf.seen exBc) = some .ub :=
  ⟨rfl, rfl, rfl, rfl, rfl, rfl⟩

theorem C126_violated : ¬ C126Statement Nat Nat Nat Unit := by
  intro h
  have hpre : ∀ h' k, (h' ++ [.assemble k]) <+: exAfter → openAfter h' = true := by
    intro h' k hp
    obtain ⟨t, ht⟩ := hp
    cases h' with
    | nil => rfl
    | cons a l =>
      exfalso
      unfold exAfter at ht
      simp only [List.cons_append, List.cons.injEq, List.append_assoc, List.nil_append] at ht
      obtain ⟨_, ht⟩ := ht
      have hm : (Op.assemble k : Op Nat Nat Nat Unit) ∈ [Op.end_, Op.fields (some 5)] := by rw [← ht]; simp
      simp at hm
  obtain ⟨t, h1, h2⟩ := h exBc (some 3) () exAfter hpre _ rfl
  have hw := C126_witnesses.2.2.2.1
  rw [h1] at hw
  have hw := Option.some.inj hw
  rw [h2] at hw
  cases hw

theorem total_append (ks : List (Kernel Φ (M × R))) (k : Kernel Φ (M × R)) (φ : Option Φ) :
    total (ks ++ [k]) φ = (total ks φ).bind fun c => (k.eval φ).map fun d => c + d := by
  induction ks with
  | nil =>
    simp only [total, List.nil_append]
    cases k.eval φ <;> simp
  | cons a ks ih =>
    simp only [total, List.cons_append]
    rw [ih]
    cases a.eval φ <;> cases total ks φ <;> cases k.eval φ <;> simp [add_assoc]

/-- Does a kernel read fields? -/
def Kernel.reads {C : Type} : Kernel Φ C → Bool
  | .plain _ => false
  | .reading _ => true

theorem total_plain {ks : List (Kernel Φ (M × R))} (h : ∀ k ∈ ks, k.reads = false) (φ ψ : Option Φ) : total ks φ = total ks ψ := by
  induction ks with
  | nil => rfl
  | cons a ks ih =>
    have ha : a.eval φ = a.eval ψ := by
      have := h a List.mem_cons_self
      cases a with
      | plain c => rfl
      | reading c => cases this
    simp only [total]
    rw [ha, ih fun k hk => h k (List.mem_cons_of_mem _ hk)]

/-- What the two systems have in common as long as fields stay. -/
structure Same (bc : Bc M R W) (k : Bool) (s : Asm Φ M R W) (t : Mf Φ M R W) : Prop where
  fields : t.fields = s.fields
  isOpen : t.isOpen = s.isOpen
  dir : t.dir = s.dir
  init : t.init = t.eval
  reads : k = false → ∀ x ∈ t.eval, x.reads = false
  opened : s.isOpen = true → total t.eval t.fields = some (s.mat, s.rhs)
  closed : s.isOpen = false → ∃ c, total t.eval t.fields = some c ∧ s.mat = bc.op c.1 ∧ t.rhs = s.rhs

theorem same_run (bc : Bc M R W) : ∀ (h : List (Op Φ M R W)) (k : Bool) (s : Asm Φ M R W) (t : Mf Φ M R W), Same bc k s t → Still s.isOpen k h →
    ∀ s', s.run bc h = some s' → ∃ t' k', t.run bc h = some t' ∧ Same bc k' s' t'
  | [], k, s, t, hs, _, s', hr => by
    obtain rfl : s = s' := Option.some.inj hr
    exact ⟨t, k, rfl, hs⟩
  | .fields φ :: h, k, s, t, hs, hst, s', hr => by
    obtain ⟨rfl, hst⟩ := hst
    refine same_run bc h false { s with fields := φ } { t with fields := φ } ⟨rfl, hs.isOpen, hs.dir, hs.init, hs.reads, fun ho => ?_, fun ho => ?_⟩ hst s' hr
    · rw [← hs.opened ho]; exact total_plain (hs.reads rfl) _ _
    · obtain ⟨c, h1, h2⟩ := hs.closed ho
      exact ⟨c, (total_plain (hs.reads rfl) _ _).trans h1, h2⟩
  | .dirichlet g :: h, k, s, t, hs, hst, s', hr => by
    have hr' : ((g.eval s.fields).map fun g => { s with dir := g s.dir }).bind (fun s => s.run bc h) = some s' := hr
    cases hg : g.eval s.fields with
    | none => rw [hg] at hr'; cases hr'
    | some g' =>
      rw [hg] at hr'
      obtain ⟨t', k', h1, h2⟩ := same_run bc h k { s with dir := g' s.dir } { t with dir := g' t.dir }
        ⟨hs.fields, hs.isOpen, congrArg g' hs.dir, hs.init, hs.reads, hs.opened, hs.closed⟩ hst s' hr'
      refine ⟨t', k', ?_, h2⟩
      change ((g.eval t.fields).map fun g => { t with dir := g t.dir }).bind (fun t => t.run bc h) = some t'
      rw [show g.eval t.fields = some g' by rw [hs.fields]; exact hg]
      exact h1
  | .begin :: h, k, s, t, hs, hst, s', hr => by
    cases ho : s.isOpen with
    | true =>
      rw [ho] at hst
      have hr' : (if s.isOpen then s else { s with isOpen := true, mat := 0, rhs := 0 }).run bc h = some s' := hr
      rw [ho, if_pos rfl] at hr'
      obtain ⟨t', k', h1, h2⟩ := same_run bc h k s t hs (by rw [ho]; exact hst) s' hr'
      refine ⟨t', k', ?_, h2⟩
      change (if t.isOpen then t else { t with isOpen := true, init := [], eval := [] }).run bc h = some t'
      rw [hs.isOpen, ho, if_pos rfl]
      exact h1
    | false =>
      rw [ho] at hst
      have hr' : (if s.isOpen then s else { s with isOpen := true, mat := 0, rhs := 0 }).run bc h = some s' := hr
      rw [ho, if_neg Bool.false_ne_true] at hr'
      obtain ⟨t', k', h1, h2⟩ := same_run bc h false { s with isOpen := true, mat := 0, rhs := 0 } { t with isOpen := true, init := [], eval := [] }
        ⟨hs.fields, rfl, hs.dir, rfl, fun _ x hx => (List.not_mem_nil hx).elim, fun _ => rfl, fun h => Bool.noConfusion h⟩ hst s' hr'
      refine ⟨t', k', ?_, h2⟩
      change (if t.isOpen then t else { t with isOpen := true, init := [], eval := [] }).run bc h = some t'
      rw [hs.isOpen, ho, if_neg Bool.false_ne_true]
      exact h1
  | .assemble c :: h, k, s, t, hs, hst, s', hr => by
    have ho : s.isOpen = true ∧ Still s.isOpen (k || c.reads) h := by
      cases c with
      | plain c => exact ⟨hst.1, by simpa [Kernel.reads] using hst.2⟩
      | reading c => exact ⟨hst.1, by simpa [Kernel.reads] using hst.2⟩
    have hr' : (if s.isOpen then (c.eval s.fields).map fun c => { s with mat := s.mat + c.1, rhs := s.rhs + c.2 } else some s).bind (fun s => s.run bc h) = some s' := hr
    rw [if_pos ho.1] at hr'
    cases hc : c.eval s.fields with
    | none => rw [hc] at hr'; cases hr'
    | some d =>
      rw [hc] at hr'
      obtain ⟨t', k', h1, h2⟩ := same_run bc h (k || c.reads) { s with mat := s.mat + d.1, rhs := s.rhs + d.2 } { t with init := t.init ++ [c], eval := t.eval ++ [c] }
        ⟨hs.fields, hs.isOpen, hs.dir, by rw [hs.init], fun hk x hx => by
          rw [Bool.or_eq_false_iff] at hk
          rcases List.mem_append.1 hx with hx | hx
          · exact hs.reads hk.1 x hx
          · rw [List.mem_singleton.1 hx]; exact hk.2, fun _ => by
          change total (t.eval ++ [c]) t.fields = _
          rw [total_append, hs.opened ho.1, hs.fields, hc]
          rfl, fun hcl => by rw [ho.1] at hcl; cases hcl⟩ ho.2 s' hr'
      exact ⟨t', k', h1, h2⟩
  | .end_ :: h, k, s, t, hs, hst, s', hr => by
    have hst' : Still false k h := by cases hb : s.isOpen <;> (rw [hb] at hst; exact hst)
    cases ho : s.isOpen with
    | true =>
      have hr' : (if s.isOpen then { s with isOpen := false, mat := bc.op s.mat, rhs := bc.rhs s.mat s.rhs s.dir } else s).run bc h = some s' := hr
      rw [ho, if_pos rfl] at hr'
      have ht := hs.opened ho
      obtain ⟨t', k', h1, h2⟩ := same_run bc h k { s with isOpen := false, mat := bc.op s.mat, rhs := bc.rhs s.mat s.rhs s.dir } { t with isOpen := false, rhs := bc.rhs s.mat s.rhs t.dir }
        ⟨hs.fields, rfl, hs.dir, hs.init, hs.reads, fun h => Bool.noConfusion h, fun _ => ⟨_, ht, rfl, by rw [hs.dir]⟩⟩ hst' s' hr'
      refine ⟨t', k', ?_, h2⟩
      change (if t.isOpen then (total t.init t.fields).map fun c => { t with isOpen := false, rhs := bc.rhs c.1 c.2 t.dir } else some t).bind (fun t => t.run bc h) = some t'
      rw [if_pos (hs.isOpen.trans ho), show total t.init t.fields = some (s.mat, s.rhs) by rw [hs.init]; exact ht]
      exact h1
    | false =>
      have hr' : (if s.isOpen then { s with isOpen := false, mat := bc.op s.mat, rhs := bc.rhs s.mat s.rhs s.dir } else s).run bc h = some s' := hr
      rw [ho, if_neg Bool.false_ne_true] at hr'
      obtain ⟨t', k', h1, h2⟩ := same_run bc h k s t hs (by rw [ho]; exact hst') s' hr'
      refine ⟨t', k', ?_, h2⟩
      change (if t.isOpen then (total t.init t.fields).map fun c => { t with isOpen := false, rhs := bc.rhs c.1 c.2 t.dir } else some t).bind (fun t => t.run bc h) = some t'
      rw [hs.isOpen, ho, if_neg Bool.false_ne_true]
      exact h1

/-- **C126** (partial: fields may not change from the first kernel assembled which reads them to the end of the session, i.e. until the system has been solved for the last time).  Then programs which are
defined with an assembled system are with a matrix-free one, and both have the same operator and right-hand side. -/
theorem C126_partial (bc : Bc M R W) (φ : Option Φ) (w : W) (h : List (Op Φ M R W)) (hst : Still true false h) {s : Asm Φ M R W} (hs : (Asm.new φ w).run bc h = some s) :
    ∃ t, (Mf.new φ w).run bc h = some t ∧ t.seen bc = s.seen := by
  obtain ⟨t, k, ht, hsame⟩ := same_run bc h false (Asm.new φ w) (Mf.new φ w) ⟨rfl, rfl, rfl, rfl, fun _ x hx => (List.not_mem_nil hx).elim, fun _ => rfl, fun h => Bool.noConfusion h⟩ hst s hs
  refine ⟨t, ht, ?_⟩
  unfold Mf.seen Asm.seen
  cases ho : s.isOpen with
  | true => rw [hsame.isOpen, ho]; rfl
  | false =>
    obtain ⟨c, h1, h2, h3⟩ := hsame.closed ho
    rw [hsame.isOpen, ho, if_neg Bool.false_ne_true, if_neg Bool.false_ne_true, h1, h2, h3]

/-- Kernels assembled, each with the fields at the time of the call. (specification) -/
def callsAt : Option Φ → List (Op Φ M R W) → List (Kernel Φ (M × R) × Option Φ)
  | _, [] => []
  | _, .fields φ :: h => callsAt φ h
  | φ, .assemble k :: h => (k, φ) :: callsAt φ h
  | φ, _ :: h => callsAt φ h

/-- Kernels assembled and fields given for each: the sum, `c`, of what they give. (specification) -/
def Gives : List (Kernel Φ (M × R) × Option Φ) → M × R → Prop
  | [], c => c = 0
  | x :: l, c => ∃ d e, x.1.eval x.2 = some d ∧ Gives l e ∧ c = d + e

/-- No call of `beginAssembly` or `endAssembly`. (specification) -/
def Inner (h : List (Op Φ M R W)) : Prop := ∀ o ∈ h, o ≠ .begin ∧ o ≠ .end_

/-- Only fields and prescribed values change. (specification) -/
def Outer (h : List (Op Φ M R W)) : Prop := ∀ o ∈ h, (∃ φ, o = .fields φ) ∨ ∃ g, o = .dirichlet g

theorem asm_run_append (bc : Bc M R W) (s : Asm Φ M R W) (g h : List (Op Φ M R W)) : s.run bc (g ++ h) = (s.run bc g).bind fun s => s.run bc h := by
  unfold Asm.run; rw [List.foldlM_append]; rfl

theorem mf_run_append (bc : Bc M R W) (s : Mf Φ M R W) (g h : List (Op Φ M R W)) : s.run bc (g ++ h) = (s.run bc g).bind fun s => s.run bc h := by
  unfold Mf.run; rw [List.foldlM_append]; rfl

theorem asm_run_cons (bc : Bc M R W) (s : Asm Φ M R W) (o : Op Φ M R W) (h : List (Op Φ M R W)) : s.run bc (o :: h) = (s.step bc o).bind fun s => s.run bc h := rfl

theorem mf_run_cons (bc : Bc M R W) (s : Mf Φ M R W) (o : Op Φ M R W) (h : List (Op Φ M R W)) : s.run bc (o :: h) = (s.step bc o).bind fun s => s.run bc h := rfl

theorem asm_inner (bc : Bc M R W) : ∀ (h : List (Op Φ M R W)) (s s' : Asm Φ M R W), Inner h → s.isOpen = true → s.run bc h = some s' →
    s'.isOpen = true ∧ ∃ c, Gives (callsAt s.fields h) c ∧ s'.mat = s.mat + c.1 ∧ s'.rhs = s.rhs + c.2
  | [], s, s', _, ho, hr => by
    obtain rfl : s = s' := Option.some.inj hr
    exact ⟨ho, 0, rfl, (add_zero _).symm, (add_zero _).symm⟩
  | o :: h, s, s', hi, ho, hr => by
    have hi' : Inner h := fun x hx => hi x (List.mem_cons_of_mem _ hx)
    rw [asm_run_cons] at hr
    cases o with
    | fields φ => exact asm_inner bc h { s with fields := φ } s' hi' ho hr
    | dirichlet k =>
      cases hk : k.eval s.fields with
      | none => simp [Asm.step, hk] at hr
      | some g =>
        simp only [Asm.step, hk, Option.map_some, Option.bind_some] at hr
        exact asm_inner bc h { s with dir := g s.dir } s' hi' ho hr
    | begin => exact absurd rfl (hi _ List.mem_cons_self).1
    | end_ => exact absurd rfl (hi _ List.mem_cons_self).2
    | assemble k =>
      cases hk : k.eval s.fields with
      | none => simp [Asm.step, hk, ho] at hr
      | some d =>
        simp only [Asm.step, hk, ho, if_true, Option.map_some, Option.bind_some] at hr
        obtain ⟨h1, c, h2, h3, h4⟩ := asm_inner bc h _ s' hi' rfl hr
        exact ⟨h1, d + c, ⟨d, c, hk, h2, rfl⟩, h3.trans (add_assoc _ _ _), h4.trans (add_assoc _ _ _)⟩

theorem mf_inner (bc : Bc M R W) : ∀ (h : List (Op Φ M R W)) (s s' : Mf Φ M R W), Inner h → s.run bc h = some s' →
    s'.isOpen = s.isOpen ∧ s'.fields = fieldsAfter s.fields h ∧ s'.init = s.init ++ (callsAt s.fields h).map Prod.fst ∧ s'.eval = s.eval ++ (callsAt s.fields h).map Prod.fst
  | [], s, s', _, hr => by
    obtain rfl : s = s' := Option.some.inj hr
    exact ⟨rfl, rfl, (List.append_nil _).symm, (List.append_nil _).symm⟩
  | o :: h, s, s', hi, hr => by
    have hi' : Inner h := fun x hx => hi x (List.mem_cons_of_mem _ hx)
    rw [mf_run_cons] at hr
    cases o with
    | fields φ => exact mf_inner bc h { s with fields := φ } s' hi' hr
    | dirichlet k =>
      cases hk : k.eval s.fields with
      | none => simp [Mf.step, hk] at hr
      | some g =>
        simp only [Mf.step, hk, Option.map_some, Option.bind_some] at hr
        exact mf_inner bc h { s with dir := g s.dir } s' hi' hr
    | begin => exact absurd rfl (hi _ List.mem_cons_self).1
    | end_ => exact absurd rfl (hi _ List.mem_cons_self).2
    | assemble k =>
      obtain ⟨h1, h2, h3, h4⟩ := mf_inner bc h _ s' hi' hr
      refine ⟨h1, h2, h3.trans ?_, h4.trans ?_⟩ <;> simp [callsAt]

theorem total_gives (ks : List (Kernel Φ (M × R))) (φ : Option Φ) (c : M × R) : total ks φ = some c ↔ Gives (ks.map fun k => (k, φ)) c := by
  induction ks generalizing c with
  | nil => simp [total, Gives, eq_comm]
  | cons k ks ih =>
    simp only [total, Gives, List.map_cons, Option.bind_eq_some_iff, Option.map_eq_some_iff]
    constructor
    · rintro ⟨d, h1, e, h2, rfl⟩
      exact ⟨d, e, h1, (ih e).1 h2, rfl⟩
    · rintro ⟨d, e, h1, h2, rfl⟩
      exact ⟨d, h1, e, (ih e).2 h2, rfl⟩

theorem asm_outer (bc : Bc M R W) : ∀ (g : List (Op Φ M R W)) (s s' : Asm Φ M R W), Outer g → s.run bc g = some s' → s'.isOpen = s.isOpen ∧ s'.mat = s.mat ∧ s'.rhs = s.rhs
  | [], s, s', _, hr => by
    obtain rfl : s = s' := Option.some.inj hr
    exact ⟨rfl, rfl, rfl⟩
  | o :: g, s, s', hi, hr => by
    have hi' : Outer g := fun x hx => hi x (List.mem_cons_of_mem _ hx)
    rw [asm_run_cons] at hr
    rcases hi o List.mem_cons_self with ⟨φ, rfl⟩ | ⟨k, rfl⟩
    · exact asm_outer bc g { s with fields := φ } s' hi' hr
    · cases hk : k.eval s.fields with
      | none => simp [Asm.step, hk] at hr
      | some d =>
        simp only [Asm.step, hk, Option.map_some, Option.bind_some] at hr
        exact asm_outer bc g { s with dir := d s.dir } s' hi' hr

theorem mf_outer (bc : Bc M R W) : ∀ (g : List (Op Φ M R W)) (s s' : Mf Φ M R W), Outer g → s.run bc g = some s' →
    s'.isOpen = s.isOpen ∧ s'.eval = s.eval ∧ s'.rhs = s.rhs ∧ s'.fields = fieldsAfter s.fields g
  | [], s, s', _, hr => by
    obtain rfl : s = s' := Option.some.inj hr
    exact ⟨rfl, rfl, rfl, rfl⟩
  | o :: g, s, s', hi, hr => by
    have hi' : Outer g := fun x hx => hi x (List.mem_cons_of_mem _ hx)
    rw [mf_run_cons] at hr
    rcases hi o List.mem_cons_self with ⟨φ, rfl⟩ | ⟨k, rfl⟩
    · exact mf_outer bc g { s with fields := φ } s' hi' hr
    · cases hk : k.eval s.fields with
      | none => simp [Mf.step, hk] at hr
      | some d =>
        simp only [Mf.step, hk, Option.map_some, Option.bind_some] at hr
        exact mf_outer bc g { s with dir := d s.dir } s' hi' hr

/-- **C126, assembled systems.**  Whatever happens to fields during a session (`h`) and after it (`g`), the operator and right-hand side are those of the sum of what each kernel gave with the fields it saw when
`assembleProblem` was called, with the conditions `endAssembly` found. -/
theorem C126_assembled_reads (bc : Bc M R W) (φ : Option Φ) (w : W) (h g : List (Op Φ M R W)) (hi : Inner h) (hg : Outer g) {s1 s : Asm Φ M R W}
    (h1 : (Asm.new φ w).run bc h = some s1) (hs : (Asm.new φ w).run bc (h ++ .end_ :: g) = some s) :
    ∃ c, Gives (callsAt φ h) c ∧ s.seen = .ok (bc.op c.1) (bc.rhs c.1 c.2 s1.dir) := by
  obtain ⟨ho, c, hc, hm, hr⟩ := asm_inner bc h _ _ hi rfl h1
  have hm : s1.mat = c.1 := hm.trans (zero_add _)
  have hr : s1.rhs = c.2 := hr.trans (zero_add _)
  rw [asm_run_append, h1, Option.bind_some, asm_run_cons] at hs
  simp only [Asm.step, ho, if_true, Option.bind_some] at hs
  obtain ⟨h2, h3, h4⟩ := asm_outer bc g _ s hg hs
  refine ⟨c, hc, ?_⟩
  unfold Asm.seen
  rw [h2, if_neg Bool.false_ne_true, h3, h4]
  dsimp only
  rw [hm, hr]

/-- **C126, matrix-free systems.**  The right-hand side is that of the kernels with the fields `endAssembly` found, and the operator that of the kernels with the fields there are when it is applied. -/
theorem C126_matrix_free_reads (bc : Bc M R W) (φ : Option Φ) (w : W) (h g : List (Op Φ M R W)) (hi : Inner h) (hg : Outer g) {s1 s : Mf Φ M R W}
    (h1 : (Mf.new φ w).run bc h = some s1) (hs : (Mf.new φ w).run bc (h ++ .end_ :: g) = some s) :
    ∃ c, Gives ((callsAt φ h).map fun x => (x.1, fieldsAfter φ h)) c ∧
      ∀ d, Gives ((callsAt φ h).map fun x => (x.1, fieldsAfter φ (h ++ g))) d → s.seen bc = .ok (bc.op d.1) (bc.rhs c.1 c.2 s1.dir) := by
  obtain ⟨ho, hf, h2, h3⟩ := mf_inner bc h _ _ hi h1
  have ho : s1.isOpen = true := ho
  have hf : s1.fields = fieldsAfter φ h := hf
  have h2 : s1.init = (callsAt φ h).map Prod.fst := h2
  have h3 : s1.eval = (callsAt φ h).map Prod.fst := h3
  rw [mf_run_append, h1, Option.bind_some, mf_run_cons] at hs
  cases hc : total s1.init s1.fields with
  | none => simp [Mf.step, hc, ho] at hs
  | some c =>
    simp only [Mf.step, hc, ho, if_true, Option.map_some, Option.bind_some] at hs
    obtain ⟨h4, h5, h6, h7⟩ := mf_outer bc g _ s hg hs
    refine ⟨c, ?_, fun d hd => ?_⟩
    · have := (total_gives _ _ _).1 hc
      rw [h2, hf, List.map_map] at this
      exact this
    · have h8 : s.fields = fieldsAfter φ (h ++ g) := by
        rw [h7]
        unfold fieldsAfter
        rw [List.foldl_append]
        change fieldsAfter s1.fields g = _
        rw [hf]; rfl
      have h9 : total s.eval s.fields = some d := by
        rw [total_gives, h5, h8]
        dsimp only
        rw [h3, List.map_map]
        exact hd
      unfold Mf.seen
      rw [h4, if_neg Bool.false_ne_true, h9, h6]

/-- Fields are set, a kernel without fields is assembled, fields are changed, a kernel reading them is assembled; after the solve fields are changed, and a second session follows. -/
def exStill : List (Op Nat Nat Nat Unit) := [.assemble (.plain (1, 2)), .fields (some 4), .assemble exKernel, .end_, .begin, .fields (some 7), .assemble exKernel, .end_]

example : Still true false exStill := ⟨rfl, rfl, rfl, rfl, rfl, trivial⟩
example : ((Asm.new (some 3) ()).run exBc exStill).map Asm.seen = some (.ok 7 7) := rfl
example : ∃ t, (Mf.new (some 3) ()).run exBc exStill = some t ∧ t.seen exBc = .ok 7 7 :=
  C126_partial exBc (some 3) () exStill ⟨rfl, rfl, rfl, rfl, rfl, trivial⟩ (s := ⟨some 7, false, 7, 7, ()⟩) rfl
example : ∃ c, Gives (callsAt (some 3) [.assemble exKernel, .fields (some 5), .assemble exKernel (W := Unit)]) c ∧ (Asm.mk (some 9) false 8 8 () : Asm Nat Nat Nat Unit).seen = .ok (exBc.op c.1) (exBc.rhs c.1 c.2 ()) :=
  C126_assembled_reads exBc (some 3) () [.assemble exKernel, .fields (some 5), .assemble exKernel] [.fields (some 9)] (by intro o ho; fin_cases ho <;> exact ⟨nofun, nofun⟩)
    (by intro o ho; fin_cases ho; exact .inl ⟨_, rfl⟩) (s1 := ⟨some 5, true, 8, 8, ()⟩) rfl rfl
example : ∃ c, Gives ((callsAt (some 3) [.assemble exKernel, .fields (some 5), .assemble exKernel (W := Unit)]).map fun x => (x.1, some 5)) c ∧
    ∀ d, Gives ((callsAt (some 3) [.assemble exKernel, .fields (some 5), .assemble exKernel (W := Unit)]).map fun x => (x.1, some 9)) d →
      (Mf.mk (some 9) false [exKernel, exKernel] [exKernel, exKernel] 10 () : Mf Nat Nat Nat Unit).seen exBc = .ok (exBc.op d.1) (exBc.rhs c.1 c.2 ()) :=
  C126_matrix_free_reads exBc (some 3) () [.assemble exKernel, .fields (some 5), .assemble exKernel] [.fields (some 9)] (by intro o ho; fin_cases ho <;> exact ⟨nofun, nofun⟩)
    (by intro o ho; fin_cases ho; exact .inl ⟨_, rfl⟩) (s1 := ⟨some 5, true, [exKernel, exKernel], [exKernel, exKernel], 0, ()⟩) rfl rfl

end Verif.When
