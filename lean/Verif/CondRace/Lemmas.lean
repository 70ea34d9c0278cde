import Verif.CondRace.Model
import Mathlib.Algebra.BigOperators.Group.List.Basic

/-! # Interleaved additions by tasks which do not share an element -/
namespace Verif.CondRace
open Verif.Condense Verif.Elem Verif.Mesh

variable {R : Type}

/-- A task somewhere in its code: number, element, addition whose load has happened, remaining additions. -/
structure Th (R : Type) where
  idx : Nat
  id : Nat
  pend : Option (Pos × R)
  us : List (Pos × R)

/-- Remaining steps. -/
def Th.code (t : Th R) : List (Nat × Act R) :=
  (t.pend.toList.map fun u => (t.idx, Act.store (t.id, u.1) u.2)) ++ t.us.flatMap (addTo t.idx t.id)

/-- What the additions `us` on element `id` contribute to place `c`. -/
def contrib [AddCommMonoid R] (c : Cell) (id : Nat) (us : List (Pos × R)) : R := (us.map fun u => if (id, u.1) = c then u.2 else 0).sum

/-- What is still to come. -/
def Th.todo [AddCommMonoid R] (c : Cell) (t : Th R) : R := contrib c t.id (t.pend.toList ++ t.us)

theorem contrib_cons [AddCommMonoid R] (c : Cell) (id : Nat) (u : Pos × R) (us : List (Pos × R)) :
    contrib c id (u :: us) = (if (id, u.1) = c then u.2 else 0) + contrib c id us := by simp [contrib]

theorem run_interleaved [AddCommMonoid R] {ps : List (List (Nat × Act R))} {tr : List (Nat × Act R)} (h : Interleaves ps tr) :
    ∀ (ths : List (Th R)) (σ : State R), ps = ths.map Th.code → (ths.map (·.idx)).Nodup → (ths.map (·.id)).Nodup →
      (∀ t ∈ ths, ∀ u, t.pend = some u → σ.reg t.idx = σ.mem (t.id, u.1)) →
      ∀ c, (run σ tr).mem c = σ.mem c + (ths.map (Th.todo c)).sum := by
  induction h with
  | done ps hps =>
    intro ths σ he _ _ _ c
    have : ∀ t ∈ ths, t.todo c = 0 := by
      intro t ht
      have hc : t.code = [] := hps _ (by rw [he]; exact List.mem_map_of_mem ht)
      obtain ⟨i, id, pend, us⟩ := t
      cases pend with
      | some u => simp [Th.code] at hc
      | none =>
        cases us with
        | nil => simp [Th.todo, contrib]
        | cons u us => simp [Th.code, addTo] at hc
    have hz : (ths.map (Th.todo c)).sum = 0 := List.sum_eq_zero (by
      intro x hx; obtain ⟨t, ht, rfl⟩ := List.mem_map.1 hx; exact this t ht)
    rw [hz, add_zero]; rfl
  | step pre post a rest tr _ ih =>
    intro ths σ he hi hd hreg c
    obtain ⟨A, B', rfl, hA, hB'⟩ := List.map_eq_append_iff.1 he.symm
    obtain ⟨th, B, rfl, hth, hB⟩ := List.map_eq_cons_iff.1 hB'
    have hmem : th ∈ A ++ th :: B := by simp
    have hne : ∀ t ∈ A ++ B, t.idx ≠ th.idx ∧ t.id ≠ th.id := by
      intro t ht
      rw [List.map_append, List.map_cons] at hi hd
      have h1 := (List.nodup_middle.1 hi)
      have h2 := (List.nodup_middle.1 hd)
      rw [List.nodup_cons, ← List.map_append] at h1 h2
      exact ⟨fun e => h1.1 (e ▸ List.mem_map_of_mem ht), fun e => h2.1 (e ▸ List.mem_map_of_mem ht)⟩
    have hin : ∀ {t : Th R}, t ∈ A ++ B → t ∈ A ++ th :: B := by
      intro t ht; rcases List.mem_append.1 ht with h | h <;> simp [h]
    obtain ⟨i, id, pend, us⟩ := th
    cases pend with
    | some u =>
      simp only [Th.code, Option.toList_some, List.map_cons, List.map_nil, List.cons_append, List.nil_append, List.cons.injEq] at hth
      obtain ⟨rfl, rfl⟩ := hth
      have hr : σ.reg i = σ.mem (id, u.1) := hreg _ hmem u rfl
      have := ih (A ++ ⟨i, id, none, us⟩ :: B) (step σ (i, .store (id, u.1) u.2)) (by simp [Th.code, hA, hB]) (by simpa using hi) (by simpa using hd) (by
        intro t ht v hv
        rcases List.mem_append.1 ht with h | h
        · have hn := hne t (List.mem_append_left _ h)
          simp only [step]
          rw [hreg t (hin (List.mem_append_left _ h)) v hv, Function.update_of_ne]
          intro e; exact hn.2 (Prod.mk.inj e).1
        · rcases List.mem_cons.1 h with rfl | h
          · simp at hv
          · have hn := hne t (List.mem_append_right _ h)
            simp only [step]
            rw [hreg t (hin (List.mem_append_right _ h)) v hv, Function.update_of_ne]
            intro e; exact hn.2 (Prod.mk.inj e).1) c
      change (run (step σ (i, .store (id, u.1) u.2)) tr).mem c = _
      rw [this]
      simp only [step, List.map_append, List.map_cons, List.sum_append, List.sum_cons, Th.todo, Option.toList_none, Option.toList_some,
        List.nil_append, List.cons_append, contrib_cons]
      by_cases hc : (id, u.1) = c
      · subst hc
        rw [Function.update_self, hr, if_pos rfl]
        ac_rfl
      · rw [Function.update_of_ne (fun e => hc e.symm), if_neg hc, zero_add]
    | none =>
      cases us with
      | nil => simp [Th.code] at hth
      | cons u us =>
        simp only [Th.code, addTo, Option.toList_none, List.map_nil, List.nil_append, List.flatMap_cons, List.cons_append, List.cons.injEq] at hth
        obtain ⟨rfl, rfl⟩ := hth
        have := ih (A ++ ⟨i, id, some u, us⟩ :: B) (step σ (i, .load (id, u.1))) (by simp [Th.code, hA, hB]) (by simpa using hi) (by simpa using hd) (by
          intro t ht v hv
          rcases List.mem_append.1 ht with h | h
          · have hn := hne t (List.mem_append_left _ h)
            simp only [step]
            rw [Function.update_of_ne hn.1]
            exact hreg t (hin (List.mem_append_left _ h)) v hv
          · rcases List.mem_cons.1 h with rfl | h
            · simp only [Option.some.injEq] at hv; subst hv
              simp [step]
            · have hn := hne t (List.mem_append_right _ h)
              simp only [step]
              rw [Function.update_of_ne hn.1]
              exact hreg t (hin (List.mem_append_right _ h)) v hv) c
        change (run (step σ (i, .load (id, u.1))) tr).mem c = _
        rw [this]
        simp [step, Th.todo]

/-- The threads at the start. -/
def start : Nat → List (Task R) → List (Th R)
  | _, [] => []
  | i, t :: ts => ⟨i, t.id, none, t.updates⟩ :: start (i + 1) ts

theorem start_code : ∀ (i : Nat) (ts : List (Task R)), codes i ts = (start i ts).map Th.code
  | _, [] => rfl
  | i, t :: ts => by simp [codes, start, start_code (i + 1) ts, Th.code, Task.code]

theorem start_id : ∀ (i : Nat) (ts : List (Task R)), (start i ts).map (·.id) = ts.map (·.id)
  | _, [] => rfl
  | i, t :: ts => by simp [start, start_id (i + 1) ts]

theorem start_ge : ∀ (i : Nat) (ts : List (Task R)), ∀ t ∈ start i ts, i ≤ t.idx ∧ t.pend = none
  | _, [], t, h => by cases h
  | i, _ :: ts, t, h => by
    rcases List.mem_cons.1 h with rfl | h
    · exact ⟨Nat.le_refl _, rfl⟩
    · exact ⟨by have := (start_ge (i + 1) ts t h).1; omega, (start_ge (i + 1) ts t h).2⟩

theorem start_idx : ∀ (i : Nat) (ts : List (Task R)), ((start i ts).map (·.idx)).Nodup
  | _, [] => List.nodup_nil
  | i, t :: ts => by
    rw [start, List.map_cons, List.nodup_cons]
    refine ⟨?_, start_idx (i + 1) ts⟩
    intro h
    obtain ⟨t', ht', e⟩ := List.mem_map.1 h
    have := (start_ge (i + 1) ts t' ht').1
    simp only at e; omega

theorem start_todo [AddCommMonoid R] (c : Cell) : ∀ (i : Nat) (ts : List (Task R)),
    (start i ts).map (Th.todo c) = ts.map fun t => contrib c t.id t.updates
  | _, [] => rfl
  | i, t :: ts => by simp [start, start_todo c (i + 1) ts, Th.todo]

theorem loop_sum [AddCommMonoid R] {ts : List (Task R)} (hd : (ts.map (·.id)).Nodup) {μ μ' : Cell → R} (h : Loop ts μ μ') (c : Cell) :
    μ' c = μ c + (ts.map fun t => contrib c t.id t.updates).sum := by
  obtain ⟨reg, tr, hi, rfl⟩ := h
  rw [run_interleaved hi (start 0 ts) ⟨μ, reg⟩ (start_code 0 ts) (start_idx 0 ts) (by rw [start_id]; exact hd)
    (fun t ht u hu => by rw [(start_ge 0 ts t ht).2] at hu; cases hu) c, start_todo]

/-- The steps of two tasks in the order: second, then first. -/
theorem interleaves_two {α : Type} (p : List α) : ∀ q : List α, Interleaves [p, q] (q ++ p)
  | [] => by
    induction p with
    | nil => exact Interleaves.done _ (by simp)
    | cons a p ih => exact Interleaves.step [] [[]] a p _ ih
  | b :: q => Interleaves.step [p] [] b q _ (interleaves_two p q)

/-- An interleaving exists for any tasks. -/
theorem interleaves_flatten {α : Type} : ∀ ps : List (List α), Interleaves ps ps.flatten
  | [] => Interleaves.done _ (by simp)
  | p :: ps => by
    induction p with
    | nil =>
      have key : ∀ (qs : List (List α)) (tr : List α), Interleaves qs tr → Interleaves ([] :: qs) tr := by
        intro qs tr h
        induction h with
        | done qs h => exact Interleaves.done _ (by simpa using h)
        | step pre post a rest tr _ ih => exact Interleaves.step ([] :: pre) post a rest tr ih
      simpa using key ps _ (interleaves_flatten ps)
    | cons a p ih => exact Interleaves.step [] ps a p _ ih

theorem ids_nodup {kinds : List (ElType × Nat)} {m : DomMap} {bnds : List Nat} {D : Nat} (hm : Partition.MeshOk kinds m bnds D) {doms : List Nat}
    (hd : doms.Nodup) : ((visitIds m doms).map (·.id)).Nodup := by
  have h := hm.ids
  unfold Split.tagged at h
  rw [List.map_flatMap, List.nodup_flatMap] at h
  have e : ∀ k, (((visitIds m [k]).map fun e => (k, e)).map fun q : Nat × Element => q.2.id) = (visitIds m [k]).map (·.id) := by
    intro k; rw [List.map_map]; rfl
  have hv : visitIds m doms = (existing m doms).flatMap fun k => visitIds m [k] := by
    unfold visitIds
    refine List.flatMap_congr fun k hk => ?_
    have hk' : (m.lookup k).isSome := (List.mem_filter.1 hk).2
    unfold existing
    rw [List.filter_cons, if_pos hk']
    simp
  have hkey : ∀ k ∈ existing m doms, k ∈ m.map (·.1) := by
    intro k hk
    have hk' : (m.lookup k).isSome := (List.mem_filter.1 hk).2
    obtain ⟨d, hd⟩ := Option.isSome_iff_exists.1 hk'
    exact List.mem_map.2 ⟨(k, d), Mesh.mem_of_lookup hd, rfl⟩
  rw [hv, List.map_flatMap, List.nodup_flatMap]
  refine ⟨fun k hk => by have := h.1 k (hkey k hk); rwa [e] at this, ?_⟩
  refine (List.Nodup.filter _ hd : (existing m doms).Nodup).pairwise_of_forall_ne fun a ha b hb hab => ?_
  have : Std.Symm (Function.onFun List.Disjoint (fun k => ((visitIds m [k]).map fun e => (k, e)).map fun q : Nat × Element => q.2.id)) := ⟨fun _ _ h => h.symm⟩
  have := List.Pairwise.forall h.2 (hkey a ha) (hkey b hb) hab
  unfold Function.onFun at this ⊢
  beta_reduce at this ⊢
  rwa [e, e] at this

end Verif.CondRace
