import Verif.Rounds.Progress
import Mathlib.Logic.Equiv.Fin.Rotate

/-! # Property C108: no communication round deadlocks or takes a message of another round -/
namespace Verif.Rounds
open Finset

variable {n : Nat}

/-- **C108** for any sequence of operations in which every round with wildcard is a permutation and is followed by a full collective operation before its tag is used
again. -/
theorem C108_rounds (prog : List (Op n)) (hsep : Separated prog) (hperm : Permuting prog) : C108Statement prog := by
  intro env
  refine ⟨?_, fun s hs => progress hperm (Inv.reach hsep hperm hs), ?_, ?_⟩
  · intro s hs r k q t m hg
    obtain ⟨h1, ⟨op, h2, h3, -⟩, -⟩ := (Inv.reach hsep hperm hs).got r k q t m hg
    exact ⟨h1, op, h2, h3⟩
  · intro s hs hd
    have h := Inv.reach hsep hperm hs
    have hgot : ∀ r k q t op, prog[k]? = some op → op.has q r t → s.got r k q t = some k := by
      intro r k q t op hop hh
      exact got_self h (h.done r k q t op (by rw [hd r]; exact lt_of_some hop) hop hh)
    refine ⟨hgot, fun q r t => ?_⟩
    by_contra hne
    obtain ⟨m, rest, hc⟩ := List.exists_cons_of_ne_nil hne
    obtain ⟨⟨op, h2, h3, -⟩, h4⟩ := (h.mem q r t m).1 (by rw [hc]; simp)
    rw [hgot r m q t op h2 h3] at h4; cases h4
  · rintro ⟨f, h0, hf⟩
    exact no_infinite hsep hperm f h0 hf

/-! ## The library -/

/-- A full collective operation comes before the next use of the tag. -/
def Quiet (tag : Nat) : List (Op n) → Prop
  | [] => False
  | op :: l => op = .coll true ∨ ((∀ q r, ¬ op.has q r tag) ∧ Quiet tag l)

def Closed : List (Op n) → Prop
  | [] => True
  | op :: l => (∀ tag dst, op = .wild tag dst → Quiet tag l ∧ Function.Bijective dst) ∧ Closed l

theorem Quiet.append {tag : Nat} : ∀ {a : List (Op n)} (b : List (Op n)), Quiet tag a → Quiet tag (a ++ b) := by
  intro a
  induction a with
  | nil => intro b h; exact h.elim
  | cons op a ih =>
    intro b h
    rcases h with h | h
    · exact Or.inl h
    · exact Or.inr ⟨h.1, ih b h.2⟩

theorem Closed.append {a b : List (Op n)} (ha : Closed a) (hb : Closed b) : Closed (a ++ b) := by
  induction a with
  | nil => exact hb
  | cons op a ih => exact ⟨fun tag dst h => ⟨(ha.1 tag dst h).1.append b, (ha.1 tag dst h).2⟩, ih ha.2⟩

theorem Quiet.sep {tag : Nat} : ∀ {l : List (Op n)}, Quiet tag l → ∀ (j : Nat) (op : Op n), l[j]? = some op → (∃ q r, op.has q r tag) → ∃ b, b < j ∧ l[b]? = some (.coll true) := by
  intro l
  induction l with
  | nil => intro h; exact h.elim
  | cons o l ih =>
    rintro (h | h) j op hj ⟨q, r, hh⟩
    · cases j with
      | zero =>
        rw [List.getElem?_cons_zero] at hj
        cases hj
        rw [h] at hh; exact hh.elim
      | succ j => exact ⟨0, by omega, by rw [List.getElem?_cons_zero, h]⟩
    · cases j with
      | zero =>
        rw [List.getElem?_cons_zero] at hj
        cases hj
        exact absurd hh (h.1 q r)
      | succ j =>
        rw [List.getElem?_cons_succ] at hj
        obtain ⟨b, hb, hb'⟩ := ih h.2 j op hj ⟨q, r, hh⟩
        exact ⟨b + 1, by omega, by rw [List.getElem?_cons_succ]; exact hb'⟩

theorem Closed.separated : ∀ {l : List (Op n)}, Closed l → Separated l ∧ Permuting l := by
  intro l
  induction l with
  | nil =>
    intro _
    exact ⟨fun k k' tag dst op' _ h => by simp at h, fun k tag dst h => by simp at h⟩
  | cons o l ih =>
    intro h
    refine ⟨?_, ?_⟩
    · intro k k' tag dst op' hk h1 h2 h3
      cases k' with
      | zero => omega
      | succ k' =>
        rw [List.getElem?_cons_succ] at h2
        cases k with
        | zero =>
          rw [List.getElem?_cons_zero] at h1
          cases h1
          obtain ⟨b, hb, hb'⟩ := (h.1 tag dst rfl).1.sep k' op' h2 h3
          exact ⟨b + 1, by omega, by omega, by rw [List.getElem?_cons_succ]; exact hb'⟩
        | succ k =>
          rw [List.getElem?_cons_succ] at h1
          obtain ⟨b, hb1, hb2, hb3⟩ := (ih h.2).1 k k' tag dst op' (by omega) h1 h2 h3
          exact ⟨b + 1, by omega, by omega, by rw [List.getElem?_cons_succ]; exact hb3⟩
    · intro k tag dst h1
      cases k with
      | zero =>
        rw [List.getElem?_cons_zero] at h1
        cases h1
        exact (h.1 tag dst rfl).2
      | succ k =>
        rw [List.getElem?_cons_succ] at h1
        exact (ih h.2).2 k tag dst h1

theorem along_has {nbrs : Finset (Fin n × Fin n)} {p : Bool} {tag tag' : Nat} (h : tag ≠ tag') (q r : Fin n) : ¬ (Op.round p (along nbrs tag)).has q r tag' := by
  intro hh
  obtain ⟨x, -, hx⟩ := Finset.mem_image.1 hh
  simp only [Prod.mk.injEq] at hx
  exact h hx.2.2

theorem closed_plain {l : List (Op n)} (h : ∀ op ∈ l, ∀ tag dst, op ≠ .wild tag dst) : Closed l := by
  induction l with
  | nil => trivial
  | cons op l ih => exact ⟨fun tag dst he => absurd he (h op (by simp) tag dst), ih fun o ho => h o (by simp [ho])⟩

theorem optimize_closed (ρ : Equiv.Perm (Fin n)) (nbrs : Finset (Fin n × Fin n)) (base : Nat) (nodes : Bool) : Closed (optimizeOps ρ nbrs base nodes) := by
  unfold optimizeOps
  refine Closed.append ?_ ?_
  · unfold optimizedRankOps invertOps establishOps contextOps importOps
    refine ⟨fun _ _ h => by (cases h), ⟨fun _ _ h => by (cases h), ⟨?_, ⟨?_, ?_⟩⟩⟩⟩
    · intro tag dst h
      cases h
      refine ⟨Or.inr ⟨fun q r hh => by (have := hh.2; omega), Or.inr ⟨fun _ _ hh => hh.elim, Or.inr ⟨along_has (by decide), Or.inl rfl⟩⟩⟩, ρ.bijective⟩
    · intro tag dst h
      cases h
      exact ⟨Or.inr ⟨fun _ _ hh => hh.elim, Or.inr ⟨along_has (by decide), Or.inl rfl⟩⟩, ρ.symm.bijective⟩
    · refine closed_plain fun op hop tag dst he => ?_
      subst he
      simp at hop
  · refine closed_plain fun op hop tag dst he => ?_
    subst he
    cases nodes <;> simp at hop

theorem call_closed (c : Call n) : Closed c.ops := by
  have plain : ∀ {l : List (Op n)}, (∀ op ∈ l, ∀ tag dst, op ≠ .wild tag dst) → Closed l := closed_plain
  cases c with
  | distribute opt =>
    refine Closed.append (plain fun op hop tag dst he => ?_) ?_
    · subst he; simp [throughputsOps, scatterPartsOps] at hop
    · cases opt with
      | none => trivial
      | some o => exact optimize_closed _ _ _ _
  | distributeNodes opt =>
    refine Closed.append (plain fun op hop tag dst he => ?_) ?_
    · subst he; simp [throughputsOps, scatterPartsOps, scatterNodesOps] at hop
    · cases opt with
      | none => trivial
      | some o => exact optimize_closed _ _ _ _
  | context nbrs => exact plain fun op hop tag dst he => by subst he; simp [Call.ops, contextOps] at hop
  | imports nbrs base nVecs => exact plain fun op hop tag dst he => by subst he; simp [Call.ops, importOps] at hop
  | graph nbrs => exact plain fun op hop tag dst he => by subst he; simp [Call.ops, graphOps] at hop

theorem program_closed (calls : List (Call n)) : Closed (program calls) := by
  unfold program
  induction calls with
  | nil => trivial
  | cons c cs ih => rw [List.flatMap_cons]; exact (call_closed c).append ih

/-- **C108** for every sequence of calls of the library, with any permutations, neighbours and tags of imports. -/
theorem C108_library (calls : List (Call n)) : C108Statement (program calls) :=
  C108_rounds _ (program_closed calls).separated.1 (program_closed calls).separated.2

/-- The source that `invertPermutation` returns is the inverse image, and `sendRecvMesh` receives the part of the rank it was called for: a rank that receives in a
wildcard round with destinations `σ` receives from `σ⁻¹` of itself. -/
theorem C108_inverse (calls : List (Call n)) (env : Env n) (s : St n) (hs : Reach (program calls) env s) (k tag : Nat) (σ : Equiv.Perm (Fin n))
    (hk : (program calls)[k]? = some (.wild tag σ)) (r q : Fin n) (t m : Nat) (hg : s.got r k q t = some m) : q = σ.symm r := by
  obtain ⟨-, op, h1, h2⟩ := (C108_library calls env).1 s hs r k q t m hg
  rw [hk] at h1; cases h1
  rw [← h2.1, Equiv.symm_apply_apply]

/-! ## Why the collective operation is needed -/

/-- MPI with unlimited buffers. -/
def eager (n : Nat) : Env n := ⟨fun _ _ _ _ _ => True, fun _ _ => True, fun _ _ _ _ _ _ => trivial, fun _ _ _ => trivial⟩

/-- Two calls of `invertPermutation` in a row, without the allGather that the library has in between. -/
def twice : List (Op 3) := invertOps (fun r => r + 1) ++ invertOps (fun r => r - 1)

/-- Then a rank may take the message of the second call for the first. -/
theorem C108_unseparated : ¬ C108Statement twice := by
  intro h
  let up : Fin 3 → Fin 3 := fun r => r + 1
  let down : Fin 3 → Fin 3 := fun r => r - 1
  have r0 := Reach.init (prog := twice) (env := eager 3)
  -- ranks 0 and 2 send
  have r1 := r0.step (.isend (r := 0) (tag := 101) (dst := up) rfl rfl)
  have r2 := r1.step (.isend (r := 2) (tag := 101) (dst := up) rfl (by simp [St.goto, St.push, St.init]))
  -- rank 0 receives from rank 2 and goes on to its second call
  have r3 := r2.step (.recvAny (r := 0) (q := 2) (m := 0) (rest := []) (tag := 101) (dst := up) rfl (by simp [St.goto, St.push, St.init])
    (by simp [St.goto, St.push, St.init, Op.has, up]))
  have r4 := r3.step (.finishWild (r := 0) (tag := 101) (dst := up) rfl (by simp [St.goto]) trivial)
  have r5 := r4.step (.isend (r := 0) (tag := 101) (dst := down) (by simp [St.next, St.goto, St.take, St.push, St.init, twice, invertOps, down]) (by simp [St.next]))
  -- rank 2, in its first call, finds the message of the second one
  have r6 := r5.step (.recvAny (r := 2) (q := 0) (m := 1) (rest := []) (tag := 101) (dst := up) (by simp [St.next, St.goto, St.take, St.push, St.init, twice, invertOps, up])
    (by simp [St.next, St.goto, St.take, St.push, St.init]) (by simp [St.next, St.goto, St.take, St.push, St.init, Op.has, up, down]; decide))
  have := ((h (eager 3)).1 _ r6 2 0 0 101 1 (by simp [St.next, St.goto, St.take, St.push, St.init])).1
  omega

/-! ## Examples -/

/-- Three ranks, a cyclic reordering, then a second mesh without reordering and an import. -/
example : C108Statement (program [.distributeNodes (some (finRotate 3, {(0, 1), (1, 2)}, 0)), .distribute none, .imports {((1 : Fin 3), 0)} 4096 2]) := C108_library _

example : (program [Call.distributeNodes (some (finRotate 3, {((0 : Fin 3), 1), (1, 2)}, 0))]).length = 16 := rfl

/-- The hypotheses of the general theorem hold for a program with a wildcard round. -/
example : Separated ([.wild 5 (finRotate 3), .coll true, .wild 5 (finRotate 3)] : List (Op 3)) ∧ Permuting ([.wild 5 (finRotate 3), .coll true, .wild 5 (finRotate 3)] : List (Op 3)) := by
  constructor
  · intro k k' tag dst op' hk h1 h2 _
    have h3 : k' < 3 := lt_of_some h2
    have h4 : k ≠ 1 := by rintro rfl; cases h1
    have h5 : k' ≠ 1 := by
      rintro rfl
      have : k = 0 := by omega
      subst this
      cases h2
      rename_i hh
      obtain ⟨_, _, hh⟩ := hh
      exact hh
    exact ⟨1, by omega, by omega, rfl⟩
  · intro k tag dst h
    have h3 : k < 3 := lt_of_some h
    have h4 : k ≠ 1 := by rintro rfl; cases h
    obtain rfl | rfl : k = 0 ∨ k = 2 := by omega
    · cases h; exact (finRotate 3).bijective
    · cases h; exact (finRotate 3).bijective

/-- The source found in the first wildcard round of a distribution. -/
example (env : Env 3) (s : St 3) (hs : Reach (program [.distribute (some (finRotate 3, ∅, 0))]) env s) (q : Fin 3) (m : Nat) (h : s.got 0 4 q 101 = some m) : q = 2 := by
  rw [C108_inverse _ env s hs 4 101 (finRotate 3) rfl 0 q 101 m h]
  decide

end Verif.Rounds
