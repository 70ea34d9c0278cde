import Verif.CVec.Refine

/-
C110: a program working with vectors sees lists, and gives back all memory.
-/

namespace Verif.CVec

variable {α : Type}

/-- Every program which respects the preconditions of lists runs without undefined behaviour, sees the lists, and
holds no memory once all its vectors are gone. -/
def C110Statement : Prop :=
  ∀ (α : Type) (ops : List (Op α)) (ls : Lists α), specRun [] ops = some ls →
    ∃ st, run St.init ops = some st ∧ Shows st ls ∧ ((∀ x ∈ ls, x = none) → Clean st)

theorem run_ok {st : St α} {ls ls' : Lists α} (i : Inv st ls) (ops : List (Op α)) (hs : specRun ls ops = some ls')
    (hr : RoomRun st ops) : ∃ st', run st ops = some st' ∧ Inv st' ls' := by
  induction ops generalizing st ls with
  | nil => cases hs; exact ⟨st, rfl, i⟩
  | cons o os ih =>
    rcases h1 : spec ls o with _ | l1
    · simp [specRun, h1] at hs
    · simp only [specRun, h1, Option.bind_some] at hs
      obtain ⟨s1, e1, i1⟩ := step_ok i o h1 hr.1
      obtain ⟨s2, e2, i2⟩ := ih i1 hs (hr.2 s1 e1)
      exact ⟨s2, by rw [run, e1]; exact e2, i2⟩

/-- True when elements of a vector are appended to the same vector only while there is spare room. -/
theorem C110_programs_partial (ops : List (Op α)) (ls : Lists α) (hs : specRun [] ops = some ls)
    (hr : RoomRun St.init ops) :
    ∃ st, run St.init ops = some st ∧ Shows st ls ∧ ((∀ x ∈ ls, x = none) → Clean st) := by
  obtain ⟨st, e, i⟩ := run_ok Inv.init ops hs hr
  exact ⟨st, e, i.shows, i.clean⟩

theorem roomRun_of_own (st : St α) (ops : List (Op α)) (ho : ∀ o ∈ ops, o.own = false) : RoomRun st ops := by
  induction ops generalizing st with
  | nil => trivial
  | cons o os ih =>
    refine ⟨?_, fun st' _ => ih st' fun x hx => ho x (List.mem_cons_of_mem _ hx)⟩
    have := ho o List.mem_cons_self
    cases o <;> simp_all [Room, Op.own]

/-- In particular for every program that appends no references into the vector appended to. -/
theorem C110_plain_partial (ops : List (Op α)) (ls : Lists α) (hs : specRun [] ops = some ls)
    (ho : ∀ o ∈ ops, o.own = false) :
    ∃ st, run St.init ops = some st ∧ Shows st ls ∧ ((∀ x ∈ ls, x = none) → Clean st) :=
  C110_programs_partial ops ls hs (roomRun_of_own _ ops ho)

/-- `v.pushBack(v[0])` on a vector of one element reads the element from memory that was just freed. -/
theorem C110_violated : ¬ C110Statement := by
  intro h
  obtain ⟨st, e, -⟩ := h Nat [.ofList [7], .pushOf 0 0 0] [some [7, 7]] rfl
  cases e

/-- Appending one by one to an empty vector: all elements arrive, at most two moves per element are made on the
way, and less than half of the memory is spare. -/
theorem C110_growth (l : List α) (hl : l ≠ []) :
    ∃ st v, run St.init (Op.default :: l.map fun x => Op.push 0 x) = some st ∧ st.vec 0 = some v ∧
      (∀ k, st.get 0 k = l[k]?) ∧ v.size = l.length ∧ l.length ≤ v.cap ∧ v.cap < 2 * l.length ∧
      st.moves < 2 * l.length := by
  have key : ∀ (l pre : List α) (st : St α) (v : Vec), Inv st [some pre] → st.vec 0 = some v →
      (pre = [] → v.cap = 0 ∧ st.moves = 0) →
      (pre ≠ [] → v.cap < 2 * pre.length ∧ st.moves + 1 = v.cap) →
      ∃ st' v', run st (l.map fun x => Op.push 0 x) = some st' ∧ Inv st' [some (pre ++ l)] ∧ st'.vec 0 = some v' ∧
        (pre ++ l ≠ [] → v'.cap < 2 * (pre ++ l).length ∧ st'.moves + 1 = v'.cap) := by
    intro l
    induction l with
    | nil =>
      intro pre st v i hv _ h1
      exact ⟨st, v, rfl, by simpa using i, hv, by simpa using h1⟩
    | cons x xs ih =>
      intro pre st v i hv h0 h1
      obtain ⟨l', hl', r⟩ := i.rep 0 v (vec_inv hv)
      simp only [List.getElem?_cons_zero, Option.some.injEq] at hl'
      subst hl'
      obtain ⟨h', v', e, r', lo, -, hcap⟩ := push_ok r x
      have i' := i.upd (vec_inv hv) lo r' (st.moves + pushMoves v)
      have hstep : step st (.push 0 x) = some ⟨h', st.vecs.set 0 (some v'), st.moves + pushMoves v⟩ := by
        rw [step, hv]; simp only [Option.bind_some]; rw [e]; rfl
      have hv' : St.vec ⟨h', st.vecs.set 0 (some v'), st.moves + pushMoves v⟩ 0 = some v' :=
        vec_eq (set_self _ _ _ _ (vec_inv hv))
      have hsz : v.size = pre.length ∧ pre.length ≤ v.cap := by
        rcases r with ⟨p, hd, hs, hc, hp⟩ | ⟨rfl, rfl⟩
        · exact ⟨hs, hc⟩
        · exact ⟨rfl, Nat.le_refl _⟩
      have hnew : v'.cap < 2 * (pre ++ [x]).length ∧ st.moves + pushMoves v + 1 = v'.cap := by
        rw [hcap, pushMoves]
        by_cases hpre : pre = []
        · obtain ⟨a, b⟩ := h0 hpre
          subst hpre
          simp [a, b] at hsz ⊢
          simp [hsz]
        · obtain ⟨a, b⟩ := h1 hpre
          have : 0 < pre.length := List.length_pos_iff.mpr hpre
          simp only [List.length_append, List.length_singleton]
          by_cases hf : v.cap = v.size
          · rw [if_pos hf, if_pos hf, if_neg (by omega)]; omega
          · rw [if_neg hf, if_neg hf]; omega
      obtain ⟨st2, v2, e2, i2, hv2, h2⟩ := ih (pre ++ [x]) _ v' (by simpa using i') hv' (by simp) (fun _ => hnew)
      refine ⟨st2, v2, ?_, by simpa using i2, hv2, by simpa using h2⟩
      rw [List.map_cons, run, hstep]
      exact e2
  have i0 : Inv ((St.init : St α).add [] Vec.empty) [some []] :=
    Inv.init.addVec (Local.refl _ _) (local_empty_rep _)
  obtain ⟨st, v, e, i, hv, h2⟩ := key l [] _ Vec.empty i0 rfl (fun _ => ⟨rfl, rfl⟩) (by simp)
  simp only [List.nil_append] at i h2
  obtain ⟨l', hl', r⟩ := i.rep 0 v (vec_inv hv)
  simp only [List.getElem?_cons_zero, Option.some.injEq] at hl'
  subst hl'
  obtain ⟨a, b⟩ := h2 hl
  refine ⟨st, v, by rw [run]; exact e, hv, fun k => ?_, ?_, ?_, a, by omega⟩
  · have := i.shows.2 0 k
    simpa [Lists.at] using this
  · rcases r with ⟨p, hd, hs, hc, hp⟩ | ⟨rfl, rfl⟩
    · exact hs
    · rfl
  · rcases r with ⟨p, hd, hs, hc, hp⟩ | ⟨rfl, rfl⟩
    · exact hc
    · exact Nat.le_refl _

/-- References stay valid: in every state a program can reach, after `reserve(n)` up to `n` elements can be held
without the elements being moved or the storage changing. -/
theorem C110_reserve (ops : List (Op α)) (ls : Lists α) (hs : specRun [] ops = some ls) (hr : RoomRun St.init ops)
    (st : St α) (hst : run St.init ops = some st) (s n : Nat) (l : List α) (hl : ls.at s = some l) (xs : List α)
    (hn : l.length + xs.length ≤ n) :
    ∃ st1 st2 v1 v2, step st (.reserve s n) = some st1 ∧ st1.vec s = some v1 ∧
      run st1 (xs.map fun x => Op.push s x) = some st2 ∧ st2.vec s = some v2 ∧ v2.data = v1.data ∧
      st2.moves = st1.moves ∧ ∀ k, st2.get s k = (l ++ xs)[k]? := by
  have i : Inv st ls := by
    obtain ⟨st', e, i⟩ := run_ok Inv.init ops hs hr
    rw [hst] at e; cases e; exact i
  have key : ∀ (xs l : List α) (st : St α) (ls : Lists α) (v : Vec), Inv st ls → ls.at s = some l →
      st.vec s = some v → l.length + xs.length ≤ v.cap →
      ∃ st2 v2, run st (xs.map fun x => Op.push s x) = some st2 ∧ st2.vec s = some v2 ∧ v2.data = v.data ∧
        st2.moves = st.moves ∧ ∀ k, st2.get s k = (l ++ xs)[k]? := by
    intro xs
    induction xs with
    | nil =>
      intro l st ls v i hl hv _
      refine ⟨st, v, rfl, hv, rfl, rfl, fun k => ?_⟩
      have := i.shows.2 s k
      rw [hl] at this
      simpa using this
    | cons x xs ih =>
      intro l st ls v i hl hv hc
      obtain ⟨v0, hv0, hv0', r⟩ := i.find hl
      rw [hv] at hv0'
      cases hv0'
      obtain ⟨h', v', e, r', lo, hd, hcap⟩ := push_ok r x
      have i' := i.upd hv0 lo r' (st.moves + pushMoves v)
      have hsz : v.size = l.length := by
        rcases r with ⟨p, hd, hs, hc, hp⟩ | ⟨rfl, rfl⟩
        · exact hs
        · rfl
      simp only [List.length_cons] at hc
      have hlt : v.size < v.cap := by omega
      have hstep : step st (.push s x) = some ⟨h', st.vecs.set s (some v'), st.moves + pushMoves v⟩ := by
        rw [step, hv]; simp only [Option.bind_some]; rw [e]; rfl
      have hls : Lists.at (ls.set s (some (l ++ [x]))) s = some (l ++ [x]) := by
        simp only [Lists.at, set_self _ _ _ _ (at_eq hl)]
      obtain ⟨st2, v2, e2, hv2, hd2, hm2, hg2⟩ := ih (l ++ [x]) _ _ v' i' hls
        (vec_eq (set_self _ _ _ _ hv0)) (by
          rw [hcap, if_neg (by omega)]; simp; omega)
      refine ⟨st2, v2, by rw [List.map_cons, run, hstep]; exact e2, hv2, by rw [hd2, hd hlt], ?_, ?_⟩
      · rw [hm2]; simp only [pushMoves]; rw [if_neg (by omega)]; rfl
      · simpa using hg2
  obtain ⟨v, hv, hv', r⟩ := i.find hl
  have hsp : spec ls (.reserve s n) = some ls := by simp [spec, hl]
  by_cases hcn : v.cap < n
  · obtain ⟨h', e, r', lo⟩ := reallocate_ok r n (by omega)
    have i' := i.upd hv lo r' (st.moves + v.size)
    rw [set_same ls s _ (at_eq hl)] at i'
    obtain ⟨st2, v2, e2, hv2, hd2, hm2, hg2⟩ := key xs l _ ls _ i' hl (vec_eq (set_self _ _ _ _ hv)) hn
    refine ⟨_, st2, _, v2, ?_, vec_eq (set_self _ _ _ _ hv), e2, hv2, hd2, hm2, hg2⟩
    rw [step, hv']
    simp only [Option.bind_some]
    rw [if_pos hcn, e]
    rfl
  · obtain ⟨st2, v2, e2, hv2, hd2, hm2, hg2⟩ := key xs l st ls v i hl hv' (by omega)
    exact ⟨st, st2, v, v2, by rw [step, hv']; simp only [Option.bind_some]; rw [if_neg hcn], hv', e2, hv2, hd2, hm2,
      hg2⟩

/-! ### The hypotheses can be met -/

/-- Two vectors, one copied, moved into, appended to from another, and all destroyed. -/
def demo : List (Op Nat) :=
  [.ofList [1, 2], .copy 0, .push 1 3, .reserve 0 5, .pushOf 0 0 1, .pushOf 1 0 0, .pop 1, .set 1 0 9,
    .moveAssign 0 1, .move 0, .clear 1, .fill 2 4, .default]

example : specRun [] demo = some [some [], some [], some [9, 2, 3], some [4, 4], some []] := rfl

example : RoomRun St.init demo := by
  refine ⟨trivial, fun _ h => ?_⟩; cases h
  refine ⟨trivial, fun _ h => ?_⟩; cases h
  refine ⟨trivial, fun _ h => ?_⟩; cases h
  refine ⟨trivial, fun _ h => ?_⟩; cases h
  refine ⟨fun _ v hv => by cases hv; decide, fun _ h => ?_⟩; cases h
  refine ⟨fun h => absurd h (by decide), fun _ h => ?_⟩; cases h
  exact roomRun_of_own _ _ (by decide)

example : ∃ st, run St.init (demo ++ [.destroy 0, .destroy 1, .destroy 2, .destroy 3, .destroy 4]) = some st ∧
    st.heap.all Option.isNone = true := ⟨_, rfl, rfl⟩

example : ∃ (ops : List (Op Nat)) (ls : Lists Nat), specRun [] ops = some ls ∧ (∀ o ∈ ops, o.own = false) ∧
    ls = [some [5, 6], none] :=
  ⟨[.ofList [5], .copy 0, .push 0 6, .destroy 1], _, rfl, by decide, rfl⟩

example : ([3, 1, 4, 1, 5] : List Nat) ≠ [] := by decide

example : ∃ (ops : List (Op Nat)) (ls : Lists Nat) (st : St Nat) (l xs : List Nat), specRun [] ops = some ls ∧
    RoomRun St.init ops ∧ run St.init ops = some st ∧ ls.at 0 = some l ∧ l.length + xs.length ≤ 6 ∧ xs ≠ [] :=
  ⟨[.ofList [5]], _, _, [5], [1, 2, 3], rfl, roomRun_of_own _ _ (by decide), rfl, rfl, by decide, by decide⟩

end Verif.CVec
