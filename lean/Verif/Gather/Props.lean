import Verif.Gather.Model
import Mathlib.Tactic.SplitIfs
import Mathlib.Data.List.Basic

/-! # Property C14: staggered all-gather -/
namespace Verif.Gather

variable {T : Type}

theorem foldl_max_ge (l : List Nat) : ∀ (a x : Nat), (x ∈ l ∨ x ≤ a) → x ≤ l.foldl max a := by
  induction l with
  | nil => intro a x h; simpa using h
  | cons y l ih =>
    intro a x h
    simp only [List.foldl_cons]
    rcases h with h | h
    · rcases List.mem_cons.1 h with rfl | h
      · exact ih _ _ (Or.inr (by omega))
      · exact ih _ _ (Or.inl h)
    · exact ih _ _ (Or.inr (by omega))

/-- The adversary may put anything into the window, but a window keeps its length. -/
def Env.Ok (e : Env T) : Prop := e.me < e.size ∧ ∀ r l, (e.junk r l).length = l.length

theorem sizes_other (e : Env T) (r : Nat) (h : r < e.datas.length) (hne : e.me ≠ r) :
    e.sizes[r]? = some (e.datas[r]'h).length := by
  simp [Env.sizes, List.getElem?_set, hne, h]

theorem size_le_max (e : Env T) (r : Nat) (h : r < e.datas.length) (hne : e.me ≠ r) :
    (e.datas[r]'h).length ≤ e.maxRecv := by
  apply foldl_max_ge
  exact Or.inl (List.mem_of_getElem? (sizes_other e r h hne))

/-- State after broadcast `r` was begun and the messages of ranks `< r` processed. -/
structure Inv (e : Env T) (r : Nat) (s : St T) : Prop where
  recv : s.recv.length = e.maxRecv
  proc : s.proc.length = e.maxRecv
  pend : s.pending = some r
  log : s.log = (List.range r).map fun i => (i, e.datas.getD i [])
  posted : s.posted = (List.range (r + 1)).map fun i => (i, (e.datas.getD i []).length)

theorem begin_spec (e : Env T) (hok : e.Ok) (r : Nat) (hr : r < e.size) (s : St T) (hp : s.pending = none)
    (hrl : s.recv.length = e.maxRecv) :
    ∃ s', begin e r s = some s' ∧ s'.recv.length = e.maxRecv ∧ s'.proc = s.proc ∧ s'.pending = some r ∧
      s'.log = s.log ∧ s'.posted = s.posted ++ [(r, (e.datas.getD r []).length)] := by
  have hr' : r < e.datas.length := hr
  unfold begin
  by_cases hm : e.me = r
  · simp [hp, hm, hr', hrl]
  · have h1 := sizes_other e r hr' hm
    have h2 := size_le_max e r hr' hm
    have h3 := hok.2 r s.recv
    simp only [hp, hm, if_false, h1, List.getElem?_eq_getElem hr', Option.isSome_none, Bool.false_eq_true]
    simp [h3, hrl, Nat.min_eq_left h2, Nat.not_lt.2 h2, hr']
    omega

theorem finish_spec (e : Env T) (r : Nat) (hr : r < e.size) (s : St T) (hp : s.pending = some r)
    (hrl : s.recv.length = e.maxRecv) (hpl : s.proc.length = e.maxRecv) :
    ∃ s', finish e s = some s' ∧ s'.recv.length = e.maxRecv ∧ s'.proc.length = e.maxRecv ∧ s'.pending = none ∧
      s'.log = s.log ∧ s'.posted = s.posted ∧ (e.me ≠ r → s'.proc.take (e.datas.getD r []).length = e.datas.getD r []) := by
  have hr' : r < e.datas.length := hr
  unfold finish
  by_cases hm : e.me = r
  · simp [hp, hm, hr', hrl, hpl]
  · have h2 := size_le_max e r hr' hm
    simp only [hp, List.getElem?_eq_getElem hr', Option.bind_eq_bind, Option.bind_some, if_neg hm]
    simp [hr', hrl, hpl]
    omega

theorem process_spec (e : Env T) (r : Nat) (hr : r < e.size) (s : St T)
    (hpl : s.proc.length = e.maxRecv) (hd : e.me ≠ r → s.proc.take (e.datas.getD r []).length = e.datas.getD r []) :
    process e r s = some { s with log := s.log ++ [(r, e.datas.getD r [])] } := by
  have hr' : r < e.datas.length := hr
  unfold process
  by_cases hm : e.me = r
  · simp [hm, hr']
  · have h1 := sizes_other e r hr' hm
    have h2 := size_le_max e r hr' hm
    have h3 := hd hm
    simp only [List.getD_eq_getElem?_getD, List.getElem?_eq_getElem hr', Option.getD_some] at h3
    simp [hm, h1, hpl, Nat.not_lt.2 h2, h3, hr']

theorem loop_spec (e : Env T) (hok : e.Ok) : ∀ (n r : Nat) (s : St T), r + n < e.size → Inv e r s →
    ∃ s', loop e (List.range' (r + 1) n) s = some s' ∧ Inv e (r + n) s' := by
  intro n
  induction n with
  | zero => intro r s _ h; exact ⟨s, rfl, h⟩
  | succ n ih =>
    intro r s hlt h
    obtain ⟨s1, e1, a1, a2, a3, a4, a5, a6⟩ := finish_spec e r (by omega) s h.pend h.recv h.proc
    obtain ⟨s2, e2, b1, b2, b3, b4, b5⟩ := begin_spec e hok (r + 1) (by omega) s1 a3 a1
    have e3 := process_spec e r (by omega) s2 (by rw [b2, a2]) (by rw [b2]; exact a6)
    rw [List.range'_succ, loop]
    have hsub : r + 1 - 1 = r := by omega
    simp only [e1, e2, hsub, e3, Option.bind_eq_bind, Option.bind_some]
    obtain ⟨s', h1, h2⟩ := ih (r + 1) { s2 with log := s2.log ++ [(r, e.datas.getD r [])] } (by omega)
      ⟨b1, by rw [b2, a2], b3, by simp [b4, a4, h.log, List.range_succ], by
        simp only [b5, a5, h.posted]; rw [List.range_succ (n := r + 1)]; simp⟩
    exact ⟨s', h1, by rw [show r + (n + 1) = r + 1 + n by omega]; exact h2⟩

/-- **C14**: on every rank the callback runs exactly once per rank, in rank order, with that rank's
data — for all message sizes (including empty ones), whatever the buffers contain initially and
whatever is written into the window of a broadcast in flight; no access is out of bounds. -/
theorem C14_staggered_all_gather (e : Env T) (hok : e.Ok) (buf0 buf1 : List T)
    (h0 : buf0.length = e.maxRecv) (h1 : buf1.length = e.maxRecv) :
    ∃ s, staggered e buf0 buf1 = some s ∧ s.pending = none ∧
      s.log = (List.range e.size).map fun i => (i, e.datas.getD i []) := by
  have hpos : 0 < e.size := by have := hok.1; omega
  obtain ⟨s0, e0, a1, a2, a3, a4, a5⟩ := begin_spec e hok 0 hpos ⟨buf0, buf1, none, [], []⟩ rfl h0
  obtain ⟨s1, e1, hi⟩ := loop_spec e hok (e.size - 1) 0 s0 (by omega) ⟨a1, by rw [a2]; exact h1, a3, by simp [a4], by simp [a5]⟩
  have hi : Inv e (e.size - 1) s1 := by simpa using hi
  obtain ⟨s2, e2, b1, b2, b3, b4, b5, b6⟩ := finish_spec e (e.size - 1) (by omega) s1 hi.pend hi.recv hi.proc
  have e3 := process_spec e (e.size - 1) (by omega) s2 b2 b6
  have e1' : loop e (List.range' 1 (e.size - 1)) s0 = some s1 := e1
  refine ⟨{ s2 with log := s2.log ++ [(e.size - 1, e.datas.getD (e.size - 1) [])] }, by unfold staggered; simp only [e0, e1', e2, e3, Option.bind_eq_bind, Option.bind_some], b3, ?_⟩
  simp only [b4, hi.log]
  conv_rhs => rw [show e.size = e.size - 1 + 1 by omega, List.range_succ]
  simp

/-- **C14** (no mismatch between ranks): all ranks post the same sequence of collectives, roots
`0, 1, ...` with equal counts, so the broadcasts match up and cannot deadlock. -/
theorem C14_collectives_match (e : Env T) (hok : e.Ok) (buf0 buf1 : List T)
    (h0 : buf0.length = e.maxRecv) (h1 : buf1.length = e.maxRecv) :
    ∃ s, staggered e buf0 buf1 = some s ∧
      s.posted = (List.range e.size).map fun i => (i, (e.datas.getD i []).length) := by
  have hpos : 0 < e.size := by have := hok.1; omega
  obtain ⟨s0, e0, a1, a2, a3, a4, a5⟩ := begin_spec e hok 0 hpos ⟨buf0, buf1, none, [], []⟩ rfl h0
  obtain ⟨s1, e1, hi⟩ := loop_spec e hok (e.size - 1) 0 s0 (by omega) ⟨a1, by rw [a2]; exact h1, a3, by simp [a4], by simp [a5]⟩
  have hi : Inv e (e.size - 1) s1 := by simpa using hi
  obtain ⟨s2, e2, b1, b2, b3, b4, b5, b6⟩ := finish_spec e (e.size - 1) (by omega) s1 hi.pend hi.recv hi.proc
  have e3 := process_spec e (e.size - 1) (by omega) s2 b2 b6
  have e1' : loop e (List.range' 1 (e.size - 1)) s0 = some s1 := e1
  refine ⟨{ s2 with log := s2.log ++ [(e.size - 1, e.datas.getD (e.size - 1) [])] }, by unfold staggered; simp only [e0, e1', e2, e3, Option.bind_eq_bind, Option.bind_some], ?_⟩
  simp only [b5, hi.posted]
  rw [show e.size - 1 + 1 = e.size by omega]

/-- Three ranks, one with an empty message, seen from rank 1, with an adversary that reverses windows. -/
def exEnv : Env Nat := ⟨1, [[1, 2], [3, 4, 5], []], fun _ l => l.reverse⟩

example : exEnv.Ok := ⟨by decide, fun r l => by simp [exEnv]⟩

example : (staggered exEnv [77, 88] [99, 66]).map (·.log) = some [(0, [1, 2]), (1, [3, 4, 5]), (2, [])] := by
  decide

end Verif.Gather
