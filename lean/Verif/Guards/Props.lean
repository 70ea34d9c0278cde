import Verif.Guards.Model
import Mathlib.Tactic.SplitIfs
import Mathlib.Data.List.Basic
import Mathlib.Data.Nat.Log

/-! # Properties C17 and C19: scope guards -/
namespace Verif.Guards

/-! ## C17 -/

/-- Requests of the scopes currently open, innermost first, read off the program alone. -/
def openReqs : List Nat → List ParOp → Option (List Nat)
  | rs, [] => some rs
  | rs, .enter n :: ops => openReqs (n :: rs) ops
  | _ :: rs, .leave :: ops => openReqs rs ops
  | [], .leave :: _ => none

/-- The limit that should be in force: the least request (each at least 1), at most the hardware count. -/
def limit (hw : Nat) : List Nat → Nat
  | [] => hw
  | r :: rs => min (max r 1) (limit hw rs)

/-- What the guard stack looks like for a stack of requests. -/
inductive GInv (hw omp0 : Nat) : List Nat → List ParGuard → Par → Prop
  | nil : GInv hw omp0 [] [] (Par.init hw omp0)
  | cons {rs gs p} (r : Nat) : GInv hw omp0 rs gs p → GInv hw omp0 (r :: rs) ((ParGuard.new r p).1 :: gs) (ParGuard.new r p).2

theorem drop_new (r : Nat) (p : Par) : (ParGuard.new r p).1.drop (ParGuard.new r p).2 = p := by
  unfold ParGuard.new
  by_cases h : max r 1 < p.cur <;> simp [h, ParGuard.drop]

theorem foldl_min (l : List Nat) : ∀ a b, l.foldl min (min a b) = min a (l.foldl min b) := by
  induction l with
  | nil => simp
  | cons x l ih => intro a b; simp only [List.foldl_cons]; rw [Nat.min_assoc, ih]

theorem GInv.vals {hw omp0 : Nat} {rs gs p} (h : GInv hw omp0 rs gs p) :
    p.cur = limit hw rs ∧ tbbLimit hw p.tbb = limit hw rs ∧ p.omp = (if limit hw rs < hw then limit hw rs else omp0) ∧
    limit hw rs ≤ hw := by
  induction h with
  | nil => simp [Par.init, limit, tbbLimit]
  | @cons rs gs p r h ih =>
    obtain ⟨h1, h2, h3, h4⟩ := ih
    simp only [ParGuard.new]
    by_cases hc : max r 1 < p.cur
    · have hm : limit hw (r :: rs) = max r 1 := by simp only [limit]; omega
      have hb : max r 1 < hw := by omega
      rw [if_pos hc, hm]
      refine ⟨rfl, ?_, by simp only [hb, if_true], by omega⟩
      simp only [tbbLimit, List.foldl_cons]
      rw [Nat.min_comm, foldl_min]
      have : tbbLimit hw p.tbb = p.tbb.foldl min hw := rfl
      omega
    · have hm : limit hw (r :: rs) = limit hw rs := by simp only [limit]; omega
      rw [if_neg hc, hm]
      exact ⟨h1, h2, h3, h4⟩

theorem GInv.run {hw omp0 : Nat} (ops : List ParOp) : ∀ {rs gs p rs'}, GInv hw omp0 rs gs p → openReqs rs ops = some rs' →
    ∃ gs' p', parRun (gs, p) ops = some (gs', p') ∧ GInv hw omp0 rs' gs' p' := by
  induction ops with
  | nil => intro rs gs p rs' h e; simp [openReqs] at e; subst e; exact ⟨gs, p, rfl, h⟩
  | cons op ops ih =>
    intro rs gs p rs' h e
    cases op with
    | enter n =>
      obtain ⟨gs', p', h1, h2⟩ := ih (GInv.cons n h) e
      exact ⟨gs', p', h1, h2⟩
    | leave =>
      cases h with
      | nil => simp [openReqs] at e
      | @cons rs gs p r h =>
        obtain ⟨gs', p', h1, h2⟩ := ih h e
        refine ⟨gs', p', ?_, h2⟩
        rw [← h1]
        show parRun ((ParGuard.new r p).1 :: gs, (ParGuard.new r p).2) (.leave :: ops) = _
        unfold parRun
        rw [List.foldlM_cons]
        simp only [parStep, drop_new, Option.bind_eq_bind, Option.bind_some]

/-- **C17** (threads): for every well-nested program the limit recorded by the library and the limit
TBB enforces are the minimum over the open scopes' requests (each at least 1) and the hardware count;
OpenMP is set to it whenever some scope lowers the limit, and otherwise keeps its initial setting. -/
theorem C17_parallelism_limit (hw omp0 : Nat) (ops : List ParOp) (rs : List Nat) (h : openReqs [] ops = some rs) :
    ∃ gs p, parRun ([], Par.init hw omp0) ops = some (gs, p) ∧ p.cur = limit hw rs ∧ tbbLimit hw p.tbb = limit hw rs ∧
      p.omp = if limit hw rs < hw then limit hw rs else omp0 := by
  obtain ⟨gs, p, h1, h2⟩ := GInv.run ops GInv.nil h
  exact ⟨gs, p, h1, h2.vals.1, h2.vals.2.1, h2.vals.2.2.1⟩

/-- **C17** (what `limit` means): it is a lower bound of all open requests and is attained. -/
theorem C17_limit_is_minimum (hw : Nat) (hhw : 1 ≤ hw) (rs : List Nat) :
    1 ≤ limit hw rs ∧ limit hw rs ≤ hw ∧ (∀ r ∈ rs, limit hw rs ≤ max r 1) ∧
    (limit hw rs = hw ∨ ∃ r ∈ rs, limit hw rs = max r 1) := by
  induction rs with
  | nil => simp [limit, hhw]
  | cons r rs ih =>
    obtain ⟨h1, h2, h3, h4⟩ := ih
    refine ⟨by simp only [limit]; omega, by simp only [limit]; omega, fun x hx => ?_, ?_⟩
    · rcases List.mem_cons.1 hx with rfl | hx
      · simp only [limit]; omega
      · have := h3 x hx; simp only [limit]; omega
    · simp only [limit]
      by_cases hc : max r 1 ≤ limit hw rs
      · exact Or.inr ⟨r, by simp, by omega⟩
      · rcases h4 with h4 | ⟨x, hx, h4⟩
        · exact Or.inl (by omega)
        · exact Or.inr ⟨x, by simp [hx], by omega⟩

/-- **C17** (restoration): running any balanced program inside any state of the program restores
everything — library limit, TBB controls, OpenMP setting, outer guards. -/
theorem C17_parallelism_restored (hw omp0 : Nat) (pre body : List ParOp) (rs : List Nat)
    (hpre : openReqs [] pre = some rs) (hbody : ∀ rs', openReqs rs' body = some rs') :
    parRun ([], Par.init hw omp0) (pre ++ body) = parRun ([], Par.init hw omp0) pre := by
  obtain ⟨gs, p, h1, h2⟩ := GInv.run pre GInv.nil hpre
  obtain ⟨gs', p', h3, h4⟩ := GInv.run body h2 (hbody rs)
  have huniq : ∀ {rs gs p gs' p'}, GInv hw omp0 rs gs p → GInv hw omp0 rs gs' p' → gs = gs' ∧ p = p' := by
    intro rs gs p gs' p' h
    induction h generalizing gs' p' with
    | nil => intro h; cases h; exact ⟨rfl, rfl⟩
    | cons r h ih => intro h'; cases h' with | cons _ h' => obtain ⟨a, b⟩ := ih h'; subst a b; exact ⟨rfl, rfl⟩
  obtain ⟨e1, e2⟩ := huniq h2 h4
  have happ : parRun ([], Par.init hw omp0) (pre ++ body) = (parRun ([], Par.init hw omp0) pre).bind fun s => parRun s body := by
    unfold parRun; rw [List.foldlM_append]; rfl
  rw [happ, h1]
  simp only [Option.bind_some]
  rw [h3, e1, e2]

example : openReqs [] [.enter 4, .enter 0, .enter 6] = some [6, 0, 4] ∧
    (parRun ([], Par.init 8 8) [.enter 4, .enter 0, .enter 6]).map (·.2) = some ⟨1, [1, 4], 1⟩ := by decide

example : ∀ rs', openReqs rs' [.enter 2, .enter 1, .leave, .leave] = some rs' := fun _ => rfl

/-- Side finding: a scope asking for fewer threads than the hardware has *raises* OpenMP's setting if
the user had chosen a smaller one (e.g. `OMP_NUM_THREADS=2`, 8 hardware threads, guard for 4). -/
theorem C17_openmp_raised_violated :
    ¬ ∀ (hw omp0 n : Nat), (ParGuard.new n (Par.init hw omp0)).2.omp ≤ omp0 := fun h => by
  have := h 8 2 4; revert this; decide

/-- **C17** (stack tracker): after any sequence of requests, in any order, the recorded size is the
maximum of the default and all requests. -/
theorem C17_tracker (reqs : List Nat) :
    let v := reqs.foldl trackerSet defaultStackSize
    defaultStackSize ≤ v ∧ (∀ r ∈ reqs, r ≤ v) ∧ (v = defaultStackSize ∨ v ∈ reqs) := by
  generalize defaultStackSize = d
  induction reqs generalizing d with
  | nil => simp
  | cons r reqs ih =>
    obtain ⟨h1, h2, h3⟩ := ih (trackerSet d r)
    simp only [List.foldl_cons]
    have e : trackerSet d r = max r d := rfl
    refine ⟨by omega, fun x hx => ?_, ?_⟩
    · rcases List.mem_cons.1 hx with rfl | hx
      · omega
      · exact h2 x hx
    · rcases h3 with h3 | h3
      · by_cases hrd : r ≤ d
        · left; omega
        · right; rw [h3, e, Nat.max_eq_left (by omega)]; simp
      · right; simp [h3]

example : [5, 2 ^ 24, 7].foldl trackerSet defaultStackSize = 2 ^ 24 := by decide

theorem bitCeil_spec {n r : Nat} (h : bitCeil n = some r) : n ≤ r ∧ (∃ k, r = 2 ^ k) ∧ (1 ≤ n → r < 2 * n) := by
  by_cases h1 : n ≤ 1
  · simp [bitCeil, h1] at h
    subst h; exact ⟨h1, ⟨0, rfl⟩, fun _ => by omega⟩
  · simp [bitCeil, h1] at h
    obtain ⟨_, rfl⟩ := h
    · have hl := Nat.lt_log2_self (n := n - 1)
      have hk := Nat.log2_self_le (n := n - 1) (by omega)
      refine ⟨by omega, ⟨_, rfl⟩, fun _ => ?_⟩
      rw [Nat.pow_succ]; omega

/-- **C17** (soft stack limit): through any sequence of guards, whatever fails, the soft limit never
decreases and never exceeds the hard limit, which stays the same. -/
theorem C17_soft_limit_monotone (reqs : List (Bool × Nat)) (l : Lim) (hl : l.cur ≤ l.max) :
    let l' := reqs.foldl (fun l r => (setMinStackSize r.1 l r.2).2) l
    l.cur ≤ l'.cur ∧ l'.max = l.max ∧ l'.cur ≤ l'.max := by
  induction reqs generalizing l with
  | nil => simp [hl]
  | cons r reqs ih =>
    have key : l.cur ≤ (setMinStackSize r.1 l r.2).2.cur ∧ (setMinStackSize r.1 l r.2).2.max = l.max ∧
        (setMinStackSize r.1 l r.2).2.cur ≤ (setMinStackSize r.1 l r.2).2.max := by
      unfold setMinStackSize
      split_ifs <;> exact ⟨by simp only []; omega, rfl, by simp only []; omega⟩
    obtain ⟨h1, h2, h3⟩ := ih _ key.2.2
    simp only [List.foldl_cons]
    exact ⟨by omega, by omega, h3⟩

/-- **C17** (a guard that does not throw guarantees its size; one that throws changes nothing). -/
theorem C17_stack_guard (ok : Bool) (l : Lim) (size : Nat) (threw : Bool) (l' : Lim)
    (h : stackGuard ok l size = some (threw, l')) :
    (threw = false → size ≤ l'.cur ∧ (size ≤ l.cur ∨ l.cur ≤ l'.cur)) ∧ (threw = true → l' = l) ∧
    (ok = true → 1 ≤ size → 2 * size ≤ l.max → threw = false) := by
  unfold stackGuard at h
  rw [Option.map_eq_some_iff] at h
  obtain ⟨r, hr, h⟩ := h
  obtain ⟨h1, _, h3⟩ := bitCeil_spec hr
  have hr0 : size = 0 → r = 1 := by
    rintro rfl; simp [bitCeil] at hr; omega
  unfold setMinStackSize at h
  split_ifs at h <;> simp only [Prod.mk.injEq] at h <;> obtain ⟨rfl, rfl⟩ := h <;>
    refine ⟨?_, ?_, ?_⟩ <;> (try simp) <;> (try omega)
  all_goals (intro hok h; have := h3 h; first | omega | simp_all)

example : stackGuard true ⟨2 ^ 23, 2 ^ 30⟩ (2 ^ 23 + 1) = some (false, ⟨2 ^ 24, 2 ^ 30⟩) := by decide +kernel

/-! ## C19 -/

/-- No history step assigns over an owning guard or constructs with a failing support check. -/
def benign (s : LibSt) : GOp → Prop
  | .construct _ support => support = true
  | .moveAssign dst src => dst = src ∨ s.guards dst ≠ some true
  | _ => True

/-- All steps of a history are benign. -/
def Benign : LibSt → List GOp → Prop
  | _, [] => True
  | s, op :: ops => benign s op ∧ ∀ s', gStep s op = some s' → Benign s' ops

/-- Invariant: owners exist exactly while a guard-initialised library runs, and then there is one. -/
structure LInv (s : LibSt) : Prop where
  uniq : ∀ i j, s.guards i = some true → s.guards j = some true → i = j
  fresh : s.lib = .fresh → s.finalizes = 0 ∧ s.byGuard = false ∧ ∀ i, s.guards i ≠ some true
  run : s.lib = .running → s.finalizes = 0 ∧ (s.byGuard = true ↔ ∃ i, s.guards i = some true)
  fin : s.lib = .finalized → s.finalizes = 1 ∧ s.byGuard = true ∧ ∀ i, s.guards i ≠ some true

theorem LInv.init : LInv LibSt.init := by
  constructor <;> simp [LibSt.init]

theorem LInv.move {s : LibSt} (h : LInv s) {dst src : Nat} {b : Bool} (hd : s.guards dst ≠ some true) (hs : s.guards src = some b)
    (hne : dst ≠ src) : LInv ((s.set src (some false)).set dst (some b)) := by
  have g : ∀ k, ((s.set src (some false)).set dst (some b)).guards k =
      if k = dst then some b else if k = src then some false else s.guards k := fun k => rfl
  have key : ∀ k, ((s.set src (some false)).set dst (some b)).guards k = some true ↔
      (k = dst ∧ b = true) ∨ (k ≠ dst ∧ k ≠ src ∧ s.guards k = some true) := by
    intro k; rw [g]
    by_cases h1 : k = dst
    · simp [h1]
    · by_cases h2 : k = src
      · subst h2; simp [h1]
      · simp [h1, h2]
  have ex : (∃ k, ((s.set src (some false)).set dst (some b)).guards k = some true) ↔ ∃ k, s.guards k = some true := by
    constructor
    · rintro ⟨k, hk⟩
      rcases (key k).1 hk with ⟨_, rfl⟩ | ⟨_, _, hk⟩
      · exact ⟨src, hs⟩
      · exact ⟨k, hk⟩
    · rintro ⟨k, hk⟩
      by_cases hks : k = src
      · subst hks; rw [hs] at hk; exact ⟨dst, (key dst).2 (Or.inl ⟨rfl, by simpa using hk⟩)⟩
      · exact ⟨k, (key k).2 (Or.inr ⟨fun e => hd (e ▸ hk), hks, hk⟩)⟩
  refine ⟨?_, ?_, ?_, ?_⟩
  · intro i j hi hj
    rcases (key i).1 hi with ⟨rfl, hb⟩ | ⟨h1, h2, h3⟩ <;> rcases (key j).1 hj with ⟨rfl, hb'⟩ | ⟨h1', h2', h3'⟩
    · rfl
    · exact absurd (h.uniq j src h3' (by rw [hs, hb])) h2'
    · exact absurd (h.uniq i src h3 (by rw [hs, hb'])) h2
    · exact h.uniq i j h3 h3'
  · intro hl
    obtain ⟨a, b', c⟩ := h.fresh hl
    refine ⟨a, b', fun i hi => ?_⟩
    obtain ⟨k, hk⟩ := ex.1 ⟨i, hi⟩
    exact c k hk
  · intro hl
    obtain ⟨a, b'⟩ := h.run hl
    exact ⟨a, b'.trans ex.symm⟩
  · intro hl
    obtain ⟨a, b', c⟩ := h.fin hl
    refine ⟨a, b', fun i hi => ?_⟩
    obtain ⟨k, hk⟩ := ex.1 ⟨i, hi⟩
    exact c k hk

theorem LInv.step {s s' : LibSt} {op : GOp} (h : LInv s) (hb : benign s op) (hs : gStep s op = some s') : LInv s' := by
  cases op with
  | userInit =>
    simp only [gStep] at hs
    split at hs
    · rename_i hf
      obtain ⟨a, b, c⟩ := h.fresh hf
      cases hs
      exact ⟨h.uniq, by simp, fun _ => ⟨a, by simp [b, c]⟩, by simp⟩
    · simp at hs
  | construct i support =>
    simp only [benign] at hb
    subst hb
    simp only [gStep] at hs
    split at hs
    · simp at hs
    rename_i hg
    have hg : s.guards i = none := by simpa using hg
    split at hs
    · simp at hs
    · rename_i hl
      obtain ⟨a, b, c⟩ := h.fresh hl
      simp only [if_true, Option.some.injEq] at hs
      subst hs
      have key : ∀ k, (({ s with lib := .running, byGuard := true } : LibSt).set i (some true)).guards k = some true ↔ k = i := by
        intro k
        show (if k = i then some true else s.guards k) = some true ↔ k = i
        by_cases hk : k = i <;> simp [hk, c]
      refine ⟨fun k j hk hj => by rw [(key k).1 hk, (key j).1 hj], by simp [LibSt.set], fun _ => ⟨a, ?_⟩, by simp [LibSt.set]⟩
      exact ⟨fun _ => ⟨i, (key i).2 rfl⟩, fun _ => rfl⟩
    · rename_i hl
      simp only [if_true, Option.some.injEq] at hs
      subst hs
      have key : ∀ k, (s.set i (some false)).guards k = some true ↔ s.guards k = some true := by
        intro k
        show (if k = i then some false else s.guards k) = some true ↔ _
        by_cases hk : k = i <;> simp [hk, hg]
      refine ⟨fun k j hk hj => h.uniq k j ((key k).1 hk) ((key j).1 hj), ?_, ?_, ?_⟩
      · intro e; have e : s.lib = .fresh := e; rw [hl] at e; simp at e
      · intro _; obtain ⟨a, b⟩ := h.run hl; refine ⟨a, b.trans ?_⟩; simp only [key]
      · intro e; have e : s.lib = .finalized := e; rw [hl] at e; simp at e
  | moveConstruct dst src =>
    simp only [gStep] at hs
    split at hs
    · simp at hs
    rename_i hg
    have hg : s.guards dst = none := by simpa using hg
    split at hs
    · simp at hs
    · rename_i b hsrc
      cases hs
      refine h.move (by simp [hg]) hsrc (fun e => ?_)
      subst e; rw [hg] at hsrc; simp at hsrc
  | moveAssign dst src =>
    simp only [gStep] at hs
    split at hs
    · rename_i b' b h1 h2
      split at hs
      · cases hs; exact h
      · rename_i hne
        cases hs
        rcases hb with hb | hb
        · exact absurd hb hne
        · exact h.move hb h2 hne
    · simp at hs
  | destroy i =>
    simp only [gStep] at hs
    split at hs
    · simp at hs
    · rename_i hg
      cases hs
      have key : ∀ k, (s.set i none).guards k = some true ↔ s.guards k = some true := by
        intro k
        show (if k = i then none else s.guards k) = some true ↔ _
        by_cases hk : k = i <;> simp [hk, hg]
      refine ⟨fun k j hk hj => h.uniq k j ((key k).1 hk) ((key j).1 hj), ?_, ?_, ?_⟩
      · intro e; obtain ⟨a, b, c⟩ := h.fresh e; exact ⟨a, b, fun k hk => c k ((key k).1 hk)⟩
      · intro e; obtain ⟨a, b⟩ := h.run e; refine ⟨a, b.trans ?_⟩; simp only [key]
      · intro e; obtain ⟨a, b, c⟩ := h.fin e; exact ⟨a, b, fun k hk => c k ((key k).1 hk)⟩
    · rename_i hg
      cases hs
      have hrun : s.lib = .running := by
        cases hl : s.lib with
        | fresh => exact absurd hg ((h.fresh hl).2.2 i)
        | running => rfl
        | finalized => exact absurd hg ((h.fin hl).2.2 i)
      have key : ∀ k, (s.set i none).guards k ≠ some true := by
        intro k
        show (if k = i then none else s.guards k) ≠ some true
        by_cases hk : k = i
        · simp [hk]
        · simp only [hk, if_false]; exact fun e => hk (h.uniq k i e hg)
      obtain ⟨a, b⟩ := h.run hrun
      refine ⟨fun k j hk => absurd hk (key k), by simp, by simp, fun _ => ⟨by simp [a], b.2 ⟨i, hg⟩, key⟩⟩

theorem LInv.runOps (ops : List GOp) : ∀ {s s' : LibSt}, LInv s → Benign s ops → gRun s ops = some s' → LInv s' := by
  induction ops with
  | nil => intro s s' h _ e; cases e; exact h
  | cons op ops ih =>
    intro s s' h hb e
    unfold gRun at e
    rw [List.foldlM_cons] at e
    cases hs : gStep s op with
    | none => rw [hs] at e; simp at e
    | some s1 => rw [hs] at e; exact ih (h.step hb.1 hs) (hb.2 s1 hs) e

/-- C19 as one would like it: over all histories, once all guards are dead, a library initialised by a
guard was finalised exactly once, and never if the user initialised it. -/
def C19Statement : Prop :=
  ∀ ops s, gRun LibSt.init ops = some s → (∀ i, s.guards i = none) →
    s.finalizes = if s.byGuard then 1 else 0

/-- **C19** fails in general: move-assigning a non-owning guard onto the owning one loses the duty to
finalise (lines 24-29 and 97-102 overwrite `m_is_owning` without finalising or swapping). -/
theorem C19_move_assign_violated : ¬ C19Statement := fun h => by
  have e : ∃ s, gRun LibSt.init [.construct 0 true, .construct 1 true, .moveAssign 0 1, .destroy 1, .destroy 0] = some s ∧
      (∀ i, s.guards i = none) ∧ s.finalizes = 0 ∧ s.byGuard = true :=
    ⟨_, rfl, fun i => by
      show (if i = 0 then none else if i = 1 then none else if i = 0 then _ else if i = 1 then _ else if i = 1 then _ else if i = 0 then _ else none) = none
      split_ifs <;> rfl, rfl, rfl⟩
  obtain ⟨s, h1, h2, h3, h4⟩ := e
  have := h _ s h1 h2
  rw [h3, h4] at this
  simp at this

/-- **C19** fails in general: when the thread-support check throws after the guard initialised MPI,
nothing finalises it (the constructor's own destructor does not run). -/
theorem C19_failed_construction_violated :
    ∃ s, gRun LibSt.init [.construct 0 false] = some s ∧ (∀ i, s.guards i = none) ∧ s.lib = .running ∧
      s.byGuard = true ∧ s.finalizes = 0 :=
  ⟨_, rfl, fun _ => rfl, rfl, rfl, rfl⟩

/-- **C19** for every history without these two events: at most one guard owns the library at any
time; it is finalised at most once, never while an owner lives, exactly once when a guard had
initialised it and all guards are gone, and never if the user had initialised it. -/
theorem C19_finalise_once_partial (ops : List GOp) (s : LibSt) (hb : Benign LibSt.init ops)
    (hr : gRun LibSt.init ops = some s) :
    s.finalizes ≤ 1 ∧ (∀ i j, s.guards i = some true → s.guards j = some true → i = j) ∧
    ((∃ i, s.guards i = some true) → s.lib = .running ∧ s.finalizes = 0) ∧
    (s.byGuard = false → s.finalizes = 0 ∧ s.lib ≠ .finalized) ∧
    (s.byGuard = true → (∀ i, s.guards i ≠ some true) → s.lib = .finalized ∧ s.finalizes = 1) := by
  have h := LInv.init.runOps ops hb hr
  cases hl : s.lib with
  | fresh =>
    obtain ⟨a, b, c⟩ := h.fresh hl
    refine ⟨by omega, h.uniq, fun ⟨i, hi⟩ => absurd hi (c i), fun _ => ⟨a, by simp⟩, fun e => by simp [b] at e⟩
  | running =>
    obtain ⟨a, b⟩ := h.run hl
    refine ⟨by omega, h.uniq, fun _ => ⟨rfl, a⟩, fun _ => ⟨a, by simp⟩, fun e hn => ?_⟩
    obtain ⟨i, hi⟩ := b.1 e
    exact absurd hi (hn i)
  | finalized =>
    obtain ⟨a, b, c⟩ := h.fin hl
    exact ⟨by omega, h.uniq, fun ⟨i, hi⟩ => absurd hi (c i), fun e => by simp [b] at e, fun _ _ => ⟨rfl, a⟩⟩

/-- Ownership passes through a move; the late non-owning guard does not finalise. -/
example : Benign LibSt.init [.construct 0 true, .construct 1 true, .moveConstruct 2 0, .moveAssign 1 2, .destroy 0, .destroy 1, .destroy 2] ∧
    (gRun LibSt.init [.construct 0 true, .construct 1 true, .moveConstruct 2 0, .moveAssign 1 2, .destroy 0, .destroy 1, .destroy 2]).map
      (fun s => (s.lib, s.finalizes)) = some (.finalized, 1) := by
  refine ⟨?_, rfl⟩
  refine ⟨rfl, fun s h => ?_⟩; cases h
  refine ⟨rfl, fun s h => ?_⟩; cases h
  refine ⟨trivial, fun s h => ?_⟩; cases h
  refine ⟨Or.inr (by decide), fun s h => ?_⟩; cases h
  refine ⟨trivial, fun s h => ?_⟩; cases h
  refine ⟨trivial, fun s h => ?_⟩; cases h
  exact ⟨trivial, fun s h => trivial⟩

end Verif.Guards
