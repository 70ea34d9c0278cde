import Mathlib.Algebra.Order.BigOperators.Group.Finset
import Mathlib.Algebra.BigOperators.Group.List.Basic
import Verif.Topo.Model
import Verif.Guards.Props

/-!
# Properties of the counting of cores and threads
-/
namespace Verif.Topo
open Verif.Guards

/-- A sensible machine: every core has a unit, no unit is in two cores, and every core is near some node. -/
structure Machine (hw : Hw) : Prop where
  units : ∀ c ∈ hw.cores, c ≠ ∅
  disj : hw.cores.Pairwise Disjoint
  near : ∀ c ∈ hw.cores, ∃ n ∈ hw.nodes, c ⊆ n

/-- The units of the machine. -/
def allUnits (hw : Hw) : Finset Nat := hw.cores.foldr (· ∪ ·) ∅

/-- No unit is near two nodes. -/
def Apart (hw : Hw) : Prop := hw.nodes.Pairwise Disjoint

theorem foldlM_range {f : Nat → Option Nat} {g : Nat → Nat} : ∀ (l : List Nat) (_ : ∀ i ∈ l, f i = some (g i)) (a : Nat),
    l.foldlM (fun acc i => (f i).map (acc + ·)) a = some (a + (l.map g).sum)
  | [], _, a => by simp
  | i :: l, h, a => by
    rw [List.foldlM_cons, h i List.mem_cons_self]
    exact (foldlM_range l (fun j hj => h j (List.mem_cons_of_mem _ hj)) (a + g i)).trans (by simp [Nat.add_assoc])

theorem map_range {α : Type} (l : List α) (g : α → Nat) (d : α) : (List.range l.length).map (fun i => g (l.getD i d)) = l.map g := by
  apply List.ext_getElem
  · simp
  · intro i h1 h2
    simp only [List.length_map] at h2
    simp [h2]

theorem nCores_eq (mach : List (List (Finset Nat))) : nCores mach = some (mach.map List.length).sum := by
  unfold nCores nNodes
  rw [foldlM_range (g := fun i => (mach.getD i []).length) _ (fun i hi => by
    have hi := List.mem_range.1 hi
    simp [nCoresOf, hi]) 0, map_range mach List.length [], Nat.zero_add]

theorem nodeThreads_eq {mach : List (List (Finset Nat))} {i : Nat} (hi : i < mach.length) : nodeThreads mach i = some ((mach.getD i []).map Finset.card).sum := by
  have h1 : nCoresOf mach i = some (mach.getD i []).length := by simp [nCoresOf, hi]
  have h2 : mach[i]? = some (mach.getD i []) := by simp [hi]
  unfold nodeThreads
  rw [h1, Option.bind_some, foldlM_range (g := fun j => ((mach.getD i []).getD j ∅).card) _ (fun j hj => by
    have hj := List.mem_range.1 hj
    unfold nThreadsOf
    rw [h2, Option.bind_some]
    revert hj
    generalize mach.getD i [] = l
    intro hj
    simp [hj]) 0, map_range _ Finset.card ∅, Nat.zero_add]

theorem nThreads_eq (mach : List (List (Finset Nat))) : nThreads mach = some (mach.map fun cs => (cs.map Finset.card).sum).sum := by
  unfold nThreads nNodes
  rw [foldlM_range (g := fun i => ((mach.getD i []).map Finset.card).sum) _ (fun i hi => nodeThreads_eq (List.mem_range.1 hi)) 0,
    map_range mach (fun cs => (cs.map Finset.card).sum) [], Nat.zero_add]

/-- How many nodes a core is counted for. -/
def times (hw : Hw) (c : Finset Nat) : Nat := hw.nodes.countP fun n => decide (c ≠ ∅ ∧ c ⊆ n)

theorem sum_inside (w : Finset Nat → Nat) (cores : List (Finset Nat)) (nodes : List (Finset Nat)) :
    (nodes.map fun n => ((inside cores n).map w).sum).sum = (cores.map fun c => nodes.countP (fun n => decide (c ≠ ∅ ∧ c ⊆ n)) * w c).sum := by
  induction nodes with
  | nil => simp
  | cons n nodes ih =>
    rw [List.map_cons, List.sum_cons, ih]
    clear ih
    unfold inside
    induction cores with
    | nil => rfl
    | cons c cores ih =>
      by_cases h : c ≠ ∅ ∧ c ⊆ n
      · rw [List.filter_cons_of_pos (by simpa using h), List.map_cons, List.sum_cons, List.map_cons, List.sum_cons, List.map_cons, List.sum_cons, ← ih,
          List.countP_cons_of_pos (by simpa using h), Nat.add_mul]
        omega
      · rw [List.filter_cons_of_neg (by simpa using h), List.map_cons, List.sum_cons, List.map_cons, List.sum_cons, ← ih, List.countP_cons_of_neg (by simpa using h)]
        omega

/-- **C136** (what is counted).  On any machine at all each core is counted once for every node it is near with all its units, and its units with it; the counts never fail, and asking for nodes and
cores which there are does not either. -/
theorem C136_counts (hw : Hw) : nCores (populate hw) = some ((hw.cores.map (times hw)).sum) ∧ nThreads (populate hw) = some ((hw.cores.map fun c => times hw c * c.card).sum) ∧
    nNodes (populate hw) = hw.nodes.length := by
  refine ⟨?_, ?_, by simp [nNodes, populate]⟩
  · rw [nCores_eq, populate, List.map_map]
    have h := sum_inside (fun _ => 1) hw.cores hw.nodes
    simp only [List.map_const', List.sum_replicate, Nat.nsmul_eq_mul, Nat.mul_one] at h
    exact congrArg some h
  · rw [nThreads_eq, populate, List.map_map]
    exact congrArg some (sum_inside Finset.card hw.cores hw.nodes)

/-- **C136** (nodes and cores).  The cores listed for a node are those which are near it with all their units; other nodes and cores than those there are are refused. -/
theorem C136_nodes (hw : Hw) (i : Nat) : (nCoresOf (populate hw) i = none ↔ hw.nodes.length ≤ i) ∧ (∀ n, hw.nodes[i]? = some n → ∃ cs : List (Finset Nat), nCoresOf (populate hw) i = some cs.length ∧
    cs.Sublist hw.cores ∧ (∀ c ∈ hw.cores, c ∈ cs ↔ c ≠ ∅ ∧ c ⊆ n) ∧ ∀ j, nThreadsOf (populate hw) i j = cs[j]?.map Finset.card) := by
  refine ⟨by simp [nCoresOf, populate], fun n hn => ⟨inside hw.cores n, by simp [nCoresOf, populate, hn], List.filter_sublist, fun c hc => ?_, fun j => ?_⟩⟩
  · unfold inside
    rw [List.mem_filter, decide_eq_true_iff]
    exact ⟨fun h => h.2, fun h => ⟨hc, h⟩⟩
  · simp [nThreadsOf, populate, hn]

theorem times_one {hw : Hw} (h : Machine hw) (ha : Apart hw) {c : Finset Nat} (hc : c ∈ hw.cores) : times hw c = 1 := by
  obtain ⟨n, hn, hcn⟩ := h.near c hc
  have hne := h.units c hc
  unfold times Apart at *
  revert ha hn
  generalize hw.nodes = nodes
  intro ha hn
  obtain ⟨a, b, rfl⟩ := List.append_of_mem hn
  have hz : ∀ l : List (Finset Nat), (∀ k ∈ l, Disjoint n k) → l.countP (fun k => decide (c ≠ ∅ ∧ c ⊆ k)) = 0 := by
    intro l hl
    rw [List.countP_eq_zero]
    intro k hk h
    rw [decide_eq_true_iff] at h
    exact hne (Finset.disjoint_self_iff_empty _ |>.1 ((hl k hk).mono hcn h.2))
  obtain ⟨_, h2, h3⟩ := List.pairwise_append.1 ha
  rw [List.countP_append, List.countP_cons_of_pos (by simpa using ⟨hne, hcn⟩), hz a fun k hk => (h3 k hk n List.mem_cons_self).symm, hz b fun k hk => (List.pairwise_cons.1 h2).1 k hk]

theorem units_card : ∀ {cores : List (Finset Nat)}, cores.Pairwise Disjoint → (cores.map Finset.card).sum = (cores.foldr (· ∪ ·) ∅).card
  | [], _ => rfl
  | c :: cores, h => by
    have h := List.pairwise_cons.1 h
    rw [List.map_cons, List.sum_cons, units_card h.2, List.foldr_cons, Finset.card_union_of_disjoint]
    have : ∀ l : List (Finset Nat), (∀ k ∈ l, Disjoint c k) → Disjoint c (l.foldr (· ∪ ·) ∅) := by
      intro l
      induction l with
      | nil => exact fun _ => Finset.disjoint_empty_right _
      | cons k l ih => exact fun hl => Finset.disjoint_union_right.2 ⟨hl k List.mem_cons_self, ih fun j hj => hl j (List.mem_cons_of_mem _ hj)⟩
    exact this _ h.1

/-- **C136** in full: on every sensible machine the library counts each core, and each hardware thread, once. -/
def C136Statement : Prop := ∀ hw, Machine hw → nCores (populate hw) = some hw.cores.length ∧ nThreads (populate hw) = some (allUnits hw).card

/-- **C136** for machines no unit of which is near two nodes. -/
theorem C136_once_partial {hw : Hw} (h : Machine hw) (ha : Apart hw) : nCores (populate hw) = some hw.cores.length ∧ nThreads (populate hw) = some (allUnits hw).card := by
  obtain ⟨h1, h2, _⟩ := C136_counts hw
  constructor
  · rw [h1, List.map_congr_left (fun c hc => times_one h ha hc)]
    simp
  · rw [h2, List.map_congr_left (g := Finset.card) (fun c hc => by rw [times_one h ha hc, Nat.one_mul]), units_card h.disj]
    rfl

/-- Fast memory beside the usual one: two nodes, the same two cores near both. -/
def exShared : Hw := ⟨[{0, 2}, {1, 3}], [{0, 1, 2, 3}, {0, 1, 2, 3}]⟩

/-- **C136** is false: where two nodes are near the same cores, these are counted twice. -/
theorem C136_violated : ¬ C136Statement := fun h => by
  have := (h exShared ⟨by decide, by decide, by decide⟩).1
  exact absurd this (by decide)

/-- **C136** (at least once).  No core of a sensible machine is forgotten. -/
theorem C136_all {hw : Hw} (h : Machine hw) : ∃ n t, nCores (populate hw) = some n ∧ nThreads (populate hw) = some t ∧ hw.cores.length ≤ n ∧ (allUnits hw).card ≤ t := by
  obtain ⟨h1, h2, _⟩ := C136_counts hw
  have hpos : ∀ c ∈ hw.cores, 1 ≤ times hw c := by
    intro c hc
    obtain ⟨n, hn, hcn⟩ := h.near c hc
    exact List.countP_pos_iff.2 ⟨n, hn, by simpa using ⟨h.units c hc, hcn⟩⟩
  refine ⟨_, _, h1, h2, ?_, ?_⟩
  · have := List.sum_le_sum (l := hw.cores) (f := fun _ => 1) (g := times hw) hpos
    simpa using this
  · have := List.sum_le_sum (l := hw.cores) (f := Finset.card) (g := fun c => times hw c * c.card) fun c hc => Nat.le_mul_of_pos_left _ (hpos c hc)
    rw [units_card h.disj] at this
    exact this

/-- **C136** (in an assembly), for the same machines.  Whatever guards are open, with requests `rs`, an assembly runs on the number of cores, or on what the open guards allow if this is less. -/
theorem C136_assembly_partial {hw : Hw} (h : Machine hw) (ha : Apart hw) (hne : hw.cores ≠ []) (omp : Nat) {ops : List ParOp} {rs : List Nat} (hops : openReqs [] ops = some rs) :
    ∃ p0 op gs p, start hw omp = some p0 ∧ assembly hw = some op ∧ parRun ([], p0) (ops ++ [op]) = some (gs, p) ∧ p.cur = min hw.cores.length (limit (allUnits hw).card rs) ∧
      tbbLimit (allUnits hw).card p.tbb = p.cur ∧ 1 ≤ p.cur ∧ (p.cur < (allUnits hw).card → p.omp = p.cur) ∧ parRun ([], p0) (ops ++ [op] ++ [.leave]) = parRun ([], p0) ops := by
  obtain ⟨h1, h2⟩ := C136_once_partial h ha
  have hlen : 1 ≤ hw.cores.length := List.length_pos_iff.2 hne
  have hcard : hw.cores.length ≤ (allUnits hw).card := by
    unfold allUnits
    rw [← units_card h.disj]
    have := List.sum_le_sum (l := hw.cores) (f := fun _ => 1) (g := Finset.card) fun c hc => Finset.card_pos.2 (Finset.nonempty_iff_ne_empty.2 (h.units c hc))
    simpa using this
  have hreq : ∀ (ops : List ParOp) (s rs : List Nat), openReqs s ops = some rs → openReqs s (ops ++ [.enter hw.cores.length]) = some (hw.cores.length :: rs) := by
    intro ops
    induction ops with
    | nil => intro s rs h; cases h; rfl
    | cons o ops ih =>
      intro s rs h
      cases o with
      | enter n => exact ih _ _ h
      | leave =>
        cases s with
        | nil => exact absurd h (by simp [openReqs])
        | cons a s => exact ih _ _ h
  obtain ⟨gs, p, e1, e2, e3, e4⟩ := C17_parallelism_limit (allUnits hw).card omp _ _ (hreq ops [] rs hops)
  have hl : limit (allUnits hw).card (hw.cores.length :: rs) = min hw.cores.length (limit (allUnits hw).card rs) := by
    show min (max hw.cores.length 1) _ = _
    rw [Nat.max_eq_left hlen]
  rw [hl] at e2 e3 e4
  refine ⟨Par.init (allUnits hw).card omp, .enter hw.cores.length, gs, p, by unfold start; rw [h2]; rfl, by unfold assembly; rw [h1]; rfl, e1, e2, by rw [e3, e2], ?_, fun hlt => ?_, ?_⟩
  · rw [e2]
    have := (C17_limit_is_minimum (allUnits hw).card (by omega) rs).1
    omega
  · rw [e4, e2, if_pos (by rwa [e2] at hlt)]
  · rw [List.append_assoc]
    exact C17_parallelism_restored _ _ ops ([.enter hw.cores.length] ++ [.leave]) rs hops fun _ => rfl

/-- **C136** (cores not known).  Where hwloc does not know the cores, the recorded limit is zero and no guard, for one thread or any number, has any effect. -/
theorem C136_unknown_violated {hw : Hw} (h : hw.cores = []) (omp : Nat) : start hw omp = some (Par.init 0 omp) ∧ ∀ n, (ParGuard.new n (Par.init 0 omp)).2 = Par.init 0 omp := by
  obtain ⟨_, h2, _⟩ := C136_counts hw
  rw [h] at h2
  refine ⟨by unfold start; rw [h2]; rfl, fun n => ?_⟩
  unfold ParGuard.new Par.init
  rw [if_neg (by simp)]

/-- Two nodes with two cores each, two threads in each core, and a node with memory only. -/
def exMachine : Hw := ⟨[{0, 4}, {1, 5}, {2, 6}, {3, 7}], [{0, 1, 4, 5}, {2, 3, 6, 7}, ∅]⟩

theorem exMachine_ok : Machine exMachine ∧ Apart exMachine :=
  ⟨⟨by decide, by decide, by decide⟩, by unfold Apart; decide⟩

/-- Hypotheses of the theorems; four cores and eight threads are counted. -/
example : Machine exMachine ∧ Apart exMachine ∧ exMachine.cores ≠ [] ∧ nCores (populate exMachine) = some 4 ∧ nThreads (populate exMachine) = some 8 ∧ openReqs [] [.enter 6, .enter 3, .leave] = some [6] :=
  ⟨exMachine_ok.1, exMachine_ok.2, by decide, by decide, by decide, rfl⟩

/-- A machine the cores of which are not known. -/
example : (⟨[], [{0, 1}]⟩ : Hw).cores = [] := rfl

end Verif.Topo
