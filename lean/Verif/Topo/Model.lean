import Mathlib.Data.Finset.Card
import Verif.Guards.Model

/-!
# Model of the counting of cores and threads

Source: `/repo/include/l3ster/util/HwlocWrapper.hpp`, and its uses in `/repo/include/l3ster/util/ScopeGuards.hpp` and `/repo/include/l3ster/algsys/AssembleGlobalSystem.hpp`.

What hwloc tells of the machine is the input; errors of its calls (lines 112, 115, 128, 131, 138), which throw, are left out.
-/
namespace Verif.Topo
open Verif.Guards

/-- What hwloc knows: the processing units (hardware threads) of each core in logical order, empty if the cores are not known, and those near each NUMA node in order of its number; a node
with memory only has none. (HwlocWrapper.hpp 120-121, 127, 130, 137) -/
structure Hw where
  cores : List (Finset Nat)
  nodes : List (Finset Nat)

/-- `hwloc_get_nbobjs_inside_cpuset_by_type` and `hwloc_get_obj_inside_cpuset_by_type`: the cores with some processing unit all of whose units are in the set, as documented.
(called in HwlocWrapper.hpp 129-130, 136-137) -/
def inside (cores : List (Finset Nat)) (cpuset : Finset Nat) : List (Finset Nat) := cores.filter fun c => decide (c ≠ ∅ ∧ c ⊆ cpuset)

/-- `m_machine`: the cores of each node. The node masks are not used further. (`Topology::populate`, HwlocWrapper.hpp 118-142) -/
def populate (hw : Hw) : List (List (Finset Nat)) := hw.nodes.map (inside hw.cores)

/-- `getNNodes` (HwlocWrapper.hpp 72). -/
def nNodes (mach : List (List (Finset Nat))) : Nat := mach.length

/-- `getNCores(node)`; `none`: `at` throws. (HwlocWrapper.hpp 73) -/
def nCoresOf (mach : List (List (Finset Nat))) (node : Nat) : Option Nat := mach[node]?.map List.length

/-- `getNHwThreads(node, core)`; `none`: `at` throws. (HwlocWrapper.hpp 81-84) -/
def nThreadsOf (mach : List (List (Finset Nat))) (node core : Nat) : Option Nat := (mach[node]?.bind fun cs => cs[core]?).map Finset.card

/-- `getNCores()`: the fold over the nodes. (HwlocWrapper.hpp 74-80) -/
def nCores (mach : List (List (Finset Nat))) : Option Nat := (List.range (nNodes mach)).foldlM (fun acc node => (nCoresOf mach node).map (acc + ·)) 0

/-- The inner fold of `getNHwThreads()`. (HwlocWrapper.hpp 88-92) -/
def nodeThreads (mach : List (List (Finset Nat))) (node : Nat) : Option Nat :=
  (nCoresOf mach node).bind fun n => (List.range n).foldlM (fun acc core => (nThreadsOf mach node core).map (acc + ·)) 0

/-- `getNHwThreads()`. (HwlocWrapper.hpp 85-97) -/
def nThreads (mach : List (List (Finset Nat))) : Option Nat := (List.range (nNodes mach)).foldlM (fun acc node => (nodeThreads mach node).map (acc + ·)) 0

/-- The state of the process at the start: the static limit is what was counted. (ScopeGuards.hpp 153-157) -/
def start (hw : Hw) (omp : Nat) : Option Par := (nThreads (populate hw)).map fun n => Par.init n omp

/-- What an assembly does first: a guard for the number of cores, which lives to its end. (AssembleGlobalSystem.hpp 50-51, 93-94; MatrixFreeSystem.hpp 1041-1042) -/
def assembly (hw : Hw) : Option ParOp := (nCores (populate hw)).map .enter

end Verif.Topo
