/-!
# Models of the scope guards

Source: `/repo/include/l3ster/util/ScopeGuards.hpp` and `/repo/include/l3ster/util/SetStackSize.hpp`.
-/
namespace Verif.Guards

/-! ## `MaxParallelismGuard`, ScopeGuards.hpp 114-183 -/

/-- Process-wide state: the static of `getCurrentMaxPar` (153-157), the active TBB `global_control`
objects, and OpenMP's `nthreads-var`. -/
structure Par where
  cur : Nat
  tbb : List Nat
  omp : Nat
  deriving DecidableEq, Repr

/-- One guard: `m_thread_guards` (value and saved OpenMP setting when engaged) and `m_previous`. (ScopeGuards.hpp 181-182) -/
structure ParGuard where
  engaged : Option (Nat × Nat)
  previous : Nat
  deriving DecidableEq, Repr

/-- Constructor, 160-168 (and `ThreadGuards`, 143-151, `OpenMPThreadGuard`, 120-123). -/
def ParGuard.new (n : Nat) (p : Par) : ParGuard × Par :=
  let m := max n 1
  if m < p.cur then (⟨some (m, p.omp), p.cur⟩, ⟨m, m :: p.tbb, m⟩) else (⟨none, p.cur⟩, p)

/-- Destructor, 174-178, followed by the destruction of the members. -/
def ParGuard.drop (g : ParGuard) (p : Par) : Par :=
  match g.engaged with
  | some (m, omp) => ⟨g.previous, p.tbb.erase m, omp⟩
  | none => p

/-- The limit TBB enforces: the minimum over active controls, the hardware thread count by default
(oneTBB documentation of `global_control`). (controls made in ScopeGuards.hpp 144) -/
def tbbLimit (hw : Nat) (tbb : List Nat) : Nat := tbb.foldl min hw

/-- A guard is created in the innermost scope, or the innermost scope ends. (lifetimes of ScopeGuards.hpp 160-168 and 174-178) -/
inductive ParOp | enter (n : Nat) | leave
  deriving DecidableEq, Repr

/-- Stack of live guards (innermost first) and process state. (ScopeGuards.hpp 160-168 and 174-178) -/
def parStep : List ParGuard × Par → ParOp → Option (List ParGuard × Par)
  | (gs, p), .enter n => some ((ParGuard.new n p).1 :: gs, (ParGuard.new n p).2)
  | (g :: gs, p), .leave => some (gs, g.drop p)
  | ([], _), .leave => none

/-- A program with nested guards, ScopeGuards.hpp 160-178. -/
def parRun (s : List ParGuard × Par) (ops : List ParOp) : Option (List ParGuard × Par) := ops.foldlM parStep s

/-- Before the first guard: no controls; the static is initialised with the hardware thread count. (ScopeGuards.hpp 153-157) -/
def Par.init (hw omp : Nat) : Par := ⟨hw, [], omp⟩

/-! ## Stack size, SetStackSize.hpp 13-92 -/

/-- `default_stack_size`, line 13. -/
def defaultStackSize : Nat := 2 ^ 23

/-- `MaxStackSizeTracker::set`, 18-22. -/
def trackerSet (cur v : Nat) : Nat := max v cur

/-- `rlimit`. (SetStackSize.hpp 59-65) -/
structure Lim where
  cur : Nat
  max : Nat
  deriving DecidableEq, Repr

/-- `setMinStackSize`, 67-77: (threw, limits afterwards); `sysOk`: whether `setrlimit` succeeds. -/
def setMinStackSize (sysOk : Bool) (l : Lim) (req : Nat) : Bool × Lim :=
  if req ≤ l.cur then (false, l)
  else if ¬ req ≤ l.max then (true, l)
  else if sysOk then (false, { l with cur := req }) else (true, l)

/-- `std::bit_ceil` on 64-bit values; `none` = result not representable (undefined behaviour). -/
def bitCeil (n : Nat) : Option Nat :=
  let r := if n ≤ 1 then 1 else 2 ^ ((n - 1).log2 + 1)
  if r < 2 ^ 64 then some r else none

/-- `StackSizeGuard` constructor, 83-88. -/
def stackGuard (sysOk : Bool) (l : Lim) (size : Nat) : Option (Bool × Lim) :=
  (bitCeil size).map (setMinStackSize sysOk l)

/-! ## `MpiScopeGuard` (16-74) and `KokkosScopeGuard` (76-112) -/

/-- State of MPI or Kokkos, as `MPI_Initialized`, `MPI_Finalized`, `is_initialized` tell (ScopeGuards.hpp 51-61, 81). -/
inductive Lib | fresh | running | finalized
  deriving DecidableEq, Repr

/-- Library state, number of finalize calls, who initialised it, and the `m_is_owning` flags of the live guards. (ScopeGuards.hpp 36, 111) -/
structure LibSt where
  lib : Lib
  finalizes : Nat
  byGuard : Bool
  guards : Nat → Option Bool

/-- Auxiliary: guard number `i` gets flag `b` (ScopeGuards.hpp 22-27, 71, 97-102). -/
def LibSt.set (s : LibSt) (i : Nat) (b : Option Bool) : LibSt :=
  { s with guards := fun k => if k = i then b else s.guards k }

/-- Operations on guards: construction, move, move assignment, destruction (ScopeGuards.hpp 22-33, 39-74, 79-108). -/
inductive GOp
  | userInit
  /-- constructor; `support` = the thread-support check passes (always true for Kokkos) -/
  | construct (i : Nat) (support : Bool)
  | moveConstruct (dst src : Nat)
  | moveAssign (dst src : Nat)
  | destroy (i : Nat)
  deriving DecidableEq, Repr

/-- One operation. `none`: not possible (guard not alive / storage in use) or the process terminates
(creating a guard after finalisation). (ScopeGuards.hpp 22-33, 39-74, 79-108) -/
def gStep (s : LibSt) : GOp → Option LibSt
  | .userInit => if s.lib = .fresh then some { s with lib := .running } else none
  | .construct i support =>
    if s.guards i ≠ none then none else
    match s.lib with
    | .finalized => none
    | .fresh =>
      let s' := { s with lib := .running, byGuard := true }
      some (if support then s'.set i (some true) else s')   -- the constructor throws: no destructor runs
    | .running => some (if support then s.set i (some false) else s)
  | .moveConstruct dst src =>
    if s.guards dst ≠ none then none else
    match s.guards src with
    | none => none
    | some b => some ((s.set src (some false)).set dst (some b))
  | .moveAssign dst src =>
    match s.guards dst, s.guards src with
    | some _, some b => some (if dst = src then s else (s.set src (some false)).set dst (some b))
    | _, _ => none
  | .destroy i =>
    match s.guards i with
    | none => none
    | some false => some (s.set i none)
    | some true => some { s.set i none with lib := .finalized, finalizes := s.finalizes + 1 }

/-- A program using guards (ScopeGuards.hpp 16-112). -/
def gRun (s : LibSt) (ops : List GOp) : Option LibSt := ops.foldlM gStep s

/-- Before the first guard (program start). -/
def LibSt.init : LibSt := ⟨.fresh, 0, false, fun _ => none⟩

end Verif.Guards
