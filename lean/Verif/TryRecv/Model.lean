import Mathlib.Logic.Function.Basic

/-!
# Model of `Import::tryReceive` and of the use made of it in the matrix-free operator

Sources: `/repo/include/l3ster/comm/ImportExport.hpp` lines 339-354, `/repo/include/l3ster/algsys/MatrixFreeSystem.hpp` lines
1057-1122.

The atomic flag and the mutex are sequentially consistent objects; every access is one step, steps of different calls interleave
arbitrarily.  A receive request, once complete, stays complete.
-/
namespace Verif.TryRecv

/-- Where a call of `tryReceive` is. (ImportExport.hpp 340-354) -/
inductive Pc where
  | idle            -- not started
  | flag1           -- about to test the flag, 343
  | lock            -- about to try the lock, 346
  | flag2           -- holds the lock, about to test the flag again, 348
  | req (k : Nat)   -- holds the lock, about to test request `k` (`all_of`, 350)
  | set             -- holds the lock, all requests complete, about to set the flag, 352
  | unlock (b : Bool) -- holds the lock, about to return `b` (353, destructor of the lock)
  | done (b : Bool) -- returned `b`
deriving DecidableEq, Repr

/-- State of the object and of all calls; `comp k`: request `k` is complete. (ImportExport.hpp 343-352: `m_recv_complete`, `m_mutex`, `getRecvRequests()`) -/
structure St where
  flag : Bool
  lock : Option Nat
  comp : Nat → Bool
  pc : Nat → Pc

/-- After `postComms` (295-303): flag clear, lock free, nothing received, no call started. -/
def St.init : St := ⟨false, none, fun _ => false, fun _ => .idle⟩

/-- Set the position of call `i`. (auxiliary for `act`, ImportExport.hpp 340-354) -/
def St.goto (s : St) (i : Nat) (p : Pc) : St := { s with pc := Function.update s.pc i p }

/-- One step of call `i`; `n` is the number of receive requests.  A returned call takes no step. (ImportExport.hpp 340-354) -/
def act (n : Nat) (s : St) (i : Nat) : Option St :=
  match s.pc i with
  | .idle => some (s.goto i .flag1)
  | .flag1 => some (s.goto i (if s.flag then .done false else .lock))
  | .lock => some (if s.lock.isSome then s.goto i (.done false) else { s.goto i .flag2 with lock := some i })
  | .flag2 => some (s.goto i (if s.flag then .unlock false else .req 0))
  | .req k => some (s.goto i (if k < n then (if s.comp k then .req (k + 1) else .unlock false) else .set))
  | .set => some { s.goto i (.unlock true) with flag := true }
  | .unlock b => some { s.goto i (.done b) with lock := none }
  | .done _ => none

/-- Events: a step of a call, a spurious failure of `try_lock` (allowed by the standard), completion of a request. (ImportExport.hpp 346, 350) -/
inductive Ev where
  | step (i : Nat)
  | spurious (i : Nat)
  | complete (k : Nat)
deriving DecidableEq, Repr

/-- Effect of an event, ImportExport.hpp 340-354. -/
def next (n : Nat) (s : St) : Ev → Option St
  | .step i => act n s i
  | .spurious i => if s.pc i = .lock then some (s.goto i (.done false)) else none
  | .complete k => some { s with comp := Function.update s.comp k true }

/-- An execution. (interleaving of calls of ImportExport.hpp 340-354) -/
def run (n : Nat) (s : St) (es : List Ev) : Option St := es.foldlM (next n) s

/-- States of executions. (by ImportExport.hpp 340-354) -/
def Reach (n : Nat) (s : St) : Prop := ∃ es, run n St.init es = some s

/-! ### The operator -/

/-- Where the evaluation of an interior element is (1071-1083). -/
inductive EPc where
  | eval | poll | border | fin
deriving DecidableEq, Repr

/-- Where the calling thread is (1110-1122): in the interior, waiting for the receives, or past the border; the latter with the
route taken. -/
inductive MPc where
  | interior | wait | finDirect | finWait
deriving DecidableEq, Repr

/-- State of one application: `log` has an entry for every evaluation of the border (each followed by posting the sends, 1069),
telling whether all receives were complete. -/
structure Op where
  base : St
  elem : Nat → EPc
  main : MPc
  log : List Bool

/-- Before `evaluate`, MatrixFreeSystem.hpp 1112-1113. -/
def Op.init : Op := ⟨St.init, fun _ => .eval, .interior, []⟩

/-- Events of one application, MatrixFreeSystem.hpp 1076-1083, 1112-1122. -/
inductive OEv where
  | eval (i : Nat)        -- interior element `i` evaluated, then `testReceive` (1079)
  | inner (e : Ev)        -- a step inside `tryReceive`, or a message arrives
  | ret (i : Nat)         -- element `i` sees the result of its call
  | border (i : Nat)      -- element `i` evaluates the border (1080)
  | check                 -- all interior elements finished, `testReceive` (1114)
  | waited                -- `waitReceive` returns, border evaluated (1116-1117)
deriving DecidableEq, Repr

/-- All receives complete. (ImportExport.hpp 350) -/
def allComp (n : Nat) (s : St) : Bool := (List.range n).all s.comp

/-- A call step is possible only for an element that is polling. (MatrixFreeSystem.hpp 1082) -/
def Ev.allowed (o : Op) : Ev → Bool
  | .step i => o.elem i == .poll
  | .spurious i => o.elem i == .poll
  | .complete _ => true

/-- Transitions; `m` interior elements, `n` receives. (MatrixFreeSystem.hpp 1076-1083, 1112-1122) -/
def onext (m n : Nat) (o : Op) : OEv → Option Op
  | .eval i =>
    if i < m ∧ o.elem i = .eval ∧ o.main = .interior then
      some { o with elem := Function.update o.elem i (if o.base.flag then .fin else .poll) }
    else none
  | .inner e => if e.allowed o then (next n o.base e).map fun b => { o with base := b } else none
  | .ret i =>
    if o.elem i = .poll then
      match o.base.pc i with
      | .done b => some { o with elem := Function.update o.elem i (if b then .border else .fin) }
      | _ => none
    else none
  | .border i =>
    if o.elem i = .border then some { o with elem := Function.update o.elem i .fin, log := o.log ++ [allComp n o.base] } else none
  | .check =>
    if o.main = .interior ∧ ∀ i < m, o.elem i = .fin then some { o with main := if o.base.flag then .finDirect else .wait } else none
  | .waited =>
    if o.main = .wait ∧ allComp n o.base then some { o with main := .finWait, log := o.log ++ [allComp n o.base] } else none

/-- An execution of `evaluate`, MatrixFreeSystem.hpp 1112-1122. -/
def orun (m n : Nat) (o : Op) (es : List OEv) : Option Op := es.foldlM (onext m n) o

/-- States of executions of `evaluate`, MatrixFreeSystem.hpp 1112-1122. -/
def OReach (m n : Nat) (o : Op) : Prop := ∃ es, orun m n Op.init es = some o

end Verif.TryRecv
