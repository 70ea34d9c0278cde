/-!
# Model of `staggeredAllGather`

Source: `/repo/include/l3ster/util/Algorithm.hpp`, lines 242-282.

One rank's program is modelled; the messages of all ranks are `datas`.  MPI is modelled by its
contract: between `broadcastAsync` and `wait` the receive window has unspecified contents (`junk`,
chosen by an adversary and re-chosen for every broadcast), after `wait` it holds the root's data.
`none` = error / undefined behaviour: a window outside its buffer, a count that differs from the
root's, reading outside a buffer.
-/
namespace Verif.Gather

variable {T : Type}

/-- Local variables of one rank: the two buffers, the pending broadcast (its root), the calls made to
the callback, and the collectives posted so far as (root, count). (`recv_buf`, `proc_buf` and the calls of `process_received`, Algorithm.hpp 256, 270) -/
structure St (T : Type) where
  recv : List T
  proc : List T
  pending : Option Nat
  log : List (Nat × List T)
  posted : List (Nat × Nat)

/-- What the rank knows: its number, the number of ranks, everybody's data (only `datas[me]` and, through
MPI, the other sizes and messages are used), and the adversary's buffer contents. (Algorithm.hpp 246-255) -/
structure Env (T : Type) where
  me : Nat
  datas : List (List T)
  junk : Nat → List T → List T

/-- `msg_sizes`, Algorithm.hpp 252-254 -/
def Env.size (e : Env T) : Nat := e.datas.length

/-- `msg_sizes` after line 254: own entry zeroed. -/
def Env.sizes (e : Env T) : List Nat := (e.datas.map List.length).set e.me 0

/-- `begin_broadcasting`, lines 259-263. -/
def begin (e : Env T) (root : Nat) (s : St T) : Option (St T) := do
  if s.pending.isSome then none   -- assigning to an active request: never happens here
  let d ← e.datas[root]?
  if e.me = root then
    return { s with pending := some root, posted := s.posted ++ [(root, d.length)] }
  let n ← e.sizes[root]?
  if s.recv.length < n ∨ n ≠ d.length then none
  let window := (e.junk root s.recv).take n
  if window.length ≠ n then none
  return { s with recv := window ++ s.recv.drop n, pending := some root, posted := s.posted ++ [(root, n)] }

/-- `finish_broadcasting`, lines 264-267: wait, then swap the buffers. -/
def finish (e : Env T) (s : St T) : Option (St T) := do
  let root ← s.pending
  let d ← e.datas[root]?
  let recv := if e.me = root then s.recv else d ++ s.recv.drop d.length
  return { s with recv := s.proc, proc := recv, pending := none }

/-- `do_processing`, lines 268-271. -/
def process (e : Env T) (root : Nat) (s : St T) : Option (St T) := do
  if e.me = root then
    let d ← e.datas[root]?
    return { s with log := s.log ++ [(root, d)] }
  let n ← e.sizes[root]?
  if s.proc.length < n then none
  return { s with log := s.log ++ [(root, s.proc.take n)] }

/-- The loop of lines 274-279. -/
def loop (e : Env T) : List Nat → St T → Option (St T)
  | [], s => some s
  | r :: rs, s => do loop e rs (← process e (r - 1) (← begin e r (← finish e s)))

/-- `staggeredAllGather`; `buf0`, `buf1` are the uninitialised buffers of line 256. -/
def staggered (e : Env T) (buf0 buf1 : List T) : Option (St T) := do
  let s ← begin e 0 ⟨buf0, buf1, none, [], []⟩
  let s ← loop e (List.range' 1 (e.size - 1)) s
  process e (e.size - 1) (← finish e s)

/-- `max_recv_sz`, line 255. -/
def Env.maxRecv (e : Env T) : Nat := e.sizes.foldl max 0

end Verif.Gather
