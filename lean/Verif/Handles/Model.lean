import Mathlib.Logic.Function.Basic
import Mathlib.Data.List.Basic

/-!
# Owners of MPI handles (comm/MpiComm.hpp)

`MpiComm::Request`, `MpiComm::FileHandle` and `MpiComm` each own one MPI handle (a request, an open
file, a duplicated communicator).  The model follows the owner objects of one kind on one rank through
arbitrary sequences of operations; objects are identified by their addresses (natural numbers).

MPI numbers the handles it gives out.  `released` records the handles given back to MPI: a completed
request, a closed file, a freed communicator.  Handing a released handle to MPI again is an erroneous
use of a dangling handle, reported as `dangling`; using an object that does not exist, or creating an
object over another one, is reported as `invalid` (the program, not the library, is at fault).

Simplifications: MPI calls do not fail; which of several requests finishes first, and whether a tested
request has finished, is a parameter of the operation; `MPI_Cancel` does not affect ownership and is
left out (a cancelled request still has to be completed); the lists passed to `waitAll` and `waitAny`
name distinct objects.
-/

namespace Verif.Handles

/-- The three owner classes. (MpiComm.hpp 114, 137, 175) -/
inductive Kind where
  | request
  | file
  | comm
  deriving DecidableEq

/-- State of one rank: for each address, `none` if no object lives there, `some none` if it holds the
null handle and `some (some h)` if it holds handle `h`; the handles `0, …, next - 1` have been given
out. -/
structure State where
  objs : Nat → Option (Option Nat)
  released : Nat → Bool
  next : Nat

/-- Before anything has been created. (before any of MpiComm.hpp 137-204) -/
def init : State := ⟨fun _ => none, fun _ => false, 0⟩

/-- What an operation may lead to. (auxiliary; no line of the code) -/
inductive Res where
  | ok (s : State)
  | invalid
  | dangling

/-- Auxiliary: sequencing of outcomes; no line of the code. -/
def Res.bind (r : Res) (f : State → Res) : Res :=
  match r with
  | .ok s => f s
  | .invalid => .invalid
  | .dangling => .dangling

/-- Auxiliary: an owner (members MpiComm.hpp 171, 196) changes or disappears. -/
def State.set (s : State) (x : Nat) (v : Option (Option Nat)) : State :=
  { s with objs := Function.update s.objs x v }

/-- MPI takes a handle back (`MPI_Wait`, `MPI_File_close`, `MPI_Comm_free`; `MPI_Test` with a true flag). (MpiComm.hpp 169, 194, 309, 617-621) -/
def mpiRelease (s : State) (h : Nat) : Res :=
  if s.released h then .dangling
  else .ok { s with released := Function.update s.released h true }

/-- Give back the handle of the object at `x` and set it to null: `Request::waitImpl` (169; `MPI_Wait`
returns at once for a null request), `FileHandle::closeIgnoreErr` (194; the error for a null file is
ignored), `MpiComm::freeOwnedComm` (617-621; null is checked). -/
def release (s : State) (x : Nat) : Res :=
  match s.objs x with
  | none => .invalid
  | some none => .ok s
  | some (some h) => (mpiRelease s h).bind fun s => .ok (s.set x (some none))

/-- `std::exchange(other.m_handle, NULL)` followed by storing the old value at `x`. (MpiComm.hpp 293-297, 302, 367, 373, 202, 634) -/
def take (s : State) (x y : Nat) : Res :=
  match s.objs y with
  | none => .invalid
  | some v => .ok ((s.set y (some none)).set x (some v))

/-- Give back the handles of several requests: `MPI_Waitall`, which sets them to null (326-333), or, for
ranges that are not contiguous, on a copy of the handles, followed by an assignment of null (313-324). -/
def releaseAll (s : State) : List Nat → Res
  | [] => .ok s
  | x :: xs => (release s x).bind fun s => releaseAll s xs

/-- The operations. (MpiComm.hpp 142-166, 180-184, 199-204) -/
inductive Op where
  /-- Default construction at `x` (143). -/
  | construct (x : Nat)
  /-- An operation that returns a new owner, constructed at `x`: `sendAsync`, `receiveAsync`,
  `broadcastAsync`, `allToAllAsync`, `readAtAsync`, `writeAtAsync`, `openFile`, the constructor of
  `MpiComm`, `distGraphCreate`. -/
  | start (x : Nat)
  /-- Move construction of `x` from `y` (294-297, 366-368, 202). -/
  | moveCtor (x y : Nat)
  /-- Move assignment `x = std::move(y)` (299-304, 370-375, 629-637). -/
  | moveAssign (x y : Nat)
  /-- Destruction (147, 184, 204). -/
  | destroy (x : Nat)
  /-- `Request::wait` (149). -/
  | wait (x : Nat)
  /-- `Request::test` (306-311), with the flag that `MPI_Test` sets. -/
  | test (x : Nat) (flag : Bool)
  /-- `Request::waitAll` (313-333). -/
  | waitAll (xs : List Nat)
  /-- `Request::waitAny` (335-363); `i` is the index that `MPI_Waitany` chooses. -/
  | waitAny (xs : List Nat) (i : Nat)

/-- One operation on owners of kind `k`.  Only the move assignment of communicators is guarded against
self-assignment. (MpiComm.hpp 147-151, 184, 202-204, 293-375, 617-637) -/
def step (k : Kind) (s : State) : Op → Res
  | .construct x => if (s.objs x).isSome then .invalid else .ok (s.set x (some none))
  | .start x =>
    if (s.objs x).isSome then .invalid
    else .ok { (s.set x (some (some s.next))) with next := s.next + 1 }
  | .moveCtor x y => if (s.objs x).isSome then .invalid else take s x y
  | .moveAssign x y =>
    if k = .comm ∧ x = y then (if (s.objs x).isSome then .ok s else .invalid)
    else if (s.objs y).isSome then (release s x).bind fun s => take s x y
    else .invalid
  | .destroy x => (release s x).bind fun s => .ok (s.set x none)
  | .wait x => release s x
  | .test x flag =>
    if flag then release s x else if (s.objs x).isSome then .ok s else .invalid
  | .waitAll xs =>
    if xs.Nodup then releaseAll s xs else .invalid
  | .waitAny xs i =>
    if xs.Nodup ∧ ∀ x ∈ xs, (s.objs x).isSome then
      (if xs.all (fun x => s.objs x = some none) then .ok s
       else match xs[i]? with
         | some x => if s.objs x = some none then .invalid else release s x
         | none => .invalid)
    else .invalid

/-- A sequence of operations. (calls of MpiComm.hpp 137-204) -/
def run (k : Kind) (s : State) : List Op → Res
  | [] => .ok s
  | o :: os => (step k s o).bind fun s => run k s os

end Verif.Handles
