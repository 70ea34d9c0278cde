import Mathlib.Data.List.Basic
import Mathlib.Data.List.OfFn
import Mathlib.Data.Real.Basic

/-!
# Typed point-to-point and collective communication (comm/MpiComm.hpp)

What is modelled: how `MpiComm` turns a range of elements into a buffer address, a datatype and a
count (`parseMpiBuf`), and the arguments it passes to `MPI_Send`/`MPI_Recv`, `MPI_Bcast`,
`MPI_Gather`, `MPI_Allgather`, `MPI_Scatter` and `MPI_Ialltoall`; the MPI routines themselves are
given by their semantics in the MPI standard.  All ranks of one collective call are described
together, as lists indexed by the rank.

A *unit* is what the datatype passed to MPI describes: the element itself for types with a built-in
MPI datatype, one byte for other trivially copyable types.  An element is a tuple of `w` units:
`w = 1` for built-in types and `w = sizeof(T)` for the others.

Simplifications: one communicator; non-blocking calls are described by their completed effect; the
buffers of one call do not overlap; running past the end of a buffer, and dereferencing an iterator
that does not point to an element, is `ub`; calls that MPI declares erroneous, and failed
assertions, are `error`.
-/

namespace Verif.Coll

variable {U : Type}

/-- The outcome of a call. (MpiComm.hpp 507-509 for the exceptions) -/
inductive Out (α : Type) where
  | ok (a : α)
  | error
  | ub
  deriving DecidableEq

/-- `static_cast< int >` of a `size_t` (two's complement, 32 bits). -/
def cInt (n : Nat) : Int := ((n : Int) + 2147483648) % 4294967296 - 2147483648

/-- An element: `w` units. (MpiComm.hpp 80-97) -/
abbrev Elem (U : Type) (w : Nat) := Fin w → U

/-- The memory of a buffer of elements (`std::as_bytes`). (MpiComm.hpp 80-97) -/
def units {w : Nat} (b : List (Elem U w)) : List U := b.flatMap List.ofFn

/-- `MpiBufView`, MpiComm.hpp 71-77 (the datatype is implied by `U`). -/
structure View (U : Type) where
  data : List U
  count : Int

/-- `parseMpiBuf`, MpiComm.hpp 79-100. -/
def parse {w : Nat} (b : List (Elem U w)) : View U := ⟨units b, cInt (units b).length⟩

/-- Can the iterator be dereferenced?  `none` is a null pointer, `some []` an iterator to the end of
an empty buffer. (MpiComm.hpp 488-490) -/
def derefable {α : Type} (o : Option (List α)) : Bool :=
  match o with
  | some (_ :: _) => true
  | _ => false

/-! ## MPI routines (semantics of the MPI standard) -/

/-- `MPI_Send` matched with `MPI_Recv`: the units written at the destination.  A message longer than
the receive count is an error. (MpiComm.hpp 411, 427) -/
def mpiSendRecv (s : View U) (r : View U) : Out (List U) :=
  if s.count < 0 ∨ r.count < 0 ∨ r.count < s.count then .error
  else if s.data.length < s.count.toNat ∨ r.data.length < s.count.toNat then .ub
  else .ok (s.data.take s.count.toNat ++ r.data.drop s.count.toNat)

/-- `MPI_Gather`, at the root: `rc` is the receive count, which must agree with every send count. (MpiComm.hpp 490) -/
def mpiGather (sends : List (View U)) (rc : Int) (out : List U) : Out (List U) :=
  if rc < 0 ∨ ∃ v ∈ sends, v.count ≠ rc then .error
  else if out.length < sends.length * rc.toNat ∨ ∃ v ∈ sends, v.data.length < rc.toNat then .ub
  else .ok ((sends.map fun v => v.data.take rc.toNat).flatten ++ out.drop (sends.length * rc.toNat))

/-- `MPI_Bcast`: the counts of all ranks must agree with that of the root. (MpiComm.hpp 517) -/
def mpiBcast (root : View U) (bufs : List (View U)) : Out (List (List U)) :=
  if root.count < 0 ∨ ∃ v ∈ bufs, v.count ≠ root.count then .error
  else if ∃ v ∈ bufs, v.data.length < root.count.toNat then .ub
  else .ok (bufs.map fun v => root.data.take root.count.toNat ++ v.data.drop root.count.toNat)

/-- The `i`-th of a sequence of blocks of `c` units. (auxiliary; MpiComm.hpp 510) -/
def block (data : List U) (c i : Nat) : List U := (data.drop (i * c)).take c

/-- `MPI_Scatter`: `sc` is the send count (per rank) at the root; every receive count must agree with it. (MpiComm.hpp 510) -/
def mpiScatter (root : List U) (sc : Int) (recvs : List (View U)) : Out (List (List U)) :=
  if sc < 0 ∨ ∃ v ∈ recvs, v.count ≠ sc then .error
  else if root.length < recvs.length * sc.toNat ∨ ∃ v ∈ recvs, v.data.length < sc.toNat then .ub
  else .ok (recvs.mapIdx fun i v => block root sc.toNat i ++ v.data.drop sc.toNat)

/-- `MPI_Ialltoall` followed by a wait: `c i` is the count passed by rank `i`; all must agree. (MpiComm.hpp 571) -/
def mpiAlltoall (sends : List (List U)) (recvs : List (List U)) (counts : List Int) (c : Int) :
    Out (List (List U)) :=
  if c < 0 ∨ ∃ d ∈ counts, d ≠ c then .error
  else if ∃ b ∈ sends ++ recvs, b.length < sends.length * c.toNat then .ub
  else .ok (recvs.mapIdx fun i r =>
    (sends.map fun s => block s c.toNat i).flatten ++ r.drop (sends.length * c.toNat))

/-! ## MpiComm -/

/-- `send` (407-412) matched by `receive` (423-428): memory of the receiver. -/
def sendRecv {w : Nat} (data recv : List (Elem U w)) : Out (List U) :=
  mpiSendRecv (parse data) (parse recv)

/-- `Status::numElems`, 276-291, after probing a message: `MPI_Get_elements` in units, divided by the
number of units of an element. -/
def numElems {w : Nat} (s : View U) : Int := s.count.tdiv w

/-- `gather`, 485-491: `datas`, the ranges of all ranks; `outs`, their output iterators.  The result
is the output buffer of the root. -/
def gather {w : Nat} (datas : List (List (Elem U w))) (outs : List (Option (List (Elem U w))))
    (root : Nat) : Out (List U) :=
  if outs.any (fun o => !derefable o) then .ub
  else mpiGather (datas.map parse) (parse (datas.getD root [])).count
    (units ((outs.getD root none).getD []))

/-- `allGather`, 493-499, as seen by rank `r`. -/
def allGather {w : Nat} (datas : List (List (Elem U w))) (outs : List (Option (List (Elem U w))))
    (r : Nat) : Out (List U) :=
  gather datas outs r

/-- `broadcast`, 513-518: the buffers of all ranks afterwards. -/
def broadcast {w : Nat} (bufs : List (List (Elem U w))) (root : Nat) : Out (List (List U)) :=
  mpiBcast (parse (bufs.getD root [])) (bufs.map parse)

/-- `exactIntegerCast< int >` of a size: throws unless the value is representable. (MpiComm.hpp 509) -/
def exactInt (n : Nat) : Option Int := if n < 2147483648 then some n else none

/-- The receive side of `scatter`: the memory of the output span, with its *number of elements* as
the count (507-509). -/
def scatterRecv {w : Nat} (out : List (Elem U w)) : Option (View U) :=
  (exactInt out.length).map fun c => ⟨units out, c⟩

/-- `scatter`, 501-511: `data` is the range of the root, `outs` the output spans of all ranks; the
result is their memory afterwards.  (The ranges passed by other ranks are not significant.) -/
def scatter {w : Nat} (data : List (Elem U w)) (outs : List (List (Elem U w))) : Out (List (List U)) :=
  if (parse data).count.tmod outs.length ≠ 0 then .error
  else match outs.mapM scatterRecv with
    | none => .error
    | some recvs => mpiScatter (units data) ((parse data).count.tdiv outs.length) recvs

/-- `allToAllAsync`, 557-572, followed by `wait`: memory of the receive buffers of all ranks. -/
def allToAll {w : Nat} (sends recvs : List (List (Elem U w))) : Out (List (List U)) :=
  if (sends.zip recvs).any (fun p => (parse p.1).count ≠ (parse p.2).count) then .error
  else mpiAlltoall (sends.map units) (recvs.map units)
    (sends.map fun s => (parse s).count.tdiv sends.length)
    ((parse (sends.getD 0 [])).count.tdiv sends.length)

/-- The gathered numbers of threads divided by their sum, GatherNodeThroughputs.hpp 20-25 (real instead
of floating point division). -/
noncomputable def shares (tp : List Nat) : List ℝ := tp.map fun (t : Nat) => (t : ℝ) / ((tp.sum : Nat) : ℝ)

/-- `gatherNodeThroughputs`, GatherNodeThroughputs.hpp 12-33, on all ranks: `tp` lists the number of
threads of every rank, as one-unit elements; the root passes a vector of zeros, the others a null
pointer.  The result is the vector returned at the root. -/
noncomputable def nodeThroughputs (tp : List Nat) : Out (List ℝ) :=
  match gather (w := 1) (tp.map fun t => [fun _ => t])
      (some (List.replicate tp.length fun _ => 0) :: List.replicate (tp.length - 1) none) 0 with
  | .ok out => .ok (shares out)
  | .error => .error
  | .ub => .ub

end Verif.Coll
