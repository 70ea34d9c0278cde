import Verif.Vtk.Path
import Mathlib.Logic.Function.Basic
/-!
# Model of a `PvtuExporter` used over time

Source: `/repo/include/l3ster/post/VtkExport.hpp` lines 42-97 (the class), 523-549 (constructor and
`exportSolution`), 566-571 (`updateNodeCoords`), 586-616 (the two `enqueue…FileWrite`), 693-717
(`enqueueWrite`, `flushWriteQueue`) and `/repo/include/l3ster/comm/MpiComm.hpp` lines 137-172
(requests wait in their destructor), 313-324 (`waitAll`), 391-398 (`writeAtAsync`), 400-405 (`openFile`).

One rank is followed.  `writeAtAsync` only starts a write: MPI reads the bytes from the given address
at some later time, at the latest when the request is waited for.  A started write is therefore kept
with the place of its bytes, and events `complete i` (MPI carries out one of the outstanding writes)
may come anywhere between the calls, in any order.  A call which waits is enabled when nothing is
outstanding; before that it is `blocked`.  Bytes read from a string which has been reassigned or destroyed
are `undefined` behaviour.  The disk is a function from paths to contents (`[]` = no file or an empty
one); opening a file does not truncate it.  Not modelled: creation of directories and failing file
operations; 64-bit file positions; a move of the exporter with writes outstanding; several exporters
at once; the address of a payload after `std::move` (the description is longer than any small-string buffer, so
moving it keeps the address); the short lifetime of `done` requests in the queue.
-/
namespace Verif.ExpRun
open Verif Verif.Vtk

/-- What does not change during the life of the exporter: base64 variant, rank, number of ranks. -/
structure Env where
  avx : Bool
  rank : Nat
  nRanks : Nat

/-- Where the bytes of a started write are (lines 693-711): in the payload of the queue entry or in a
constant (`owned`), in `m_encoded_coords` as of its `v`-th value, or in `m_encoded_topo`. -/
inductive Buf
  | owned (text : List Byte)
  | coords (v : Nat)
  | topo
  deriving DecidableEq

/-- A started write: `AsyncWrite`, lines 64-70, with the arguments of `writeAtAsync`. -/
structure Pending where
  path : List Byte
  off : Nat
  len : Nat
  buf : Buf
  deriving DecidableEq

/-- Exporter (lines 92-96; `ver` counts the assignments to `m_encoded_coords`), outstanding writes, disk. -/
structure St where
  ex : Exporter
  ver : Nat
  alive : Bool
  out : List Pending
  disk : List Byte → List Byte

/-- Calls of the user: `exportSolution` (lines 532-549; `sol` are the values of the fields at the time of
the call), `updateNodeCoords` (566-571; `text` is what `makeCoordsSerialized` returns),
`flushWriteQueue` (712-717). -/
inductive Call
  | exportSol (name : List Byte) (fields : List FieldDef) (nFields : Nat) (sol : Nat → List Base64.Val)
  | updateCoords (text : List Byte)
  | flush

/-- Calls, the destruction of the exporter, and MPI carrying out the `i`-th outstanding write. -/
inductive Event
  | call (c : Call)
  | complete (i : Nat)
  | destroy

/-- `blocked`: the call is still waiting (or there is no such write); `undefined`: MPI reads bytes which are gone; `misuse`: a call on
a destroyed exporter; `threw`: exception; `done`: normal return. -/
inductive Outcome
  | blocked
  | undefined
  | misuse
  | threw (s : St)
  | done (s : St)

/-- Execution goes on after a return and after an exception (which the caller may catch). -/
def Outcome.bind (o : Outcome) (f : St → Outcome) : Outcome :=
  match o with
  | .threw s => f s
  | .done s => f s
  | .blocked => .blocked
  | .undefined => .undefined
  | .misuse => .misuse

/-- The bytes MPI finds when it carries out a write, `writeAtAsync`, MpiComm.hpp 391-398. -/
def bytesOf (s : St) : Buf → Option (List Byte)
  | .owned t => some t
  | .coords v => if s.alive = true ∧ v = s.ver then some s.ex.encodedCoords else none
  | .topo => if s.alive = true then some s.ex.encodedTopo else none

/-- One write reaches the file, MpiComm.hpp 391-398. -/
def store (s : St) (i : Nat) (w : Pending) (t : List Byte) : St :=
  { s with out := s.out.eraseIdx i, disk := Function.update s.disk w.path (File.pwrite (s.disk w.path) (w.off, t.take w.len)) }

/-- MPI carries out the write `w`. -/
def carryOut (s : St) (i : Nat) (w : Pending) : Outcome :=
  (bytesOf s w.buf).elim .undefined fun t => .done (store s i w t)

/-- The lambda `enqueue_write`, lines 605-607: consecutive positions. -/
def enqueue (path : List Byte) : Nat → List (Buf × Nat) → List Pending
  | _, [] => []
  | pos, (b, n) :: r => ⟨path, pos, n, b⟩ :: enqueue path (pos + n) r

/-- A text handed over as a payload, lines 704-708. -/
def own (t : List Byte) : Buf × Nat := (.owned t, t.length)

/-- The texts of the piece file, lines 609-615. -/
def vtuTexts (s : St) (fields : List FieldDef) (encoded : List (List Byte)) : List (Buf × Nat) :=
  [own (description s.ex fields (encoded.map List.length)), (.coords s.ver, s.ex.encodedCoords.length),
    (.topo, s.ex.encodedTopo.length)] ++ encoded.map own ++ [own vtuPostamble]

/-- `enqueueVtuFileWrite`, lines 598-616. -/
def vtuPending (env : Env) (s : St) (name : List Byte) (fields : List FieldDef) (encoded : List (List Byte)) : List Pending :=
  enqueue (vtuName name env.rank) 0 (vtuTexts s fields encoded)

/-- `enqueuePvtuFileWrite`, called on rank 0 only, lines 546-547, 586-596. -/
def pvtuPending (env : Env) (name : List Byte) (fields : List FieldDef) : List Pending :=
  if env.rank = 0 then enqueue (pvtuName name) 0 [own (pvtuFile name env.nRanks fields)] else []

/-- `exportSolution`, lines 532-549: check of the indices, wait, parallel file, encoding (which may throw),
piece file. -/
def exportSol (env : Env) (s : St) (name : List Byte) (fields : List FieldDef) (nFields : Nat) (sol : Nat → List Base64.Val) : Outcome :=
  if (fields.all fun f => f.inds.all (· < nFields)) = false then .threw s
  else if s.out ≠ [] then .blocked
  else (fields.mapM (encodeField env.avx sol)).elim (.threw { s with out := pvtuPending env name fields })
    fun enc => .done { s with out := pvtuPending env name fields ++ vtuPending env s name fields enc }

/-- `updateNodeCoords`, lines 566-571: wait, then assign. -/
def updateCoords (s : St) (text : List Byte) : Outcome :=
  if s.out ≠ [] then .blocked
  else .done { s with ex := { s.ex with encodedCoords := text }, ver := s.ver + 1 }

/-- A call. -/
def call (env : Env) (s : St) : Call → Outcome
  | .exportSol name fields nFields sol => exportSol env s name fields nFields sol
  | .updateCoords text => updateCoords s text
  | .flush => if s.out ≠ [] then .blocked else .done s

/-- One event.  The destructor destroys `m_write_queue` before the texts (line 96), and the requests
wait in their destructor (MpiComm.hpp line 147). -/
def step (env : Env) (s : St) : Event → Outcome
  | .call c => if s.alive = false then .misuse else call env s c
  | .complete i => s.out[i]?.elim .blocked (carryOut s i)
  | .destroy => if s.alive = false then .misuse else if s.out ≠ [] then .blocked else .done { s with alive := false }

/-- A sequence of events. -/
def run (env : Env) : St → List Event → Outcome
  | s, [] => .done s
  | s, e :: es => (step env s e).bind fun s' => run env s' es

/-- A new exporter (constructor, lines 523-530) on a disk with any content. -/
def start (ex : Exporter) (disk : List Byte → List Byte) : St := ⟨ex, 0, true, [], disk⟩

end Verif.ExpRun
