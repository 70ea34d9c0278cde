import Verif.Own.Model
import Verif.Common.ParWrite

/-!
# Model of `ImportExportContext`, `Import` and `Export`

Source: `/repo/include/l3ster/comm/ImportExport.hpp` lines 29-472.

Every rank has a memory (a list of values) in which the owned and shared views start at some position; a view has a stride
between vectors.  A failed assertion, an access outside a span, and a receive that is never matched or is matched by a message
of another length are `none`.  A receive is matched with the message of the given source and tag addressed to the rank.
Contents of a message are those at the time of sending (the code must not touch the buffer before completion).
-/
namespace Verif.ImpExp
open Verif Own

/-- `ImportExportContext`: `getOwnedRange` (lines 49-53) and `getSharedRange` (56-65). -/
structure Ctx where
  owned : List (Nat × List Nat)
  shared : List (Nat × Nat × Nat)
deriving Repr, DecidableEq

/-- `flattenOwned` and `getOffsets` (225-247), constructor (250-261). -/
def makeCtx (o : SegOwn) (out inn : NbrInfo) : Ctx where
  owned := inn.map fun p => (p.1, p.2.map o.getLocal)
  shared := (out.map (·.1)).zip ((0 :: Std.inclusiveScan (out.map (·.2.length))).zip (out.map (·.2.length)))

/-- `getOwnedInds`, line 48. -/
def Ctx.ownedInds (c : Ctx) : List Nat := c.owned.flatMap (·.2)
/-- `m_max_owned + 1`, 106 and 265. -/
def Ctx.numOwned (c : Ctx) : Nat := (c.ownedInds.map (· + 1)).foldl max 0
/-- `getNumSharedInds`, line 55: the last offset. -/
def Ctx.numShared (c : Ctx) : Nat := (c.shared.map fun s => s.2.1 + s.2.2).getLastD 0

/-- A view set with `setOwned` or `setShared`: position of its data, number of elements of the span, stride. (`setOwned`, `setShared`, ImportExport.hpp 279-293: pointer, stride and size) -/
structure View where
  base : Nat
  size : Nat
  stride : Nat
deriving Repr, DecidableEq

/-- `isOwnedSizeSufficient`, `isSharedSizeSufficient`, 263-277 (`num` indices, `nv` vectors). -/
def sufficient (num nv : Nat) (v : View) : Bool := if 0 < num then decide ((nv - 1) * v.stride + num ≤ v.size) else true

/-- `makeTag`, line 98, with `m_id = (id & 0xff) << 12` (108). -/
def makeTag (id vec : Nat) : Nat := (vec &&& 0xfff) ||| ((id &&& 0xff) <<< 12)

/-- A message: destination, tag, contents. (ImportExport.hpp 306-340, MpiComm.hpp `sendAsync`) -/
structure Msg (V : Type) where
  dest : Nat
  tag : Nat
  data : List V
deriving Repr, DecidableEq

/-- A posted receive: source, tag, position in the receiving buffer, number of elements. (ImportExport.hpp 305-320, MpiComm.hpp `receiveAsync`) -/
structure Recv where
  src : Nat
  tag : Nat
  pos : Nat
  size : Nat
deriving Repr, DecidableEq

variable {V : Type}

/-- Consecutive subspans starting at `ix` (variables `buf_index` and `offset`, 328-336, 406-414). -/
def subspans (buf : List V) : Nat → List Nat → List (List V)
  | _, [] => []
  | ix, n :: ns => (buf.drop ix).take n :: subspans buf (ix + n) ns

/-- A subspan of a vector, 311-316, 424-430: `none` if it is not within the stride or the memory. -/
def vecSpan (mem : List V) (v : View) (vec off size : Nat) : Option (List V) :=
  if off + size ≤ v.stride ∧ v.base + vec * v.stride + off + size ≤ mem.length then
    some ((mem.drop (v.base + vec * v.stride + off)).take size)
  else none

/-- `packSends`, 356-372. -/
def packSends (c : Ctx) (nv : Nat) (mem : List V) (v : View) : Option (List V) :=
  ((List.range nv).flatMap fun vec => c.ownedInds.map fun l => (vec, l)).mapM fun p =>
    if p.2 < v.stride then mem[v.base + p.1 * v.stride + p.2]? else none

/-- `Import::postSends`, 322-337, on the packed buffer. -/
def importSends (id : Nat) (c : Ctx) (nv : Nat) (buf : List V) : List (Msg V) :=
  (((List.range nv).flatMap fun vec => c.owned.map fun p => (p.1, makeTag id vec)).zip
    (subspans buf 0 ((List.range nv).flatMap fun _ => c.owned.map (·.2.length)))).map fun q => ⟨q.1.1, q.1.2, q.2⟩

/-- `Import::postRecvs`, 305-320. -/
def importRecvs (id : Nat) (c : Ctx) (nv : Nat) (v : View) : List Recv :=
  (List.range nv).flatMap fun vec => c.shared.map fun s => ⟨s.1, makeTag id vec, v.base + vec * v.stride + s.2.1, s.2.2⟩

/-- One completed receive on rank `me`; `sends src` are the messages sent by rank `src`. (matching of sends with receives by the MPI library, on which ImportExport.hpp 295-340 relies) -/
def deliver (sends : Nat → List (Msg V)) (me : Nat) (mem : List V) (r : Recv) : Option (List V) :=
  match (sends r.src).find? fun m => decide (m.dest = me ∧ m.tag = r.tag) with
  | none => none
  | some m => if m.data.length = r.size ∧ r.pos + r.size ≤ mem.length then some (writeAt mem r.pos m.data) else none

/-- Everything rank `b` sends in an import: size check of `setOwned` (280-285), packing, posting. -/
def importOut (id : Nat) (c : Ctx) (nv : Nat) (mem : List V) (v : View) : Option (List (Msg V)) :=
  if sufficient c.numOwned nv v then (packSends c nv mem v).map (importSends id c nv) else none

/-- An import as seen by rank `me`: size check of `setShared` (288-293), then its receives complete in the order `order`. -/
def importIn (sends : Nat → List (Msg V)) (me : Nat) (c : Ctx) (nv : Nat) (mem : List V) (v : View) (order : List Recv) : Option (List V) :=
  if sufficient c.numShared nv v ∧ ∀ s ∈ c.shared, s.2.1 + s.2.2 ≤ v.stride then order.foldlM (deliver sends me) mem else none

/-- `Export::postSends`, 417-433, with the size check of `setShared` (395-400). -/
def exportOut (id : Nat) (c : Ctx) (nv : Nat) (mem : List V) (v : View) : Option (List (Msg V)) :=
  if sufficient c.numShared nv v then
    ((List.range nv).flatMap fun vec => c.shared.map fun s => (vec, s)).mapM fun q =>
      (vecSpan mem v q.1 q.2.2.1 q.2.2.2).map fun d => ⟨q.2.1, makeTag id q.1, d⟩
  else none

/-- Running offsets. (ImportExport.hpp 142-144, 305-340) -/
def running : Nat → List Nat → List Nat
  | _, [] => []
  | ix, n :: ns => ix :: running (ix + n) ns

/-- `Export::postRecvs`, 402-415, into `m_pack_buf`. -/
def exportRecvs (id : Nat) (c : Ctx) (nv : Nat) : List Recv :=
  let sizes := (List.range nv).flatMap fun _ => c.owned.map (·.2.length)
  (((List.range nv).flatMap fun vec => c.owned.map fun p => (p.1, makeTag id vec)).zip ((running 0 sizes).zip sizes)).map
    fun q => ⟨q.1.1, q.1.2, q.2.1, q.2.2⟩

/-- One call of the combine functor in `unpack`, 447-461: task `(vec, i)`; `none` outside a span. -/
def unpackOne (f : V → V → V) (c : Ctx) (buf : List V) (v : View) (mem : List V) (t : Nat × Nat) : Option (List V) :=
  match c.ownedInds[t.2]?, buf[c.ownedInds.length * t.1 + t.2]? with
  | some l, some x =>
    if l < v.stride ∧ v.base + t.1 * v.stride + l < mem.length then some (mem.modify (v.base + t.1 * v.stride + l) (f · x)) else none
  | _, _ => none

/-- The tasks of `unpack`. (`unpack`, ImportExport.hpp 447-463) -/
def unpackTasks (c : Ctx) (nv : Nat) : List (Nat × Nat) :=
  (List.range nv).flatMap fun vec => (List.range c.ownedInds.length).map fun i => (vec, i)

/-- An export as seen by rank `me`: size check of `setOwned` (387-392), receives into the pack buffer complete in the order
`order`, then the (atomic) combine calls run in the order `tasks` (`wait`, 463-470). -/
def exportIn (f : V → V → V) (sends : Nat → List (Msg V)) (me : Nat) (c : Ctx) (nv : Nat) (mem buf : List V) (v : View)
    (order : List Recv) (tasks : List (Nat × Nat)) : Option (List V) :=
  if sufficient c.numOwned nv v then
    (order.foldlM (deliver sends me) buf).bind fun buf => tasks.foldlM (unpackOne f c buf v) mem
  else none

end Verif.ImpExp
