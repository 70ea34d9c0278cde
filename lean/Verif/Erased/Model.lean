/-!
# Model of `TypeErasedOverload`

Source: `/repo/include/l3ster/util/TypeErasedOverload.hpp`, lines 14-217.

A *target* is a callable object; targets get numbers in the order they come into being, so "destroyed
exactly once" can be stated per object.  A *slot* is a `TypeErasedOverload` object.  `none` =
undefined behaviour in the class (destroying/moving/invoking a target that is not alive, reading the
buffer as the wrong kind of thing).  The value of a target stands for its behaviour when invoked.
-/
namespace Verif.Erased

variable {V : Type}

/-- `SsoCapableTypeErasedFun_c`, lines 17-18. -/
inductive Kind | sso | heap
  deriving DecidableEq, Repr

/-- `m_target_buf` (line 114): nothing meaningful, a target inside the buffer, or a pointer. -/
inductive Buf | raw | inl (id : Nat) | ptr (p : Option Nat)
  deriving DecidableEq, Repr

/-- `m_special_members` (its instantiation determines `Kind`) and the buffer. (TypeErasedOverload.hpp 117-118) -/
structure Slot where
  special : Option Kind
  buf : Buf
  deriving DecidableEq, Repr

/-- `alive id`: `some (some v)` alive with behaviour `v`, `some none` alive but moved from, `none` not alive.
`count id`: how often its destructor has run. (TypeErasedOverload.hpp 117-118) -/
structure World (V : Type) where
  next : Nat
  alive : Nat → Option (Option V)
  count : Nat → Nat
  slots : Nat → Option Slot

/-- Auxiliary for TypeErasedOverload.hpp 117-118: change of one entry. -/
def upd {α : Type} (f : Nat → α) (k : Nat) (v : α) : Nat → α := fun x => if x = k then v else f x

/-- A new target. (TypeErasedOverload.hpp 150-162, 176) -/
def World.alloc (w : World V) (v : Option V) : Nat × World V :=
  (w.next, { w with next := w.next + 1, alive := upd w.alive w.next (some v) })

/-- Run a target's destructor. (TypeErasedOverload.hpp 184-189) -/
def World.kill (w : World V) (id : Nat) : Option (World V) :=
  match w.alive id with
  | none => none
  | some _ => some { w with alive := upd w.alive id none, count := upd w.count id (w.count id + 1) }

/-- `dtorImpl` (205-210) with the `Destroy` branch of `makeSpecialMemberImpl` (182-189). -/
def dtorImpl (s : Slot) (w : World V) : Option (World V) :=
  match s.special, s.buf with
  | none, _ => some w
  | some .sso, .inl id => w.kill id
  | some .heap, .ptr none => some w           -- delete nullptr
  | some .heap, .ptr (some id) => w.kill id
  | some _, _ => none

/-- `moveImpl` (194-203) with the `Move` branch (168-180): new contents of the two slots. -/
def moveImpl (self other : Slot) (w : World V) : Option (Slot × Slot × World V) :=
  match other.special, other.buf with
  | none, _ => some ({ self with special := none }, other, w)
  | some .sso, .inl id =>
    match w.alive id with
    | none => none
    | some v =>
      let (nid, w') := w.alloc v
      some (⟨some .sso, .inl nid⟩, other, { w' with alive := upd w'.alive id (some none) })
  | some .heap, .ptr p => some (⟨some .heap, .ptr p⟩, { other with buf := .ptr none }, w)
  | some _, _ => none

/-- What a program does with its overload objects. (TypeErasedOverload.hpp 101-114) -/
inductive Op (V : Type)
  | mkEmpty (i : Nat)
  | mk (i : Nat) (k : Kind) (v : V)
  | moveCtor (dst src : Nat)
  | moveAssign (dst src : Nat)
  | destroy (i : Nat)

/-- Auxiliary for TypeErasedOverload.hpp 117-118: an object comes into being, changes or disappears. -/
def World.setSlot (w : World V) (i : Nat) (s : Option Slot) : World V := { w with slots := upd w.slots i s }

/-- Constructor from a callable, 121-131 and `initTarget`, 150-162. -/
def mkSlot (k : Kind) (v : V) (w : World V) : Slot × World V :=
  let (id, w') := w.alloc (some v)
  (match k with | .sso => ⟨some .sso, .inl id⟩ | .heap => ⟨some .heap, .ptr (some id)⟩, w')

/-- Outcome of one operation: client error (object not alive, storage in use), undefined behaviour
inside the class, or the next state. (auxiliary; no line of the code) -/
inductive Out (α : Type) | misuse | ub | ok (a : α)

/-- Auxiliary; no line of the code. -/
def Out.ofOption {α : Type} : Option α → Out α
  | none => .ub
  | some a => .ok a

/-- Move assignment, 139-148 (after the self check): `dtorImpl` then `moveImpl`. -/
def assignImpl (d s : Slot) (w : World V) : Option (Slot × Slot × World V) :=
  (dtorImpl d w).bind (moveImpl d s)

/-- One operation (TypeErasedOverload.hpp 101-111, 121-148). -/
def step (w : World V) : Op V → Out (World V)
  | .mkEmpty i => match w.slots i with
    | some _ => .misuse
    | none => .ok (w.setSlot i (some ⟨none, .raw⟩))
  | .mk i k v => match w.slots i with
    | some _ => .misuse
    | none => .ok ((mkSlot k v w).2.setSlot i (some (mkSlot k v w).1))
  | .moveCtor dst src => match w.slots dst, w.slots src with
    | none, some s => .ofOption ((moveImpl ⟨none, .raw⟩ s w).map fun r =>
        (r.2.2.setSlot src (some r.2.1)).setSlot dst (some r.1))
    | _, _ => .misuse
  | .moveAssign dst src => match w.slots dst, w.slots src with
    | some d, some s => if dst = src then .ok w else
        .ofOption ((assignImpl d s w).map fun r => (r.2.2.setSlot src (some r.2.1)).setSlot dst (some r.1))
    | _, _ => .misuse
  | .destroy i => match w.slots i with
    | none => .misuse
    | some s => .ofOption ((dtorImpl s w).map fun w' => w'.setSlot i none)

/-- A program using the class (TypeErasedOverload.hpp 77-119). -/
def run (w : World V) : List (Op V) → Out (World V)
  | [] => .ok w
  | op :: ops => match step w op with
    | .ok w' => run w' ops
    | .misuse => .misuse
    | .ub => .ub

/-- The start of a program using the class (TypeErasedOverload.hpp 77-119): no objects. -/
def World.init : World V := ⟨0, fun _ => none, fun _ => 0, fun _ => none⟩

/-- `operator bool`, line 113. -/
def Slot.toBool (s : Slot) : Bool := s.special.isSome

/-- Invocation (`TypeErasedInvoker::operator()`, 51-55 and 44-48): `none` = undefined behaviour, inner
`none` = the callable was moved from. -/
def invoke (w : World V) (s : Slot) : Option (Option V) :=
  match s.special, s.buf with
  | some .sso, .inl id => w.alive id
  | some .heap, .ptr (some id) => w.alive id
  | _, _ => none

end Verif.Erased
