import Verif.Own.Model
import Verif.IntCast.Model

/-!
# Model of nodal field storage

Sources: `/repo/include/l3ster/post/SolutionManager.hpp` 15-150,
`/repo/include/l3ster/post/FieldAccess.hpp` 9-56.

One allocation holds all fields, field by field.  An access outside the allocation (or forming a
span that reaches outside) is the distinct outcome `ub`; an exception is `throws`.  The kernel
overload of `setFields` is in area NodeVals; here it is a sequence of raw-view writes.
-/
namespace Verif.Fields
open Verif Verif.Own

/-- auxiliary; exceptions SolutionManager.hpp 127, 141 -/
inductive Out (α : Type) where
  | ok (a : α)
  | throws
  | ub
  deriving DecidableEq, Repr

/-- Auxiliary: sequencing of outcomes (exceptions SolutionManager.hpp 127, 141). -/
def Out.bind {α β : Type} : Out α → (α → Out β) → Out β
  | .ok a, f => f a
  | .throws, _ => .throws
  | .ub, _ => .ub

/-- `m_node_ownership`, `m_n_fields`, `m_nodal_values` (49-53); `m_n_nodes` is the ownership's local
size (constructor, 55-61). -/
structure Sol (V : Type) where
  own : SegOwn
  nFields : Nat
  data : List V

/-- SolutionManager.hpp 19, 56 -/
def Sol.nNodes {V : Type} (s : Sol V) : Nat := s.own.localSize

/-- Constructor, 55-61. -/
def new {V : Type} (own : SegOwn) (nFields : Nat) (init : V) : Sol V :=
  ⟨own, nFields, List.replicate (own.localSize * nFields) init⟩

/-- `m_data[i]` for reading. (SolutionManager.hpp 70, 79; FieldAccess.hpp 29) -/
def load {V : Type} (data : List V) (i : Nat) : Out V :=
  match data[i]? with
  | some v => .ok v
  | none => .ub

/-- `m_data[i] = v`. (SolutionManager.hpp 88-96) -/
def store {V : Type} (data : List V) (i : Nat) (v : V) : Out (List V) :=
  if i < data.length then .ok (data.set i v) else .ub

/-- `getFieldView`, 83-91: the first position of the span (its length is `nNodes`); `ub` when the
span leaves the allocation.  The index is not checked by the code. -/
def fieldView {V : Type} (s : Sol V) (f : Nat) : Out Nat :=
  if f * s.nNodes + s.nNodes ≤ s.data.length then .ok (f * s.nNodes) else .ub

/-- `std::ranges::fill` on a span. (SolutionManager.hpp 103-107) -/
def fill {V : Type} (v : V) (start : Nat) : Nat → List V → List V
  | 0, d => d
  | k + 1, d => fill v (start + 1) k (d.set start v)

/-- Body of the loop in `setFields(inds, value)`, 103-107. -/
def setField {V : Type} (v : V) (s : Sol V) (f : Nat) : Out (Sol V) :=
  (fieldView s f).bind fun p => .ok { s with data := fill v p s.nNodes s.data }

/-- `setFields(inds, value)`, 103-107. -/
def setFields {V : Type} (v : V) : List Nat → Sol V → Out (Sol V)
  | [], s => .ok s
  | f :: fs, s => (setField v s f).bind (setFields v fs)

/-- `getFieldView(f)[n] = v`; indexing a span outside its extent is undefined. (SolutionManager.hpp 88-91) -/
def viewWrite {V : Type} (s : Sol V) (f n : Nat) (v : V) : Out (Sol V) :=
  if n < s.nNodes then
    (fieldView s f).bind fun p => (store s.data (p + n) v).bind fun d => .ok { s with data := d }
  else .ub

/-- `getRawView()(n, f) = v` (93-101): `LayoutLeft`, so the node index runs fastest; indices outside
the view's extents are undefined. -/
def rawWrite {V : Type} (s : Sol V) (n f : Nat) (v : V) : Out (Sol V) :=
  if n < s.nNodes ∧ f < s.nFields then
    (store s.data (n + f * s.nNodes) v).bind fun d => .ok { s with data := d }
  else .ub

/-- What a program does to the fields. (SolutionManager.hpp 20-33) -/
inductive Op (V : Type) where
  | const (fs : List Nat) (v : V)
  | view (f n : Nat) (v : V)
  | raw (n f : Nat) (v : V)

/-- SolutionManager.hpp 20-33, 88-119 -/
def step {V : Type} (s : Sol V) : Op V → Out (Sol V)
  | .const fs v => setFields v fs s
  | .view f n v => viewWrite s f n v
  | .raw n f v => rawWrite s n f v

/-- SolutionManager.hpp 20-33, 88-119 -/
def run {V : Type} : List (Op V) → Sol V → Out (Sol V)
  | [], s => .ok s
  | o :: os, s => (step s o).bind (run os)

/-- `getFieldView(f)[n]`. (SolutionManager.hpp 83-86) -/
def viewRead {V : Type} (s : Sol V) (f n : Nat) : Out V :=
  if n < s.nNodes then (fieldView s f).bind fun p => load s.data (p + n) else .ub

/-- `getNodeValuesLocal`, 73-81, one field. -/
def nodeValueLocal {V : Type} (s : Sol V) (n f : Nat) : Out V := viewRead s f n

/-- `getNodeValuesGlobal`, 63-71, one field. -/
def nodeValueGlobal {V : Type} (s : Sol V) (g f : Nat) : Out V := viewRead s f (s.own.getLocal g)

/-- `getRawView()(n, f)`. (SolutionManager.hpp 98-101) -/
def rawRead {V : Type} (s : Sol V) (n f : Nat) : Out V :=
  if n < s.nNodes ∧ f < s.nFields then load s.data (n + f * s.nNodes) else .ub

/-- `std::uint32_t`. -/
def u32 : IntCast.IntTy := ⟨false, 32⟩

/-- The index conversion of `getFieldAccess`, 123-131. -/
def castIndex (src : IntCast.IntTy) (f : Int) : Out Nat :=
  match IntCast.exactCast src u32 f with
  | some i => .ok i.toNat
  | none => .throws

/-- `FieldAccess::fill`, FieldAccess.hpp 21-30, one entry: the stride is the ownership's local size. -/
def accessRead {V : Type} (s : Sol V) (f n : Nat) : Out V := load s.data (n + f * s.own.localSize)

/-- `getFieldAccess({f}).getLocallyIndexed({n})`; FieldAccess.hpp 32-39. -/
def accessLocal {V : Type} (src : IntCast.IntTy) (s : Sol V) (f : Int) (n : Nat) : Out V :=
  (castIndex src f).bind fun f => accessRead s f n

/-- `getFieldAccess({f}).getGloballyIndexed({g})`; FieldAccess.hpp 40-47. -/
def accessGlobal {V : Type} (src : IntCast.IntTy) (s : Sol V) (f : Int) (g : Nat) : Out V :=
  (castIndex src f).bind fun f => accessRead s f (s.own.getLocal g)

/-- `makeFieldValueGetter(Indices&&)`, 140-149: the indices are copied into an array of
`std::uint32_t` (a narrowing conversion, modulo 2^32) before the checked cast sees them. -/
def getterLocal {V : Type} (s : Sol V) (f n : Nat) : Out V := accessLocal u32 s ((f % 2 ^ 32 : Nat) : Int) n

end Verif.Fields
