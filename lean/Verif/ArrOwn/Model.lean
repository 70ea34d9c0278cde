import Mathlib.Logic.Function.Basic
import Mathlib.Order.Basic

/-
Model of `ArrayOwner`, /repo/include/l3ster/util/ArrayOwner.hpp.

A program has variables of this type, by number. Elements are of a scalar type: those not written yet are
indeterminate, and reading them is undefined. Allocations of more than `cap` elements throw. `over` says whether
the alignment of the element type exceeds `__STDCPP_DEFAULT_NEW_ALIGNMENT__`.
-/

namespace Verif.ArrOwn

/-- What comes of an operation: a result, an exception, or undefined behaviour. (`throwingAssert`, Assertion.hpp 88-95) -/
inductive Out (α : Type) where
  | ok (a : α)
  | throws
  | ub

/-- Sequencing: exceptions and undefined behaviour end an operation. (Assertion.hpp 88-95) -/
def Out.bind {α β : Type} : Out α → (α → Out β) → Out β
  | .ok a, f => f a
  | .throws, _ => .throws
  | .ub, _ => .ub

variable {T : Type}

/-- `m_size` and `m_data`, ArrayOwner.hpp 76-77: null, or the storage and whether it was allocated with an explicit alignment (28). -/
structure Arr (T : Type) where
  size : Nat
  data : Option (Bool × List (Option T))

/-- New storage: `make_unique_for_overwrite`, ArrayOwner.hpp 27, `new(align) T[size]`, 28. -/
def alloc (cap : Nat) (al : Bool) (n : Nat) : Out (Arr T) := if cap < n then .throws else .ok ⟨n, some (al, List.replicate n none)⟩

/-- Storage filled from a range: ArrayOwner.hpp 84-91, 93-100, 35-40. -/
def ofList (cap : Nat) (l : List T) : Out (Arr T) := if cap < l.length then .throws else .ok ⟨l.length, some (false, l.map some)⟩

/-- The same from a single-pass range, which `std::ranges::range` (ArrayOwner.hpp 30, 85) admits: `std::ranges::distance` (88) goes through it, nothing is left to be copied (90). -/
def ofInput (cap : Nat) (l : List T) : Out (Arr T) := alloc cap false l.length

/-- Reading element `i`: `m_data[i]`, ArrayOwner.hpp 50-51. -/
def cell (a : Arr T) (i : Nat) : Out T :=
  match a.data with
  | some (_, l) =>
    match l[i]? with
    | some (some v) => .ok v
    | _ => .ub
  | none => .ub

/-- Writing element `i`: `m_data[i] = v`, ArrayOwner.hpp 50. -/
def setCell (a : Arr T) (i : Nat) (v : T) : Out (Arr T) :=
  match a.data with
  | some (al, l) => if i < l.length then .ok ⟨a.size, some (al, l.set i (some v))⟩ else .ub
  | none => .ub

/-- Reading the elements with the given indices. (ArrayOwner.hpp 42-51) -/
def cells (a : Arr T) : List Nat → Out (List T)
  | [] => .ok []
  | i :: is => (cell a i).bind fun v => (cells a is).bind fun l => .ok (v :: l)

/-- Iterating from `begin()` to `end()`, ArrayOwner.hpp 42-47. -/
def elems (a : Arr T) : Out (List T) := cells a (List.range a.size)

/-- `delete[]` of `unique_ptr< T[] >`, ArrayOwner.hpp 77: memory from `new(align)` has to be freed by the deallocation function with an alignment, which `delete[]` calls for over-aligned types only. -/
def release (over : Bool) (a : Arr T) : Out Unit :=
  match a.data with
  | some (true, _) => if over then .ok () else .ub
  | _ => .ok ()

/-- The loop of `std::ranges::equal`, ArrayOwner.hpp 73, over arrays of the same size. -/
def eqFrom [DecidableEq T] (a b : Arr T) (i : Nat) : Nat → Out Bool
  | 0 => .ok true
  | n + 1 => (cell a i).bind fun x => (cell b i).bind fun y => if x = y then eqFrom a b (i + 1) n else .ok false

/-- The loop of `std::lexicographical_compare_three_way`, ArrayOwner.hpp 71. -/
def cmpFrom [LinearOrder T] (a b : Arr T) (i : Nat) : Nat → Out Ordering
  | 0 => .ok (if i < b.size then .lt else .eq)
  | n + 1 =>
    if i < b.size then
      (cell a i).bind fun x => (cell b i).bind fun y => if x < y then .ok .lt else if y < x then .ok .gt else cmpFrom a b (i + 1) n
    else .ok .gt

/-- What a program may do with arrays. (ArrayOwner.hpp 26-73) -/
inductive Op (T : Type) where
  | mk (d : Nat)                       -- 26
  | sized (d n : Nat)                  -- 27
  | aligned (d n : Nat)                -- 28-29
  | fill (d n : Nat) (v : T)           -- 35
  | range (d : Nat) (l : List T)       -- 30-34, 36-40
  | input (d : Nat) (l : List T)       -- 30-32 with a single-pass range, as of `std::views::istream`
  | copy (d s : Nat)                   -- 30-32 with an array as the range; `copy`, 102-107
  | move (d s : Nat)                   -- implicit move constructor
  | moveAssign (d s : Nat)             -- implicit move assignment
  | assign (d : Nat) (l : List T)      -- assignment of a range: conversion 30-32, then the implicit move assignment
  | size (s : Nat)                     -- 66
  | empty (s : Nat)                    -- 67
  | at (s i : Nat)                     -- 52-61
  | setAt (s i : Nat) (v : T)          -- 52-56
  | read (s i : Nat)                   -- 50-51
  | write (s i : Nat) (v : T)          -- 50
  | front (s : Nat)                    -- 62-63
  | back (s : Nat)                     -- 64-65
  | list (s : Nat)                     -- 42-47
  | eq (s t : Nat)                     -- 73
  | cmp (s t : Nat)                    -- 69-72
  | destroy (s : Nat)

/-- What an operation returns. (ArrayOwner.hpp 42-73) -/
inductive Val (T : Type) where
  | unit
  | nat (n : Nat)
  | bool (b : Bool)
  | val (v : T)
  | list (l : List T)
  | ord (o : Ordering)

/-- The arrays of a program. (ArrayOwner.hpp 18-78) -/
abbrev Store (T : Type) := Nat → Option (Arr T)

/-- A living array. (ArrayOwner.hpp 18-78) -/
def get (st : Store T) (s : Nat) : Out (Arr T) :=
  match st s with
  | some a => .ok a
  | none => .ub

/-- A new array in a variable that holds none. (ArrayOwner.hpp 26-40) -/
def construct (st : Store T) (d : Nat) (r : Out (Arr T)) : Out (Store T × Val T) :=
  match st d with
  | some _ => .ub
  | none => r.bind fun a => .ok (Function.update st d (some a), .unit)

/-- One operation. The implicit moves copy `m_size` and leave it in the source, whose `m_data` becomes null (ArrayOwner.hpp 76-77; no special member is declared, 26-40). -/
def step [LinearOrder T] (cap : Nat) (over : Bool) (st : Store T) : Op T → Out (Store T × Val T)
  | .mk d => construct st d (.ok ⟨0, none⟩)
  | .sized d n => construct st d (alloc cap false n)
  | .aligned d n => construct st d (alloc cap true n)
  | .fill d n v => construct st d (ofList cap (List.replicate n v))
  | .range d l => construct st d (ofList cap l)
  | .input d l => construct st d (ofInput cap l)
  | .copy d s => (get st s).bind fun a => (elems a).bind fun l => construct st d (ofList cap l)
  | .move d s => (get st s).bind fun a => (construct st d (.ok a)).bind fun r => .ok (Function.update r.1 s (some ⟨a.size, none⟩), .unit)
  | .moveAssign d s => (get st d).bind fun b => (get st s).bind fun a =>
      if d = s then .ok (st, .unit)
      else (release over b).bind fun _ => .ok (Function.update (Function.update st d (some a)) s (some ⟨a.size, none⟩), .unit)
  | .assign d l => (get st d).bind fun b => (ofList cap l).bind fun a => (release over b).bind fun _ => .ok (Function.update st d (some a), .unit)
  | .size s => (get st s).bind fun a => .ok (st, .nat a.size)
  | .empty s => (get st s).bind fun a => .ok (st, .bool (a.size == 0))
  | .at s i => (get st s).bind fun a => if i < a.size then (cell a i).bind fun v => .ok (st, .val v) else .throws
  | .setAt s i v => (get st s).bind fun a => if i < a.size then (setCell a i v).bind fun b => .ok (Function.update st s (some b), .unit) else .throws
  | .read s i => (get st s).bind fun a => (cell a i).bind fun v => .ok (st, .val v)
  | .write s i v => (get st s).bind fun a => (setCell a i v).bind fun b => .ok (Function.update st s (some b), .unit)
  | .front s => (get st s).bind fun a => (cell a 0).bind fun v => .ok (st, .val v)
  | .back s => (get st s).bind fun a => (cell a ((a.size + (2 ^ 64 - 1)) % 2 ^ 64)).bind fun v => .ok (st, .val v)
  | .list s => (get st s).bind fun a => (elems a).bind fun l => .ok (st, .list l)
  | .eq s t => (get st s).bind fun a => (get st t).bind fun b =>
      if a.size = b.size then (eqFrom a b 0 a.size).bind fun r => .ok (st, .bool r) else .ok (st, .bool false)
  | .cmp s t => (get st s).bind fun a => (get st t).bind fun b => (cmpFrom a b 0 a.size).bind fun r => .ok (st, .ord r)
  | .destroy s => (get st s).bind fun a => (release over a).bind fun _ => .ok (Function.update st s none, .unit)

/-- A program: what each operation returned (`none`: it threw, and the program went on) and the arrays at the end; `none` if an operation was undefined. (ArrayOwner.hpp 18-78) -/
def run [LinearOrder T] (cap : Nat) (over : Bool) (st : Store T) : List (Op T) → Option (Store T × List (Option (Val T)))
  | [] => some (st, [])
  | o :: os =>
    match step cap over st o with
    | .ok (st', v) => (run cap over st' os).map fun r => (r.1, some v :: r.2)
    | .throws => (run cap over st os).map fun r => (r.1, none :: r.2)
    | .ub => none

end Verif.ArrOwn
