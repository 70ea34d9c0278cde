/-
Model of `ConstexprVector`, /repo/include/l3ster/util/ConstexprVector.hpp.

Memory is explicit: a block is an array of cells, each holding an object or raw storage; freed blocks stay
in the heap as `none`, so that an address is never used twice.  Constructing over a live object, destroying raw
storage, freeing a block that still holds objects, freeing with the wrong size and touching a freed block or a
null pointer all make the outcome `none`.  `none` therefore covers undefined behaviour and lost objects alike.

Simplifications: sizes are natural numbers (an allocation large enough to wrap `std::size_t` throws in
`std::allocator`), allocation succeeds, and the constructors of the element type do not throw.  Copy assignment
(lines 57-81) calls a member `create` which does not exist; it cannot be instantiated and is not modelled.
-/

namespace Verif.CVec

variable {α : Type}

/-- An allocated block: one entry per cell, `none` for raw storage. (ConstexprVector.hpp 158-160) -/
abbrev Block (α : Type) := List (Option α)

/-- All blocks ever allocated, by address; `none` once freed. (ConstexprVector.hpp 158-160, 163-186) -/
abbrev Heap (α : Type) := List (Option (Block α))

/-- `m_alloc.allocate(n)`, e.g. line 28: a new block of raw cells. -/
def alloc (h : Heap α) (n : Nat) : Heap α × Nat :=
  (h ++ [some (List.replicate n none)], h.length)

/-- Reading `m_data[i]`, lines 112-113: the cell must hold an object. -/
def read (h : Heap α) (p i : Nat) : Option α :=
  match h[p]? with
  | some (some b) =>
    match b[i]? with
    | some (some v) => some v
    | _ => none
  | _ => none

/-- `std::construct_at(m_data + i, v)`, lines 162-167. -/
def construct (h : Heap α) (p i : Nat) (v : α) : Option (Heap α) :=
  match h[p]? with
  | some (some b) =>
    match b[i]? with
    | some none => some (h.set p (some (b.set i (some v))))
    | _ => none
  | _ => none

/-- `std::destroy_at(m_data + i)`, line 168. -/
def destroy (h : Heap α) (p i : Nat) : Option (Heap α) :=
  match h[p]? with
  | some (some b) =>
    match b[i]? with
    | some (some _) => some (h.set p (some (b.set i none)))
    | _ => none
  | _ => none

/-- `m_data[i] = v` for an existing element, lines 112-113 used by the caller. -/
def assign (h : Heap α) (p i : Nat) (v : α) : Option (Heap α) :=
  match h[p]? with
  | some (some b) =>
    match b[i]? with
    | some (some _) => some (h.set p (some (b.set i (some v))))
    | _ => none
  | _ => none

/-- `m_alloc.deallocate(p, n)`, lines 179 and 185: `n` must be the allocated size, and no object may be left. -/
def dealloc (h : Heap α) (p n : Nat) : Option (Heap α) :=
  match h[p]? with
  | some (some b) =>
    if b.length = n ∧ b.all Option.isNone = true then some (h.set p none) else none
  | _ => none

/-- The constructing loops over given values, lines 30-31 and 41-43. -/
def constructAll (h : Heap α) (p i : Nat) : List α → Option (Heap α)
  | [] => some h
  | v :: vs => (construct h p i v).bind fun h' => constructAll h' p (i + 1) vs

/-- The loop of the copy constructor, lines 49-50. -/
def copyAll (h : Heap α) (src p i : Nat) : Nat → Option (Heap α)
  | 0 => some h
  | n + 1 => (read h src i).bind fun v => (construct h p i v).bind fun h' => copyAll h' src p (i + 1) n

/-- The loop of `clear`, lines 152-153. -/
def destroyAll (h : Heap α) (p i : Nat) : Nat → Option (Heap α)
  | 0 => some h
  | n + 1 => (destroy h p i).bind fun h' => destroyAll h' p (i + 1) n

/-- The loop of `reallocate`, lines 173-177: move an element over, destroy what is left of it. -/
def moveAll (h : Heap α) (old p i : Nat) : Nat → Option (Heap α)
  | 0 => some h
  | n + 1 =>
    (read h old i).bind fun v => (construct h p i v).bind fun h' =>
      (destroy h' old i).bind fun h'' => moveAll h'' old p (i + 1) n

/-- The members of a vector, lines 158-160; `data = none` is the null pointer. -/
structure Vec where
  data : Option Nat
  size : Nat
  cap : Nat
deriving DecidableEq, Repr

/-- A default constructed vector, lines 27 and 158-160, and what a move leaves behind, lines 53-55 and 90-92. -/
def Vec.empty : Vec := ⟨none, 0, 0⟩

/-- `clear`, lines 150-155, the heap part. -/
def clearHeap (h : Heap α) (v : Vec) : Option (Heap α) :=
  match v.data with
  | some p => destroyAll h p 0 v.size
  | none => if v.size = 0 then some h else none

/-- `deallocate`, lines 182-186. -/
def deallocHeap (h : Heap α) (v : Vec) : Option (Heap α) :=
  match v.data with
  | some p => dealloc h p v.cap
  | none => some h

/-- The destructor, lines 95-99. -/
def dtor (h : Heap α) (v : Vec) : Option (Heap α) :=
  (clearHeap h v).bind fun h' => deallocHeap h' v

/-- `reallocate`, lines 170-181; the loop does not run on a null pointer because the size is zero then. -/
def reallocate (h : Heap α) (v : Vec) (n : Nat) : Option (Heap α × Vec) :=
  match v.data with
  | some old =>
    (moveAll (alloc h n).1 old (alloc h n).2 0 v.size).bind fun h' =>
      (dealloc h' old v.cap).bind fun h'' => some (h'', ⟨some (alloc h n).2, v.size, n⟩)
  | none => if v.size = 0 then some ((alloc h n).1, ⟨some (alloc h n).2, v.size, n⟩) else none

/-- `grow`, lines 188-192. -/
def grow (h : Heap α) (v : Vec) : Option (Heap α × Vec) :=
  reallocate h v (if v.cap = 0 then 1 else 2 * v.cap)

/-- The first half of `emplaceBack`, lines 143-144. -/
def growIfFull (h : Heap α) (v : Vec) : Option (Heap α × Vec) :=
  if v.cap = v.size then grow h v else some (h, v)

/-- The second half of `emplaceBack`, lines 145-146. -/
def constructBack (h : Heap α) (v : Vec) (x : α) : Option (Heap α × Vec) :=
  match v.data with
  | some p => (construct h p v.size x).bind fun h' => some (h', ⟨v.data, v.size + 1, v.cap⟩)
  | none => none

/-- `emplaceBack(x)` with an argument that lives outside of all vectors, lines 139-147. -/
def pushVal (h : Heap α) (v : Vec) (x : α) : Option (Heap α × Vec) :=
  (growIfFull h v).bind fun hv => constructBack hv.1 hv.2 x

/-- `emplaceBack(q[k])`, lines 139-147: the argument is a reference to cell `k` of block `q`, which is read only
when the new element is constructed, after `grow`. -/
def pushRef (h : Heap α) (v : Vec) (q k : Nat) : Option (Heap α × Vec) :=
  (growIfFull h v).bind fun hv => (read hv.1 q k).bind fun x => constructBack hv.1 hv.2 x

/-- How many elements `emplaceBack` moves, lines 143-144 and 173-177. -/
def pushMoves (v : Vec) : Nat := if v.cap = v.size then v.size else 0

/-- The heap, the vectors of the program by number (`none` once destroyed), and how many elements were moved by
reallocations so far. (members ConstexprVector.hpp 158-160) -/
structure St (α : Type) where
  heap : Heap α
  vecs : List (Option Vec)
  moves : Nat

/-- What a program does with vectors.  Constructors give the new vector the next number. (ConstexprVector.hpp 27-155) -/
inductive Op (α : Type) where
  | default                       -- line 27
  | fill (n : Nat) (v : α)        -- lines 28-32
  | ofList (l : List α)           -- lines 38-44
  | copy (s : Nat)                -- lines 46-51
  | move (s : Nat)                -- lines 52-56
  | moveAssign (d s : Nat)        -- lines 82-94
  | destroy (s : Nat)             -- lines 95-99
  | reserve (s n : Nat)           -- lines 105-109
  | push (s : Nat) (v : α)        -- lines 134-147
  | pushOf (s d k : Nat)          -- lines 134-147, `s.pushBack(d[k])`
  | pop (s : Nat)                 -- line 149
  | clear (s : Nat)               -- lines 150-155
  | set (s k : Nat) (v : α)       -- lines 112-113

/-- A vector that has not been destroyed. (auxiliary; members ConstexprVector.hpp 158-160) -/
def St.vec (st : St α) (s : Nat) : Option Vec :=
  match st.vecs[s]? with
  | some (some v) => some v
  | _ => none

/-- Store the new members of vector `s`. (auxiliary; members ConstexprVector.hpp 158-160) -/
def St.put (st : St α) (s : Nat) (hv : Heap α × Vec) : St α :=
  ⟨hv.1, st.vecs.set s (some hv.2), st.moves⟩

/-- A constructor has made vector `v`. (auxiliary; members ConstexprVector.hpp 158-160) -/
def St.add (st : St α) (h : Heap α) (v : Vec) : St α := ⟨h, st.vecs ++ [some v], st.moves⟩

/-- Constructors from values, lines 28-44. -/
def ctorList (st : St α) (l : List α) : Option (St α) :=
  (constructAll (alloc st.heap l.length).1 (alloc st.heap l.length).2 0 l).bind fun h =>
    some (st.add h ⟨some (alloc st.heap l.length).2, l.length, l.length⟩)

/-- The copy constructor, lines 46-51. -/
def ctorCopy (st : St α) (v : Vec) : Option (St α) :=
  match v.data with
  | some q =>
    (copyAll (alloc st.heap v.size).1 q (alloc st.heap v.size).2 0 v.size).bind fun h =>
      some (st.add h ⟨some (alloc st.heap v.size).2, v.size, v.size⟩)
  | none =>
    if v.size = 0 then some (st.add (alloc st.heap 0).1 ⟨some (alloc st.heap 0).2, 0, 0⟩) else none

/-- Move assignment between different vectors, lines 87-93. -/
def assignMove (st : St α) (d s : Nat) (vd vs : Vec) : Option (St α) :=
  (dtor st.heap vd).bind fun h =>
    some ⟨h, (st.vecs.set d (some vs)).set s (some Vec.empty), st.moves⟩

/-- One operation. (ConstexprVector.hpp 27-155) -/
def step (st : St α) : Op α → Option (St α)
  | .default => some (st.add st.heap Vec.empty)
  | .fill n v => ctorList st (List.replicate n v)
  | .ofList l => ctorList st l
  | .copy s => (st.vec s).bind fun v => ctorCopy st v
  | .move s => (st.vec s).bind fun v =>
      some ⟨st.heap, st.vecs.set s (some Vec.empty) ++ [some v], st.moves⟩
  | .moveAssign d s => (st.vec d).bind fun vd => (st.vec s).bind fun vs =>
      if d = s then some st else assignMove st d s vd vs
  | .destroy s => (st.vec s).bind fun v => (dtor st.heap v).bind fun h =>
      some ⟨h, st.vecs.set s none, st.moves⟩
  | .reserve s n => (st.vec s).bind fun v =>
      if v.cap < n then
        (reallocate st.heap v n).bind fun hv =>
          some ⟨hv.1, st.vecs.set s (some hv.2), st.moves + v.size⟩
      else some st
  | .push s x => (st.vec s).bind fun v => (pushVal st.heap v x).bind fun hv =>
      some ⟨hv.1, st.vecs.set s (some hv.2), st.moves + pushMoves v⟩
  | .pushOf s d k => (st.vec s).bind fun v => (st.vec d).bind fun w => w.data.bind fun q =>
      (pushRef st.heap v q k).bind fun hv =>
        some ⟨hv.1, st.vecs.set s (some hv.2), st.moves + pushMoves v⟩
  | .pop s => (st.vec s).bind fun v => v.data.bind fun p =>
      if v.size = 0 then none
      else (CVec.destroy st.heap p (v.size - 1)).bind fun h => some (st.put s (h, ⟨v.data, v.size - 1, v.cap⟩))
  | .clear s => (st.vec s).bind fun v => (clearHeap st.heap v).bind fun h =>
      some (st.put s (h, ⟨v.data, 0, v.cap⟩))
  | .set s k x => (st.vec s).bind fun v => v.data.bind fun p =>
      (assign st.heap p k x).bind fun h => some (st.put s (h, v))

/-- A program. (calls of ConstexprVector.hpp 27-155) -/
def run (st : St α) : List (Op α) → Option (St α)
  | [] => some st
  | o :: os => (step st o).bind fun st' => run st' os

/-- No vectors and nothing allocated. (before any call of ConstexprVector.hpp 27-155) -/
def St.init : St α := ⟨[], [], 0⟩

/-- `v.size()` and `v[i]`, `v.front()`, `v.back()`, lines 102-117. -/
def St.size (st : St α) (s : Nat) : Option Nat := (st.vec s).map Vec.size
/-- `operator[]` (ConstexprVector.hpp 112-113). -/
def St.get (st : St α) (s k : Nat) : Option α :=
  (st.vec s).bind fun v => v.data.bind fun p => read st.heap p k

end Verif.CVec
