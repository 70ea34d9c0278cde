import Verif.CVec.Model

/-
Model of `ConstexprUniquePtr` and `ConstexprRefStableCollection`,
/repo/include/l3ster/util/ConstexprRefStableCollection.hpp.

The vector of block pointers is the model of `ConstexprVector` (Verif/CVec/Model.lean) with addresses of blocks as
elements; blocks live in a heap of their own, in which freed blocks stay as `none`.  Undefined behaviour is `none`.
-/

namespace Verif.RefStable

open Verif

variable {α : Type}

/-! ### Unique pointers, lines 10-49 -/

/-- Live objects by address, `none` once freed; the pointers of the program by number, `none` once destroyed. (10-40) -/
structure UState (α : Type) where
  objs : List (Option α)
  ptrs : List (Option (Option Nat))

/-- What a program may do with unique pointers: 15, 18-24, 34-36, 42-49. -/
inductive UOp (α : Type) where
  | null                     -- line 14
  | make (v : α)             -- `constexprMakeUnique`, lines 42-49
  | move (s : Nat)           -- line 18
  | moveAssign (d s : Nat)   -- lines 19-24
  | destroy (s : Nat)        -- lines 25-32

/-- Value of pointer number `s`: `get`, 36. -/
def UState.ptr (st : UState α) (s : Nat) : Option (Option Nat) :=
  match st.ptrs[s]? with
  | some (some p) => some p
  | _ => none

/-- `destroy_at` and `deallocate`, lines 29-30: the object must be alive. -/
def free (objs : List (Option α)) (p : Nat) : Option (List (Option α)) :=
  match objs[p]? with
  | some (some _) => some (objs.set p none)
  | _ => none

/-- The destructor, lines 25-32. -/
def ptrDtor (objs : List (Option α)) : Option Nat → Option (List (Option α))
  | some p => free objs p
  | none => some objs

/-- One operation on unique pointers.  Move assignment overwrites the target without freeing what it pointed to,
lines 21-22. -/
def ustep (st : UState α) : UOp α → Option (UState α)
  | .null => some ⟨st.objs, st.ptrs ++ [some none]⟩
  | .make v => some ⟨st.objs ++ [some v], st.ptrs ++ [some (some st.objs.length)]⟩
  | .move s => (st.ptr s).bind fun p => some ⟨st.objs, st.ptrs.set s (some none) ++ [some p]⟩
  | .moveAssign d s => (st.ptr d).bind fun _ => (st.ptr s).bind fun p =>
      if d = s then some st else some ⟨st.objs, (st.ptrs.set d (some p)).set s (some none)⟩
  | .destroy s => (st.ptr s).bind fun p => (ptrDtor st.objs p).bind fun o => some ⟨o, st.ptrs.set s none⟩

/-- A program using 10-49. -/
def urun (st : UState α) : List (UOp α) → Option (UState α)
  | [] => some st
  | o :: os => (ustep st o).bind fun st' => urun st' os

/-! ### The collection, lines 51-163 -/

/-- `m_blocks` (with the memory it uses), the blocks, and `m_size`, lines 161-162. -/
structure Coll (α : Type) where
  vheap : CVec.Heap Nat
  vec : CVec.Vec
  blocks : List (Option (List α))
  size : Nat

/-- An empty collection, line 110. -/
def Coll.empty : Coll α := ⟨[], CVec.Vec.empty, [], 0⟩

/-- Where element `pos` lives: `getInds`, line 59, and `m_blocks[block_ind]->operator[](el_pos)`, lines 112-116.
The result is the address of the block and the offset in it. -/
def Coll.addr (bs : Nat) (c : Coll α) (pos : Nat) : Option (Nat × Nat) :=
  c.vec.data.bind fun p => (CVec.read c.vheap p (pos / bs)).bind fun b => some (b, pos % bs)

/-- Reading through a reference. (`operator[]` and `operator*`, 82, 112-120) -/
def load (blocks : List (Option (List α))) (a : Nat × Nat) : Option α :=
  match blocks[a.1]? with
  | some (some b) => b[a.2]?
  | _ => none

/-- Writing through a reference. (`operator[]` and `operator*`, 82, 112-120) -/
def store (blocks : List (Option (List α))) (a : Nat × Nat) (v : α) : Option (List (Option (List α))) :=
  match blocks[a.1]? with
  | some (some b) => if a.2 < b.length then some (blocks.set a.1 (some (b.set a.2 v))) else none
  | _ => none

/-- `grow`, line 159: a new block of value-initialised elements, and its pointer at the end of `m_blocks`. -/
def Coll.grow (bs : Nat) (dflt : α) (c : Coll α) : Option (Coll α) :=
  (CVec.pushVal c.vheap c.vec c.blocks.length).bind fun hv =>
    some ⟨hv.1, hv.2, c.blocks ++ [some (List.replicate bs dflt)], c.size⟩

/-- Lines 143-145. -/
def Coll.growIfNeeded (bs : Nat) (dflt : α) (c : Coll α) : Option (Coll α) :=
  if c.vec.size ≤ c.size / bs then c.grow bs dflt else some c

/-- Lines 146-147. -/
def Coll.place (bs : Nat) (c : Coll α) (v : α) : Option (Coll α) :=
  (c.addr bs c.size).bind fun a => (store c.blocks a v).bind fun b => some ⟨c.vheap, c.vec, b, c.size + 1⟩

/-- `emplace` and `push` with a value from outside, lines 139-154. -/
def Coll.emplace (bs : Nat) (dflt : α) (c : Coll α) (v : α) : Option (Coll α) :=
  (c.growIfNeeded bs dflt).bind fun c' => c'.place bs v

/-- `emplace(c[k])`, lines 139-154: the reference is taken before, and read after, the collection has grown. -/
def Coll.emplaceOf (bs : Nat) (dflt : α) (c : Coll α) (k : Nat) : Option (Coll α) :=
  (c.addr bs k).bind fun a => (c.growIfNeeded bs dflt).bind fun c' =>
    (load c'.blocks a).bind fun v => c'.place bs v

/-- `c[k] = v`, lines 112-116. -/
def Coll.write (bs : Nat) (c : Coll α) (k : Nat) (v : α) : Option (Coll α) :=
  (c.addr bs k).bind fun a => (store c.blocks a v).bind fun b => some ⟨c.vheap, c.vec, b, c.size⟩

/-- `c[k]`, lines 112-120. -/
def Coll.get (bs : Nat) (c : Coll α) (k : Nat) : Option α := (c.addr bs k).bind fun a => load c.blocks a

/-- The destructors of the unique pointers in `m_blocks`. (25-32) -/
def freeAll (vh : CVec.Heap Nat) (p : Nat) (i : Nat) (blocks : List (Option (List α))) :
    Nat → Option (List (Option (List α)))
  | 0 => some blocks
  | n + 1 => (CVec.read vh p i).bind fun b => (free blocks b).bind fun blocks' => freeAll vh p (i + 1) blocks' n

/-- The destructor of the collection: that of `m_blocks`, line 161, which runs those of its elements. -/
def Coll.dtor (c : Coll α) : Option (CVec.Heap Nat × List (Option (List α))) :=
  match c.vec.data with
  | some p => (freeAll c.vheap p 0 c.blocks c.vec.size).bind fun b =>
      (CVec.dtor c.vheap c.vec).bind fun h => some (h, b)
  | none => (CVec.dtor c.vheap c.vec).bind fun h => some (h, c.blocks)

/-- The implicit move constructor of the collection: members are moved one by one, which empties `m_blocks` of the
source but leaves its `m_size`.  The result is what the source becomes. (implicitly declared; members 161-162) -/
def Coll.movedFrom (c : Coll α) : Coll α := ⟨c.vheap, CVec.Vec.empty, c.blocks, c.size⟩

/-- What a program may do with a collection: 112-116, 139-154. -/
inductive Op (α : Type) where
  | emplace (v : α)
  | emplaceOf (k : Nat)
  | write (k : Nat) (v : α)

/-- One operation: 112-116, 139-154. -/
def step (bs : Nat) (dflt : α) (c : Coll α) : Op α → Option (Coll α)
  | .emplace v => c.emplace bs dflt v
  | .emplaceOf k => c.emplaceOf bs dflt k
  | .write k v => c.write bs k v

/-- A program using 112-154. -/
def run (bs : Nat) (dflt : α) (c : Coll α) : List (Op α) → Option (Coll α)
  | [] => some c
  | o :: os => (step bs dflt c o).bind fun c' => run bs dflt c' os

/-! ### Iterators, lines 62-105 -/

/-- `m_blocks_begin` and `m_index`, lines 103-104. -/
structure It where
  base : Option Nat
  idx : Int
deriving DecidableEq, Repr

/-- `begin` and `end`, lines 126-131. -/
def Coll.begin (c : Coll α) : It := ⟨c.vec.data, 0⟩
/-- `end`, 129-131. -/
def Coll.end (c : Coll α) : It := ⟨c.vec.data, c.size⟩

/-- `operator[]`, lines 77-81; a negative index becomes huge as a `size_t`. -/
def It.at (bs : Nat) (c : Coll α) (it : It) (ind : Int) : Option α :=
  it.base.bind fun p =>
    if it.idx + ind < 0 then none
    else (CVec.read c.vheap p ((it.idx + ind).toNat / bs)).bind fun b =>
      load c.blocks (b, (it.idx + ind).toNat % bs)

/-- `operator*`, line 82. -/
def It.deref (bs : Nat) (c : Coll α) (it : It) : Option α := it.at bs c 0

/-- `operator+`, `operator-` with numbers and between iterators, lines 88, 94 and 100. -/
def It.plus (it : It) (i : Int) : It := ⟨it.base, it.idx + i⟩
/-- `operator-(difference_type)`, 94. -/
def It.minus (it : It) (i : Int) : It := it.plus (-i)
/-- `operator-(Iterator)`, 100. -/
def It.dist (a b : It) : Int := a.idx - b.idx

/-- Increments: the value of the expression and the iterator afterwards.  Prefix, lines 96 and 98. -/
def It.preInc (it : It) : It × It := (it.plus 1, it.plus 1)
/-- `operator--()`, 98: new state and result. -/
def It.preDec (it : It) : It × It := (it.plus (-1), it.plus (-1))

/-- Postfix, lines 97 and 99: `const`, returning `*this + 1` and `*this - 1`. -/
def It.postInc (it : It) : It × It := (it.plus 1, it)
/-- `operator--(int)`, 99. -/
def It.postDec (it : It) : It × It := (it.minus 1, it)

/-- `operator==` and `operator<=>`, lines 85-86. -/
def It.beq (a b : It) : Bool := a.idx == b.idx
/-- `operator<=>`, 86. -/
def It.cmp (a b : It) : Ordering := compare a.idx b.idx

/-- `for (it = begin; it != end; ++it)`: the elements seen, with at most `fuel` rounds. (range-for over 126-131 with 82, 85, 96) -/
def walk (bs : Nat) (c : Coll α) : Nat → It → Option (List α)
  | 0, it => if it.beq c.end then some [] else none
  | n + 1, it =>
    if it.beq c.end then some []
    else (it.deref bs c).bind fun v => (walk bs c n it.preInc.2).bind fun vs => some (v :: vs)

end Verif.RefStable
