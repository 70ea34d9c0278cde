import Verif.Common.Bytes
/-!
# Model of the binary (de)serialiser

Source: `/repo/include/l3ster/util/Serialization.hpp`, lines 12-133.

The serialisable types are generated from trivially copyable objects of `n` bytes (`raw n`),
ranges (`seq`) and tuple-likes (`pair`/`unit`; an `n`-ary tuple is a nested pair, which has the
same bytes because components are written one after the other).  `sizeof(size_t) = 8`,
little-endian.  A failed assertion is `none`.
-/
namespace Verif.Ser

/-- Shapes of serialisable types. (the three specialisations, Serialization.hpp 20-65, 74-122) -/
inductive Ty where
  | raw (n : Nat)
  | seq (t : Ty)
  | pair (a b : Ty)
  | unit
deriving DecidableEq, Repr

/-- Values of a shape; a trivially copyable object is its object representation. (Serialization.hpp 20-65) -/
def Ty.Val : Ty → Type
  | .raw n => { l : List Byte // l.length = n }
  | .seq t => List t.Val
  | .pair a b => a.Val × b.Val
  | .unit => Unit

/-- A serialiser/deserialiser pair for a C++ type; `des` returns the value and the unread rest of
the input.  `Fits` collects the size limits met by every object in memory. (`Serializer` 12-65 and `Deserializer` 66-122 of Serialization.hpp) -/
structure Codec (α : Type) where
  ser : α → List Byte
  des : List Byte → Option (α × List Byte)
  Fits : α → Prop

/-- Trivially copyable objects of `n` bytes: lines 20-29 and 74-87. -/
def rawCodec (n : Nat) : Codec { l : List Byte // l.length = n } where
  ser v := v.1
  des s := if h : n ≤ s.length then some (⟨s.take n, by simp [h]⟩, s.drop n) else none
  Fits _ := True

/-- Unsigned integers of `n` bytes (a trivially copyable type with its value). (Serialization.hpp 20-29, 74-87) -/
def uintCodec (n : Nat) : Codec Nat where
  ser v := leBytes n v
  des s := if n ≤ s.length then some (ofLe (s.take n), s.drop n) else none
  Fits v := v < 256 ^ n

/-- Loop of the range deserialiser (101-103): `size` successive element reads. -/
def desSeq {α} (f : List Byte → Option (α × List Byte)) : Nat → List Byte → Option (List α × List Byte)
  | 0, s => some ([], s)
  | n + 1, s => match f s with
    | none => none
    | some (x, s') => match desSeq f n s' with
      | none => none
      | some (xs, s'') => some (x :: xs, s'')

/-- Ranges: an 8-byte length and the elements, lines 31-46 and 89-105. -/
def seqCodec {α} (c : Codec α) : Codec (List α) where
  ser v := leBytes 8 v.length ++ (v.map c.ser).flatten
  des s := if 8 ≤ s.length then desSeq c.des (ofLe (s.take 8)) (s.drop 8) else none
  Fits v := v.length < 2 ^ 64 ∧ ∀ x ∈ v, c.Fits x

/-- Tuples, component by component: lines 48-64 and 107-121. -/
def pairCodec {α β} (c : Codec α) (d : Codec β) : Codec (α × β) where
  ser v := c.ser v.1 ++ d.ser v.2
  des s := match c.des s with
    | none => none
    | some (x, s') => match d.des s' with
      | none => none
      | some (y, s'') => some ((x, y), s'')
  Fits v := c.Fits v.1 ∧ d.Fits v.2

/-- The empty tuple. (the empty tuple, Serialization.hpp 48-65, 107-122) -/
def unitCodec : Codec Unit where
  ser _ := []
  des s := some ((), s)
  Fits _ := True

/-- Overload resolution of `Serializer<T>`/`Deserializer<T>` by the shape of `T`. (Serialization.hpp 20-122) -/
def Ty.codec : (t : Ty) → Codec t.Val
  | .raw n => rawCodec n
  | .seq t => seqCodec t.codec
  | .pair a b => pairCodec a.codec b.codec
  | .unit => unitCodec

/-- `serialize` (123-127). -/
def serialize (t : Ty) (v : t.Val) : List Byte := t.codec.ser v

/-- `deserialize` (129-133): trailing bytes are ignored. -/
def deserialize (t : Ty) (s : List Byte) : Option t.Val := (t.codec.des s).map (·.1)

end Verif.Ser
