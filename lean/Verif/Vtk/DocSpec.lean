import Verif.Base64.Spec
/-!
# Specification: a reader of VTK XML files

`attributes` lists the `name="value"` pairs of a text in order; `value` reads a decimal number;
`readArray` reads an uncompressed base64 array of appended data: an 8-byte size and that many bytes,
encoded together.
-/
namespace Verif.Vtk.Spec
open Verif

/-- Put a character in front of the first piece. -/
def consHead (c : Byte) : List (List Byte) → List (List Byte)
  | [] => [[c]]
  | h :: t => (c :: h) :: t

/-- The pieces of a text between quotation marks. -/
def splitQuotes : List Byte → List (List Byte)
  | [] => [[]]
  | c :: r => if c = 34#8 then [] :: splitQuotes r else consHead c (splitQuotes r)

/-- The word in front of the final `=`. -/
def attrName (o : List Byte) : List Byte := ((o.reverse.drop 1).takeWhile fun c => c ≠ 32#8).reverse

/-- Pieces outside and inside quotation marks alternate. -/
def pairUp : List (List Byte) → List (List Byte × List Byte)
  | o :: v :: r => (attrName o, v) :: pairUp r
  | _ => []

/-- All attributes of a text in order. -/
def attributes (text : List Byte) : List (List Byte × List Byte) := pairUp (splitQuotes text)

/-- Values of the attributes called `key`. -/
def valuesOf (key : List Byte) (text : List Byte) : List (List Byte) :=
  ((attributes text).filter fun a => a.1 = key).map Prod.snd

/-- Value of a decimal number. -/
def number (digits : List Byte) : Nat := digits.foldl (fun a c => 10 * a + (c.toNat - 48)) 0

/-- Read one array of the appended data section. -/
def readArray (text : List Byte) : Option (List Byte) :=
  match Base64.Spec.decode (text.take 12) with
  | none => none
  | some h => (Base64.Spec.decode (text.take ((8 + ofLe (h.take 8) + 2) / 3 * 4))).map (List.drop 8)

end Verif.Vtk.Spec
