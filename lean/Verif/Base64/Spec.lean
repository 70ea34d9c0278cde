import Verif.Common.Bytes

/-!
# Independent specification: RFC 4648 base64 decoding

Written from the RFC, using arithmetic on character codes; shares nothing with the model.
-/
namespace Verif.Base64.Spec

/-- Value of an alphabet character (RFC 4648, table 1). -/
def value (c : Byte) : Option Nat :=
  let n := c.toNat
  if 65 ≤ n ∧ n ≤ 90 then some (n - 65)
  else if 97 ≤ n ∧ n ≤ 122 then some (n - 97 + 26)
  else if 48 ≤ n ∧ n ≤ 57 then some (n - 48 + 52)
  else if n = 43 then some 62
  else if n = 47 then some 63
  else none

/-- The three bytes of a 24-bit group given by four 6-bit values. -/
def bytesOf (v0 v1 v2 v3 : Nat) : List Byte :=
  let g := ((v0 * 64 + v1) * 64 + v2) * 64 + v3
  [BitVec.ofNat 8 (g / 65536), BitVec.ofNat 8 (g / 256), BitVec.ofNat 8 g]

/-- RFC 4648 decoding: groups of four characters; `=` only as one or two trailing
characters of the last group, and then the unused bits must be zero. -/
def decode : List Byte → Option (List Byte)
  | [] => some []
  | a :: b :: c :: d :: rest => do
    let v0 ← value a
    let v1 ← value b
    if c.toNat = 61 then
      if d.toNat = 61 ∧ rest = [] ∧ v1 % 16 = 0 then return (bytesOf v0 v1 0 0).take 1 else none
    else
      let v2 ← value c
      if d.toNat = 61 then
        if rest = [] ∧ v2 % 4 = 0 then return (bytesOf v0 v1 v2 0).take 2 else none
      else
        let v3 ← value d
        let tail ← decode rest
        return bytesOf v0 v1 v2 v3 ++ tail
  | _ => none

end Verif.Base64.Spec
