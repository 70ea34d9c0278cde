import Verif.Common.Bytes

/-!
# Model of `util/Base64.hpp`

Text and data are lists of bytes.  The moving output pointer `out` of the C++ code is
modelled by returning the list of characters written; the number of processed bytes is
returned alongside where the code returns it.
-/
namespace Verif.Base64

/-- `conversion_table`, include/l3ster/util/Base64.hpp:20-28: three `iota` fills
(`'A'` on [0,26), `'a'` on [26,52), `'0'` on [52,62)) and two single stores. -/
def convTable : Vector Byte 64 :=
  Vector.ofFn fun i : Fin 64 =>
    if i.val < 26 then BitVec.ofNat 8 (65 + i.val)
    else if i.val < 52 then BitVec.ofNat 8 (97 + (i.val - 26))
    else if i.val < 62 then BitVec.ofNat 8 (48 + (i.val - 52))
    else if i.val = 62 then 43#8
    else 47#8

/-- `conversion_table[code_point]`, Base64.hpp:33 etc.  `std::array::operator[]` has no
range check; an out-of-range code point is undefined behaviour, modelled by `none`. -/
def tableAt (code : Byte) : Option Byte := convTable[code.toNat]?

/-- `enc0`'s code point, Base64.hpp:32. -/
def code0 (b0 : Byte) : Byte := b0 >>> 2
/-- `enc1`'s code point, Base64.hpp:37. -/
def code1 (b0 b1 : Byte) : Byte := ((b0 &&& 0x3#8) <<< 4) ||| (b1 >>> 4)
/-- `enc2`'s code point, Base64.hpp:42. -/
def code2 (b1 b2 : Byte) : Byte := ((b1 &&& 0xf#8) <<< 2) ||| (b2 >>> 6)
/-- `enc3`'s code point, Base64.hpp:47. -/
def code3 (b2 : Byte) : Byte := b2 &&& 0x3f#8

/-- The four characters written per loop iteration, Base64.hpp:56-62. -/
def encTriple (b0 b1 b2 : Byte) : Option (List Byte) := do
  let c0 ← tableAt (code0 b0)
  let c1 ← tableAt (code1 b0 b1)
  let c2 ← tableAt (code2 b1 b2)
  let c3 ← tableAt (code3 b2)
  return [c0, c1, c2, c3]

/-- `encB64SerialImpl`, Base64.hpp:51-65: number of bytes consumed and characters written. -/
def encSerial : List Byte → Option (Nat × List Byte)
  | b0 :: b1 :: b2 :: rest => do
    let cs ← encTriple b0 b1 b2
    let (n, out) ← encSerial rest
    return (n + 3, cs ++ out)
  | _ => some (0, [])

/-- `'='`. (Base64.hpp 74-75, 84) -/
def pad : Byte := 61#8

/-- `encB64Remainder`, Base64.hpp:67-86; nothing is written for any other size. -/
def encRemainder : List Byte → Option (List Byte)
  | [b] => do
    let c0 ← tableAt (code0 b)
    let c1 ← tableAt (code1 b 0#8)
    return [c0, c1, pad, pad]
  | [b0, b1] => do
    let c0 ← tableAt (code0 b0)
    let c1 ← tableAt (code1 b0 b1)
    let c2 ← tableAt (code2 b1 0#8)
    return [c0, c1, c2, pad]
  | _ => some []

/-! ### Vector kernel (AVX2 build), Base64.hpp:88-180 -/

/-- `load24`, Base64.hpp:92-98: masked load of eight 32-bit words starting 4 bytes before
the block; words 0 and 7 are masked off (zero, and not read). `block` is the 24-byte block. -/
def load24 (block : List Byte) : List Byte :=
  List.replicate 4 0#8 ++ block ++ List.replicate 4 0#8

/-- Argument of `_mm256_set_epi8` in Base64.hpp:100-101, listed from byte 0 upwards
(`set_epi8` lists the highest byte first). -/
def shuffleMask : List Nat :=
  [10, 11, 9, 10, 7, 8, 6, 7, 4, 5, 3, 4, 1, 2, 0, 1,
   14, 15, 13, 14, 11, 12, 10, 11, 8, 9, 7, 8, 5, 6, 4, 5].reverse

/-- `_mm256_shuffle_epi8` with non-negative mask bytes `< 16`: byte `i` of the result is
byte `mask[i]` of the same 128-bit half of `src`. -/
def shuffleEpi8 (src : List Byte) (mask : List Nat) : List Byte :=
  (mask.take 16).map (fun m => (src.take 16).getD m 0#8) ++
    (mask.drop 16).map (fun m => (src.drop 16).getD m 0#8)

/-- Two adjacent bytes as a little-endian 16-bit lane. -/
def lane16 (lo hi : Byte) : BitVec 16 := hi ++ lo
/-- Low byte of a 16-bit lane. -/
def loByte (x : BitVec 16) : Byte := x.truncate 8
/-- High byte of a 16-bit lane. -/
def hiByte (x : BitVec 16) : Byte := (x >>> 8).truncate 8
/-- `_mm256_mulhi_epu16` on one lane. -/
def mulhi (x y : BitVec 16) : BitVec 16 := ((x.zeroExtend 32 * y.zeroExtend 32) >>> 16).truncate 16

/-- `unpack_lo6` after the shuffle, on one 32-bit lane, Base64.hpp:102-112.  The 32-bit
constants `c0..c3` are split into their low and high 16-bit halves. -/
def unpackLane (b0 b1 b2 b3 : Byte) : List Byte :=
  let lo := lane16 b0 b1
  let hi := lane16 b2 b3
  let t1lo := mulhi (lo &&& 0xfc00#16) 0x0040#16
  let t1hi := mulhi (hi &&& 0x0fc0#16) 0x0400#16
  let t3lo := (lo &&& 0x03f0#16) * 0x0010#16
  let t3hi := (hi &&& 0x003f#16) * 0x0100#16
  let rlo := t1lo ||| t3lo
  let rhi := t1hi ||| t3hi
  [loByte rlo, hiByte rlo, loByte rhi, hiByte rhi]

/-- All eight 32-bit lanes. -/
def unpackLanes : List Byte → List Byte
  | b0 :: b1 :: b2 :: b3 :: rest => unpackLane b0 b1 b2 b3 ++ unpackLanes rest
  | _ => []

/-- `offset_map`, Base64.hpp:118-149 (the two 128-bit halves are equal). -/
def offsetMap : List Byte :=
  [71#8, BitVec.ofInt 8 (-4), BitVec.ofInt 8 (-4), BitVec.ofInt 8 (-4), BitVec.ofInt 8 (-4),
   BitVec.ofInt 8 (-4), BitVec.ofInt 8 (-4), BitVec.ofInt 8 (-4), BitVec.ofInt 8 (-4),
   BitVec.ofInt 8 (-4), BitVec.ofInt 8 (-4), BitVec.ofInt 8 (-19), BitVec.ofInt 8 (-16),
   65#8, 0#8, 0#8]

/-- `_mm256_subs_epu8` on one byte: saturating unsigned subtraction. -/
def subsEpu8 (x y : Byte) : Byte := if x.toNat < y.toNat then 0#8 else x - y

/-- `_mm256_shuffle_epi8` of a table whose halves are equal, one byte of the result. -/
def shuffleByte (table : List Byte) (i : Byte) : Byte :=
  if i.msb then 0#8 else table.getD (i.toNat % 16) 0#8

/-- `to_ascii` on one byte, Base64.hpp:151-156 (`cmpgt_epi8` is a signed comparison). -/
def toAscii (x : Byte) : Byte :=
  let lt26 : Byte := if x.slt 26#8 then 0xff#8 else 0#8
  let red0 := lt26 &&& 13#8
  let red1 := subsEpu8 x 51#8
  let red := red1 ||| red0
  x + shuffleByte offsetMap red

/-- `process_block`, Base64.hpp:163-170: 24 bytes to 32 characters. -/
def simdBlock (block : List Byte) : List Byte :=
  (unpackLanes (shuffleEpi8 (load24 block) shuffleMask)).map toAscii

/-- `encB64SimdImpl` in an AVX2 build, Base64.hpp:159-176: whole 24-byte blocks. Blocks are
processed by `parallel_for`; each writes its own 32-character slice, so the result is the
concatenation in block order (order independence of the slice writes is
`C02_block_order_irrelevant`). -/
def encSimdAvx (data : List Byte) : Nat × List Byte :=
  let nBlocks := data.length / 24
  (nBlocks * 24,
   (List.range nBlocks).flatMap fun k => simdBlock ((data.drop (24 * k)).take 24))

/-- `encB64SimdImpl`, both build variants (`#else return 0`, Base64.hpp:177-179). -/
def encSimd (avx : Bool) (data : List Byte) : Nat × List Byte :=
  if avx then encSimdAvx data else (0, [])

/-- `misaligned_by` after line 189 of Base64.hpp; `toAligned < 4` is the distance from the
buffer start to the next multiple of 4. -/
def misalignedBy (toAligned : Nat) : Nat := toAligned + (toAligned % 3) * 4

/-- `alignForSimd`, Base64.hpp:182-194. -/
def alignForSimd (toAligned : Nat) (data : List Byte) : Option (Nat × List Byte) :=
  if misalignedBy toAligned ≤ data.length then encSerial (data.take (misalignedBy toAligned))
  else some (0, [])

/-- Alignment pass of `encodeAsBase64`, Base64.hpp:206-210. -/
def alignPass (avx align1 : Bool) (toAligned : Nat) (data : List Byte) : Option (Nat × List Byte) :=
  if avx && align1 then alignForSimd toAligned data else some (0, [])

/-- `encodeAsBase64`, Base64.hpp:197-217.  `avx`: the build has AVX2; `align1`: the element
type's alignment is below that of `int` (only then the alignment pass runs);
`toAligned`: distance of the buffer from the next 4-byte boundary. -/
def encode (avx align1 : Bool) (toAligned : Nat) (data : List Byte) : Option (List Byte) := do
  let (n0, out0) ← alignPass avx align1 toAligned data
  let (n1, out1) := encSimd avx (data.drop n0)
  let (n2, out2) ← encSerial (data.drop (n0 + n1))
  let out3 ← encRemainder (data.drop (n0 + n1 + n2))
  return out0 ++ out1 ++ out2 ++ out3

/-- `getBase64EncodingSize<T>(size)`, Base64.hpp:219-226. -/
def encodingSize (sizeofT size : Nat) : Nat :=
  let bytes := size * sizeofT
  (bytes / 3 + (if bytes % 3 > 0 then 1 else 0)) * 4

end Verif.Base64
