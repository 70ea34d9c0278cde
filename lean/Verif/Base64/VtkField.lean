import Verif.Base64.Model

/-!
# Model of the field encoders of `post/VtkExport.hpp` (lines 396-466)

`val_t` (double) values are 64-bit patterns; `std::bit_cast` is the identity on them.
The encoder runs with `alignof(val_t) = 8 ≥ alignof(int)`, hence no alignment pass
(`align1 = false`).
-/
namespace Verif.Base64

/-- A double as bit pattern. -/
abbrev Val := BitVec 64

/-- Object representation of a span of doubles (`std::as_bytes`, Base64.hpp:202). -/
def valBytes (vs : List Val) : List Byte := vs.flatMap fun v => leBytes 8 v.toNat

/-- Scalar `encodeFieldImpl`, include/l3ster/post/VtkExport.hpp:396-415.  Returns the size
of the allocated buffer and the characters written to it. -/
def encodeScalarField (avx : Bool) (vals : List Val) : Option (Nat × List Byte) := do
  let nVals := vals.length + 1
  let alloc := encodingSize 8 nVals
  -- prefix array of 3 values, zero-initialised; first = size in bytes, then up to two values
  let pre : List Val := BitVec.ofNat 64 (8 * vals.length) :: (vals ++ [0#64, 0#64]).take 2
  let out0 ← encode avx false 0 (valBytes (pre.take nVals))
  let out1 ← encode avx false 0 (valBytes (vals.drop 2))
  return (alloc, out0 ++ out1)

/-- The interleaved values of one node, VtkExport.hpp:436-442: `fv[node]` is unchecked, a
shorter component is undefined behaviour (`none`). -/
def nodeVals (fields : List (List Val)) (node : Nat) : Option (List Val) := do
  let vs ← fields.mapM fun fv => fv[node]?
  return if fields.length = 2 then vs ++ [0#64] else vs

/-- Vector `encodeFieldImpl`, VtkExport.hpp:417-448 (called with 2 or 3 components only,
VtkExport.hpp:453-465).  The per-node loop is parallel over disjoint 3-value slices. -/
def encodeVectorField (avx : Bool) (fields : List (List Val)) : Option (Nat × List Byte) := do
  let first ← fields.head?
  let nNodes := first.length
  let nFieldVals := 3 * nNodes
  let body ← (List.range nNodes).mapM (nodeVals fields)
  let alloc := encodingSize 8 (nFieldVals + 1)
  let out ← encode avx false 0 (valBytes (BitVec.ofNat 64 (8 * nFieldVals) :: body.flatten))
  return (alloc, out)

end Verif.Base64
