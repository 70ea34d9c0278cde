/-!
# Model of `util/DynamicBitset.hpp`

Words are `BitVec 64` (`unsigned long` on x86-64).  Accessing a word outside the allocated
vector (`std::vector::operator[]` out of range) is undefined behaviour, modelled by `none`.
-/
namespace Verif.Bitset

/-- `DynamicBitset` (m_data, m_size), include/l3ster/util/DynamicBitset.hpp:16-230. -/
structure Bits where
  data : List (BitVec 64)
  size : Nat
deriving DecidableEq, Repr

/-- `computeAllocUls`, DynamicBitset.hpp:24-27. -/
def allocUls (size : Nat) : Nat := if size % 64 = 0 then size / 64 else size / 64 + 1

/-- `getMask`, DynamicBitset.hpp:22. -/
def mask (bitPos : Nat) : BitVec 64 := 1#64 <<< bitPos

/-- Constructor, DynamicBitset.hpp:41. -/
def Bits.new (size : Nat) : Bits := ⟨List.replicate (allocUls size) 0#64, size⟩

/-- `resize`, DynamicBitset.hpp:42-46; `std::vector::resize(n, 0)` truncates or appends zeros. -/
def Bits.resize (b : Bits) (n : Nat) : Bits :=
  ⟨b.data.take (allocUls n) ++ List.replicate (allocUls n - b.data.length) 0#64, n⟩

/-- `std::popcount`. (DynamicBitset.hpp 51, 192, 201-209) -/
def popcount (w : BitVec 64) : Nat := (List.range 64).countP fun i => w.getLsbD i

/-- `count`, DynamicBitset.hpp:48-52. -/
def Bits.count (b : Bits) : Nat := (b.data.map popcount).sum

/-- `test`, DynamicBitset.hpp:55-59: `word & mask` converted to `bool`. -/
def Bits.test (b : Bits) (pos : Nat) : Option Bool :=
  b.data[pos / 64]?.map fun w => (w &&& mask (pos % 64)) != 0#64

/-- Read-modify-write of the word holding `pos`. (DynamicBitset.hpp 28-37) -/
def Bits.modifyWord (b : Bits) (pos : Nat) (f : BitVec 64 → BitVec 64) : Option Bits :=
  if pos / 64 < b.data.length then some { b with data := b.data.modify (pos / 64) f } else none

/-- Mutating operations on bits. (DynamicBitset.hpp 60-81) -/
inductive Op
  | set (pos : Nat)
  | reset (pos : Nat)
  | flip (pos : Nat)
  | assign (pos : Nat) (val : Bool)
  | clear
  | resize (n : Nat)
deriving DecidableEq, Repr

/-- One operation: `set` 60-64, `reset` 65-69, `flip` 70-74, `assign` 75-80, `clear` 81,
`resize` 42-46 of DynamicBitset.hpp. -/
def Bits.step (b : Bits) : Op → Option Bits
  | .set pos => b.modifyWord pos fun w => w ||| mask (pos % 64)
  | .reset pos => b.modifyWord pos fun w => w &&& ~~~(mask (pos % 64))
  | .flip pos => b.modifyWord pos fun w => w ^^^ mask (pos % 64)
  | .assign pos v => b.modifyWord pos fun w =>
      (w &&& ~~~(mask (pos % 64))) ||| ((if v then 1#64 else 0#64) <<< (pos % 64))
  | .clear => some { b with data := b.data.map fun _ => 0#64 }
  | .resize n => some (b.resize n)

/-- A history of operations. (calls of DynamicBitset.hpp 60-81) -/
def Bits.run (b : Bits) : List Op → Option Bits
  | [] => some b
  | op :: ops => (b.step op).bind fun b' => b'.run ops

/-- OR of the masks `getMask(i)`, `lo ≤ i ≤ hi`: the loops of `SubView::count`,
DynamicBitset.hpp:189-191, 198-200, 206-208. -/
def maskRange (lo hi : Nat) : BitVec 64 :=
  (List.range' lo (hi + 1 - lo)).foldl (fun m i => m ||| mask i) 0#64

/-- `SubView::count`, DynamicBitset.hpp:179-213. -/
def Bits.subCount (b : Bits) (lo hi : Nat) : Option Nat :=
  if lo = hi then some 0
  else
    let fu := lo / 64
    let fb := lo % 64
    let lu := (hi - 1) / 64
    let lb := (hi - 1) % 64
    if fu = lu then
      b.data[fu]?.map fun w => popcount (w &&& maskRange fb lb)
    else do
      let wf ← b.data[fu]?
      let mid ← (List.range' (fu + 1) (lu - (fu + 1))).mapM fun i => b.data[i]?.map popcount
      let wl ← b.data[lu]?
      return popcount (wf &&& maskRange fb 63) + mid.sum + popcount (wl &&& maskRange 0 lb)

/-- Atomic operations of `AtomicView`, DynamicBitset.hpp:105-134: one indivisible
`fetch_or`/`fetch_and`/`fetch_xor` on the word. -/
inductive AOp
  | set (pos : Nat)
  | reset (pos : Nat)
  | flip (pos : Nat)
deriving DecidableEq, Repr

/-- Position touched by an atomic operation. (DynamicBitset.hpp 111-130) -/
def AOp.pos : AOp → Nat
  | .set p | .reset p | .flip p => p

/-- Same kind of operation. (DynamicBitset.hpp 116-130) -/
def AOp.sameKind : AOp → AOp → Bool
  | .set _, .set _ | .reset _, .reset _ | .flip _, .flip _ => true
  | _, _ => false

/-- Effect of an atomic operation. (DynamicBitset.hpp 116-130) -/
def Bits.astep (b : Bits) : AOp → Option Bits
  | .set pos => b.step (.set pos)
  | .reset pos => b.step (.reset pos)
  | .flip pos => b.step (.flip pos)

/-- A sequence of atomic operations (one interleaving). (calls of DynamicBitset.hpp 116-130) -/
def Bits.arun (b : Bits) : List AOp → Option Bits
  | [] => some b
  | op :: ops => (b.astep op).bind fun b' => b'.arun ops

end Verif.Bitset
