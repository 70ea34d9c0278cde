/-!
# The Robin Hood hash table behind `robin_hood::unordered_flat_map` and `unordered_flat_set`

Models `/repo/include/l3ster/util/RobinHoodHashTables.hpp`, class `detail::Table` (lines 977–2734), as
instantiated by `unordered_flat_map` and `unordered_flat_set` (2741–2746, 2774–2778) with the default
`MaxLoadFactor100 = 80`.  A set is the map with `V = Unit`.

Conventions and simplifications.

* The hash function is an arbitrary `hash : K → Nat`; its result is reduced to 64 bits as at line 1431.
  `KeyEqual` is equality of `K`.
* The node array is a function `Nat → Cell`; a cell is `dead` (no object lives there), `moved` (a moved-from
  object) or `live`.  Reading a key from a cell which is not live, assigning to a dead cell, constructing over a
  cell which is not dead and destroying a dead cell are all `ub`.
* The info array has `cap + 8` bytes (`calcNumBytesInfo`, 2319–2324); reading or writing beyond it is `ub`.
  A default-constructed table points at the eight zero bytes of its own `mMask` (2722–2725): `cap = 0`.
* `while` loops carry fuel; running out of fuel is `ub`, so a theorem that excludes `ub` also proves termination.
* `throwOverflowError` (2443–2450) is the outcome `overflow`; the state left behind is not modelled.
* Allocation succeeds and byte counts do not wrap.  Node memory recycling (`NodeAllocator`) is not modelled.
-/
namespace Verif.RobinHood

/-- Outcome of a call. (auxiliary; `throwOverflowError` RobinHoodHashTables.hpp 2443-2450) -/
inductive Res (α : Type) where
  | ok (a : α)
  | overflow
  | ub
  deriving DecidableEq, Repr

namespace Res

/-- Sequencing: an exception or undefined behaviour ends the computation. (auxiliary; no line of the code) -/
def bind {α β : Type} (x : Res α) (f : α → Res β) : Res β :=
  match x with
  | .ok a => f a
  | .overflow => .overflow
  | .ub => .ub

instance : Monad Res where
  pure := Res.ok
  bind := Res.bind

end Res

/-- State of the memory of one node. (RobinHoodHashTables.hpp 1034-1107, the storage of a flat `DataNode`) -/
inductive Cell (K V : Type) where
  | dead
  | moved
  | live (k : K) (v : V)
  deriving DecidableEq, Repr

/-- Data members of `Table` (2721–2728).  `cells` is `mKeyVals`, `cap` the number of nodes allocated. -/
structure Tab (K V : Type) where
  mult : Nat
  cells : Nat → Cell K V
  info : Nat → Nat
  cap : Nat
  num : Nat
  mask : Nat
  maxAllowed : Nat
  inc : Nat
  shift : Nat

/-- `0xc4ceb9fe1a85ec53`, initial `mHashMultiplier` (2721). -/
def initialMult : Nat := 0xc4ceb9fe1a85ec53

/-- Default constructor (1591; members 2721–2728). -/
def Tab.new (K V : Type) : Tab K V where
  mult := initialMult
  cells := fun _ => .dead
  info := fun _ => 0
  cap := 0
  num := 0
  mask := 0
  maxAllowed := 0
  inc := 32
  shift := 0

/-- `calcMaxNumElementsAllowed` (2308–2317). -/
def calcMax (n : Nat) : Nat :=
  if n ≤ (2 ^ 64 - 1) / 100 then n * 80 / 100 else n / 100 * 80

/-- `calcNumElementsWithBuffer` (2327–2331). -/
def calcBuf (n : Nat) : Nat := n + min (calcMax n) 255

variable {K V : Type}

/-- The mixed hash of `keyToIdx` (1431–1434). -/
def mix (mult h : Nat) : Nat :=
  let x := h % 2 ^ 64 * mult % 2 ^ 64
  x ^^^ (x >>> 33)

/-- Initial `*info` in `keyToIdx` (1437). -/
def startInfo (hash : K → Nat) (t : Tab K V) (k : K) : Nat :=
  t.inc + ((mix t.mult (hash k) &&& 31) >>> t.shift)

/-- Initial `*idx` in `keyToIdx` (1438). -/
def startIdx (hash : K → Nat) (t : Tab K V) (k : K) : Nat :=
  (mix t.mult (hash k) >>> 5) &&& t.mask

/-- Read of `mInfo[i]`. (RobinHoodHashTables.hpp 1451, 1514, 1524) -/
def rdInfo (t : Tab K V) (i : Nat) : Res Nat :=
  if i < t.cap + 8 then .ok (t.info i) else .ub

/-- Write of `mInfo[i] = static_cast<uint8_t>(b)`. -/
def wrInfo (t : Tab K V) (i b : Nat) : Res (Tab K V) :=
  if i < t.cap + 8 then .ok { t with info := fun j => if j = i then b % 256 else t.info j } else .ub

/-- Read of the key at `mKeyVals[i].getFirst()`. (RobinHoodHashTables.hpp 1514, 1519) -/
def rdKey (t : Tab K V) (i : Nat) : Res K :=
  match t.cells i with
  | .live k _ => .ok k
  | _ => .ub

/-- Overwrite of one cell. (auxiliary for RobinHoodHashTables.hpp 1461-1464, 1492, 1573) -/
def setCell (t : Tab K V) (i : Nat) (c : Cell K V) : Tab K V :=
  { t with cells := fun j => if j = i then c else t.cells j }

/-- `::new (&mKeyVals[i]) Node(...)`: needs memory of this table which holds no object. (RobinHoodHashTables.hpp 1461, 1573, 1852, 2463) -/
def construct (t : Tab K V) (i : Nat) (k : K) (v : V) : Res (Tab K V) :=
  if i < t.cap then
    match t.cells i with
    | .dead => .ok (setCell t i (.live k v))
    | _ => .ub
  else .ub

/-- `mKeyVals[i] = Node(...)`: needs an object to assign to. (RobinHoodHashTables.hpp 1464, 1492, 1857, 2471) -/
def assign (t : Tab K V) (i : Nat) (k : K) (v : V) : Res (Tab K V) :=
  match t.cells i with
  | .dead => .ub
  | _ => .ok (setCell t i (.live k v))

/-- `::new (mKeyVals + dst) Node(std::move(mKeyVals[src]))` (1461). -/
def moveConstruct (t : Tab K V) (dst src : Nat) : Res (Tab K V) :=
  match t.cells src with
  | .live k v => construct (setCell t src .moved) dst k v
  | _ => .ub

/-- `mKeyVals[dst] = std::move(mKeyVals[src])` (1464, 1492). -/
def moveAssign (t : Tab K V) (dst src : Nat) : Res (Tab K V) :=
  match t.cells src with
  | .live k v => assign (setCell t src .moved) dst k v
  | _ => .ub

/-- `nextWhileLess` (1448–1455). -/
def nextWhileLess (t : Tab K V) : Nat → Nat → Nat → Res (Nat × Nat)
  | 0, _, _ => .ub
  | f + 1, info, idx =>
    (rdInfo t idx).bind fun b =>
      if info < b then nextWhileLess t f (info + t.inc) (idx + 1) else .ok (info, idx)

/-- Node moves of `shiftUp` after the first one: the `while (--idx != insertion_idx)` loop (1462–1465). -/
def shiftCells (ins : Nat) : Nat → Tab K V → Nat → Res (Tab K V)
  | 0, _, _ => .ub
  | f + 1, t, idx =>
    if idx - 1 = ins then .ok t
    else (moveAssign t (idx - 1) (idx - 2)).bind fun t' => shiftCells ins f t' (idx - 1)

/-- Info bytes in `shiftUp` (1468–1477). -/
def shiftInfos (ins : Nat) : Nat → Tab K V → Nat → Res (Tab K V)
  | 0, _, _ => .ub
  | f + 1, t, idx =>
    if idx = ins then .ok t
    else (rdInfo t (idx - 1)).bind fun b =>
      (wrInfo t idx (b + t.inc)).bind fun t' =>
        (rdInfo t' idx).bind fun c =>
          shiftInfos ins f (if c + t'.inc > 255 then { t' with maxAllowed := 0 } else t') (idx - 1)

/-- `shiftUp` (1458–1478). -/
def shiftUp (t : Tab K V) (start ins : Nat) : Res (Tab K V) :=
  (moveConstruct t start (start - 1)).bind fun t1 =>
    (shiftCells ins (t.cap + 9) t1 start).bind fun t2 => shiftInfos ins (t.cap + 9) t2 start

/-- The loop of `shiftDown` with its final statements (1488–1500): `mInfo[idx] = 0` and the destructor. -/
def shiftDownLoop : Nat → Tab K V → Nat → Res (Tab K V)
  | 0, _, _ => .ub
  | f + 1, t, idx =>
    (rdInfo t (idx + 1)).bind fun b =>
      if b ≥ 2 * t.inc then
        (wrInfo t idx (b - t.inc)).bind fun t1 =>
          (moveAssign t1 idx (idx + 1)).bind fun t2 => shiftDownLoop f t2 (idx + 1)
      else
        (wrInfo t idx 0).bind fun t1 =>
          match t1.cells idx with
          | .dead => .ub
          | _ => .ok (setCell t1 idx .dead)

/-- `shiftDown` (1480–1501).  For flat nodes `destroy` (1485) does nothing. -/
def shiftDown (t : Tab K V) (idx : Nat) : Res (Tab K V) := shiftDownLoop (t.cap + 9) t idx

section Keys
variable [DecidableEq K]

/-- `info == mInfo[idx] && key == mKeyVals[idx].getFirst()` (1514, 1519, 2217, 2564–2566). -/
def probe (t : Tab K V) (key : K) (info idx : Nat) : Res Bool :=
  (rdInfo t idx).bind fun b =>
    if info = b then (rdKey t idx).bind fun k' => .ok (decide (key = k')) else .ok false

/-- The loop of `findIdx`, two probes per round (1511–1524); `none` stands for the end position. -/
def findLoop (t : Tab K V) (key : K) : Nat → Nat → Nat → Res (Option Nat)
  | 0, _, _ => .ub
  | f + 1, info, idx =>
    (probe t key info idx).bind fun a =>
      if a then .ok (some idx)
      else (probe t key (info + t.inc) (idx + 1)).bind fun b =>
        if b then .ok (some (idx + 1))
        else (rdInfo t (idx + 2)).bind fun c =>
          if info + t.inc + t.inc ≤ c then findLoop t key f (info + t.inc + t.inc) (idx + 2) else .ok none

/-- `findIdx` (1505–1530). -/
def findIdx (hash : K → Nat) (t : Tab K V) (key : K) : Res (Option Nat) :=
  findLoop t key (t.cap + 9) (startInfo hash t key) (startIdx hash t key)

/-- `at` (2063–2073, 2078–2087) and, with the value ignored, `contains` (2047–2050), `count` (2023–2032) and
`find` (2089–2094, 2114–2119): `none` is the end iterator, respectively `std::out_of_range`. -/
def find (hash : K → Nat) (t : Tab K V) (key : K) : Res (Option V) :=
  (findIdx hash t key).bind fun o =>
    match o with
    | none => .ok none
    | some i =>
      match t.cells i with
      | .live _ v => .ok (some v)
      | _ => .ub

/-- `while (info == mInfo[idx])` of `insertKeyPrepareEmptySpot` (2563–2572): the index of the key, or where the
scan stopped. -/
def matchLoop (t : Tab K V) (key : K) : Nat → Nat → Nat → Res (Option Nat × Nat × Nat)
  | 0, _, _ => .ub
  | f + 1, info, idx =>
    (rdInfo t idx).bind fun b =>
      if info = b then
        (rdKey t idx).bind fun k' =>
          if key = k' then .ok (some idx, info, idx) else matchLoop t key f (info + t.inc) (idx + 1)
      else .ok (none, info, idx)

end Keys

/-- `while (0 != mInfo[idx])` (1567–1570, 2592–2595). -/
def emptySpot (t : Tab K V) : Nat → Nat → Res Nat
  | 0, _ => .ub
  | f + 1, idx =>
    (rdInfo t idx).bind fun b => if b = 0 then .ok idx else emptySpot t f (idx + 1)

/-- `while (info <= mInfo[idx])` of `insert_move` (1550–1554). -/
def skipLoop (t : Tab K V) : Nat → Nat → Nat → Res (Nat × Nat)
  | 0, _, _ => .ub
  | f + 1, info, idx =>
    (rdInfo t idx).bind fun b =>
      if info ≤ b then skipLoop t f (info + t.inc) (idx + 1) else .ok (info, idx)

/-- What both insertion routines do once the insertion index is known (1557–1584, 2585–2604): flag a nearly full
info byte, find an empty spot, shift, write the info byte, count and put the node in place. -/
def place (t : Tab K V) (info idx : Nat) (k : K) (v : V) : Res (Tab K V) :=
  let t0 := if info + t.inc > 255 then { t with maxAllowed := 0 } else t
  (emptySpot t0 (t0.cap + 9) idx).bind fun e =>
    if e = idx then
      (wrInfo t0 idx info).bind fun t1 => construct { t1 with num := t1.num + 1 } idx k v
    else
      (shiftUp t0 e idx).bind fun t1 =>
        (wrInfo t1 idx info).bind fun t2 => assign { t2 with num := t2.num + 1 } idx k v

/-- Little-endian value of `n` bytes from `i` on (`unaligned_load`). (RobinHoodHashTables.hpp 367, 1382-1394) -/
def bytesAt (f : Nat → Nat) (i : Nat) : Nat → Nat
  | 0 => 0
  | n + 1 => f i + 256 * bytesAt f (i + 1) n

/-- `unaligned_load<uint64_t>(mInfo + i)`. -/
def load8 (t : Tab K V) (i : Nat) : Res Nat :=
  if i + 8 ≤ t.cap + 8 then .ok (bytesAt t.info i 8) else .ub

/-- `std::memcpy(mInfo + i, &val, 8)`. -/
def store8 (t : Tab K V) (i val : Nat) : Res (Tab K V) :=
  if i + 8 ≤ t.cap + 8 then
    .ok { t with info := fun j => if i ≤ j ∧ j < i + 8 then (val >>> (8 * (j - i))) % 256 else t.info j }
  else .ub

/-- Loop of `try_increase_info` (2632–2637). -/
def halveLoop : Nat → Tab K V → Nat → Res (Tab K V)
  | 0, _, _ => .ub
  | f + 1, t, i =>
    if i < t.cap then
      (load8 t i).bind fun v =>
        (store8 t i ((v >>> 1) &&& 0x7f7f7f7f7f7f7f7f)).bind fun t' => halveLoop f t' (i + 8)
    else .ok t

/-- `try_increase_info` (2615–2643); `none` is the result `false`. -/
def tryIncreaseInfo (t : Tab K V) : Res (Option (Tab K V)) :=
  if t.inc ≤ 2 then .ok none
  else
    (halveLoop (t.cap + 9) { t with inc := t.inc >>> 1, shift := t.shift + 1 } 0).bind fun t1 =>
      (wrInfo t1 t1.cap 1).bind fun t2 => .ok (some { t2 with maxAllowed := calcMax (t2.mask + 1) })

/-- The first lines of `insert_move` (1540–1543). -/
def makeRoom (t : Tab K V) : Res (Tab K V) :=
  if t.maxAllowed = 0 then
    (tryIncreaseInfo t).bind fun o =>
      match o with
      | none => .overflow
      | some t' => .ok t'
  else .ok t

/-- `insert_move` (1536–1585). -/
def insertMove (hash : K → Nat) (t : Tab K V) (k : K) (v : V) : Res (Tab K V) :=
  (makeRoom t).bind fun t1 =>
    (skipLoop t1 (t1.cap + 9) (startInfo hash t1 k) (startIdx hash t1 k)).bind fun p =>
      place t1 p.1 p.2 k v

/-- `initData` (2521–2545). -/
def initData (mult n : Nat) : Tab K V where
  mult := mult
  cells := fun _ => .dead
  info := fun i => if i = calcBuf n then 1 else 0
  cap := calcBuf n
  num := 0
  mask := n - 1
  maxAllowed := calcMax n
  inc := 32
  shift := 0

/-- The loop of `rehashPowerOfTwo` over the old nodes (2414–2424); `m` nodes from index `i` on. -/
def rehashLoop (hash : K → Nat) (old : Tab K V) : Nat → Nat → Tab K V → Res (Tab K V)
  | 0, _, t => .ok t
  | m + 1, i, t =>
    (rdInfo old i).bind fun b =>
      if b ≠ 0 then
        match old.cells i with
        | .live k v => (insertMove hash t k v).bind (rehashLoop hash old m (i + 1))
        | _ => .ub
      else rehashLoop hash old m (i + 1) t

/-- `rehashPowerOfTwo` (2400–2441). -/
def rehashPow (hash : K → Nat) (t : Tab K V) (n : Nat) : Res (Tab K V) :=
  if calcBuf (t.mask + 1) > 1 then rehashLoop hash t (calcBuf (t.mask + 1)) 0 (initData t.mult n)
  else .ok (initData t.mult n)

/-- The resizing part of `increase_size` (2665–2678), with `nextHashMultiplier` (2681–2686). -/
def resize (hash : K → Nat) (t : Tab K V) : Res (Tab K V) :=
  if t.num * 2 < calcMax (t.mask + 1) then
    rehashPow hash { t with mult := (t.mult + 0xc4ceb9fe1a85ec54) % 2 ^ 64 } (t.mask + 1)
  else rehashPow hash t ((t.mask + 1) * 2)

/-- `increase_size` (2646–2679); it never returns `false`. -/
def increaseSize (hash : K → Nat) (t : Tab K V) : Res (Tab K V) :=
  if t.mask = 0 then .ok (initData t.mult 8)
  else if t.num < calcMax (t.mask + 1) then
    (tryIncreaseInfo t).bind fun o =>
      match o with
      | some t' => .ok t'
      | none => resize hash t
  else resize hash t

section Api
variable [DecidableEq K]

/-- The retry loop of `insertKeyPrepareEmptySpot` (2557–2609) together with the placement of the node by its callers
(1914–1940 `emplace`, 2453–2484 `try_emplace_impl`, 2487–2518 `insertOrAssignImpl`, 1842–1866 `operator[]`).
Result: the table, the index of the key and whether it was found. -/
def insertLoop (hash : K → Nat) (k : K) (v : V) : Nat → Tab K V → Res (Tab K V × Nat × Bool)
  | 0, _ => .overflow
  | n + 1, t =>
    (nextWhileLess t (t.cap + 9) (startInfo hash t k) (startIdx hash t k)).bind fun p =>
      (matchLoop t k (t.cap + 9) p.1 p.2).bind fun q =>
        match q.1 with
        | some i => .ok (t, i, true)
        | none =>
          if t.num ≥ t.maxAllowed then (increaseSize hash t).bind (insertLoop hash k v n)
          else (place t q.2.1 q.2.2 k v).bind fun t' => .ok (t', q.2.2, false)

/-- `emplace`, `insert`, `try_emplace`, and `operator[]` where `v` is the default value (1842–2020, 2453–2484). -/
def insert (hash : K → Nat) (t : Tab K V) (k : K) (v : V) : Res (Tab K V × Bool) :=
  (insertLoop hash k v 256 t).bind fun r => .ok (r.1, !r.2.2)

/-- `insert_or_assign` (2487–2518) and `map[key] = value`. -/
def insertOrAssign (hash : K → Nat) (t : Tab K V) (k : K) (v : V) : Res (Tab K V × Bool) :=
  (insertLoop hash k v 256 t).bind fun r =>
    if r.2.2 then
      match r.1.cells r.2.1 with
      | .live k' _ => .ok (setCell r.1 r.2.1 (.live k' v), false)
      | _ => .ub
    else .ok (r.1, true)

/-- The loop of `erase(const key_type&)` (2215–2226). -/
def eraseLoop (t : Tab K V) (key : K) : Nat → Nat → Nat → Res (Tab K V × Bool)
  | 0, _, _ => .ub
  | f + 1, info, idx =>
    (probe t key info idx).bind fun a =>
      if a then (shiftDown t idx).bind fun t' => .ok ({ t' with num := t'.num - 1 }, true)
      else (rdInfo t (idx + 1)).bind fun c =>
        if info + t.inc ≤ c then eraseLoop t key f (info + t.inc) (idx + 1) else .ok (t, false)

/-- `erase(const key_type&)` (2207–2229). -/
def erase (hash : K → Nat) (t : Tab K V) (key : K) : Res (Tab K V × Bool) :=
  eraseLoop t key (t.cap + 9) (startInfo hash t key) (startIdx hash t key)

end Api

/-- `clear` (1787–1807) with `Destroyer::nodes` (1250–1273). -/
def clear (t : Tab K V) : Tab K V :=
  if t.num = 0 then t
  else { t with
    num := 0
    cells := fun _ => .dead
    info := fun i => if i = calcBuf (t.mask + 1) then 1 else 0
    inc := 32
    shift := 0 }

/-- The doubling loop of `reserve` and `compact` (2378–2381, 2252–2255); the 64-bit size becomes zero after 61
doublings, which raises the overflow error (2382–2385). -/
def growSize (want : Nat) : Nat → Nat → Res Nat
  | 0, _ => .overflow
  | f + 1, n => if calcMax n < want then growSize want f (n * 2) else .ok n

/-- `reserve(c, forceRehash)` (2373–2395), called by `reserve` (2240–2244) and `rehash` (2232–2236). -/
def reserve (hash : K → Nat) (t : Tab K V) (c : Nat) (force : Bool) : Res (Tab K V) :=
  (growSize (max c t.num) 61 8).bind fun n =>
    if force = true ∨ n > t.mask + 1 then rehashPow hash t n else .ok t

/-- `compact` (2248–2269). -/
def compact (hash : K → Nat) (t : Tab K V) : Res (Tab K V) :=
  (growSize t.num 61 8).bind fun n => if n < t.mask + 1 then rehashPow hash t n else .ok t

/-- Number of trailing zero bits of a 64-bit word (`ROBIN_HOOD_COUNT_TRAILING_ZEROES`). -/
def ctz (n : Nat) : Nat := ((List.range 64).find? fun i => n.testBit i).getD 64

/-- `Iter::fastForward` (1379–1413) on a little-endian machine; positions are indices. -/
def fastForward (t : Tab K V) : Nat → Nat → Res Nat
  | 0, _ => .ub
  | f + 1, i =>
    (load8 t i).bind fun n => if n = 0 then fastForward t f (i + 8) else .ok (i + ctz n / 8)

/-- A range-based `for` loop: from `begin()` (2137–2145) by `operator++` (1341–1347) until `end()` (2161–2167),
collecting what `operator*` (1356) refers to.  The position of `end()` is `cap`. -/
def iterFrom (t : Tab K V) : Nat → Nat → Res (List (K × V))
  | 0, _ => .ub
  | f + 1, i =>
    if i = t.cap then .ok []
    else
      match t.cells i with
      | .live k v =>
        (fastForward t (t.cap + 9) (i + 1)).bind fun j =>
          (iterFrom t f j).bind fun l => .ok ((k, v) :: l)
      | _ => .ub

/-- All elements in iteration order. (iteration, RobinHoodHashTables.hpp 1302-1405) -/
def items (t : Tab K V) : Res (List (K × V)) :=
  if t.num = 0 then .ok []
  else (fastForward t (t.cap + 9) 0).bind (iterFrom t (t.cap + 9))

/-- `for (auto const& e : other) if (!has(e)) return false;` of `operator==` (1825–1831), with `has`
(2358–2363). -/
def allHas [DecidableEq K] [DecidableEq V] (hash : K → Nat) (t : Tab K V) : List (K × V) → Res Bool
  | [] => .ok true
  | e :: l => (find hash t e.1).bind fun o => if o = some e.2 then allHas hash t l else .ok false

/-- `operator==` (1817–1834). -/
def eqTab [DecidableEq K] [DecidableEq V] (hash : K → Nat) (t other : Tab K V) : Res Bool :=
  if other.num = t.num then (items other).bind (allHas hash t) else .ok false

/-- `hash_int` (799–812), the hash of every integral, enumeration and pointer key (815–893). -/
def hashInt (x : Nat) : Nat :=
  let y := (x ^^^ (x >>> 33)) * 0xff51afd7ed558ccd % 2 ^ 64
  y ^^^ (y >>> 33)

end Verif.RobinHood
