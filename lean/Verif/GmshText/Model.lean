import Verif.Gmsh.Model

/-! # The text reader for Gmsh files: model of /repo/include/l3ster/mesh/ReadMesh.hpp and of the stream helpers in
/repo/include/l3ster/util/IO.hpp

Formatted input follows the C++ standard ([istream.formatted.reqmts], [facet.num.get.virtuals]) in the classic locale: the sentry skips
white space; if the stream is not `good`, or only white space is left, `failbit` is set and *the variable keeps its value*; if no
number can be read, the variable becomes 0 and `failbit` is set; if the number does not fit, the variable becomes the largest value of the type and
`failbit` is set.  Reading a variable which was never assigned is undefined behaviour and a separate outcome.

Simplifications: the text of a real number extends to the next white space, and its conversion is a parameter `dec` (`none` = no number);
integers are decimal with an optional sign.  Memory is not exhausted.  Element blocks are taken to be non-empty (an empty one
would only create its domain).  All elements are parsed before the first is stored (a file with two kinds of errors may be reported differently). -/
namespace Verif.GmshText
open Verif Verif.Elem Verif.Mesh Verif.Split Verif.Partition Verif.Merge Verif.Extrude Verif.Gmsh

/-- How a function ends: normally, by an exception, or in undefined behaviour. (auxiliary; `throwingAssert`, Assertion.hpp; ReadMesh.hpp 118, 122, 158, 212, 264, 309, 341) -/
inductive Res (α : Type) where
  | ok (a : α)
  | throws
  | ub
  deriving DecidableEq, Repr

/-- `std::istream` over a `MmappedStreambuf`: characters from `gptr()` to `egptr()`, `failbit` and `eofbit`. (IO.hpp 84-105; ReadMesh.hpp 112-114) -/
structure Stream where
  rest : List Char
  fail : Bool
  eof : Bool
  deriving DecidableEq, Repr

/-- A step of the reader. (the lambdas of `readMesh`, ReadMesh.hpp 116-356) -/
def P (α : Type) : Type := Stream → Res (α × Stream)

instance : Monad P where
  pure a := fun s => .ok (a, s)
  bind x f := fun s => match x s with
    | .ok (a, s') => f a s'
    | .throws => .throws
    | .ub => .ub

/-- `throwingAssert(false, ...)`, `map::at` with an unknown key. (ReadMesh.hpp 118, 122, 158, 180, 188, 191, 212, 264, 302, 309, 322, 341) -/
def raise {α : Type} : P α := fun _ => .throws

/-- Undefined behaviour. (uninitialised variables: IO.hpp 22-24, ReadMesh.hpp 137-140, 259-262, 292-293, 298-300) -/
def undefined {α : Type} : P α := fun _ => .ub

/-- `std::isspace` in the classic locale. (used by `operator>>`, IO.hpp 23, 32, 41) -/
def isWs (c : Char) : Bool := c = ' ' || c = '\t' || c = '\n' || c = '\x0b' || c = '\x0c' || c = '\r'

/-- Decimal digits, as `operator>>` reads them (IO.hpp 23, 32, 41). -/
def isDig (c : Char) : Bool := c.toNat ≥ 48 && c.toNat ≤ 57

/-- Value of a string of digits. (conversion done by `operator>>`, IO.hpp 23, 32, 41) -/
def decVal (l : List Char) : Nat := l.foldl (fun v c => 10 * v + (c.toNat - 48)) 0

/-- The sentry: `none` if the variable stays as it is. ([istream::sentry], entered by every `operator>>`, IO.hpp 23, 32, 41) -/
def sentry (s : Stream) : Option (List Char) :=
  if s.fail || s.eof then none else if s.rest.dropWhile isWs = [] then none else some (s.rest.dropWhile isWs)

/-- The stream after a refused sentry. ([istream::sentry], IO.hpp 23, 32, 41) -/
def refused (s : Stream) : Stream := if s.fail || s.eof then { s with fail := true } else ⟨[], true, true⟩

/-- An optional sign: is it a minus, and the rest. ([facet.num.get.virtuals], IO.hpp 23, 32, 41) -/
def sign : List Char → Bool × List Char
  | '-' :: l => (true, l)
  | '+' :: l => (false, l)
  | l => (false, l)

/-- The stream after a number read from `l`. ([facet.num.get.virtuals], IO.hpp 23, 32, 41; the end of the file by `underflow`, IO.hpp 100) -/
def after (l : List Char) (fail : Bool) : Stream := ⟨l, fail, l.isEmpty⟩

/-- Digits of a number, and what follows. ([facet.num.get.virtuals], IO.hpp 23, 32, 41) -/
def digits (l : List Char) : List Char × List Char := ((sign l).2.takeWhile isDig, (sign l).2.dropWhile isDig)

/-- `istream >> x` for an unsigned type with largest value `max`. (`size_t` and `d_id_t`: ReadMesh.hpp 140, 204, 211, 215, 218, 252, 262, 293, 300, 316) -/
def readU (max : Nat) (s : Stream) : Option Nat × Stream :=
  match sentry s with
  | none => (none, refused s)
  | some l =>
    if (digits l).1 = [] then (some 0, after (digits l).2 true)
    else if max < decVal (digits l).1 then (some max, after (digits l).2 true)
    else (some (if (sign l).1 then (max + 1 - decVal (digits l).1) % (max + 1) else decVal (digits l).1), after (digits l).2 false)

/-- `istream >> x` for a signed type with range `[-lim - 1, lim]`. -/
def readI (lim : Nat) (s : Stream) : Option Int × Stream :=
  match sentry s with
  | none => (none, refused s)
  | some l =>
    if (digits l).1 = [] then (some 0, after (digits l).2 true)
    else if (sign l).1 then
      if lim + 1 < decVal (digits l).1 then (some (-(lim : Int) - 1), after (digits l).2 true)
      else (some (-(decVal (digits l).1 : Int)), after (digits l).2 false)
    else if lim < decVal (digits l).1 then (some lim, after (digits l).2 true)
    else (some (decVal (digits l).1), after (digits l).2 false)

/-- `istream >> b` for `bool` without `boolalpha`: a `long` other than 0 and 1 gives `true` and sets `failbit`. -/
def readB (s : Stream) : Option Bool × Stream :=
  match readI (2 ^ 63 - 1) s with
  | (none, s') => (none, s')
  | (some v, s') => if s'.fail then (some (decide (v ≠ 0)), s') else if v = 0 then (some false, s') else if v = 1 then (some true, s') else (some true, { s' with fail := true })

/-- `istream >> x` for a floating-point type. (`float` and `val_t`: ReadMesh.hpp 140, 209, 273) -/
def readR {K : Type} [Zero K] (dec : List Char → Option K) (s : Stream) : Option K × Stream :=
  match sentry s with
  | none => (none, refused s)
  | some l =>
    match dec (l.takeWhile fun c => !isWs c) with
    | none => (some 0, after (l.dropWhile fun c => !isWs c) true)
    | some x => (some x, after (l.dropWhile fun c => !isWs c) false)

/-- `T x; istream >> x;`: a fresh variable, `none` = still unassigned. (IO.hpp 22-23; ReadMesh.hpp 137-140, 259-262, 292-293, 298-300, 315-316) -/
def var {α : Type} (f : Stream → Option α × Stream) : P (Option α) := fun s => .ok (f s)

/-- Use of a variable. (IO.hpp 24; ReadMesh.hpp 145-191, 264-268, 296, 302, 326-329) -/
def need {α : Type} : Option α → P α
  | some a => pure a
  | none => undefined

/-- `x` or an exception. (`map::at` and `unordered_map::at`, ReadMesh.hpp 302, 322; `default:`, 340-341) -/
def orThrow {α : Type} : Option α → P α
  | some a => pure a
  | none => raise

/-- `util::extract< T >`, IO.hpp 19-25. -/
def extract {α : Type} (f : Stream → Option α × Stream) : P α := var f >>= need

/-- One element of `util::extract< T, N >`, IO.hpp 27-34 (the array is zeroed first). -/
def extract0 (max : Nat) : P Nat := var (readU max) >>= fun v => pure (v.getD 0)

/-- `x` executed `n` times. (the loops in IO.hpp 40-41, ReadMesh.hpp 221-222, 257, 270, 296, 326) -/
def rep {α : Type} : Nat → P α → P (List α)
  | 0, _ => pure []
  | n + 1, x => x >>= fun a => rep n x >>= fun as => pure (a :: as)

/-- `util::ignore< T >(istream, n)`, IO.hpp 36-42. -/
def ignore {α : Type} (f : Stream → Option α × Stream) (n : Nat) : P Unit := rep n (var f) >>= fun _ => pure ()

/-- `*it` of an `std::istream_iterator` (the constructor or `++it` has read the value; after a failure `it` is the end iterator). (ReadMesh.hpp 268, 273, 319) -/
def iterRead {α : Type} (f : Stream → Option α × Stream) : P α := fun s => if (f s).2.fail then .ub else need (f s).1 (f s).2

/-- `std::copy_n(std::istream_iterator< T >(file), n, out)`: the constructor reads the first value even if `n` is 0. -/
def copyN {α : Type} (f : Stream → Option α × Stream) (n : Nat) : P (List α) :=
  if n = 0 then var f >>= fun _ => pure [] else rep n (iterRead f)

/-- First occurrence of `key`: the text after it. (`std::ranges::search`, IO.hpp 94) -/
def search (key : List Char) : List Char → Option (List Char)
  | [] => if key = [] then some [] else none
  | c :: l => if key.isPrefixOf (c :: l) then some ((c :: l).drop key.length) else search key l

/-- `MmappedStreambuf::skipPast`, IO.hpp 91-97, and `skip_until_section`, ReadMesh.hpp 120-123 (the state flags of the stream are not looked at). -/
def skip (key : String) : P Unit := fun s =>
  match search key.toList s.rest with
  | some l => .ok ((), { s with rest := l })
  | none => .throws

/-- Largest `size_t` (ReadMesh.hpp 139, 204, 252). -/
def u64 : Nat := 2 ^ 64 - 1
/-- Largest `d_id_t` (ReadMesh.hpp 215). -/
def u16 : Nat := 2 ^ 16 - 1
/-- Largest `int` (ReadMesh.hpp 208, 218, 259, 298). -/
def i32 : Nat := 2 ^ 31 - 1

section
variable {K : Type} [Field K] [LinearOrder K]

/-- The format check, 145-192: everything but ASCII version 4 is refused. -/
def checkFormat (v : K) (bin : Option Bool) (size : Option Nat) : P Unit :=
  if (4 ≤ v ∧ v < 5) ∨ (2 ≤ v ∧ v < 3) then
    need bin >>= fun b => if b then need size >>= fun _ => raise else if 4 ≤ v then pure () else raise
  else raise

/-- `parse_format`, 134-194. -/
def parseFormat (dec : List Char → Option K) : P Unit :=
  skip "$MeshFormat" >>= fun _ =>
  var (readR dec) >>= fun version => var readB >>= fun bin => var (readU u64) >>= fun size =>
  skip "$EndMeshFormat" >>= fun _ =>
  need version >>= fun v => checkFormat v bin size

/-- The entities with a physical tag: the latest entry of a key counts. (`entity_data_t`, ReadMesh.hpp 200) -/
abbrev EntMap := List ((Nat × Int) × Nat)

/-- `ignore< int >(file, extract< size_t >(file))` for dimensions above 0, 217-218. -/
def skipBounding (dim : Nat) : P Unit := if dim = 0 then pure () else extract (readU u64) >>= ignore (readI i32)

/-- The physical tag, 212-215. -/
def readPhys (m : EntMap) (dim : Nat) (tag : Int) (n : Nat) : P EntMap :=
  if 1 < n then raise else if n = 1 then extract (readU u16) >>= fun p => pure (((dim, tag), p) :: m) else pure m

/-- `parse_entity`, 207-219. -/
def parseEntity (dec : List Char → Option K) (dim : Nat) (m : EntMap) : P EntMap :=
  extract (readI i32) >>= fun tag =>
  ignore (readR dec) (if dim = 0 then 3 else 6) >>= fun _ =>
  extract (readU u64) >>= fun n =>
  readPhys m dim tag n >>= fun m' =>
  skipBounding dim >>= fun _ => pure m'

/-- `for (entity < n_entities[dim])`, 221-222. -/
def parseDim (dec : List Char → Option K) (dim : Nat) : Nat → EntMap → P EntMap
  | 0, m => pure m
  | n + 1, m => parseEntity dec dim m >>= parseDim dec dim n

/-- `parse_entities`, 196-243. -/
def parseEntities (dec : List Char → Option K) : P EntMap :=
  skip "$Entities" >>= fun _ =>
  extract0 u64 >>= fun n0 => extract0 u64 >>= fun n1 => extract0 u64 >>= fun n2 => extract0 u64 >>= fun n3 =>
  parseDim dec 0 n0 [] >>= fun m => parseDim dec 1 n1 m >>= fun m => parseDim dec 2 n2 m >>= fun m => parseDim dec 3 n3 m >>= fun m =>
  skip "$EndEntities" >>= fun _ => pure m

/-- Three coordinates, 272-273. -/
def readPt (dec : List Char → Option K) : P (Pt K) :=
  iterRead (readR dec) >>= fun x => iterRead (readR dec) >>= fun y => iterRead (readR dec) >>= fun z => pure ⟨x, y, z⟩

/-- One block of nodes, 257-276: tags and coordinates. -/
def parseNodeBlock (dec : List Char → Option K) : P (List (Nat × Pt K)) :=
  var (readI i32) >>= fun _dim => var (readI i32) >>= fun _tag => var readB >>= fun par => var (readU u64) >>= fun size =>
  need par >>= fun p => if p then raise else
  need size >>= fun n =>
  copyN (readU u64) n >>= fun tags =>
  rep n (readPt dec) >>= fun pts => pure (tags.zip pts)

/-- `parse_nodes`, 248-284: the nodes in the order of the file. -/
def parseNodeSection (dec : List Char → Option K) : P (List (Nat × Pt K)) :=
  skip "$Nodes" >>= fun _ =>
  extract0 u64 >>= fun nb => extract0 u64 >>= fun _ => extract0 u64 >>= fun _ => extract0 u64 >>= fun _ =>
  rep nb (parseNodeBlock dec) >>= fun bs =>
  skip "$EndNodes" >>= fun _ => pure bs.flatten

/-- `read_element`, 314-325. -/
def readElement (eps : K) (nodes : Algo.AMap Nat (Nat × Pt K)) (dom : Nat) (ty : ElType) : P (Nat × Element × List (Pt K)) :=
  var (readU u64) >>= fun _tag =>
  copyN (readU u64) (2 ^ ty.dim) >>= fun tags =>
  orThrow (tags.mapM fun t => nodes.find t) >>= fun info =>
  pure (dom, ⟨ty, 2, 0, (arrange eps ty info).map (·.1)⟩, (arrange eps ty info).map (·.2))

/-- `gmsh_elt_lookup_tab` and the `switch`. (ReadMesh.hpp 38-45 and 329-342) -/
def elTypeI (t : Int) : Option ElType := if t < 0 then none else elType t.toNat

/-- `entity_data.first[entity_dim].at(entity_tag)`: index into an array of four, then `map::at`. (ReadMesh.hpp 302) -/
def domainOf (ents : EntMap) (dim tag : Int) : P Nat := if dim < 0 ∨ 3 < dim then undefined else orThrow (ents.lookup (dim.toNat, tag))

/-- One block of elements, 296-343. -/
def parseBlock (eps : K) (ents : EntMap) (nodes : Algo.AMap Nat (Nat × Pt K)) : P (List (Nat × Element × List (Pt K))) :=
  var (readI i32) >>= fun dim => var (readI i32) >>= fun tag => var (readI i32) >>= fun type => var (readU u64) >>= fun size =>
  need dim >>= fun d => need tag >>= fun t => domainOf ents d t >>= fun dom =>
  need type >>= fun y => orThrow (elTypeI y) >>= fun ty =>
  need size >>= fun n =>
  rep n (readElement eps nodes dom ty)

/-- `parse_elements`, 286-356. -/
def parseElements (eps : K) (ents : EntMap) (nodes : Algo.AMap Nat (Nat × Pt K)) : P (List (Nat × Element × List (Pt K))) :=
  skip "$Elements" >>= fun _ =>
  var (readU u64) >>= fun nb => var (readU u64) >>= fun _ => var (readU u64) >>= fun _ => var (readU u64) >>= fun _ =>
  need nb >>= fun n => rep n (parseBlock eps ents nodes) >>= fun bs =>
  skip "$EndElements" >>= fun _ => pure bs.flatten

/-- `readMesh`, 106-363: the domains handed to the mesh constructor. -/
def readFile (eps : K) (dec : List Char → Option K) : P DomMap :=
  parseFormat dec >>= fun _ =>
  parseEntities dec >>= fun ents =>
  parseNodeSection dec >>= fun nodes =>
  parseElements eps ents (parseNodes nodes) >>= fun evs =>
  orThrow ((pushAll kinds1 [] (number 0 evs)).map sortVecs)

/-- The whole function on the contents of a file. (`readMesh`, ReadMesh.hpp 106-363) -/
def readText (eps : K) (dec : List Char → Option K) (file : List Char) : Res DomMap :=
  match readFile eps dec ⟨file, false, false⟩ with
  | .ok (m, _) => .ok m
  | .throws => .throws
  | .ub => .ub

end

end Verif.GmshText
