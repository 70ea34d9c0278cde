/-!
# Model of `StaticVector`

Source: `/repo/include/l3ster/util/StaticVector.hpp`, lines 11-84.

The storage is the fixed `std::array` (a list whose length is the capacity) plus `m_size`.
Pointers returned by `erase` are positions relative to `begin()`.  A moved-from element keeps
its value (true for trivially copyable types; such elements lie behind the new end).
Outcomes distinguish exceptions from undefined behaviour.
-/
namespace Verif.StaticVec

/-- Outcome of an operation. (auxiliary; exception StaticVector.hpp 69) -/
inductive Out (σ ρ : Type) where
  | ok (s : σ) (r : ρ)
  | threw
  | ub
deriving DecidableEq, Repr

/-- Storage (length = capacity) and size, lines 82-83. -/
structure SV (α : Type) where
  data : List α
  size : Nat
deriving DecidableEq, Repr

/-- Operations of the public interface. (StaticVector.hpp 39-79) -/
inductive Op (α : Type) where
  | push (x : α)
  | pop
  | erase (i j : Nat)
  | resize (n : Nat) (x : α)
deriving DecidableEq, Repr

/-- Default construction: size 0 (line 83); the array holds arbitrary default values `d`. -/
def SV.new {α} (d : List α) : SV α := ⟨d, 0⟩

/-- Construction from a sized range, lines 31-37: size taken from the range, elements copied into
the array without a check against the capacity. -/
def SV.ofSized {α} (d l : List α) : Out (SV α) Unit :=
  if l.length ≤ d.length then .ok ⟨l ++ d.drop l.length, l.length⟩ () else .ub

/-- `std::move(last, end(), first)` on line 75: forward element-wise moves within the array,
`n = end - last` steps from position `j` to position `i`. -/
def moveRange {α} (d : List α) (i j n : Nat) : List α :=
  (List.range n).foldl (fun d k => match d[j + k]? with
    | some x => d.set (i + k) x
    | none => d) d

/-- `std::fill(end(), begin() + n, x)` on line 63. -/
def fillRange {α} (d : List α) (lo hi : Nat) (x : α) : List α :=
  (List.range (hi - lo)).foldl (fun d k => d.set (lo + k) x) d

/-- `push_back`, lines 67-71: throws `bad_alloc` when full. -/
def SV.push {α} (v : SV α) (x : α) : Out (SV α) Unit :=
  if v.size < v.data.length then .ok ⟨v.data.set v.size x, v.size + 1⟩ () else .threw

/-- `pop_back`, line 72: undefined for an empty vector (`--m_size` wraps). -/
def SV.pop {α} (v : SV α) : Out (SV α) Unit :=
  if v.size = 0 then .ub else .ok ⟨v.data, v.size - 1⟩ ()

/-- `erase(first, last)`, lines 73-79, with positions `i`, `j`; returns the position `last`. -/
def SV.erase {α} (v : SV α) (i j : Nat) : Out (SV α) Nat :=
  if i ≤ j ∧ j ≤ v.size then .ok ⟨moveRange v.data i j (v.size - j), v.size - (j - i)⟩ j else .ub

/-- `resize(n, x)`, lines 57-66: no check against the capacity when growing. -/
def SV.resize {α} (v : SV α) (n : Nat) (x : α) : Out (SV α) Unit :=
  if n ≤ v.size then
    match v.erase n v.size with
    | .ok v' _ => .ok v' ()
    | .threw => .threw
    | .ub => .ub
  else if n ≤ v.data.length then .ok ⟨fillRange v.data v.size n x, n⟩ ()
  else .ub

/-- One operation; the optional position is the result of `erase`. (StaticVector.hpp 57-79) -/
def SV.step {α} (v : SV α) : Op α → Out (SV α) (Option Nat)
  | .push x => match v.push x with
    | .ok v' _ => .ok v' none
    | .threw => .threw
    | .ub => .ub
  | .pop => match v.pop with
    | .ok v' _ => .ok v' none
    | .threw => .threw
    | .ub => .ub
  | .erase i j => match v.erase i j with
    | .ok v' r => .ok v' (some r)
    | .threw => .threw
    | .ub => .ub
  | .resize n x => match v.resize n x with
    | .ok v' _ => .ok v' none
    | .threw => .threw
    | .ub => .ub

/-- A history: exceptions are caught by the caller and leave the object as it is; the number of
exceptions is recorded.  `none` stands for undefined behaviour. (calls of StaticVector.hpp 57-79) -/
def SV.run {α} (v : SV α) : List (Op α) → Option (SV α × Nat)
  | [] => some (v, 0)
  | op :: ops => match v.step op with
    | .ok v' _ => v'.run ops
    | .threw => (v.run ops).map fun p => (p.1, p.2 + 1)
    | .ub => none

/-- Visible content `[begin(), end())`, lines 39-42. -/
def SV.content {α} (v : SV α) : List α := v.data.take v.size

/-! ## Lifetimes (for element types with non-trivial destructor)

The array constructs all `capacity` objects and destroys them all at the end.  `pop_back`/`erase`
call `destroy_at` explicitly; `push_back`/`resize` assign to the object at that position. -/

/-- Life state of each array element: `alive[i]`, and whether undefined behaviour (assignment to
or destruction of a dead object) has occurred. (StaticVector.hpp 82) -/
structure Life where
  alive : List Bool
  size : Nat
  bad : Bool
deriving DecidableEq, Repr

/-- Use (assign to) the object at `i`. (StaticVector.hpp 63, 70, 75) -/
def Life.use (l : Life) (i : Nat) : Life := if l.alive[i]? = some true then l else { l with bad := true }
/-- Destroy the object at `i`. (StaticVector.hpp 72, 76) -/
def Life.kill (l : Life) (i : Nat) : Life :=
  if l.alive[i]? = some true then { l with alive := l.alive.set i false } else { l with bad := true }

/-- Life-time effect of `push_back` (line 70: assignment to `m_data[m_size]`). -/
def Life.push (l : Life) : Life :=
  if l.size < l.alive.length then { l.use l.size with size := l.size + 1 } else l
/-- Life-time effect of `pop_back` (line 72: `destroy_at`). -/
def Life.pop (l : Life) : Life := { l.kill (l.size - 1) with size := l.size - 1 }
/-- End of life: the array destructor destroys every element. (StaticVector.hpp 82, implicit destructor) -/
def Life.finish (l : Life) : Life := (List.range l.alive.length).foldl Life.kill l
/-- A history of pushes (`true`) and pops (`false`) on a default constructed vector of the given
capacity, including the final destruction; result: did undefined behaviour occur? (StaticVector.hpp 67-72, 82) -/
def Life.badRun (cap : Nat) (ops : List Bool) : Bool :=
  (ops.foldl (fun l b => if b then l.push else l.pop) (⟨List.replicate cap true, 0, false⟩ : Life)).finish.bad

end Verif.StaticVec
