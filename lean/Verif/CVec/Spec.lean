import Verif.CVec.Model

/-
What a vector is for its user: a list.  Nothing here mentions memory.
-/

namespace Verif.CVec

variable {α : Type}

/-- The vectors of a program as lists; `none` once destroyed. -/
abbrev Lists (α : Type) := List (Option (List α))

def Lists.at (ls : Lists α) (s : Nat) : Option (List α) :=
  match ls[s]? with
  | some (some l) => some l
  | _ => none

/-- What each operation means; `none` when the caller has broken a precondition (a destroyed vector, `popBack` on
an empty one, an index out of range). -/
def spec (ls : Lists α) : Op α → Option (Lists α)
  | .default => some (ls ++ [some []])
  | .fill n v => some (ls ++ [some (List.replicate n v)])
  | .ofList l => some (ls ++ [some l])
  | .copy s => (ls.at s).bind fun l => some (ls ++ [some l])
  | .move s => (ls.at s).bind fun l => some (ls.set s (some []) ++ [some l])
  | .moveAssign d s => (ls.at d).bind fun _ => (ls.at s).bind fun l =>
      if d = s then some ls else some ((ls.set d (some l)).set s (some []))
  | .destroy s => (ls.at s).bind fun _ => some (ls.set s none)
  | .reserve s _ => (ls.at s).bind fun _ => some ls
  | .push s v => (ls.at s).bind fun l => some (ls.set s (some (l ++ [v])))
  | .pushOf s d k => (ls.at s).bind fun l => (ls.at d).bind fun m => m[k]?.bind fun v =>
      some (ls.set s (some (l ++ [v])))
  | .pop s => (ls.at s).bind fun l => if l = [] then none else some (ls.set s (some l.dropLast))
  | .clear s => (ls.at s).bind fun _ => some (ls.set s (some []))
  | .set s k v => (ls.at s).bind fun l => if k < l.length then some (ls.set s (some (l.set k v))) else none

def specRun (ls : Lists α) : List (Op α) → Option (Lists α)
  | [] => some ls
  | o :: os => (spec ls o).bind fun ls' => specRun ls' os

/-- The user sees the lists: every vector has the right size and elements, and reading past the end is not
defined. -/
def Shows (st : St α) (ls : Lists α) : Prop :=
  (∀ s, st.size s = (ls.at s).map List.length) ∧
    ∀ s k, st.get s k = (ls.at s).bind fun l => l[k]?

/-- No memory is held. -/
def Clean (st : St α) : Prop := ∀ b ∈ st.heap, b = none

/-- Does the operation append a reference into the vector it appends to? -/
def Op.own : Op α → Bool
  | .pushOf s d _ => s == d
  | _ => false

/-- Appending an element of the vector itself happens only while `size() < capacity()`. -/
def Room (st : St α) : Op α → Prop
  | .pushOf s d _ => s = d → ∀ v, st.vec s = some v → v.size < v.cap
  | _ => True

/-- So it is throughout the program. -/
def RoomRun (st : St α) : List (Op α) → Prop
  | [] => True
  | o :: os => Room st o ∧ ∀ st', step st o = some st' → RoomRun st' os

end Verif.CVec
