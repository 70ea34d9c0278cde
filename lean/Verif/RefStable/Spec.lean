import Verif.RefStable.Model

namespace Verif.RefStable

variable {α : Type}

/-- A collection as a list. -/
def spec (l : List α) : Op α → Option (List α)
  | .emplace v => some (l ++ [v])
  | .emplaceOf k => l[k]?.bind fun v => some (l ++ [v])
  | .write k v => if k < l.length then some (l.set k v) else none

def specRun (l : List α) : List (Op α) → Option (List α)
  | [] => some l
  | o :: os => (spec l o).bind fun l' => specRun l' os

/-- The preconditions of a program of unique pointers: only pointers that exist are used.  The state says which
are alive. -/
def ualive (l : List Bool) : UOp α → Option (List Bool)
  | .null => some (l ++ [true])
  | .make _ => some (l ++ [true])
  | .move s => if l[s]? = some true then some (l ++ [true]) else none
  | .moveAssign d s => if l[d]? = some true ∧ l[s]? = some true then some l else none
  | .destroy s => if l[s]? = some true then some (l.set s false) else none

def ualiveRun (l : List Bool) : List (UOp α) → Option (List Bool)
  | [] => some l
  | o :: os => (ualive l o).bind fun l' => ualiveRun l' os

/-- Move assignment goes only to null pointers or to itself. -/
def NullTarget (st : UState α) : UOp α → Prop
  | .moveAssign d s => d = s ∨ st.ptr d = some none
  | _ => True

def NullTargets (st : UState α) : List (UOp α) → Prop
  | [] => True
  | o :: os => NullTarget st o ∧ ∀ st', ustep st o = some st' → NullTargets st' os

end Verif.RefStable
