import Verif.ArrOwn.Model
import Mathlib.Data.List.Lex

/-
What a fixed-size array is, in terms of lists. Contents not written yet are `none`.
-/

namespace Verif.ArrOwn

variable {T : Type}

/-- An array: its contents, or nothing in particular after it was moved from. -/
inductive AVal (T : Type) where
  | arr (l : List (Option T))
  | moved

abbrev AStore (T : Type) := Nat → Option (AVal T)

/-- The contents of a living array that was not moved from. -/
def sget (st : AStore T) (s : Nat) : Out (List (Option T)) :=
  match st s with
  | some (.arr l) => .ok l
  | _ => .ub

/-- A living array. -/
def salive (st : AStore T) (s : Nat) : Out Unit :=
  match st s with
  | some _ => .ok ()
  | none => .ub

/-- All elements, if all were written. -/
def known (l : List (Option T)) : Out (List T) := if l.all Option.isSome then .ok (l.filterMap id) else .ub

/-- Element `i`, if there is one and it was written. -/
def nth (l : List (Option T)) (i : Nat) : Out T :=
  match l[i]? with
  | some (some v) => .ok v
  | _ => .ub

/-- A new array with the given contents. -/
def snew (cap : Nat) (st : AStore T) (d : Nat) (l : List (Option T)) : Out (AStore T × Val T) :=
  match st d with
  | some _ => .ub
  | none => if cap < l.length then .throws else .ok (Function.update st d (some (.arr l)), .unit)

/-- What each operation does; `ub`: a program may not do it. -/
def sstep [LinearOrder T] (cap : Nat) (st : AStore T) : Op T → Out (AStore T × Val T)
  | .mk d => snew cap st d []
  | .sized d n => snew cap st d (List.replicate n none)
  | .aligned d n => snew cap st d (List.replicate n none)
  | .fill d n v => snew cap st d (List.replicate n (some v))
  | .range d l => snew cap st d (l.map some)
  | .input d l => snew cap st d (l.map some)
  | .copy d s => (sget st s).bind fun l => (known l).bind fun k => snew cap st d (k.map some)
  | .move d s => (sget st s).bind fun l => (snew cap st d l).bind fun r => .ok (Function.update r.1 s (some .moved), .unit)
  | .moveAssign d s => (salive st d).bind fun _ => (sget st s).bind fun l =>
      if d = s then .ok (st, .unit) else .ok (Function.update (Function.update st d (some (.arr l))) s (some .moved), .unit)
  | .assign d l => (salive st d).bind fun _ => if cap < l.length then .throws else .ok (Function.update st d (some (.arr (l.map some))), .unit)
  | .size s => (sget st s).bind fun l => .ok (st, .nat l.length)
  | .empty s => (sget st s).bind fun l => .ok (st, .bool l.isEmpty)
  | .at s i => (sget st s).bind fun l => if i < l.length then (nth l i).bind fun v => .ok (st, .val v) else .throws
  | .setAt s i v => (sget st s).bind fun l => if i < l.length then .ok (Function.update st s (some (.arr (l.set i (some v)))), .unit) else .throws
  | .read s i => (sget st s).bind fun l => (nth l i).bind fun v => .ok (st, .val v)
  | .write s i v => (sget st s).bind fun l => if i < l.length then .ok (Function.update st s (some (.arr (l.set i (some v)))), .unit) else .ub
  | .front s => (sget st s).bind fun l => (nth l 0).bind fun v => .ok (st, .val v)
  | .back s => (sget st s).bind fun l =>
      match l.getLast? with
      | some (some v) => .ok (st, .val v)
      | _ => .ub
  | .list s => (sget st s).bind fun l => (known l).bind fun k => .ok (st, .list k)
  | .eq s t => (sget st s).bind fun l => (sget st t).bind fun m => (known l).bind fun k => (known m).bind fun k' => .ok (st, .bool (decide (k = k')))
  | .cmp s t => (sget st s).bind fun l => (sget st t).bind fun m => (known l).bind fun k => (known m).bind fun k' =>
      .ok (st, .ord (if k < k' then .lt else if k = k' then .eq else .gt))
  | .destroy s => (salive st s).bind fun _ => .ok (Function.update st s none, .unit)

/-- What the operations of a program return; `none` if it does what it may not. -/
def srun [LinearOrder T] (cap : Nat) (st : AStore T) : List (Op T) → Option (AStore T × List (Option (Val T)))
  | [] => some (st, [])
  | o :: os =>
    match sstep cap st o with
    | .ok (st', v) => (srun cap st' os).map fun r => (r.1, some v :: r.2)
    | .throws => (srun cap st os).map fun r => (r.1, none :: r.2)
    | .ub => none

/-- Arrays are neither made from single-pass ranges nor, unless the element type is over-aligned, with an explicit alignment. -/
def Careful (over : Bool) : Op T → Prop
  | .aligned _ _ => over = true
  | .input _ _ => False
  | _ => True

end Verif.ArrOwn
