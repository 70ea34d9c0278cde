import Verif.Bitset.Model
/-!
# Specification: a bitset of size `n` is a function `Nat → Bool` that is false from `n` on.
Only the operation names are shared with the model.
-/
namespace Verif.Bitset

/-- Abstract bitset. -/
structure ASet where
  size : Nat
  mem : Nat → Bool

/-- Empty bitset of size `n`. -/
def ASet.new (n : Nat) : ASet := ⟨n, fun _ => false⟩

/-- Meaning of the operations. -/
def ASet.step (s : ASet) : Op → ASet
  | .set p => { s with mem := fun i => if i = p then true else s.mem i }
  | .reset p => { s with mem := fun i => if i = p then false else s.mem i }
  | .flip p => { s with mem := fun i => if i = p then !s.mem i else s.mem i }
  | .assign p v => { s with mem := fun i => if i = p then v else s.mem i }
  | .clear => { s with mem := fun _ => false }
  | .resize n => ⟨n, fun i => if i < n then s.mem i else false⟩

/-- The operation only addresses positions below the current size. -/
def ASet.inRange (s : ASet) : Op → Prop
  | .set p | .reset p | .flip p | .assign p _ => p < s.size
  | .clear | .resize _ => True

/-- All operations of a history are in range. -/
def ASet.allInRange (s : ASet) : List Op → Prop
  | [] => True
  | op :: ops => s.inRange op ∧ (s.step op).allInRange ops

/-- Meaning of a history. -/
def ASet.run (s : ASet) (ops : List Op) : ASet := ops.foldl ASet.step s

/-- No operation of the history shrinks the bitset while a bit is set in the discarded part
of the last retained 64-bit word. -/
def ASet.noLossyShrink (s : ASet) : List Op → Prop
  | [] => True
  | op :: ops =>
    (match op with
     | .resize n => ∀ i, n ≤ i → i < s.size → i < 64 * ((n + 63) / 64) → s.mem i = false
     | _ => True) ∧ (s.step op).noLossyShrink ops

/-- Number of set positions in a window. -/
def ASet.countIn (s : ASet) (lo hi : Nat) : Nat := (List.range' lo (hi - lo)).countP s.mem

end Verif.Bitset
