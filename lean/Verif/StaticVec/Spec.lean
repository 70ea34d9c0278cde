import Verif.StaticVec.Model
/-! # Specification of a bounded list -/
namespace Verif.StaticVec

/-- The preconditions of an operation on a list of length `len` in a vector of capacity `cap`. -/
def Op.Pre {α} (cap len : Nat) : Op α → Prop
  | .push _ => True
  | .pop => 0 < len
  | .erase i j => i ≤ j ∧ j ≤ len
  | .resize n _ => n ≤ cap

/-- Effect on the list; `none` if the operation must fail (full vector). -/
def Op.spec {α} (cap : Nat) (l : List α) : Op α → Option (List α)
  | .push x => if l.length < cap then some (l ++ [x]) else none
  | .pop => some l.dropLast
  | .erase i j => some (l.take i ++ l.drop j)
  | .resize n x => some (l.take n ++ List.replicate (n - l.length) x)

/-- A history of the abstract list with the number of failures. -/
def specRun {α} (cap : Nat) (l : List α) : List (Op α) → List α × Nat
  | [] => (l, 0)
  | op :: ops => match op.spec cap l with
    | some l' => specRun cap l' ops
    | none => let r := specRun cap l ops; (r.1, r.2 + 1)

/-- All preconditions along a history. -/
def PreAll {α} (cap : Nat) (l : List α) : List (Op α) → Prop
  | [] => True
  | op :: ops => op.Pre cap l.length ∧ match op.spec cap l with
    | some l' => PreAll cap l' ops
    | none => PreAll cap l ops

end Verif.StaticVec
