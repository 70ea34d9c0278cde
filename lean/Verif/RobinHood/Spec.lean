import Verif.RobinHood.Model

/-!
# What a map should do

The reference is a partial function from keys to values.  Nothing here refers to slots, info bytes or hashes.
-/
namespace Verif.RobinHood

/-- Calls a user can make on one map.  `insert` stands for `insert`, `emplace` and `try_emplace`, `assign` for
`insert_or_assign` and `map[key] = value`, `find` for `find`, `at`, `count` and `contains`, `items` for a range-based
`for` loop. -/
inductive Op (K V : Type) where
  | insert (k : K) (v : V)
  | assign (k : K) (v : V)
  | erase (k : K)
  | find (k : K)
  | clear
  | reserve (c : Nat) (force : Bool)
  | compact
  | size
  | items

/-- What a call reports. -/
inductive Out (K V : Type) where
  | unit
  | flag (b : Bool)
  | value (o : Option V)
  | count (n : Nat)
  | list (l : List (K × V))

variable {K V : Type}

/-- One call on the table. -/
def step [DecidableEq K] (hash : K → Nat) (t : Tab K V) : Op K V → Res (Tab K V × Out K V)
  | .insert k v => (insert hash t k v).bind fun r => .ok (r.1, .flag r.2)
  | .assign k v => (insertOrAssign hash t k v).bind fun r => .ok (r.1, .flag r.2)
  | .erase k => (erase hash t k).bind fun r => .ok (r.1, .flag r.2)
  | .find k => (find hash t k).bind fun r => .ok (t, .value r)
  | .clear => .ok (clear t, .unit)
  | .reserve c b => (reserve hash t c b).bind fun r => .ok (r, .unit)
  | .compact => (compact hash t).bind fun r => .ok (r, .unit)
  | .size => .ok (t, .count t.num)
  | .items => (items t).bind fun r => .ok (t, .list r)

/-- A sequence of calls. -/
def run [DecidableEq K] (hash : K → Nat) : List (Op K V) → Tab K V → Res (Tab K V × List (Out K V))
  | [], t => .ok (t, [])
  | op :: ops, t =>
    (step hash t op).bind fun r => (run hash ops r.1).bind fun s => .ok (s.1, r.2 :: s.2)

/-- The reference map after a call. -/
def nextMap [DecidableEq K] (m : K → Option V) : Op K V → (K → Option V)
  | .insert k v => fun x => if x = k ∧ m k = none then some v else m x
  | .assign k v => fun x => if x = k then some v else m x
  | .erase k => fun x => if x = k then none else m x
  | .clear => fun _ => none
  | _ => m

/-- What a map with the contents `m` may report. -/
def Reports (m : K → Option V) : Op K V → Out K V → Prop
  | .insert k _, .flag b => b = (m k).isNone
  | .assign k _, .flag b => b = (m k).isNone
  | .erase k, .flag b => b = (m k).isSome
  | .find k, .value o => o = m k
  | .size, .count n => ∃ l : List K, l.Nodup ∧ (∀ k, k ∈ l ↔ m k ≠ none) ∧ l.length = n
  | .items, .list l => (l.map Prod.fst).Nodup ∧ ∀ k v, (k, v) ∈ l ↔ m k = some v
  | .clear, .unit => True
  | .reserve _ _, .unit => True
  | .compact, .unit => True
  | _, _ => False

/-- A whole session is what a map would have reported. -/
def Trace [DecidableEq K] : (K → Option V) → List (Op K V) → List (Out K V) → Prop
  | _, [], [] => True
  | m, op :: ops, o :: os => Reports m op o ∧ Trace (nextMap m op) ops os
  | _, _, _ => False

/-- Number of calls in a session which can add an element. -/
def additions : List (Op K V) → Nat
  | [] => 0
  | .insert _ _ :: ops => additions ops + 1
  | .assign _ _ :: ops => additions ops + 1
  | _ :: ops => additions ops

/-- No call reserves space for more than `2^60` elements. -/
def ModestReserve : List (Op K V) → Prop
  | [] => True
  | .reserve c _ :: ops => c ≤ 2 ^ 60 ∧ ModestReserve ops
  | _ :: ops => ModestReserve ops

end Verif.RobinHood
