import Mathlib.Logic.Function.Basic

/-
Model of `WeakCache`, /repo/include/l3ster/util/WeakCache.hpp.

The program has shared pointers, by number: null or the number of an object. Objects are numbered in the order in
which they were made. The standard library is taken at its word: an object lives as long as a shared pointer to it,
`lock` gives a shared pointer to a living object and null otherwise, and the unordered map (with a hash and an equality
that fit) is a map.
-/

namespace Verif.WeakC

variable {K V : Type}

/-- Objects made so far with the key they were made for; `m_cache` (WeakCache.hpp 23), weak pointers; shared pointers of the program. -/
structure State (K V : Type) where
  objs : List (K × V)
  cache : K → Option Nat
  ptrs : List (Option Nat)

/-- Nothing made yet. (WeakCache.hpp 11-24) -/
def State.init : State K V := ⟨[], fun _ => none, []⟩

/-- `weak_ptr::lock`, used in WeakCache.hpp 31. -/
def State.lock (s : State K V) (i : Nat) : Option Nat := if some i ∈ s.ptrs then some i else none

/-- `contains`, WeakCache.hpp 16. -/
def State.contains (s : State K V) (k : K) : Bool := (s.cache k).isSome

/-- `get`, WeakCache.hpp 26-32. -/
def State.get (s : State K V) (k : K) : Option Nat :=
  match s.cache k with
  | some i => s.lock i
  | none => none

/-- `emplace`, WeakCache.hpp 34-44: a new object, to which the cache now points. -/
def State.emplace [DecidableEq K] (s : State K V) (k : K) (v : V) : State K V :=
  ⟨s.objs ++ [(k, v)], Function.update s.cache k (some s.objs.length), s.ptrs ++ [some s.objs.length]⟩

/-- What a program does; results are kept in new pointers. (WeakCache.hpp 16-20) -/
inductive Op (K V : Type) where
  | emplace (k : K) (v : V)   -- 34-44
  | get (k : K)               -- 26-32
  | copy (p : Nat)            -- another owner
  | reset (p : Nat)           -- the end of an owner

/-- One operation; `none`: there is no such pointer. (WeakCache.hpp 16-20) -/
def step [DecidableEq K] (s : State K V) : Op K V → Option (State K V)
  | .emplace k v => some (s.emplace k v)
  | .get k => some { s with ptrs := s.ptrs ++ [s.get k] }
  | .copy p => s.ptrs[p]?.bind fun x => some { s with ptrs := s.ptrs ++ [x] }
  | .reset p => s.ptrs[p]?.bind fun _ => some { s with ptrs := s.ptrs.set p none }

/-- A program. (WeakCache.hpp 11-24) -/
def run [DecidableEq K] (s : State K V) : List (Op K V) → Option (State K V)
  | [] => some s
  | o :: os => (step s o).bind fun s' => run s' os

/-- The way a cache is used: take what is there, make it otherwise. (WeakCache.hpp 16-20) -/
inductive Use (K V : Type) where
  | obtain (k : K) (v : V)
  | copy (p : Nat)
  | reset (p : Nat)

/-- `auto p = cache.get(k); if (not p) p = cache.emplace(k, v);` with the functions of WeakCache.hpp 26-44. -/
def useStep [DecidableEq K] (s : State K V) : Use K V → Option (State K V)
  | .obtain k v =>
    match s.get k with
    | some i => some { s with ptrs := s.ptrs ++ [some i] }
    | none => some (s.emplace k v)
  | .copy p => step s (.copy p)
  | .reset p => step s (.reset p)

/-- A program that only uses the cache this way. (WeakCache.hpp 16-20) -/
def useRun [DecidableEq K] (s : State K V) : List (Use K V) → Option (State K V)
  | [] => some s
  | o :: os => (useStep s o).bind fun s' => useRun s' os

end Verif.WeakC
