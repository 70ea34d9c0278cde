import Verif.Common.Std
/-!
# Model of the sorting/index helpers

Source: `/repo/include/l3ster/util/Algorithm.hpp` lines 19-47, 106-128, 184-219, 295-303 and
`/repo/include/l3ster/util/IndexMap.hpp` lines 11-28.
-/
namespace Verif.Algo

/-- What the standard guarantees about `std::sort(first, last, comp)`: a permutation of the input
in which no element compares less than an earlier one.  (`std::sort` is not stable, so the
result need not be unique.) (postcondition of `std::sort`, Algorithm.hpp 27) -/
structure StdSorted {α} (lt : α → α → Bool) (inp out : List α) : Prop where
  perm : out.Perm inp
  sorted : out.Pairwise fun a b => lt b a = false

/-- `sortingPermutation`, Algorithm.hpp 19-35: sort the indices `0..n-1` by comparing the elements
they point at.  `out` is any list `std::sort` may produce. -/
def SortingPermutation {α} (lt : α → α → Bool) (l : List α) (out : List (Fin l.length)) : Prop :=
  StdSorted (fun a b => lt l[a] l[b]) (List.finRange l.length) out

/-- An executable instance (merge sort). (Algorithm.hpp 19-29) -/
def sortingPermutation {α} (lt : α → α → Bool) (l : List α) : List (Fin l.length) :=
  (List.finRange l.length).mergeSort fun a b => !lt l[b] l[a]

/-- `copyPermuted`, Algorithm.hpp 37-47: `out[k] = in[perm[k]]` for `|in|` steps; `none` if the
permutation is too short or an index is out of range (undefined behaviour). -/
def copyPermuted {α} (l : List α) (perm : List Nat) : Option (List α) :=
  (List.range l.length).mapM fun k => (perm[k]?).bind fun i => l[i]?

/-- `matchingPermutation`, Algorithm.hpp 107-128: for each element of `r_match` the index of the
first element of `r_pattern` satisfying the predicate, or `|r_pattern|` if there is none. -/
def matchingPermutation {α β} (pattern : List α) (mtch : List β) (pred : α → β → Bool) : List Nat :=
  mtch.map fun b => pattern.findIdx fun a => pred a b

/-- `sortRemoveDup`, Algorithm.hpp 184-199. -/
def sortRemoveDup {α} [LinearOrder α] (l : List α) : List α := Std.uniq (Std.sort l)

/-- `getUniqueCopy`, Algorithm.hpp 201-206. -/
def getUniqueCopy {α} [LinearOrder α] (l : List α) : List α :=
  let n := (sortRemoveDup l).length
  if n = l.length then Std.sort l else (sortRemoveDup l).take n

/-- `sortedUniqueElements`, Algorithm.hpp 208-219: the length of the result is computed from a
sorted copy, but `unique_copy` is applied to the array as given.  Writing beyond the result is
undefined (`none`); missing entries stay value-initialised (`default`). -/
def sortedUniqueElements {α} [LinearOrder α] [Inhabited α] (l : List α) : Option (List α) :=
  let n := (Std.uniq (Std.sort l)).length
  let u := Std.uniq l
  if u.length ≤ n then some (u ++ List.replicate (n - u.length) default) else none

/-- A finite map as an association list (unique keys). (`robin_hood::unordered_flat_map`, Algorithm.hpp 295-303; IndexMap.hpp 11-28) -/
abbrev AMap (κ υ : Type) := List (κ × υ)

/-- Map lookup. (IndexMap.hpp 23) -/
def AMap.find {κ υ} [DecidableEq κ] (m : AMap κ υ) (k : κ) : Option υ := m.lookup k

/-- `emplace`: inserts only if the key is absent. (IndexMap.hpp 21; Algorithm.hpp 301) -/
def AMap.emplace {κ υ} [DecidableEq κ] (m : AMap κ υ) (k : κ) (v : υ) : AMap κ υ :=
  match m.lookup k with
  | some _ => m
  | none => (k, v) :: m

/-- `IndexMap` constructor, IndexMap.hpp 15-22: the counter advances for every element, also for
repeated keys; `emplace` keeps the first. -/
def indexMap {κ} [DecidableEq κ] (l : List κ) : AMap κ Nat :=
  (l.foldl (fun (p : AMap κ Nat × Nat) v => (p.1.emplace v p.2, p.2 + 1)) ([], 0)).1

/-- `IndexMap::operator()`, IndexMap.hpp 23: `none` when `at` throws. -/
def indexMapAt {κ} [DecidableEq κ] (l : List κ) (k : κ) : Option Nat := (indexMap l).find k

/-- `invertMap`, Algorithm.hpp 295-303: insert `(val, key)` for every entry, in some iteration
order (the order of the association list). -/
def invertMap {κ} [DecidableEq κ] (m : AMap κ κ) : AMap κ κ :=
  m.foldl (fun r p => r.emplace p.2 p.1) []

end Verif.Algo
