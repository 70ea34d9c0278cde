import Mathlib.Data.List.Forall2

/-!
# Model of `UniVector`

Source: `/repo/include/l3ster/util/UniVector.hpp` 14-256.

A `UniVector<Ts...>` is the list of its vectors, in the order of the types `Ts`; the elements of all vectors
are values of one type `A` here (what the caller's generic function objects distinguish is not restricted).  A
pointer to an element (`ptr_variant_t`) is the pair of the alternative of the variant and the position in that
vector.  Parallel policies may run the calls in any order and group reductions arbitrarily: outcomes of those
are relations.
-/
namespace Verif.UniVec

/-- `std::variant` of pointers: which vector, which position. (`ptr_variant_t`, UniVector.hpp 21-22) -/
abbrev Ptr := Nat × Nat

/-- `try_find_for` folded with `or`, 209-219: `i` is the running offset, `k` the current type. -/
def atLoop {A : Type} (index : Nat) : Nat → Nat → List (List A) → Option Ptr
  | _, _, [] => none
  | i, k, v :: vs => if index < i + v.length then some (k, index - i) else atLoop index (i + v.length) (k + 1) vs

/-- `at`, 206-225; `none` = `std::out_of_range`. -/
def «at» {A : Type} (vs : List (List A)) (index : Nat) : Option Ptr := atLoop index 0 0 vs

/-- `try_find_in` folded with `or`, 153-167. -/
def findLoop {A : Type} (p : A → Bool) : Nat → List (List A) → Option Ptr
  | _, [] => none
  | k, v :: vs => if v.findIdx p < v.length then some (k, v.findIdx p) else findLoop p (k + 1) vs

/-- `find`, 151-179; `none` = empty optional. -/
def find {A : Type} (vs : List (List A)) (p : A → Bool) : Option Ptr := findLoop p 0 vs

/-- Dereferencing. (dereferencing the result of `find`/`at`, UniVector.hpp 152-232) -/
def deref {A : Type} (vs : List (List A)) (q : Ptr) : Option A := (vs[q.1]?).bind (·[q.2]?)

/-- `size`, 181-185. -/
def size {A : Type} (vs : List (List A)) : Nat := (vs.map List.length).sum

/-- `empty`, 193-197. -/
def empty {A : Type} (vs : List (List A)) : Bool := vs.all fun v => v.length == 0

/-- `visit` with the sequential policy, 86-104: the calls in order. -/
def visitSeq {A : Type} (vs : List (List A)) : List A := vs.flatMap fun v => v

/-- A parallel loop over a vector (`tbb::parallelFor`) or over the vectors (`parallel_invoke`): the calls of
the parts happen in some interleaving; the order is arbitrary. (UniVector.hpp 90-118, parallel branch 98-101, 113-116) -/
def VisitPar {A : Type} (vs : List (List A)) (calls : List A) : Prop :=
  ∃ parts, List.Forall₂ (fun v c => List.Perm c v) vs parts ∧ calls.Perm parts.flatten

/-- The bracketing chosen by one run of a reduction. (the order of combination in `parallelTransformReduce`, UniVector.hpp 143) -/
inductive Tree (Z : Type) where
  | leaf (z : Z)
  | node (l r : Tree Z)

/-- UniVector.hpp 143 -/
def Tree.leaves {Z : Type} : Tree Z → List Z
  | .leaf z => [z]
  | .node l r => l.leaves ++ r.leaves

/-- UniVector.hpp 120-150 -/
def Tree.eval {Z : Type} (op : Z → Z → Z) : Tree Z → Z
  | .leaf z => z
  | .node l r => op (l.eval op) (r.eval op)

/-- `std::transform_reduce`, `std::reduce`: generalised sum of the operands and the initial value (`k = 0`);
`tbb::parallel_reduce` may use the identity more often. -/
def Reduces {Z : Type} (op : Z → Z → Z) (zero : Z) (k : Nat) (l : List Z) (x : Z) : Prop :=
  ∃ t : Tree Z, t.leaves.Perm (List.replicate (k + 1) zero ++ l) ∧ t.eval op = x

/-- `transformReduce`, 119-149, sequential policy. -/
def TransformReduceSeq {A Z : Type} (zero : Z) (f : A → Z) (op : Z → Z → Z) (vs : List (List A)) (x : Z) : Prop :=
  ∃ xs, List.Forall₂ (fun v y => Reduces op zero 0 (v.map f) y) vs xs ∧ Reduces op zero 0 xs x

/-- `transformReduce`, 119-149, parallel policy. -/
def TransformReducePar {A Z : Type} (zero : Z) (f : A → Z) (op : Z → Z → Z) (vs : List (List A)) (x : Z) : Prop :=
  ∃ xs, List.Forall₂ (fun v y => ∃ k, Reduces op zero k (v.map f) y) vs xs ∧ Reduces op zero 0 xs x

end Verif.UniVec
