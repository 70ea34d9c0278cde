import Mathlib.Logic.Function.Basic
import Mathlib.Data.List.Basic

/-!
# Parallel loops

Model of /repo/include/l3ster/util/TbbUtils.hpp 24-61: `parallelFor` over random access ranges and `parallelTransform`.  The library hands `[0, n)` to
`oneapi::tbb::parallel_for`, which splits it into subranges as it sees fit; the subranges are run by threads, at the same time or one after another.

Simplifications: memory is sequentially consistent at the granularity of elements, a call of the kernel together with the read of its argument is one step, the store of the result another;
kernels depend on their argument only.  For `parallelFor` (kernels changing the element they are given) the output is the input.  When a kernel throws, TBB
lets running subranges go on or stops them; the states reached are states of this model.  Not modelled: the overload for ranges without random access (42-48, `parallel_for_each`).
-/
namespace Verif.ParFor

/-- The subranges into which TBB splits `[lo, hi)`: any tree of splits. (`parallel_for` with the blocked range of `makeBlockedIterSpace`, TbbUtils.hpp 25-29, 36, 58) -/
inductive Leaves : Nat → Nat → List (Nat × Nat) → Prop
  | leaf {lo hi : Nat} (h : lo ≤ hi) : Leaves lo hi [(lo, hi)]
  | split {lo mid hi : Nat} {l r : List (Nat × Nat)} (hl : Leaves lo mid l) (hr : Leaves mid hi r) : Leaves lo hi (l ++ r)

/-- Where the loop is: the memory; for each subrange the index it is at, the result not yet stored, and whether its kernel has thrown; indices of the calls and stores so far.
(TbbUtils.hpp 36-40, 58-61) -/
structure St (α : Type) where
  mem : Nat → α
  next : Nat → Nat
  reg : Nat → Option α
  dead : Nat → Bool
  calls : List Nat
  stores : List Nat

/-- Before the loop: every subrange is at its begin. (`std::views::iota(subrange.begin(), ...)`, TbbUtils.hpp 38, 59) -/
def start {α : Type} (leaves : List (Nat × Nat)) (mem : Nat → α) : St α :=
  ⟨mem, fun k => (leaves.getD k (0, 0)).1, fun _ => none, fun _ => false, [], []⟩

/-- One step of one subrange; `f x = none`: the kernel throws on `x`; the input is at address `a`, the output at `b`. -/
inductive Step {α : Type} (f : α → Option α) (a b : Nat) (leaves : List (Nat × Nat)) : St α → St α → Prop
  /-- `std::invoke(kernel, range_begin[i])`, TbbUtils.hpp 39, 60. -/
  | call {s : St α} (k lo hi : Nat) (v : α) (hk : leaves[k]? = some (lo, hi)) (hd : s.dead k = false) (hr : s.reg k = none) (hn : s.next k < hi) (hv : f (s.mem (a + s.next k)) = some v) :
      Step f a b leaves s { s with reg := Function.update s.reg k (some v), calls := s.next k :: s.calls }
  /-- The kernel throws, TbbUtils.hpp 39, 60. -/
  | throw {s : St α} (k lo hi : Nat) (hk : leaves[k]? = some (lo, hi)) (hd : s.dead k = false) (hr : s.reg k = none) (hn : s.next k < hi) (hv : f (s.mem (a + s.next k)) = none) :
      Step f a b leaves s { s with dead := Function.update s.dead k true, calls := s.next k :: s.calls }
  /-- `output_iter[i] = ...` and the end of the iteration, TbbUtils.hpp 59-60. -/
  | store {s : St α} (k lo hi : Nat) (v : α) (hk : leaves[k]? = some (lo, hi)) (hr : s.reg k = some v) :
      Step f a b leaves s { s with mem := Function.update s.mem (b + s.next k) v, next := Function.update s.next k (s.next k + 1), reg := Function.update s.reg k none, stores := s.next k :: s.stores }

/-- `m` steps, of any subranges in any order. (The schedule of `oneapi::tbb::parallel_for`, TbbUtils.hpp 36, 58) -/
inductive Run {α : Type} (f : α → Option α) (a b : Nat) (leaves : List (Nat × Nat)) (s : St α) : Nat → St α → Prop
  | zero : Run f a b leaves s 0 s
  | step {m : Nat} {t u : St α} (h : Run f a b leaves s m t) (hs : Step f a b leaves t u) : Run f a b leaves s (m + 1) u

/-- All subranges are done: the call returns. (TbbUtils.hpp 36-41, 58-61) -/
def Returned {α : Type} (leaves : List (Nat × Nat)) (s : St α) : Prop := ∀ (k lo hi : Nat), leaves[k]? = some (lo, hi) → s.next k = hi

end Verif.ParFor
