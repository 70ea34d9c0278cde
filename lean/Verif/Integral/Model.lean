import Mathlib.Algebra.BigOperators.Group.List.Basic
import Mathlib.Algebra.Field.Rat
import Mathlib.Algebra.Group.Pi.Basic
import Mathlib.Algebra.Ring.Basic
import Mathlib.Data.List.Forall2

/-!
# Model of distributed integrals

Sources: `/repo/include/l3ster/post/Integral.hpp` 12-123, `post/NormL2.hpp` 10-60,
`mesh/MeshPartition.hpp` 372-408, `util/UniVector.hpp` 119-149, `util/TbbUtils.hpp` 70-89,
`quad/EvalQuadrature.hpp` 60-77.

A kernel result (`Rhs`, an Eigen matrix of `n_equations` rows and `n_rhs` columns) is its linear
storage, a function of the linear index: entry (eq, rhs) is at `eq + n_equations * rhs`.  Arithmetic is
exact.  Elements (or boundary views) are abstract; each comes with what the kernel yields at its
quadrature points.  Parallel reductions may group and reorder their operands arbitrarily and may insert
the identity any number of times: they are relations.
-/
namespace Verif.Integral

/-- The bracketing chosen by a run of a parallel reduction. (Integral.hpp 77, 104) -/
inductive Tree (A : Type) where
  | leaf (a : A)
  | node (l r : Tree A)

/-- Integral.hpp 77, 104 -/
def Tree.leaves {A : Type} : Tree A → List A
  | .leaf a => [a]
  | .node l r => l.leaves ++ r.leaves

/-- Integral.hpp 77, 104 -/
def Tree.eval {A : Type} [Add A] : Tree A → A
  | .leaf a => a
  | .node l r => l.eval + r.eval

/-- `x` is a possible result of `std::reduce`, `std::transform_reduce` or `tbb::parallel_reduce` with
`std::plus` and initial value (identity) `zero` over the values `l`. (Integral.hpp 77, 104) -/
def Reduces {A : Type} [Add A] (zero : A) (l : List A) (x : A) : Prop :=
  ∃ (t : Tree A) (k : Nat), t.leaves.Perm (List.replicate (k + 1) zero ++ l) ∧ t.eval = x

/-- `UniVector::transformReduce`, UniVector.hpp 119-149: each vector is reduced, then the results. -/
def ReducesVecs {A E : Type} [Add A] (zero : A) (f : E → A) (vs : List (List E)) (x : A) : Prop :=
  ∃ xs, List.Forall₂ (fun v y => Reduces zero (v.map f) y) vs xs ∧ Reduces zero xs x

/-- The groups (domains, or boundaries) of a mesh part: id and the vectors of its `UniVector`. (MeshPartition.hpp 372-408) -/
abbrev Groups (E : Type) := List (Nat × List (List E))

/-- `filterExistingDomainIds` / `filterExistingBoundaryIds`. (MeshPartition.hpp 372-408) -/
def existing {E : Type} (m : Groups E) (ids : List Nat) : List Nat := ids.filter fun i => (m.lookup i).isSome

/-- `MeshPartition::transformReduce` 372-389, `transformReduceBoundaries` 391-408. -/
def ReducesMesh {A E : Type} [Add A] (zero : A) (f : E → A) (m : Groups E) (ids : List Nat) (x : A) : Prop :=
  ∃ xs, List.Forall₂ (fun i y => ∃ vs, m.lookup i = some vs ∧ ReducesVecs zero f vs y) (existing m ids) xs ∧
    Reduces zero xs x

variable {K : Type} [Field K]

/-- One quadrature point of an element: weight, Jacobian of the map at the point, kernel result. (Integral.hpp 20-27) -/
structure QPoint (K : Type) where
  weight : K
  jacobian : K
  result : Nat → K

/-- An element: its dimension and quadrature points. (Integral.hpp 11-30) -/
structure El (K : Type) where
  dim : Nat
  qps : List (QPoint K)

/-- `evalElementIntegral` 11-30 with `evalQuadrature` (EvalQuadrature.hpp 63-76): from zero, add
`(jacobian * kernel) * weight`. -/
def elementIntegral (e : El K) : Nat → K :=
  e.qps.foldl (fun acc q => fun i => acc i + q.jacobian * q.result i * q.weight) fun _ => 0

/-- `reduce_element`, 62-75 and 88-102: elements of another dimension contribute zero. -/
def reduceElement (dim : Nat) (e : El K) : Nat → K :=
  if dim = e.dim then elementIntegral e else fun _ => 0

/-- `evalLocalIntegral`, 54-105. -/
def LocalIntegral (dim : Nat) (m : Groups (El K)) (ids : List Nat) (x : Nat → K) : Prop :=
  ReducesMesh (fun _ => 0) (reduceElement dim) m ids x

/-- `MPI_Allreduce` with `MPI_SUM` of the first `count` entries of each rank's storage into the storage
of `out`. (Integral.hpp 119-120) -/
def allReduceSum (count : Nat) (locals : List (Nat → K)) (out : Nat → K) : Nat → K :=
  fun i => if i < count then (locals.map (· i)).sum else out i

/-- `computeIntegral`, 108-122: the communicated view has `n_equations` entries; the result starts at
zero.  One mesh part per rank; `locals` are the local integrals the ranks obtained. -/
def computeIntegral (nEq : Nat) (locals : List (Nat → K)) : Nat → K :=
  allReduceSum nEq locals fun _ => 0

/-- A possible outcome of a call of `computeIntegral` on the given mesh parts. (Integral.hpp 108-122) -/
def Integral (nEq dim : Nat) (parts : List (Groups (El K))) (ids : List Nat) (x : Nat → K) : Prop :=
  ∃ locals, List.Forall₂ (fun m y => LocalIntegral dim m ids y) parts locals ∧ x = computeIntegral nEq locals

/-- `getNormSquareComputer`, NormL2.hpp 21-28: `out[i] *= out[i]` for each of the rows (the code
compiles for one right-hand side only). -/
def squared (nEq : Nat) (e : El K) : El K :=
  { e with qps := e.qps.map fun q =>
      { q with result := fun i => if i < nEq then q.result i * q.result i else q.result i } }

/-- The mesh as seen by the norm's kernel. (NormL2.hpp 21-28) -/
def squaredGroups (nEq : Nat) (m : Groups (El K)) : Groups (El K) :=
  m.map fun g => (g.1, g.2.map (·.map (squared nEq)))

end Verif.Integral
