import Mathlib.Algebra.Order.Floor.Ring
import Mathlib.Data.Rat.Floor
import Mathlib.Algebra.Order.Field.Basic
/-!
# Model of `SpatialHashTable`

Source: `/repo/include/l3ster/util/SpatialHashTable.hpp`, lines 14-90, in exact arithmetic over an
ordered field with floor.  A point is the list of its `dim ≤ 3` coordinates (the key array is
padded with zeros in C++; the model keeps `dim` entries).  The hash map is an association list.
-/
namespace Verif.Spatial

variable {K : Type} [Field K] [LinearOrder K] [IsStrictOrderedRing K] [FloorRing K]

/-- `std::lround`: nearest integer, halves away from zero. (SpatialHashTable.hpp 78) -/
def lround (x : K) : Int := if 0 ≤ x then ⌊x + 1 / 2⌋ else -⌊-x + 1 / 2⌋

/-- `m_map`, `m_origin`, `m_dx`, `m_size` (lines 85-87). -/
structure Table (K τ : Type) where
  cells : List (List Int × List (List K × τ))
  origin : List K
  dx : List K
  size : Nat

/-- Constructors, lines 25-33: spacings are replaced by `max(|d|, minimum_dx)`. -/
def Table.new {τ} (minDx : K) (dx origin : List K) : Table K τ :=
  ⟨[], origin, dx.map fun d => max |d| minDx, 0⟩

/-- `snapToGrid`, lines 75-83. -/
def Table.snap {τ} (t : Table K τ) (p : List K) : List Int :=
  (p.zip (t.origin.zip t.dx)).map fun q => lround ((q.1 - q.2.1) / q.2.2)

/-- `m_map[key].emplace_back(...)`. (SpatialHashTable.hpp 34-40) -/
def pushCell {τ} (m : List (List Int × List (List K × τ))) (k : List Int) (x : List K × τ) :
    List (List Int × List (List K × τ)) :=
  match m with
  | [] => [(k, [x])]
  | (k', l) :: m' => if k' = k then (k', l ++ [x]) :: m' else (k', l) :: pushCell m' k x

/-- `emplace`/`insert`, lines 35-43. -/
def Table.insert {τ} (t : Table K τ) (p : List K) (v : τ) : Table K τ :=
  { t with cells := pushCell t.cells (t.snap p) (p, v), size := t.size + 1 }

/-- A table filled by a sequence of insertions. (PeriodicBC.hpp 167-171) -/
def Table.fill {τ} (t : Table K τ) (xs : List (List K × τ)) : Table K τ :=
  xs.foldl (fun t x => t.insert x.1 x.2) t

/-- `cartesian_product` of `dim` copies of `{-1, 0, 1}` (line 50), last index fastest. -/
def offsetsND : Nat → List (List Int)
  | 0 => [[]]
  | n + 1 => [-1, 0, 1].flatMap fun o => (offsetsND n).map (o :: ·)

/-- `proximate`, lines 45-60: the contents of the neighbouring cells, joined. -/
def Table.proximate {τ} (t : Table K τ) (p : List K) : List (List K × τ) :=
  (offsetsND t.dx.length).flatMap fun ofs =>
    (t.cells.lookup (((t.snap p).zip ofs).map fun q => q.1 + q.2)).getD []

/-- `all`, lines 61-64. -/
def Table.all {τ} (t : Table K τ) : List (List K × τ) := t.cells.flatMap (·.2)

end Verif.Spatial
